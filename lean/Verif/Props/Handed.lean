import Verif.Proofs.Belongs
import Verif.Props.Outward
import Verif.Model.Reference
/-
Sessions, key material, bundles and message parts are handed only to the backend, and in the place, they belong to.
-/
namespace Verif
open Spec SM

namespace Handed
variable {M : Mgr} {In : Message → Prop}

theorem decisions (hd : ∀ ds i t r, Exec (M.decide ds i) t r → Guarded (Belongs M.ownJid M.ownDev In) t) (ds i h) :
    Grd (Belongs.Rule M.ownJid M.ownDev In) (fun _ _ => True) (M.decide ds i) h :=
  Grd.of_exec fun t r he h1 e h2 ht => Belongs.belongs_mono (e := ⟨e.1, .error .runtimeError⟩) (fun _ hx => List.mem_append_right _ hx) (hd ds i t r he h1 e h2 ht)

theorem of_plain {α : Type} {own : Jid} {dev : DevId} {p : P α} (hp : AllOps (fun o => Belongs.plain o = true) p) {t r} (he : Exec p t r) :
    Guarded (Belongs own dev In) t :=
  Kn.exec (Belongs.quiet (K := fun _ => True) hp) he

theorem plain_trust (jid : Jid) (ik : Bytes) (level : String) : AllOps (fun o => Belongs.plain o = true) (setTrust jid ik level) := by
  unfold setTrust
  lib_ops []

end Handed

/-- C100: for every call, every execution and every answer: sessions, key material, bundles, key exchanges and contents are handed to the backend they
came from, and only in the role in which they came; a message is sent only if its parts belong together.  Trust decisions are assumed to keep to this. -/
theorem C100 (M : Mgr) (c : Call) (hd : ∀ ds i t r, Exec (M.decide ds i) t r → Guarded (Belongs M.ownJid M.ownDev fun m => c = .decrypt m) t) {t r}
    (he : Exec (c.run M) t r) : Guarded (Belongs M.ownJid M.ownDev fun m => c = .decrypt m) t :=
  Kn.exec (Belongs.kn_call (K := fun _ => True) c (fun _ h => h) (Handed.decisions hd)) he

/-- The messages returned by `encrypt` are composed likewise, and each is returned with the key material its content belongs to. -/
theorem C100_messages (M : Mgr) (jids : List Jid) (pt : Dict Ns Bytes) (prio : Option (List Ns)) (i : Option String)
    (hd : ∀ ds i t r, Exec (M.decide ds i) t r → Guarded (Belongs M.ownJid M.ownDev fun _ => False) t) {t ms es}
    (he : Exec (encrypt M jids pt prio i) t (.ok (ms, es))) {m : Message} {km : PlainKM} (hm : (m, km) ∈ ms) : Composed t m ∧ Fresh t m.ns m.content km := by
  have h := Grd.exec (Belongs.kn_encrypt (K := fun _ => True) jids pt prio i (Handed.decisions hd) [] trivial) he
  simpa using h.2 _ rfl _ hm

/-- The session manager that comes with the tests keeps to it without any assumption. -/
theorem C100_reference (M : Mgr) (c : Call) {t r} (he : Exec (c.run (Ref.mgr M)) t r) :
    Guarded (Belongs M.ownJid M.ownDev fun m => c = .decrypt m) t :=
  C100 (Ref.mgr M) c (fun _ _ _ _ h => Handed.of_plain (by unfold Ref.mgr Ref.makeTrustDecision; lib_ops []; exact Handed.plain_trust ..) h) he

/-- So does one with blind trust before verification, if the methods left to the application do. -/
theorem C100_btbv (M : Mgr) (A : BTBV.App) (c : Call)
    (hn : ∀ ds i t r, Exec (A.notify ds i) t r → Guarded (Belongs M.ownJid M.ownDev fun m => c = .decrypt m) t)
    (hp : ∀ ds i t r, Exec (A.prompt ds i) t r → Guarded (Belongs M.ownJid M.ownDev fun m => c = .decrypt m) t) {t r}
    (he : Exec (c.run (BTBV.mgr M A)) t r) : Guarded (Belongs M.ownJid M.ownDev fun m => c = .decrypt m) t := by
  refine C100 (BTBV.mgr M A) c (fun ds i t r h => ?_) he
  refine Kn.exec (G := Belongs.Rule M.ownJid M.ownDev fun m => c = .decrypt m) (R := fun _ _ => True) (?_ : Kn _ (fun _ => True) _ _) h
  have hn' : ∀ ds i {K}, Kn (Belongs.Rule M.ownJid M.ownDev fun m => c = .decrypt m) K (A.notify ds i) (fun _ _ => True) := fun ds i _ h _ =>
    Handed.decisions (M := { M with decide := A.notify }) hn ds i h
  have hp' : ∀ ds i {K}, Kn (Belongs.Rule M.ownJid M.ownDev fun m => c = .decrypt m) K (A.prompt ds i) (fun _ _ => True) := fun ds i _ h _ =>
    Handed.decisions (M := { M with decide := A.prompt }) hp ds i h
  show Kn _ _ (BTBV.makeTrustDecision M A ds i) _
  unfold BTBV.makeTrustDecision
  refine Kn.seq (R := fun _ _ => True) ?_ fun x => ?_
  · unfold BTBV.sortJids
    refine Kn.fold (fun _ _ => trivial) fun s j _ => ?_
    obtain ⟨blind, manual⟩ := s
    exact Kn.seq (Belongs.kn_info j) fun devs => Kn.seq (Belongs.quiet (allOps_liftE _)) fun b => Kn.pure fun _ _ => trivial
  · obtain ⟨blind, manual⟩ := x
    dsimp only
    refine Kn.seq (R := fun _ _ => True) ?_ fun _ => Kn.when' fun _ => hp' _ _
    unfold BTBV.trustBlindly
    exact Kn.when' fun _ => Kn.seq (R := fun _ _ => True) (Belongs.quiet (by lib_ops []; exact Handed.plain_trust ..)) fun _ => hn' _ _

/-! ### Runs in which such objects are handed over -/

theorem Handed.silent {In : Message → Prop} (ds i t r) (h : Exec (Mgr.ex.decide ds i) t r) : Guarded (Belongs Mgr.ex.ownJid Mgr.ex.ownDev In) t := by
  cases h
  exact fun h1 e h2 hh => by simp at hh

/-- A first message is received and answered: a session is built and stored, its pre key hidden, key material recovered and used for the content, and
an empty message is sent. -/
theorem C100_example : Guarded (Belongs "me" 1 fun m => Call.decrypt kexMessage = .decrypt m) outwardDecrypt.1 ∧
    (outwardDecrypt.1.any (fun e => match e.1 with | .buildPassive .. => true | _ => false) &&
      outwardDecrypt.1.any (fun e => match e.1 with | .decryptPlaintext .. => true | _ => false) &&
      outwardDecrypt.1.any (fun e => match e.1 with | .storeSession .. => true | _ => false) &&
      outwardDecrypt.1.any (fun e => match e.1 with | .encryptKM .. => true | _ => false) &&
      outwardDecrypt.1.any (fun e => match e.1 with | .deletePreKey .. => true | _ => false) &&
      outwardDecrypt.1.any (fun e => match e.1 with | .sendMessage .. => true | _ => false)) = true :=
  ⟨C100 Mgr.ex (.decrypt kexMessage) Handed.silent C72_example.1, by decide +kernel⟩

/-- One message of each of two backends, one of them with a key exchange. -/
theorem C100_messages_example : Composed chatRun.1 ⟨"n", "me", 1, ⟨false, 1⟩, [(⟨"a", 7, 1⟩, none)]⟩ ∧
    Composed chatRun.1 ⟨"o", "me", 1, ⟨false, 2⟩, [(⟨"a", 8, 2⟩, some ⟨[8], 0⟩)]⟩ :=
  ⟨(C100_messages Mgr.ex _ _ _ _ Handed.silent chat_exec (.head _)).1, (C100_messages Mgr.ex _ _ _ _ Handed.silent chat_exec (.tail _ (.head _))).1⟩

/-- What is excluded: the same content with the namespace of the other backend, and a session handed to a backend that did not make it. -/
theorem C100_excluded : ¬ Composed chatRun.1 ⟨"o", "me", 1, ⟨false, 1⟩, [(⟨"a", 7, 1⟩, none)]⟩ ∧
    ∀ s, ¬ Belongs "me" 1 (fun _ => False) chatRun.1 ⟨.storeSession "x" s, .ok ()⟩ := by
  constructor
  · rintro ⟨km, h | h, -⟩
    · obtain ⟨p, h⟩ := h
      have hc : chatRun.1.all (fun e => match e with | ⟨.encryptPlaintext "o" _, .ok (c, _)⟩ => decide (c ≠ ⟨false, 1⟩) | _ => true) = true := by
        decide +kernel
      have := List.all_eq_true.1 hc _ h
      exact absurd rfl (of_decide_eq_true this)
    · have hc : chatRun.1.all (fun e => match e.1 with | .encryptEmpty _ => false | _ => true) = true := by decide +kernel
      exact absurd (List.all_eq_true.1 hc _ h) (by simp)
  · rintro s ⟨j, d, h⟩
    have hc : chatRun.1.all (fun e => decide (backendOf e.1 ≠ some "x")) = true := by decide +kernel
    have hx : ∀ e ∈ chatRun.1, backendOf e.1 ≠ some "x" := fun e he => of_decide_eq_true (List.all_eq_true.1 hc e he)
    cases h with
    | load h => exact hx _ h rfl
    | active h => exact hx _ h rfl
    | passive h => exact hx _ h rfl
    | encrypt _ h => exact hx _ h rfl
    | decrypt _ h => exact hx _ h rfl

end Verif
