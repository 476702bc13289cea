import Verif.Proofs.CallOps
import Verif.Proofs.ExecLib
import Verif.Props.KeyExchange
import Verif.Props.Sync
/-
C109: plaintexts pass between the application and the backends only.
-/
namespace Verif
open SM
namespace Spec

/-- Two traces of the same length whose interactions correspond. -/
inductive Along (E : Ev → Ev → Prop) : List Ev → List Ev → Prop
  | nil : Along E [] []
  | cons {e e' : Ev} {t t' : List Ev} : E e e' → Along E t t' → Along E (e :: t) (e' :: t')

/-- The same interaction, except that a backend is given the other plaintext to encrypt. -/
inductive GivenOther (pt pt' : Dict Ns Bytes) : Ev → Ev → Prop
  | same (e : Ev) : GivenOther pt pt' e e
  | other {ns : Ns} {x y : Bytes} (r) : pt.get ns = some x → pt'.get ns = some y →
      GivenOther pt pt' ⟨.encryptPlaintext ns x, r⟩ ⟨.encryptPlaintext ns y, r⟩

/-- The same interaction, except that a backend gives the plaintext `y`. -/
inductive ReadsOther (y : Bytes) : Ev → Ev → Prop
  | same (e : Ev) : (∀ ns c km x, e ≠ ⟨.decryptPlaintext ns c km, .ok x⟩) → ReadsOther y e e
  | other (ns : Ns) (c : Content) (km : PlainKM) (x : Bytes) : ReadsOther y ⟨.decryptPlaintext ns c km, .ok x⟩ ⟨.decryptPlaintext ns c km, .ok y⟩

/-- The result of `decrypt` with another plaintext; an empty message still has none. -/
def withPlaintext (y : Bytes) : Res Exn (Option Bytes × DeviceInfo × PlainKM) → Res Exn (Option Bytes × DeviceInfo × PlainKM)
  | .ok (p, dev, km) => .ok (p.map fun _ => y, dev, km)
  | .raised e => .raised e
  | .crashed => .crashed

/-- Handling of plaintexts. -/
def Op.seesPlaintext : Op → Bool
  | .encryptPlaintext .. | .decryptPlaintext .. => true
  | _ => false

end Spec
open Spec

namespace Secrecy

/-- The second program does the same as the first one, up to `E`, with results in `Q`. -/
inductive Sim {α β : Type} (E : Ev → Ev → Prop) (Q : α → β → Prop) : P α → P β → Prop
  | ret {a : α} {b : β} : Q a b → Sim E Q (.ret a) (.ret b)
  | raise (e : Exn) : Sim E Q (.raise e) (.raise e)
  | op {o o' : Op} {k : Except Exn o.Ret → P α} {k' : Except Exn o'.Ret → P β} (f : Except Exn o.Ret → Except Exn o'.Ret) :
      (∀ r, E ⟨o, r⟩ ⟨o', f r⟩) → (∀ r, Sim E Q (k r) (k' (f r))) → Sim E Q (.op o k) (.op o' k')

variable {α β γ δ : Type} {E : Ev → Ev → Prop}

/-- How results correspond. -/
def Ends (Q : α → β → Prop) : Res Exn α → Res Exn β → Prop
  | .ok a, .ok b => Q a b
  | .raised e, .raised e' => e = e'
  | .crashed, .crashed => True
  | _, _ => False

theorem Sim.sound {Q : α → β → Prop} {p : P α} {p' : P β} (h : Sim E Q p p') {t r} (he : Exec p t r) : ∃ t' r', Exec p' t' r' ∧ Along E t t' ∧ Ends Q r r' := by
  induction h generalizing t with
  | ret h => cases he; exact ⟨[], _, .ret _, .nil, h⟩
  | raise e => cases he; exact ⟨[], _, .raise e, .nil, rfl⟩
  | op f h1 h2 ih =>
    cases he with
    | crash => exact ⟨[], .crashed, .crash _ _, .nil, trivial⟩
    | op a he =>
      obtain ⟨t', r', h3, h4, h5⟩ := ih a he
      exact ⟨_, r', .op (f a) h3, .cons (h1 a) h4, h5⟩

theorem Sim.refl (hE : ∀ e, E e e) (p : P α) : Sim E Eq p p := by
  induction p with
  | ret a => exact .ret rfl
  | raise e => exact .raise e
  | op o k ih => exact .op id (fun _ => hE _) ih

theorem Sim.bind' {Q : α → β → Prop} {R : γ → δ → Prop} {p : P α} {p' : P β} {f : α → P γ} {f' : β → P δ} (h : Sim E Q p p')
    (hf : ∀ a b, Q a b → Sim E R (f a) (f' b)) : Sim E R (p.bind f) (p'.bind f') := by
  induction h with
  | ret h => exact hf _ _ h
  | raise e => exact .raise e
  | op f h1 h2 ih => exact .op f h1 ih

theorem Sim.bind {Q : α → β → Prop} {R : γ → δ → Prop} {p : P α} {p' : P β} {f : α → P γ} {f' : β → P δ} (h : Sim E Q p p')
    (hf : ∀ a b, Q a b → Sim E R (f a) (f' b)) : Sim E R (p >>= f) (p' >>= f') := Sim.bind' h hf

/-- The same beginning. -/
theorem Sim.after {R : γ → δ → Prop} (hE : ∀ e, E e e) {p : P α} {f : α → P γ} {f' : α → P δ} (hf : ∀ a, Sim E R (f a) (f' a)) :
    Sim E R (p >>= f) (p >>= f') := (Sim.refl hE p).bind fun a _ h => h ▸ hf a

/-- A program simulates itself if its interactions correspond to themselves. -/
theorem Sim.refl_on {φ : Op → Prop} (hE : ∀ e : Ev, φ e.1 → E e e) {p : P α} (hp : AllOps (S := LibSig) φ p) : Sim E Eq p p := by
  induction p with
  | ret a => exact .ret rfl
  | raise e => exact .raise e
  | op o k ih => exact .op id (fun _ => hE _ hp.1) fun r => ih r (hp.2 r)

theorem Sim.after_on {R : γ → δ → Prop} {φ : Op → Prop} (hE : ∀ e : Ev, φ e.1 → E e e) {p : P α} (hp : AllOps (S := LibSig) φ p) {f : α → P γ} {f' : α → P δ}
    (hf : ∀ a, Sim E R (f a) (f' a)) : Sim E R (p >>= f) (p >>= f') := (Sim.refl_on hE hp).bind fun a _ h => h ▸ hf a

theorem Sim.fold {xs : List γ} {b : α} {f f' : α → γ → P α} (h : ∀ a x, Sim E Eq (f a x) (f' a x)) : Sim E Eq (Prog.fold xs b f) (Prog.fold xs b f') := by
  induction xs generalizing b with
  | nil => exact .ret rfl
  | cons x xs ih => exact (h b x).bind' fun a b h => h ▸ ih

variable {M : Mgr} {pt pt' : Dict Ns Bytes}

theorem sim_encryptBackend (hpt : ∀ ns, (pt.get ns).isSome = (pt'.get ns).isSome) (cache : List Bundle) (st : EncAll) (ns : Ns) :
    Sim (GivenOther pt pt') Eq (encryptBackend M cache pt st ns) (encryptBackend M cache pt' st ns) := by
  have hE : ∀ e, GivenOther pt pt' e e := .same
  unfold encryptBackend
  dsimp only
  split
  · exact Sim.refl hE _
  · have h := hpt ns
    cases h1 : pt.get ns with
    | none =>
      cases h2 : pt'.get ns with
      | none => exact Sim.refl hE _
      | some y => rw [h1, h2] at h; cases h
    | some x =>
      cases h2 : pt'.get ns with
      | none => rw [h1, h2] at h; cases h
      | some y =>
        refine Sim.bind (Q := Eq) (p := call (.encryptPlaintext ns x)) (p' := call (.encryptPlaintext ns y)) (.op id (fun r => .other r h1 h2) fun r => ?_)
          fun a b h => h ▸ Sim.refl hE _
        cases r with
        | ok a => exact .ret rfl
        | error e => exact .raise e

theorem sim_encrypt (hpt : ∀ ns, (pt.get ns).isSome = (pt'.get ns).isSome) (jids : List Jid) (prio : Option (List Ns)) (i : Option String) :
    Sim (GivenOther pt pt') Eq (encrypt M jids pt prio i) (encrypt M jids pt' prio i) := by
  have hE : ∀ e, GivenOther pt pt' e e := .same
  unfold encrypt
  refine Sim.after hE fun available => Sim.after hE fun order => Sim.after hE fun x => Sim.after hE fun devices => ?_
  unfold encryptTrusted
  refine Sim.after hE fun devices => Sim.after hE fun bs => ?_
  exact Sim.bind (Sim.fold fun st ns => sim_encryptBackend hpt _ st ns) fun a b h => h ▸ Sim.refl hE _

theorem sim_decrypt (y : Bytes) (msg : Message) :
    Sim (ReadsOther y) (fun a b => b = (a.1.map (fun _ => y), a.2)) (decrypt M msg) (decrypt M msg) := by
  have hE : ∀ e : Ev, Op.seesPlaintext e.1 = false → ReadsOther y e e := fun e he => .same e fun ns c km x h => by subst h; cases he
  have g1 : AllOps (S := LibSig) (fun o => Op.seesPlaintext o = false) (getDeviceInformation M msg.bareJid) :=
    (SM.ops_getDeviceInformation M _).mono fun _ h => by cases h <;> rfl
  have g2 : AllOps (S := LibSig) (fun o => Op.seesPlaintext o = false) (refreshDeviceList M msg.ns msg.bareJid) :=
    (SM.ops_refreshDeviceList M _ _).mono fun _ h => by cases h <;> first | rfl | (cases ‹Foot.Update _ _ _ _› <;> rfl)
  have g3 : ∀ s, AllOps (S := LibSig) (fun o => Op.seesPlaintext o = false) (sendEmptyMessage M msg.ns s) := fun s =>
    (SM.ops_sendEmptyMessage M msg.ns s).mono fun _ h => by cases h <;> rfl
  have after : ∀ {α γ δ : Type} {R : γ → δ → Prop} {p : P α} {f : α → P γ} {f' : α → P δ}, AllOps (S := LibSig) (fun o => Op.seesPlaintext o = false) p →
      (∀ a, Sim (ReadsOther y) R (f a) (f' a)) → Sim (ReadsOther y) R (p >>= f) (p >>= f') := fun hp hf => Sim.after_on hE hp hf
  unfold decrypt
  refine after (.perform rfl) fun bs => ?_
  split
  · exact .raise _
  · split
    · exact .raise _
    · refine after (by unfold findSender; lib_ops [g1, g2]) fun dev => ?_
      refine Sim.bind (Q := fun a b => b = (a.1.map (fun _ => y), a.2)) ?_ fun a b h => ?_
      · unfold decryptContent
        refine after (.perform rfl) fun level => ?_
        split
        · exact .raise _
        · refine after (by unfold keyMaterial decryptKeyMaterial handleKeyExchange; lib_ops []) fun x => ?_
          refine Sim.bind (Q := fun a b => b = a.map fun _ => y) ?_ fun a b h => .ret (by rw [h])
          unfold plaintextOf
          split
          · exact .ret rfl
          · refine Sim.bind (Q := fun _ b => b = y) (p := call _) (.op (fun r => r.map fun _ => y) (fun r => ?_) fun r => ?_) fun a b h => .ret (by rw [h]; rfl)
            · cases r with
              | ok x => exact .other ..
              | error e => exact .same _ fun _ _ _ _ h => by cases h
            · cases r with
              | ok x => exact .ret rfl
              | error e => exact .raise e
      · subst h
        exact after (by unfold postDecrypt consumePreKey discardPreKey refillPreKeys autoReply queueEmpty; lib_ops [g3]) fun _ => .ret rfl

end Secrecy

open Secrecy in
/-- C109, encrypting: with other plaintexts for the same namespaces, and the same answers, the same things happen, except that the backends are given
the other plaintexts; the outcome is the same. -/
theorem C109_encrypt (M : Mgr) (jids : List Jid) (pt pt' : Dict Ns Bytes) (prio : Option (List Ns)) (i : Option String)
    (hpt : ∀ ns, (pt.get ns).isSome = (pt'.get ns).isSome) {t r} (he : Exec (encrypt M jids pt prio i) t r) :
    ∃ t', Exec (encrypt M jids pt' prio i) t' r ∧ Along (GivenOther pt pt') t t' := by
  obtain ⟨t', r', h1, h2, h3⟩ := (sim_encrypt hpt jids prio i).sound he
  cases r <;> cases r' <;> first | (cases h3; done) | (cases h3; exact ⟨t', h1, h2⟩) | exact ⟨t', h1, h2⟩

open Secrecy in
/-- C109, decrypting: if a backend gives another plaintext, the same things happen, and only the plaintext returned is different. -/
theorem C109_decrypt (M : Mgr) (msg : Message) (y : Bytes) {t r} (he : Exec (decrypt M msg) t r) :
    ∃ t', Exec (decrypt M msg) t' (withPlaintext y r) ∧ Along (ReadsOther y) t t' := by
  obtain ⟨t', r', h1, h2, h3⟩ := (sim_decrypt y msg).sound he
  cases r <;> cases r' <;> first | (cases h3; done) | (cases h3; exact ⟨t', h1, h2⟩) | exact ⟨t', h1, h2⟩

/-- C109, other calls: they have nothing to do with plaintexts. -/
theorem C109_others (M : Mgr) (c : Call) (h1 : ∀ jids pt prio i, c ≠ .encrypt jids pt prio i) (h2 : ∀ msg, c ≠ .decrypt msg) {t r}
    (he : Exec (c.run M) t r) : ∀ e ∈ t, Op.seesPlaintext e.1 = false := by
  have info : ∀ {j o}, Foot.Info j o → Op.seesPlaintext o = false := fun h => by cases h <;> rfl
  have upd : ∀ {M ns j o}, Foot.Update M ns j o → Op.seesPlaintext o = false := fun h => by cases h <;> rfl
  have refr : ∀ {M ns j o}, Foot.Refresh M ns j o → Op.seesPlaintext o = false := fun h => by cases h <;> first | rfl | exact upd ‹_›
  have pb : ∀ {M ns o}, Foot.PurgeBackend M ns o → Op.seesPlaintext o = false := fun h => by cases h <;> first | rfl | exact info ‹_›
  refine (Call.allOps M c (φ := fun o => Op.seesPlaintext o = false) h1 (fun o h => by cases h <;> rfl) fun o h => ?_).exec he
  cases c with
  | encrypt => exact absurd rfl (h1 _ _ _ _)
  | decrypt => exact absurd rfl (h2 _)
  | getIdentityKeyPair => exact h.elim
  | create => cases h <;> first | rfl | exact info ‹_› | exact refr ‹_› | exact pb ‹_›
  | purgeBackend => exact pb h
  | ensureDataConsistency =>
    rcases h with rfl | h
    · rfl
    · cases h <;> first | rfl | exact refr ‹_›
  | updateDeviceList => exact upd h
  | refreshDeviceList => exact refr h
  | refreshDeviceLists =>
    rcases h with rfl | ⟨ns, h⟩
    · rfl
    · exact refr h
  | getSendingChainLength => rcases h with rfl | ⟨ns, j, d, rfl⟩ <;> rfl
  | getDeviceInformation => exact info h
  | getOwnDeviceInformation => exact info h
  | replaceSessions => cases h <;> first | rfl | exact info ‹_›
  | afterHistorySync => cases h <;> first | rfl | (cases ‹Foot.SendEmpty _ _› <;> rfl)
  | _ => cases h <;> rfl

/-- The hypotheses of C109 are met where plaintexts are encrypted and decrypted. -/
theorem C109_example : (∃ (t t' : List Ev) (x : _), Exec (encrypt Mgr.ex ["a"] [("n", [1]), ("o", [1, 2])] none none) t (.ok x) ∧
      Exec (encrypt Mgr.ex ["a"] [("n", [7]), ("o", [])] none none) t' (.ok x) ∧
      Along (GivenOther [("n", [1]), ("o", [1, 2])] [("n", [7]), ("o", [])]) t t' ∧ t.any (fun e => Op.seesPlaintext e.1) = true) ∧
    ∃ (t t' : List Ev) (dev : DeviceInfo) (km : PlainKM), Exec (decrypt Mgr.ex (firstMessage "n" 8)) t (.ok (some [5, 3], dev, km)) ∧
      Exec (decrypt Mgr.ex (firstMessage "n" 8)) t' (.ok (some [1, 1, 1], dev, km)) ∧ Along (ReadsOther [1, 1, 1]) t t' := by
  constructor
  · obtain ⟨t', h1, h2⟩ := C109_encrypt Mgr.ex ["a"] [("n", [1]), ("o", [1, 2])] [("n", [7]), ("o", [])] none none
      (fun ns => by
        simp only [Dict.get]
        split
        · rfl
        · split <;> rfl) chat_exec
    exact ⟨_, t', _, chat_exec, h1, h2, by decide +kernel⟩
  · have hr : (Friendly.chatty.run (decrypt Mgr.ex (firstMessage "n" 8)) World.inbox2).2.1 =
        .ok (some [5, 3], ⟨["n", "o"], [("n", true), ("o", true)], "a", 8, [8], "undecided", none⟩, ⟨3⟩) := by decide +kernel
    have he := hr ▸ Friendly.chatty.exec (decrypt Mgr.ex (firstMessage "n" 8)) World.inbox2
    obtain ⟨t', h1, h2⟩ := C109_decrypt Mgr.ex (firstMessage "n" 8) [1, 1, 1] he
    exact ⟨_, t', _, _, he, h1, h2⟩

end Verif
