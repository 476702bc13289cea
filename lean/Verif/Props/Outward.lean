import Verif.Proofs.Proper
import Verif.Props.DecryptAfter
/-
What the library does to backends and server, for all calls and all answers.
-/
namespace Verif
open SM

namespace Spec

/-- Methods are called only of backends that were found among the loaded ones before. -/
def UsesLoaded (h : List Ev) (e : Ev) : Prop := ∀ ns, backendOf e.1 = some ns → LoadedNs h ns

/-- `d` is the own device id: the one of the manager, or, while it is being created, the one that was loaded from or written to storage. -/
def OwnIs (M : Mgr) : Call → List Ev → DevId → Prop
  | .create .., h, d => (⟨.store .ownDeviceId (.int d), .ok ()⟩ : Ev) ∈ h ∨ ∃ v, (⟨.load .ownDeviceId, .ok (some v)⟩ : Ev) ∈ h ∧ v.asInt = d
  | _, _, d => d = M.ownDev

/-- An uploaded device list is one that was downloaded before, or given (`L`), for the same namespace, with the same labels for all devices but the
own one. -/
def KeepsOthers (own : Jid) (I : List Ev → DevId → Prop) (L : Ns → DevList → Prop) (h : List Ev) (e : Ev) : Prop :=
  ∀ ns l, e.1 = .uploadList ns l →
    ∃ d dl, I h d ∧ ((⟨.downloadList ns own, .ok dl⟩ : Ev) ∈ h ∨ L ns dl) ∧ ∀ d', d' ≠ d → Dict.get l d' = Dict.get dl d'

/-- An uploaded bundle was obtained from a backend for the own device; only the bundle of the own device is deleted. -/
def OwnBundles (own : Jid) (I : List Ev → DevId → Prop) (h : List Ev) (e : Ev) : Prop :=
  (∀ b, e.1 = .uploadBundle b → ∃ ns d, I h d ∧ (⟨.getBundle ns own d, .ok b⟩ : Ev) ∈ h) ∧ ∀ ns d, e.1 = .deleteBundle ns d → I h d

/-- A message is sent in the name of the own device and is an empty one for a single device. -/
def OnlyEmpty (own : Jid) (I : List Ev → DevId → Prop) (h : List Ev) (e : Ev) : Prop :=
  ∀ m j, e.1 = .sendMessage m j → m.bareJid = own ∧ I h m.deviceId ∧ EmptyTo h m j

end Spec
open Spec

namespace Outward
variable {M : Mgr} {G : List Ev → Op → Prop}

/-- All calls, when trust decisions keep to the rule. -/
theorem guarded (c : Call) (L : Ns → DevList → Prop) (hL : ∀ ns dl, c = .updateDeviceList ns M.ownJid dl → L ns dl)
    (hG : ∀ h o, Proper M.ownJid (OwnIs M c) L h o → G h o) (hm : ∀ h h' o, G h o → G (h' ++ h) o)
    (hd : ∀ ds i t r, Exec (M.decide ds i) t r → Guarded (fun h e => G h e.1) t) {t r} (he : Exec (c.run M) t r) :
    Guarded (fun h e => G h e.1) t := by
  refine Kn.exec (R := fun _ _ => True) (Proper.kn_call c (OwnIs M c) L ?_ hL hG fun ds i h _ => ?_) he
  · cases c <;> rfl
  · exact Grd.of_exec fun t r he h1 e h2 ht => hm _ _ _ (hd ds i t r he h1 e h2 ht)

end Outward

/-- C72: for every call, every execution and every answer, methods are called only of backends that this call found to be loaded, if trust
decisions keep to this. -/
theorem C72 (M : Mgr) (c : Call) (hd : ∀ ds i t r, Exec (M.decide ds i) t r → Guarded UsesLoaded t) {t r} (he : Exec (c.run M) t r) :
    Guarded UsesLoaded t := by
  refine Outward.guarded (G := fun h o => ∀ ns, backendOf o = some ns → LoadedNs h ns) c (fun ns dl => c = .updateDeviceList ns M.ownJid dl)
    (fun _ _ h => h) (fun h o ho ns hns => ?_) (fun h h' o ho ns hns => ?_) hd he
  · cases o <;> first
      | (cases hns; done)
      | exact ho ns hns
  · obtain ⟨bs, h1, h2⟩ := ho ns hns
    exact ⟨bs, by simp [h1], h2⟩

/-- C73: for every call and every answer, an uploaded device list differs from a downloaded (or given) one in the entry of the own device only. -/
theorem C73 (M : Mgr) (c : Call) (L : Ns → DevList → Prop) (hL : ∀ ns dl, c = .updateDeviceList ns M.ownJid dl → L ns dl)
    (hd : ∀ ds i t r, Exec (M.decide ds i) t r → Guarded (KeepsOthers M.ownJid (OwnIs M c) L) t) {t r} (he : Exec (c.run M) t r) :
    Guarded (KeepsOthers M.ownJid (OwnIs M c) L) t := by
  refine Outward.guarded (G := fun h o => ∀ ns l, o = .uploadList ns l → ∃ d dl, OwnIs M c h d ∧ ((⟨.downloadList ns M.ownJid, .ok dl⟩ : Ev) ∈ h ∨ L ns dl) ∧
    ∀ d', d' ≠ d → Dict.get l d' = Dict.get dl d') c L hL (fun h o ho ns l hl => ?_) (fun h h' o ho ns l hl => ?_) hd he
  · subst hl
    exact ho
  · obtain ⟨d, dl, h1, h2, h3⟩ := ho ns l hl
    refine ⟨d, dl, ?_, h2.imp (fun h => by simp [h]) id, h3⟩
    cases c <;> first
      | exact h1
      | exact h1.imp (fun h => by simp [h]) fun ⟨v, hv, hd⟩ => ⟨v, by simp [hv], hd⟩

theorem OwnIs.prepend {M : Mgr} {c : Call} {h h' : List Ev} {d : DevId} (h1 : OwnIs M c h d) : OwnIs M c (h' ++ h) d := by
  cases c <;> first
    | exact h1
    | exact h1.imp (fun h => by simp [h]) fun ⟨v, hv, hd⟩ => ⟨v, by simp [hv], hd⟩

/-- C74: for every call and every answer, an uploaded bundle was obtained from a backend for the own device during this call. -/
theorem C74 (M : Mgr) (c : Call) (hd : ∀ ds i t r, Exec (M.decide ds i) t r → Guarded (OwnBundles M.ownJid (OwnIs M c)) t) {t r}
    (he : Exec (c.run M) t r) : Guarded (OwnBundles M.ownJid (OwnIs M c)) t := by
  refine Outward.guarded (G := fun h o => (∀ b, o = .uploadBundle b → ∃ ns d, OwnIs M c h d ∧ (⟨.getBundle ns M.ownJid d, .ok b⟩ : Ev) ∈ h) ∧
    ∀ ns d, o = .deleteBundle ns d → OwnIs M c h d) c (fun ns dl => c = .updateDeviceList ns M.ownJid dl) (fun _ _ h => h)
    (fun h o ho => ⟨fun b hb => ?_, fun ns d hd => ?_⟩) (fun h h' o ho => ⟨fun b hb => ?_, fun ns d hd => ?_⟩) hd he
  · subst hb
    exact ho
  · subst hd
    exact ho
  · obtain ⟨ns, d, h1, h2⟩ := ho.1 b hb
    exact ⟨ns, d, OwnIs.prepend h1, by simp [h2]⟩
  · exact OwnIs.prepend (ho.2 ns d hd)

theorem EmptyTo.prepend {h h' : List Ev} {m : Message} {j : Jid} (he : EmptyTo h m j) : EmptyTo (h' ++ h) m j := by
  obtain ⟨km, k, x, s, h1, h2, h3⟩ := he
  refine ⟨km, k, x, s, by simp [h1], h2, h3.imp ?_ ?_⟩
  · rintro ⟨s0, h4, h5⟩
    exact ⟨s0, by simp [h4], h5⟩
  · rintro ⟨d, b, h4⟩
    exact ⟨d, b, by simp [h4]⟩

/-- C75: for every call and every answer, the messages sent by the library are empty ones, in the name of the own device, for one device each, and go
to the JID of this device. -/
theorem C75 (M : Mgr) (c : Call) (hd : ∀ ds i t r, Exec (M.decide ds i) t r → Guarded (OnlyEmpty M.ownJid (OwnIs M c)) t) {t r}
    (he : Exec (c.run M) t r) : Guarded (OnlyEmpty M.ownJid (OwnIs M c)) t := by
  refine Outward.guarded (G := fun h o => ∀ m j, o = .sendMessage m j → m.bareJid = M.ownJid ∧ OwnIs M c h m.deviceId ∧ EmptyTo h m j) c
    (fun ns dl => c = .updateDeviceList ns M.ownJid dl) (fun _ _ h => h) (fun h o ho m j hm => ?_) (fun h h' o ho m j hm => ?_) hd he
  · subst hm
    exact ⟨ho.2.1, ho.1, ho.2.2⟩
  · obtain ⟨h1, h2, h3⟩ := ho m j hm
    exact ⟨h1, OwnIs.prepend h2, EmptyTo.prepend h3⟩

/-! ### Runs in which these interactions occur -/

def outwardDecrypt := runProg (Lib.env friendly) Lib.next 200 ((Call.decrypt kexMessage).run Mgr.ex) World.chat

theorem C72_example : Exec ((Call.decrypt kexMessage).run Mgr.ex) outwardDecrypt.1 (.ok ()) ∧ (∃ e ∈ outwardDecrypt.1, backendOf e.1 = some "n") ∧
    Guarded UsesLoaded outwardDecrypt.1 := by
  have he : Exec ((Call.decrypt kexMessage).run Mgr.ex) outwardDecrypt.1 (.ok ()) := runProg_exec (Lib.env friendly) Lib.next 200 _ World.chat
  refine ⟨he, ?_, C72 _ _ (fun ds i t r h => ?_) he⟩
  · have : outwardDecrypt.1.any (fun e => decide (backendOf e.1 = some "n")) = true := by decide +kernel
    obtain ⟨e, h1, h2⟩ := List.any_eq_true.1 this
    exact ⟨e, h1, by simpa using h2⟩
  · cases h
    exact fun h1 e h2 hh => by simp at hh

/-- The server has lists with another device, without a label for the own one. -/
def twoDevices : World → (o : Op) → Except Exn o.Ret
  | _, .downloadList _ _ => .ok [(1, none), (2, some "phone")]
  | _, .uploadList _ _ => .ok ()
  | w, o => friendly w o

def outwardLabel := runProg (Lib.env twoDevices) Lib.next 200 ((Call.setOwnLabel (some "desk")).run Mgr.ex) World.chat

theorem C73_example : Exec ((Call.setOwnLabel (some "desk")).run Mgr.ex) outwardLabel.1 (.ok ()) ∧
    (∃ e ∈ outwardLabel.1, e.1 = .uploadList "n" [(1, some "desk"), (2, some "phone")]) ∧
    Guarded (KeepsOthers "me" (OwnIs Mgr.ex (.setOwnLabel (some "desk"))) fun _ _ => False) outwardLabel.1 := by
  have he : Exec ((Call.setOwnLabel (some "desk")).run Mgr.ex) outwardLabel.1 (.ok ()) := runProg_exec (Lib.env twoDevices) Lib.next 200 _ World.chat
  refine ⟨he, ?_, C73 _ _ _ nofun (fun ds i t r h => ?_) he⟩
  · have h : outwardLabel.1.any (fun e => match e.1 with | .uploadList "n" l => decide (l = [(1, some "desk"), (2, some "phone")]) | _ => false) = true := by
      decide +kernel
    obtain ⟨e, h1, h2⟩ := List.any_eq_true.1 h
    refine ⟨e, h1, ?_⟩
    split at h2
    · rename_i h3
      rw [h3, of_decide_eq_true h2]
    · cases h2
  · cases h
    exact fun h1 e h2 hh => by simp at hh

theorem C74_example : (∃ e ∈ outwardDecrypt.1, ∃ b, e.1 = .uploadBundle b) ∧ Guarded (OwnBundles "me" fun _ d => d = 1) outwardDecrypt.1 := by
  refine ⟨?_, C74 Mgr.ex (.decrypt kexMessage) (fun ds i t r h => ?_) C72_example.1⟩
  · have h : outwardDecrypt.1.any (fun e => match e.1 with | .uploadBundle _ => true | _ => false) = true := by decide +kernel
    obtain ⟨e, h1, h2⟩ := List.any_eq_true.1 h
    refine ⟨e, h1, ?_⟩
    split at h2
    · exact ⟨_, by assumption⟩
    · cases h2
  · cases h
    exact fun h1 e h2 hh => by simp at hh

theorem C75_example : (∃ e ∈ outwardDecrypt.1, ∃ m, e.1 = .sendMessage m "a") ∧ Guarded (OnlyEmpty "me" fun _ d => d = 1) outwardDecrypt.1 := by
  refine ⟨?_, C75 Mgr.ex (.decrypt kexMessage) (fun ds i t r h => ?_) C72_example.1⟩
  · have h : outwardDecrypt.1.any (fun e => match e.1 with | .sendMessage _ "a" => true | _ => false) = true := by decide +kernel
    obtain ⟨e, h1, h2⟩ := List.any_eq_true.1 h
    refine ⟨e, h1, ?_⟩
    split at h2
    · exact ⟨_, by assumption⟩
    · cases h2
  · cases h
    exact fun h1 e h2 hh => by simp at hh

end Verif
