import Verif.Props.Reference
import Verif.Wrong.More
/-
Wrong programs in place of the implementation that comes with the tests of the library, and of calls made with it, and the claims that reject
them (C94, C95, C97).  See Wrong/Encrypt.lean for the method.
-/
namespace Verif
namespace Wrong
open SM Spec

/-! ### C94: the decision -/

/-- C94, the decision, for a program. -/
def C94 (make : SetOrder → List DeviceInfo → Option String → P Unit) : Prop :=
  ∀ (M : Mgr) (ds : List DeviceInfo) (i : Option String) (t : List Ev) (w w' : World), Exec (make M.O ds i) t (.ok ()) → Lib.Runs w t w' →
    ∀ k : Key, (∀ dev ∈ ds, k = .trust dev.bareJid dev.identityKey → w'.disk k = some (.str "TRUSTED")) ∧
      ((∀ dev ∈ ds, k ≠ .trust dev.bareJid dev.identityKey) → w'.disk k = w.disk k)

theorem C94_real : C94 Ref.makeTrustDecision := by
  intro M ds i t w w' he hr k
  have h := C94_decision M ds i t w w' he hr k
  refine ⟨fun dev hd hk => ?_, fun hk => ?_⟩
  · rw [h, if_pos ⟨dev, hd, hk⟩]
  · rw [h, if_neg (fun ⟨dev, hd, h⟩ => hk dev hd h)]

def stranger (j : Jid) (d : DevId) (ik : Bytes) : DeviceInfo := ⟨["n"], [("n", true)], j, d, ik, "UNDECIDED", none⟩

def unmet : List DeviceInfo := [stranger "a" 7 [7], stranger "b" 9 [9]]

theorem C94_not {make : SetOrder → List DeviceInfo → Option String → P Unit} (dev : DeviceInfo) (hd : dev ∈ unmet)
    (h1 : (trial polite (make Mgr.ex.O unmet none) World.two).2.1 = .ok ())
    (h2 : (match (trial polite (make Mgr.ex.O unmet none) World.two).2.2.disk (.trust dev.bareJid dev.identityKey) with
      | some (.str s) => decide (s = "TRUSTED") | _ => false) = false) : ¬ C94 make := by
  intro hc
  have he := trial_exec polite (make Mgr.ex.O unmet none) World.two
  rw [h1] at he
  rw [(hc Mgr.ex unmet none _ _ _ he (trial_runs polite_ok _ _) _).1 dev hd rfl] at h2
  cases h2

/-- Only the first device is decided about (si:146: the loop left too early). -/
def headlong (O : SetOrder) (ds : List DeviceInfo) (_ : Option String) : P Unit :=
  Prog.forEach ((O.iter ds).take 1) fun dev => SM.setTrust dev.bareJid dev.identityKey "TRUSTED"

/-- The name of another level (si:147). -/
def contrary (O : SetOrder) (ds : List DeviceInfo) (_ : Option String) : P Unit :=
  Prog.forEach (O.iter ds) fun dev => SM.setTrust dev.bareJid dev.identityKey "DISTRUSTED"

/-- All keys are set under the JID of the first device (si:147: the wrong variable). -/
def conflating (O : SetOrder) (ds : List DeviceInfo) (_ : Option String) : P Unit :=
  Prog.forEach (O.iter ds) fun dev => SM.setTrust (((O.iter ds).head?.map (·.bareJid)).getD "") dev.identityKey "TRUSTED"

theorem C94_headlong : ¬ C94 headlong := C94_not (stranger "b" 9 [9]) (by decide) (by decide +kernel) (by decide +kernel)
theorem C94_contrary : ¬ C94 contrary := C94_not (stranger "a" 7 [7]) (by decide) (by decide +kernel) (by decide +kernel)
theorem C94_conflating : ¬ C94 conflating := C94_not (stranger "b" 9 [9]) (by decide) (by decide +kernel) (by decide +kernel)

/-! ### C95: other devices and accounts on the servers -/

/-- C95 for a program in place of a call. -/
def C95 (run : Mgr → Call → P Unit) : Prop :=
  ∀ (M : Mgr) (c : Call) (t : List Ev) (r : Res Exn Unit) (s s' : Ref.Cloud), Exec (run (Ref.mgr M) c) t r → (Ref.Hosted M.ownJid).Runs s t s' →
    Ref.Labelled t →
    (∀ ns j, j ≠ M.ownJid → s'.lists ns j = s.lists ns j) ∧
    (∀ ns j d, ¬ (j = M.ownJid ∧ OwnIs M c t d) → s'.bundles ns j d = s.bundles ns j d) ∧
    ∃ q, s'.queue = s.queue ++ q ∧ ∀ x ∈ q, x.2.bareJid = M.ownJid ∧ OwnIs M c t x.2.deviceId

theorem C95_real : C95 fun M c => c.run M := fun M c t r s s' he hr hl => Verif.C95 M c t r s s' he hr hl

/-- The own account has a second device with a bundle. -/
def Cloud.shared : Ref.Cloud := { Ref.Cloud.other with
  bundles := fun ns j d => if ns = "n" ∧ j = "me" ∧ (d = 1 ∨ d = 2) then some ⟨"n", "me", d, [0], 0⟩ else none
  lists := fun ns j => if ns = "n" ∧ j = "me" then some [(1, none), (2, none)] else none }

/-- The calls, with another way of purging a backend. -/
def purgingBy (purge : Mgr → Ns → P Unit) (M : Mgr) : Call → P Unit
  | .purgeBackend ns => purge M ns
  | c => c.run M

def cleared (purge : Mgr → Ns → P Unit) := Ref.run "me" (purge (Ref.mgr Mgr.ex) "n") (World.two, Cloud.shared)

theorem C95_not {purge : Mgr → Ns → P Unit} (h : (cleared purge).2.2.2.bundles "n" "me" 2 = none) : ¬ C95 (purgingBy purge) := by
  intro hc
  have := (hc Mgr.ex (.purgeBackend "n") _ _ _ _ (Ref.run_exec "me" (purge (Ref.mgr Mgr.ex) "n") (World.two, Cloud.shared)) (Ref.run_runs "me" _ _).2
    (Ref.run_labelled _ _ _)).2.1 "n" "me" 2 (by rintro ⟨-, h⟩; cases h)
  unfold cleared at h
  rw [h] at this
  cases this

/-- The bundles of all devices on the own list are deleted, not only that of the own device (end of `purge_backend`). -/
def sweepingAll (M : Mgr) (ns : Ns) : P Unit := do
  let dl ← call (.downloadList ns M.ownJid)
  Prog.forEach (setDiff (Dict.keys dl) [M.ownDev]) fun d => call (.deleteBundle ns d)
  purgeBackend M ns

theorem C95_sweeping : ¬ C95 (purgingBy sweepingAll) := C95_not (by decide +kernel)

/-! ### C97: the storage that is a dictionary -/

/-- C97 for a storage. -/
def C97 (S : Sem RawSig Exn RawW) : Prop :=
  ∀ (cs : List StCall) (m : Disk) (t : List (Event RawSig Exn)) (h : List Observed) (w' : RawW),
    Exec (runCalls true cs) t (.ok h) → S.Runs ⟨m, fun _ => none⟩ t w' → Explains m h ∧ h.map (·.1) = cs ∧ ∀ x ∈ h, ∃ v, x.2 = .ok v

theorem C97_real : C97 Ref.InMemory := fun cs m t h w' he hr => C97_calls cs m t h w' he hr

/-- What the dictionary does when `S` is asked. -/
def memory (ok : RawW → (o : ROp) → Except Exn o.Ret) : Sem RawSig Exn RawW where
  ok w e := e.2 = ok w e.1
  next := Ref.InMemory.next

def memoryEnv (w : RawW) : (o : ROp) → Except Exn o.Ret := RawKV.env (fun _ => .error (.app 0)) w

/-- Deleting what is not there raises an exception (ims:31: `del` in place of `pop`). -/
def strictly (w : RawW) : (o : ROp) → Except Exn o.Ret
  | .rawDelete k => if (w.disk k).isNone then .error (.app 0) else .ok ()
  | o => memoryEnv w o

/-- `None` is taken for nothing stored (ims:21-24: `get` in place of the handler). -/
def nullish (w : RawW) : (o : ROp) → Except Exn o.Ret
  | .rawLoad k => .ok (match w.disk k with | some .null => none | x => x)
  | o => memoryEnv w o

def memoryRun (ok : RawW → (o : ROp) → Except Exn o.Ret) (cs : List StCall) (m : Disk) := runProg ok Ref.InMemory.next 100 (runCalls true cs) ⟨m, fun _ => none⟩

theorem memory_runs (ok : RawW → (o : ROp) → Except Exn o.Ret) (cs : List StCall) (m : Disk) :
    (memory ok).Runs ⟨m, fun _ => none⟩ (memoryRun ok cs m).1 (memoryRun ok cs m).2.2 :=
  runProg_runs (memory ok) ok (fun _ _ => rfl) 100 _ _

theorem C97_strictly : ¬ C97 (memory strictly) := by
  intro hc
  obtain ⟨v, hv⟩ := (hc [.delete .ownDeviceId] (fun _ => none) _ _ _ (runProg_exec strictly Ref.InMemory.next 100 _ ⟨fun _ => none, fun _ => none⟩)
    (memory_runs strictly [.delete .ownDeviceId] fun _ => none)).2.2 _ (.head _)
  cases hv

theorem C97_nullish : ¬ C97 (memory nullish) := by
  intro hc
  have h := (hc [.load .ownDeviceId] (fun _ => some .null) _ _ _ (runProg_exec nullish Ref.InMemory.next 100 _ ⟨fun _ => some .null, fun _ => none⟩)
    (memory_runs nullish [.load .ownDeviceId] fun _ => some .null)).1
  cases h.1

end Wrong
end Verif
