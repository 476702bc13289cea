import Verif.Props.Create
import Verif.Props.PurgeJid
import Verif.Props.Purge
import Verif.Props.Replace
import Verif.Props.Rotation
import Verif.Props.Server
import Verif.Props.TrustKept
import Verif.Wrong.Decrypt
/-
Wrong programs in place of the remaining functions of the session manager, and the claims that reject them.  See Wrong/Encrypt.lean for the
method.
-/
namespace Verif
namespace Wrong
open SM Spec

/-! ### Device list updates: C11, C13, C14 -/

/-- A program in place of `update_device_list`. -/
abbrev Upd := Mgr → Ns → Jid → DevList → P Unit

/-- The steps of `update_device_list`. -/
structure UpdSteps where
  /-- sm:1020-1021 -/
  loaded : List Ns → Ns → Bool
  /-- sm:1030-1045 -/
  own : Mgr → Ns → Jid → DevList → P DevList
  /-- sm:1046-1052 -/
  fresh : Ns → Jid → DevList → DevId → P Unit
  /-- sm:1054-1089 -/
  known : Mgr → Ns → Jid → DevList → DevId → P Unit
  /-- sm:1091-1096 -/
  list : List DevId → List DevId → List DevId

/-- The steps as they are in the code. -/
def rightUpd : UpdSteps where
  loaded := fun bs ns => decide (ns ∈ bs)
  own := ensureOwnListed
  fresh := addNewDevice
  known := updateKnownDevice
  list := setUnion

def updateBy (S : UpdSteps) : Upd := fun M ns jid dl => do
  let bs ← call .getBackends
  if S.loaded bs ns = false then throwE .unknownNamespace
  else do
    let newList := dl.keys
    let oldList := dedup (Maybe.maybe (← Sto.loadInts (.devList jid)) [])
    let newDevices := setDiff newList oldList
    let dl' ← S.own M ns jid dl
    Prog.forEach (M.O.iter newDevices) (S.fresh ns jid dl')
    Prog.forEach (M.O.iter oldList) (S.known M ns jid dl')
    Prog.when (newDevices.length > 0) do
      call (.store (.devList jid) (.ofInts (M.O.iter (S.list newList oldList))))

theorem updateBy_right : updateBy rightUpd = updateDeviceList := by
  funext M ns jid dl
  unfold updateBy updateDeviceList rightUpd
  refine congrArg (Bind.bind _) (funext fun bs => ?_)
  by_cases h : ns ∈ bs <;> simp [h]

/-- C11 for a program. -/
def C11 (upd : Upd) : Prop :=
  ∀ (M : Mgr) (ns : Ns) (jid : Jid) (dl : DevList) (w w' : World) (t : List Ev), Typed w.disk → Exec (upd M ns jid dl) t (.ok ()) →
    Lib.Runs w t w' → Merged M ns jid dl w.disk w'.disk

theorem C11_update : C11 updateDeviceList := C11_merge

/-- Devices that vanished from the list stay active (sm:1084-1089 forgotten). -/
def lingeringKnown (M : Mgr) (ns : Ns) (jid : Jid) (dl : DevList) (d : DevId) : P Unit := do
  let namespaces := dedup (← Maybe.fromJust (← Sto.loadStrs (.devNamespaces jid d)))
  let active ← Maybe.fromJust (← Sto.loadBools (.devActive jid d))
  match dl.get d with
  | some newLabel => updateListed M ns jid d newLabel namespaces active
  | none => pure ()

def lingering : Upd := updateBy { rightUpd with known := lingeringKnown }

/-- Devices that vanished from the list are forgotten when a new one appears (sm:1094: the new list only). -/
def dropping : Upd := updateBy { rightUpd with list := fun new _ => new }

/-- Labels of known devices are not updated (sm:1075-1080 forgotten). -/
def staleListed (M : Mgr) (ns : Ns) (jid : Jid) (d : DevId) (namespaces : List Ns) (active : Dict Ns Bool) : P Unit := do
  Prog.when (active.get ns ≠ some true) do
    call (.store (.devActive jid d) (.ofBools (active.set ns true)))
  Prog.when (ns ∉ namespaces) do
    call (.store (.devNamespaces jid d) (.ofStrs (M.O.iter (setAdd namespaces ns))))

def staleKnown (M : Mgr) (ns : Ns) (jid : Jid) (dl : DevList) (d : DevId) : P Unit := do
  let namespaces := dedup (← Maybe.fromJust (← Sto.loadStrs (.devNamespaces jid d)))
  let active ← Maybe.fromJust (← Sto.loadBools (.devActive jid d))
  match dl.get d with
  | some _ => staleListed M ns jid d namespaces active
  | none => updateUnlisted ns jid d namespaces active

def stale : Upd := updateBy { rightUpd with known := staleKnown }

theorem C11_lingering : ¬ C11 lingering := by
  intro hc
  have h := (hc Mgr.ex "n" "a" [(8, none)] World.ex _ _ World.ex_typed
    (trial_exec quiet (lingering Mgr.ex "n" "a" [(8, none)]) World.ex) (trial_runs quiet_ok _ _)).unlisted 7
    ⟨[7], rfl, by simp⟩ (by rintro (⟨l, h⟩ | ⟨h, -⟩) <;> simp [Dict.get, Mgr.ex] at h) ⟨_, rfl, by decide⟩
  obtain ⟨a, h1, h2⟩ := h.1
  have : (trial quiet (lingering Mgr.ex "n" "a" [(8, none)]) World.ex).2.2.disk (.devActive "a" 7) = World.ex.disk (.devActive "a" 7) := rfl
  rw [this] at h1
  cases ofBools_inj (Option.some.inj h1)
  cases h2

theorem C11_dropping : ¬ C11 dropping := by
  intro hc
  have h := (hc Mgr.ex "n" "a" [(8, none)] World.ex _ _ World.ex_typed
    (trial_exec quiet (dropping Mgr.ex "n" "a" [(8, none)]) World.ex) (trial_runs quiet_ok _ _)).known 7
  obtain ⟨l, h1, h2⟩ := h.2 (.inl ⟨[7], rfl, by simp⟩)
  have : (trial quiet (dropping Mgr.ex "n" "a" [(8, none)]) World.ex).2.2.disk (.devList "a") = some (.ofInts [8]) := rfl
  rw [this] at h1
  cases ofInts_inj (Option.some.inj h1)
  simp at h2

theorem C11_stale : ¬ C11 stale := by
  intro hc
  have h := (hc Mgr.ex "n" "a" [(7, some "new")] World.ex _ _ World.ex_typed
    (trial_exec quiet (stale Mgr.ex "n" "a" [(7, some "new")]) World.ex) (trial_runs quiet_ok _ _)).relabel 7
    ⟨[7], rfl, by simp⟩ "new" rfl
  have h1 : (trial quiet (stale Mgr.ex "n" "a" [(7, some "new")]) World.ex).2.2.disk (.devLabel "a" 7) = World.ex.disk (.devLabel "a" 7) := rfl
  unfold Labelled at h
  rw [h1] at h
  have := ofOptStr_inj (Option.some.inj h)
  revert this
  decide

/-- C13 for a program. -/
def C13 (upd : Upd) : Prop :=
  ∀ (M : Mgr) (ns : Ns) (dl : DevList) (w w' : World) (t : List Ev), Typed w.disk → Exec (upd M ns M.ownJid dl) t (.ok ()) →
    Lib.Runs w t w' →
    ns ∈ w.backends ∧
    (((dl.get M.ownDev).isSome ∧ w'.log = w.log) ∨
     (dl.get M.ownDev = none ∧ ∃ up lab, w'.log = w.log ++ [⟨.uploadList ns up, .ok ()⟩] ∧ Labelled w.disk M.ownJid M.ownDev lab ∧
        ∀ d, up.get d = if d = M.ownDev then some lab else dl.get d))

theorem C13_update : C13 updateDeviceList := C13_own_device_listed

/-- The own device is not put back on the list (sm:1030-1045 forgotten). -/
def modest : Upd := updateBy { rightUpd with own := fun _ _ _ dl => pure dl }

/-- Only the own device is put on the list (sm:1036: a new list). -/
def ensureAlone (M : Mgr) (ns : Ns) (jid : Jid) (dl : DevList) : P DevList := do
  if jid = M.ownJid then
    let bs ← call .getBackends
    if ns ∈ bs ∧ M.ownDev ∉ dl.keys then
      let label ← Maybe.fromJust (← Sto.loadOptStr (.devLabel M.ownJid M.ownDev))
      call (.uploadList ns [(M.ownDev, label)])
      pure (dl.set M.ownDev label)
    else pure dl
  else pure dl

def alone : Upd := updateBy { rightUpd with own := ensureAlone }

theorem World.ex2_typed : Typed World.ex2.disk := by
  intro k v h
  unfold World.ex2 Disk.upd at h
  dsimp only at h
  split at h
  · rename_i hk
    subst hk
    cases h
    exact ⟨_, rfl⟩
  · exact World.ex_typed k v h

theorem C13_modest : ¬ C13 modest := by
  intro hc
  have h := (hc Mgr.ex "n" [(8, some "pc")] World.ex2 _ _ World.ex2_typed
    (trial_exec quiet (modest Mgr.ex "n" "me" [(8, some "pc")]) World.ex2) (trial_runs quiet_ok _ _)).2
  have h1 : (trial quiet (modest Mgr.ex "n" "me" [(8, some "pc")]) World.ex2).2.2.log = World.ex2.log := rfl
  rcases h with ⟨h, -⟩ | ⟨-, up, lab, h, -⟩
  · cases h
  · rw [h1] at h
    cases h

theorem C13_alone : ¬ C13 alone := by
  intro hc
  have h := (hc Mgr.ex "n" [(8, some "pc")] World.ex2 _ _ World.ex2_typed
    (trial_exec quiet (alone Mgr.ex "n" "me" [(8, some "pc")]) World.ex2) (trial_runs quiet_ok _ _)).2
  have h1 : (trial quiet (alone Mgr.ex "n" "me" [(8, some "pc")]) World.ex2).2.2.log = [⟨.uploadList "n" [(1, some "this")], .ok ()⟩] := rfl
  rcases h with ⟨h, -⟩ | ⟨-, up, lab, h, -, h2⟩
  · cases h
  · rw [h1] at h
    cases h
    have := h2 8
    rw [if_neg (by decide)] at this
    cases this

/-- C14 for a program. -/
def C14 (upd : Upd) : Prop :=
  ∀ (M : Mgr) (ns : Ns) (jid : Jid) (dl : DevList) (w w' : World) (t : List Ev) (r : Res Exn Unit), ns ∉ w.backends →
    Exec (upd M ns jid dl) t r → Lib.Runs w t w' →
    (t = [] ∧ r = .crashed ∨ t = [⟨.getBackends, .ok w.backends⟩] ∧ r = .raised .unknownNamespace) ∧ w' = w

theorem C14_update : C14 updateDeviceList := C14_no_effect

/-- Lists of namespaces that are not loaded are accepted (sm:1020-1021 forgotten). -/
def anywhere : Upd := updateBy { rightUpd with loaded := fun _ _ => true }

theorem C14_anywhere : ¬ C14 anywhere := by
  intro hc
  have h := (hc Mgr.ex "x" "a" [(8, none)] World.ex _ _ _ (by decide)
    (trial_exec quiet (anywhere Mgr.ex "x" "a" [(8, none)]) World.ex) (trial_runs quiet_ok _ _)).2
  have h1 : (trial quiet (anywhere Mgr.ex "x" "a" [(8, none)]) World.ex).2.2.disk (.devList "a") = some (.ofInts [8, 7]) := rfl
  rw [h] at h1
  cases ofInts_inj (Option.some.inj h1)

/-! ### Trust: C25 -/

/-- C25 for a program. -/
def C25 (set : Jid → Bytes → String → P Unit) : Prop :=
  ∀ (j : Jid) (ik : Bytes) (level : String) (t : List Ev) (r : Res Exn Unit) (w w' : World), Exec (set j ik level) t r → Lib.Runs w t w' →
    (∀ k, k ≠ .trust j ik → w'.disk k = w.disk k) ∧ (w'.disk (.trust j ik) = w.disk (.trust j ik) ∨ w'.disk (.trust j ik) = some (.str level)) ∧
      (r = .ok () → w'.disk (.trust j ik) = some (.str level))

theorem C25_setTrust : C25 setTrust := fun j ik level t r w w' he hr => by
  have := C25_frame Mgr.ex j ik level t (match r with | .ok () => .ok () | .raised e => .raised e | .crashed => .crashed) w w'
  revert this he
  cases r <;> intro he h <;> exact h he hr

/-- The level is stored for the account as a whole. -/
def blanket (j : Jid) (_ : Bytes) (level : String) : P Unit := call (.store (.trust j []) (.str level))

/-- A level that was given before is kept. -/
def stubborn (j : Jid) (ik : Bytes) (level : String) : P Unit := do
  let old ← Sto.loadStr (.trust j ik)
  match old with
  | none => call (.store (.trust j ik) (.str level))
  | some _ => pure ()

theorem C25_blanket : ¬ C25 blanket := by
  intro hc
  have h := (hc "a" [1] "trusted" _ _ World.ex _ (trial_exec quiet (blanket "a" [1] "trusted") World.ex) (trial_runs quiet_ok _ _)).2.2 rfl
  cases h

theorem C25_stubborn : ¬ C25 stubborn := by
  intro hc
  have h := (hc "a" [1] "trusted" _ _ { World.ex with disk := fun k => if k = .trust "a" [1] then some (.str "old") else none } _
    (trial_exec quiet (stubborn "a" [1] "trusted") _) (trial_runs quiet_ok _ _)).2.2 rfl
  exact absurd (JVal.str.inj (Option.some.inj h)) (by decide)

/-! ### Purging: C56, C57, C58 -/

/-- The first step that passes one test passes another one. -/
theorem firstOf {t : List Ev} {f g : Ev → Bool} (h : (t.find? f).any g = true) :
    ∃ u e v, t = u ++ e :: v ∧ g e = true ∧ ∀ x ∈ u, f x = false := by
  cases hf : t.find? f with
  | none => rw [hf] at h; cases h
  | some e =>
    rw [hf] at h
    obtain ⟨-, u, v, rfl, hu⟩ := List.find?_eq_some_iff_append.1 hf
    exact ⟨u, e, v, rfl, h, fun x hx => by simpa using hu x hx⟩

/-- C56 for a program. -/
def C56 (purge : Mgr → Ns → P Unit) : Prop :=
  ∀ (M : Mgr) (ns : Ns) (t : List Ev) (r : Res Exn Unit), Exec (purge M ns) t r →
    Guarded (PurgeOrder M ns) t ∧ (r = .ok () → ∃ u, t = u ++ [⟨.deleteBundle ns M.ownDev, .ok ()⟩])

theorem C56_purge : C56 purgeBackend := C56_order

/-- The backend is purged before the device is taken off the list. -/
def hurried (M : Mgr) (ns : Ns) : P Unit := do
  let bs ← call .getBackends
  call (.setBackends (setDiff bs [ns]))
  Prog.when (ns ∈ bs) do
    call (.purge ns)
  let dl ← call (.downloadList ns M.ownJid)
  Prog.when (M.ownDev ∈ Dict.keys dl) do
    call (.uploadList ns (Dict.erase dl M.ownDev))
  let (device, _) ← getOwnDeviceInformation M
  call (.store (.devActive M.ownJid M.ownDev) (.ofBools (device.active.erase ns)))
  call (.store (.devNamespaces M.ownJid M.ownDev) (.ofStrs (M.O.iter (setDiff device.namespaces [ns]))))
  call (.deleteBundle ns M.ownDev)

/-- The bundle is left on the server (sm:572 forgotten). -/
def littering (M : Mgr) (ns : Ns) : P Unit := do
  let dl ← call (.downloadList ns M.ownJid)
  Prog.when (M.ownDev ∈ Dict.keys dl) do
    call (.uploadList ns (Dict.erase dl M.ownDev))
  let (device, _) ← getOwnDeviceInformation M
  call (.store (.devActive M.ownJid M.ownDev) (.ofBools (device.active.erase ns)))
  call (.store (.devNamespaces M.ownJid M.ownDev) (.ofStrs (M.O.iter (setDiff device.namespaces [ns]))))
  let bs ← call .getBackends
  call (.setBackends (setDiff bs [ns]))
  Prog.when (ns ∈ bs) do
    call (.purge ns)

theorem C56_hurried : ¬ C56 hurried := by
  intro hc
  have h := (hc _ _ _ _ (trial_exec genuine (hurried Mgr.ex "n") World.started)).1
  obtain ⟨u, e, v, ht, he, hu⟩ := firstOf (t := (trial genuine (hurried Mgr.ex "n") World.started).1)
    (f := fun e => match e.1 with | .downloadList .. => true | .setBackends _ => true | _ => false)
    (g := fun e => match e.1 with | .setBackends _ => true | _ => false) (by decide +kernel)
  obtain ⟨o, a⟩ := e
  cases o <;> try (cases he; done)
  rcases (h u _ v ht).list rfl with ⟨dl, -, -, h2⟩ | ⟨⟨dl, h1, -⟩, -⟩
  · cases h2
  · cases hu _ h1

theorem C56_littering : ¬ C56 littering := by
  intro hc
  obtain ⟨u, h⟩ := (hc _ _ _ _ (trial_exec genuine (littering Mgr.ex "n") World.started)).2 (by decide +kernel)
  have h1 : (trial genuine (littering Mgr.ex "n") World.started).1.any (fun e => match e.1 with | .deleteBundle .. => true | _ => false) = false := by
    decide +kernel
  cases never h1 (e := ⟨.deleteBundle "n" 1, .ok ()⟩) (by rw [h]; simp [Mgr.ex])

/-- C57 for a program. -/
def C57 (purge : Mgr → Jid → P Unit) : Prop :=
  ∀ (M : Mgr) (jid : Jid) (t : List Ev) (w w' : World), Exec (purge M jid) t (.ok ()) → Lib.Runs w t w' →
    (∀ k, Purged w.disk jid k → w'.disk k = none) ∧ (∀ k, ¬ Purged w.disk jid k → w'.disk k = w.disk k) ∧
      w'.backends = w.backends ∧ w'.log = w.log ++ w.backends.map fun ns => ⟨.purgeJid ns jid, .ok ()⟩

theorem C57_purge : C57 purgeBareJid := C57_partial

/-- The trust levels stay (sm:612-614 forgotten). -/
def mindful (M : Mgr) (jid : Jid) : P Unit := do
  let deviceList := dedup (Maybe.maybe (← Sto.loadInts (.devList jid)) [])
  Prog.forEach (M.O.iter deviceList) (deleteDevice jid)
  call (.delete (.devList jid))
  let bs ← call .getBackends
  Prog.forEach bs fun ns => call (.purgeJid ns jid)

/-- The identity keys are collected after they were deleted (sm:593-606 the other way around). -/
def tardy (M : Mgr) (jid : Jid) : P Unit := do
  let deviceList := dedup (Maybe.maybe (← Sto.loadInts (.devList jid)) [])
  Prog.forEach (M.O.iter deviceList) (deleteDevice jid)
  let keys ← collectIdentityKeys jid (M.O.iter deviceList)
  call (.delete (.devList jid))
  Prog.forEach (M.O.iter keys) fun ik => call (.delete (.trust jid ik))
  let bs ← call .getBackends
  Prog.forEach bs fun ns => call (.purgeJid ns jid)

/-- The backends keep their sessions (sm:619-620 forgotten). -/
def sparing (M : Mgr) (jid : Jid) : P Unit := do
  let deviceList := dedup (Maybe.maybe (← Sto.loadInts (.devList jid)) [])
  let keys ← collectIdentityKeys jid (M.O.iter deviceList)
  Prog.forEach (M.O.iter deviceList) (deleteDevice jid)
  call (.delete (.devList jid))
  Prog.forEach (M.O.iter keys) fun ik => call (.delete (.trust jid ik))

/-- The device list is deleted first (sm:609 before sm:602-606). -/
def listFirst (M : Mgr) (jid : Jid) : P Unit := do
  let deviceList := dedup (Maybe.maybe (← Sto.loadInts (.devList jid)) [])
  let keys ← collectIdentityKeys jid (M.O.iter deviceList)
  call (.delete (.devList jid))
  Prog.forEach (M.O.iter deviceList) (deleteDevice jid)
  Prog.forEach (M.O.iter keys) fun ik => call (.delete (.trust jid ik))
  let bs ← call .getBackends
  Prog.forEach bs fun ns => call (.purgeJid ns jid)

theorem trusted7 : Purged World.trusting.disk "a" (.trust "a" [7]) :=
  .inr (.inr ⟨7, [7], ⟨[.int 7, .int 8], rfl, by simp [JVal.asInt]⟩, ⟨_, rfl, by decide +kernel⟩, rfl⟩)

theorem C57_mindful : ¬ C57 mindful := by
  intro hc
  have h := (hc _ _ _ _ _ (trial_exec genuine (mindful Mgr.ex "a") World.trusting) (trial_runs genuine_ok _ _)).1 _ trusted7
  cases h

theorem C57_tardy : ¬ C57 tardy := by
  intro hc
  have h := (hc _ _ _ _ _ (trial_exec genuine (tardy Mgr.ex "a") World.trusting) (trial_runs genuine_ok _ _)).1 _ trusted7
  cases h

theorem C57_sparing : ¬ C57 sparing := by
  intro hc
  have h := (hc _ _ _ _ _ (trial_exec genuine (sparing Mgr.ex "a") World.trusting) (trial_runs genuine_ok _ _)).2.2.2
  have h1 : (trial genuine (sparing Mgr.ex "a") World.trusting).2.2.log = World.trusting.log := rfl
  rw [h1] at h
  have := congrArg List.length h
  rw [List.length_append, List.length_map, show World.trusting.backends = ["n", "o"] from rfl] at this
  simp at this

/-- Attempts to purge `jid` with the program, one after the other. -/
inductive Tries (purge : Mgr → Jid → P Unit) (jid : Jid) : World → World → Prop
  | none (w : World) : Tries purge jid w w
  | more {w w1 w2 : World} {M : Mgr} {t : List Ev} {r : Res Exn Unit} (h : Tries purge jid w w1) (he : Exec (purge M jid) t r)
      (hr : Lib.Runs w1 t w2) : Tries purge jid w w2

/-- C58 for a program. -/
def C58 (purge : Mgr → Jid → P Unit) : Prop :=
  ∀ (jid : Jid) (M : Mgr) (t : List Ev) (w w1 w' : World), Tries purge jid w w1 → Exec (purge M jid) t (.ok ()) → Lib.Runs w1 t w' →
    w'.disk (.devList jid) = none ∧ (∀ d, OnList w.disk jid d → ∀ k, DataOf jid d k → w'.disk k = none) ∧
      (∀ k, ¬ AboutJid jid k → w'.disk k = w.disk k) ∧ ∀ k, w'.disk k = w.disk k ∨ w'.disk k = none

theorem Tries.right {jid : Jid} {w w' : World} (h : Tries purgeBareJid jid w w') : PurgeTries jid w w' := by
  induction h with
  | none => exact .none _
  | more _ he hr ih => exact .more ih he hr

theorem C58_purge : C58 purgeBareJid := fun jid M t w w1 w' h he hr => C58_resume jid M t w w1 w' h.right he hr

theorem C58_listFirst : ¬ C58 listFirst := by
  intro hc
  have h := (hc "a" Mgr.ex _ World.trusting _ _
    (.more (.none _) (runProg_exec ..) (runProg_runs Lib (Lib.env genuine) (Lib.env_ok genuine genuine_ok) 4 (listFirst Mgr.ex "a") _))
    (trial_exec genuine (listFirst Mgr.ex "a") _) (trial_runs genuine_ok _ _)).2.1 7 ⟨[.int 7, .int 8], rfl, by simp [JVal.asInt]⟩
    (.devNamespaces "a" 7) (.inl rfl)
  cases h

/-! ### Rotation: C59 -/

/-- `__manage_signed_pre_key_rotation` with another test for keys that are due (sm:671-674). -/
def roundBy (due : Int → Bool) (M : Mgr) (period : Int) (fuel : Nat) : P Unit := do
  let bs ← call .getBackends
  let nextCheck ← Prog.fold bs period fun nextCheck ns => do
    let age ← call (.spkAge ns)
    let nextRotation := period - age
    if due nextRotation = true then
      call (.rotateSpk ns)
      retryUpload M ns fuel
      pure nextCheck
    else
      pure (min nextCheck nextRotation)
  call (.sleep (nextCheck + 60))

def rotateBy (due : Int → Bool) (M : Mgr) (period : Int) (fuel : Nat) : Nat → P Unit
  | 0 => throwE .outOfFuel
  | rounds + 1 => do
    roundBy due M period fuel
    rotateBy due M period fuel rounds

theorem rotateBy_right : rotateBy (fun n => decide (n < 0)) = manageRotation := by
  have h : roundBy (fun n => decide (n < 0)) = rotationRound := by
    funext M period fuel
    unfold roundBy rotationRound
    simp only [decide_eq_true_eq]
  funext M period fuel rounds
  induction rounds with
  | zero => rfl
  | succ n ih => unfold rotateBy manageRotation; rw [ih, h]

/-- C59, the first part, for a program. -/
def C59 (rotate : Mgr → Int → Nat → Nat → P Unit) : Prop :=
  ∀ (M : Mgr) (period : Int) (fuel rounds : Nat) (t : List Ev) (r : Res Exn Unit), Exec (rotate M period fuel rounds) t r →
    Guarded (fun u e => ∀ ns, e.1 = .rotateSpk ns ↔ ∃ u' age, u = u' ++ [⟨.spkAge ns, .ok age⟩] ∧ period < age) t

theorem C59_rotation : C59 manageRotation := C59_due

/-- Keys are rotated once they have reached the age (sm:674: not after all). -/
def overeager : Mgr → Int → Nat → Nat → P Unit := rotateBy fun n => decide (n ≤ 0)

/-- Keys are never rotated. -/
def idle : Mgr → Int → Nat → Nat → P Unit := rotateBy fun _ => false

theorem C59_overeager : ¬ C59 overeager := by
  intro hc
  have h := hc _ _ _ _ _ _ (trial_exec Friendly.stalling.answer (overeager Mgr.ex 100 5 1) World.started)
  have ht : (trial Friendly.stalling.answer (overeager Mgr.ex 100 5 1) World.started).1 =
    [⟨.getBackends, .ok ["n", "o"]⟩, ⟨.spkAge "n", .ok 100⟩] ++ ⟨.rotateSpk "n", .ok ()⟩ ::
      (trial Friendly.stalling.answer (overeager Mgr.ex 100 5 1) World.started).1.drop 3 := rfl
  obtain ⟨u', age, h1, h2⟩ := (h _ _ _ ht "n").1 rfl
  have h3 := congrArg List.getLast? h1
  rw [List.getLast?_append] at h3
  cases h3
  exact absurd h2 (by decide)

theorem C59_idle : ¬ C59 idle := by
  intro hc
  have h := hc _ _ _ _ _ _ (trial_exec Friendly.stalling.answer (idle Mgr.ex 100 5 1) World.started)
  have ht : (trial Friendly.stalling.answer (idle Mgr.ex 100 5 1) World.started).1 =
    ([⟨.getBackends, .ok ["n", "o"]⟩, ⟨.spkAge "n", .ok 100⟩] ++ [⟨.spkAge "o", .ok 101⟩]) ++ ⟨.sleep 59, .ok ()⟩ ::
      (trial Friendly.stalling.answer (idle Mgr.ex 100 5 1) World.started).1.drop 4 := rfl
  cases (h _ _ _ ht "o").2 ⟨_, _, rfl, by decide⟩

/-! ### Consistency, labels: C61, C62 -/

/-- C61, the part about needless uploads, for a program. -/
def C61 (ensure : Mgr → P Unit) : Prop :=
  ∀ (M : Mgr) (t : List Ev) (r : Res Exn Unit), Exec (ensure M) t r → Guarded (UploadIfDifferent M) t

theorem C61_ensure : C61 ensureDataConsistency := C61_no_reupload

/-- The bundle is uploaded in any case (sm:755-765: no comparison). -/
def insistent (M : Mgr) : P Unit := do
  let bs ← call .getBackends
  Prog.forEach bs fun ns => do
    refreshDeviceList M ns M.ownJid
    let localBundle ← call (.getBundle ns M.ownJid M.ownDev)
    let upload ← Prog.tryElse (call (.downloadBundle ns M.ownJid M.ownDev))
      (fun e => if e = .bundleDownloadFailed ∨ e = .bundleNotFound then pure true else throwE e)
      (fun _ => pure true)
    Prog.when (upload = true) do
      call (.uploadBundle localBundle)

/-- Bundles are downloaded as they are kept by the backends; there are other devices on the own list. -/
def mirroring : World → (o : Op) → Except Exn o.Ret
  | _, .downloadBundle ns j d => .ok ⟨ns, j, d, [1, 2, 3], 0⟩
  | _, .downloadList _ _ => .ok [(1, none), (5, some "x")]
  | w, o => genuine w o

theorem mirroring_ok (w : World) (o : Op) (e : Exn) (h : mirroring w o = .error e) : e.isInternal = false := by
  cases o <;> simp only [mirroring] at h <;> first
    | exact genuine_ok w _ e h
    | (cases h; done)

theorem C61_insistent : ¬ C61 insistent := by
  intro hc
  have h := hc _ _ _ (trial_exec mirroring (insistent Mgr.ex) World.started)
  have ha := runProg_answers (Lib.env mirroring) Lib.next 300 (insistent Mgr.ex) World.started
  obtain ⟨u, ⟨o, a⟩, v, ht, he⟩ := find (t := (trial mirroring (insistent Mgr.ex) World.started).1)
    (f := fun e => match e.1 with | .uploadBundle _ => true | _ => false) (by decide +kernel)
  cases o <;> try (cases he; done)
  obtain ⟨u', ns, r, rfl, h1, h2⟩ := h u _ v ht _ rfl
  obtain ⟨w1, hr⟩ := ha ⟨.downloadBundle ns "me" 1, r⟩ (by
    show _ ∈ (trial mirroring (insistent Mgr.ex) World.started).1
    rw [ht]; simp [Mgr.ex])
  obtain ⟨w2, hb⟩ := ha ⟨.getBundle ns "me" 1, .ok _⟩ (by
    show _ ∈ (trial mirroring (insistent Mgr.ex) World.started).1
    rw [ht]
    exact List.mem_append_left _ (List.mem_append_left _ (List.mem_of_getLast? h2)))
  exact h1 (hr.trans hb.symm)

/-- C62 for a program. -/
def C62 (label : Mgr → Option String → P Unit) : Prop :=
  ∀ (M : Mgr) (l : Option String) (t : List Ev), Exec (label M l) t (.ok ()) →
    ∃ bs t', t = ⟨.store (.devLabel M.ownJid M.ownDev) (.ofOptStr l), .ok ()⟩ :: ⟨.getBackends, .ok bs⟩ :: t' ∧ Relabelled M l bs t'

theorem C62_setOwnLabel : C62 setOwnLabel := C62_trace

/-- The label is not stored (sm:1325-1328 forgotten). -/
def fleeting (M : Mgr) (label : Option String) : P Unit := do
  let bs ← call .getBackends
  Prog.forEach bs fun ns => do
    let dl ← call (.downloadList ns M.ownJid)
    call (.uploadList ns (Dict.set dl M.ownDev label))

/-- The list on the server is replaced by one with the own device only (sm:1334-1338). -/
def egoistic (M : Mgr) (label : Option String) : P Unit := do
  call (.store (.devLabel M.ownJid M.ownDev) (.ofOptStr label))
  let bs ← call .getBackends
  Prog.forEach bs fun ns => do
    let _ ← call (.downloadList ns M.ownJid)
    call (.uploadList ns [(M.ownDev, label)])

theorem C62_fleeting : ¬ C62 fleeting := by
  intro hc
  obtain ⟨bs, t', h, -⟩ := hc _ _ _ (trial_exec mirroring (fleeting Mgr.ex (some "l")) World.started)
  have h1 : (trial mirroring (fleeting Mgr.ex (some "l")) World.started).1.any (fun e => match e.1 with | .store .. => true | _ => false) = false := by
    decide +kernel
  cases never h1 (e := ⟨.store (.devLabel "me" 1) (.ofOptStr (some "l")), .ok ()⟩) (by rw [h]; exact List.mem_cons_self)

theorem C62_egoistic : ¬ C62 egoistic := by
  intro hc
  obtain ⟨bs, t', h, hl⟩ := hc _ _ _ (trial_exec mirroring (egoistic Mgr.ex (some "l")) World.started)
  have h1 : (trial mirroring (egoistic Mgr.ex (some "l")) World.started).1 =
    ⟨.store (.devLabel "me" 1) (.ofOptStr (some "l")), .ok ()⟩ :: ⟨.getBackends, .ok ["n", "o"]⟩ ::
      ⟨.downloadList "n" "me", .ok [(1, none), (5, some "x")]⟩ :: ⟨.uploadList "n" [(1, some "l")], .ok ()⟩ ::
      (trial mirroring (egoistic Mgr.ex (some "l")) World.started).1.drop 4 := rfl
  rw [h1] at h
  injection h with _ h
  injection h with h2 h
  cases hl with
  | nil => cases h
  | cons old new h3 h4 h5 =>
    injection h with h6 h
    injection h with h7 h
    cases h6
    cases h7
    have := h4 5 (by decide)
    cases this

/-! ### Sessions: C63; leaving history synchronization: C50 -/

/-- C63, the part about the notification, for a program. -/
def C63 (replace : Mgr → Jid → DevId → P (Dict Ns Exn)) : Prop :=
  ∀ (M : Mgr) (jid : Jid) (d : DevId) (t : List Ev) (r), Exec (replace M jid d) t r →
    ∀ (u : List Ev) (ns : Ns) (s : Session) (x) (v : List Ev), t = u ++ ⟨.storeSession ns s, x⟩ :: v →
      ∃ u1 u2, u = u1 ++ u2 ∧ Announcement M jid d ns s u2

theorem C63_replace : C63 replaceSessions := C63_announced

/-- The new session is stored before the other device is told about it (sm:1250-1260 the other way around). -/
def storeFirst (M : Mgr) (jid : Jid) (d : DevId) (ns : Ns) : P Unit := do
  let (content, km) ← call (.encryptEmpty ns)
  let bundle ← call (.downloadBundle ns jid d)
  let (session, ekm) ← call (.buildActive ns jid d bundle km)
  call (.storeSession ns session)
  call (.sendMessage { ns := ns, bareJid := M.ownJid, deviceId := M.ownDev, content := content,
                       keys := [(ekm, some session.keyExchange)] } jid)

/-- `replace_sessions` with another replacement. -/
def replaceBy (one : Mgr → Jid → DevId → Ns → P Unit) (M : Mgr) (jid : Jid) (d : DevId) : P (Dict Ns Exn) := do
  let devices ← getDeviceInformation M jid
  let device ← nextOrRuntimeError ((M.O.iter devices).find? fun dev => decide (dev.deviceId = d))
  let withSession ← Prog.filterAll (← call .getBackends) fun ns => do
    let s ← call (.loadSession ns device.bareJid device.deviceId)
    pure (Option.isSome s)
  let namespaces := setInter device.namespaces withSession
  Prog.fold (← call .getBackends) [] fun unsuccessful ns => do
    if ns ∈ namespaces then
      Prog.tryElse (one M device.bareJid device.deviceId ns)
        (fun e => if e.isOmemo then pure (Dict.set unsuccessful ns e) else throwE e)
        (fun _ => pure unsuccessful)
    else pure unsuccessful

theorem replaceBy_right : replaceBy replaceSession = replaceSessions := rfl

theorem C63_storeFirst : ¬ C63 (replaceBy storeFirst) := by
  intro hc
  have h := hc _ _ _ _ _ (trial_exec genuine (replaceBy storeFirst Mgr.ex "a" 7) World.met2)
  obtain ⟨u, ⟨o, a⟩, v, ht, he, hu⟩ := firstOf (t := (trial genuine (replaceBy storeFirst Mgr.ex "a" 7) World.met2).1)
    (f := fun e => match e.1 with | .storeSession .. => true | .sendMessage .. => true | _ => false)
    (g := fun e => match e.1 with | .storeSession .. => true | _ => false) (by decide +kernel)
  cases o <;> try (cases he; done)
  obtain ⟨u1, u2, rfl, c, km, b, ekm, rfl⟩ := h _ _ _ _ _ ht
  cases hu ⟨.sendMessage _ _, .ok ()⟩ (List.mem_append_right _ (.tail _ (.tail _ (.tail _ List.mem_cons_self))))

/-- C50, the part about leaving the mode, for a program. -/
def C50' (leave : Mgr → P Unit) : Prop :=
  ∀ (M : Mgr) (w w' : World) (t : List Ev) (r : Res Exn Unit), Exec (leave M) t r → Lib.Runs w t w' →
    ∀ (u v : List Ev) (m : Message) (j : Jid) (x : Except Exn Unit), t = u ++ ⟨.sendMessage m j, x⟩ :: v →
      ∀ ns ∈ w.backends, (⟨.deleteHidden ns, .ok ()⟩ : Ev) ∈ u

theorem C50'_leave : C50' afterHistorySync := C50_leave

/-- Hidden pre keys are deleted last (sm:1578-1580 at the end). -/
def lateDeletion (M : Mgr) : P Unit := do
  call (.setSync false)
  Prog.forEach (← call .getBackends) fun ns => sendQueuedBackend M ns
  Prog.forEach (← call .getBackends) fun ns => call (.deleteHidden ns)

theorem C50'_lateDeletion : ¬ C50' lateDeletion := by
  intro hc
  have h := hc _ _ _ _ _ (trial_exec sunny (lateDeletion Mgr.ex) World.inbox) (trial_runs sunny_ok _ _)
  obtain ⟨u, ⟨o, a⟩, v, ht, he, hu⟩ := firstOf (t := (trial sunny (lateDeletion Mgr.ex) World.inbox).1)
    (f := fun e => match e.1 with | .deleteHidden .. => true | .sendMessage .. => true | _ => false)
    (g := fun e => match e.1 with | .sendMessage .. => true | _ => false) (by decide +kernel)
  cases o <;> try (cases he; done)
  cases hu _ (h _ _ _ _ _ ht "n" (by decide +kernel))

/-! ### Creation: C51, C52, C53 -/

/-- A program in place of `create`. -/
abbrev Cre := Mgr → List Ns → Option String → Nat → P DevId

/-- The steps of `create`. -/
structure CreSteps where
  /-- sm:331-332 -/
  once : List Ns → Bool
  /-- sm:334-335 -/
  threshold : Int → Bool
  /-- sm:369-376 -/
  draw : List DevId → Nat → P DevId
  /-- sm:418-429 -/
  publish : Mgr → P Unit

def publishRight (M : Mgr) : P Unit := do
  Prog.forEach (← call .getBackends) fun ns => do
    let bundle ← call (.getBundle ns M.ownJid M.ownDev)
    call (.uploadBundle bundle)
  Prog.forEach (← call .getBackends) fun ns => refreshDeviceList M ns M.ownJid

def rightCre : CreSteps where
  once := fun bs => decide ((dedup bs).length = bs.length)
  threshold := fun n => decide (25 ≤ n ∧ n ≤ 99)
  draw := drawDeviceId
  publish := publishRight

def firstBy (S : CreSteps) (M : Mgr) (label : Option String) (ik : Bytes) (fuel : Nat) : P DevId := do
  let taken ← takenDeviceIds M.ownJid (← call .getBackends)
  let d ← S.draw taken fuel
  let M := { M with ownDev := d }
  storeOwnDevice M label ik (← call .getBackends)
  Prog.forEach (← call .getBackends) fun ns => call (.generatePreKeys ns 100)
  S.publish M
  pure d

/-- `create` with other steps. -/
def createBy (S : CreSteps) : Cre := fun M bs label fuel => do
  if S.once bs = false then throwE .valueError
  else if S.threshold M.threshold = false then throwE .valueError
  else do
    call (.setBackends bs)
    let ikp ← IdentityKeyPair.get
    call (.setSync true)
    let d ← onNothing
      (do Maybe.fromJust (← Sto.loadInt .ownDeviceId))
      (firstBy S M label (ikp.identityKey M.x) fuel)
    handleChangedBackends { M with ownDev := d }
    pure d

theorem bind_assoc' {α β γ : Type} (p : P α) (f : α → P β) (g : β → P γ) : (p >>= f) >>= g = p >>= fun a => f a >>= g := by
  induction p with
  | ret a => rfl
  | raise e => rfl
  | op o k ih => exact congrArg (Prog.op o) (funext fun r => ih r)

theorem createBy_right : createBy rightCre = create := by
  have h : firstBy rightCre = firstRun := by
    funext M label ik fuel
    unfold firstBy firstRun rightCre publishRight
    simp only [bind_assoc']
  funext M bs label fuel
  unfold createBy create
  rw [h]
  by_cases h1 : (dedup bs).length = bs.length <;> by_cases h2 : 25 ≤ M.threshold ∧ M.threshold ≤ 99 <;> simp [rightCre, h1, h2]

/-- C51 for a program. -/
def C51 (cre : Cre) : Prop :=
  ∀ (M : Mgr) (bs : List Ns) (label : Option String) (fuel : Nat) (t : List Ev) (r : Res Exn DevId), Exec (cre M bs label fuel) t r →
    (∀ e ∈ t, RandBelow e) → Guarded (FreshStored M.ownJid) t

theorem C51_create : C51 create := C51_fresh

/-- Any id is taken (sm:375-376: no comparison). -/
def drawAny (_ : List DevId) (_ : Nat) : P DevId := do
  let n ← call (.randBelow (DEVICE_ID_MAX - DEVICE_ID_MIN))
  pure ((n : Nat) + DEVICE_ID_MIN)

def colliding : Cre := createBy { rightCre with draw := drawAny }

/-- C52 for a program. -/
def C52 (cre : Cre) : Prop :=
  ∀ (M : Mgr) (bs : List Ns) (label : Option String) (fuel : Nat), ¬ ValidConfig bs M.threshold → ∀ (t : List Ev)
    (r : Res Exn DevId), Exec (cre M bs label fuel) t r → t = [] ∧ r = .raised .valueError

theorem C52_create : C52 create := C52_rejected

/-- Backends with the same namespace are accepted (sm:331-332 forgotten). -/
def ambiguous : Cre := createBy { rightCre with once := fun _ => true }

/-- A threshold of 24 is accepted (sm:334: off by one). -/
def permissive : Cre := createBy { rightCre with threshold := fun n => decide (24 ≤ n ∧ n ≤ 99) }

/-- C53 for a program. -/
def C53 (cre : Cre) : Prop :=
  ∀ (M : Mgr) (bs : List Ns) (label : Option String) (fuel : Nat) (t : List Ev) (r : Res Exn DevId), Exec (cre M bs label fuel) t r →
    BackendsStay t → Guarded (Announced M.ownJid) t

theorem C53_create : C53 create := C53_bundles_first

/-- The device is announced before its bundles are there (sm:421-429 the other way around). -/
def publishEarly (M : Mgr) : P Unit := do
  Prog.forEach (← call .getBackends) fun ns => refreshDeviceList M ns M.ownJid
  Prog.forEach (← call .getBackends) fun ns => do
    let bundle ← call (.getBundle ns M.ownJid M.ownDev)
    call (.uploadBundle bundle)

def boasting : Cre := createBy { rightCre with publish := publishEarly }

theorem C51_colliding : ¬ C51 colliding := by
  intro hc
  have ha := runProg_answers (Lib.env mirroring) Lib.next 300 (colliding Mgr.ex ["n", "o"] none 5) World.fresh
  have hn : (trial mirroring (colliding Mgr.ex ["n", "o"] none 5) World.fresh).1.all
    (fun e => match e with | ⟨.randBelow n, .ok k⟩ => decide (k < n) | _ => true) = true := by decide +kernel
  rw [List.all_eq_true] at hn
  have h := hc _ _ _ _ _ _ (trial_exec mirroring (colliding Mgr.ex ["n", "o"] none 5) World.fresh) (by
    rintro e he n k rfl
    exact of_decide_eq_true (hn _ he))
  obtain ⟨u, v, ht, ⟨e, he, hf⟩, hg⟩ := split_at (t := (trial mirroring (colliding Mgr.ex ["n", "o"] none 5) World.fresh).1)
    (f := fun e => match e with | ⟨.downloadList _ _, .ok dl⟩ => decide (1 ∈ Dict.keys dl) | _ => false)
    (g := fun e => match e.1 with | .store .ownDeviceId (.int d) => decide (d = 1) | _ => false) (by decide +kernel)
  cases v with
  | nil => cases he
  | cons e' v =>
    cases he
    obtain ⟨o, x⟩ := e
    cases o <;> try (cases hf; done)
    cases x with
    | error => cases hf
    | ok dl =>
      rw [List.any_cons] at hg
      obtain ⟨v1, ⟨o, a⟩, v2, rfl, hb⟩ := find (hg : v.any _ = true)
      cases o <;> try (cases hb; done)
      rename_i ns j k val
      cases k <;> try (cases hb; done)
      cases val <;> try (cases hb; done)
      cases of_decide_eq_true hb
      obtain ⟨d, h1, h2⟩ := h (u ++ ⟨.downloadList ns j, .ok dl⟩ :: v1) ⟨.store .ownDeviceId (.int 1), a⟩ v2 (by rw [ht]; simp) _ rfl
      cases h1
      exact h2.fresh ns j dl (List.mem_append_right _ List.mem_cons_self) (of_decide_eq_true hf)

theorem C52_ambiguous : ¬ C52 ambiguous := by
  intro hc
  have h := (hc Mgr.ex ["n", "n"] none 5 (fun h => by simpa using h.once) _ _
    (trial_exec genuine (ambiguous Mgr.ex ["n", "n"] none 5) World.fresh)).1
  have h1 : (trial genuine (ambiguous Mgr.ex ["n", "n"] none 5) World.fresh).1.isEmpty = false := by decide +kernel
  rw [h] at h1
  cases h1

theorem C52_permissive : ¬ C52 permissive := by
  intro hc
  have h := (hc { Mgr.ex with threshold := 24 } ["n"] none 5 (fun h => absurd h.low (by decide)) _ _
    (trial_exec genuine (permissive { Mgr.ex with threshold := 24 } ["n"] none 5) World.fresh)).1
  have h1 : (trial genuine (permissive { Mgr.ex with threshold := 24 } ["n"] none 5) World.fresh).1.isEmpty = false := by decide +kernel
  rw [h] at h1
  cases h1

theorem C53_boasting : ¬ C53 boasting := by
  intro hc
  have ha := runProg_answers (Lib.env genuine) Lib.next 300 (boasting Mgr.ex ["n", "o"] none 5) World.fresh
  have hb : (trial genuine (boasting Mgr.ex ["n", "o"] none 5) World.fresh).1.all
    (fun e => match e with | ⟨.getBackends, .ok bs⟩ => decide (bs = ["n", "o"]) | _ => true) = true := by decide +kernel
  rw [List.all_eq_true] at hb
  have h := hc _ _ _ _ _ _ (trial_exec genuine (boasting Mgr.ex ["n", "o"] none 5) World.fresh) fun bs bs' h1 h2 =>
    (of_decide_eq_true (hb _ h1)).trans (of_decide_eq_true (hb _ h2)).symm
  obtain ⟨u, ⟨o, a⟩, v, ht, he, hu⟩ := firstOf (t := (trial genuine (boasting Mgr.ex ["n", "o"] none 5) World.fresh).1)
    (f := fun e => match e.1 with | .uploadBundle .. => true | .uploadList .. => true | _ => false)
    (g := fun e => match e.1 with | .uploadList _ l => decide (1 ∈ Dict.keys l) | _ => false) (by decide +kernel)
  cases o <;> try (cases he; done)
  rcases h _ _ _ ht _ _ rfl 1 (of_decide_eq_true he) with ⟨dl, h1, h2⟩ | ⟨b, -, h1⟩
  · obtain ⟨w, h3⟩ := ha _ (show _ ∈ (trial genuine (boasting Mgr.ex ["n", "o"] none 5) World.fresh).1 by
      rw [ht]; exact List.mem_append_left _ h1)
    cases h3
    cases h2
  · cases hu _ h1

end Wrong
end Verif
