import Verif.Proofs.Account
import Verif.Proofs.SampleLife
/-
C90: whoever finds a device on a device list finds its bundle.
-/
namespace Verif
open Spec

/-- What holds of the fleet between calls. -/
def FleetOk (own : Jid) (f : Fleet) : Prop := AllBacked f.server ∧ ∀ i, New (f.devices i) ∨
  ∃ dev : DevId, (f.devices i).world.disk .ownDeviceId = some (.int dev) ∧ Sound own dev (f.devices i).world f.server ∧ (f.devices i).mgrs ≠ [] ∧
    ∀ M ∈ (f.devices i).mgrs, M.ownJid = own ∧ M.ownDev = dev

/-- Other devices still agree with the server. -/
theorem Sound.spared {own : Jid} {d dev : DevId} {w : World} {s s' : Account} (h : Sound own d w s) (hs : Spared dev s s') (hd : d ≠ dev) (hl : AllBacked s') :
    Sound own d w s' :=
  ⟨rfl, hl, fun n hn x => hs n d hd (h.loaded n hn x), fun n hn x => hs n d hd (h.stored n hn x)⟩

theorem Spec.New.ready {own : Jid} {u : Use} {s : Account} (h : New u) (hl : AllBacked s) : Ready own u.world s := by
  refine ⟨hl, .inl ⟨?_, fun d ns hn => ?_⟩⟩
  · cases hv : u.world.disk .ownDeviceId with
    | none => rfl
    | some v => rcases h.disk _ v hv with h | h <;> cases h
  · obtain ⟨l, hl, _⟩ := hn
    rcases h.disk _ _ hl with h | h <;> cases h

theorem run_net {own : Jid} {α : Type} {p : P α} {Q : Res Exn α → World × Account → Prop} {w w' : World} {s s' : Account} {t : List Ev} {r : Res Exn α}
    (h : wp (Net own) p Q (w, s)) (he : Exec p t r) (hr : Lib.Runs w t w') (hr' : (Online own).Runs s t s') : Q r (w', s') :=
  wp_sound h he (Sem.runs_prod.2 ⟨hr, hr'⟩)

theorem fleetOk_start {own : Jid} {f : Fleet} (h : f.Start) : FleetOk own f := ⟨h.server, fun i => .inl (h.devices i)⟩

/-- The other devices after a call on device `i`, whose id is `dev`. -/
theorem others_ok {own : Jid} {f : Fleet} {i : Nat} {u : Use} {s' : Account} {dev : DevId} {M : Mgr} (h : FleetOk own f) (hl : AllBacked s')
    (hs : Spared dev f.server s') (hM : M ∈ u.mgrs) (hdev : M.ownDev = dev) (hd : (f.after i u s').Distinct) (j : Nat) (hj : j ≠ i) :
    New ((f.after i u s').devices j) ∨ ∃ dev : DevId, ((f.after i u s').devices j).world.disk .ownDeviceId = some (.int dev) ∧
      Sound own dev ((f.after i u s').devices j).world s' ∧ ((f.after i u s').devices j).mgrs ≠ [] ∧
      ∀ M ∈ ((f.after i u s').devices j).mgrs, M.ownJid = own ∧ M.ownDev = dev := by
  have e : (f.after i u s').devices j = f.devices j := if_neg hj
  have ei : (f.after i u s').devices i = u := if_pos rfl
  rw [e]
  rcases h.2 j with h | ⟨d, h1, h2, h3, h4⟩
  · exact .inl h
  · refine .inr ⟨d, h1, h2.spared hs ?_ hl, h3, h4⟩
    obtain ⟨M', hM'⟩ := List.exists_mem_of_ne_nil _ h3
    rintro rfl
    refine hd i j (Ne.symm hj) M (by rw [ei]; exact hM) M' (by rw [e]; exact hM') ?_
    rw [hdev, (h4 M' hM').2]

/-- A call that keeps everything in order. -/
theorem fleetOk_step {own : Jid} {f f' : Fleet} {a : Act} (hst : Fleet.Step own f a f') (h : FleetOk own f) (hm : Modest a.mgr) (hc : Current own f a.call)
    (hdone : a.call.creates = true → a.done = true) (hd : f'.Distinct) : FleetOk own f' := by
  cases hst with
  | @create w' s' t r i M bs label fuel hj he hr hr' =>
    have hready : Ready own (f.devices i).world f.server := by
      rcases h.2 i with hn | ⟨dev, h1, h2, _⟩
      · exact hn.ready h.1
      · exact ⟨h.1, .inr ⟨dev, h1, h2⟩⟩
    have := run_net (sound_create hj hready) he hr hr'
    cases r with
    | raised e => cases hdone rfl
    | crashed => cases hdone rfl
    | ok d =>
      obtain ⟨h1, h2, h3, h4⟩ := this
      refine ⟨h1.listed, fun j => ?_⟩
      by_cases hji : j = i
      · subst hji
        have e : (f.after j ⟨w', (f.devices j).mgrs ++ returned M (.ok d)⟩ s').devices j = ⟨w', (f.devices j).mgrs ++ returned M (.ok d)⟩ := if_pos rfl
        rw [e]
        refine .inr ⟨d, h2, h1, ?_, fun M' hM' => ?_⟩
        · simp [returned]
        · rcases List.mem_append.1 hM' with hM' | hM'
          · rcases h.2 j with hn | ⟨dev, h5, _, _, h6⟩
            · rw [hn.mgrs] at hM'; cases hM'
            · rw [h4 dev h5]; exact h6 M' hM'
          · simp only [returned, List.mem_singleton] at hM'
            subst hM'
            exact ⟨hj, rfl⟩
      · exact others_ok h h1.listed h3 (M := { M with ownDev := d }) (by simp [returned]) rfl hd j hji
  | @call w' s' t r i M c hM hnc he hr hr' =>
    rcases h.2 i with hn | ⟨dev, h1, h2, h3, h4⟩
    · rw [hn.mgrs] at hM; cases hM
    obtain ⟨hj, hdev⟩ := h4 M hM
    have k := run_net (sound_call hj hdev hm c hnc (fun ns dl hcc => hc ns dl hcc) h2) he hr hr'
    have k' : w'.disk .ownDeviceId = some (.int dev) := run_net (call_id hj hm c hnc _ h1) he hr hr'
    refine ⟨k.1.listed, fun j => ?_⟩
    by_cases hji : j = i
    · subst hji
      have e : (f.after j ⟨w', (f.devices j).mgrs⟩ s').devices j = ⟨w', (f.devices j).mgrs⟩ := if_pos rfl
      rw [e]
      exact .inr ⟨dev, k', k.1, h3, h4⟩
    · exact others_ok (u := ⟨w', (f.devices i).mgrs⟩) h k.1.listed k.2 hM hdev hd j hji

/-- Managers stay. -/
theorem step_mgrs {own : Jid} {f f' : Fleet} {a : Act} (hst : Fleet.Step own f a f') (i : Nat) (M : Mgr) (hM : M ∈ (f.devices i).mgrs) : M ∈ (f'.devices i).mgrs := by
  cases hst with
  | @create w' s' t r j M' bs label fuel hj he hr hr' =>
    show M ∈ (if i = j then _ else _ : Use).mgrs
    split
    · rename_i h; subst h; exact List.mem_append_left _ hM
    · exact hM
  | @call w' s' t r j M' c _ hnc he hr hr' =>
    show M ∈ (if i = j then _ else _ : Use).mgrs
    split
    · rename_i h; subst h; exact hM
    · exact hM

theorem Spec.Fleet.Distinct.before {own : Jid} {f f' : Fleet} {a : Act} (hst : Fleet.Step own f a f') (hd : f'.Distinct) : f.Distinct :=
  fun i j hij M hM M' hM' => hd i j hij M (step_mgrs hst i M hM) M' (step_mgrs hst j M' hM')

theorem Spec.Fleet.Distinct.start {own : Jid} {P : Fleet → Act → Prop} {f f' : Fleet} {as : List Act} (h : Fleet.Life own P f as f') (hd : f'.Distinct) : f.Distinct := by
  induction h with
  | nil => exact hd
  | cons _ hst _ ih => exact (ih hd).before hst

/-- The condition under which a device list never has a device without a bundle. -/
def Orderly (own : Jid) (f : Fleet) (a : Act) : Prop := Modest a.mgr ∧ Current own f a.call ∧ (a.call.creates = true → a.done = true)

theorem fleetOk_life {own : Jid} {f f' : Fleet} {as : List Act} (h : Fleet.Life own (Orderly own) f as f') (hok : FleetOk own f) (hd : f'.Distinct) : FleetOk own f' := by
  induction h with
  | nil => exact hok
  | cons hP hst hrest ih => exact ih (fleetOk_step hst hok hP.1 hP.2.1 hP.2.2 (hd.start hrest)) hd

/-! ### C90 -/

/-- In any sequence of calls on the devices of an account, each ending in any way, at the end there is a bundle for each device on a device list. -/
def C90_Claim : Prop := ∀ (own : Jid) (f0 f : Fleet) (as : List Act), f0.Start → Fleet.Life own (fun _ a => Modest a.mgr) f0 as f → f.Distinct → AllBacked f.server

/-- The claim if the creation of a manager was not interrupted, except possibly as the very last thing, and if no outdated device lists are
passed in.  What is missing: see `C90_refuted` and `C90_refuted_outdated`.

The last call may end anywhere, so that this holds at any moment during a call. -/
theorem C90_partial (own : Jid) (f0 f1 f : Fleet) (as : List Act) (a : Act) (hs : f0.Start) (h : Fleet.Life own (Orderly own) f0 as f1)
    (hst : Fleet.Step own f1 a f) (hm : Modest a.mgr) (hc : Current own f1 a.call) (hd : f.Distinct) : AllBacked f.server := by
  have hok := fleetOk_life h (fleetOk_start hs) (hd.before hst)
  by_cases hdone : a.call.creates = true → a.done = true
  · exact (fleetOk_step hst hok hm hc hdone hd).1
  · cases hst with
    | @create w' s' t r i M bs label fuel hj he hr hr' =>
      have hready : Ready own (f1.devices i).world f1.server := by
        rcases hok.2 i with hn | ⟨dev, h1, h2, _⟩
        · exact hn.ready hok.1
        · exact ⟨hok.1, .inr ⟨dev, h1, h2⟩⟩
      have := run_net (sound_create hj hready) he hr hr'
      cases r with
      | raised e => exact this
      | crashed => exact this
      | ok d => exact (hdone fun _ => rfl).elim
    | @call w' s' t r i M c hM hnc he hr hr' =>
      refine (hdone fun h => ?_).elim
      cases c with
      | create bs l n => exact (hnc bs l n rfl).elim
      | _ => cases h

/-! ### Examples -/

/-- Answers: `s` is on the server, random numbers are `n`. -/
def served (n : Nat) (s : Account) (o : Op) : Except Exn o.Ret := match o with
  | .downloadList ns _ => .ok (s.lists ns)
  | .downloadBundle ns _ d => match s.bundles ns d with
    | some b => .ok b
    | none => .error .bundleNotFound
  | .getBundle ns j d => .ok ⟨ns, j, d, [UInt8.ofNat d.toNat], 0⟩
  | .uploadList .. => .ok ()
  | .uploadBundle _ => .ok ()
  | .deleteBundle .. => .ok ()
  | .purge _ => .ok ()
  | .generatePreKeys .. => .ok ()
  | .numVisible _ => .ok 100
  | .randBelow _ => .ok n
  | .tokenBytes _ => .ok [1]
  | _ => .error (.app 0)

def netEnv (n : Nat) (x : World × Account) (o : Op) : Except Exn o.Ret := Lib.env (fun _ => served n x.2) x.1 o

theorem netEnv_ok (n : Nat) (x : World × Account) (o : Op) : (Net "me").ok x ⟨o, netEnv n x o⟩ := by
  refine ⟨Lib.env_ok _ (fun w o e h => ?_) x.1 o, ?_⟩
  · cases o with
    | downloadBundle ns j d =>
      simp only [served] at h
      split at h <;> cases h
      rfl
    | _ => cases h <;> rfl
  · cases o with
    | downloadBundle ns j d =>
      have e : netEnv n x (.downloadBundle ns j d) = match x.2.bundles ns d with
        | some b => .ok b
        | none => .error .bundleNotFound := rfl
      rw [e]
      split
      · rename_i b hb; exact fun _ => hb
      · trivial
    | downloadList ns j => exact fun _ => rfl
    | getBundle ns j d => exact ⟨rfl, rfl, rfl⟩
    | _ => trivial

/-- A call of device `i`, cut off after `k` interactions. -/
def Fleet.act (f : Fleet) (n k i : Nat) (M : Mgr) (c : Call) : Fleet :=
  let x := runProg (netEnv n) (Net "me").next k (c.run M) ((f.devices i).world, f.server)
  f.after i ⟨x.2.2.1, (f.devices i).mgrs⟩ x.2.2.2

/-- `create` on device `i`, with the random number `n`, cut off after `k` interactions. -/
def Fleet.boot (f : Fleet) (n k i : Nat) (bs : List Ns) : Fleet :=
  let x := runProg (netEnv n) (Net "me").next k (SM.create Mgr.ex bs none 5) ((f.devices i).world, f.server)
  f.after i ⟨x.2.2.1, (f.devices i).mgrs ++ returned Mgr.ex x.2.1⟩ x.2.2.2

theorem Fleet.act_step (f : Fleet) (n k i : Nat) (M : Mgr) (c : Call) (hM : M ∈ (f.devices i).mgrs) (hc : ∀ bs l n, c ≠ .create bs l n) :
    ∃ d, Fleet.Step "me" f ⟨i, M, c, d⟩ (Fleet.act f n k i M c) := by
  have h := Sem.runs_prod.1 (runProg_runs (Net "me") (netEnv n) (netEnv_ok n) k (c.run M) ((f.devices i).world, f.server))
  exact ⟨_, .call i M c hM hc (runProg_exec ..) h.1 h.2⟩

theorem Fleet.boot_step (f : Fleet) (n k i : Nat) (bs : List Ns) :
    Fleet.Step "me" f ⟨i, Mgr.ex, .create bs none 5, Done (runProg (netEnv n) (Net "me").next k (SM.create Mgr.ex bs none 5) ((f.devices i).world, f.server)).2.1⟩
      (Fleet.boot f n k i bs) := by
  have h := Sem.runs_prod.1 (runProg_runs (Net "me") (netEnv n) (netEnv_ok n) k (SM.create Mgr.ex bs none 5) ((f.devices i).world, f.server))
  exact .create i Mgr.ex bs none 5 rfl (runProg_exec ..) h.1 h.2

/-- Nothing on the server, the library not used on any device. -/
def Fleet.fresh : Fleet := ⟨⟨fun _ => [], fun _ _ => none⟩, fun _ => Use.fresh⟩

theorem Fleet.fresh_start : Fleet.fresh.Start := ⟨fun _ _ h => (nomatch h), fun _ => fresh_new⟩

theorem Fleet.distinct {f : Fleet} (h : ∀ i, ∀ M ∈ (f.devices i).mgrs, M.ownDev = (i : Int) + 1) : f.Distinct := by
  intro i j hij M hM M' hM' he
  have : (i : Int) + 1 = (j : Int) + 1 := ((h i M hM).symm.trans he).trans (h j M' hM')
  omega

theorem Fleet.after_mgrs {f : Fleet} {i : Nat} {u : Use} {s : Account} (h : ∀ i, ∀ M ∈ (f.devices i).mgrs, M.ownDev = (i : Int) + 1)
    (hu : ∀ M ∈ u.mgrs, M.ownDev = (i : Int) + 1) : ∀ j, ∀ M ∈ ((f.after i u s).devices j).mgrs, M.ownDev = (j : Int) + 1 := by
  intro j M hM
  change M ∈ (if j = i then u else f.devices j).mgrs at hM
  split at hM
  · rename_i hj; subst hj; exact hu M hM
  · exact h j M hM

theorem Fleet.boot_mgrs {f : Fleet} {n k i : Nat} {bs : List Ns} (h : ∀ i, ∀ M ∈ (f.devices i).mgrs, M.ownDev = (i : Int) + 1)
    (hr : ∀ M ∈ returned Mgr.ex (runProg (netEnv n) (Net "me").next k (SM.create Mgr.ex bs none 5) ((f.devices i).world, f.server)).2.1, M.ownDev = (i : Int) + 1) :
    ∀ j, ∀ M ∈ ((Fleet.boot f n k i bs).devices j).mgrs, M.ownDev = (j : Int) + 1 :=
  Fleet.after_mgrs h fun M hM => (List.mem_append.1 hM).elim (h i M) (hr M)

theorem Fleet.act_mgrs {f : Fleet} {n k i : Nat} {M : Mgr} {c : Call} (h : ∀ i, ∀ M ∈ (f.devices i).mgrs, M.ownDev = (i : Int) + 1) :
    ∀ j, ∀ M' ∈ ((Fleet.act f n k i M c).devices j).mgrs, M'.ownDev = (j : Int) + 1 := Fleet.after_mgrs h fun M' hM' => h i M' hM'

theorem Fleet.fresh_mgrs : ∀ i, ∀ M ∈ (Fleet.fresh.devices i).mgrs, M.ownDev = (i : Int) + 1 := by
  intro i M hM
  cases hM

/-- The manager of the second device. -/
def Mgr.ex2 : Mgr := { Mgr.ex with ownDev := 2 }

theorem modest_ex : Modest Mgr.ex := by
  intro ds i t r he e hm
  cases he
  cases hm

theorem modest_ex2 : Modest Mgr.ex2 := modest_ex

/-- `create` is interrupted after the own device was stored, but before its bundle was uploaded.  The next `create` finds nothing to do.
Then the device puts itself on the device list. -/
def stuck1 : Fleet := Fleet.boot Fleet.fresh 0 20 0 ["n"]
def stuck2 : Fleet := Fleet.boot stuck1 0 100 0 ["n"]
def stuck3 : Fleet := Fleet.act stuck2 0 100 0 Mgr.ex (.refreshDeviceList "n" "me")

theorem stuck2_mgrs : (stuck2.devices 0).mgrs = [Mgr.ex] := by
  show (stuck1.devices 0).mgrs ++ returned _ _ = _
  have h1 : (stuck1.devices 0).mgrs = [] := by
    show ([] : List Mgr) ++ returned _ _ = _
    rw [show (runProg (netEnv 0) (Net "me").next 20 (SM.create Mgr.ex ["n"] none 5) ((Fleet.fresh.devices 0).world, Fleet.fresh.server)).2.1 = .crashed by decide +kernel]
    rfl
  rw [h1, show (runProg (netEnv 0) (Net "me").next 100 (SM.create Mgr.ex ["n"] none 5) ((stuck1.devices 0).world, stuck1.server)).2.1 = .ok 1 by decide +kernel]
  rfl

theorem C90_refuted : ¬ C90_Claim := by
  intro h
  obtain ⟨d, h3⟩ := Fleet.act_step stuck2 0 100 0 Mgr.ex (.refreshDeviceList "n" "me") (by rw [stuck2_mgrs]; simp) nofun
  have := h "me" Fleet.fresh stuck3 _ Fleet.fresh_start
    (.cons modest_ex (Fleet.boot_step Fleet.fresh 0 20 0 ["n"]) (.cons modest_ex (Fleet.boot_step stuck1 0 100 0 ["n"]) (.cons modest_ex h3 (.nil _))))
    (Fleet.distinct (Fleet.act_mgrs (Fleet.boot_mgrs (Fleet.boot_mgrs Fleet.fresh_mgrs (by decide +kernel)) (by decide +kernel))))
    "n" 1 (by decide +kernel)
  revert this
  unfold Backed
  decide +kernel

/-- Two devices; the second one is created first, and later removes its backend. -/
def pair1 : Fleet := Fleet.boot Fleet.fresh 1 200 1 ["n"]
def pair2 : Fleet := Fleet.boot pair1 0 200 0 ["n"]
def pair3 : Fleet := Fleet.act pair2 0 200 1 Mgr.ex2 (.purgeBackend "n")
/-- The first device is given the device list as it was before it joined. -/
def pair4 : Fleet := Fleet.act pair3 0 200 0 Mgr.ex (.updateDeviceList "n" "me" [(2, none)])
/-- The first device is given the device list on the server. -/
def pair4' : Fleet := Fleet.act pair3 0 200 0 Mgr.ex (.updateDeviceList "n" "me" [(1, none)])

theorem pair_mgrs : (pair2.devices 0).mgrs = [Mgr.ex] ∧ (pair2.devices 1).mgrs = [Mgr.ex2] := by
  have h1 : (pair1.devices 1).mgrs = [Mgr.ex2] := by
    show ([] : List Mgr) ++ returned _ _ = _
    rw [show (runProg (netEnv 1) (Net "me").next 200 (SM.create Mgr.ex ["n"] none 5) ((Fleet.fresh.devices 1).world, Fleet.fresh.server)).2.1 = .ok 2 by decide +kernel]
    rfl
  refine ⟨?_, h1⟩
  show (pair1.devices 0).mgrs ++ returned _ _ = _
  rw [show (runProg (netEnv 0) (Net "me").next 200 (SM.create Mgr.ex ["n"] none 5) ((pair1.devices 0).world, pair1.server)).2.1 = .ok 1 by decide +kernel]
  rfl

theorem pair2_ids : ∀ i, ∀ M ∈ (pair2.devices i).mgrs, M.ownDev = (i : Int) + 1 :=
  Fleet.boot_mgrs (Fleet.boot_mgrs Fleet.fresh_mgrs (by decide +kernel)) (by decide +kernel)

/-- No call is interrupted, but an outdated device list is passed in. -/
theorem C90_refuted_outdated : ∃ as, Fleet.Life "me" (fun _ a => Modest a.mgr ∧ (a.call.creates = true → a.done = true)) Fleet.fresh as pair4 ∧
    pair4.Distinct ∧ ¬ AllBacked pair4.server := by
  obtain ⟨d, h3⟩ := Fleet.act_step pair2 0 200 1 Mgr.ex2 (.purgeBackend "n") (by rw [pair_mgrs.2]; simp) nofun
  obtain ⟨d', h4⟩ := Fleet.act_step pair3 0 200 0 Mgr.ex (.updateDeviceList "n" "me" [(2, none)])
    (by show Mgr.ex ∈ (pair2.devices 0).mgrs; rw [pair_mgrs.1]; simp) nofun
  refine ⟨_, .cons ⟨modest_ex, fun _ => ?_⟩ (Fleet.boot_step Fleet.fresh 1 200 1 ["n"]) (.cons ⟨modest_ex, fun _ => ?_⟩ (Fleet.boot_step pair1 0 200 0 ["n"])
    (.cons ⟨modest_ex2, fun h => by cases h⟩ h3 (.cons ⟨modest_ex, fun h => by cases h⟩ h4 (.nil _)))), Fleet.distinct (Fleet.act_mgrs (Fleet.act_mgrs pair2_ids)), fun h => ?_⟩
  · decide +kernel
  · decide +kernel
  · have := h "n" 2 (by decide +kernel)
    revert this
    unfold Backed
    decide +kernel

/-- With the device list on the server, everything is in order: one device is left, with its bundle. -/
theorem C90_example : ∃ as a, Fleet.Life "me" (Orderly "me") Fleet.fresh as pair3 ∧ as.length = 3 ∧ Fleet.Step "me" pair3 a pair4' ∧ AllBacked pair4'.server ∧
    Dict.keys (pair2.server.lists "n") = [2, 1] ∧ Dict.keys (pair4'.server.lists "n") = [1] := by
  obtain ⟨d, h3⟩ := Fleet.act_step pair2 0 200 1 Mgr.ex2 (.purgeBackend "n") (by rw [pair_mgrs.2]; simp) nofun
  obtain ⟨d', h4⟩ := Fleet.act_step pair3 0 200 0 Mgr.ex (.updateDeviceList "n" "me" [(1, none)])
    (by show Mgr.ex ∈ (pair2.devices 0).mgrs; rw [pair_mgrs.1]; simp) nofun
  have hl : Fleet.Life "me" (Orderly "me") Fleet.fresh _ pair3 :=
    .cons ⟨modest_ex, (fun _ _ h => by cases h), fun _ => by decide +kernel⟩ (Fleet.boot_step Fleet.fresh 1 200 1 ["n"])
      (.cons ⟨modest_ex, (fun _ _ h => by cases h), fun _ => by decide +kernel⟩ (Fleet.boot_step pair1 0 200 0 ["n"])
      (.cons ⟨modest_ex2, (fun _ _ h => by cases h), fun h => by cases h⟩ h3 (.nil _)))
  refine ⟨_, _, hl, rfl, h4, C90_partial "me" _ _ _ _ _ Fleet.fresh_start hl h4 modest_ex ?_ (Fleet.distinct (Fleet.act_mgrs (Fleet.act_mgrs pair2_ids))),
    by decide +kernel, by decide +kernel⟩
  rintro ns dl he d hd
  cases he
  cases List.mem_singleton.1 hd
  show Option.isSome _ = true
  decide +kernel

end Verif
