import Verif.Props.StockPar
import Verif.Wrong.Life
import Verif.Wrong.Lookup
/-
Wrong programs for what holds of the claims about calls that run together (C17, C18, C104).  See Wrong/Encrypt.lean for the method.
-/
namespace Verif
namespace Wrong
open SM Spec

/-- A call of one of the methods `K`, with its execution. -/
structure RunningBy (K : Code) where
  M : Mgr
  c : Call
  trace : List Ev
  res : Res Exn Unit
  exec : Exec (K.run M c) trace res

def RunningBy.toReal (k : RunningBy real) : Running := ⟨k.M, k.c, k.trace, k.res, real_run k.M k.c ▸ k.exec⟩

/-- One call in a deterministic world, in which the process may die after `n` interactions. -/
def RunningBy.cut (K : Code) (n : Nat) (c : Call) (w : World) : RunningBy K := ⟨Mgr.ex, c, _, _, Friendly.genuine.cut_exec n (K.run Mgr.ex c) w⟩

/-- C17, what holds of it, for other methods. -/
def C17 (K : Code) : Prop :=
  ∀ (own : Jid) (w w' : World) (calls : List (RunningBy K)) (t : List Ev), Shuffle (calls.map (·.trace)) t → Lib.Runs w t w' → WellFormed own w.disk →
    (∀ k ∈ calls, Legit own w.disk k.M ∧ (∀ jid, k.c ≠ .purgeBareJid jid) ∧ (w.disk .ownDeviceId ≠ none ∨ ∀ bs l f, k.c ≠ .create bs l f)) →
    ∀ j d, Known w.disk j d → Known w'.disk j d

/-- C18, what holds of it, for other methods. -/
def C18 (K : Code) : Prop :=
  ∀ (own : Jid) (w w' : World) (calls : List (RunningBy K)) (t : List Ev), Shuffle (calls.map (·.trace)) t → Lib.Runs w t w' → WellFormed own w.disk →
    (∀ k ∈ calls, Legit own w.disk k.M ∧ ∀ jid, k.c ≠ .purgeBareJid jid) →
    WellFormed own w'.disk ∧ ∀ k ∈ calls, k.res ≠ .raised .nothingException ∧ k.res ≠ .raised .typeError

theorem C17_real : C17 real := fun own w w' calls t hs hr hw hc =>
  C17_known_stay_known_partial own w w' (calls.map RunningBy.toReal) t (by simpa [List.map_map, Function.comp_def, RunningBy.toReal] using hs) hr hw
    (fun k hk => by obtain ⟨k', hk', rfl⟩ := List.mem_map.1 hk; exact hc k' hk')

theorem C18_real : C18 real := fun own w w' calls t hs hr hw hc => by
  have := C18_complete_partial own w w' (calls.map RunningBy.toReal) t (by simpa [List.map_map, Function.comp_def, RunningBy.toReal] using hs) hr hw
    (fun k hk => by obtain ⟨k', hk', rfl⟩ := List.mem_map.1 hk; exact hc k' hk')
  exact ⟨this.1, fun k hk => this.2 k.toReal (List.mem_map.2 ⟨k, hk, rfl⟩)⟩

/-- The devices that were stored, and are not on the new list, are lost. -/
theorem C17_dropping : ¬ C17 droppingCode := by
  intro hc
  obtain ⟨l, h1, h2⟩ := hc "me" World.three _ [.cut droppingCode 1000 (.updateDeviceList "n" "a" [(9, none)]) World.three] _ (shuffle_sole _)
    (Friendly.genuine.cut_runs 1000 _ _) World.three_wellFormed
    (fun k hk => by cases List.mem_singleton.1 hk; exact ⟨Mgr.ex_legit, nofun, .inr nofun⟩) "a" 7 ⟨[7], rfl, by simp⟩
  have h3 : (Friendly.genuine.cut 1000 (droppingCode.run Mgr.ex (.updateDeviceList "n" "a" [(9, none)])) World.three).2.2.disk (.devList "a") =
    some (.ofInts [9]) := rfl
  rw [h3] at h1
  cases ofInts_inj (Option.some.inj h1)
  simp at h2

/-- C18 is false if a call leaves a device that is known, but has no label. -/
theorem C18_not {K : Code} (n : Nat)
    (h1 : (Friendly.genuine.cut n (K.run Mgr.ex (.updateDeviceList "n" "a" [(9, none)])) World.three).2.2.disk (.devList "a") = some (.ofInts [9, 7]))
    (h2 : (Friendly.genuine.cut n (K.run Mgr.ex (.updateDeviceList "n" "a" [(9, none)])) World.three).2.2.disk (.devLabel "a" 9) = none) : ¬ C18 K := by
  intro hc
  have h := (hc "me" World.three _ [.cut K n (.updateDeviceList "n" "a" [(9, none)]) World.three] _ (shuffle_sole _)
    (Friendly.genuine.cut_runs n _ _) World.three_wellFormed
    (fun k hk => by cases List.mem_singleton.1 hk; exact ⟨Mgr.ex_legit, nofun⟩)).1
  obtain ⟨-, -, l, hl⟩ := h.listed "a" 9 ⟨_, h1, by simp⟩
  unfold Labelled at hl
  rw [h2] at hl
  cases hl

/-- The list is stored before the data of the devices that are new on it (sm:1091-1096 before sm:1047-1051). -/
def announcing : Upd := fun M ns jid dl => do
  let bs ← call .getBackends
  if ns ∉ bs then throwE .unknownNamespace
  else do
    let newList := dl.keys
    let oldList := dedup (Maybe.maybe (← Sto.loadInts (.devList jid)) [])
    let newDevices := setDiff newList oldList
    let dl' ← ensureOwnListed M ns jid dl
    Prog.when (newDevices.length > 0) do
      call (.store (.devList jid) (.ofInts (M.O.iter (setUnion newList oldList))))
    Prog.forEach (M.O.iter newDevices) (addNewDevice ns jid dl')
    Prog.forEach (M.O.iter oldList) (updateKnownDevice M ns jid dl')

/-- The label of a new device is not stored. -/
def nameless : Upd := updateBy { rightUpd with fresh := fun ns jid _ d => do
  call (.store (.devNamespaces jid d) (.ofStrs [ns]))
  call (.store (.devActive jid d) (.ofBools [(ns, true)])) }

theorem C18_announcing : ¬ C18 (.updating announcing) := C18_not 4 rfl rfl
theorem C18_nameless : ¬ C18 (.updating nameless) := C18_not 1000 rfl rfl

/-! ### C104: pre keys are replaced -/

/-- C104, once the calls have ended, for other methods. -/
def C104 (K : Code) : Prop :=
  ∀ (thr : Int) (ns : Ns) (calls : List (RunningBy K)) (h t : List Ev), (∀ st, Counted h st → thr < (st ns : Int)) →
    (∀ k ∈ calls, (thr ≤ k.M.threshold ∧ k.M.threshold ≤ 99 ∧ LeavesKeys k.M ∧ (∀ bs l f, k.c ≠ .create bs l f) ∧ k.c ≠ .purgeBackend ns) ∧ k.res ≠ .crashed) →
    Shuffle (calls.map (·.trace)) t → NoneFailed t → ∀ st : Ns → Nat, Counted (h ++ t) st → thr < (st ns : Int)

theorem C104_real : C104 real := fun thr ns calls h t hh hc hs hn st hst =>
  C104_done thr ns (calls.map RunningBy.toReal) h t hh
    (fun k hk => by
      obtain ⟨k', hk', rfl⟩ := List.mem_map.1 hk
      obtain ⟨⟨h1, h2, h3, h4, h5⟩, h6⟩ := hc k' hk'
      exact ⟨⟨h1, h2, h3, h4, h5⟩, h6⟩)
    (by simpa [List.map_map, Function.comp_def, RunningBy.toReal] using hs) hn st hst

/-- A key exchange is received. -/
def taken (K : Code) := Stock.world.run (K.run Mgr.ex (.decrypt StockPar.kexA)) Stock.received.world

theorem C104_not {K : Code} (h1 : (match (taken K).2.1 with | .crashed => false | _ => true) = true) (h2 : Stock.NoneFailedB (taken K).1 = true)
    (h3 : (Stock.tally (fun _ => 0) (Stock.received.world.log ++ (taken K).1)).map (fun s => decide (s "n" ≤ 99)) = some true) : ¬ C104 K := by
  intro hc
  obtain ⟨st, h4, h5⟩ := Option.map_eq_some_iff.1 h3
  have := hc 99 "n" [⟨Mgr.ex, .decrypt StockPar.kexA, (taken K).1, (taken K).2.1, Stock.world.exec _ _⟩] Stock.received.world.log (taken K).1
    (fun st h => (StockPar.start st h).1)
    (fun k hk => by
      cases List.mem_singleton.1 hk
      refine ⟨⟨show (99 : Int) ≤ Mgr.ex.threshold by decide, show Mgr.ex.threshold ≤ 99 by decide, fun _ _ => AllOps.ret _, nofun, nofun⟩, fun h => ?_⟩
      change (taken K).2.1 = .crashed at h
      rw [h] at h1
      cases h1)
    (shuffle_sole _) (Stock.noneFailed h2) st (Stock.tallied h4)
  have h5 := of_decide_eq_true h5
  omega

/-- Pre keys are not replaced (sm:2215-2218 forgotten). -/
def spending : Dec := decryptBy fun M => { rightly M with consume := fun ns session => do
  let sync : Bool ← call .getSync
  let changed ← discardPreKey ns sync session
  Prog.when (changed = true) do
    let bundle ← call (.getBundle ns M.ownJid M.ownDev)
    call (.uploadBundle bundle) }

/-- Pre keys are replaced only if there are fewer than the threshold (sm:2216: `<` in place of `<=`). -/
def grudging : Dec := decryptBy fun M => { rightly M with consume := fun ns session => do
  let sync : Bool ← call .getSync
  let changed ← discardPreKey ns sync session
  Prog.when (changed = true) do
    let n ← call (.numVisible ns)
    Prog.when (n < M.threshold) (call (.generatePreKeys ns (100 - n)))
    let bundle ← call (.getBundle ns M.ownJid M.ownDev)
    call (.uploadBundle bundle) }

/-- Pre keys are counted before one is given up. -/
def foresighted : Dec := decryptBy fun M => { rightly M with consume := fun ns session => do
  let sync : Bool ← call .getSync
  refillPreKeys M ns
  let changed ← discardPreKey ns sync session
  Prog.when (changed = true) do
    let bundle ← call (.getBundle ns M.ownJid M.ownDev)
    call (.uploadBundle bundle) }

theorem C104_spending : ¬ C104 (.decrypting spending) := C104_not (by decide +kernel) (by decide +kernel) (by decide +kernel)
theorem C104_grudging : ¬ C104 (.decrypting grudging) := C104_not (by decide +kernel) (by decide +kernel) (by decide +kernel)
theorem C104_foresighted : ¬ C104 (.decrypting foresighted) := C104_not (by decide +kernel) (by decide +kernel) (by decide +kernel)

end Wrong
end Verif
