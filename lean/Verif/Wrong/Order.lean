import Verif.Props.Order
import Verif.Wrong.Info
/-
Wrong programs whose results depend on the order in which sets are iterated over, and the claim that rejects them (C122).  See
Wrong/Encrypt.lean for the method.
-/
namespace Verif
namespace Wrong
open SM Spec

/-! ### The claims -/

/-- C122 for a program in place of `get_device_information`. -/
def C122i (info : Inf) : Prop :=
  ∀ (M M' : Mgr) (jid : Jid) (t t' : List Ev) (w w1 w2 : World) (devs devs' : List DeviceInfo), M'.undecided = M.undecided →
    Typed w.disk → Exec (info M jid) t (.ok devs) → Lib.Runs w t w1 → Exec (info M' jid) t' (.ok devs') → Lib.Runs w t' w2 → SameBundles t t' →
    (∀ dev ∈ devs, ∃ dev' ∈ devs', SameDevice dev dev') ∧ ∀ dev' ∈ devs', ∃ dev ∈ devs, SameDevice dev' dev

theorem C122i_info : C122i getDeviceInformation := C122_info

/-- C122 for a program in place of `update_device_list`. -/
def C122u (upd : Upd) : Prop :=
  ∀ (M M' : Mgr) (ns : Ns) (jid : Jid) (dl : DevList) (t t' : List Ev) (w w1 w2 : World), M'.ownJid = M.ownJid → M'.ownDev = M.ownDev →
    Typed w.disk → Exec (upd M ns jid dl) t (.ok ()) → Lib.Runs w t w1 → Exec (upd M' ns jid dl) t' (.ok ()) → Lib.Runs w t' w2 →
    SameStored jid w1.disk w2.disk

theorem C122u_update : C122u updateDeviceList := C122_update

/-- C122 for a program in place of `encrypt`. -/
def C122e (enc : Enc) : Prop :=
  ∀ (M M' : Mgr) (jids jids' : List Jid) (pt pt' : Dict Ns Bytes) (prio : Option (List Ns)) (i i' : Option String) (t t' : List Ev)
    (w w1 w2 : World) (msgs msgs' : Dict Message PlainKM) (errs errs' : List EncError), M'.ownJid = M.ownJid → M'.ownDev = M.ownDev →
    (∀ j, j ∈ jids ↔ j ∈ jids') → CallbackQuiet M.decide → CallbackQuiet M'.decide → Typed w.disk → w.backends.Nodup →
    Exec (enc M jids pt prio i) t (.ok (msgs, errs)) → Lib.Runs w t w1 → (∀ e ∈ t, ∀ bs, e.1 ≠ .setBackends bs) → Addressed t →
    Exec (enc M' jids' pt' prio i') t' (.ok (msgs', errs')) → Lib.Runs w t' w2 → (∀ e ∈ t', ∀ bs, e.1 ≠ .setBackends bs) →
    Addressed t' → SameBundles t t' → SameTrust t t' → ∀ (j : Jid) (d : DevId) (ns : Ns),
    Selected msgs errs j d ns ↔ Selected msgs' errs' j d ns

theorem C122e_encrypt : C122e encrypt := C122_encrypt

/-! ### The programs -/

/-- Updating the known devices ends with the first one that is not on the list (sm:1084: `break` after it). -/
def untilGone (M : Mgr) (ns : Ns) (jid : Jid) (dl : DevList) : List DevId → P Unit
  | [] => pure ()
  | d :: ds => do
    updateKnownDevice M ns jid dl d
    if dl.get d = none then pure () else untilGone M ns jid dl ds

def stopping : Upd := fun M ns jid dl => do
  let bs ← call .getBackends
  if ns ∉ bs then throwE .unknownNamespace
  else do
    let newList := dl.keys
    let oldList := dedup (Maybe.maybe (← Sto.loadInts (.devList jid)) [])
    let newDevices := setDiff newList oldList
    let dl' ← ensureOwnListed M ns jid dl
    Prog.forEach (M.O.iter newDevices) (addNewDevice ns jid dl')
    untilGone M ns jid dl' (M.O.iter oldList)
    Prog.when (newDevices.length > 0) do
      call (.store (.devList jid) (.ofInts (M.O.iter (setUnion newList oldList))))

/-- Any active namespace is used (sm:1797-1800: not sorted by the order). -/
def preferAny (M : Mgr) (order : List Ns) (dev : DeviceInfo) : Except Exn DeviceInfo :=
  (activeNamespaces dev).map fun active => { dev with namespaces := ((M.O.iter active).filter fun ns => decide (ns ∈ order)).take 1 }

def unsorted : Enc := encryptBy fun M => { right M with prefer := preferAny M }

/-! ### Refutations -/

theorem keyless_typed : Typed World.keyless.disk := by
  intro k v h
  unfold World.keyless at h
  dsimp only at h
  split at h <;> first | (cases h; done) | (cases h; exact ⟨_, rfl⟩)

/-- Bundles are found for "o" only. -/
theorem halfGone_bundles {α β : Type} (p : P α) (p' : P β) (w w' : World) : SameBundles (trial halfGone p w).1 (trial halfGone p' w').1 := by
  have h := runProg_answers (Lib.env halfGone) Lib.next 300 p w
  have h' := runProg_answers (Lib.env halfGone) Lib.next 300 p' w'
  have key : ∀ {u : World} {ns j d b}, Except.ok b = Lib.env halfGone u (.downloadBundle ns j d) → ns ≠ "n" ∧ b.identityKey = [UInt8.ofNat d.toNat] := by
    intro u ns j d b hb
    change Except.ok b = (if ns = "n" then Except.error Exn.bundleNotFound else .ok (⟨ns, j, d, [UInt8.ofNat d.toNat], 0⟩ : Bundle)) at hb
    split at hb
    · cases hb
    · cases hb; exact ⟨‹_›, rfl⟩
  have bad : ∀ {u : World} {ns j d e}, Except.error e = Lib.env halfGone u (.downloadBundle ns j d) → ns = "n" := by
    intro u ns j d b hb
    change Except.error b = (if ns = "n" then Except.error Exn.bundleNotFound else .ok (⟨ns, j, d, [UInt8.ofNat d.toNat], 0⟩ : Bundle)) at hb
    split at hb
    · assumption
    · cases hb
  refine ⟨fun ns ns' j d b b' h1 h2 => ?_, fun ns j d b h1 h2 => ?_, fun ns j d b h1 h2 => ?_⟩
  · obtain ⟨_, h1⟩ := h _ h1
    obtain ⟨_, h2⟩ := h' _ h2
    rw [(key h1).2, (key h2).2]
  · obtain ⟨_, h1⟩ := h _ h1
    rcases h2 with h2 | h2 <;> obtain ⟨_, h2⟩ := h' _ h2 <;> exact (key h1).1 (bad h2)
  · obtain ⟨_, h1⟩ := h' _ h1
    rcases h2 with h2 | h2 <;> obtain ⟨_, h2⟩ := h _ h2 <;> exact (key h1).1 (bad h2)

/-- Only the first bundle is tried: whether the device is found depends on which one is the first. -/
theorem C122i_halfhearted : ¬ C122i halfhearted := by
  intro hc
  have h1 : (trial halfGone (halfhearted Mgr.ex "a") World.keyless).2.1 = .ok [] := by decide +kernel
  have h2 : (trial halfGone (halfhearted Mgr.rev "a") World.keyless).2.1 =
    .ok [⟨["n", "o"], [("n", true), ("o", true)], "a", 7, [7], "undecided", none⟩] := by decide +kernel
  obtain ⟨dev, h, -⟩ := (hc Mgr.ex Mgr.rev "a" _ _ World.keyless _ _ _ _ rfl keyless_typed (h1 ▸ trial_exec halfGone (halfhearted Mgr.ex "a") World.keyless)
    (trial_runs halfGone_ok _ _) (h2 ▸ trial_exec halfGone (halfhearted Mgr.rev "a") World.keyless) (trial_runs halfGone_ok _ _)
    (halfGone_bundles _ _ _ _)).2 _ (.head _)
  cases h

/-- Two devices of "a", both active for "n". -/
def World.pair : World := ⟨fun k => match k with
  | .devList "a" => some (.ofInts [7, 8])
  | .devNamespaces "a" 7 => some (.ofStrs ["n"])
  | .devActive "a" 7 => some (.ofBools [("n", true)])
  | .devLabel "a" 7 => some (.ofOptStr none)
  | .devNamespaces "a" 8 => some (.ofStrs ["n"])
  | .devActive "a" 8 => some (.ofBools [("n", true)])
  | .devLabel "a" 8 => some (.ofOptStr none)
  | _ => none, ["n", "o"], false, []⟩

theorem pair_typed : Typed World.pair.disk := by
  intro k v h
  unfold World.pair at h
  dsimp only at h
  split at h <;> first | (cases h; done) | (cases h; exact ⟨_, rfl⟩)

/-- The rest is not updated: which devices that is depends on the order. -/
theorem C122u_stopping : ¬ C122u stopping := by
  intro hc
  have h1 : (trial genuine (stopping Mgr.ex "n" "a" []) World.pair).2.1 = .ok () := by decide +kernel
  have h2 : (trial genuine (stopping Mgr.rev "n" "a" []) World.pair).2.1 = .ok () := by decide +kernel
  have h := hc Mgr.ex Mgr.rev "n" "a" [] _ _ World.pair _ _ rfl rfl pair_typed (h1 ▸ trial_exec genuine (stopping Mgr.ex "n" "a" []) World.pair)
    (trial_runs genuine_ok _ _) (h2 ▸ trial_exec genuine (stopping Mgr.rev "n" "a" []) World.pair) (trial_runs genuine_ok _ _)
  have hk : Known (trial genuine (stopping Mgr.ex "n" "a" []) World.pair).2.2.disk "a" 8 := ⟨[7, 8], rfl, by simp⟩
  have h3 : Activity (trial genuine (stopping Mgr.ex "n" "a" []) World.pair).2.2.disk "a" 8 "n" true := ⟨[("n", true)], rfl, rfl⟩
  obtain ⟨a, h4, h5⟩ := (h.active 8 hk "n" true).1 h3
  have h6 : (trial genuine (stopping Mgr.rev "n" "a" []) World.pair).2.2.disk (.devActive "a" 8) = some (.ofBools [("n", false)]) := rfl
  rw [h6] at h4
  cases ofBools_inj (Option.some.inj h4)
  cases h5

/-- The backend depends on the order. -/
theorem C122e_unsorted : ¬ C122e unsorted := by
  intro hc
  let run (M : Mgr) := Friendly.mixed.run (unsorted M ["a"] [("n", [1]), ("o", [1])] none none) World.keyless
  obtain ⟨⟨msgs, errs⟩, h1⟩ := runs_ok (r := (run Mgr.ex).2.1) (by decide +kernel)
  obtain ⟨⟨msgs', errs'⟩, h2⟩ := runs_ok (r := (run Mgr.rev).2.1) (by decide +kernel)
  have hset (M : Mgr) (h : (run M).1.all settled = true) : ∀ e ∈ (run M).1, ∀ bs, e.1 ≠ .setBackends bs := by
    rintro ⟨o, r⟩ he bs rfl
    cases List.all_eq_true.1 h _ he
  have h := hc Mgr.ex Mgr.rev ["a"] ["a"] _ _ none none none _ _ World.keyless _ _ msgs msgs' errs errs' rfl rfl (fun _ => Iff.rfl) Mgr.ex_quiet
      Mgr.ex_quiet keyless_typed (by decide) (h1 ▸ Friendly.mixed.exec _ _) (Friendly.mixed.runs _ _) (hset _ (by decide +kernel)) (mixed_addressed' _ _)
      (h2 ▸ Friendly.mixed.exec _ _) (Friendly.mixed.runs _ _) (hset _ (by decide +kernel)) (mixed_addressed' _ _) (mixed_bundles _ _ _ _)
      (mixed_trust _ _ _ _) "a" 7 "n"
  have hyes : (match (run Mgr.ex).2.1 with
    | .ok a => a.1.any fun x => decide (x.1.ns = "n" ∧ keysFor x.1 "a" 7 ≠ [])
    | _ => false) = true := by decide +kernel
  have hno : (match (run Mgr.rev).2.1 with
    | .ok a => (a.1.all fun x => decide (¬ (x.1.ns = "n" ∧ keysFor x.1 "a" 7 ≠ []))) && decide (a.2 = [])
    | _ => false) = true := by decide +kernel
  rw [h1] at hyes
  rw [h2] at hno
  obtain ⟨x, h3, h4⟩ := List.any_eq_true.1 hyes
  obtain ⟨h5, h6⟩ := Bool.and_eq_true_iff.1 hno
  rcases h.1 (.inl ⟨x, h3, of_decide_eq_true h4⟩) with ⟨y, h7, h8⟩ | ⟨e, h7, -⟩
  · exact of_decide_eq_true (List.all_eq_true.1 h5 y h7) h8
  · have : errs' = [] := of_decide_eq_true h6
    rw [this] at h7
    cases h7

end Wrong
end Verif
