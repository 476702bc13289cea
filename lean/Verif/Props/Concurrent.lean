import Verif.Props.DeviceList
import Verif.Proofs.SharedApp
import Verif.Base.Sched
/-
C17, C18, C20: interleaved calls.  Every interaction is a point where other calls may run, and every call may be cut off anywhere, so
that statements about the final state are statements about every state in between.
-/
namespace Verif
open Spec

/-- Stored device data is complete: everything has its form, and listed devices, and the own device once its id is
stored, have namespaces, activity and label. -/
structure Spec.WellFormed (own : Jid) (m : Disk) : Prop where
  typed : Typed m
  listed : ∀ j d, Known m j d → (∃ l, m (.devNamespaces j d) = some (.ofStrs l)) ∧ (∃ a, m (.devActive j d) = some (.ofBools a)) ∧
    ∃ l, Labelled m j d l
  own : ∀ d, m .ownDeviceId = some (.int d) → (∃ l, m (.devNamespaces own d) = some (.ofStrs l)) ∧
    (∃ a, m (.devActive own d) = some (.ofBools a)) ∧ ∃ l, Labelled m own d l

/-- A call with its execution. -/
structure Spec.Running where
  M : Mgr
  c : Call
  trace : List Ev
  res : Res Exn Unit
  exec : Exec (c.run M) trace res

/-- What is assumed about a manager: it belongs to the account `own`, the label of its own device is stored, its trust decision
goes through the public API. -/
structure Spec.Legit (own : Jid) (m : Disk) (M : Mgr) : Prop where
  jid : M.ownJid = own
  label : ∃ l, Labelled m own M.ownDev l
  app : ∀ ds i, AppProg M (fun e => e ≠ .nothingException ∧ e ≠ .typeError) (M.decide ds i)

namespace Shared

theorem inv_of_wellFormed {own : Jid} {w : World} (h : WellFormed own w.disk) (known : Jid → DevId → Prop)
    (key : Jid → DevId → Option Bytes) (h1 : ∀ j d, known j d → Known w.disk j d)
    (h2 : ∀ j d b, key j d = some b → HasKey w.disk j d b) (value : Prop) : Inv ⟨own, known, key, value⟩ w := by
  refine ⟨h.typed, fun j d hk k ho => ?_, fun d hk k ho => ?_, h1, h2⟩
  · obtain ⟨⟨a, h1⟩, ⟨b, h2⟩, c, h3⟩ := h.listed j d hk
    rcases ho with rfl | rfl | rfl
    · rw [h2]; nofun
    · rw [h3]; nofun
    · rw [h1]; nofun
  · obtain ⟨⟨a, h1⟩, ⟨b, h2⟩, c, h3⟩ := h.own d hk
    rcases ho with rfl | rfl | rfl
    · rw [h2]; nofun
    · rw [h3]; nofun
    · rw [h1]; nofun

theorem Inv.wellFormed {pin : Pin} {w : World} (h : Inv pin w) : WellFormed pin.own w.disk := by
  have key : ∀ {k : Key}, w.disk k ≠ none → ∃ v, w.disk k = some v ∧ Form k v := fun {k} hk => by
    cases hv : w.disk k with
    | none => exact absurd hv hk
    | some v => exact ⟨v, rfl, h.typed k v hv⟩
  have all : ∀ j d, (∀ k, Upd.Of j d k → w.disk k ≠ none) → (∃ l, w.disk (.devNamespaces j d) = some (.ofStrs l)) ∧
      (∃ a, w.disk (.devActive j d) = some (.ofBools a)) ∧ ∃ l, Labelled w.disk j d l := by
    intro j d h'
    obtain ⟨_, h1, l1, rfl⟩ := key (h' _ (.inr (.inr rfl)))
    obtain ⟨_, h2, l2, rfl⟩ := key (h' _ (.inl rfl))
    obtain ⟨_, h3, l3, rfl⟩ := key (h' _ (.inr (.inl rfl)))
    exact ⟨⟨l1, h1⟩, ⟨l2, h2⟩, ⟨l3, h3⟩⟩
  exact ⟨h.typed, fun j d hk => all j d fun k hk' => h.present j d hk k hk', fun d hk => all _ d fun k hk' => h.own d hk k hk'⟩

/-- The places calls know to be filled when they start: the labels of own devices, and the own device id if it is stored. -/
def Start (own : Jid) (w : World) : Filled := fun k =>
  (∃ d, k = .devLabel own d ∧ w.disk k ≠ none) ∨ (k = .ownDeviceId ∧ w.disk k ≠ none)

theorem start_true {own : Jid} {w : World} : True_ (Start own w) w := by
  rintro k (⟨d, rfl, h⟩ | ⟨rfl, h⟩)
  · exact ⟨perm_of (.inr (.inl rfl)), h⟩
  · exact ⟨.inr rfl, h⟩

/-- Every call of a manager whose trust decision keeps the guarantees keeps them; `create` if the own device id is stored, or nothing is pinned
for the own account. -/
theorem safe_of_app {own : Jid} {w : World} {M : Mgr} (hj0 : M.ownJid = own) (hlab : ∃ l, Labelled w.disk own M.ownDev l) {pin : Pin}
    (happ : ∀ ds i, AppProg M (NoMiss pin) (M.decide ds i)) (c : Call) (hc : ∀ jid, c ≠ .purgeBareJid jid)
    (ho : pin.own = own) (hcreate : w.disk .ownDeviceId ≠ none ∨ pin.Fresh ∨ ∀ bs l f, c ≠ .create bs l f)
    (hv : (∀ bs l f, c ≠ .create bs l f) ∨ pin.value) : Safe pin (Start own w) (c.run M) := by
  obtain ⟨l, hl⟩ := hlab
  have hown : Own M (Start own w) := .inl ⟨M.ownDev, by rw [hj0], by rw [hj0]; rw [hl]; nofun⟩
  have hj : M.ownJid = pin.own := hj0.trans ho.symm
  refine safe_call c hj (fun ds i => safe_app hown (happ ds i)) ?_
  split
  · refine ⟨?_, .inr (hv.resolve_left fun h => h _ _ _ rfl)⟩
    rcases hcreate with h | h | h
    · exact .inl (.inr ⟨rfl, h⟩)
    · exact .inr h
    · exact absurd rfl (h _ _ _)
  · trivial
  · exact absurd rfl (hc _)
  · exact hown

/-- Every call of a legitimate manager keeps the guarantees; `create` if the own device id is stored, or nothing is pinned
for the own account. -/
theorem safe_of_legit {own : Jid} {w : World} {M : Mgr} (h : Legit own w.disk M) (c : Call) (hc : ∀ jid, c ≠ .purgeBareJid jid)
    {pin : Pin} (ho : pin.own = own) (hcreate : w.disk .ownDeviceId ≠ none ∨ pin.Fresh ∨ ∀ bs l f, c ≠ .create bs l f) (hv : pin.value = True) :
    Safe pin (Start own w) (c.run M) := by
  refine safe_of_app h.jid h.label (fun ds i => ?_) c hc ho hcreate (.inr (hv ▸ trivial))
  have := h.app ds i
  rwa [show (fun e => e ≠ Exn.nothingException ∧ e ≠ .typeError) = NoMiss pin from funext fun e => by simp [NoMiss, hv]] at this

end Shared

/-! ### C18: no schedule breaks stored device data -/

/-- C18 in full (for calls other than purges, creation and encryption): stored data stays complete and no call fails because of it. -/
def C18_Claim : Prop :=
  ∀ (own : Jid) (w w' : World) (calls : List Running) (t : List Ev), Shuffle (calls.map (·.trace)) t → Lib.Runs w t w' →
    WellFormed own w.disk →
    (∀ j d ns, Known w.disk j d → Advertises w.disk j d ns → ∃ b, Activity w.disk j d ns b) →
    (∀ k ∈ calls, Legit own w.disk k.M ∧ (∀ jid, k.c ≠ .purgeBareJid jid) ∧ (∀ ns, k.c ≠ .purgeBackend ns) ∧
      (∀ bs l f, k.c ≠ .create bs l f) ∧ ∀ a b c d, k.c ≠ .encrypt a b c d) →
    WellFormed own w'.disk ∧ ∀ k ∈ calls, k.res ≠ .raised .nothingException ∧ k.res ≠ .raised .typeError ∧ k.res ≠ .raised .keyError

/-- C18, all but `KeyError`: under every interleaving of any number of calls other than `purge_bare_jid`, stored device data
stays complete and no call fails with `NothingException` or `TypeError`.  Missing: `KeyError`, see `C18_refuted`. -/
theorem C18_complete_partial (own : Jid) (w w' : World) (calls : List Running) (t : List Ev)
    (hs : Shuffle (calls.map (·.trace)) t) (hr : Lib.Runs w t w') (hw : WellFormed own w.disk)
    (hcalls : ∀ k ∈ calls, Legit own w.disk k.M ∧ ∀ jid, k.c ≠ .purgeBareJid jid) :
    WellFormed own w'.disk ∧ ∀ k ∈ calls, k.res ≠ .raised .nothingException ∧ k.res ≠ .raised .typeError := by
  let pin : Pin := ⟨own, fun _ _ => False, fun _ _ => none, True⟩
  have main := Shared.interleaved (pin := pin) (A := Shared.Start own w)
    (calls.map fun k => ⟨Unit, k.c.run k.M, k.trace, k.res, k.exec⟩) (t := t)
    (by simpa [List.map_map, Function.comp_def] using hs) hr (Shared.inv_of_wellFormed hw _ _ (by nofun) (by nofun) _) Shared.start_true
    (fun x hx => by
      obtain ⟨k, hk, rfl⟩ := List.mem_map.1 hx
      exact Shared.safe_of_legit (hcalls k hk).1 k.c (hcalls k hk).2 rfl (.inr (.inl ⟨nofun, fun _ => rfl⟩)) rfl)
  refine ⟨main.1.wellFormed, fun k hk => ?_⟩
  have h := main.2 _ (List.mem_map.2 ⟨k, hk, rfl⟩) _ _
    (Shared.safe_of_legit (hcalls k hk).1 k.c (hcalls k hk).2 rfl (.inr (.inl ⟨nofun, fun _ => rfl⟩)) rfl)
  clear main
  revert h
  obtain ⟨_, _, _, r, _⟩ := k
  intro h
  constructor <;> (rintro rfl)
  · exact h.1 rfl
  · exact h.2.1 rfl

/-- A world like `World.ex`, with three loaded backends and the own label. -/
def World.three : World where
  disk := fun k => match k with
    | .devList "a" => some (.ofInts [7])
    | .devNamespaces "a" 7 => some (.ofStrs ["n"])
    | .devActive "a" 7 => some (.ofBools [("n", true)])
    | .devLabel "a" 7 => some (.ofOptStr none)
    | .devLabel "me" 1 => some (.ofOptStr none)
    | _ => none
  backends := ["n", "o", "p"]
  sync := false
  log := []

theorem World.three_known {j : Jid} {d : DevId} (h : Known World.three.disk j d) : j = "a" ∧ d = 7 := by
  obtain ⟨l, h1, h2⟩ := h
  unfold World.three at h1
  dsimp only at h1
  split at h1 <;> first | (cases h1; done) | skip
  · rename_i h
    cases h
    have := congrArg (rd chkInts) h1
    simp [rd] at this
    subst this
    exact ⟨rfl, by simpa using h2⟩
  all_goals (rename_i h; cases h)

theorem World.three_wellFormed : WellFormed "me" World.three.disk := by
  refine ⟨?_, ?_, nofun⟩
  · intro k v h
    unfold World.three at h
    dsimp only at h
    split at h <;> first | (cases h; done) | (cases h; exact ⟨_, rfl⟩)
  · intro j d h
    obtain ⟨rfl, rfl⟩ := World.three_known h
    exact ⟨⟨_, rfl⟩, ⟨_, rfl⟩, ⟨none, rfl⟩⟩

theorem Mgr.ex_legit : Legit "me" World.three.disk Mgr.ex := ⟨rfl, ⟨none, rfl⟩, fun _ _ => .ret ()⟩

/-- C18 is false of the code: two updates may write namespaces and activity of a device alternately, so that a third fails
with `KeyError`. -/
theorem C18_refuted : ¬ C18_Claim := by
  intro h
  let ps : List (P Unit) := [SM.updateDeviceList Mgr.ex "o" "a" [(7, none)], SM.updateDeviceList Mgr.ex "p" "a" [(7, none)],
    SM.updateDeviceList Mgr.ex "o" "a" []]
  let is := [1, 1, 1, 1, 0, 0, 0, 0, 0, 0, 0, 0, 1, 2, 2, 2, 2]
  have hx := sched_ok Lib (Lib.env quiet) (Lib.env_ok quiet quiet_ok) is ps World.three
  have c1 : (sched (Lib.env quiet) Lib.next is ps World.three).2.1[0]?.any (Prog.isOk fun _ => true) = true := by decide +kernel
  have c2 : (sched (Lib.env quiet) Lib.next is ps World.three).2.1[1]?.any Prog.isOp = true := by decide +kernel
  have c3 : (sched (Lib.env quiet) Lib.next is ps World.three).2.1[2]?.any (Prog.isRaise (· == .keyError)) = true := by decide +kernel
  generalize sched (Lib.env quiet) Lib.next is ps World.three = x at hx c1 c2 c3
  obtain ⟨ts, y, t, w'⟩ := x
  obtain ⟨t1, t2, t3, rfl⟩ := list3 (l := ts) hx.len
  obtain ⟨_, e1, -⟩ := hx.isOk 0 rfl rfl _ c1
  have e2 := hx.cut 1 rfl rfl c2
  obtain ⟨_, e3, h3⟩ := hx.isRaise 2 rfl rfl _ c3
  cases (beq_iff_eq.1 h3)
  have := h "me" World.three w' [⟨Mgr.ex, .updateDeviceList "o" "a" [(7, none)], t1, _, e1⟩,
    ⟨Mgr.ex, .updateDeviceList "p" "a" [(7, none)], t2, _, e2⟩, ⟨Mgr.ex, .updateDeviceList "o" "a" [], t3, _, e3⟩] t hx.shuffle hx.runs
    World.three_wellFormed ?_ ?_
  · exact (this.2 _ (.tail _ (.tail _ (.head _)))).2.2 rfl
  · intro j d ns hk ha
    obtain ⟨rfl, rfl⟩ := World.three_known hk
    obtain ⟨l, h1, h2⟩ := ha
    have := congrArg (rd chkStrs) h1
    simp only [rd, chkStrs_of] at this
    cases this
    simp at h2
    subst h2
    exact ⟨true, _, rfl, rfl⟩
  · intro k hk
    refine ⟨?_, ?_, ?_, ?_, ?_⟩
    all_goals (simp only [List.mem_cons, List.not_mem_nil, or_false] at hk; rcases hk with rfl | rfl | rfl)
    all_goals first | exact Mgr.ex_legit | nofun

/-- The hypotheses of the partial C18 are met by two interleaved updates. -/
example : ∃ (calls : List Running) (t : List Ev) (w' : World), calls.length = 2 ∧ Shuffle (calls.map (·.trace)) t ∧
    Lib.Runs World.three t w' ∧ (∀ k ∈ calls, Legit "me" World.three.disk k.M ∧ (∀ jid, k.c ≠ .purgeBareJid jid) ∧ k.res = .ok ()) := by
  let ps : List (P Unit) := [SM.updateDeviceList Mgr.ex "o" "a" [(7, none)], SM.updateDeviceList Mgr.ex "p" "a" [(7, none)]]
  let is := [1, 1, 1, 1, 0, 0, 0, 0, 0, 0, 0, 0, 1, 1, 1, 1, 1]
  have hx := sched_ok Lib (Lib.env quiet) (Lib.env_ok quiet quiet_ok) is ps World.three
  have c1 : (sched (Lib.env quiet) Lib.next is ps World.three).2.1[0]?.any (Prog.isOk fun _ => true) = true := by decide +kernel
  have c2 : (sched (Lib.env quiet) Lib.next is ps World.three).2.1[1]?.any (Prog.isOk fun _ => true) = true := by decide +kernel
  generalize sched (Lib.env quiet) Lib.next is ps World.three = x at hx c1 c2
  obtain ⟨ts, y, t, w'⟩ := x
  obtain ⟨t1, t2, rfl⟩ := list2 (l := ts) hx.len
  obtain ⟨_, e1, -⟩ := hx.isOk 0 rfl rfl _ c1
  obtain ⟨_, e2, -⟩ := hx.isOk 1 rfl rfl _ c2
  refine ⟨[⟨Mgr.ex, .updateDeviceList "o" "a" [(7, none)], _, _, e1⟩, ⟨Mgr.ex, .updateDeviceList "p" "a" [(7, none)], _, _, e2⟩],
    t, w', rfl, hx.shuffle, hx.runs, fun k hk => ?_⟩
  simp only [List.mem_cons, List.not_mem_nil, or_false] at hk
  rcases hk with rfl | rfl
  · exact ⟨Mgr.ex_legit, nofun, rfl⟩
  · exact ⟨Mgr.ex_legit, nofun, rfl⟩

/-! ### C17: concurrent device list updates -/

/-- C17 in full. -/
def C17_Claim : Prop :=
  ∀ (M : Mgr) (ns1 ns2 : Ns) (jid : Jid) (dl1 dl2 : DevList) (w w' : World) (t1 t2 t : List Ev),
    WellFormed M.ownJid w.disk → Legit M.ownJid w.disk M →
    Exec (SM.updateDeviceList M ns1 jid dl1) t1 (.ok ()) → Exec (SM.updateDeviceList M ns2 jid dl2) t2 (.ok ()) →
    Shuffle [t1, t2] t → Lib.Runs w t w' → ∀ d, d ∈ dl1.keys ∨ d ∈ dl2.keys → Known w'.disk jid d

/-- C17 is false of the code: both updates load the list before either stores it. -/
theorem C17_refuted : ¬ C17_Claim := by
  intro h
  let ps : List (P Unit) := [SM.updateDeviceList Mgr.ex "n" "b" [(1, none)], SM.updateDeviceList Mgr.ex "n" "b" [(2, none)]]
  let is := [0, 0, 1, 1, 0, 0, 0, 0, 0, 1, 1, 1, 1, 1]
  have hx := sched_ok Lib (Lib.env quiet) (Lib.env_ok quiet quiet_ok) is ps World.three
  have c1 : (sched (Lib.env quiet) Lib.next is ps World.three).2.1[0]?.any (Prog.isOk fun _ => true) = true := by decide +kernel
  have c2 : (sched (Lib.env quiet) Lib.next is ps World.three).2.1[1]?.any (Prog.isOk fun _ => true) = true := by decide +kernel
  have c3 : (match rd chkInts ((sched (Lib.env quiet) Lib.next is ps World.three).2.2.2.disk (.devList "b")) with
    | .ok l => l == [2]
    | .error _ => false) = true := by decide +kernel
  generalize sched (Lib.env quiet) Lib.next is ps World.three = x at hx c1 c2 c3
  obtain ⟨ts, y, t, w'⟩ := x
  obtain ⟨t1, t2, rfl⟩ := list2 (l := ts) hx.len
  obtain ⟨_, e1, -⟩ := hx.isOk 0 rfl rfl _ c1
  obtain ⟨_, e2, -⟩ := hx.isOk 1 rfl rfl _ c2
  obtain ⟨l, hl, hm⟩ := h Mgr.ex "n" "n" "b" _ _ _ _ _ _ _ World.three_wellFormed Mgr.ex_legit e1 e2 hx.shuffle hx.runs 1 (by decide)
  rw [show w'.disk (.devList "b") = _ from hl] at c3
  simp only [rd, chkInts_of, beq_iff_eq] at c3
  subst c3
  simp at hm

/-- C17, the part that holds: under every interleaving of any number of calls (other than `purge_bare_jid` and a first `create`), no
device that was known before is lost, and each device an update saw as known or added itself is complete.  Missing: devices added by
updates that overlap, where the claim is false. -/
theorem C17_known_stay_known_partial (own : Jid) (w w' : World) (calls : List Running) (t : List Ev)
    (hs : Shuffle (calls.map (·.trace)) t) (hr : Lib.Runs w t w') (hw : WellFormed own w.disk)
    (hcalls : ∀ k ∈ calls, Legit own w.disk k.M ∧ (∀ jid, k.c ≠ .purgeBareJid jid) ∧
      (w.disk .ownDeviceId ≠ none ∨ ∀ bs l f, k.c ≠ .create bs l f)) :
    ∀ j d, Known w.disk j d → Known w'.disk j d := by
  let pin : Pin := ⟨own, fun j d => Known w.disk j d, fun _ _ => none, True⟩
  have main := Shared.interleaved (pin := pin) (A := Shared.Start own w)
    (calls.map fun k => ⟨Unit, k.c.run k.M, k.trace, k.res, k.exec⟩) (t := t)
    (by simpa [List.map_map, Function.comp_def] using hs) hr (Shared.inv_of_wellFormed hw _ _ (fun _ _ h => h) (by nofun) _) Shared.start_true
    (fun x hx => by
      obtain ⟨k, hk, rfl⟩ := List.mem_map.1 hx
      obtain ⟨h1, h2, h3⟩ := hcalls k hk
      exact Shared.safe_of_legit h1 k.c h2 rfl (h3.imp_right .inr) rfl)
  exact fun j d h => main.1.known j d h

example : Known World.three.disk "a" 7 ∧ WellFormed "me" World.three.disk := ⟨⟨[7], rfl, by simp⟩, World.three_wellFormed⟩

/-! ### C20: concurrent lookups -/

/-- C20 in full. -/
def C20_Claim : Prop :=
  ∀ (M : Mgr) (jid : Jid) (w w' : World) (t1 t2 t : List Ev) (ds1 ds2 : List DeviceInfo),
    WellFormed M.ownJid w.disk → Legit M.ownJid w.disk M →
    Exec (SM.getDeviceInformation M jid) t1 (.ok ds1) → Exec (SM.getDeviceInformation M jid) t2 (.ok ds2) →
    Shuffle [t1, t2] t → Lib.Runs w t w' →
    ∀ x ∈ ds1, ∀ y ∈ ds2, x.deviceId = y.deviceId → x.identityKey = y.identityKey

/-- A server that serves a different bundle at every download. -/
def moody : World → (o : Op) → Except Exn o.Ret
  | w, .downloadBundle ns j d => .ok ⟨ns, j, d, [UInt8.ofNat w.log.length], 0⟩
  | _, _ => .error (.app 0)

theorem moody_ok (w : World) (o : Op) (e : Exn) (h : moody w o = .error e) : e.isInternal = false := by
  cases o <;> cases h <;> rfl

/-- C20 is false of the code: both lookups find no identity key and download bundles with different keys. -/
theorem C20_refuted : ¬ C20_Claim := by
  intro h
  let ps : List (P (List DeviceInfo)) := [SM.getDeviceInformation Mgr.ex "a", SM.getDeviceInformation Mgr.ex "a"]
  let is := [0, 0, 0, 1, 1, 1, 0, 0, 0, 0, 0, 0, 1, 1, 1, 1, 1, 1]
  have hx := sched_ok Lib (Lib.env moody) (Lib.env_ok moody moody_ok) is ps World.three
  have c1 : (sched (Lib.env moody) Lib.next is ps World.three).2.1[0]?.any
    (Prog.isOk (· == [⟨["n"], [("n", true)], "a", 7, [0], "undecided", none⟩])) = true := by decide +kernel
  have c2 : (sched (Lib.env moody) Lib.next is ps World.three).2.1[1]?.any
    (Prog.isOk (· == [⟨["n"], [("n", true)], "a", 7, [1], "undecided", none⟩])) = true := by decide +kernel
  generalize sched (Lib.env moody) Lib.next is ps World.three = x at hx c1 c2
  obtain ⟨ts, y, t, w'⟩ := x
  obtain ⟨t1, t2, rfl⟩ := list2 (l := ts) hx.len
  obtain ⟨_, e1, h1⟩ := hx.isOk 0 rfl rfl _ c1
  obtain ⟨_, e2, h2⟩ := hx.isOk 1 rfl rfl _ c2
  cases (beq_iff_eq.1 h1)
  cases (beq_iff_eq.1 h2)
  have := h Mgr.ex "a" _ _ _ _ _ _ _ World.three_wellFormed Mgr.ex_legit e1 e2 hx.shuffle hx.runs _ (.head _) _ (.head _) rfl
  revert this
  decide

/-- C20, the part that holds: once the identity key of a device is stored, every lookup running interleaved with any number of other calls
(other than `purge_bare_jid` and a first `create`) reports that key, and the key stays stored.  Missing: devices whose key is not stored
yet, where the claim is false. -/
theorem C20_stored_key_reported_partial (own : Jid) (w w' : World) (calls : List Running)
    (lookups : List (Mgr × Jid × List Ev × List DeviceInfo))
    (hex : ∀ k ∈ lookups, Exec (SM.getDeviceInformation k.1 k.2.1) k.2.2.1 (.ok k.2.2.2)) (t : List Ev)
    (hs : Shuffle (calls.map (·.trace) ++ lookups.map (·.2.2.1)) t) (hr : Lib.Runs w t w') (hw : WellFormed own w.disk)
    (hcalls : ∀ k ∈ calls, Legit own w.disk k.M ∧ (∀ jid, k.c ≠ .purgeBareJid jid) ∧
      (w.disk .ownDeviceId ≠ none ∨ ∀ bs l f, k.c ≠ .create bs l f)) :
    (∀ j d ik, HasKey w.disk j d ik → HasKey w'.disk j d ik) ∧
    ∀ k ∈ lookups, ∀ x ∈ k.2.2.2, ∀ ik, HasKey w.disk k.2.1 x.deviceId ik → x.identityKey = ik := by
  classical
  let pin : Pin := ⟨own, fun _ _ => False, fun j d => if h : ∃ b, HasKey w.disk j d b then some h.choose else none, True⟩
  have hpin : ∀ j d b, pin.key j d = some b → HasKey w.disk j d b := by
    intro j d b hb
    simp only [pin] at hb
    split at hb
    · rename_i h; cases hb; exact h.choose_spec
    · cases hb
  have hpin' : ∀ j d b, HasKey w.disk j d b → pin.key j d = some b := by
    intro j d b hb
    simp only [pin]
    have h : ∃ b, HasKey w.disk j d b := ⟨b, hb⟩
    rw [dif_pos h]
    have := h.choose_spec.symm.trans hb
    have := Base64.encode_injective (JVal.str.inj (Option.some.inj this))
    rw [this]
  have safeL : ∀ (M : Mgr) (jid : Jid), Shared.SafeX pin (Shared.Start own w) (SM.getDeviceInformation M jid)
    (fun x _ => Shared.Pinned pin jid x) (Shared.NoMiss pin) := fun M jid => Shared.safe_getDeviceInformation jid
  have main := Shared.interleaved (pin := pin) (A := Shared.Start own w)
    ((calls.map fun k => ⟨Unit, k.c.run k.M, k.trace, k.res, k.exec⟩) ++
      lookups.attach.map fun k => ⟨_, _, _, _, hex k.1 k.2⟩) (t := t)
    (by
      have : (lookups.attach.map fun x => x.1.2.2.1) = lookups.map (·.2.2.1) :=
        List.attach_map_val (f := fun x : Mgr × Jid × List Ev × List DeviceInfo => x.2.2.1)
      simpa [List.map_map, Function.comp_def, this] using hs) hr (Shared.inv_of_wellFormed hw _ _ (by nofun) hpin _) Shared.start_true
    (fun x hx => by
      rcases List.mem_append.1 hx with hx | hx
      · obtain ⟨k, hk, rfl⟩ := List.mem_map.1 hx
        obtain ⟨h1, h2, h3⟩ := hcalls k hk
        exact Shared.safe_of_legit h1 k.c h2 rfl (h3.imp_right .inr) rfl
      · obtain ⟨k, hk, rfl⟩ := List.mem_map.1 hx
        exact Shared.safe_info _)
  refine ⟨fun j d ik h => main.1.key j d ik (hpin' j d ik h), fun k hk x hx ik hik => ?_⟩
  have h := main.2 _ (List.mem_append.2 (.inr (List.mem_map.2 ⟨⟨k, hk⟩, by simp, rfl⟩))) _ _ (safeL k.1 k.2.1)
  obtain ⟨_, h⟩ := h
  exact h x hx ik (hpin' _ _ _ hik)

end Verif
