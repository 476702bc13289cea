import Verif.Proofs.UpdateList
import Verif.Spec.Devices
import Verif.Props.Identity
/-
C11, C13-C17: device list updates.
-/
namespace Verif
open Spec

/-! ### What the readers make of well formed data -/

section readers
variable {m : Disk} {j : Jid} {d : DevId}

theorem ofInts_inj {a b : List Int} (h : JVal.ofInts a = .ofInts b) : a = b := by
  have := congrArg chkInts h; simpa using this
theorem ofStrs_inj {a b : List String} (h : JVal.ofStrs a = .ofStrs b) : a = b := by
  have := congrArg chkStrs h; simpa using this
theorem ofBools_inj {a b : Dict String Bool} (h : JVal.ofBools a = .ofBools b) : a = b := by
  have := congrArg chkBools h; simpa using this
theorem ofOptStr_inj {a b : Option String} (h : JVal.ofOptStr a = .ofOptStr b) : a = b := by
  have := congrArg chkOptStr h; simpa using this

@[simp] theorem ints_of (l : List Int) : Upd.ints (some (.ofInts l)) = l := by simp [Upd.ints, rd]
@[simp] theorem strs_of (l : List String) : Upd.strs (some (.ofStrs l)) = l := by simp [Upd.strs, rd]
@[simp] theorem bools_of (l : Dict String Bool) : Upd.bools (some (.ofBools l)) = l := by simp [Upd.bools, rd]
@[simp] theorem optStr_of (l : Option String) : Upd.optStr (some (.ofOptStr l)) = l := by simp [Upd.optStr, rd]

theorem rdInts (h : Typed m) {l : List Int} (hl : rd chkInts (m (.devList j)) = .ok l) : m (.devList j) = some (.ofInts l) := by
  cases hv : m (.devList j) with
  | none => rw [hv] at hl; cases hl
  | some v =>
    obtain ⟨l', rfl⟩ := h _ _ hv
    rw [hv] at hl; simp [rd] at hl; rw [hl]
theorem rdStrs (h : Typed m) {l : List String} (hl : rd chkStrs (m (.devNamespaces j d)) = .ok l) :
    m (.devNamespaces j d) = some (.ofStrs l) := by
  cases hv : m (.devNamespaces j d) with
  | none => rw [hv] at hl; cases hl
  | some v =>
    obtain ⟨l', rfl⟩ := h _ _ hv
    rw [hv] at hl; simp [rd] at hl; rw [hl]
theorem rdBools (h : Typed m) {l : Dict String Bool} (hl : rd chkBools (m (.devActive j d)) = .ok l) :
    m (.devActive j d) = some (.ofBools l) := by
  cases hv : m (.devActive j d) with
  | none => rw [hv] at hl; cases hl
  | some v =>
    obtain ⟨l', rfl⟩ := h _ _ hv
    rw [hv] at hl; simp [rd] at hl; rw [hl]
theorem rdLabel (h : Typed m) {l : Option String} (hl : rd chkOptStr (m (.devLabel j d)) = .ok l) :
    m (.devLabel j d) = some (.ofOptStr l) := by
  cases hv : m (.devLabel j d) with
  | none => rw [hv] at hl; cases hl
  | some v =>
    obtain ⟨l', rfl⟩ := h _ _ hv
    rw [hv] at hl; simp [rd] at hl; rw [hl]

theorem mem_old (h : Typed m) : d ∈ Upd.old m j ↔ Known m j d := by
  unfold Upd.old Known
  rw [mem_dedup]
  constructor
  · intro hd
    cases hv : m (.devList j) with
    | none => rw [hv] at hd; cases hd
    | some v =>
      obtain ⟨l, rfl⟩ := h _ _ hv
      rw [hv, ints_of] at hd
      exact ⟨l, rfl, hd⟩
  · rintro ⟨l, hl, hd⟩
    rw [hl, ints_of]; exact hd

end readers

/-! ### C11: device list updates implement the documented merge -/

namespace Spec

/-- A device counts as listed if it is on the given list; the own device always counts as listed, see C13. -/
def Listed (M : Mgr) (jid : Jid) (dl : DevList) (d : DevId) : Prop :=
  (∃ l, dl.get d = some l) ∨ (jid = M.ownJid ∧ d = M.ownDev)

/-- The documented effect of a device list update on the stored data. -/
structure Merged (M : Mgr) (ns : Ns) (jid : Jid) (dl : DevList) (m m' : Disk) : Prop where
  known : ∀ d, Known m' jid d ↔ Known m jid d ∨ ∃ l, dl.get d = some l
  listed : ∀ d, (Known m jid d ∨ ∃ l, dl.get d = some l) → Listed M jid dl d → Activity m' jid d ns true ∧ Advertises m' jid d ns
  unlisted : ∀ d, Known m jid d → ¬ Listed M jid dl d → Advertises m jid d ns →
    Activity m' jid d ns false ∧ Advertises m' jid d ns
  unaffected : ∀ d, Known m jid d → ¬ Listed M jid dl d → ¬ Advertises m jid d ns →
    m' (.devActive jid d) = m (.devActive jid d) ∧ m' (.devNamespaces jid d) = m (.devNamespaces jid d)
  others : ∀ d, Known m jid d → ∀ ns', ns' ≠ ns →
    (∀ b, Activity m' jid d ns' b ↔ Activity m jid d ns' b) ∧ (Advertises m' jid d ns' ↔ Advertises m jid d ns')
  fresh : ∀ d, ¬ Known m jid d → ∀ l, dl.get d = some l →
    Labelled m' jid d l ∧ (∀ ns' b, Activity m' jid d ns' b → ns' = ns) ∧ (∀ ns', Advertises m' jid d ns' → ns' = ns)
  relabel : ∀ d, Known m jid d → ∀ l, dl.get d = some (some l) → Labelled m' jid d (some l)
  label : ∀ d, Known m jid d → (dl.get d = some none ∨ dl.get d = none) → m' (.devLabel jid d) = m (.devLabel jid d)
  frame : ∀ k, ¬ DevicePlace jid k → m' k = m k

end Spec

namespace Upd
variable {M : Mgr} {ns : Ns} {jid : Jid} {dl : DevList} {m : Disk} {d : DevId}

theorem eff_get : (eff M jid dl m).get d =
    if jid = M.ownJid ∧ d = M.ownDev ∧ dl.get d = none then some (optStr (m (.devLabel M.ownJid M.ownDev))) else dl.get d := by
  unfold eff
  by_cases h : jid = M.ownJid ∧ M.ownDev ∉ dl.keys
  · rw [if_pos h, Dict.get_set]
    by_cases hd : M.ownDev = d
    · subst hd
      simp [h.1, Dict.get_eq_none_iff.2 h.2]
    · rw [if_neg hd, if_neg fun h' => hd h'.2.1.symm]
  · rw [if_neg h, if_neg]
    rintro ⟨h1, rfl, h3⟩
    exact h ⟨h1, Dict.get_eq_none_iff.1 h3⟩

theorem listed_iff : Spec.Listed M jid dl d ↔ ∃ l, (eff M jid dl m).get d = some l := by
  rw [eff_get]
  unfold Spec.Listed
  split
  · rename_i h; simp [h.1, h.2.1]
  · rename_i h
    constructor
    · rintro (h' | ⟨h1, h2⟩)
      · exact h'
      · cases hg : dl.get d with
        | none => exact absurd ⟨h1, h2, hg⟩ h
        | some l => exact ⟨l, rfl⟩
    · exact .inl

theorem mem_new : d ∈ new m jid dl ↔ (∃ l, dl.get d = some l) ∧ d ∉ old m jid := by
  rw [new, mem_setDiff, Dict.mem_keys, Option.isSome_iff_exists]

theorem target_active_old (h : d ∈ old m jid) : target M ns jid dl m (.devActive jid d) =
    activeAfter ns ((eff M jid dl m).get d) (dedup (strs (m (.devNamespaces jid d)))) (m (.devActive jid d)) := by
  have : d ∉ new m jid dl := fun hn => (mem_new.1 hn).2 h
  simp [target, h, this]
theorem target_label_old (h : d ∈ old m jid) : target M ns jid dl m (.devLabel jid d) =
    labelAfter ((eff M jid dl m).get d) (m (.devLabel jid d)) := by
  have : d ∉ new m jid dl := fun hn => (mem_new.1 hn).2 h
  simp [target, h, this]
theorem target_ns_old (h : d ∈ old m jid) : target M ns jid dl m (.devNamespaces jid d) =
    nsAfter M ns ((eff M jid dl m).get d) (m (.devNamespaces jid d)) := by
  have : d ∉ new m jid dl := fun hn => (mem_new.1 hn).2 h
  simp [target, h, this]
theorem target_active_new (h : d ∈ new m jid dl) : target M ns jid dl m (.devActive jid d) = some (.ofBools [(ns, true)]) := by
  simp [target, h]
theorem target_ns_new (h : d ∈ new m jid dl) : target M ns jid dl m (.devNamespaces jid d) = some (.ofStrs [ns]) := by
  simp [target, h]
theorem target_label_new (h : d ∈ new m jid dl) : target M ns jid dl m (.devLabel jid d) =
    some (.ofOptStr ((dl.get d).getD none)) := by
  have : d ∈ dl.keys := by obtain ⟨⟨l, hl⟩, _⟩ := mem_new.1 h; simp [hl]
  simp [target, h, eff_get_of_mem this]

theorem merged_target (ht : Typed m) (hr : Ready M ns jid dl m) : Merged M ns jid dl m (target M ns jid dl m) := by
  have hdev : ∀ d, Known m jid d → ∃ nss act, m (.devNamespaces jid d) = some (.ofStrs nss) ∧
      m (.devActive jid d) = some (.ofBools act) ∧
      (∀ l, (eff M jid dl m).get d = some l → ∃ lab, m (.devLabel jid d) = some (.ofOptStr lab)) ∧
      ((eff M jid dl m).get d = none → ns ∈ nss → act.get ns ≠ none) := by
    intro d hd
    obtain ⟨nss, act, h1, h2, h3, h4⟩ := hr.2.2 d ((mem_old ht).2 hd)
    refine ⟨nss, act, rdStrs ht h1, rdBools ht h2, fun l hl => ?_, fun hn => h4 (by simp [hn])⟩
    obtain ⟨lab, hlab⟩ := h3 (by simp [hl])
    exact ⟨lab, rdLabel ht hlab⟩
  constructor
  case known =>
    intro d
    have hk : target M ns jid dl m (.devList jid) =
        if (new m jid dl).length > 0 then some (.ofInts (M.O.iter (setUnion dl.keys (old m jid)))) else m (.devList jid) := by
      simp [target]
    by_cases hn : (new m jid dl).length > 0
    · rw [if_pos hn] at hk
      unfold Known
      rw [hk]
      constructor
      · rintro ⟨l, hl, hd⟩
        cases ofInts_inj (Option.some.inj hl)
        simp only [SetOrder.mem_iter, mem_setUnion, Dict.mem_keys, Option.isSome_iff_exists] at hd
        rcases hd with hd | hd
        · exact .inr hd
        · exact .inl ((mem_old ht).1 hd)
      · intro h
        refine ⟨_, rfl, ?_⟩
        simp only [SetOrder.mem_iter, mem_setUnion, Dict.mem_keys, Option.isSome_iff_exists]
        rcases h with h | h
        · exact .inr ((mem_old ht).2 h)
        · exact .inl h
    · rw [if_neg hn] at hk
      unfold Known
      rw [hk]
      refine ⟨.inl, ?_⟩
      rintro (h | h)
      · exact h
      · by_cases ho : d ∈ old m jid
        · exact (mem_old ht).1 ho
        · refine absurd ?_ hn
          exact List.length_pos_of_mem (mem_new.2 ⟨h, ho⟩)
  case listed =>
    intro d hk hl
    by_cases ho : d ∈ old m jid
    · obtain ⟨l, hl⟩ := listed_iff.1 hl
      obtain ⟨nss, act, h1, h2, _, _⟩ := hdev d ((mem_old ht).1 ho)
      unfold Activity Advertises
      rw [target_active_old ho, target_ns_old ho, hl, h1, h2]
      simp only [activeAfter, nsAfter, strs_of, bools_of]
      constructor
      · split
        · exact ⟨_, rfl, by simp⟩
        · rename_i hc
          exact ⟨_, rfl, by simpa using hc⟩
      · split
        · exact ⟨_, rfl, by simp⟩
        · rename_i hc
          exact ⟨_, rfl, by simpa using hc⟩
    · have hn : d ∈ new m jid dl := mem_new.2 ⟨hk.resolve_left fun h => ho ((mem_old ht).2 h), ho⟩
      unfold Activity Advertises
      rw [target_active_new hn, target_ns_new hn]
      exact ⟨⟨_, rfl, by simp [Dict.get]⟩, ⟨_, rfl, by simp⟩⟩
  case unlisted =>
    intro d hk hl ⟨nss, hns, hmem⟩
    have ho := (mem_old ht).2 hk
    have hg : (eff M jid dl m).get d = none := by
      cases h : (eff M jid dl m).get d with
      | none => rfl
      | some l => exact absurd (listed_iff.2 ⟨l, h⟩) hl
    obtain ⟨nss', act, h1, h2, _, h4⟩ := hdev d hk
    rw [hns] at h1
    cases ofStrs_inj (Option.some.inj h1)
    unfold Activity Advertises
    rw [target_active_old ho, target_ns_old ho, hg, hns, h2]
    simp only [activeAfter, nsAfter, strs_of, bools_of]
    refine ⟨?_, nss, rfl, hmem⟩
    split
    · exact ⟨_, rfl, by simp⟩
    · rename_i hc
      refine ⟨_, rfl, ?_⟩
      cases hb : act.get ns with
      | none => exact absurd hb (h4 hg hmem)
      | some b =>
        cases b with
        | false => rfl
        | true => exact absurd ⟨mem_dedup.2 hmem, hb⟩ hc
  case unaffected =>
    intro d hk hl hadv
    have ho := (mem_old ht).2 hk
    have hg : (eff M jid dl m).get d = none := by
      cases h : (eff M jid dl m).get d with
      | none => rfl
      | some l => exact absurd (listed_iff.2 ⟨l, h⟩) hl
    obtain ⟨nss, act, h1, h2, _, h4⟩ := hdev d hk
    rw [target_active_old ho, target_ns_old ho, hg, h1, h2]
    simp only [activeAfter, nsAfter, strs_of, bools_of]
    refine ⟨?_, trivial⟩
    rw [if_neg]
    rintro ⟨hc, _⟩
    exact hadv ⟨nss, h1, mem_dedup.1 hc⟩
  case others =>
    intro d hk ns' hne
    have ho := (mem_old ht).2 hk
    obtain ⟨nss, act, h1, h2, _, h4⟩ := hdev d hk
    have hact : ∃ act', target M ns jid dl m (.devActive jid d) = some (.ofBools act') ∧ act'.get ns' = act.get ns' := by
      rw [target_active_old ho, h1, h2]
      cases (eff M jid dl m).get d with
      | none =>
        simp only [activeAfter, strs_of, bools_of]
        split
        · exact ⟨_, rfl, Dict.get_set_ne hne.symm⟩
        · exact ⟨_, rfl, rfl⟩
      | some l =>
        simp only [activeAfter, bools_of]
        split
        · exact ⟨_, rfl, Dict.get_set_ne hne.symm⟩
        · exact ⟨_, rfl, rfl⟩
    have hnss : ∃ nss', target M ns jid dl m (.devNamespaces jid d) = some (.ofStrs nss') ∧ (ns' ∈ nss' ↔ ns' ∈ nss) := by
      rw [target_ns_old ho, h1]
      cases (eff M jid dl m).get d with
      | none => exact ⟨_, rfl, Iff.rfl⟩
      | some l =>
        simp only [nsAfter, strs_of]
        split
        · exact ⟨_, rfl, by simp [hne]⟩
        · exact ⟨_, rfl, Iff.rfl⟩
    obtain ⟨act', e1, e2⟩ := hact
    obtain ⟨nss', e3, e4⟩ := hnss
    unfold Activity Advertises
    rw [e1, e3, h1, h2]
    refine ⟨fun b => ⟨?_, ?_⟩, ⟨?_, ?_⟩⟩
    · rintro ⟨a, ha, hb⟩
      cases ofBools_inj (Option.some.inj ha)
      exact ⟨_, rfl, e2 ▸ hb⟩
    · rintro ⟨a, ha, hb⟩
      cases ofBools_inj (Option.some.inj ha)
      exact ⟨_, rfl, e2.trans hb⟩
    · rintro ⟨a, ha, hb⟩
      cases ofStrs_inj (Option.some.inj ha)
      exact ⟨_, rfl, e4.1 hb⟩
    · rintro ⟨a, ha, hb⟩
      cases ofStrs_inj (Option.some.inj ha)
      exact ⟨_, rfl, e4.2 hb⟩
  case fresh =>
    intro d hk l hl
    have hn : d ∈ new m jid dl := mem_new.2 ⟨⟨l, hl⟩, fun h => hk ((mem_old ht).1 h)⟩
    unfold Labelled Activity Advertises
    rw [target_active_new hn, target_ns_new hn, target_label_new hn, hl]
    refine ⟨rfl, ?_, ?_⟩
    · rintro ns' b ⟨a, ha, hb⟩
      cases ofBools_inj (Option.some.inj ha)
      by_cases h : ns = ns'
      · exact h.symm
      · rw [Dict.get_cons, if_neg h] at hb; cases hb
    · rintro ns' ⟨a, ha, hb⟩
      cases ofStrs_inj (Option.some.inj ha)
      simpa using hb
  case relabel =>
    intro d hk l hl
    have ho := (mem_old ht).2 hk
    have hg : (eff M jid dl m).get d = some (some l) := by rw [eff_get, if_neg (by simp [hl]), hl]
    obtain ⟨_, _, _, _, h3, _⟩ := hdev d hk
    obtain ⟨lab, hlab⟩ := h3 _ hg
    unfold Labelled
    rw [target_label_old ho, hg, hlab]
    simp only [labelAfter, optStr_of]
    split
    · rfl
    · rename_i hc
      have : some l = lab := by simpa using hc
      rw [this]
  case label =>
    intro d hk hl
    have ho := (mem_old ht).2 hk
    rw [target_label_old ho, eff_get]
    split
    · rename_i h
      simp only [labelAfter]
      obtain ⟨rfl, rfl, _⟩ := h
      simp
    · rcases hl with hl | hl <;> rw [hl] <;> simp [labelAfter]
  case frame =>
    intro k hk
    cases k with
    | devList j =>
      have : j ≠ jid := by rintro rfl; exact hk (.inl rfl)
      simp [target, this]
    | devActive j d =>
      have : j ≠ jid := by rintro rfl; exact hk (.inr ⟨d, .inr (.inl rfl)⟩)
      simp [target, this]
    | devLabel j d =>
      have : j ≠ jid := by rintro rfl; exact hk (.inr ⟨d, .inr (.inr rfl)⟩)
      simp [target, this]
    | devNamespaces j d =>
      have : j ≠ jid := by rintro rfl; exact hk (.inr ⟨d, .inl rfl⟩)
      simp [target, this]
    | _ => rfl

end Upd

/-- C11: whenever `update_device_list` returns, the stored data is the merge of the stored data before and the list. -/
theorem C11_merge (M : Mgr) (ns : Ns) (jid : Jid) (dl : DevList) (w w' : World) (t : List Ev) (ht : Typed w.disk)
    (hexec : Exec (SM.updateDeviceList M ns jid dl) t (.ok ())) (hruns : Lib.Runs w t w') :
    Merged M ns jid dl w.disk w'.disk := by
  obtain ⟨_, hr, _, _, hd⟩ := wp_sound Upd.wp_updateDeviceList hexec hruns
  rw [hd]
  exact Upd.merged_target ht hr

/-- A world with one known device of "a", active for "n" with a label. -/
def World.ex : World where
  disk := fun k => match k with
    | .devList "a" => some (.ofInts [7])
    | .devNamespaces "a" 7 => some (.ofStrs ["n", "o"])
    | .devActive "a" 7 => some (.ofBools [("n", true), ("o", true)])
    | .devLabel "a" 7 => some (.ofOptStr (some "phone"))
    | _ => none
  backends := ["n"]
  sync := false
  log := []

theorem World.ex_typed : Typed World.ex.disk := by
  intro k v h
  unfold World.ex at h
  dsimp only at h
  split at h <;> first | (cases h; done) | (cases h; exact ⟨_, rfl⟩)

/-- Answers used in examples: uploads succeed, everything else raises. -/
def quiet : World → (o : Op) → Except Exn o.Ret
  | _, .uploadList _ _ => .ok ()
  | _, _ => .error (.app 0)

theorem quiet_ok (w : World) (o : Op) (e : Exn) (h : quiet w o = .error e) : e.isInternal = false := by
  cases o <;> cases h <;> rfl

example : ∃ t w', Exec (SM.updateDeviceList Mgr.ex "n" "a" [(8, some "pc")]) t (.ok ()) ∧ Lib.Runs World.ex t w' ∧
    Typed World.ex.disk ∧ ¬ Known World.ex.disk "a" 8 ∧ Known w'.disk "a" 7 ∧ Known w'.disk "a" 8 ∧
    Activity w'.disk "a" 7 "n" false := by
  have he := runProg_exec (Lib.env quiet) Lib.next 30 (SM.updateDeviceList Mgr.ex "n" "a" [(8, some "pc")]) World.ex
  have hr := runProg_runs Lib (Lib.env quiet) (Lib.env_ok quiet quiet_ok) 30 (SM.updateDeviceList Mgr.ex "n" "a" [(8, some "pc")]) World.ex
  refine ⟨_, _, he, hr, World.ex_typed, ?_, ?_, ?_, ?_⟩
  · rintro ⟨l, hl, hd⟩
    cases ofInts_inj (Option.some.inj hl)
    simp at hd
  · exact ⟨[8, 7], rfl, by simp⟩
  · exact ⟨[8, 7], rfl, by simp⟩
  · exact ⟨_, rfl, rfl⟩

/-! ### C13: own device is kept on the own device list -/

/-- C13: whenever `update_device_list` for the own JID returns, the list contained this device and nothing was sent, or exactly one
list was uploaded, consisting of the given entries and this device with its stored label. -/
theorem C13_own_device_listed (M : Mgr) (ns : Ns) (dl : DevList) (w w' : World) (t : List Ev) (ht : Typed w.disk)
    (hexec : Exec (SM.updateDeviceList M ns M.ownJid dl) t (.ok ())) (hruns : Lib.Runs w t w') :
    ns ∈ w.backends ∧
    (((dl.get M.ownDev).isSome ∧ w'.log = w.log) ∨
     (dl.get M.ownDev = none ∧ ∃ up lab, w'.log = w.log ++ [⟨.uploadList ns up, .ok ()⟩] ∧ Labelled w.disk M.ownJid M.ownDev lab ∧
        ∀ d, up.get d = if d = M.ownDev then some lab else dl.get d)) := by
  obtain ⟨hns, hr, _, hlog, hd⟩ := wp_sound Upd.wp_updateDeviceList hexec hruns
  refine ⟨hns, ?_⟩
  unfold Upd.uploads at hlog
  by_cases h : M.ownDev ∈ dl.keys
  · rw [if_neg fun h' => h'.2 h, List.append_nil] at hlog
    exact .inl ⟨Dict.mem_keys.1 h, hlog⟩
  · rw [if_pos ⟨rfl, h⟩] at hlog
    obtain ⟨lab, hlab⟩ := hr.2.1 rfl h
    have hlab := rdLabel ht hlab
    refine .inr ⟨Dict.get_eq_none_iff.2 h, _, lab, hlog, hlab, fun d => ?_⟩
    rw [Upd.eff_get, hlab, optStr_of]
    by_cases hd : d = M.ownDev
    · subst hd; simp [Dict.get_eq_none_iff.2 h]
    · simp [hd]

/-- Both cases of C13 occur. -/
def World.ex2 : World :=
  { World.ex with disk := World.ex.disk.upd (.devLabel "me" 1) (some (.ofOptStr (some "this"))) }

example : ∃ t w', Exec (SM.updateDeviceList Mgr.ex "n" "me" [(8, some "pc")]) t (.ok ()) ∧ Lib.Runs World.ex2 t w' ∧
    w'.log = [⟨.uploadList "n" [(8, some "pc"), (1, some "this")], .ok ()⟩] := by
  have he := runProg_exec (Lib.env quiet) Lib.next 30 (SM.updateDeviceList Mgr.ex "n" "me" [(8, some "pc")]) World.ex2
  have hr := runProg_runs Lib (Lib.env quiet) (Lib.env_ok quiet quiet_ok) 30 (SM.updateDeviceList Mgr.ex "n" "me" [(8, some "pc")]) World.ex2
  exact ⟨_, _, he, hr, rfl⟩

example : ∃ t w', Exec (SM.updateDeviceList Mgr.ex "n" "me" [(1, none)]) t (.ok ()) ∧ Lib.Runs World.ex t w' ∧
    w'.log = [] := by
  have he := runProg_exec (Lib.env quiet) Lib.next 30 (SM.updateDeviceList Mgr.ex "n" "me" [(1, none)]) World.ex
  have hr := runProg_runs Lib (Lib.env quiet) (Lib.env_ok quiet quiet_ok) 30 (SM.updateDeviceList Mgr.ex "n" "me" [(1, none)]) World.ex
  exact ⟨_, _, he, hr, rfl⟩

/-! ### C14: device list updates for unloaded namespaces have no effect -/

/-- C14: if the loaded namespaces do not include `ns`, the only interaction is to look at them, and `UnknownNamespace` is raised (unless
the process dies first).  Nothing is assumed about the surroundings. -/
theorem C14_unloaded_namespace (M : Mgr) (ns : Ns) (jid : Jid) (dl : DevList) (t : List Ev) (r : Res Exn Unit) (bs : List Ns)
    (hexec : Exec (SM.updateDeviceList M ns jid dl) (⟨.getBackends, .ok bs⟩ :: t) r) (hns : ns ∉ bs) :
    t = [] ∧ r = .raised .unknownNamespace := by
  cases hexec with
  | op _ he =>
    simp only [Prog.bind, hns, not_false_eq_true, if_true] at he
    cases he
    exact ⟨rfl, rfl⟩

/-- C14, for the contract of the surroundings: no effect at all. -/
theorem C14_no_effect (M : Mgr) (ns : Ns) (jid : Jid) (dl : DevList) (w w' : World) (t : List Ev) (r : Res Exn Unit)
    (hns : ns ∉ w.backends) (hexec : Exec (SM.updateDeviceList M ns jid dl) t r) (hruns : Lib.Runs w t w') :
    (t = [] ∧ r = .crashed ∨ t = [⟨.getBackends, .ok w.backends⟩] ∧ r = .raised .unknownNamespace) ∧ w' = w := by
  cases hexec with
  | crash => cases hruns; exact ⟨.inl ⟨rfl, rfl⟩, rfl⟩
  | op x he =>
    obtain ⟨h1, h2⟩ := hruns
    cases (show x = .ok w.backends from h1)
    simp only [Prog.bind, hns, not_false_eq_true, if_true] at he
    cases he
    cases h2
    exact ⟨.inr ⟨rfl, rfl⟩, rfl⟩

example : ∃ t w', Exec (SM.updateDeviceList Mgr.ex "x" "a" [(8, none)]) t (.raised .unknownNamespace) ∧ Lib.Runs World.ex t w' := by
  have he := runProg_exec (Lib.env quiet) Lib.next 30 (SM.updateDeviceList Mgr.ex "x" "a" [(8, none)]) World.ex
  have hr := runProg_runs Lib (Lib.env quiet) (Lib.env_ok quiet quiet_ok) 30 (SM.updateDeviceList Mgr.ex "x" "a" [(8, none)]) World.ex
  exact ⟨_, _, he, hr⟩

/-! ### C15, C16: repeating updates -/

namespace Upd
variable {M : Mgr} {ns : Ns} {jid : Jid} {dl : DevList} {m m1 : Disk}

theorem activeAfter_idem {e nss v} : activeAfter ns e nss (activeAfter ns e nss v) = activeAfter ns e nss v := by
  cases e with
  | none =>
    by_cases h : ns ∈ nss ∧ (bools v).get ns = some true
    · have e1 : activeAfter ns none nss v = some (.ofBools ((bools v).set ns false)) := if_pos h
      rw [e1]; simp [activeAfter]
    · have e1 : activeAfter ns none nss v = v := if_neg h
      rw [e1, e1]
  | some l =>
    by_cases h : (bools v).get ns ≠ some true
    · have e1 : activeAfter ns (some l) nss v = some (.ofBools ((bools v).set ns true)) := if_pos h
      rw [e1]; simp [activeAfter]
    · have e1 : activeAfter ns (some l) nss v = v := if_neg h
      rw [e1, e1]

theorem labelAfter_idem {e v} : labelAfter e (labelAfter e v) = labelAfter e v := by
  cases e with
  | none => rfl
  | some l =>
    by_cases h : l ≠ none ∧ l ≠ optStr v
    · have e1 : labelAfter (some l) v = some (.ofOptStr l) := if_pos h
      rw [e1]; simp [labelAfter]
    · have e1 : labelAfter (some l) v = v := if_neg h
      rw [e1, e1]

theorem nsAfter_idem {e v} : nsAfter M ns e (nsAfter M ns e v) = nsAfter M ns e v := by
  cases e with
  | none => rfl
  | some l =>
    by_cases h : ns ∉ dedup (strs v)
    · have e1 : nsAfter M ns (some l) v = some (.ofStrs (M.O.iter (setAdd (dedup (strs v)) ns))) := if_pos h
      rw [e1]; simp [nsAfter]
    · have e1 : nsAfter M ns (some l) v = v := if_neg h
      rw [e1, e1]

/-- Values part way to the target. -/
def Towards (M : Mgr) (ns : Ns) (jid : Jid) (dl : DevList) (m m1 : Disk) : Prop :=
  ∀ k, m1 k = m k ∨ ((∃ d, Of jid d k) ∧ m1 k = target M ns jid dl m k)

theorem towards_old (h : Towards M ns jid dl m m1) : old m1 jid = old m jid := by
  unfold old
  rcases h (.devList jid) with h | ⟨⟨d, h⟩, _⟩
  · rw [h]
  · rcases h with h | h | h <;> cases h

theorem towards_label (h : Towards M ns jid dl m m1) (hj : jid = M.ownJid) (ho : M.ownDev ∉ dl.keys) :
    m1 (.devLabel M.ownJid M.ownDev) = m (.devLabel M.ownJid M.ownDev) := by
  rcases h (.devLabel M.ownJid M.ownDev) with h | ⟨_, h⟩
  · exact h
  · rw [h]
    subst hj
    by_cases hk : M.ownDev ∈ old m M.ownJid
    · rw [target_label_old hk, eff_get, if_pos ⟨rfl, rfl, Dict.get_eq_none_iff.2 ho⟩]
      simp [labelAfter]
    · have : M.ownDev ∉ new m M.ownJid dl := fun hn => by
        obtain ⟨⟨l, hl⟩, _⟩ := mem_new.1 hn
        exact ho (by simp [hl])
      simp [target, hk, this]

theorem towards_eff (h : Towards M ns jid dl m m1) : eff M jid dl m1 = eff M jid dl m := by
  unfold eff
  split
  · rename_i hc
    rw [towards_label h hc.1 hc.2]
  · rfl

/-- An interrupted update does not change where the update is heading. -/
theorem towards_target (h : Towards M ns jid dl m m1) : target M ns jid dl m1 = target M ns jid dl m := by
  have ho := towards_old h
  have he := towards_eff h
  have hn : new m1 jid dl = new m jid dl := by unfold new; rw [ho]
  funext k
  cases k with
  | devActive j d =>
    by_cases h1 : j = jid ∧ d ∈ new m jid dl
    · simp [target, hn, h1]
    by_cases h2 : j = jid ∧ d ∈ old m jid
    · obtain ⟨rfl, h2⟩ := h2
      rw [target_active_old h2, target_active_old (ho ▸ h2), he]
      cases hg : (eff M j dl m).get d with
      | none =>
        have hns : m1 (.devNamespaces j d) = m (.devNamespaces j d) := by
          rcases h (.devNamespaces j d) with h | ⟨_, h⟩
          · exact h
          · rw [h, target_ns_old h2, hg]; rfl
        rw [hns]
        rcases h (.devActive j d) with h | ⟨_, h⟩
        · rw [h]
        · rw [h, target_active_old h2, hg, activeAfter_idem]
      | some l =>
        have hirr : ∀ nss nss' v, activeAfter ns (some l) nss v = activeAfter ns (some l) nss' v := fun _ _ _ => rfl
        rcases h (.devActive j d) with h | ⟨_, h⟩
        · rw [h]; exact hirr _ _ _
        · rw [h, target_active_old h2, hg, hirr _ (dedup (strs (m (.devNamespaces j d)))), activeAfter_idem]
    · simp only [target, hn, ho, h1, h2, if_false]
      rcases h (.devActive j d) with h | ⟨_, h⟩
      · exact h
      · rw [h]; simp only [target, h1, h2, if_false]
  | devLabel j d =>
    by_cases h1 : j = jid ∧ d ∈ new m jid dl
    · simp [target, hn, h1, he]
    by_cases h2 : j = jid ∧ d ∈ old m jid
    · obtain ⟨rfl, h2⟩ := h2
      rw [target_label_old h2, target_label_old (ho ▸ h2), he]
      rcases h (.devLabel j d) with h | ⟨_, h⟩
      · rw [h]
      · rw [h, target_label_old h2, labelAfter_idem]
    · simp only [target, hn, ho, h1, h2, if_false]
      rcases h (.devLabel j d) with h | ⟨_, h⟩
      · exact h
      · rw [h]; simp only [target, h1, h2, if_false]
  | devNamespaces j d =>
    by_cases h1 : j = jid ∧ d ∈ new m jid dl
    · simp [target, hn, h1]
    by_cases h2 : j = jid ∧ d ∈ old m jid
    · obtain ⟨rfl, h2⟩ := h2
      rw [target_ns_old h2, target_ns_old (ho ▸ h2), he]
      rcases h (.devNamespaces j d) with h | ⟨_, h⟩
      · rw [h]
      · rw [h, target_ns_old h2, nsAfter_idem]
    · simp only [target, hn, ho, h1, h2, if_false]
      rcases h (.devNamespaces j d) with h | ⟨_, h⟩
      · exact h
      · rw [h]; simp only [target, h1, h2, if_false]
  | devList j =>
    have hl : m1 (.devList j) = m (.devList j) := by
      rcases h (.devList j) with h | ⟨⟨d, h⟩, _⟩
      · exact h
      · rcases h with h | h | h <;> cases h
    simp only [target, hn, ho, hl]
  | _ =>
    rcases h _ with h | ⟨⟨d, h⟩, _⟩
    · exact h
    · rcases h with h | h | h <;> cases h

theorem target_idem : target M ns jid dl (target M ns jid dl m) = target M ns jid dl m := by
  generalize hT : target M ns jid dl m = T
  have hold : ∀ d, d ∈ old T jid ↔ d ∈ old m jid ∨ d ∈ new m jid dl := by
    intro d
    have hk : T (.devList jid) =
        if (new m jid dl).length > 0 then some (.ofInts (M.O.iter (setUnion dl.keys (old m jid)))) else m (.devList jid) := by
      rw [← hT]; simp [target]
    by_cases hn : (new m jid dl).length > 0
    · rw [if_pos hn] at hk
      unfold old
      rw [hk, ints_of, mem_dedup]
      simp only [SetOrder.mem_iter, mem_setUnion]
      rw [mem_new, Dict.mem_keys, Option.isSome_iff_exists]
      change _ ↔ d ∈ old m jid ∨ _
      by_cases ho : d ∈ old m jid
      · exact ⟨fun _ => .inl ho, fun _ => .inr ho⟩
      · simp [ho]
    · rw [if_neg hn] at hk
      have : new m jid dl = [] := by simpa using hn
      rw [this]
      unfold old
      rw [hk]; simp
  have hnew : new T jid dl = [] := by
    rw [List.eq_nil_iff_forall_not_mem]
    intro d hd
    obtain ⟨h1, h2⟩ := mem_new.1 hd
    refine h2 ((hold d).2 ?_)
    by_cases ho : d ∈ old m jid
    · exact .inl ho
    · exact .inr (mem_new.2 ⟨h1, ho⟩)
  have heff : eff M jid dl T = eff M jid dl m := by
    unfold eff
    split
    · rename_i hc
      have : T (.devLabel M.ownJid M.ownDev) = m (.devLabel M.ownJid M.ownDev) := by
        rw [← hT]
        obtain ⟨rfl, hc⟩ := hc
        by_cases hk : M.ownDev ∈ old m M.ownJid
        · rw [target_label_old hk, eff_get, if_pos ⟨rfl, rfl, Dict.get_eq_none_iff.2 hc⟩]
          simp [labelAfter]
        · have : M.ownDev ∉ new m M.ownJid dl := fun hn => by
            obtain ⟨⟨l, hl⟩, _⟩ := mem_new.1 hn
            exact hc (by simp [hl])
          simp [target, hk, this]
      rw [this]
    · rfl
  have hnn : ∀ d, d ∈ new m jid dl → d ∉ old m jid := fun d h => (mem_new.1 h).2
  funext k
  cases k with
  | devActive j d =>
    by_cases hj : j = jid
    · subst hj
      by_cases h1 : d ∈ new m j dl
      · obtain ⟨⟨l, hl⟩, _⟩ := mem_new.1 h1
        have he : (eff M j dl m).get d = some l := by rw [eff_get_of_mem (by simp [hl]), hl]
        rw [target_active_old ((hold d).2 (.inr h1)), heff, he, ← hT, target_active_new h1]
        simp [activeAfter, Dict.get]
      · by_cases h2 : d ∈ old m j
        · rw [target_active_old ((hold d).2 (.inl h2)), heff, ← hT, target_active_old h2]
          cases hg : (eff M j dl m).get d with
          | none => rw [target_ns_old h2, hg]; exact activeAfter_idem
          | some l =>
            have hirr : ∀ nss nss' v, activeAfter ns (some l) nss v = activeAfter ns (some l) nss' v := fun _ _ _ => rfl
            rw [hirr _ (dedup (strs (m (.devNamespaces j d))))]; exact activeAfter_idem
        · have : d ∉ old T j := fun h => ((hold d).1 h).elim h2 h1
          simp [target, hnew, this]
    · simp [target, hj]
  | devLabel j d =>
    by_cases hj : j = jid
    · subst hj
      by_cases h1 : d ∈ new m j dl
      · obtain ⟨⟨l, hl⟩, _⟩ := mem_new.1 h1
        have he : (eff M j dl m).get d = some l := by rw [eff_get_of_mem (by simp [hl]), hl]
        rw [target_label_old ((hold d).2 (.inr h1)), heff, he, ← hT, target_label_new h1, hl]
        simp [labelAfter]
      · by_cases h2 : d ∈ old m j
        · rw [target_label_old ((hold d).2 (.inl h2)), heff, ← hT, target_label_old h2]
          exact labelAfter_idem
        · have : d ∉ old T j := fun h => ((hold d).1 h).elim h2 h1
          simp [target, hnew, this]
    · simp [target, hj]
  | devNamespaces j d =>
    by_cases hj : j = jid
    · subst hj
      by_cases h1 : d ∈ new m j dl
      · obtain ⟨⟨l, hl⟩, _⟩ := mem_new.1 h1
        have he : (eff M j dl m).get d = some l := by rw [eff_get_of_mem (by simp [hl]), hl]
        rw [target_ns_old ((hold d).2 (.inr h1)), heff, he, ← hT, target_ns_new h1]
        simp [nsAfter]
      · by_cases h2 : d ∈ old m j
        · rw [target_ns_old ((hold d).2 (.inl h2)), heff, ← hT, target_ns_old h2]
          exact nsAfter_idem
        · have : d ∉ old T j := fun h => ((hold d).1 h).elim h2 h1
          simp [target, hnew, this]
    · simp [target, hj]
  | devList j => simp [target, hnew]
  | _ => rfl

end Upd

/-- `Attempts m m'`: any number of failed or interrupted attempts of the same update lead from storage `m` to storage `m'`.  Between
attempts, fields of the session manager may change in any way, e.g. by restarting the process. -/
inductive Attempts (M : Mgr) (ns : Ns) (jid : Jid) (dl : DevList) (m : Disk) : Disk → Prop where
  | none : Attempts M ns jid dl m m
  | more {w w' : World} {t : List Ev} {r : Res Exn Unit} : Attempts M ns jid dl m w.disk →
      Exec (SM.updateDeviceList M ns jid dl) t r → r ≠ .ok () → Lib.Runs w t w' → Attempts M ns jid dl m w'.disk

/-- C15: after any number of failed or interrupted attempts, success leads to the same storage as without them. -/
theorem C15_retry (M : Mgr) (ns : Ns) (jid : Jid) (dl : DevList) (w0 w0' w w' : World) (t0 t : List Ev)
    (hexec0 : Exec (SM.updateDeviceList M ns jid dl) t0 (.ok ())) (hruns0 : Lib.Runs w0 t0 w0')
    (hatt : Attempts M ns jid dl w0.disk w.disk)
    (hexec : Exec (SM.updateDeviceList M ns jid dl) t (.ok ())) (hruns : Lib.Runs w t w') :
    w'.disk = w0'.disk := by
  have key : ∀ {m m1 : Disk}, Attempts M ns jid dl m m1 → Upd.Towards M ns jid dl m m1 := by
    intro m m1 h
    induction h with
    | none => exact fun _ => .inl rfl
    | @more w w' t r hprev he hne hr ih =>
      have := wp_sound Upd.wp_updateDeviceList he hr
      have hp : Upd.Part M ns jid dl w w' := by
        cases r with
        | ok a => exact absurd rfl hne
        | raised e => exact this.2
        | crashed => exact this.2
      intro k
      have hT := Upd.towards_target ih
      rcases hp.2.2 k with h | ⟨h, h'⟩
      · rw [h]; exact ih k
      · exact .inr ⟨h, by rw [h', hT]⟩
  obtain ⟨_, _, _, _, h0⟩ := wp_sound Upd.wp_updateDeviceList hexec0 hruns0
  obtain ⟨_, _, _, _, h1⟩ := wp_sound Upd.wp_updateDeviceList hexec hruns
  rw [h0, h1, Upd.towards_target (key hatt)]

/-- An attempt that dies after two stores, which have an effect. -/
example : ∃ w' : World, Attempts Mgr.ex "n" "a" [(8, some "pc")] World.ex.disk w'.disk ∧
    w'.disk (.devLabel "a" 8) = some (.ofOptStr (some "pc")) ∧ ¬ Known w'.disk "a" 8 := by
  have he := runProg_exec (Lib.env quiet) Lib.next 4 (SM.updateDeviceList Mgr.ex "n" "a" [(8, some "pc")]) World.ex
  have hr := runProg_runs Lib (Lib.env quiet) (Lib.env_ok quiet quiet_ok) 4 (SM.updateDeviceList Mgr.ex "n" "a" [(8, some "pc")]) World.ex
  refine ⟨_, .more (w := World.ex) .none he nofun hr, rfl, ?_⟩
  rintro ⟨l, hl, hd⟩
  cases ofInts_inj (Option.some.inj hl)
  simp at hd

/-- C16: a second successful update with the same list changes nothing. -/
theorem C16_idempotent (M : Mgr) (ns : Ns) (jid : Jid) (dl : DevList) (w w1 w1' w2 : World) (t1 t2 : List Ev)
    (hexec1 : Exec (SM.updateDeviceList M ns jid dl) t1 (.ok ())) (hruns1 : Lib.Runs w t1 w1)
    (hdisk : w1'.disk = w1.disk)
    (hexec2 : Exec (SM.updateDeviceList M ns jid dl) t2 (.ok ())) (hruns2 : Lib.Runs w1' t2 w2) :
    w2.disk = w1.disk := by
  obtain ⟨_, _, _, _, h1⟩ := wp_sound Upd.wp_updateDeviceList hexec1 hruns1
  obtain ⟨_, _, _, _, h2⟩ := wp_sound Upd.wp_updateDeviceList hexec2 hruns2
  rw [h2, hdisk, h1, Upd.target_idem]

example : ∃ t1 w1 t2 w2, Exec (SM.updateDeviceList Mgr.ex "n" "a" [(8, none)]) t1 (.ok ()) ∧ Lib.Runs World.ex t1 w1 ∧
    Exec (SM.updateDeviceList Mgr.ex "n" "a" [(8, none)]) t2 (.ok ()) ∧ Lib.Runs w1 t2 w2 := by
  have h1 := runProg_exec (Lib.env quiet) Lib.next 30 (SM.updateDeviceList Mgr.ex "n" "a" [(8, none)]) World.ex
  have h2 := runProg_runs Lib (Lib.env quiet) (Lib.env_ok quiet quiet_ok) 30 (SM.updateDeviceList Mgr.ex "n" "a" [(8, none)]) World.ex
  exact ⟨_, _, _, _, h1, h2, runProg_exec (Lib.env quiet) Lib.next 30 _ _,
    runProg_runs Lib (Lib.env quiet) (Lib.env_ok quiet quiet_ok) 30 (SM.updateDeviceList Mgr.ex "n" "a" [(8, none)]) _⟩

end Verif
