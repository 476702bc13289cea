import Verif.Proofs.CallParts
import Verif.Proofs.UpdateList
import Verif.Proofs.InfoDisk
import Verif.Proofs.Tidy
import Verif.Props.Info
/-
Known devices are not forgotten, identity keys are pinned.
-/
namespace Verif

/-- The data about device `d` of `j` is there. -/
structure Spec.Described (m : Disk) (j : Jid) (d : DevId) : Prop where
  namespaces : ∃ l, m (.devNamespaces j d) = some (.ofStrs l)
  active : ∃ a, m (.devActive j d) = some (.ofBools a)
  label : ∃ l, Spec.Labelled m j d l

/-- Every listed device of `j` has its data. -/
structure Spec.Complete (m : Disk) (j : Jid) : Prop where
  list : ∀ v, m (.devList j) = some v → ∃ l : List Int, v = .ofInts l
  data : ∀ d, Spec.Known m j d → Spec.Described m j d

/-- The application's trust decisions use the public API only. -/
def Spec.ViaApi (M : Mgr) : Prop := ∀ ds i, AppProg M (fun _ => True) (M.decide ds i)

open Spec Foot

namespace Keep
variable {M : Mgr} {j : Jid} {d : DevId} {α : Type}

/-- What is kept: all listed devices of `j` have their data, and `d`, if given, is listed. -/
structure HeldD (j : Jid) (d : Option DevId) (m : Disk) : Prop where
  complete : Complete m j
  known : ∀ x, d = some x → Known m j x

def Held (j : Jid) (d : Option DevId) (w : World) : Prop := HeldD j d w.disk

/-- Interactions that keep the devices of `j`. -/
def Mild (j : Jid) : Op → Prop
  | .store k v => k ≠ .devList j ∧ Form k v
  | .delete k => ¬ DevicePlace j k
  | _ => True

theorem described_upd {m : Disk} {k : Key} {v : JVal} (hv : Form k v) {d : DevId} (h : Described m j d) : Described (m.upd k (some v)) j d := by
  obtain ⟨⟨l, h1⟩, ⟨a, h2⟩, ⟨lab, h3⟩⟩ := h
  refine ⟨?_, ?_, ?_⟩
  · by_cases hk : Key.devNamespaces j d = k
    · subst hk; obtain ⟨l', rfl⟩ := hv; exact ⟨l', by simp⟩
    · exact ⟨l, (Disk.upd_of_ne hk).trans h1⟩
  · by_cases hk : Key.devActive j d = k
    · subst hk; obtain ⟨l', rfl⟩ := hv; exact ⟨l', by simp⟩
    · exact ⟨a, (Disk.upd_of_ne hk).trans h2⟩
  · by_cases hk : Key.devLabel j d = k
    · subst hk; obtain ⟨l', rfl⟩ := hv; exact ⟨l', by simp [Labelled]⟩
    · exact ⟨lab, (Disk.upd_of_ne hk).trans h3⟩

theorem mild_keep {x : Option DevId} : OpsKeep (Held j x) (Mild j) := by
  intro o ho w r _ hw
  cases o with
  | store k v =>
    cases r with
    | error e => exact hw
    | ok a =>
      have hl : (w.disk.upd k (some v)) (.devList j) = w.disk (.devList j) := Disk.upd_of_ne ho.1.symm
      refine ⟨⟨fun v' hv' => hw.1.1 v' (hl ▸ hv'), fun d hd => ?_⟩, fun d hd => ?_⟩
      · refine described_upd ho.2 (hw.1.2 d ?_)
        obtain ⟨l, h1, h2⟩ := hd
        exact ⟨l, hl ▸ h1, h2⟩
      · obtain ⟨l, h1, h2⟩ := hw.2 d hd
        exact ⟨l, hl.trans h1, h2⟩
  | delete k =>
    cases r with
    | error e => exact hw
    | ok a =>
      have hl : ∀ k', DevicePlace j k' → (w.disk.upd k none) k' = w.disk k' := fun k' hk' =>
        Disk.upd_of_ne (by rintro rfl; exact ho hk')
      have hl0 := hl (.devList j) (.inl rfl)
      refine ⟨⟨fun v' hv' => hw.1.1 v' (hl0 ▸ hv'), fun d hd => ?_⟩, fun d hd => ?_⟩
      · obtain ⟨l, h1, h2⟩ := hd
        obtain ⟨⟨l1, g1⟩, ⟨a, g2⟩, ⟨lab, g3⟩⟩ := hw.1.2 d ⟨l, hl0 ▸ h1, h2⟩
        exact ⟨⟨l1, (hl _ (.inr ⟨d, .inl rfl⟩)).trans g1⟩, ⟨a, (hl _ (.inr ⟨d, .inr (.inl rfl)⟩)).trans g2⟩,
          ⟨lab, (hl _ (.inr ⟨d, .inr (.inr rfl)⟩)).trans g3⟩⟩
      · obtain ⟨l, h1, h2⟩ := hw.2 d hd
        exact ⟨l, hl0.trans h1, h2⟩
  | _ => cases r <;> exact hw

theorem mild_pres {x : Option DevId} {φ : Op → Prop} {p : P α} (hp : AllOps φ p) (h : ∀ o, φ o → Mild j o) : Pres Lib (Held j x) p :=
  mild_keep.pres (hp.mono h)

theorem held_quiet {x : Option DevId} : OpsKeep (Held j x) Quiet := by
  refine quiet_keep (K := DevicePlace j) (fun k hk => ?_) fun w w' h hw => ?_
  · rcases hk with rfl | ⟨d, rfl | rfl | rfl⟩ <;> exact ⟨nofun, nofun⟩
  · have hl := h (.devList j) (.inl rfl)
    have hk : ∀ d, Known w'.disk j d ↔ Known w.disk j d := fun d => by unfold Known; rw [hl]
    refine ⟨⟨fun v hv => hw.1.1 v (hl ▸ hv), fun d hd => ?_⟩, fun d hd => (hk d).2 (hw.2 d hd)⟩
    obtain ⟨⟨l1, g1⟩, ⟨a, g2⟩, ⟨lab, g3⟩⟩ := hw.1.2 d ((hk d).1 hd)
    exact ⟨⟨l1, (h _ (.inr ⟨d, .inl rfl⟩)).trans g1⟩, ⟨a, (h _ (.inr ⟨d, .inr (.inl rfl)⟩)).trans g2⟩,
      ⟨lab, (h _ (.inr ⟨d, .inr (.inr rfl)⟩)).trans g3⟩⟩

theorem info_mild {jid : Jid} {o : Op} (h : Info jid o) : Mild j o := by
  cases h with
  | identityKey d b => exact ⟨nofun, b, rfl⟩
  | namespaces d l => exact ⟨nofun, l, rfl⟩
  | _ => trivial

theorem known_old {m : Disk} {jid : Jid} {x : DevId} (h : Known m jid x) : x ∈ Upd.old m jid := by
  obtain ⟨l, hl, hx⟩ := h
  unfold Upd.old Upd.ints
  simp [hl, rd, hx]

theorem old_known {m : Disk} {jid : Jid} (hc : Complete m jid) {x : DevId} (h : x ∈ Upd.old m jid) : Known m jid x := by
  unfold Upd.old Upd.ints at h
  cases hv : m (.devList jid) with
  | none => simp [hv, rd] at h
  | some v =>
    obtain ⟨l, rfl⟩ := hc.1 v hv
    refine ⟨l, hv, ?_⟩
    simpa [hv, rd] using h

section target
variable {ns : Ns} {jid : Jid} {dl : DevList} {m : Disk} {x : DevId}

theorem target_namespaces (h : (∃ l, m (.devNamespaces jid x) = some (.ofStrs l)) ∨ x ∈ Upd.new m jid dl) :
    ∃ l, Upd.target M ns jid dl m (.devNamespaces jid x) = some (.ofStrs l) := by
  unfold Upd.target
  dsimp only
  split
  · exact ⟨_, rfl⟩
  · rename_i hn
    obtain ⟨l, hl⟩ := h.resolve_right fun h => hn ⟨rfl, h⟩
    split
    · unfold Upd.nsAfter
      split
      · split
        · exact ⟨_, rfl⟩
        · exact ⟨l, hl⟩
      · exact ⟨l, hl⟩
    · exact ⟨l, hl⟩

theorem target_active (h : (∃ l, m (.devActive jid x) = some (.ofBools l)) ∨ x ∈ Upd.new m jid dl) :
    ∃ l, Upd.target M ns jid dl m (.devActive jid x) = some (.ofBools l) := by
  unfold Upd.target
  dsimp only
  split
  · exact ⟨_, rfl⟩
  · rename_i hn
    obtain ⟨l, hl⟩ := h.resolve_right fun h => hn ⟨rfl, h⟩
    split
    · unfold Upd.activeAfter
      split <;> split <;> first | exact ⟨_, rfl⟩ | exact ⟨l, hl⟩
    · exact ⟨l, hl⟩

theorem target_label (h : (∃ l, m (.devLabel jid x) = some (.ofOptStr l)) ∨ x ∈ Upd.new m jid dl) :
    ∃ l, Upd.target M ns jid dl m (.devLabel jid x) = some (.ofOptStr l) := by
  unfold Upd.target
  dsimp only
  split
  · exact ⟨_, rfl⟩
  · rename_i hn
    obtain ⟨l, hl⟩ := h.resolve_right fun h => hn ⟨rfl, h⟩
    split
    · unfold Upd.labelAfter
      split
      · split
        · exact ⟨_, rfl⟩
        · exact ⟨l, hl⟩
      · exact ⟨l, hl⟩
    · exact ⟨l, hl⟩

theorem target_described (h : Described m jid x ∨ x ∈ Upd.new m jid dl) : Described (Upd.target M ns jid dl m) jid x :=
  ⟨target_namespaces (h.imp_left (·.1)), target_active (h.imp_left (·.2)), target_label (h.imp_left (·.3))⟩

theorem target_known (hc : Complete m jid) : Known (Upd.target M ns jid dl m) jid x ↔ Known m jid x ∨ x ∈ Upd.new m jid dl := by
  have hl : Upd.target M ns jid dl m (.devList jid) = if (Upd.new m jid dl).length > 0 then
      some (.ofInts (M.O.iter (setUnion dl.keys (Upd.old m jid)))) else m (.devList jid) := by
    simp [Upd.target]
  unfold Known
  rw [hl]
  split
  · constructor
    · rintro ⟨l, h1, h2⟩
      cases ofInts_inj (Option.some.inj h1)
      simp only [SetOrder.mem_iter, mem_setUnion] at h2
      by_cases ho : x ∈ Upd.old m jid
      · exact .inl (old_known hc ho)
      · exact .inr (by unfold Upd.new; rw [mem_setDiff]; exact ⟨h2.resolve_right ho, ho⟩)
    · rintro h
      refine ⟨_, rfl, ?_⟩
      simp only [SetOrder.mem_iter, mem_setUnion]
      rcases h with h | h
      · exact .inr (known_old h)
      · unfold Upd.new at h; rw [mem_setDiff] at h; exact .inl h.1
  · rename_i hn
    constructor
    · exact .inl
    · rintro (h | h)
      · exact h
      · exact (hn (List.length_pos_of_mem h)).elim

end target

theorem held_update {x : Option DevId} (ns : Ns) (jid : Jid) (dl : DevList) : Pres Lib (Held j x) (SM.updateDeviceList M ns jid dl) := by
  by_cases hj : jid ≠ j
  · refine mild_pres (SM.ops_updateDeviceList M ns jid dl) fun o ho => ?_
    cases ho with
    | active d a => exact ⟨nofun, a, rfl⟩
    | label d a => exact ⟨nofun, a, rfl⟩
    | namespaces d a => exact ⟨nofun, a, rfl⟩
    | list a => exact ⟨fun h => hj (by cases h; rfl), a, rfl⟩
    | _ => trivial
  obtain rfl := Decidable.not_not.1 hj
  intro w hw
  refine wp_mono Upd.wp_updateDeviceList fun r w' hr => ?_
  have hpart : Upd.Part M ns jid dl w w' → Held jid x w' := by
    rintro ⟨_, _, h⟩
    have hl : w'.disk (.devList jid) = w.disk (.devList jid) := by
      rcases h (.devList jid) with h | ⟨⟨d, h⟩, _⟩
      · exact h
      · rcases h with h | h | h <;> cases h
    have hk : ∀ d, Known w'.disk jid d ↔ Known w.disk jid d := fun d => by unfold Known; rw [hl]
    refine ⟨⟨fun v hv => hw.1.1 v (hl ▸ hv), fun d hd => ?_⟩, fun d hd => (hk d).2 (hw.2 d hd)⟩
    have hb := hw.1.2 d ((hk d).1 hd)
    have ht := target_described (M := M) (ns := ns) (dl := dl) (.inl hb)
    refine ⟨?_, ?_, ?_⟩
    · rcases h (.devNamespaces jid d) with h | ⟨_, h⟩
      · rw [h]; exact hb.1
      · rw [h]; exact ht.1
    · rcases h (.devActive jid d) with h | ⟨_, h⟩
      · rw [h]; exact hb.2
      · rw [h]; exact ht.2
    · unfold Labelled
      rcases h (.devLabel jid d) with h | ⟨_, h⟩
      · rw [h]; exact hb.3
      · rw [h]; exact ht.3
  cases r with
  | raised e => exact hpart hr.2
  | crashed => exact hpart hr.2
  | ok a =>
    obtain ⟨_, _, _, _, hd⟩ := hr
    have hl : ∀ v, w'.disk (.devList jid) = some v → ∃ l : List Int, v = .ofInts l := by
      rw [hd]
      unfold Upd.target
      dsimp only
      split
      · rintro v ⟨⟩; exact ⟨_, rfl⟩
      · exact hw.1.1
    refine ⟨⟨hl, ?_⟩, ?_⟩
    · rw [hd]
      exact fun d h => target_described (((target_known hw.1).1 h).imp_left (hw.1.2 d))
    · rw [hd]
      exact fun d h => (target_known hw.1).2 (.inl (hw.2 d h))

theorem parts {x : Option DevId} : Parts (Held j x) M :=
  ⟨held_quiet, fun jid => mild_pres (SM.ops_getDeviceInformation' M jid) fun _ h => info_mild h, held_update⟩

theorem ownParts {x : Option DevId} : OwnParts (Held j x) M :=
  ⟨fun a => mild_pres (φ := Mild j) (.perform ⟨nofun, a, rfl⟩) fun _ h => h, fun l => mild_pres (φ := Mild j) (.perform ⟨nofun, l, rfl⟩) fun _ h => h⟩

theorem held_ikp {x : Option DevId} : Pres Lib (Held j x) IdentityKeyPair.get :=
  mild_pres ops_ikp fun o ho => by
    cases ho with
    | isSeed => exact ⟨nofun, true, rfl⟩
    | key b => exact ⟨nofun, b, rfl⟩
    | _ => trivial

theorem held_purge {x : Option DevId} {jid : Jid} (h : jid ≠ j) : Pres Lib (Held j x) (SM.purgeBareJid M jid) := by
  refine mild_pres (SM.ops_purgeBareJid M jid) fun o ho => ?_
  have hn : ∀ {k : Key}, DevicePlace j k → k = .devList jid ∨ (∃ d, k = .devNamespaces jid d ∨ k = .devActive jid d ∨ k = .devLabel jid d) → False := by
    rintro k (rfl | ⟨d, rfl | rfl | rfl⟩) (h' | ⟨d, h' | h' | h'⟩) <;> cases h' <;> exact h rfl
  cases ho with
  | namespaces d => exact fun h' => hn h' (.inr ⟨d, .inl rfl⟩)
  | active d => exact fun h' => hn h' (.inr ⟨d, .inr (.inl rfl)⟩)
  | label d => exact fun h' => hn h' (.inr ⟨d, .inr (.inr rfl)⟩)
  | identityKey d => rintro (h | ⟨d, h | h | h⟩) <;> cases h
  | trust d => rintro (h | ⟨d, h | h | h⟩) <;> cases h
  | list => exact fun h' => hn h' (.inl rfl)
  | _ => trivial

/-- Calls other than `create`. -/
theorem held_extra {x : Option DevId} {c : Call} (hc : ∀ bs l f, c ≠ .create bs l f) (hp : c ≠ .purgeBareJid j)
    (hd : c.inDecision = false → ∀ ds i, Pres Lib (Held j x) (M.decide ds i)) : Parts.Extra (Held j x) M c := by
  cases c with
  | getIdentityKeyPair => exact held_ikp
  | create bs l f => exact (hc _ _ _ rfl).elim
  | purgeBackend ns => exact ownParts
  | purgeBareJid jid => exact held_purge fun h => hp (by rw [h])
  | setTrust j' ik l => exact mild_pres (φ := Mild j) (.perform ⟨nofun, l, rfl⟩) fun _ h => h
  | setOwnLabel l => exact mild_pres (φ := Mild j) (.perform ⟨nofun, l, rfl⟩) fun _ h => h
  | encrypt => exact hd rfl
  | _ => trivial

theorem held_call {x : Option DevId} {c : Call} (hc : ∀ bs l f, c ≠ .create bs l f) (hp : c ≠ .purgeBareJid j) (happ : ViaApi M) :
    Pres Lib (Held j x) (c.run M) := by
  refine parts.call c (held_extra hc hp fun _ ds i => parts.app (fun c h => ?_) (fun _ => trivial) (happ ds i))
  refine held_extra ?_ ?_ fun h' => ?_
  · rintro bs l f rfl; cases h
  · rintro rfl; cases h
  · rw [h] at h'; cases h'

/-- `create` for another JID. -/
theorem held_create_other {x : Option DevId} (hj : M.ownJid ≠ j) (bs : List Ns) (label : Option String) (fuel : Nat) :
    Pres Lib (Held j x) (SM.create M bs label fuel) := by
  refine Parts.create (fun _ => parts) (fun _ => ownParts) held_ikp bs label fuel fun d ik bs' => ?_
  refine mild_pres (φ := Mild j) ?_ fun _ h => h
  unfold SM.storeOwnDevice Sto.storeBytes
  refine .bind (.perform ⟨nofun, _, rfl⟩) fun _ => .bind (.perform ⟨nofun, _, rfl⟩) fun _ => .bind (.perform ⟨nofun, _, rfl⟩) fun _ =>
    .bind (.perform ⟨nofun, _, rfl⟩) fun _ => .bind (.perform ⟨fun h => hj (by cases h; rfl), _, rfl⟩) fun _ => .bind (.perform ⟨nofun, _, rfl⟩) fun _ =>
    .perform ⟨nofun, _, rfl⟩

/-- Storing the own device keeps the data of listed devices complete. -/
theorem complete_storeOwn (label : Option String) (ik : Bytes) (bs' : List Ns) : Pres Lib (Held j none) (SM.storeOwnDevice M label ik bs') := by
  by_cases hj : M.ownJid ≠ j
  · refine mild_pres (φ := Mild j) ?_ fun _ h => h
    unfold SM.storeOwnDevice Sto.storeBytes
    exact .bind (.perform ⟨nofun, _, rfl⟩) fun _ => .bind (.perform ⟨nofun, _, rfl⟩) fun _ => .bind (.perform ⟨nofun, _, rfl⟩) fun _ =>
      .bind (.perform ⟨nofun, _, rfl⟩) fun _ => .bind (.perform ⟨fun h => hj (by cases h; rfl), _, rfl⟩) fun _ => .bind (.perform ⟨nofun, _, rfl⟩) fun _ =>
      .perform ⟨nofun, _, rfl⟩
  obtain rfl := Decidable.not_not.1 hj
  refine pres_ends.2 fun w hw => ?_
  have step : ∀ {w : World} {k : Key} {v : JVal}, Held M.ownJid none w → k ≠ .devList M.ownJid → Form k v →
      Held M.ownJid none { w with disk := w.disk.upd k (some v) } := fun {w k v} h h1 h2 =>
    mild_keep (.store k v) ⟨h1, h2⟩ w (.ok ()) trivial h
  unfold SM.storeOwnDevice
  rw [ends_bind]
  have h1 := step (k := .devNamespaces M.ownJid M.ownDev) (v := .ofStrs bs') hw nofun ⟨_, rfl⟩
  refine Lib.store (fun _ _ => hw) ?_
  rw [ends_bind]
  have h2 := step (k := .devActive M.ownJid M.ownDev) (v := .ofBools (bs'.map fun ns => (ns, true))) h1 nofun ⟨_, rfl⟩
  refine Lib.store (fun _ _ => h1) ?_
  rw [ends_bind]
  have h3 := step (k := .devLabel M.ownJid M.ownDev) (v := .ofOptStr label) h2 nofun ⟨_, rfl⟩
  refine Lib.store (fun _ _ => h2) ?_
  rw [ends_bind]
  have h4 := step (k := .devIdentityKey M.ownJid M.ownDev) (v := .str (Base64.encode ik)) h3 nofun ⟨_, rfl⟩
  refine Lib.storeBytes (fun _ _ => h3) ?_
  rw [ends_bind]
  refine Lib.store (fun _ _ => h4) ?_
  generalize hw5 : ({ disk := Disk.upd _ (Key.devList M.ownJid) _, .. } : World) = w5
  have h5 : Held M.ownJid none w5 := by
    subst hw5
    refine ⟨⟨fun v hv => ?_, fun x hx => ?_⟩, nofun⟩
    · simp at hv; exact ⟨_, hv.symm⟩
    · obtain ⟨l, hl, hm⟩ := hx
      simp at hl
      cases ofInts_inj hl
      obtain rfl : x = M.ownDev := by simpa using hm
      exact ⟨⟨bs', by simp [Disk.upd]⟩, ⟨_, by simp [Disk.upd]; rfl⟩, ⟨label, by simp [Labelled, Disk.upd]⟩⟩
  rw [ends_bind]
  have h6 := step (k := .trust M.ownJid ik) (v := .str M.undecided) h5 nofun ⟨_, rfl⟩
  refine Lib.store (fun _ _ => h5) ?_
  exact Lib.store (fun _ _ => h6) (step h6 nofun ⟨M.ownDev, rfl⟩)

/-- `create` keeps the data of listed devices complete. -/
theorem complete_create (bs : List Ns) (label : Option String) (fuel : Nat) : Pres Lib (Held j none) (SM.create M bs label fuel) :=
  Parts.create (fun _ => parts) (fun _ => ownParts) held_ikp bs label fuel fun _ _ _ => complete_storeOwn _ _ _

/-- `create` once the own device id is stored. -/
theorem held_create {x : Option DevId} (bs : List Ns) (label : Option String) (fuel : Nat) :
    Pres Lib (fun w => Held j x w ∧ IdSet w) (SM.create M bs label fuel) :=
  Parts.create_again (fun _ => parts.and (.ofWrites idSet_quiet idSet_writes)) (fun _ => ownParts.and (.ofWrites idSet_writes))
    (held_ikp.and idSet_ikp) (fun _ h => h.2) bs label fuel

end Keep

/-! ### C12 -/

/-- C12, as stated: a listed device stays listed, with its data. -/
def C12_Claim : Prop :=
  ∀ (cs0 cs : List (Mgr × Call)) (w w' : World) (j : Jid) (d : DevId), (∀ x ∈ cs0 ++ cs, ViaApi x.1) →
    (∀ x ∈ cs0 ++ cs, x.2 ≠ .purgeBareJid j) → Hist Lib World.fresh cs0 w → Hist Lib w cs w' → Known w.disk j d →
    Known w'.disk j d ∧ Described w'.disk j d

/-- The random number generator returns 1. -/
def another (w : World) (o : Op) : Except Exn o.Ret := match o with
  | .randBelow _ => .ok 1
  | o => genuine w o

theorem another_ok (w : World) (o : Op) (e : Exn) (h : another w o = .error e) : e.isInternal = false := by
  cases o <;> simp only [another] at h <;> first | exact genuine_ok w _ e h | (cases h; done)

def Friendly.another : Friendly := ⟨Verif.another, another_ok⟩

/-- The first `create` died after storing the own device list, before storing the own device id. -/
def World.dead : World := (Friendly.genuine.cut 17 ((Call.create ["n", "o"] (some "pc") 5).run Mgr.ex) World.fresh).2.2

/-- The second `create` succeeded. -/
def World.reborn : World := (Friendly.another.run ((Call.create ["n", "o"] (some "pc") 5).run Mgr.ex) World.dead).2.2

theorem World.dead_hist : Hist Lib World.fresh [(Mgr.ex, .create ["n", "o"] (some "pc") 5)] World.dead :=
  Friendly.genuine.cut_hist 17 (.nil _) Mgr.ex _

theorem World.reborn_hist : Hist Lib World.dead [(Mgr.ex, .create ["n", "o"] (some "pc") 5)] World.reborn :=
  Friendly.another.hist (.nil _) Mgr.ex _

theorem viaApi_ex : ViaApi Mgr.ex := fun _ _ => .ret ()

/-- C12 is false of the code: the first run of `create` overwrites the stored device list (sm:395-397), also if a `create` that died before
storing the own device id has left one behind. -/
theorem C12_refuted : ¬ C12_Claim := by
  intro h
  have hk : Known World.dead.disk Mgr.ex.ownJid 1 := ⟨[1], rfl, by simp⟩
  obtain ⟨⟨l, hl, hm⟩, _⟩ := h _ _ _ _ Mgr.ex.ownJid 1 (by simp [viaApi_ex]) (by simp) World.dead_hist World.reborn_hist hk
  have : World.reborn.disk (.devList Mgr.ex.ownJid) = some (.ofInts [2]) := rfl
  rw [this] at hl
  cases ofInts_inj (Option.some.inj hl)
  simp at hm

/-- C12, for devices of other JIDs, and for all devices from the moment on at which the own device id is stored.  Missing: the own
device list left behind by a `create` that did not get to the point of storing the own device id, see `C12_refuted`. -/
theorem C12_partial (cs0 cs : List (Mgr × Call)) (w0 w w' : World) (j : Jid) (d : DevId) (happ : ∀ x ∈ cs0 ++ cs, ViaApi x.1)
    (hp : ∀ x ∈ cs0 ++ cs, x.2 ≠ .purgeBareJid j) (h0 : w0.disk = fun _ => none) (hh0 : Hist Lib w0 cs0 w) (hh : Hist Lib w cs w')
    (hk : Known w.disk j d)
    (hid : w.disk .ownDeviceId ≠ none ∨ ∀ x ∈ cs, ∀ bs l f, x.2 = .create bs l f → x.1.ownJid ≠ j) :
    Known w'.disk j d ∧ Described w'.disk j d := by
  have hc : Keep.Held j none w := by
    refine hh0.invariant (fun x hx => ?_) ?_
    · obtain ⟨M, c⟩ := x
      by_cases hc : ∃ bs l f, c = .create bs l f
      · obtain ⟨bs, l, f, rfl⟩ := hc
        exact (Keep.complete_create bs l f).bind fun _ => Pres.pure _
      · exact Keep.held_call (fun bs l f h => hc ⟨bs, l, f, h⟩) (hp (M, c) (by simp [hx])) (happ (M, c) (by simp [hx]))
    · show Keep.HeldD j none w0.disk
      rw [h0]
      exact ⟨⟨nofun, by rintro x ⟨l, h, _⟩; cases h⟩, nofun⟩
  have hd : Keep.Held j (some d) w := ⟨hc.1, by rintro x ⟨⟩; exact hk⟩
  have hfin : Keep.Held j (some d) w' := by
    rcases hid with hid | hid
    · refine (hh.invariant (I := fun w => Keep.Held j (some d) w ∧ IdSet w) (fun x hx => ?_) ⟨hd, hid⟩).1
      obtain ⟨M, c⟩ := x
      by_cases hc : ∃ bs l f, c = .create bs l f
      · obtain ⟨bs, l, f, rfl⟩ := hc
        exact (Keep.held_create bs l f).bind fun _ => Pres.pure _
      · have ha := happ (M, c) (by simp [hx])
        have hi : Pres Lib IdSet (c.run M) := pres_writes idSet_writes idSet_ikp (fun _ => trivial) ha c
        exact (Keep.held_call (fun bs l f h => hc ⟨bs, l, f, h⟩) (hp (M, c) (by simp [hx])) ha).and hi
    · refine hh.invariant (fun x hx => ?_) hd
      obtain ⟨M, c⟩ := x
      by_cases hc : ∃ bs l f, c = .create bs l f
      · obtain ⟨bs, l, f, rfl⟩ := hc
        exact (Keep.held_create_other (hid _ hx bs l f rfl) bs l f).bind fun _ => Pres.pure _
      · exact Keep.held_call (fun bs l f h => hc ⟨bs, l, f, h⟩) (hp (M, c) (by simp [hx])) (happ (M, c) (by simp [hx]))
  exact ⟨hfin.2 d rfl, hfin.1.2 d (hfin.2 d rfl)⟩

/-- A device of "a" is met; then its list shrinks, is replaced, and the library is started again with other backends. -/
def World.later : World :=
  (Friendly.genuine.run ((Call.create ["n"] none 5).run Mgr.ex)
    (Friendly.genuine.run ((Call.updateDeviceList "n" "a" []).run Mgr.ex) World.met2).2.2).2.2

theorem C12_example : ∃ cs, Hist Lib World.met2 cs World.later ∧ cs.length = 2 ∧ Known World.met2.disk "a" 7 ∧ Known World.later.disk "a" 7 ∧
    Described World.later.disk "a" 7 ∧ Activity World.later.disk "a" 7 "n" false :=
  ⟨_, Friendly.genuine.hist (Friendly.genuine.hist (.nil _) _ _) _ _, rfl, ⟨[7, 8], rfl, by simp⟩, ⟨[7, 8], rfl, by simp⟩,
    ⟨⟨["n"], rfl⟩, ⟨[("n", false)], rfl⟩, ⟨some "x", rfl⟩⟩, ⟨[("n", false)], rfl, rfl⟩⟩

end Verif
