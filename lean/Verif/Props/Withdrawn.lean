import Verif.Props.Passed
import Verif.Props.PurgeJid
/-
C120: devices taken off the device list get no more messages.
-/
namespace Verif
open Spec SM

namespace Spec

/-- A device list of `j` for `ns` was downloaded that contains `d`. -/
def Relisted (ns : Ns) (j : Jid) (d : DevId) (e : Ev) : Prop := ∃ l : DevList, e = ⟨.downloadList ns j, .ok l⟩ ∧ l.get d ≠ none

/-- The call does not bring device `d` of `j` to the backend `ns`: a list it is given for them does not contain `d`, and it does not create another
manager for the account `j` itself. -/
def KeepsOff (ns : Ns) (j : Jid) (d : DevId) (M : Mgr) : Call → Prop
  | .updateDeviceList ns' j' l => ns' = ns → j' = j → l.get d = none
  | .create .. => M.ownJid ≠ j
  | _ => True

/-- The same for a manager other than that of the device itself, and for what the application calls while it decides on trust. -/
structure Withholding (ns : Ns) (j : Jid) (d : DevId) (x : Mgr × Call) : Prop where
  other : ¬ (x.1.ownJid = j ∧ x.1.ownDev = d)
  call : KeepsOff ns j d x.1 x.2
  app : ∀ ds i, AppBy x.1 (fun c => KeepsOff ns j d x.1 c ∧ c.inDecision = true) (x.1.decide ds i)

end Spec

namespace Withdrawn
variable {M : Mgr} {ns : Ns} {j : Jid} {d : DevId} {l0 : List Ev}
open Delivery Passed

/-- The stored list of known devices, if any, is one. -/
def ListOk (m : Disk) (j : Jid) : Prop := ∀ v, m (.devList j) = some v → ∃ l, v = .ofInts l

/-- The device cannot be addressed. -/
def OffW (j : Jid) (d : DevId) (ns : Ns) (w : World) : Prop := ListOk w.disk j ∧ ¬ ReachableW j d ns w

/-- Since `l0` was recorded, a list with the device was downloaded, or the device cannot be addressed. -/
def Off (l0 : List Ev) (ns : Ns) (j : Jid) (d : DevId) (w : World) : Prop :=
  ∃ l, w.log = l0 ++ l ∧ ((∃ e ∈ l, Relisted ns j d e) ∨ OffW j d ns w)

theorem OffW.congr {w w' : World} (h : OffW j d ns w) (hd : ∀ k, Place j d k → w'.disk k = w.disk k) : OffW j d ns w' := by
  refine ⟨fun v hv => h.1 v ((hd _ (.inl rfl)).symm.trans hv), fun hr => h.2 (ReachableW.congr hr fun k hk => (hd k hk).symm)⟩

theorem OffW.erase {w w' : World} (h : OffW j d ns w) (hd : ∀ k, Place j d k → w'.disk k = w.disk k ∨ w'.disk k = none) : OffW j d ns w' := by
  have hs : ∀ k v, Place j d k → w'.disk k = some v → w.disk k = some v := fun k v hk hv => by
    rcases hd k hk with h | h
    · rw [← h, hv]
    · rw [h] at hv; cases hv
  refine ⟨fun v hv => h.1 v (hs _ _ (.inl rfl) hv), fun hr => h.2 ?_⟩
  obtain ⟨⟨l, h1, h2⟩, ⟨n, h3, h4⟩, ⟨a, h5, h6⟩⟩ := hr
  exact ⟨⟨l, hs _ _ (.inl rfl) h1, h2⟩, ⟨n, hs _ _ (.inr (.inl rfl)) h3, h4⟩, ⟨a, hs _ _ (.inr (.inr rfl)) h5, h6⟩⟩

/-- Interactions that do not write these places; they may delete them. -/
def Writes (j : Jid) (d : DevId) : Op → Prop
  | .store k _ => ¬ Place j d k
  | _ => True

theorem keep : OpsKeep (Off l0 ns j d) (Writes j d) := by
  rintro o ho w r _ ⟨l, h1, h2⟩
  obtain ⟨l', h3⟩ := log_grows w o r
  refine ⟨l ++ l', by rw [h3, h1, List.append_assoc], ?_⟩
  rcases h2 with ⟨e, h4, h5⟩ | h2
  · exact .inl ⟨e, List.mem_append_left _ h4, h5⟩
  · refine .inr (OffW.erase h2 fun k hk => ?_)
    cases o with
    | store k' v => cases r with
      | ok a => exact .inl (Disk.upd_of_ne fun h => ho (h ▸ hk))
      | error e => exact .inl rfl
    | delete k' => cases r with
      | ok a =>
        by_cases h : k = k'
        · subst h; exact .inr (by simp [Lib, Disk.upd])
        · exact .inl (Disk.upd_of_ne fun h' => h (by first | exact h' | exact h'.symm))
      | error e => exact .inl rfl
    | _ => cases r <;> exact .inl rfl

theorem pres_writes {α : Type} {p : P α} (h : AllOps (Writes j d) p) : Pres Lib (Off l0 ns j d) p := keep.pres h

theorem spares_writes {o : Op} (h : Spares j d o) : Writes j d o := by cases o <;> first | exact h | trivial

/-- What was downloaded stays recorded. -/
theorem pres_relisted {α : Type} (p : P α) : Pres Lib (fun w => ∃ l, w.log = l0 ++ l ∧ ∃ e ∈ l, Relisted ns j d e) p := by
  refine Pres.ofOps (φ := fun _ => True) (allOps_any _) fun o _ w r _ ⟨l, h1, e, h2, h3⟩ => ?_
  obtain ⟨l', h4⟩ := log_grows w o r
  exact ⟨l ++ l', by rw [h4, h1, List.append_assoc], e, List.mem_append_left _ h2, h3⟩

theorem pres_off {α : Type} {p : P α} (h : Pres Lib (OffW j d ns) p) : Pres Lib (Off l0 ns j d) p := by
  intro w hw
  obtain ⟨l, h1, h2⟩ := hw
  have hg : Pres Lib (fun w => ∃ l', w.log = l0 ++ l ++ l') p := by
    refine Pres.ofOps (φ := fun _ => True) (allOps_any _) fun o _ w r _ ⟨l', h3⟩ => ?_
    obtain ⟨l'', h4⟩ := log_grows w o r
    exact ⟨l' ++ l'', by rw [h4, h3, List.append_assoc]⟩
  have hg := hg w ⟨[], by rw [h1, List.append_nil]⟩
  rcases h2 with ⟨e, h3, h4⟩ | h2
  · exact wp_mono hg fun r w' ⟨l', h5⟩ => ⟨l ++ l', by rw [h5, List.append_assoc], .inl ⟨e, List.mem_append_left _ h3, h4⟩⟩
  · exact wp_mono (wp_and hg (h w h2)) fun r w' ⟨⟨l', h5⟩, h6⟩ => ⟨l ++ l', by rw [h5, List.append_assoc], .inr h6⟩

/-! ### Looking up devices -/

theorem list_info' {v : Option JVal} (jid : Jid) : Pres Lib (fun w => w.disk (.devList j) = v) (getDeviceInformation' M jid) := fun w hw =>
  wp_mono (looked_info' jid w) fun _ _ h => (h.disk.frame (.devList j) fun _ => ⟨nofun, nofun⟩).trans hw

theorem active_info' {v : Option JVal} (jid : Jid) : Pres Lib (fun w => w.disk (.devActive j d) = v) (getDeviceInformation' M jid) := fun w hw =>
  wp_mono (looked_info' jid w) fun _ _ h => (h.disk.frame (.devActive j d) fun _ => ⟨nofun, nofun⟩).trans hw

theorem adv_info' (jid : Jid) : Pres Lib (fun w => ¬ Advertises w.disk j d ns) (getDeviceInformation' M jid) := by
  intro w hw
  refine wp_mono (looked_info' jid w) fun r w' h => ?_
  rintro ⟨n, h1, h2⟩
  by_cases hj : j = jid
  · subst hj
    rcases h.disk.namespaces d with h7 | ⟨l, a, l', h7, h8, h9, h10⟩
    · exact hw ⟨n, h7.symm.trans h1, h2⟩
    · rw [h9] at h1
      simp only [Option.some.injEq] at h1
      obtain rfl := ofStrs_inj' h1
      exact hw ⟨l, h7, ((h10 ns).1 h2).1⟩
  · exact hw ⟨n, ((h.disk.frame (.devNamespaces j d) fun _ => ⟨nofun, by rintro ⟨⟩; exact hj rfl⟩).symm).trans h1, h2⟩

theorem off_info' (jid : Jid) : Pres Lib (OffW j d ns) (getDeviceInformation' M jid) := by
  intro w ⟨h1, h2⟩
  refine wp_mono (wp_and (wp_and (list_info' (v := w.disk (.devList j)) jid w rfl) (active_info' (v := w.disk (.devActive j d)) jid w rfl))
    (wp_and (show wp Lib _ (fun _ w' => Advertises w'.disk j d ns → Advertises w.disk j d ns) w from ?_) (looked_info' jid w)))
    fun r w' ⟨⟨h3, h4⟩, h5, _⟩ => ⟨fun v hv => h1 v (h3.symm.trans hv), fun ⟨⟨l, k1, k2⟩, k3, a, k4, k5⟩ =>
      h2 ⟨⟨l, h3.symm.trans k1, k2⟩, h5 k3, a, h4.symm.trans k4, k5⟩⟩
  by_cases ha : Advertises w.disk j d ns
  · exact wp_mono (looked_info' jid w) fun _ _ _ _ => ha
  · exact wp_mono (adv_info' jid w ha) fun _ _ h h' => absurd h' h

/-! ### Merging lists -/

theorem known_old {m : Disk} (h : Known m j d) : d ∈ Upd.old m j := by
  obtain ⟨l, h1, h2⟩ := h
  unfold Upd.old
  rw [h1, ints_of, mem_dedup]
  exact h2

theorem old_known {m : Disk} (hl : ListOk m j) (h : d ∈ Upd.old m j) : Known m j d := by
  unfold Upd.old at h
  rw [mem_dedup] at h
  cases hm : m (.devList j) with
  | none => rw [hm] at h; simp [Upd.ints, rd] at h
  | some v =>
    obtain ⟨l, rfl⟩ := hl v hm
    rw [hm, ints_of] at h
    exact ⟨l, rfl.trans hm, h⟩

/-- Merging a list without the device, or a list of another backend. -/
theorem off_update {ns' : Ns} {j' : Jid} {dl : DevList} (hown : ¬ (M.ownJid = j ∧ M.ownDev = d)) (h : ns' = ns → j' = j → dl.get d = none) :
    Pres Lib (OffW j d ns) (updateDeviceList M ns' j' dl) := by
  refine pres_ends.2 fun w hw => ?_
  by_cases hj : j' = j
  · subst hj
    have heff : (Upd.eff M j' dl w.disk).get d = dl.get d := by
      rw [Upd.eff_get, if_neg]
      rintro ⟨h1, h2, _⟩
      exact hown ⟨h1.symm, h2.symm⟩
    -- what the new data of a known device says
    have hadv : Known w.disk j' d → Advertises (Upd.target M ns' j' dl w.disk) j' d ns → Advertises w.disk j' d ns := by
      rintro hk ⟨n, h1, h2⟩
      rw [Upd.target_ns_old (known_old hk), heff] at h1
      unfold Upd.nsAfter at h1
      split at h1
      · rename_i hg
        split at h1
        · simp only [Option.some.injEq] at h1
          obtain rfl := ofStrs_inj' h1
          rw [SetOrder.mem_iter, mem_setAdd, mem_dedup] at h2
          rcases h2 with h2 | h2
          · unfold Upd.strs at h2
            split at h2
            · rename_i l' hl'
              exact ⟨l', rd_strs hl', h2⟩
            · cases h2
          · rw [h h2.symm rfl] at hg; cases hg
        · exact ⟨n, h1, h2⟩
      · exact ⟨n, h1, h2⟩
    have hact : Known w.disk j' d → Activity (Upd.target M ns' j' dl w.disk) j' d ns true → Activity w.disk j' d ns true := by
      rintro hk ⟨a, h1, h2⟩
      rw [Upd.target_active_old (known_old hk), heff] at h1
      have hb : ∀ b : Bool, some (JVal.ofBools ((Upd.bools (w.disk (.devActive j' d))).set ns' b)) = some (.ofBools a) → ns' ≠ ns ∨ b = false →
          Activity w.disk j' d ns true := by
        intro b h1 hne
        simp only [Option.some.injEq] at h1
        obtain rfl := ofBools_inj' h1
        rw [Dict.get_set] at h2
        split at h2
        · rename_i he
          rcases hne with hne | rfl
          · exact absurd he hne
          · cases h2
        · unfold Upd.bools at h2
          split at h2
          · rename_i l' hl'
            exact ⟨l', rd_bools hl', h2⟩
          · cases h2
      unfold Upd.activeAfter at h1
      split at h1
      · rename_i hg
        split at h1
        · refine hb true h1 (.inl fun he => ?_)
          rw [h he rfl] at hg; cases hg
        · exact ⟨a, h1, h2⟩
      · split at h1
        · exact hb false h1 (.inr rfl)
        · exact ⟨a, h1, h2⟩
    have hmix : ∀ w' : World, Known w.disk j' d → (∀ k, w'.disk k = w.disk k ∨ w'.disk k = Upd.target M ns' j' dl w.disk k) → ¬ ReachableW j' d ns w' := by
      rintro w' hk hw' ⟨_, ⟨n, h1, h2⟩, ⟨a, h3, h4⟩⟩
      refine hw.2 ⟨hk, ?_, ?_⟩
      · rcases hw' (.devNamespaces j' d) with h5 | h5
        · exact ⟨n, h5.symm.trans h1, h2⟩
        · exact hadv hk ⟨n, h5.symm.trans h1, h2⟩
      · rcases hw' (.devActive j' d) with h5 | h5
        · exact ⟨a, h5.symm.trans h3, h4⟩
        · exact hact hk ⟨a, h5.symm.trans h3, h4⟩
    refine ends_mono Upd.wp_updateDeviceList (fun _ w' h' => ?_) fun _ w' h' => ?_
    · obtain ⟨_, _, _, _, hd⟩ := h'
      have hlist : w'.disk (.devList j') = if (Upd.new w.disk j' dl).length > 0 then
          some (.ofInts (M.O.iter (setUnion dl.keys (Upd.old w.disk j')))) else w.disk (.devList j') := by
        rw [hd]; simp [Upd.target]
      refine ⟨fun v hv => ?_, ?_⟩
      · rw [hlist] at hv
        split at hv
        · cases hv; exact ⟨_, rfl⟩
        · exact hw.1 v hv
      · by_cases hk : Known w.disk j' d
        · exact hmix w' hk fun k => .inr (by rw [hd])
        · rintro ⟨⟨l, h1, h2⟩, _, ⟨a, h3, h4⟩⟩
          by_cases hn : d ∈ Upd.new w.disk j' dl
          · rw [hd, Upd.target_active_new hn] at h3
            simp only [Option.some.injEq] at h3
            obtain rfl := ofBools_inj' h3
            have hne : ns' = ns := by
              simp only [Dict.get] at h4
              first
                | (split at h4; · assumption; · cases h4)
                | (simp at h4; exact h4)
            obtain ⟨⟨x, hx⟩, _⟩ := Upd.mem_new.1 hn
            rw [h hne rfl] at hx
            cases hx
          · rw [hlist] at h1
            split at h1
            · simp only [Option.some.injEq] at h1
              obtain rfl := ofInts_inj h1
              rw [SetOrder.mem_iter, mem_setUnion] at h2
              rcases h2 with h2 | h2
              · exact hn (Upd.mem_new.2 ⟨Option.isSome_iff_exists.1 (Dict.mem_keys.1 h2), fun ho => hk (old_known hw.1 ho)⟩)
              · exact hk (old_known hw.1 h2)
            · exact hk ⟨l, h1, h2⟩
    · obtain ⟨_, _, _, hd⟩ := h'
      have hlist : w'.disk (.devList j') = w.disk (.devList j') := by
        rcases hd (.devList j') with h1 | ⟨⟨_, h1 | h1 | h1⟩, _⟩
        · exact h1
        all_goals cases h1
      refine ⟨fun v hv => hw.1 v (hlist.symm.trans hv), ?_⟩
      by_cases hk : Known w.disk j' d
      · exact hmix w' hk fun k => (hd k).imp_right And.right
      · rintro ⟨⟨l, h1, h2⟩, _⟩
        exact hk ⟨l, hlist.symm.trans h1, h2⟩
  · have he : ∀ k, Place j d k → Upd.target M ns' j' dl w.disk k = w.disk k := by
      have hj : ¬ j = j' := fun h => hj h.symm
      rintro k (rfl | rfl | rfl) <;> simp [Upd.target, hj]
    refine ends_mono Upd.wp_updateDeviceList (fun _ w' h => ?_) fun _ w' h => ?_
    · obtain ⟨_, _, _, _, h⟩ := h
      exact OffW.congr hw fun k hk => by rw [h, he k hk]
    · refine OffW.congr hw fun k hk => ?_
      rcases h.2.2.2 k with h7 | ⟨_, h7⟩
      · exact h7
      · rw [h7, he k hk]

theorem off_refresh (hown : ¬ (M.ownJid = j ∧ M.ownDev = d)) (ns' : Ns) (j' : Jid) : Pres Lib (Off l0 ns j d) (refreshDeviceList M ns' j') := by
  refine pres_ends.2 fun w hw => ?_
  obtain ⟨l, h1, h2⟩ := hw
  unfold refreshDeviceList
  rw [ends_bind]
  refine Lib.ext rfl ⟨l, h1, h2⟩ (fun e _ => ?_) fun dl => ?_
  · exact keep (.downloadList ns' j') trivial w (.error e) (by assumption) ⟨l, h1, h2⟩
  · have hnext : Off l0 ns j d (w.push ⟨.downloadList ns' j', .ok dl⟩) := keep (.downloadList ns' j') trivial w (.ok dl) trivial ⟨l, h1, h2⟩
    by_cases hb : ns' = ns → j' = j → dl.get d = none
    · exact pres_ends.1 (pres_off (off_update hown hb)) _ hnext
    · refine ends_mono (pres_ends.1 (pres_relisted (l0 := l0) (ns := ns) (j := j) (d := d) _) _ ?_) (fun _ w' ⟨l', h3, h4⟩ => ⟨l', h3, .inl h4⟩)
        fun _ w' ⟨l', h3, h4⟩ => ⟨l', h3, .inl h4⟩
      have hb' : ns' = ns ∧ j' = j ∧ dl.get d ≠ none := by
        refine ⟨Classical.not_not.1 fun h => hb fun h' => absurd h' h, Classical.not_not.1 fun h => hb fun _ h' => absurd h' h, ?_⟩
        exact fun h => hb fun _ _ => h
      obtain ⟨rfl, rfl, hg⟩ := hb'
      exact ⟨l ++ [⟨.downloadList ns' j', .ok dl⟩], by simp [World.push, h1], _, by simp, dl, rfl, hg⟩

theorem parts (hown : ¬ (M.ownJid = j ∧ M.ownDev = d)) : ServerParts (Off l0 ns j d) M :=
  ⟨fun o ho => keep o (spares_writes (quiet_spares ho)), fun jid => pres_off (off_info' jid), off_refresh hown⟩

theorem ownParts (h : ¬ (M.ownJid = j ∧ M.ownDev = d)) : OwnParts (Off l0 ns j d) M := by
  refine ⟨fun a => pres_writes (.perform ?_), fun a => pres_writes (.perform ?_)⟩
  · rintro (h' | h' | h')
    · cases h'
    · cases h'
    · cases h'; exact h ⟨rfl, rfl⟩
  · rintro (h' | h' | h')
    · cases h'
    · cases h'; exact h ⟨rfl, rfl⟩
    · cases h'

theorem off_ikp : Pres Lib (Off l0 ns j d) IdentityKeyPair.get :=
  pres_writes (ops_ikp.mono fun o ho => by
    cases ho with
    | isSeed => rintro (h | h | h) <;> cases h
    | key b => rintro (h | h | h) <;> cases h
    | _ => trivial)

theorem off_purge (jid : Jid) : Pres Lib (Off l0 ns j d) (purgeBareJid M jid) := by
  refine pres_writes ((SM.ops_purgeBareJid M jid).mono fun o ho => ?_)
  cases ho <;> trivial

theorem off_create (hj : M.ownJid ≠ j) (bs : List Ns) (label : Option String) (fuel : Nat) : Pres Lib (Off l0 ns j d) (create M bs label fuel) := by
  refine ServerParts.create (fun _ => parts fun h => hj h.1) (fun _ => ownParts fun h => hj h.1) off_ikp bs label fuel fun d' ik bs' => pres_writes ?_
  unfold storeOwnDevice Sto.storeBytes
  refine .bind (.perform ?_) fun _ => .bind (.perform ?_) fun _ => .bind (.perform ?_) fun _ =>
    .bind (.perform ?_) fun _ => .bind (.perform ?_) fun _ => .bind (.perform ?_) fun _ => .perform ?_
  all_goals rintro (h' | h' | h') <;> cases h' <;> exact hj rfl

theorem off_extra {c : Call} (ho : ¬ (M.ownJid = j ∧ M.ownDev = d)) (hc : KeepsOff ns j d M c)
    (hd : c.inDecision = false → ∀ ds i, Pres Lib (Off l0 ns j d) (M.decide ds i)) : ServerParts.Extra (Off l0 ns j d) M c := by
  cases c with
  | getIdentityKeyPair => exact off_ikp
  | create bs l f => exact off_create hc bs l f
  | purgeBackend ns => exact ownParts ho
  | purgeBareJid jid => exact off_purge jid
  | updateDeviceList ns' jid dl => exact pres_off (off_update ho hc)
  | setTrust j' ik l => exact pres_writes (.perform (by rintro (h' | h' | h') <;> cases h'))
  | setOwnLabel l => exact pres_writes (.perform (by rintro (h' | h' | h') <;> cases h'))
  | encrypt => exact hd rfl
  | _ => trivial

theorem off_call {x : Mgr × Call} (h : Withholding ns j d x) : Pres Lib (Off l0 ns j d) (x.2.run x.1) := by
  refine (parts h.other).call x.2 (off_extra h.other h.call fun _ ds i => (parts h.other).app (fun c hc => ?_) (h.app ds i))
  exact off_extra h.other hc.1 fun h' => by rw [hc.2] at h'; cases h'

/-- Successfully merging a list without the device. -/
theorem merged {L : DevList} {w w' : World} (hown : ¬ (M.ownJid = j ∧ M.ownDev = d)) (hL : L.get d = none)
    (hok : ListOk w.disk j) (h : Upd.Done M ns j L w w') : OffW j d ns w' := by
  obtain ⟨_, _, _, _, hd⟩ := h
  have hlist : w'.disk (.devList j) = if (Upd.new w.disk j L).length > 0 then
      some (.ofInts (M.O.iter (setUnion L.keys (Upd.old w.disk j)))) else w.disk (.devList j) := by
    rw [hd]; simp [Upd.target]
  refine ⟨fun v hv => ?_, ?_⟩
  · rw [hlist] at hv
    split at hv
    · cases hv; exact ⟨_, rfl⟩
    · exact hok v hv
  · rintro ⟨⟨l, h1, h2⟩, ⟨n, h3, h4⟩, ⟨a, h5, h6⟩⟩
    have hold : d ∈ Upd.old w.disk j := by
      rw [hlist] at h1
      split at h1
      · simp only [Option.some.injEq] at h1
        obtain rfl := ofInts_inj h1
        rw [SetOrder.mem_iter, mem_setUnion] at h2
        rcases h2 with h2 | h2
        · have := Dict.mem_keys.1 h2
          rw [hL] at this
          cases this
        · exact h2
      · exact known_old ⟨l, h1, h2⟩
    have heff : (Upd.eff M j L w.disk).get d = none := by
      rw [Upd.eff_get, if_neg]
      · exact hL
      · rintro ⟨h1, h2, _⟩
        exact hown ⟨h1.symm, h2.symm⟩
    rw [hd, Upd.target_ns_old hold, heff] at h3
    rw [hd, Upd.target_active_old hold, heff] at h5
    have h3 : w.disk (.devNamespaces j d) = some (.ofStrs n) := h3
    simp only [Upd.activeAfter, h3, strs_of, mem_dedup, h4, true_and] at h5
    split at h5
    · simp only [Option.some.injEq] at h5
      obtain rfl := ofBools_inj' h5
      rw [Dict.get_set, if_pos rfl] at h6
      cases h6
    · rename_i hn
      rw [h5, bools_of] at hn
      exact hn h6

end Withdrawn

/-- C120, merging: who is not on a device list that was merged cannot be addressed with its backend. -/
theorem C120_merged (M : Mgr) (ns : Ns) (j : Jid) (L : DevList) (w w' : World) (t : List Ev) (ht : Typed w.disk)
    (he : Exec (updateDeviceList M ns j L) t (.ok ())) (hr : Lib.Runs w t w') (d : DevId) (hd : L.get d = none)
    (hown : ¬ (M.ownJid = j ∧ M.ownDev = d)) : ¬ Reachable w'.disk [ns] j d := by
  rintro ⟨h1, n, hn, h2⟩
  obtain rfl := List.mem_singleton.1 hn
  exact (Withdrawn.merged hown hd (fun v hv => ht (.devList j) v hv) (wp_sound Upd.wp_updateDeviceList he hr)).2 ⟨h1, h2⟩

/-- C120, encrypting: who cannot be addressed with a backend is given no key by it. -/
theorem C120_encrypt (M : Mgr) (jids : List Jid) (pt : Dict Ns Bytes) (prio : Option (List Ns)) (i : Option String) (t : List Ev) (w w' : World)
    (r : Res Exn (Dict Message PlainKM × List EncError)) (hdec : CallbackQuiet M.decide) (he : Exec (encrypt M jids pt prio i) t r) (hr : Lib.Runs w t w')
    (hb : BackendsOnce t) (ns : Ns) (j : Jid) (d : DevId) (hl : ∀ v, w.disk (.devList j) = some v → ∃ l, v = .ofInts l)
    (hd : ¬ Reachable w.disk [ns] j d) : Guarded (fun h e => ∀ m, ¬ HandsOut h e ns j d m) t := by
  intro h1 e h2 ht m hm
  have hh : Op.handsOut e.1 = true := by rcases hm with ⟨b, h⟩ | ⟨s, h, _⟩ <;> rw [h] <;> rfl
  rcases (encrypt_run hdec jids pt prio i he hb).phases hdec with hq | ⟨t1, t2, t4, t5, order, devices, cache, infos, out, v1, v2, v3, tm, rfl, hp⟩
  · have := hq e (by rw [ht]; simp)
    revert this hh
    cases e.1 <;> simp [Op.handsOut, Op.encrypts]
  · obtain ⟨_, dev, src, ns', m', hi⟩ := hp.handout hdec ht hh
    obtain ⟨rfl, rfl, rfl, rfl⟩ := HandsOut.unique hm hi.hands
    obtain ⟨x, hx, hs⟩ := hi.source
    have hxi := hp.prep.recipients.info x hx
    have hseen := hxi.seen src hs
    have hbj := hxi.bareJid src hs
    obtain ⟨e1, e2, _⟩ := hi.same
    obtain ⟨f, t0, hf, hex⟩ := hp.prep.ran
    obtain ⟨bs, t0', hc, _⟩ := hp.prep.chosen
    rw [hf] at hc
    cases hc
    obtain ⟨w1, hr1, _⟩ := Lib.runs_split (t1 := t1) (by simpa only [List.append_assoc] using hr)
    rw [hf] at hr1
    -- whatever is kept by looking up devices holds when a value is loaded
    have at' : ∀ {I : World → Prop}, (∀ jid, Pres Lib I (getDeviceInformation' M jid)) → I w → ∀ k v, (⟨.load k, .ok v⟩ : Ev) ∈ t1 →
        ∃ w1, I w1 ∧ w1.disk k = v := by
      intro I hI hw k v hmem
      rw [hf] at hmem
      rcases List.mem_cons.1 hmem with hmem | hmem
      · cases hmem
      · obtain ⟨w2, h3, h4⟩ := Delivery.at_event (Delivery.pres_recipients hI _ _) hex hr1.2 hw _ hmem
        exact ⟨w2, h3, h4.symm⟩
    refine hd ⟨?_, ns, List.mem_singleton.2 rfl, ?_, ?_⟩
    · obtain ⟨ids, g1, g2, _⟩ := hxi.complete
      have hid := g2 src hs
      rw [← e1, hbj]
      rw [← e1, hbj] at hl
      rcases g1 with ⟨l, g1, rfl⟩ | ⟨_, rfl⟩
      · obtain ⟨w2, h3, h4⟩ := at' (I := fun w' => w'.disk (.devList x.1) = w.disk (.devList x.1)) (fun jid => Withdrawn.list_info' jid) rfl _ _ g1
        rw [h3] at h4
        obtain ⟨l', hl'⟩ := hl _ h4
        rw [hl'] at h4
        cases hl'
        refine ⟨l', h4, ?_⟩
        rw [← e2]
        simpa [JVal.asInt] using hid
      · cases hid
    · apply Classical.byContradiction
      intro hn
      obtain ⟨l, h3, h4, _⟩ := hseen.namespaces
      rw [e1, e2] at h3
      obtain ⟨w2, h5, h6⟩ := at' (I := fun w' => ¬ Advertises w'.disk dev.bareJid dev.deviceId ns) (fun jid => Withdrawn.adv_info' jid) hn _ _ h3
      exact h5 ⟨l, h6, ((h4 ns).1 hi.first.namespaces).1⟩
    · have hact := hseen.active
      rw [e1, e2] at hact
      obtain ⟨w2, h5, h6⟩ := at' (I := fun w' => w'.disk (.devActive dev.bareJid dev.deviceId) = w.disk (.devActive dev.bareJid dev.deviceId))
        (fun jid => Withdrawn.active_info' jid) rfl _ _ hact
      exact ⟨src.active, h5.symm.trans h6, hi.first.active⟩

/-- A device that cannot be addressed is given no key later. -/
theorem Withdrawn.later {M : Mgr} {ns : Ns} {j : Jid} {w1 w2 w3 : World} {t : List Ev} {cs : List (Mgr × Call)} {d : DevId}
    {jids : List Jid} {pt : Dict Ns Bytes} {prio : Option (List Ns)} {i : Option String} {r : Res Exn (Dict Message PlainKM × List EncError)}
    (h0 : Withdrawn.OffW j d ns w1) (hcs : Hist Lib w1 cs w2) (hk : ∀ x ∈ cs, Withholding ns j d x)
    (hlog : ∀ e ∈ w2.log.drop w1.log.length, ¬ Relisted ns j d e)
    (hdec : CallbackQuiet M.decide) (he : Exec (encrypt M jids pt prio i) t r) (hr : Lib.Runs w2 t w3) (hb : BackendsOnce t) :
    Guarded (fun h e => ∀ m, ¬ HandsOut h e ns j d m) t := by
  obtain ⟨l, h1, h2⟩ := hcs.invariant (I := Withdrawn.Off w1.log ns j d) (fun x hx => Withdrawn.off_call (hk x hx)) ⟨[], by simp, .inr h0⟩
  rw [h1, List.drop_left] at hlog
  rcases h2 with ⟨e, h3, h4⟩ | ⟨h3, h4⟩
  · exact absurd h4 (hlog e h3)
  · refine C120_encrypt M jids pt prio i t w2 w3 r hdec he hr hb ns j d h3 fun ⟨h5, n, hn, h6⟩ => h4 ?_
    obtain rfl := List.mem_singleton.1 hn
    exact ⟨h5, h6⟩

/-- C120: once a device list without device `d` of `j` was merged for `ns`, `d` is given no key by this backend, whatever is called meanwhile, unless a
device list with `d` is passed or downloaded. -/
theorem C120 (M0 M : Mgr) (ns : Ns) (j : Jid) (L : DevList) (w0 w1 w2 w3 : World) (t0 t : List Ev) (cs : List (Mgr × Call)) (d : DevId)
    (jids : List Jid) (pt : Dict Ns Bytes) (prio : Option (List Ns)) (i : Option String) (r : Res Exn (Dict Message PlainKM × List EncError))
    (ht : Typed w0.disk) (he0 : Exec (updateDeviceList M0 ns j L) t0 (.ok ())) (hr0 : Lib.Runs w0 t0 w1) (hd : L.get d = none) (hown : ¬ (M0.ownJid = j ∧ M0.ownDev = d))
    (hcs : Hist Lib w1 cs w2) (hk : ∀ x ∈ cs, Withholding ns j d x)
    (hlog : ∀ e ∈ w2.log.drop w1.log.length, ¬ Relisted ns j d e)
    (hdec : CallbackQuiet M.decide) (he : Exec (encrypt M jids pt prio i) t r) (hr : Lib.Runs w2 t w3) (hb : BackendsOnce t) :
    Guarded (fun h e => ∀ m, ¬ HandsOut h e ns j d m) t := by
  exact Withdrawn.later (Withdrawn.merged hown hd (fun v hv => ht (.devList j) v hv) (wp_sound Upd.wp_updateDeviceList he0 hr0)) hcs hk hlog hdec he hr hb

/-- C120 after a purge: once `purge_bare_jid` succeeded for `j`, no backend gives a key to a device of `j`, whatever is called meanwhile, unless a device
list with this device is passed or downloaded for it. -/
theorem C120_purged (M0 M : Mgr) (ns : Ns) (j : Jid) (w0 w1 w2 w3 : World) (t0 t : List Ev) (cs : List (Mgr × Call)) (d : DevId)
    (jids : List Jid) (pt : Dict Ns Bytes) (prio : Option (List Ns)) (i : Option String) (r : Res Exn (Dict Message PlainKM × List EncError))
    (he0 : Exec (purgeBareJid M0 j) t0 (.ok ())) (hr0 : Lib.Runs w0 t0 w1)
    (hcs : Hist Lib w1 cs w2) (hk : ∀ x ∈ cs, Withholding ns j d x)
    (hlog : ∀ e ∈ w2.log.drop w1.log.length, ¬ Relisted ns j d e)
    (hdec : CallbackQuiet M.decide) (he : Exec (encrypt M jids pt prio i) t r) (hr : Lib.Runs w2 t w3) (hb : BackendsOnce t) :
    Guarded (fun h e => ∀ m, ¬ HandsOut h e ns j d m) t := by
  have h1 : w1.disk (.devList j) = none := (C57_partial M0 j t0 w0 w1 he0 hr0).1 _ (.inl rfl)
  refine Withdrawn.later ⟨fun v hv => ?_, fun ⟨⟨l, h2, _⟩, _⟩ => ?_⟩ hcs hk hlog hdec he hr hb
  · rw [h1] at hv; cases hv
  · rw [h1] at h2; cases h2

/-! ### Example -/

/-- Device 7 of "a" is taken off the list for "n"; then it is listed for "o". -/
def World.moved : World := (Friendly.mixed.run ((Call.updateDeviceList "n" "a" [(6, none), (9, none)]).run Mgr.ex) World.listed3').2.2
def World.moved' : World := (Friendly.mixed.run ((Call.updateDeviceList "o" "a" [(7, none)]).run Mgr.ex) World.moved).2.2

def movedRun := Friendly.mixed.run (encrypt Mgr.ex ["a"] [("n", [1]), ("o", [1])] none none) World.moved'

/-- A session for device 7 is built with this backend. -/
def builds7 (ns : Ns) (e : Ev) : Bool := match e.1 with
  | .buildActive ns' _ d _ _ => decide (ns' = ns ∧ d = 7)
  | .encryptKM ns' s _ => decide (ns' = ns ∧ s.deviceId = 7)
  | _ => false

/-- The hypotheses of `C120` are met.  Before, device 7 was given a key by "n"; now it is given one by "o". -/
theorem C120_example : Guarded (fun h e => ∀ m, ¬ HandsOut h e "n" "a" 7 m) movedRun.1 ∧ mixedRun.1.any (builds7 "n") = true ∧
    movedRun.1.any (builds7 "o") = true := by
  have h0 : (Friendly.mixed.run ((Call.updateDeviceList "n" "a" [(6, none), (9, none)]).run Mgr.ex) World.listed3').2.1 = .ok () := by decide +kernel
  have hset : movedRun.1.all (fun e => match e.1 with | .setBackends _ => false | _ => true) = true := by decide +kernel
  have hlog : ((World.moved'.log.drop World.moved.log.length).all fun e => match e with
    | ⟨.downloadList ns j, _⟩ => decide (ns ≠ "n" ∨ j ≠ "a") | _ => true) = true := by decide +kernel
  have hb : World.moved'.backends = ["n", "o"] := by decide +kernel
  have ht : Typed World.started.disk := by
    have hst : Step "me" Mgr.ex.x Use.fresh (Mgr.ex, .create ["n", "o"] (some "pc") 5) Use.started := by
      cases started_life with
      | cons h h' => cases h'; exact h
    exact (Intact.course_inv fresh_new nofun (.step _ .start viaApi_ex (fun _ h => by cases h) hst)).2.2.1
  have step : ∀ (c : Call) (w : World), Typed w.disk → Typed (Friendly.mixed.run (c.run Mgr.ex) w).2.2.disk := fun c w h =>
    (Intact.typed_call viaApi_ex c).run (Friendly.mixed.exec _ _) (Friendly.mixed.runs _ _) h
  have ht : Typed World.listed3'.disk := step (.setOwnLabel none) _ (step (.refreshDeviceList "o" "a") _ (step (.updateDeviceList "n" "a" _) _ ht))
  refine ⟨?_, by decide +kernel, by decide +kernel⟩
  refine C120 Mgr.ex Mgr.ex "n" "a" [(6, none), (9, none)] World.listed3' World.moved World.moved' _ _ _ _ 7 ["a"] [("n", [1]), ("o", [1])] none none _ ht
    (h0 ▸ Friendly.mixed.exec _ _) (Friendly.mixed.runs _ _) (by decide) (fun h => absurd h.1 (by decide))
    (Friendly.mixed.hist (.nil _) Mgr.ex (.updateDeviceList "o" "a" [(7, none)])) ?_ ?_ Mgr.ex_quiet (Friendly.mixed.exec _ _) (Friendly.mixed.runs _ _) ?_
  · intro x hx
    simp only [List.nil_append, List.mem_cons, List.not_mem_nil, or_false] at hx
    subst hx
    exact ⟨fun h => absurd h.1 (by decide), fun h => absurd h (by decide), fun _ _ => .ret ()⟩
  · rintro e he ⟨l, rfl, _⟩
    have := List.all_eq_true.1 hlog _ he
    simp at this
  · intro bs hbs
    rw [lib_backends (Friendly.mixed.runs _ _) ?_ bs hbs, hb]
    · decide
    · intro e he bs hbs
      have := List.all_eq_true.1 hset e he
      rw [hbs] at this
      cases this

/-- All data of "a" is purged; then a list with devices 6 and 9 arrives for "n". -/
def World.relisted : World := (Friendly.mixed.run ((Call.purgeBareJid "a").run Mgr.ex) World.listed3').2.2
def World.relisted' : World := (Friendly.mixed.run ((Call.updateDeviceList "n" "a" [(6, none), (9, none)]).run Mgr.ex) World.relisted).2.2

def relistedRun := Friendly.mixed.run (encrypt Mgr.ex ["a"] [("n", [1]), ("o", [1])] none none) World.relisted'

/-- The hypotheses of `C120_purged` are met: device 7 is given no key, device 6 is. -/
theorem C120_purged_example : Guarded (fun h e => ∀ m, ¬ HandsOut h e "n" "a" 7 m) relistedRun.1 ∧
    relistedRun.1.any (fun e => match e.1 with | .encryptKM ns s _ => decide (ns = "n" ∧ s.deviceId = 6) | _ => false) = true := by
  have h0 : (Friendly.mixed.run ((Call.purgeBareJid "a").run Mgr.ex) World.listed3').2.1 = .ok () := by decide +kernel
  have hset : relistedRun.1.all (fun e => match e.1 with | .setBackends _ => false | _ => true) = true := by decide +kernel
  have hlog : ((World.relisted'.log.drop World.relisted.log.length).all fun e => match e with
    | ⟨.downloadList ns j, _⟩ => decide (ns ≠ "n" ∨ j ≠ "a") | _ => true) = true := by decide +kernel
  have hb : World.relisted'.backends = ["n", "o"] := by decide +kernel
  refine ⟨?_, by decide +kernel⟩
  refine C120_purged Mgr.ex Mgr.ex "n" "a" World.listed3' World.relisted World.relisted' _ _ _ _ 7 ["a"] [("n", [1]), ("o", [1])] none none _
    (h0 ▸ Friendly.mixed.exec _ _) (Friendly.mixed.runs _ _)
    (Friendly.mixed.hist (.nil _) Mgr.ex (.updateDeviceList "n" "a" [(6, none), (9, none)])) ?_ ?_ Mgr.ex_quiet (Friendly.mixed.exec _ _) (Friendly.mixed.runs _ _) ?_
  · intro x hx
    simp only [List.nil_append, List.mem_cons, List.not_mem_nil, or_false] at hx
    subst hx
    exact ⟨fun h => absurd h.1 (by decide), fun _ _ => rfl, fun _ _ => .ret ()⟩
  · rintro e he ⟨l, rfl, _⟩
    have := List.all_eq_true.1 hlog _ he
    simp at this
  · intro bs hbs
    rw [lib_backends (Friendly.mixed.runs _ _) ?_ bs hbs, hb]
    · decide
    · intro e he bs hbs
      have := List.all_eq_true.1 hset e he
      rw [hbs] at this
      cases this

end Verif
