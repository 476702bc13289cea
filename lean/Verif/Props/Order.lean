import Verif.Props.Passed
import Verif.Props.Distrust
/-
C122: the order in which Python iterates over sets, which differs between runs of a program, does not decide which devices are known,
described and served.
-/
namespace Verif
open Spec SM

namespace Spec

/-- Two descriptions of the same device; their namespaces are sets. -/
def SameDevice (a b : DeviceInfo) : Prop := b = { a with namespaces := b.namespaces } ∧ ∀ ns, ns ∈ a.namespaces ↔ ns ∈ b.namespaces

/-- The servers offer the same in both executions: the bundles of a device hold the same identity key, and a bundle that can be
downloaded in one of them can be downloaded in the other. -/
structure SameBundles (t t' : List Ev) : Prop where
  keys : ∀ ns ns' j d b b', (⟨.downloadBundle ns j d, .ok b⟩ : Ev) ∈ t → (⟨.downloadBundle ns' j d, .ok b'⟩ : Ev) ∈ t' →
    b.identityKey = b'.identityKey
  left : ∀ ns j d b, (⟨.downloadBundle ns j d, .ok b⟩ : Ev) ∈ t → ¬ DownloadFailed t' ns j d
  right : ∀ ns j d b, (⟨.downloadBundle ns j d, .ok b⟩ : Ev) ∈ t' → ¬ DownloadFailed t ns j d

theorem SameBundles.symm {t t' : List Ev} (h : SameBundles t t') : SameBundles t' t :=
  ⟨fun ns ns' j d b b' h1 h2 => (h.keys ns' ns j d b' b h2 h1).symm, h.right, h.left⟩

/-- The same is stored about the devices of `jid`, up to the order of entries, and the same about everything else. -/
structure SameStored (jid : Jid) (m m' : Disk) : Prop where
  known : ∀ d, Known m jid d ↔ Known m' jid d
  namespaces : ∀ d, Known m jid d → ∀ ns, Advertises m jid d ns ↔ Advertises m' jid d ns
  active : ∀ d, Known m jid d → ∀ ns b, Activity m jid d ns b ↔ Activity m' jid d ns b
  label : ∀ d, Known m jid d → m (.devLabel jid d) = m' (.devLabel jid d)
  frame : ∀ k, ¬ DevicePlace jid k → m k = m' k

/-- The result of `encrypt` selected backend `ns` for device `d` of `j`: the message of this backend has a key for it, or an error for this
backend is reported. -/
def Selected (msgs : Dict Message PlainKM) (errs : List EncError) (j : Jid) (d : DevId) (ns : Ns) : Prop :=
  (∃ x ∈ msgs, x.1.ns = ns ∧ keysFor x.1 j d ≠ []) ∨ ∃ e ∈ errorsFor errs j d, e.ns = ns

/-- The application evaluates the devices alike in both executions. -/
def SameTrust (t t' : List Ev) : Prop := ∀ dev dev' l l', dev.bareJid = dev'.bareJid → dev.deviceId = dev'.deviceId →
  LastEval t dev l → LastEval t' dev' l' → l = l'

theorem SameTrust.symm {t t' : List Ev} (h : SameTrust t t') : SameTrust t' t :=
  fun dev dev' l l' h1 h2 h3 h4 => (h dev' dev l' l h1.symm h2.symm h4 h3).symm

end Spec

namespace Order
variable {M M' : Mgr}

/-! ### Looking up devices -/

theorem known_of {m : Disk} {jid : Jid} {d : DevId} (ht : Typed m) (h : ∃ l, m (.devList jid) = some (.list l) ∧ d ∈ l.map JVal.asInt) : Known m jid d := by
  obtain ⟨l, h1, h2⟩ := h
  obtain ⟨l', hl⟩ := ht _ _ h1
  refine ⟨l', hl ▸ h1, ?_⟩
  cases hl
  simpa [JVal.asInt] using h2

theorem keyed_unique {m : Disk} {j d ik ik'} (h : Keyed m j d ik) (h' : Keyed m j d ik') : ik = ik' := by
  obtain ⟨s, h1, h2⟩ := h
  obtain ⟨s', h3, h4⟩ := h'
  rw [h1] at h3
  cases h3
  rw [h2] at h4
  cases h4
  rfl

theorem keyed_some {m : Disk} {j d ik} (h : Keyed m j d ik) : m (.devIdentityKey j d) ≠ none := by
  obtain ⟨s, h1, _⟩ := h
  rw [h1]; nofun

theorem same_key {m : Disk} {j d ik ik'} {t t' : List Ev} (hs : SameBundles t t') (h : Origin j m t d ik) (h' : Origin j m t' d ik') : ik = ik' := by
  rcases h with h | ⟨h, n, b, _, hb, rfl⟩ <;> rcases h' with h' | ⟨h', n', b', _, hb', rfl⟩
  · exact keyed_unique h h'
  · exact absurd h' (keyed_some h)
  · exact absurd h (keyed_some h')
  · exact hs.keys _ _ _ _ _ _ hb hb'

theorem not_lost {m : Disk} {j d ik} {t t' : List Ev} (hs : SameBundles t t') (h : Origin j m t d ik) (h' : Spec.NoKey j m t' d) : False := by
  rcases h with h | ⟨_, n, b, ha, hb, _⟩
  · exact keyed_some h h'.1
  · exact hs.left _ _ _ _ hb (h'.2 n ha)

theorem same_device {jid : Jid} {m m1 m2 : Disk} {t t' : List Ev} {dev dev' : DeviceInfo} {u : String} (hs : SameBundles t t')
    (h : Describes u jid m m1 dev) (h' : Describes u jid m m2 dev') (ho : Origin jid m t dev.deviceId dev.identityKey)
    (ho' : Origin jid m t' dev'.deviceId dev'.identityKey) (hd : dev'.deviceId = dev.deviceId) : SameDevice dev dev' := by
  obtain ⟨nss, act, j, d, ik, lvl, lab⟩ := dev
  obtain ⟨nss', act', j', d', ik', lvl', lab'⟩ := dev'
  dsimp only at hd ho ho'
  subst hd
  have e1 : j' = j := h'.bareJid.trans h.bareJid.symm
  have e2 : ik = ik' := same_key hs ho ho'
  subst e1 e2
  have e3 : act = act' := ofBools_inj' (Option.some.inj (h.active.symm.trans h'.active))
  have e4 : lab = lab' := ofOptStr_inj (Option.some.inj (h.label.symm.trans h'.label))
  subst e3 e4
  have e5 : lvl = lvl' := by
    have h1 := h.level
    have h2 := h'.level
    dsimp only at h1 h2
    rcases h1 with h1 | ⟨h1, h3⟩ <;> rcases h2 with h2 | ⟨h2, h4⟩
    · rw [h1] at h2; cases h2; rfl
    · rw [h1] at h2; cases h2
    · rw [h1] at h2; cases h2
    · rw [h3, h4]
  subst e5
  refine ⟨rfl, fun ns => ?_⟩
  obtain ⟨l, h1, h2⟩ := h.namespaces
  obtain ⟨l', h3, h4⟩ := h'.namespaces
  dsimp only at h1 h2 h3 h4 ⊢
  rw [h1] at h3
  cases ofStrs_inj' (Option.some.inj h3)
  rw [h2, h4]

theorem info_half {jid : Jid} {t t' : List Ev} {w w1 w2 : World} {devs devs' : List DeviceInfo} (hu : M'.undecided = M.undecided) (ht : Typed w.disk)
    (he : Exec (getDeviceInformation M jid) t (.ok devs)) (hr : Lib.Runs w t w1) (he' : Exec (getDeviceInformation M' jid) t' (.ok devs'))
    (hr' : Lib.Runs w t' w2) (hs : SameBundles t t') : ∀ dev ∈ devs, ∃ dev' ∈ devs', SameDevice dev dev' := by
  intro dev hd
  obtain ⟨_, h1, _⟩ := C21_exact M jid t w w1 devs he hr
  obtain ⟨_, h2, h3⟩ := C21_exact M' jid t' w w2 devs' he' hr'
  obtain ⟨h4, h5⟩ := h1 dev hd
  rcases h3 dev.deviceId (known_of ht h4.listed) with ⟨dev', hd', he⟩ | h
  · obtain ⟨h6, h7⟩ := h2 dev' hd'
    exact ⟨dev', hd', same_device hs h4 (hu ▸ h6) h5 h7 he⟩
  · exact (not_lost hs h5 h).elim

end Order

/-- C122, looking up devices: two executions of `get_device_information` that start from the same stored data and get the same answers return
descriptions of the same devices, whatever the order in which sets are iterated over. -/
theorem C122_info (M M' : Mgr) (jid : Jid) (t t' : List Ev) (w w1 w2 : World) (devs devs' : List DeviceInfo) (hu : M'.undecided = M.undecided)
    (ht : Typed w.disk) (he : Exec (getDeviceInformation M jid) t (.ok devs)) (hr : Lib.Runs w t w1)
    (he' : Exec (getDeviceInformation M' jid) t' (.ok devs')) (hr' : Lib.Runs w t' w2) (hs : SameBundles t t') :
    (∀ dev ∈ devs, ∃ dev' ∈ devs', SameDevice dev dev') ∧ ∀ dev' ∈ devs', ∃ dev ∈ devs, SameDevice dev' dev :=
  ⟨Order.info_half hu ht he hr he' hr' hs, Order.info_half hu.symm ht he' hr' he hr hs.symm⟩

namespace Order
variable {M M' : Mgr}

/-! ### Device lists -/

theorem activity_unique {m : Disk} {j d ns b b'} (h : Activity m j d ns b) (h' : Activity m j d ns b') : b = b' := by
  obtain ⟨a, h1, h2⟩ := h
  obtain ⟨a', h3, h4⟩ := h'
  rw [h1] at h3
  cases ofBools_inj' (Option.some.inj h3)
  rw [h2] at h4
  cases h4
  rfl

theorem merged_half {ns : Ns} {jid : Jid} {dl : DevList} {m m1 m2 : Disk} (hj : M'.ownJid = M.ownJid) (hd : M'.ownDev = M.ownDev)
    (h1 : Merged M ns jid dl m m1) (h2 : Merged M' ns jid dl m m2) (d : DevId) (hk : Known m1 jid d) :
    Known m2 jid d ∧ (∀ n, Advertises m1 jid d n → Advertises m2 jid d n) ∧ ∀ n b, Activity m1 jid d n b → Activity m2 jid d n b := by
  have hk' := (h1.known d).1 hk
  have hl : Listed M jid dl d ↔ Listed M' jid dl d := by unfold Listed; rw [hj, hd]
  refine ⟨(h2.known d).2 hk', ?_, ?_⟩
  · intro n hn
    by_cases hL : Listed M jid dl d
    · by_cases he : n = ns
      · subst he; exact (h2.listed d hk' (hl.1 hL)).2
      · by_cases hkn : Known m jid d
        · exact (h2.others d hkn n he).2.2 ((h1.others d hkn n he).2.1 hn)
        · obtain ⟨l, hl'⟩ := hk'.resolve_left hkn
          exact absurd ((h1.fresh d hkn l hl').2.2 n hn) he
    · by_cases hkn : Known m jid d
      · by_cases he : n = ns
        · subst he
          by_cases ha : Advertises m jid d n
          · exact (h2.unlisted d hkn (fun h => hL (hl.2 h)) ha).2
          · unfold Advertises at hn
            rw [(h1.unaffected d hkn hL ha).2] at hn
            exact absurd hn ha
        · exact (h2.others d hkn n he).2.2 ((h1.others d hkn n he).2.1 hn)
      · obtain ⟨l, hl'⟩ := hk'.resolve_left hkn
        exact absurd (.inl ⟨l, hl'⟩) hL
  · intro n b hn
    by_cases hL : Listed M jid dl d
    · by_cases he : n = ns
      · subst he
        cases activity_unique hn (h1.listed d hk' hL).1
        exact (h2.listed d hk' (hl.1 hL)).1
      · by_cases hkn : Known m jid d
        · exact ((h2.others d hkn n he).1 b).2 (((h1.others d hkn n he).1 b).1 hn)
        · obtain ⟨l, hl'⟩ := hk'.resolve_left hkn
          exact absurd ((h1.fresh d hkn l hl').2.1 n b hn) he
    · by_cases hkn : Known m jid d
      · by_cases he : n = ns
        · subst he
          by_cases ha : Advertises m jid d n
          · cases activity_unique hn (h1.unlisted d hkn hL ha).1
            exact (h2.unlisted d hkn (fun h => hL (hl.2 h)) ha).1
          · unfold Activity at hn ⊢
            rw [(h1.unaffected d hkn hL ha).1] at hn
            rw [(h2.unaffected d hkn (fun h => hL (hl.2 h)) ha).1]
            exact hn
        · exact ((h2.others d hkn n he).1 b).2 (((h1.others d hkn n he).1 b).1 hn)
      · obtain ⟨l, hl'⟩ := hk'.resolve_left hkn
        exact absurd (.inl ⟨l, hl'⟩) hL

theorem merged_label {ns : Ns} {jid : Jid} {dl : DevList} {m m1 m2 : Disk}
    (h1 : Merged M ns jid dl m m1) (h2 : Merged M' ns jid dl m m2) (d : DevId) (hk : Known m1 jid d) : m1 (.devLabel jid d) = m2 (.devLabel jid d) := by
  by_cases hkn : Known m jid d
  · cases hg : dl.get d with
    | none => exact (h1.label d hkn (.inr hg)).trans (h2.label d hkn (.inr hg)).symm
    | some l =>
      cases l with
      | none => exact (h1.label d hkn (.inl hg)).trans (h2.label d hkn (.inl hg)).symm
      | some l => exact (h1.relabel d hkn l hg).trans (h2.relabel d hkn l hg).symm
  · obtain ⟨l, hl⟩ := ((h1.known d).1 hk).resolve_left hkn
    exact (h1.fresh d hkn l hl).1.trans (h2.fresh d hkn l hl).1.symm

end Order

/-- C122, device lists: two executions of `update_device_list` that start from the same stored data leave the same stored, up to the order of
entries, whatever the order in which sets are iterated over. -/
theorem C122_update (M M' : Mgr) (ns : Ns) (jid : Jid) (dl : DevList) (t t' : List Ev) (w w1 w2 : World) (hj : M'.ownJid = M.ownJid)
    (hd : M'.ownDev = M.ownDev) (ht : Typed w.disk) (he : Exec (updateDeviceList M ns jid dl) t (.ok ())) (hr : Lib.Runs w t w1)
    (he' : Exec (updateDeviceList M' ns jid dl) t' (.ok ())) (hr' : Lib.Runs w t' w2) : SameStored jid w1.disk w2.disk := by
  have h1 := C11_merge M ns jid dl w w1 t ht he hr
  have h2 := C11_merge M' ns jid dl w w2 t' ht he' hr'
  have a := fun d hk => Order.merged_half hj hd h1 h2 d hk
  have b := fun d hk => Order.merged_half hj.symm hd.symm h2 h1 d hk
  exact ⟨fun d => ⟨fun h => (a d h).1, fun h => (b d h).1⟩, fun d h n => ⟨(a d h).2.1 n, (b d (a d h).1).2.1 n⟩,
    fun d h n x => ⟨(a d h).2.2 n x, (b d (a d h).1).2.2 n x⟩, fun d h => Order.merged_label h1 h2 d h,
    fun k hk => (h1.frame k hk).trans (h2.frame k hk).symm⟩

/-- C122, purging: two executions of `purge_bare_jid` that start in the same state end in the same state, whatever the order in which the devices
are visited. -/
theorem C122_purge (M M' : Mgr) (jid : Jid) (t t' : List Ev) (w w1 w2 : World) (he : Exec (purgeBareJid M jid) t (.ok ())) (hr : Lib.Runs w t w1)
    (he' : Exec (purgeBareJid M' jid) t' (.ok ())) (hr' : Lib.Runs w t' w2) : w1.disk = w2.disk ∧ w1.backends = w2.backends ∧ w1.log = w2.log := by
  obtain ⟨a1, a2, a3, a4⟩ := C57_partial M jid t w w1 he hr
  obtain ⟨b1, b2, b3, b4⟩ := C57_partial M' jid t' w w2 he' hr'
  refine ⟨funext fun k => ?_, a3.trans b3.symm, a4.trans b4.symm⟩
  by_cases h : Purged w.disk jid k
  · rw [a1 k h, b1 k h]
  · rw [a2 k h, b2 k h]

namespace Order
variable {M M' : Mgr}

/-! ### Encrypting -/

/-- What is stored about a device that was found, before it was looked up. -/
structure Facts (m : Disk) (t : List Ev) (dev : DeviceInfo) : Prop where
  listed : ∃ l, m (.devList dev.bareJid) = some (.list l) ∧ dev.deviceId ∈ l.map JVal.asInt
  namespaces : ∃ l, m (.devNamespaces dev.bareJid dev.deviceId) = some (.ofStrs l) ∧ ∀ ns, ns ∈ dev.namespaces ↔ ns ∈ l ∧ (dev.active.get ns).isSome = true
  active : m (.devActive dev.bareJid dev.deviceId) = some (.ofBools dev.active)
  origin : Origin dev.bareJid m t dev.deviceId dev.identityKey

theorem Facts.mono {m : Disk} {t t' : List Ev} {dev : DeviceInfo} (h : Facts m t dev) (ht : ∀ e ∈ t, e ∈ t') : Facts m t' dev :=
  ⟨h.listed, h.namespaces, h.active, h.origin.mono ht⟩

theorem exec_info {jid : Jid} {t : List Ev} {x} (h : Exec (getDeviceInformation' M jid) t (.ok x)) : Exec (getDeviceInformation M jid) t (.ok x.1) := by
  unfold getDeviceInformation
  exact exec_seq_ok.2 ⟨t, x, [], (List.append_nil _).symm, h, exec_pure.2 ⟨rfl, rfl⟩⟩

/-- The places that hold data about the devices of `j`. -/
def About (j : Jid) (k : Key) : Prop := k = .devList j ∨ ∃ d, k = .devNamespaces j d ∨ k = .devActive j d ∨ k = .devIdentityKey j d

theorem Facts.congr {m m' : Disk} {t : List Ev} {dev : DeviceInfo} (h : Facts m t dev) (hm : ∀ k, About dev.bareJid k → m k = m' k) : Facts m' t dev := by
  refine ⟨?_, ?_, ?_, h.origin.congr (hm _ (.inr ⟨_, .inr (.inr rfl)⟩)) (hm _ (.inr ⟨_, .inl rfl⟩))⟩
  · rw [← hm _ (.inl rfl)]; exact h.listed
  · rw [← hm _ (.inr ⟨_, .inl rfl⟩)]; exact h.namespaces
  · rw [← hm _ (.inr ⟨_, .inr (.inl rfl)⟩)]; exact h.active

theorem infos {jids : List Jid} (hnd : jids.Nodup) {t : List Ev} {tmp} (he : Exec (Prog.mapAll jids (getDeviceInformation' M)) t (.ok tmp)) {w w' : World}
    (hr : Lib.Runs w t w') :
    (∀ y ∈ tmp, ∀ dev ∈ y.1, dev.bareJid ∈ jids ∧ Seen M.undecided t dev ∧ Facts w.disk t dev) ∧
      ∀ j ∈ jids, ∀ d, Known w.disk j d → (∃ y ∈ tmp, ∃ dev ∈ y.1, dev.bareJid = j ∧ dev.deviceId = d) ∨ Spec.NoKey j w.disk t d := by
  induction jids generalizing t w tmp with
  | nil => obtain ⟨rfl, h⟩ := exec_mapAll_nil.1 he; cases h; simp
  | cons jid jids ih =>
    obtain ⟨t1, x, t2, xs, rfl, rfl, h1, h2⟩ := exec_mapAll_cons_ok.1 he
    obtain ⟨w1, hr1, hr2⟩ := Sem.runs_append.1 hr
    obtain ⟨hn, hnd⟩ := List.nodup_cons.1 hnd
    obtain ⟨ih1, ih2⟩ := ih hnd h2 hr2
    have hlook := (wp_sound (looked_info' (M := M) jid w) h1 hr1).disk
    have hsame : ∀ j ∈ jids, ∀ k, About j k → w1.disk k = w.disk k := by
      intro j hj k hk
      have hne : j ≠ jid := fun h => hn (h ▸ hj)
      refine hlook.frame k fun d => ?_
      rcases hk with rfl | ⟨d', rfl | rfl | rfl⟩ <;> simp [hne]
    obtain ⟨_, c1, c2⟩ := C21_exact M jid t1 w w1 x.1 (exec_info h1) hr1
    have hl1 : ∀ e ∈ t1, e ∈ t1 ++ t2 := fun e he => List.mem_append_left _ he
    have hl2 : ∀ e ∈ t2, e ∈ t1 ++ t2 := fun e he => List.mem_append_right _ he
    refine ⟨fun y hy dev hd => ?_, fun j hj d hk => ?_⟩
    · rcases List.mem_cons.1 hy with rfl | hy
      · obtain ⟨h3, h4⟩ := c1 dev hd
        have hb := h3.bareJid
        subst hb
        exact ⟨by simp, ((exec_getDeviceInformation' h1).seen dev hd).mono hl1, h3.listed, h3.namespaces, h3.active, h4.mono hl1⟩
      · obtain ⟨h3, h4, h5⟩ := ih1 y hy dev hd
        exact ⟨by simp [h3], h4.mono hl2, (h5.congr (hsame _ h3)).mono hl2⟩
    · rcases List.mem_cons.1 hj with rfl | hj
      · rcases c2 d hk with ⟨dev, hd, h3⟩ | h
        · exact .inl ⟨x, by simp, dev, hd, (c1 dev hd).1.bareJid, h3⟩
        · exact .inr (h.mono hl1)
      · have hk1 : Known w1.disk j d := by unfold Known; rw [hsame j hj _ (.inl rfl)]; exact hk
        rcases ih2 j hj d hk1 with ⟨y, hy, h⟩ | h
        · exact .inl ⟨y, by simp [hy], h⟩
        · exact .inr ((h.congr (hsame j hj _ (.inr ⟨d, .inr (.inr rfl)⟩)) (hsame j hj _ (.inr ⟨d, .inl rfl⟩))).mono hl2)

/-- The result of a pure function. -/
theorem exec_liftE {α : Type} {x : Except Exn α} {t : List Ev} {a : α} (h : Exec (liftE x : P α) t (.ok a)) : t = [] ∧ x = .ok a := by
  cases x with
  | error e => cases h
  | ok b => cases h; exact ⟨rfl, rfl⟩

theorem filtered {α : Type} {xs ys : List α} {f : α → Except Exn Bool} {t : List Ev} (h : Exec (Prog.filterAll xs fun x => liftE (f x)) t (.ok ys)) :
    t = [] ∧ ∀ x, x ∈ ys ↔ x ∈ xs ∧ f x = .ok true := by
  induction xs generalizing t ys with
  | nil => obtain ⟨rfl, h⟩ := exec_filterAll_nil.1 h; cases h; simp
  | cons x xs ih =>
    obtain ⟨t1, b, t2, ys', rfl, rfl, h1, h2⟩ := exec_filterAll_cons_ok.1 h
    obtain ⟨rfl, hb⟩ := exec_liftE h1
    obtain ⟨rfl, hm⟩ := ih h2
    refine ⟨rfl, fun y => ?_⟩
    cases b with
    | true =>
      simp only [if_true, List.mem_cons, hm]
      constructor
      · rintro (rfl | h)
        · exact ⟨.inl rfl, hb⟩
        · exact ⟨.inr h.1, h.2⟩
      · rintro ⟨rfl | h, h'⟩
        · exact .inl rfl
        · exact .inr ⟨h, h'⟩
    | false =>
      simp only [Bool.false_eq_true, if_false, List.mem_cons, hm]
      constructor
      · rintro ⟨h, h'⟩; exact ⟨.inr h, h'⟩
      · rintro ⟨rfl | h, h'⟩
        · rw [hb] at h'; cases h'
        · exact ⟨h, h'⟩

theorem mapped {α β : Type} {xs : List α} {ys : List β} {f : α → Except Exn β} {t : List Ev} (h : Exec (Prog.mapAll xs fun x => liftE (f x)) t (.ok ys)) :
    t = [] ∧ ∀ y, y ∈ ys ↔ ∃ x ∈ xs, f x = .ok y := by
  induction xs generalizing t ys with
  | nil => obtain ⟨rfl, h⟩ := exec_mapAll_nil.1 h; cases h; simp
  | cons x xs ih =>
    obtain ⟨t1, b, t2, ys', rfl, rfl, h1, h2⟩ := exec_mapAll_cons_ok.1 h
    obtain ⟨rfl, hb⟩ := exec_liftE h1
    obtain ⟨rfl, hm⟩ := ih h2
    refine ⟨rfl, fun y => ?_⟩
    simp only [List.mem_cons, hm]
    constructor
    · rintro (rfl | ⟨x', h, h'⟩)
      · exact ⟨x, .inl rfl, hb⟩
      · exact ⟨x', .inr h, h'⟩
    · rintro ⟨x', rfl | h, h'⟩
      · rw [hb] at h'; cases h'; exact .inl rfl
      · exact .inr ⟨x', h, h'⟩

/-- The namespace to use for a device, going by what is stored: the first one in the order for which the device is active. -/
structure First (m : Disk) (order : List Ns) (j : Jid) (d : DevId) (ns : Ns) : Prop where
  mem : ns ∈ order
  namespaces : Advertises m j d ns
  active : Activity m j d ns true
  first : ∀ ns' ∈ order, Advertises m j d ns' → Activity m j d ns' true → order.idxOf ns ≤ order.idxOf ns'

theorem First.unique {m : Disk} {order : List Ns} {j : Jid} {d : DevId} {ns ns' : Ns} (h : First m order j d ns) (h' : First m order j d ns') : ns = ns' := by
  have he := Nat.le_antisymm (h.first ns' h'.mem h'.namespaces h'.active) (h'.first ns h.mem h.namespaces h.active)
  have e1 := List.getElem_idxOf (List.idxOf_lt_length_of_mem h.mem)
  have e2 := List.getElem_idxOf (List.idxOf_lt_length_of_mem h'.mem)
  rw [← e1, ← e2]
  congr 1

theorem Facts.first {m : Disk} {t : List Ev} {src : DeviceInfo} {order : List Ns} {ns : Ns} (h : Facts m t src) (hf : FirstActive order src ns) :
    First m order src.bareJid src.deviceId ns := by
  obtain ⟨l, h1, h2⟩ := h.namespaces
  refine ⟨hf.mem, ⟨l, h1, ((h2 ns).1 hf.namespaces).1⟩, ⟨_, h.active, hf.active⟩, fun ns' ho ⟨l', h3, h4⟩ ⟨a, h5, h6⟩ => ?_⟩
  rw [h1] at h3
  cases ofStrs_inj' (Option.some.inj h3)
  rw [h.active] at h5
  cases ofBools_inj' (Option.some.inj h5)
  exact hf.first ns' ho ((h2 ns').2 ⟨h4, by rw [h6]; rfl⟩) h6

/-- The recipients, going by what is stored. -/
theorem recipients {order : List Ns} {jids : List Jid} (hnd : jids.Nodup) {t : List Ev} {x : List DeviceInfo × List Bundle}
    (he : Exec (recipientDevices M order jids) t (.ok x)) {w w' : World} (hr : Lib.Runs w t w') (ht : Typed w.disk) :
    (∀ dev ∈ x.1, dev.bareJid ∈ jids ∧ ¬ (dev.bareJid = M.ownJid ∧ dev.deviceId = M.ownDev) ∧ Known w.disk dev.bareJid dev.deviceId ∧
      Origin dev.bareJid w.disk t dev.deviceId dev.identityKey ∧ ∃ ns, dev.namespaces = [ns] ∧ First w.disk order dev.bareJid dev.deviceId ns) ∧
    ∀ j ∈ jids, ∀ d, ¬ (j = M.ownJid ∧ d = M.ownDev) → Known w.disk j d → (∃ ns, First w.disk order j d ns) →
      (∃ dev ∈ x.1, dev.bareJid = j ∧ dev.deviceId = d) ∨ Spec.NoKey j w.disk t d := by
  unfold recipientDevices at he
  obtain ⟨t1, tmp, t', rfl, h1, he⟩ := exec_seq_ok.1 he
  obtain ⟨w1, hr1, hr'⟩ := Sem.runs_append.1 hr
  obtain ⟨i1, i2⟩ := infos (by simpa using hnd) h1 hr1
  obtain ⟨t2, ds, t'', rfl, h2, he2⟩ := exec_seq_ok.1 he
  obtain ⟨t3, ys, t4, rfl, h3, he3⟩ := exec_seq_ok.1 he2
  obtain ⟨rfl, he4⟩ := exec_pure.1 he3
  cases he4
  obtain ⟨rfl, hds⟩ := filtered h2
  obtain ⟨rfl, hys⟩ := mapped h3
  simp only [List.append_nil] at *
  have hsrc : ∀ src, src ∈ M.O.iter (dedup (tmp.map (·.1)).flatten) ↔ ∃ y ∈ tmp, src ∈ y.1 := by
    intro src; simp
  refine ⟨fun dev hd => ?_, fun j hj d hown hk ⟨ns, hf⟩ => ?_⟩
  · rw [List.mem_filter, mem_dedup, hys] at hd
    obtain ⟨⟨src, hs, hp⟩, hlen⟩ := hd
    obtain ⟨hs, hv⟩ := (hds src).1 (by simpa using hs)
    obtain ⟨y, hy, hs⟩ := (hsrc src).1 hs
    obtain ⟨b1, b2, b3⟩ := i1 y hy src hs
    have hv' := (valid_iff (M := M) (order := order) b2).2.1 (by rw [hv]; rfl)
    obtain ⟨nss, hp', hn⟩ := applyPriority_spec (M := M) (order := order) b2
    rw [hp'] at hp
    cases hp
    rcases hn with ⟨rfl, _⟩ | ⟨ns, rfl, hf⟩
    · simp at hlen
    · exact ⟨by simpa using b1, hv'.1, known_of ht b3.listed, b3.origin, ns, rfl, b3.first hf⟩
  · rcases i2 j (by simpa using hj) d hk with ⟨y, hy, src, hs, rfl, rfl⟩ | h
    · left
      obtain ⟨b1, b2, b3⟩ := i1 y hy src hs
      obtain ⟨l, h4, h5⟩ := b3.namespaces
      have hact : src.active.get ns = some true := by
        obtain ⟨a, h6, h7⟩ := hf.active
        rw [b3.active] at h6
        cases ofBools_inj' (Option.some.inj h6)
        exact h7
      have hns : ns ∈ src.namespaces := by
        obtain ⟨l', h6, h7⟩ := hf.namespaces
        rw [h4] at h6
        cases ofStrs_inj' (Option.some.inj h6)
        exact (h5 ns).2 ⟨h7, by rw [hact]; rfl⟩
      obtain ⟨⟨b, hb⟩, hv⟩ := valid_iff (M := M) (order := order) b2
      have hb' := hv.2 ⟨hown, ns, hf.mem, hns, hact⟩
      rw [hb] at hb'
      cases hb'
      obtain ⟨nss, hp, hn⟩ := applyPriority_spec (M := M) (order := order) b2
      rcases hn with ⟨_, hno⟩ | ⟨ns', rfl, hf'⟩
      · exact absurd ⟨ns, hf.mem, hns, hact⟩ hno
      · refine ⟨{ src with namespaces := [ns'] }, ?_, rfl, rfl⟩
        rw [List.mem_filter, mem_dedup, hys]
        exact ⟨⟨src, by simpa using (hds src).2 ⟨(hsrc src).2 ⟨y, hy, hs⟩, hb⟩, hp⟩, by simp⟩
    · exact .inr h

/-- Which devices `encrypt` evaluates, going by what is stored. -/
theorem evaluated {jids : List Jid} {pt : Dict Ns Bytes} {prio : Option (List Ns)} {i : Option String} {t : List Ev} {w w' : World}
    {msgs : Dict Message PlainKM} {errs : List EncError} (hdec : CallbackQuiet M.decide)
    (he : Exec (encrypt M jids pt prio i) t (.ok (msgs, errs))) (hr : Lib.Runs w t w') (ht : Typed w.disk) (hb : w.backends.Nodup)
    (hs : ∀ e ∈ t, ∀ bs, e.1 ≠ .setBackends bs) :
    (∀ dev l, LastEval t dev l → (dev.bareJid ∈ jids ∨ dev.bareJid = M.ownJid) ∧ ¬ (dev.bareJid = M.ownJid ∧ dev.deviceId = M.ownDev) ∧
      Known w.disk dev.bareJid dev.deviceId ∧ Origin dev.bareJid w.disk t dev.deviceId dev.identityKey ∧
      ∃ ns, dev.namespaces = [ns] ∧ First w.disk (prio.getD w.backends) dev.bareJid dev.deviceId ns) ∧
    ∀ j d, j ∈ jids ∨ j = M.ownJid → ¬ (j = M.ownJid ∧ d = M.ownDev) → Known w.disk j d → (∃ ns, First w.disk (prio.getD w.backends) j d ns) →
      (∃ dev l, dev.bareJid = j ∧ dev.deviceId = d ∧ LastEval t dev l) ∨ Spec.NoKey j w.disk t d := by
  have hbs := lib_backends hr hs
  have hb1 : BackendsOnce t := fun bs h => by rw [hbs bs h]; exact hb
  obtain ⟨t1, t2, t4, order, devices, cache, infos, out, v1, v2, v3, tm, bs, st, os, rfl, _, _, hp, ha, hts, ho, _⟩ :=
    (encrypt_run hdec jids pt prio i he hb1).succeeded rfl
  have hord : order = prio.getD w.backends := by
    obtain ⟨bs0, t0, rfl, hord⟩ := hp.chosen
    rw [(effectiveOrder_ok hord).1, hbs bs0 (by simp)]
  subst hord
  have hle : ∀ {dev l}, LastEval (t1 ++ t2 ++ evals (M.O.iter out) v3 ++ ⟨.getBackends, .ok bs⟩ :: t4 ++
      (M.O.iter st.sessions).map fun p => ⟨.storeSession p.1 p.2, .ok ()⟩) dev l ↔ dev ∈ out ∧ v3 dev = l := by
    intro dev l
    rw [List.append_assoc]
    refine lastEval_iff hdec hp ha ?_
    intro e he
    simp only [List.cons_append, List.mem_cons, List.mem_append, List.mem_map] at he
    rcases he with rfl | he | ⟨p, _, rfl⟩
    · nofun
    · exact sends_not_eval (hts e he)
    · nofun
  obtain ⟨w1, hr1, _⟩ := Lib.runs_split (t1 := t1) (by simpa only [List.append_assoc] using hr)
  have hsub : ∀ e ∈ t1, e ∈ t1 ++ t2 ++ evals (M.O.iter out) v3 ++ ⟨.getBackends, .ok bs⟩ :: t4 ++
      (M.O.iter st.sessions).map fun p => (⟨.storeSession p.1 p.2, .ok ()⟩ : Ev) := by
    intro e he; simp only [List.mem_append]; exact .inl (.inl (.inl (.inl he)))
  obtain ⟨e, t0, hte, hx⟩ := hp.ran
  obtain ⟨bs0, t0', hte', _⟩ := hp.chosen
  rw [hte] at hte'
  cases hte'
  subst hte
  have hnd : (setUnion jids [M.ownJid]).Nodup := nodup_dedup _
  have hmem : ∀ j, j ∈ setUnion jids [M.ownJid] ↔ j ∈ jids ∨ j = M.ownJid := by intro j; simp [mem_setUnion]
  obtain ⟨_, hr0⟩ := hr1
  obtain ⟨r1, r2⟩ := recipients hnd hx hr0 ht
  have hsub0 : ∀ e ∈ t0, e ∈ _ := fun e he => hsub e (List.mem_cons_of_mem _ he)
  refine ⟨fun dev l hev => ?_, fun j d hj hown hk hf => ?_⟩
  · obtain ⟨hd, _⟩ := hle.1 hev
    obtain ⟨x, hx, l, rfl⟩ := ha.source dev hd
    obtain ⟨a1, a2, a3, a4, a5⟩ := r1 x hx
    exact ⟨(hmem _).1 a1, a2, a3, a4.mono hsub0, a5⟩
  · rcases r2 j ((hmem j).2 hj) d hown hk hf with ⟨dev, hd, rfl, rfl⟩ | h
    · have : addr dev ∈ out.map addr := (ha.addrs _).2 (List.mem_map_of_mem hd)
      obtain ⟨d', hd', he'⟩ := List.mem_map.1 this
      simp only [addr, Prod.mk.injEq] at he'
      exact .inl ⟨d', v3 d', he'.1, he'.2, hle.2 ⟨hd', rfl⟩⟩
    · exact .inr (h.mono hsub0)

theorem encrypt_half {jids jids' : List Jid} {pt pt' : Dict Ns Bytes} {prio : Option (List Ns)} {i i' : Option String} {t t' : List Ev} {w w1 w2 : World}
    {msgs msgs' : Dict Message PlainKM} {errs errs' : List EncError} (hj : M'.ownJid = M.ownJid) (hd : M'.ownDev = M.ownDev)
    (hjids : ∀ j, j ∈ jids ↔ j ∈ jids') (hdec : CallbackQuiet M.decide) (hdec' : CallbackQuiet M'.decide) (ht : Typed w.disk) (hb : w.backends.Nodup)
    (he : Exec (encrypt M jids pt prio i) t (.ok (msgs, errs))) (hr : Lib.Runs w t w1) (hs : ∀ e ∈ t, ∀ bs, e.1 ≠ .setBackends bs) (hA : Addressed t)
    (he' : Exec (encrypt M' jids' pt' prio i') t' (.ok (msgs', errs'))) (hr' : Lib.Runs w t' w2) (hs' : ∀ e ∈ t', ∀ bs, e.1 ≠ .setBackends bs)
    (hA' : Addressed t') (hbun : SameBundles t t') (htr : SameTrust t t') (j : Jid) (d : DevId) (ns : Ns) (h : Selected msgs errs j d ns) :
    Selected msgs' errs' j d ns := by
  have hbs := lib_backends hr hs
  have hbs' := lib_backends hr' hs'
  obtain ⟨c1, c2, _⟩ := C32_served_or_reported M jids pt prio i t msgs errs hdec he (fun bs h => by rw [hbs bs h]; exact hb)
    (fun bs bs' h h' => by rw [hbs bs h, hbs bs' h']) hA
  obtain ⟨c1', _, _⟩ := C32_served_or_reported M' jids' pt' prio i' t' msgs' errs' hdec' he' (fun bs h => by rw [hbs' bs h]; exact hb)
    (fun bs bs' h h' => by rw [hbs' bs h, hbs' bs' h']) hA'
  obtain ⟨e1, _⟩ := evaluated hdec he hr ht hb hs
  obtain ⟨e1', e2'⟩ := evaluated hdec' he' hr' ht hb hs'
  obtain ⟨dev, rfl, rfl, hev⟩ : ∃ dev, dev.bareJid = j ∧ dev.deviceId = d ∧ LastEval t dev .trusted := by
    refine Classical.byContradiction fun hn => ?_
    obtain ⟨h1, h2⟩ := c2 j d fun dev h1 h2 h3 => hn ⟨dev, h1, h2, h3⟩
    rcases h with ⟨x, hx, _, hk⟩ | ⟨e, he, _⟩
    · exact hk (h1 x hx)
    · rw [h2] at he; cases he
  obtain ⟨a1, a2, a3, a4, n0, a5, a6⟩ := e1 dev _ hev
  have hns : ns = n0 := by
    obtain ⟨n1, b1, b2⟩ := c1 dev hev
    rw [a5] at b1
    cases b1
    rcases b2 with ⟨⟨x, hx, rfl, _, hx'⟩, hno⟩ | ⟨hno, e, he, rfl⟩
    · rcases h with ⟨y, hy, rfl, hk⟩ | ⟨e, he, _⟩
      · exact Classical.byContradiction fun hne => hk (hx' y hy fun h => hne (h ▸ rfl))
      · rw [hno] at he; cases he
    · rcases h with ⟨y, hy, _, hk⟩ | ⟨e', he', rfl⟩
      · exact absurd (hno y hy) hk
      · rw [he] at he'; simp only [List.mem_singleton] at he'; rw [he']
  subst hns
  rcases e2' dev.bareJid dev.deviceId (a1.imp (hjids _).1 fun h => h.trans hj.symm) (by rw [hj, hd]; exact a2) a3 ⟨ns, a6⟩ with ⟨dev', l', f1, f2, f3⟩ | h
  · cases htr dev dev' _ _ f1.symm f2.symm hev f3
    obtain ⟨n1, g1, g2⟩ := c1' dev' f3
    obtain ⟨_, _, _, _, n2, g3, g4⟩ := e1' dev' _ f3
    rw [g1] at g3
    cases g3
    rw [f1, f2] at g4 g2
    have := a6.unique g4
    subst this
    rcases g2 with ⟨⟨x, hx, g5, ⟨k, g6⟩, _⟩, _⟩ | ⟨_, e, g5, g6⟩
    · exact .inl ⟨x, hx, g5, by rw [g6]; nofun⟩
    · exact .inr ⟨e, by rw [g5]; simp, g6⟩
  · exact (not_lost hbun a4 h).elim

end Order

/-- C122, encrypting: two successful executions of `encrypt` for the same JIDs and the same order of backends that start from the same stored
data select the same backend for the same devices, whatever the order in which sets are iterated over, if the servers offer the same
bundles and the application evaluates the devices alike. -/
theorem C122_encrypt (M M' : Mgr) (jids jids' : List Jid) (pt pt' : Dict Ns Bytes) (prio : Option (List Ns)) (i i' : Option String) (t t' : List Ev)
    (w w1 w2 : World) (msgs msgs' : Dict Message PlainKM) (errs errs' : List EncError) (hj : M'.ownJid = M.ownJid) (hd : M'.ownDev = M.ownDev)
    (hjids : ∀ j, j ∈ jids ↔ j ∈ jids') (hdec : CallbackQuiet M.decide) (hdec' : CallbackQuiet M'.decide) (ht : Typed w.disk) (hb : w.backends.Nodup)
    (he : Exec (encrypt M jids pt prio i) t (.ok (msgs, errs))) (hr : Lib.Runs w t w1) (hs : ∀ e ∈ t, ∀ bs, e.1 ≠ .setBackends bs) (hA : Addressed t)
    (he' : Exec (encrypt M' jids' pt' prio i') t' (.ok (msgs', errs'))) (hr' : Lib.Runs w t' w2) (hs' : ∀ e ∈ t', ∀ bs, e.1 ≠ .setBackends bs)
    (hA' : Addressed t') (hbun : SameBundles t t') (htr : SameTrust t t') (j : Jid) (d : DevId) (ns : Ns) :
    Selected msgs errs j d ns ↔ Selected msgs' errs' j d ns :=
  ⟨Order.encrypt_half hj hd hjids hdec hdec' ht hb he hr hs hA he' hr' hs' hA' hbun htr j d ns,
    Order.encrypt_half hj.symm hd.symm (fun j => (hjids j).symm) hdec' hdec ht hb he' hr' hs' hA' he hr hs hA hbun.symm htr.symm j d ns⟩

/-! ### Example -/

/-- The same account, with sets iterated over in the opposite order. -/
def Mgr.rev : Mgr := { Mgr.ex with O := .reversed }

theorem runs_ok {α : Type} {r : Res Exn α} (h : (match r with | .ok _ => true | _ => false) = true) : ∃ a, r = .ok a := by
  cases r with
  | ok a => exact ⟨a, rfl⟩
  | raised e => cases h
  | crashed => cases h

theorem World.started_typed : Typed World.started.disk := by
  have hst : Step "me" Mgr.ex.x Use.fresh (Mgr.ex, .create ["n", "o"] (some "pc") 5) Use.started := by
    cases started_life with
    | cons h h' => cases h'; exact h
  exact (Intact.course_inv fresh_new nofun (.step _ .start viaApi_ex (fun _ h => by cases h) hst)).2.2.1

/-- What the answers in `mixed` have in common. -/
theorem mixed_bundles {α β : Type} (p : P α) (p' : P β) (w w' : World) : SameBundles (Friendly.mixed.run p w).1 (Friendly.mixed.run p' w').1 := by
  have h := runProg_answers (Lib.env Verif.mixed) Lib.next 1000 p w
  have h' := runProg_answers (Lib.env Verif.mixed) Lib.next 1000 p' w'
  have key : ∀ {u : World} {ns j d b}, Except.ok b = Lib.env Verif.mixed u (.downloadBundle ns j d) → d ≠ 8 ∧ b.identityKey = [UInt8.ofNat d.toNat] := by
    intro u ns j d b hb
    change Except.ok b = (if d = 8 then Except.error Exn.bundleNotFound else .ok (⟨ns, j, d, [UInt8.ofNat d.toNat], 0⟩ : Bundle)) at hb
    split at hb
    · cases hb
    · cases hb; exact ⟨‹_›, rfl⟩
  have bad : ∀ {u : World} {ns j d e}, Except.error e = Lib.env Verif.mixed u (.downloadBundle ns j d) → d = 8 := by
    intro u ns j d b hb
    change Except.error b = (if d = 8 then Except.error Exn.bundleNotFound else .ok (⟨ns, j, d, [UInt8.ofNat d.toNat], 0⟩ : Bundle)) at hb
    split at hb
    · assumption
    · cases hb
  refine ⟨fun ns ns' j d b b' h1 h2 => ?_, fun ns j d b h1 h2 => ?_, fun ns j d b h1 h2 => ?_⟩
  · obtain ⟨_, h1⟩ := h _ h1
    obtain ⟨_, h2⟩ := h' _ h2
    rw [(key h1).2, (key h2).2]
  · obtain ⟨_, h1⟩ := h _ h1
    rcases h2 with h2 | h2 <;> obtain ⟨_, h2⟩ := h' _ h2 <;> exact (key h1).1 (bad h2)
  · obtain ⟨_, h1⟩ := h' _ h1
    rcases h2 with h2 | h2 <;> obtain ⟨_, h2⟩ := h _ h2 <;> exact (key h1).1 (bad h2)

theorem mixed_trust {α β : Type} (p : P α) (p' : P β) (w w' : World) : SameTrust (Friendly.mixed.run p w).1 (Friendly.mixed.run p' w').1 := by
  rintro dev dev' l l' - hd ⟨u, v, h1, -⟩ ⟨u', v', h2, -⟩
  obtain ⟨_, h3⟩ := runProg_answers (Lib.env Verif.mixed) Lib.next 1000 p w ⟨.evalTrust dev, .ok l⟩ (h1 ▸ List.mem_append_right _ (.head _))
  obtain ⟨_, h4⟩ := runProg_answers (Lib.env Verif.mixed) Lib.next 1000 p' w' ⟨.evalTrust dev', .ok l'⟩ (h2 ▸ List.mem_append_right _ (.head _))
  cases h3
  cases h4
  rw [hd]

theorem mixed_addressed' {α : Type} (p : P α) (w : World) : Addressed (Friendly.mixed.run p w).1 := by
  have h := runProg_answers (Lib.env Verif.mixed) Lib.next 1000 p w
  refine ⟨?_, ?_, ?_⟩
  · intro ns j d s hm
    obtain ⟨w, hw⟩ := h _ hm
    cases hw; exact ⟨rfl, rfl⟩
  · intro ns j d b m s k hm
    obtain ⟨w, hw⟩ := h _ hm
    cases hw; exact ⟨⟨rfl, rfl⟩, rfl, rfl⟩
  · intro ns s m k s' hm
    obtain ⟨w, hw⟩ := h _ hm
    cases hw; exact ⟨⟨rfl, rfl⟩, rfl, rfl⟩

/-- Encrypting for the devices of "a", in one order and in the other. -/
def ordered (M : Mgr) := Friendly.mixed.run (encrypt M ["a"] [("n", [1]), ("o", [1])] none none) World.listed3

/-- The devices whose bundles are asked for, in this order. -/
def visited (t : List Ev) : List DevId := t.filterMap fun e => match e.1 with
  | .downloadBundle _ _ d => some d
  | _ => none

/-- Looking them up. -/
def orderedInfo (M : Mgr) := Friendly.mixed.run (getDeviceInformation M "a") World.listed3

theorem World.listed3_typed : Typed World.listed3.disk :=
  Attribution.typed_of (Intact.typed_call viaApi_ex (.updateDeviceList "n" "a" [(7, none), (8, none), (9, none)])) (Friendly.mixed.exec _ _)
    (Friendly.mixed.runs _ _) World.started_typed

/-- The hypotheses of `C122_encrypt`, `C122_info`, `C122_update` and `C122_purge` are met by runs in which the devices are visited in different orders. -/
theorem C122_example :
    (∃ msgs errs msgs' errs', (ordered Mgr.ex).2.1 = .ok (msgs, errs) ∧ (ordered Mgr.rev).2.1 = .ok (msgs', errs') ∧
      visited (ordered Mgr.ex).1 ≠ visited (ordered Mgr.rev).1 ∧ (∀ j d ns, Selected msgs errs j d ns ↔ Selected msgs' errs' j d ns) ∧
      Selected msgs errs "a" 7 "n") ∧
    (∃ devs devs', (orderedInfo Mgr.ex).2.1 = .ok devs ∧ (orderedInfo Mgr.rev).2.1 = .ok devs' ∧ devs ≠ devs' ∧
      ∀ dev ∈ devs, ∃ dev' ∈ devs', SameDevice dev dev') ∧
    SameStored "a" World.listed3.disk (Friendly.mixed.run (updateDeviceList Mgr.rev "n" "a" [(7, none), (8, none), (9, none)]) World.started).2.2.disk ∧
    (Friendly.mixed.run (purgeBareJid Mgr.ex "a") World.listed3).2.2.disk = (Friendly.mixed.run (purgeBareJid Mgr.rev "a") World.listed3).2.2.disk := by
  obtain ⟨⟨msgs, errs⟩, h1⟩ := runs_ok (r := (ordered Mgr.ex).2.1) (by decide +kernel)
  obtain ⟨⟨msgs', errs'⟩, h2⟩ := runs_ok (r := (ordered Mgr.rev).2.1) (by decide +kernel)
  have hset : (ordered Mgr.ex).1.all (fun e => match e.1 with | .setBackends _ => false | _ => true) = true := by decide +kernel
  have hset' : (ordered Mgr.rev).1.all (fun e => match e.1 with | .setBackends _ => false | _ => true) = true := by decide +kernel
  have quiet : ∀ {t : List Ev}, t.all (fun e => match e.1 with | .setBackends _ => false | _ => true) = true → ∀ e ∈ t, ∀ bs, e.1 ≠ .setBackends bs := by
    intro t h e he bs hbs
    have := List.all_eq_true.1 h e he
    rw [hbs] at this
    cases this
  have hkey : (match (ordered Mgr.ex).2.1 with
    | .ok a => a.1.any fun x => decide (x.1.ns = "n" ∧ (keysFor x.1 "a" 7).length = 1)
    | _ => false) = true := by decide +kernel
  have hb : World.listed3.backends = ["n", "o"] := by decide +kernel
  have hu : (Friendly.mixed.run (updateDeviceList Mgr.ex "n" "a" [(7, none), (8, none), (9, none)]) World.started).2.1 = .ok () := by decide +kernel
  have hu' : (Friendly.mixed.run (updateDeviceList Mgr.rev "n" "a" [(7, none), (8, none), (9, none)]) World.started).2.1 = .ok () := by decide +kernel
  have hp : (Friendly.mixed.run (purgeBareJid Mgr.ex "a") World.listed3).2.1 = .ok () := by decide +kernel
  have hp' : (Friendly.mixed.run (purgeBareJid Mgr.rev "a") World.listed3).2.1 = .ok () := by decide +kernel
  have i1 : (orderedInfo Mgr.ex).2.1 = .ok [⟨["n"], [("n", true)], "a", 7, [7], "undecided", none⟩, ⟨["n"], [("n", true)], "a", 9, [9], "undecided", none⟩] := by
    decide +kernel
  have i2 : (orderedInfo Mgr.rev).2.1 = .ok [⟨["n"], [("n", true)], "a", 9, [9], "undecided", none⟩, ⟨["n"], [("n", true)], "a", 7, [7], "undecided", none⟩] := by
    decide +kernel
  refine ⟨⟨msgs, errs, msgs', errs', h1, h2, by decide +kernel, fun j d ns => ?_, ?_⟩, ⟨_, _, i1, i2, by decide, ?_⟩, ?_, ?_⟩
  · exact C122_encrypt Mgr.ex Mgr.rev ["a"] ["a"] _ _ none none none _ _ World.listed3 _ _ msgs msgs' errs errs' rfl rfl (fun _ => Iff.rfl) Mgr.ex_quiet
      Mgr.ex_quiet World.listed3_typed (hb ▸ by decide) (h1 ▸ Friendly.mixed.exec _ _) (Friendly.mixed.runs _ _) (quiet hset) (mixed_addressed' _ _)
      (h2 ▸ Friendly.mixed.exec _ _) (Friendly.mixed.runs _ _) (quiet hset') (mixed_addressed' _ _) (mixed_bundles _ _ _ _) (mixed_trust _ _ _ _) j d ns
  · rw [h1] at hkey
    obtain ⟨x, h3, h4⟩ := List.any_eq_true.1 hkey
    simp only [decide_eq_true_eq] at h4
    exact .inl ⟨x, h3, h4.1, fun h => by rw [h] at h4; cases h4.2⟩
  · exact (C122_info Mgr.ex Mgr.rev "a" _ _ World.listed3 _ _ _ _ rfl World.listed3_typed (i1 ▸ Friendly.mixed.exec _ _) (Friendly.mixed.runs _ _)
      (i2 ▸ Friendly.mixed.exec _ _) (Friendly.mixed.runs _ _) (mixed_bundles _ _ _ _)).1
  · exact C122_update Mgr.ex Mgr.rev "n" "a" _ _ _ World.started _ _ rfl rfl World.started_typed (hu ▸ Friendly.mixed.exec _ _) (Friendly.mixed.runs _ _)
      (hu' ▸ Friendly.mixed.exec _ _) (Friendly.mixed.runs _ _)
  · exact (C122_purge Mgr.ex Mgr.rev "a" _ _ World.listed3 _ _ (hp ▸ Friendly.mixed.exec _ _) (Friendly.mixed.runs _ _) (hp' ▸ Friendly.mixed.exec _ _)
      (Friendly.mixed.runs _ _)).1

end Verif
