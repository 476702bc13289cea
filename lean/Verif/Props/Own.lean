import Verif.Props.Pinned
import Verif.Proofs.Recorded
import Verif.Proofs.TidyPurge
import Verif.Proofs.CalmParts
/-
What is stored about the own device matches the loaded backends.
-/
namespace Verif
open SM Spec Foot

/-- The own device is known, has identity key `ik`, and is stored as supporting exactly `bs`, active for all of them. -/
structure Spec.OwnDevice (m : Disk) (own : Jid) (dev : DevId) (ik : Bytes) (bs : List Ns) : Prop where
  known : Known m own dev
  key : HasKey m own dev ik
  exact : ∀ ns, Advertises m own dev ns ↔ ns ∈ bs
  active : ∀ ns ∈ bs, Activity m own dev ns true

namespace OwnData

/-- `bs` are loaded, and what is stored for the own device matches. -/
structure Exact (own : Jid) (dev : DevId) (bs : List Ns) (w : World) : Prop where
  loaded : w.backends = bs
  namespaces : ∃ l, w.disk (.devNamespaces own dev) = some (.ofStrs l) ∧ ∀ ns, ns ∈ l ↔ ns ∈ bs
  active : ∃ a, w.disk (.devActive own dev) = some (.ofBools a) ∧ ∀ ns ∈ bs, a.get ns = some true

/-- `bs` are loaded. -/
def Loaded (bs : List Ns) (w : World) : Prop := w.backends = bs

section
variable {M : Mgr} {own : Jid} {dev : DevId} {bs : List Ns} {α : Type}

theorem backends_next {o : Op} (h : ∀ bs, o ≠ .setBackends bs) (w : World) (r) : (Lib.next w ⟨o, r⟩).backends = w.backends := by
  cases o with
  | setBackends l => exact (h l rfl).elim
  | _ => cases r <;> rfl

theorem loaded_keep {φ : Op → Prop} (h : ∀ bs, ¬ φ (.setBackends bs)) : OpsKeep (Loaded bs) φ := fun _ ho w r _ hw =>
  (backends_next (fun l e => h l (e ▸ ho)) w r).trans hw

theorem exact_calm : OpsKeep (Exact own dev bs) Calm := by
  intro o ho w r hok hw
  have h1 : OpsKeep (fun w' => w'.disk (.devNamespaces own dev) = w.disk (.devNamespaces own dev) ∧
      w'.disk (.devActive own dev) = w.disk (.devActive own dev)) Quiet :=
    quiet_keep (K := fun k => k = .devNamespaces own dev ∨ k = .devActive own dev) (by rintro k (rfl | rfl) <;> exact ⟨nofun, nofun⟩)
      fun w w' h h' => ⟨(h _ (.inl rfl)).trans h'.1, (h _ (.inr rfl)).trans h'.2⟩
  obtain ⟨h2, h3⟩ := h1 o ho.1 w r hok ⟨rfl, rfl⟩
  exact ⟨(backends_next ho.2 w r).trans hw.1, by rw [h2]; exact hw.2, by rw [h3]; exact hw.3⟩

theorem exact_looked {jid : Jid} {w w' : World} (h : LookedW jid w w') (hw : Exact own dev bs w) : Exact own dev bs w' := by
  obtain ⟨a, ha, ha'⟩ := hw.active
  have hact : w'.disk (.devActive own dev) = w.disk (.devActive own dev) := h.disk.frame _ fun _ => ⟨nofun, nofun⟩
  refine ⟨h.backends.trans hw.1, ?_, ⟨a, hact.trans ha, ha'⟩⟩
  by_cases hj : jid = own
  · subst hj
    rcases h.disk.namespaces dev with h1 | ⟨l, a', l', h1, h2, h3, h4⟩
    · rw [h1]; exact hw.2
    · obtain ⟨l0, h5, h6⟩ := hw.2
      rw [h5] at h1
      rw [ha] at h2
      simp only [Option.some.injEq] at h1 h2
      obtain rfl := ofStrs_inj' h1
      obtain rfl := ofBools_inj' h2
      refine ⟨l', h3, fun n => ?_⟩
      rw [h4, h6]
      exact ⟨fun h => h.1, fun h => ⟨h, by rw [ha' n h]; rfl⟩⟩
  · rw [h.disk.frame (.devNamespaces own dev) fun d => ⟨nofun, fun e => hj (by cases e; rfl)⟩]
    exact hw.2

/-- The target of an update is the same as before for a loaded own device. -/
theorem exact_update (hj : M.ownJid = own) (hd : M.ownDev = dev) {ns : Ns} {jid : Jid} {dl : DevList} {w : World} (hns : ns ∈ bs) (hk : Known w.disk own dev)
    (hw : Exact own dev bs w) : wp Lib (updateDeviceList M ns jid dl) (ends (fun _ => Exact own dev bs) (fun _ _ => True)) w := by
  refine wp_mono Upd.wp_updateDeviceList fun r w' hr => ?_
  cases r with
  | raised e => trivial
  | crashed => trivial
  | ok a =>
    obtain ⟨_, _, hb, _, hdisk⟩ := hr
    obtain ⟨l, hl, hl'⟩ := hw.namespaces
    obtain ⟨a, ha, ha'⟩ := hw.active
    have hold : jid = own → dev ∈ Upd.old w.disk jid := by rintro rfl; exact Keep.known_old hk
    have hnew : ∀ d, jid = own → d = dev → d ∉ Upd.new w.disk jid dl := by
      rintro d h1 rfl h2
      unfold Upd.new at h2
      rw [mem_setDiff] at h2
      exact h2.2 (hold h1)
    have heff : jid = own → ∃ e, (Upd.eff M jid dl w.disk).get dev = some e := by
      rintro rfl
      unfold Upd.eff
      split
      · exact ⟨_, by rw [hd]; exact Dict.get_set_self⟩
      · rename_i h
        have : M.ownDev ∈ dl.keys := Decidable.not_not.1 fun h' => h ⟨hj.symm, h'⟩
        rw [hd] at this
        exact Option.isSome_iff_exists.1 (Dict.mem_keys.1 this)
    refine ⟨hb.1.trans hw.1, ⟨l, ?_, hl'⟩, ⟨a, ?_, ha'⟩⟩
    · rw [hdisk]
      unfold Upd.target
      dsimp only
      rw [if_neg (fun h => hnew dev h.1.symm rfl h.2)]
      split
      · rename_i h
        obtain ⟨e, he⟩ := heff h.1.symm
        rw [he]
        unfold Upd.nsAfter
        dsimp only
        rw [if_neg, hl]
        rw [Decidable.not_not, hl]
        simp [Upd.strs, rd, hl', hns]
      · exact hl
    · rw [hdisk]
      unfold Upd.target
      dsimp only
      rw [if_neg (fun h => hnew dev h.1.symm rfl h.2)]
      split
      · rename_i h
        obtain ⟨e, he⟩ := heff h.1.symm
        rw [he]
        unfold Upd.activeAfter
        dsimp only
        rw [if_neg, ha]
        rw [Decidable.not_not, ha]
        simp [Upd.bools, rd, ha' ns hns]
      · exact ha

end

/-! ### Creation -/
section
variable {M : Mgr} {own : Jid} {x : XEdDSA} {kp : IdentityKeyPair} {bs : List Ns} {α : Type}

/-- Sound, with the own device matching the backends. -/
def Fit (own : Jid) (x : XEdDSA) (kp : IdentityKeyPair) (dev : DevId) (bs : List Ns) (w : World) : Prop :=
  SoundK own x kp dev w ∧ Exact own dev bs w

/-- A step that keeps it, if it is successful. -/
def Fits (own : Jid) (x : XEdDSA) (kp : IdentityKeyPair) (dev : DevId) (bs : List Ns) (p : P α) : Prop :=
  ∀ w, Fit own x kp dev bs w → wp Lib p (ends (fun _ => Fit own x kp dev bs) (fun _ _ => True)) w

variable {dev : DevId}

theorem Fits.bind {β : Type} {p : P α} {f : α → P β} (hp : Fits own x kp dev bs p) (hf : ∀ a, Fits own x kp dev bs (f a)) :
    Fits own x kp dev bs (p >>= f) := fun w hw => by
  rw [ends_bind]
  exact ends_mono (hp w hw) (fun a w' h => hf a w' h) fun _ _ h => h

theorem Fits.pure (a : α) : Fits own x kp dev bs (Pure.pure a : P α) := fun _ hw => hw

theorem Fits.when {c : Prop} [Decidable c] {p : P Unit} (h : c → Fits own x kp dev bs p) : Fits own x kp dev bs (Prog.when c p) := fun w hw =>
  ends_when (fun hc => h hc w hw) fun _ => hw

theorem Fits.forEach {β : Type} {xs : List β} {f : β → P Unit} (h : ∀ b ∈ xs, Fits own x kp dev bs (f b)) : Fits own x kp dev bs (Prog.forEach xs f) := fun w hw =>
  ends_forEach (fun _ _ w => Fit own x kp dev bs w) hw (fun done b rest w e hw => h b (by rw [e]; simp) w hw) fun _ h => h

theorem Fits.calm {p : P α} (hj : M.ownJid = own) (hp : AllOps Calm p) : Fits own x kp dev bs p := fun w hw =>
  wp_mono (wp_and (((sound_parts hj dev (M := M)).quiet.pres (hp.mono fun _ h => h.1)) w hw.1) (exact_calm.pres hp w hw.2)) fun r w' h => by
    cases r <;> first | exact h | trivial

theorem Fits.op {o : Op} (hj : M.ownJid = own) (ho : Calm o) : Fits own x kp dev bs (call o) := .calm hj (.perform ho)

theorem Fits.getBackends {f : List Ns → P α} (hf : Fits own x kp dev bs (f bs)) :
    Fits own x kp dev bs (call .getBackends >>= f) := fun w hw => by
  rw [ends_bind]
  exact Lib.getBackends trivial (by rw [hw.2.loaded]; exact hf w hw)

theorem Fits.refresh (hj : M.ownJid = own) (jid : Jid) {ns : Ns} (hns : ns ∈ bs) : Fits own x kp dev bs (refreshDeviceList { M with ownDev := dev } ns jid) := by
  unfold refreshDeviceList
  refine Fits.bind (.op hj ⟨trivial, nofun⟩) fun dl w hw => ?_
  have h1 := (sound_parts hj dev (M := M)).update ns jid dl w hw.1
  have h2 := exact_update (M := { M with ownDev := dev }) (dl := dl) (jid := jid) hj rfl hns (hw.1.2.2.2.2 dev rfl) hw.2
  refine wp_mono (wp_and h1 h2) fun r w' h => ?_
  cases r <;> first | exact h | trivial

theorem Fits.ownInfo (hj : M.ownJid = own) {f : DeviceInfo × List DeviceInfo → P α}
    (hf : ∀ r w, r.1.deviceId = dev → Recorded own w.disk r.1 → Fit own x kp dev bs w →
      wp Lib (f r) (ends (fun _ => Fit own x kp dev bs) (fun _ _ => True)) w) :
    Fits own x kp dev bs (getOwnDeviceInformation { M with ownDev := dev } >>= f) := fun w hw => by
  rw [ends_bind]
  have h1 := (sound_parts hj dev (M := M)).getOwnDeviceInformation w hw.1
  have h2 := recorded_own (M := { M with ownDev := dev }) w
  have h3 := looked_own (M := { M with ownDev := dev }) w
  refine wp_mono (wp_and h1 (wp_and h2 h3)) fun r w' h => ?_
  cases r with
  | ok a => exact hf a w' h.2.1.1 (hj ▸ h.2.1.2) ⟨h.1, exact_looked h.2.2 hw.2⟩
  | raised e => trivial
  | crashed => trivial

theorem live_map {l : List Ns} {ns : Ns} : Dict.get (l.map fun ns => (ns, true)) ns = if ns ∈ l then some true else none := by
  induction l with
  | nil => rfl
  | cons y ys ih =>
    simp only [List.map_cons, Dict.get_cons, List.mem_cons, ih]
    by_cases h : y = ns
    · simp [h]
    · simp [h, Ne.symm h]

theorem upd_two {m : Disk} {k k' : Key} {v v' : Option JVal} (h : k ≠ k') : ((m.upd k v).upd k' v') k = v := by
  rw [Disk.upd_of_ne h, Disk.upd_self]

/-- Storing activity information for the own device. -/
theorem sound_active {w : World} {a : Dict Ns Bool} (hw : SoundK own x kp dev w) (ha : ∀ ns b, a.get ns = some b → b = true) :
    SoundK own x kp dev { w with disk := w.disk.upd (.devActive own dev) (some (.ofBools a)) } := by
  have h := ((Pinned.ownParts (M := { Mgr.ex with ownJid := own, ownDev := dev })).and (holds_own.and Keep.ownParts)).active a w hw.2
  exact ⟨tidy_active hw.1 (fun _ hn => (hn ⟨rfl, rfl⟩).elim) (fun _ => ha), (wp_perform.1 h).2.1 () trivial⟩

/-- Storing the namespaces of the own device. -/
theorem sound_namespaces {w : World} {l : List Ns} (hw : SoundK own x kp dev w) :
    SoundK own x kp dev { w with disk := w.disk.upd (.devNamespaces own dev) (some (.ofStrs l)) } := by
  have h := ((Pinned.ownParts (M := { Mgr.ex with ownJid := own, ownDev := dev })).and (holds_own.and Keep.ownParts)).namespaces l w hw.2
  exact ⟨tidy_namespaces hw.1 (fun _ hn => (hn ⟨rfl, rfl⟩).elim), (wp_perform.1 h).2.1 () trivial⟩

theorem Fits.purgeBackend (hj : M.ownJid = own) {ns : Ns} (hns : ns ∉ bs) : Fits own x kp dev bs (SM.purgeBackend { M with ownDev := dev } ns) := by
  unfold SM.purgeBackend
  refine Fits.bind (.op hj ⟨trivial, nofun⟩) fun dl => Fits.bind (.when fun _ => .op hj ⟨trivial, nofun⟩) fun _ => ?_
  refine Fits.ownInfo hj fun r w hid hrec hw => ?_
  obtain ⟨l, hl, hl'⟩ := hrec.namespaces
  rw [hid] at hl
  have hact := hrec.active
  rw [hid] at hact
  obtain ⟨l0, h1, h2⟩ := hw.2.namespaces
  obtain ⟨a0, h3, h4⟩ := hw.2.active
  rw [hl] at h1
  rw [hact] at h3
  simp only [Option.some.injEq] at h1 h3
  obtain rfl := ofStrs_inj' h1
  obtain rfl := ofBools_inj' h3
  dsimp only
  rw [hj]
  have hlive : ∀ ns' b, (r.1.active.erase ns).get ns' = some b → b = true := by
    intro ns' b hb
    rw [Dict.get_erase] at hb
    split at hb
    · cases hb
    · exact hw.1.1.live ns' b ((activity_iff hact).2 hb)
  rw [ends_bind]
  refine Lib.store (fun _ _ => trivial) ?_
  have hs1 := sound_active (a := r.1.active.erase ns) hw.1 hlive
  rw [ends_bind]
  refine Lib.store (fun _ _ => trivial) ?_
  have hs2 := sound_namespaces (l := M.O.iter (setDiff r.1.namespaces [ns])) hs1
  refine Fits.getBackends ?_ _ ⟨hs2, ⟨hw.2.loaded, ⟨_, Disk.upd_self, fun n => ?_⟩, ⟨r.1.active.erase ns, ?_, fun n hn => ?_⟩⟩⟩
  · have hdiff : setDiff bs [ns] = bs := by
      unfold setDiff
      rw [List.filter_eq_self]
      intro b hb
      have : b ≠ ns := fun h => hns (h ▸ hb)
      simpa using this
    intro w hw
    rw [ends_bind, hdiff]
    refine Lib.setBackends trivial ?_
    have : ({ w with backends := bs } : World) = w := by cases w; cases hw.2.loaded; rfl
    rw [this]
    have hdel : Calm (.deleteBundle ns dev) := ⟨trivial, nofun⟩
    exact (Fits.bind (.when fun h => (hns h).elim) fun _ => .op hj hdel) w hw
  · rw [SetOrder.mem_iter, mem_setDiff, ← hl', h2]
    simp only [List.mem_singleton]
    exact ⟨fun h => h.1, fun h => ⟨h, fun e => hns (e ▸ h)⟩⟩
  · exact upd_two (k := .devActive own dev) (k' := .devNamespaces own dev) (v' := some (.ofStrs (M.O.iter (setDiff r.1.namespaces [ns])))) nofun
  · rw [Dict.get_erase, if_neg (by rintro rfl; exact hns hn)]
    exact h4 n hn

/-- `handleChangedBackends` makes the own device match the backends. -/
theorem fit_handle (hj : M.ownJid = own) (w : World) (hw : SoundK own x kp dev w) (hl : Loaded bs w) :
    wp Lib (handleChangedBackends { M with ownDev := dev }) (ends (fun _ => Fit own x kp dev bs) (fun _ _ => True)) w := by
  subst hj
  unfold handleChangedBackends
  rw [ends_bind]
  have h1 := (sound_parts rfl dev (M := M)).getOwnDeviceInformation w hw
  have h2 := recorded_own (M := { M with ownDev := dev }) w
  have h3 := looked_own (M := { M with ownDev := dev }) w
  refine wp_mono (wp_and h1 (wp_and h2 h3)) fun r w' h => ?_
  cases r with
  | raised e => trivial
  | crashed => trivial
  | ok r =>
    obtain ⟨hw', ⟨hid, hrec⟩, hlk⟩ := h
    have hb : w'.backends = bs := hlk.backends.trans hl
    show wp Lib _ (ends _ _) w'
    dsimp only
    rw [ends_bind]
    refine Lib.getBackends trivial ?_
    rw [hb]
    have hrec : Recorded M.ownJid w'.disk r.1 := hrec
    have hid : r.1.deviceId = dev := hid
    obtain ⟨l, hnss, hl'⟩ := hrec.namespaces
    rw [hid] at hnss
    have hact := hrec.active
    rw [hid] at hact
    refine ends_when (fun hne => ?_) fun heq => ⟨hw', hb, ⟨l, hnss, fun ns => ?_⟩, ⟨_, hact, fun ns hns => ?_⟩⟩
    · rw [ends_bind]
      refine Lib.store (fun _ _ => trivial) ?_
      have hs1 := sound_active (a := (M.O.iter (dedup bs)).map fun ns => (ns, true)) hw' fun ns b h => by
        rw [live_map] at h; split at h <;> cases h; rfl
      rw [ends_bind]
      refine Lib.store (fun _ _ => trivial) ?_
      have hs2 := sound_namespaces (l := M.O.iter (dedup bs)) hs1
      refine (Fits.getBackends (Fits.bind (Fits.forEach fun ns hns => ?_) fun _ => Fits.forEach fun ns hns => ?_)) _
        ⟨hs2, ⟨hb, ⟨_, Disk.upd_self, fun n => by simp⟩, ⟨_, upd_two (k := .devActive M.ownJid dev) (k' := .devNamespaces M.ownJid dev) (v' := some (.ofStrs (M.O.iter (dedup bs)))) nofun, fun n hn => ?_⟩⟩⟩
      · refine Fits.when fun _ => ?_
        unfold refillPreKeys
        refine Fits.bind (Fits.bind (.op rfl ⟨trivial, nofun⟩) fun n => .when fun _ => .op rfl ⟨trivial, nofun⟩) fun _ => Fits.bind (.op rfl ⟨trivial, nofun⟩) fun b =>
          Fits.bind (.op rfl ⟨trivial, nofun⟩) fun _ => ?_
        exact Fits.refresh (M := M) rfl _ hns
      · rw [SetOrder.mem_iter, mem_setDiff] at hns
        exact Fits.purgeBackend (M := M) rfl fun h => hns.2 (by simpa using h)
      · rw [live_map, if_pos (by simpa using hn)]
    · have := Decidable.not_not.1 heq
      simp only [setEq, Bool.and_eq_true, List.all_eq_true, decide_eq_true_eq, mem_dedup] at this
      rw [hl']
      exact ⟨this.2 ns, this.1 ns⟩
    · have := Decidable.not_not.1 heq
      simp only [setEq, Bool.and_eq_true, List.all_eq_true, decide_eq_true_eq, mem_dedup] at this
      obtain ⟨b, hb'⟩ := Option.isSome_iff_exists.1 (hrec.known ns (this.1 ns hns))
      cases hw'.1.live ns b ((activity_iff hact).2 hb')
      exact hb'

theorem loaded_ikp : Pres Lib (Loaded bs) IdentityKeyPair.get :=
  (loaded_keep (φ := Ikp) fun l h => by cases h).pres ops_ikp

theorem loaded_firstRun (label : Option String) (ik : Bytes) (fuel : Nat) : Pres Lib (Loaded bs) (firstRun M label ik fuel) :=
  (loaded_keep (φ := fun o => ∀ l, o ≠ .setBackends l) fun l h => h l rfl).pres (by
    have hdraw : ∀ taken fuel, AllOps (fun o : Op => ∀ l, o ≠ .setBackends l) (SM.drawDeviceId taken fuel) := by
      intro taken fuel
      induction fuel with
      | zero => trivial
      | succ n ih => unfold SM.drawDeviceId; lib_ops []; all_goals (rename_i h; cases h)
    have hupd : ∀ M ns jid, AllOps (fun o : Op => ∀ l, o ≠ .setBackends l) (refreshDeviceList M ns jid) :=
      fun M ns jid => (SM.ops_refreshDeviceList M ns jid).mono fun o ho l e => by subst e; cases ho; rename_i h; cases h
    unfold firstRun takenDeviceIds storeOwnDevice Sto.storeBytes
    lib_ops [hdraw, hupd]
    all_goals (rename_i h; cases h))

theorem sound_ikp : Pres Lib (SoundK own x kp dev) IdentityKeyPair.get :=
  tidy_ikp.and (Pinned.ikp.and ((pres_ikp fun _ _ hw h => h.holds kp hw).and Keep.held_ikp))

theorem holds_extra {c : Call} (hc : ∀ bs l f, c ≠ .create bs l f)
    (hd : c.inDecision = false → ∀ ds i, Pres Lib (Holds kp) (M.decide ds i)) : Parts.Extra (Holds kp) M c := by
  cases c with
  | getIdentityKeyPair => exact pres_ikp fun _ _ hw h => h.holds kp hw
  | create bs l f => exact (hc _ _ _ rfl).elim
  | purgeBackend ns => exact holds_own
  | purgeBareJid jid =>
    refine (holds_keep (φ := PurgeJid jid) fun k hk => ?_).pres (SM.ops_purgeBareJid M jid)
    constructor
    · intro v h; rcases hk with rfl | rfl <;> cases h
    · intro h; rcases hk with rfl | rfl <;> cases h
  | setTrust j' ik l =>
    refine (holds_keep (φ := fun o => o = .store (.trust j' ik) (.str l)) fun k hk => ?_).pres (.perform rfl)
    rcases hk with rfl | rfl <;> exact ⟨nofun, nofun⟩
  | setOwnLabel l =>
    refine (holds_keep (φ := fun o => o = .store (.devLabel M.ownJid M.ownDev) (.ofOptStr l)) fun k hk => ?_).pres (.perform rfl)
    rcases hk with rfl | rfl <;> exact ⟨nofun, nofun⟩
  | encrypt => exact hd rfl
  | _ => trivial

theorem holds_call {c : Call} (hc : ∀ bs l f, c ≠ .create bs l f) (happ : ViaApi M) : Pres Lib (Holds kp) (c.run M) := by
  refine holds_parts.call c (holds_extra hc fun _ ds i => holds_parts.app (fun c h => ?_) (fun _ => trivial) (happ ds i))
  refine holds_extra ?_ fun h' => ?_
  · rintro bs l f rfl; cases h
  · rw [h] at h'; cases h'

theorem sound_call (hj : M.ownJid = own) (hd : M.ownDev = dev) {c : Call} (hc : ∀ bs l f, c ≠ .create bs l f) (hp : c ≠ .purgeBareJid own)
    (happ : ViaApi M) : Pres Lib (SoundK own x kp dev) (c.run M) :=
  (tidy_call' hj hd c (fun _ ds i => tidy_app hj hd (happ ds i) fun _ => trivial) hc).and
    ((Pinned.call hc hp happ).and ((holds_call hc happ).and (Keep.held_call hc hp happ)))

/-- Before the first completed run, or after. -/
def Usable (own : Jid) (x : XEdDSA) (w : World) : Prop := Early own x w.disk ∨ ∃ kp dev, SoundK own x kp dev w

theorem usable_ikp : Pres Lib (Usable own x) IdentityKeyPair.get := by
  rintro w (h | ⟨kp, dev, h⟩)
  · refine wp_mono (wp_ikp w) fun r w' h' => .inl (early_got ?_ h)
    cases r with
    | ok a => exact h'.2
    | raised e => exact h'
    | crashed => exact h'
  · exact wp_mono (sound_ikp w h) fun _ _ h => .inr ⟨kp, dev, h⟩

/-- Creation makes the own device match the backends. -/
theorem fit_create (hj : M.ownJid = own) (hx : M.x = x) (label : Option String) (fuel : Nat) (w : World)
    (hw : Usable own x w) :
    wp Lib (SM.create M bs label fuel) (ends (fun d w' => ∃ kp, Fit own x kp d bs w') (fun _ _ => True)) w := by
  rw [SM.create_eq]
  split
  · trivial
  split
  · trivial
  rw [ends_bind]
  refine Lib.setBackends trivial ?_
  rw [ends_bind]
  have h0 : Loaded bs { w with backends := bs } := rfl
  have h1 : Usable own x { w with backends := bs } := hw
  clear hw
  refine wp_mono (wp_and (wp_ikp _) (wp_and (loaded_ikp _ h0) (usable_ikp _ h1))) fun r w' h => ?_
  cases r with
  | raised e => trivial
  | crashed => trivial
  | ok kp =>
    obtain ⟨⟨hkp, hgot⟩, hload, hw⟩ := h
    show wp Lib _ (ends _ _) w'
    unfold SM.createRest
    rw [ends_bind]
    refine Lib.setSync trivial ?_
    have hload : Loaded bs { w' with sync := true } := hload
    generalize hw1 : ({ w' with sync := true } : World) = w1 at hload ⊢
    have hdisk : w1.disk = w'.disk := by rw [← hw1]
    have hend : ∀ d w2, (∃ kp, SoundK own x kp d w2) → Loaded bs w2 → wp Lib (handleChangedBackends { M with ownDev := d } >>= fun _ => (pure d : P DevId))
        (ends (fun d w' => ∃ kp, Fit own x kp d bs w') (fun _ _ => True)) w2 := by
      rintro d w2 ⟨kp, hs⟩ hl
      rw [ends_bind]
      exact ends_mono (fit_handle hj w2 hs hl) (fun _ w3 h3 => ⟨kp, h3⟩) fun _ _ h => h
    rw [ends_bind]
    rcases hw with hw | ⟨kp', dev, hw⟩
    · have hE := hw
      have hEK : EarlyK own x kp w1 := by
        show EarlyD own x kp w1.disk
        rw [hdisk]
        refine ⟨hE.id, hkp, fun d b hb => ?_, hE.foreign⟩
        obtain ⟨kp', h1, h2⟩ := hE.keys d b hb
        cases holds_inj h1 hkp
        exact h2
      refine wp_ownId (fun _ _ => trivial) (fun _ _ _ _ => trivial) (fun hn => ?_) fun v d hv hc => ?_
      · have h1 := wp_firstRun (I0 := EarlyK own x kp) (J := SoundK own x kp) (X := fun _ => True) early_quiet (fun d => sound_parts hj d) label
          (kp.identityKey M.x) fuel (fun d bs w hw => by
            subst hx
            exact ends_mono (wp_storeOwnDevice (M := { M with ownDev := d }) hj label bs w hw) (fun _ _ h => h) fun _ _ _ => trivial)
          (fun _ _ => trivial) (fun _ _ _ => trivial) w1 hEK
        refine wp_mono (wp_and h1 (loaded_firstRun label _ fuel w1 hload)) fun r w2 h => ?_
        cases r with
        | ok d => exact hend d w2 ⟨kp, h.1⟩ h.2
        | raised e => trivial
        | crashed => trivial
      · rw [hdisk, hE.id] at hv; cases hv
    · have hs : SoundK own x kp' dev w1 := by
        rw [← hw1]
        exact hw
      refine wp_ownId (fun _ _ => trivial) (fun _ _ _ _ => trivial) (fun hn => ?_) fun v d hv hc => ?_
      · rw [hs.1.id] at hn; cases hn
      · rw [hs.1.id] at hv
        cases hv
        rw [chkInt_of] at hc
        cases hc
        exact hend _ w1 ⟨kp', hs⟩ hload

theorem usable_create (hj : M.ownJid = own) (hx : M.x = x) (label : Option String) (fuel : Nat) :
    Pres Lib (Usable own x) (SM.create M bs label fuel) := by
  rintro w (hw | ⟨kp, dev, hw⟩)
  · exact wp_mono (early_create hj hx bs label fuel w hw) fun r w' h => by
      cases r with
      | ok d => exact .inr (h.imp fun kp h => ⟨d, h⟩)
      | raised e => exact h
      | crashed => exact h
  · rw [SM.create_eq]
    split
    · exact .inr ⟨kp, dev, hw⟩
    split
    · exact .inr ⟨kp, dev, hw⟩
    refine wp_mono (Q := ends (fun d w' => ∃ d, SoundK own x kp d w') (fun _ w' => ∃ d, SoundK own x kp d w')) ?_ fun r w' h => .inr ⟨kp, by cases r <;> exact h⟩
    rw [ends_bind]
    refine Lib.setBackends ⟨dev, hw⟩ ?_
    rw [ends_bind]
    have hw' : SoundK own x kp dev { w with backends := bs } := hw
    refine wp_mono (sound_ikp _ hw') fun r w1 h1 => ?_
    cases r with
    | raised e => exact ⟨dev, h1⟩
    | crashed => exact ⟨dev, h1⟩
    | ok kp' =>
      refine ends_mono (wp_createRest (M := M) (I := SoundK own x kp dev) (I0 := fun _ => False) (J := SoundK own x kp)
        (X := fun w => ∃ d, SoundK own x kp d w) (sound_parts (M := M) hj dev).quiet (fun _ _ _ _ _ h => h) (fun d => sound_parts hj d) (fun d => sound_handle hj d)
        label kp' fuel (fun _ _ _ h => h.elim) (fun _ h => ⟨dev, h⟩) (fun _ h => h.elim) (fun d _ h => ⟨d, h⟩)
        (fun w h hn => ?_) (fun w v d h hv hc => ?_) _ h1) (fun d _ h => ⟨d, h⟩) fun _ _ h => h
      · rw [h.1.id] at hn; cases hn
      · rw [h.1.id] at hv
        cases hv
        rw [chkInt_of] at hc
        cases hc
        exact h

theorem usable_step {s s' : Use} {c : Mgr × Call} (h : Step own x s c s') (happ : ViaApi c.1) (hp : c.2 ≠ .purgeBareJid own)
    (hi : InUse own x s) (hs : Usable own x s.world) : Usable own x s'.world := by
  cases h with
  | @ikp w' t r M he hr =>
    exact wp_sound ((usable_ikp.bind fun _ => Pres.pure _ : Pres Lib (Usable own x) (Call.getIdentityKeyPair.run M)) _ hs) he hr
  | @create w' t r M bs label fuel hj hx he hr => exact wp_sound (usable_create hj hx label fuel _ hs) he hr
  | @call w' t r M c hM hc he hr =>
    rcases hi with ⟨_, h2⟩ | ⟨dev, h1, h2⟩
    · rw [h2] at hM; cases hM
    · obtain ⟨hj, hx, hd⟩ := h2 M hM
      rcases hs with hs | ⟨kp, dev', hs⟩
      · cases hs.id.symm.trans h1
      · cases hs.1.id.symm.trans h1
        exact .inr ⟨kp, _, wp_sound (sound_call hj hd hc hp happ _ hs) he hr⟩

theorem usable_life {s s' : Use} {cs : List (Mgr × Call)} (h : Life own x s cs s') (happ : ∀ c ∈ cs, ViaApi c.1)
    (hp : ∀ c ∈ cs, c.2 ≠ .purgeBareJid own) (hi : InUse own x s) (hs : Usable own x s.world) : Usable own x s'.world := by
  induction h with
  | nil => exact hs
  | cons hst _ ih =>
    exact ih (fun c hc => happ c (.tail _ hc)) (fun c hc => hp c (.tail _ hc)) (inUse_step hst (happ _ (.head _)) hi)
      (usable_step hst (happ _ (.head _)) (hp _ (.head _)) hi hs)

theorem usable_new {s : Use} (h : New s) : Usable own x s.world := by
  rcases inUse_new (own := own) (x := x) h with ⟨h, _⟩ | ⟨_, h', _⟩
  · exact .inl h
  · rcases h.disk _ _ h' with h | h <;> cases h

end
end OwnData

/-! ### C55 -/

/-- C55, as stated. -/
def C55_Claim : Prop :=
  ∀ (own : Jid) (x : XEdDSA) (s0 s : Use) (cs : List (Mgr × Call)) (M : Mgr) (bs : List Ns) (label : Option String) (fuel : Nat) (t : List Ev)
    (d : DevId) (w' : World), New s0 → Life own x s0 cs s → (∀ c ∈ cs, ViaApi c.1) → M.ownJid = own → M.x = x →
    Exec (SM.create M bs label fuel) t (.ok d) → Lib.Runs s.world t w' →
    ∃ kp, HoldsIkp w'.disk kp ∧ OwnDevice w'.disk own d (kp.identityKey x) bs

/-- After successful creation, anywhere in the life of an account in which the own JID was not purged, what is stored about the own device is exactly right.
What is missing: histories in which `purge_bare_jid` was called for the own JID; `C55_refuted` shows that it fails after those. -/
theorem C55_partial (own : Jid) (x : XEdDSA) (s0 s : Use) (cs : List (Mgr × Call)) (M : Mgr) (bs : List Ns) (label : Option String) (fuel : Nat) (t : List Ev)
    (d : DevId) (w' : World) (hnew : New s0) (h : Life own x s0 cs s) (happ : ∀ c ∈ cs, ViaApi c.1) (hp : ∀ c ∈ cs, c.2 ≠ .purgeBareJid own)
    (hj : M.ownJid = own) (hx : M.x = x) (he : Exec (SM.create M bs label fuel) t (.ok d)) (hr : Lib.Runs s.world t w') :
    ∃ kp, HoldsIkp w'.disk kp ∧ OwnDevice w'.disk own d (kp.identityKey x) bs := by
  have h1 := OwnData.usable_life h happ hp (inUse_new hnew) (OwnData.usable_new hnew)
  obtain ⟨kp, hs, hx⟩ := wp_sound (OwnData.fit_create hj hx label fuel _ h1) he hr
  refine ⟨kp, hs.2.2.1, ?_, hs.2.1, fun ns => ?_, fun ns hns => ?_⟩
  · exact hs.2.2.2.known d rfl
  · obtain ⟨l, h2, h3⟩ := hx.namespaces
    refine Iff.trans ⟨?_, fun h => ⟨l, h2, h⟩⟩ (h3 ns)
    rintro ⟨l', h4, h5⟩
    rw [h2] at h4
    rwa [ofStrs_inj' (Option.some.inj h4)]
  · obtain ⟨a, h2, h3⟩ := hx.active
    exact ⟨a, h2, h3 ns hns⟩

/-- The own JID was purged; afterwards its device list came in again. -/
def Use.purged : Use :=
  Friendly.rekeyed.use Mgr.ex (.updateDeviceList "n" "me" [(1, none)]) (Friendly.rekeyed.use Mgr.ex (.purgeBareJid "me") Use.met)

theorem purged_life : ∃ cs, Life "me" Mgr.ex.x Use.fresh cs Use.purged ∧ ∀ c ∈ cs, ViaApi c.1 :=
  ⟨_, Friendly.rekeyed.life (Friendly.rekeyed.life met_life (M := Mgr.ex) (c := .purgeBareJid "me")
    (by simp [Use.met, Friendly.use, Use.started]) nofun) (M := Mgr.ex) (c := .updateDeviceList "n" "me" [(1, none)])
    (by simp [Use.met, Friendly.use, Use.started]) nofun, by simp [ViaApi] <;> exact fun _ _ => .ret ()⟩

/-- After a purge of the own JID, the identity key of the own device is taken from the bundle on the server. -/
theorem C55_refuted : ¬ C55_Claim := by
  intro h
  obtain ⟨cs, hl, happ⟩ := purged_life
  have hr : (Friendly.rekeyed.run (SM.create Mgr.ex ["n", "o"] none 5) Use.purged.world).2.1 = .ok 1 := by decide +kernel
  obtain ⟨kp, hk, ho⟩ := h "me" Mgr.ex.x _ _ cs Mgr.ex ["n", "o"] none 5 _ 1 _ fresh_new hl happ rfl rfl
    (hr ▸ Friendly.rekeyed.exec _ _) (Friendly.rekeyed.runs _ _)
  have hk' : HoldsIkp (Friendly.rekeyed.run (SM.create Mgr.ex ["n", "o"] none 5) Use.purged.world).2.2.disk (.seed [1, 2, 3]) :=
    ⟨Base64.encode [1, 2, 3], rfl, rfl, Base64.decode_encode _⟩
  cases holds_inj hk hk'
  have h1 : HasKey (Friendly.rekeyed.run (SM.create Mgr.ex ["n", "o"] none 5) Use.purged.world).2.2.disk "me" 1 [99] := rfl
  have h2 := h1.symm.trans ho.key
  have h3 := congrArg Base64.decode (JVal.str.inj (Option.some.inj h2))
  rw [Base64.decode_encode, Base64.decode_encode] at h3
  cases h3

/-- The account is started a second time, with one backend less. -/
theorem C55_example : ∃ t w', Exec (SM.create Mgr.ex ["o"] none 5) t (.ok 1) ∧ Lib.Runs Use.met.world t w' ∧
    Advertises Use.met.world.disk "me" 1 "n" ∧ ¬ Advertises w'.disk "me" 1 "n" ∧ OwnDevice w'.disk "me" 1 [1, 2, 3] ["o"] := by
  have hr : (Friendly.rekeyed.run (SM.create Mgr.ex ["o"] none 5) Use.met.world).2.1 = .ok 1 := by decide +kernel
  have hk' : HoldsIkp (Friendly.rekeyed.run (SM.create Mgr.ex ["o"] none 5) Use.met.world).2.2.disk (.seed [1, 2, 3]) :=
    ⟨Base64.encode [1, 2, 3], rfl, rfl, Base64.decode_encode _⟩
  obtain ⟨kp, hk, ho⟩ := C55_partial "me" Mgr.ex.x _ _ _ Mgr.ex ["o"] none 5 _ 1 _ fresh_new met_life
    (by simp [ViaApi] <;> exact fun _ _ => .ret ()) (by simp) rfl rfl (hr ▸ Friendly.rekeyed.exec _ _) (Friendly.rekeyed.runs _ _)
  cases holds_inj hk hk'
  exact ⟨_, _, hr ▸ Friendly.rekeyed.exec _ _, Friendly.rekeyed.runs _ _, ⟨["n", "o"], rfl, by simp⟩, fun h => by simpa using (ho.exact _).1 h, ho⟩

end Verif
