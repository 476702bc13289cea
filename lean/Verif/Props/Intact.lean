import Verif.Props.Own
import Verif.Props.Concurrent
import Verif.Props.PurgeJid
import Verif.Proofs.NoKey
/-
C24: no call fails because of data the library stored.
-/
namespace Verif
open SM Spec Foot

/-- The exceptions that point to missing or malformed data. -/
def Spec.Blames (e : Exn) : Prop := e = .nothingException ∨ e = .typeError ∨ e = .keyError

/-- The application's trust decisions use the public API only, and do not raise such exceptions themselves. -/
def Spec.Polite (M : Mgr) : Prop := ∀ X : Exn → Prop, (∀ e, ¬ Blames e → X e) → ∀ ds i, AppProg M X (M.decide ds i)

/-- ... nor `ValueError`. -/
def Spec.Careful (M : Mgr) : Prop := ∀ X : Exn → Prop, (∀ e, ¬ Blames e → e ≠ .valueError → X e) → ∀ ds i, AppProg M X (M.decide ds i)

theorem Spec.Careful.polite {M : Mgr} (h : Careful M) : Polite M := fun X hX => h X fun e he _ => hX e he

/-- The calls that can come next. -/
inductive Spec.NextCall (own : Jid) (x : XEdDSA) (s : Use) : Mgr → Call → Prop where
  | ikp (M : Mgr) : NextCall own x s M .getIdentityKeyPair
  | create (M : Mgr) (bs : List Ns) (label : Option String) (fuel : Nat) : M.ownJid = own → M.x = x → NextCall own x s M (.create bs label fuel)
  | call (M : Mgr) (c : Call) : M ∈ s.mgrs → (∀ bs l f, c ≠ .create bs l f) → NextCall own x s M c

/-- A plaintext for one of the loaded backends was not given. -/
def Spec.PlaintextMissing (w : World) (c : Call) : Prop :=
  ∃ jids pt prio i, c = .encrypt jids pt prio i ∧ ∃ ns ∈ w.backends, pt.get ns = none

namespace Intact
variable {M : Mgr} {own : Jid} {x : XEdDSA} {kp : IdentityKeyPair} {dev : DevId} {α : Type}

theorem Polite.viaApi (h : Polite M) : ViaApi M := h _ fun _ _ => trivial

/-! ### The form of the data -/

def TypedW (w : World) : Prop := Typed w.disk

theorem typed_keep {φ : Op → Prop} (h : ∀ k v, φ (.store k v) → Form k v) : OpsKeep TypedW φ := by
  intro o ho w r _ hw
  cases o with
  | store k v => cases r with
    | error e => exact hw
    | ok a =>
      intro k' v' h'
      change w.disk.upd k (some v) k' = some v' at h'
      by_cases hk : k' = k
      · subst hk; simp at h'; subst h'; exact h _ _ ho
      · exact hw k' v' ((Disk.upd_of_ne hk).symm.trans h')
  | delete k => cases r with
    | error e => exact hw
    | ok a =>
      intro k' v' h'
      change w.disk.upd k none k' = some v' at h'
      by_cases hk : k' = k
      · subst hk; simp at h'
      · exact hw k' v' ((Disk.upd_of_ne hk).symm.trans h')
  | _ => cases r <;> exact hw

theorem typed_writes : OpsKeep TypedW Writes := typed_keep fun k v h => by
  cases h with
  | other _ h _ => exact (h _ _ rfl).elim
  | _ => exact ⟨_, rfl⟩

theorem typed_ikp : Pres Lib TypedW IdentityKeyPair.get := (typed_keep (φ := Ikp) fun k v h => by cases h <;> exact ⟨_, rfl⟩).pres ops_ikp

theorem typed_call (h : ViaApi M) (c : Call) : Pres Lib TypedW (c.run M) := pres_writes typed_writes typed_ikp (fun _ => trivial) h c

/-! ### Complete data -/

/-- After the first run, with complete data for all JIDs. -/
def Whole (own : Jid) (x : XEdDSA) (kp : IdentityKeyPair) (dev : DevId) (w : World) : Prop :=
  SoundK own x kp dev w ∧ ∀ j, Keep.Held j none w

theorem pres_all {ι : Type} {I : ι → World → Prop} {p : P α} (h : ∀ i, Pres Lib (I i) p) : Pres Lib (fun w => ∀ i, I i w) p := fun _ hw =>
  wp_iff.2 fun _ _ _ he hr i => (h i).run he hr (hw i)

theorem parts_all {ι : Type} {I : ι → World → Prop} (h : ∀ i, Parts (I i) M) : Parts (fun w => ∀ i, I i w) M :=
  ⟨fun o ho w r hok hw i => (h i).quiet o ho w r hok (hw i), fun jid => pres_all fun i => (h i).info jid,
    fun ns jid dl => pres_all fun i => (h i).update ns jid dl⟩

theorem whole_parts (hj : M.ownJid = own) (d : DevId) : Parts (Whole own x kp d) { M with ownDev := d } :=
  (sound_parts hj d).and (parts_all fun _ => Keep.parts)

theorem described {w : World} (hw : Whole own x kp dev w) : Described w.disk own dev := (hw.2 own).1.2 dev (hw.1.2.2.2.2 dev rfl)

theorem rd_label {m : Disk} {j : Jid} {d : DevId} (h : ∃ l, Labelled m j d l) : ∃ l, rd chkOptStr (m (.devLabel j d)) = .ok l := by
  obtain ⟨l, h⟩ := h
  exact ⟨l, by rw [h]; simp [rd]⟩

theorem whole_ready {w : World} (hj : M.ownJid = own) (hd : M.ownDev = dev) (hw : Whole own x kp dev w) (ns : Ns) (jid : Jid) (dl : DevList) :
    Upd.Ready M ns jid dl w.disk := by
  refine ⟨fun v hv => ?_, fun _ _ => ?_, fun d hm => ?_⟩
  · obtain ⟨l, rfl⟩ := (hw.2 jid).1.1 v hv
    exact ⟨l, by simp⟩
  · rw [hj, hd]; exact rd_label (described hw).3
  · have hk := Keep.old_known (hw.2 jid).1 hm
    obtain ⟨⟨l, h1⟩, ⟨a, h2⟩, h3⟩ := (hw.2 jid).1.2 d hk
    refine ⟨l, a, by rw [h1]; simp [rd], by rw [h2]; simp [rd], fun _ => rd_label h3, fun hn hns => ?_⟩
    by_cases ho : jid = own ∧ d = dev
    · exfalso
      obtain ⟨rfl, rfl⟩ := ho
      unfold Upd.eff at hn
      split at hn
      · rw [hd, Dict.get_set_self] at hn; cases hn
      · rename_i h
        have : M.ownDev ∈ dl.keys := Decidable.not_not.1 fun h' => h ⟨hj.symm, h'⟩
        rw [hd, Dict.mem_keys, hn] at this
        cases this
    · obtain ⟨b, a', h4, h5⟩ := hw.1.1.covered jid d hk ho ns ⟨l, h1, hns⟩
      rw [h2] at h4
      obtain rfl := ofBools_inj (Option.some.inj h4)
      rw [h5]; nofun

theorem whole_update (hj : M.ownJid = own) (d : DevId) (ns : Ns) (jid : Jid) (dl : DevList) :
    NoKey (Whole own x kp d) (updateDeviceList { M with ownDev := d } ns jid dl) := fun w hw => by
  refine wp_mono (wp_and ((whole_parts hj d).update ns jid dl w hw) Upd.wp_updateDeviceList) fun r w' h => ⟨h.1, ?_⟩
  rintro rfl
  exact nomatch h.2.1 (whole_ready (M := { M with ownDev := d }) hj rfl hw ns jid dl)

theorem whole_call (hj : M.ownJid = own) (hd : M.ownDev = dev) {c : Call} (hc : ∀ bs l f, c ≠ .create bs l f) (hp : ∀ j, c ≠ .purgeBareJid j)
    (happ : ViaApi M) : Pres Lib (Whole own x kp dev) (c.run M) :=
  (OwnData.sound_call hj hd hc (hp own) happ).and (pres_all fun j => Keep.held_call hc (hp j) happ)

/-! ### `KeyError` -/

theorem key_decide (hj : M.ownJid = own) (hd : M.ownDev = dev) (h : Polite M) (ds : List DeviceInfo) (i : Option String) :
    NoKey (Whole own x kp dev) (M.decide ds i) := by
  subst hj hd
  refine NoKey.app (whole_parts (M := M) rfl M.ownDev) (whole_update (M := M) rfl M.ownDev) (fun c hc => ?_) (h _ (fun e he h' => he (.inr (.inr h'))) ds i)
  refine whole_call rfl rfl ?_ ?_ (Polite.viaApi h)
  · rintro bs l f rfl; cases hc
  · rintro j rfl; cases hc

/-- Calls of managers. -/
theorem key_call (hj : M.ownJid = own) (hd : M.ownDev = dev) (h : Polite M) {c : Call} (hc : ∀ bs l f, c ≠ .create bs l f) (w : World)
    (hw : Whole own x kp dev w) : wp Lib (c.run M) (fun r w' => r = .raised .keyError → PlaintextMissing w' c) w := by
  have hd' := fun ds i => key_decide (x := x) (kp := kp) hj hd h ds i
  subst hj hd
  have hP : Parts (Whole M.ownJid x kp M.ownDev) M := whole_parts rfl M.ownDev
  by_cases hp : ∃ j, c = .purgeBareJid j
  · obtain ⟨j, rfl⟩ := hp
    exact wp_mono (NoKey.of (I := fun _ => True) (fun _ _ => wp_iff.2 fun _ _ _ _ _ => trivial) (raises_purgeBareJid NoKey.core (fun _ _ h => h) j) w trivial)
      fun r w' h h' => (h.2 h').elim
  have hp' : ∀ j, c ≠ .purgeBareJid j := fun j h => hp ⟨j, h⟩
  by_cases he : ∃ jids pt prio i, c = .encrypt jids pt prio i
  · obtain ⟨jids, pt, prio, i, rfl⟩ := he
    show wp Lib (_ >>= _) _ _
    rw [wp_bind]
    refine wp_mono (NoKey.encrypt hP hd' jids pt prio i w hw) fun r w' h => ?_
    cases r with
    | ok a => exact nofun
    | raised e => intro h'; exact ⟨jids, pt, prio, i, rfl, h.2 (by cases h'; rfl)⟩
    | crashed => exact nofun
  · refine wp_mono (NoKey.call hP (whole_update (M := M) rfl M.ownDev) (whole_call rfl rfl hc hp' (Polite.viaApi h)) hc
      (fun jids pt prio i h => he ⟨jids, pt, prio, i, h⟩) w hw) fun r w' h h' => (h.2 h').elim

theorem key_handle (hj : M.ownJid = own) (d : DevId) : NoKey (Whole own x kp d) (handleChangedBackends { M with ownDev := d }) := by
  have h1 : ∀ p : P Unit, Pres Lib (SoundK own x kp d) p → (∀ j, Pres Lib (Keep.Held j none) p) → Pres Lib (Whole own x kp d) p :=
    fun p h h' => h.and (pres_all h')
  refine NoKey.changedBackends (whole_parts hj d) (whole_update hj d) (fun ns => h1 _ ?_ fun j => Keep.parts.purgeBackend Keep.ownParts ns)
    (fun l => h1 _ ?_ fun j => Keep.ownParts.active _) fun l => h1 _ ?_ fun j => Keep.ownParts.namespaces _
  · exact (tidy_purgeBackend (M := { M with ownDev := d }) hj rfl ns).and ((Pinned.parts.purgeBackend Pinned.ownParts ns).and
      ((holds_parts.purgeBackend holds_own ns).and (Keep.parts.purgeBackend Keep.ownParts ns)))
  · refine pres_ends.2 fun w hw => Lib.store (fun _ _ => hw) ?_
    rw [show ({ M with ownDev := d } : Mgr).ownJid = own from hj]
    refine OwnData.sound_active hw fun ns b h => ?_
    rw [OwnData.live_map] at h
    split at h <;> cases h
    rfl
  · refine pres_ends.2 fun w hw => Lib.store (fun _ _ => hw) ?_
    rw [show ({ M with ownDev := d } : Mgr).ownJid = own from hj]
    exact OwnData.sound_namespaces hw

/-- The first run. -/
theorem key_firstRun (hj : M.ownJid = own) (hx : M.x = x) (label : Option String) (fuel : Nat) (w : World)
    (hw : EarlyK own x kp w ∧ ∀ j, Keep.Held j none w) :
    wp Lib (firstRun M label (kp.identityKey M.x) fuel) (ends (fun d => Whole own x kp d) (fun e _ => e ≠ some .keyError)) w := by
  have h0 : OpsKeep (fun w => EarlyK own x kp w ∧ ∀ j, Keep.Held j none w) Quiet := fun o ho w r hok hw =>
    ⟨early_quiet o ho w r hok hw.1, fun j => Keep.held_quiet o ho w r hok (hw.2 j)⟩
  have key : ∀ {α : Type} {I : World → Prop} {p : P α} {w : World}, NoKey I p → I w → wp Lib p (ends (fun _ => I) (fun e _ => e ≠ some .keyError)) w :=
    fun h hw => wp_mono (h _ hw) fun r w' hr => by
      cases r with
      | ok a => exact hr.1
      | raised e => exact fun h => hr.2 (by cases h; rfl)
      | crashed => nofun
  have hop : ∀ {o : Op}, Quiet o → NoKey (fun w => EarlyK own x kp w ∧ ∀ j, Keep.Held j none w) (call o) := fun ho =>
    NoKey.of (h0.pres (.perform ho)) (.perform fun _ h => h)
  have hdraw : ∀ taken fuel, NoKey (fun w => EarlyK own x kp w ∧ ∀ j, Keep.Held j none w) (drawDeviceId taken fuel) := by
    intro taken fuel
    refine NoKey.of (h0.pres ?_) (raises_drawDeviceId (χ := fun _ e => e ≠ .keyError) (ρ := (· ≠ .keyError)) (fun _ _ h => h) (fun h => nomatch h) _ _)
    induction fuel with
    | zero => trivial
    | succ n ih => unfold SM.drawDeviceId; lib_ops []; all_goals trivial
  have htaken : ∀ j bs, NoKey (fun w => EarlyK own x kp w ∧ ∀ j, Keep.Held j none w) (takenDeviceIds j bs) := by
    intro j bs
    refine NoKey.of (h0.pres ?_) ?_
    · unfold SM.takenDeviceIds; lib_ops []; all_goals trivial
    · unfold SM.takenDeviceIds
      lib_raises NoKey.core, []
      all_goals assumption
  unfold firstRun
  rw [ends_bind]
  refine ends_mono (key (hop trivial) hw) (fun bs1 w1 h1 => ?_) fun _ _ h => h
  rw [ends_bind]
  refine ends_mono (key (htaken _ _) h1) (fun tk w2 h2 => ?_) fun _ _ h => h
  rw [ends_bind]
  refine ends_mono (key (hdraw _ _) h2) (fun d w3 h3 => ?_) fun _ _ h => h
  dsimp only
  rw [ends_bind]
  refine ends_mono (key (hop trivial) h3) (fun bs2 w4 h4 => ?_) fun _ _ h => h
  rw [ends_bind]
  have hs : wp Lib (storeOwnDevice { M with ownDev := d } label (kp.identityKey M.x) bs2)
      (ends (fun _ => Whole own x kp d) (fun e _ => e ≠ some .keyError)) w4 := by
    have r1 : Raises (S := LibSig) (fun _ e => e ≠ .keyError) (· ≠ .keyError) (storeOwnDevice { M with ownDev := d } label (kp.identityKey M.x) bs2) := by
      unfold storeOwnDevice Sto.storeBytes
      lib_raises NoKey.core, []
      all_goals assumption
    have r2 := NoKey.of (I := fun w => ∀ j, Keep.Held j none w) (pres_all fun j => Keep.complete_storeOwn label (kp.identityKey M.x) bs2) r1 w4 h4.2
    subst hx
    refine wp_mono (wp_and (wp_storeOwnDevice (M := { M with ownDev := d }) hj label bs2 w4 h4.1) r2) fun r w' hr => ?_
    cases r with
    | ok a => exact ⟨hr.1, hr.2.1⟩
    | raised e => exact fun h => hr.2.2 (by cases h; rfl)
    | crashed => nofun
  refine ends_mono hs (fun _ w5 h5 => ?_) fun _ _ h => h
  have hP : Parts (Whole own x kp d) { M with ownDev := d } := whole_parts hj d
  have hr := NoKey.refresh hP (whole_update hj d)
  have last : NoKey (Whole own x kp d) (do
      Prog.forEach (← call .getBackends) fun ns => call (.generatePreKeys ns 100)
      Prog.forEach (← call .getBackends) fun ns => do
        let bundle ← call (.getBundle ns M.ownJid d)
        call (.uploadBundle bundle)
      Prog.forEach (← call .getBackends) fun ns => refreshDeviceList { M with ownDev := d } ns M.ownJid : P Unit) :=
    .bind (.op hP trivial) fun _ => .bind (.forEach fun _ _ => .op hP trivial) fun _ => .bind (.op hP trivial) fun _ =>
      .bind (.forEach fun _ _ => .bind (.op hP trivial) fun _ => .op hP trivial) fun _ => .bind (.op hP trivial) fun _ => .forEach fun _ _ => hr _ _
  have := key last h5
  simp only [ends_bind] at this ⊢
  refine ends_mono this (fun _ w6 h6 => ?_) fun _ _ h => h
  refine ends_mono h6 (fun _ w7 h7 => ?_) fun _ _ h => h
  refine ends_mono h7 (fun _ w8 h8 => ?_) fun _ _ h => h
  refine ends_mono h8 (fun _ w9 h9 => ?_) fun _ _ h => h
  refine ends_mono h9 (fun _ w10 h10 => ?_) fun _ _ h => h
  exact ends_mono h10 (fun _ w11 h11 => h11) fun _ _ h => h

/-- Creation. -/
theorem key_create (hj : M.ownJid = own) (hx : M.x = x) (bs : List Ns) (label : Option String) (fuel : Nat) (w : World)
    (hw : OwnData.Usable own x w) (hh : ∀ j, Keep.Held j none w) :
    wp Lib (create M bs label fuel) (ends (fun _ _ => True) (fun e _ => e ≠ some .keyError)) w := by
  rw [SM.create_eq]
  split
  · exact nofun
  split
  · exact nofun
  rw [ends_bind]
  refine Lib.setBackends nofun ?_
  rw [ends_bind]
  have hw1 : OwnData.Usable own x { w with backends := bs } := hw
  have hh1 : ∀ j, Keep.Held j none { w with backends := bs } := hh
  have hi : NoKey (fun w => ∀ j, Keep.Held j none w) IdentityKeyPair.get :=
    NoKey.of (pres_all fun _ => Keep.held_ikp) (raises_identityKeyPair NoKey.core fun _ _ h => h)
  refine wp_mono (wp_and (wp_ikp _) (wp_and (OwnData.usable_ikp _ hw1) (hi _ hh1))) fun r w' h => ?_
  cases r with
  | raised e => exact fun h' => h.2.2.2 (by cases h'; rfl)
  | crashed => exact nofun
  | ok kp =>
    obtain ⟨⟨hkp, -⟩, hw, hh, -⟩ := h
    show wp Lib _ (ends _ _) w'
    unfold SM.createRest
    rw [ends_bind]
    refine Lib.setSync nofun ?_
    have hend : ∀ d w2, (∃ kp, Whole own x kp d w2) → wp Lib (handleChangedBackends { M with ownDev := d } >>= fun _ => (pure d : P DevId))
        (ends (fun _ _ => True) (fun e _ => e ≠ some .keyError)) w2 := by
      rintro d w2 ⟨kp, hs⟩
      rw [ends_bind]
      refine wp_mono (key_handle hj d w2 hs) fun r w3 hr => ?_
      cases r with
      | ok a => trivial
      | raised e => exact fun h => hr.2 (by cases h; rfl)
      | crashed => nofun
    have hfail : ∀ e, Fail e → e ≠ some .keyError := by rintro _ h rfl; cases h
    have hint : ∀ v e, chkInt v = .error e → some e ≠ some .keyError := by
      rintro v e h h'
      cases h'
      unfold chkInt checkPrimitive at h
      split at h <;> cases h
    rw [ends_bind]
    rcases hw with hw | ⟨kp', dev, hw⟩
    · have hE : EarlyK own x kp { w' with sync := true } := by
        refine ⟨hw.id, hkp, fun d b hb => ?_, hw.foreign⟩
        obtain ⟨kp', h1, h2⟩ := hw.keys d b hb
        cases holds_inj h1 hkp
        exact h2
      refine wp_ownId (fun e h => hfail e h) (fun v e _ h => hint v e h) (fun _ => ?_) fun v d hv hc => ?_
      · exact ends_mono (key_firstRun hj hx label fuel _ ⟨hE, hh⟩) (fun d w2 h2 => hend d w2 ⟨kp, h2⟩) fun _ _ h => h
      · cases hv.symm.trans hw.id
    · refine wp_ownId (fun e h => hfail e h) (fun v e _ h => hint v e h) (fun hn => ?_) fun v d hv hc => ?_
      · cases hn.symm.trans hw.1.id
      · cases hv.symm.trans hw.1.id
        rw [chkInt_of] at hc
        cases hc
        exact hend _ _ ⟨kp', hw, hh⟩

/-! ### `NothingException`, `TypeError` -/

theorem wellFormed {w : World} (ht : Typed w.disk) (hw : OwnData.Usable own x w) (hh : ∀ j, Keep.Held j none w) : WellFormed own w.disk := by
  refine ⟨ht, fun j d hk => ?_, fun d hd => ?_⟩
  · have h := (hh j).1.2 d hk
    exact ⟨h.1, h.2, h.3⟩
  · rcases hw with hw | ⟨kp, dev, hw⟩
    · cases hd.symm.trans hw.id
    · cases hd.symm.trans hw.1.id
      have h := described (kp := kp) ⟨hw, hh⟩
      exact ⟨h.1, h.2, h.3⟩

/-- ... and `ValueError`, unless it is allowed. -/
def Miss (V : Prop) (e : Exn) : Prop := e = .nothingException ∨ e = .typeError ∨ (e = .valueError ∧ ¬ V)

theorem wp_safe {pin : Pin} {A : Shared.Filled} {p : P α} {w : World} (h : Shared.Safe pin A p) (hJ : Shared.Inv pin w) (hA : Shared.True_ A w) :
    wp Lib p (ends (fun _ w' => Shared.Inv pin w') fun e _ => ∀ e', e = some e' → ¬ Miss pin.value e') w := by
  refine wp_iff.2 fun t r w' he hr => ?_
  obtain ⟨h1, h2⟩ := Shared.alone he hr hJ hA h
  cases r with
  | ok a => exact h1
  | raised e =>
    rintro _ ⟨⟩ (rfl | rfl | ⟨rfl, hV⟩)
    · exact h2.1 rfl
    · exact h2.2.1 rfl
    · exact hV (h2.2.2 rfl)
  | crashed => exact nofun

theorem safe_collect {pin : Pin} {A : Shared.Filled} (jid : Jid) (l : List DevId) : Shared.Safe pin A (collectIdentityKeys jid l) := by
  refine Shared.Safe.fold fun keys d _ => ?_
  refine Shared.SafeX.onNothing (N := True) ?_ fun _ => Shared.Safe.ret
  refine Shared.SafeX.bind ((Shared.SafeX.typed (k := .devIdentityKey jid d) fun v hv => Shared.form_bytes hv).mono
      (fun _ _ _ h => h) fun e he => ⟨he.2.1, he.2.2, fun h => absurd h he.1⟩) fun o l' hl ho => ?_
  cases o with
  | none => exact Shared.SafeX.bind (Q := fun _ _ => True) (.raise ⟨nofun, nofun, fun _ => trivial⟩) fun _ _ _ _ => .ret fun _ _ => trivial
  | some b => exact .ret fun _ _ => trivial

/-- Purging a JID fails with neither if the data has its form. -/
theorem miss_purge {V : Prop} (jid : Jid) (w : World) (hw : WellFormed own w.disk) :
    wp Lib (purgeBareJid M jid) (ends (fun _ _ => True) fun e _ => ∀ e', e = some e' → ¬ Miss V e') w := by
  have hJ := Shared.inv_of_wellFormed hw (fun _ _ => False) (fun _ _ => none) nofun nofun V
  have hfail : ∀ e : Option Exn, Fail e → ∀ e', e = some e' → ¬ Miss V e' := by
    rintro e h e' rfl (rfl | rfl | ⟨rfl, _⟩) <;> cases h
  have hdel : ∀ k, ∀ w, wp Lib (call (.delete k)) (ends (fun _ _ => True) fun e _ => ∀ e', e = some e' → ¬ Miss V e') w :=
    fun k w => Lib.delete (fun e h => hfail e h) trivial
  unfold purgeBareJid
  rw [ends_bind]
  refine ends_mono (wp_safe (A := fun _ => False) (Shared.safe_loadInts fun v h => h) hJ (fun _ h => h.elim)) (fun l w1 h1 => ?_) fun _ _ h => h
  rw [ends_bind]
  refine ends_mono (wp_safe (A := fun _ => False) (safe_collect jid _) h1 (fun _ h => h.elim)) (fun l w1 h1 => ?_) fun _ _ h => h
  rw [ends_bind]
  refine ends_mono (Q := fun _ _ => True) (ends_forEach (fun _ _ _ => True) trivial (fun _ d _ w _ _ => ?_) fun _ _ => trivial) (fun _ w2 _ => ?_) fun _ _ h => h
  · unfold deleteDevice
    rw [ends_bind]
    refine ends_mono (hdel _ _) (fun _ w _ => ?_) fun _ _ h => h
    rw [ends_bind]
    refine ends_mono (hdel _ _) (fun _ w _ => ?_) fun _ _ h => h
    rw [ends_bind]
    exact ends_mono (hdel _ _) (fun _ w _ => hdel _ _) fun _ _ h => h
  rw [ends_bind]
  refine ends_mono (hdel _ _) (fun _ w _ => ?_) fun _ _ h => h
  rw [ends_bind]
  refine ends_mono (Q := fun _ _ => True) (ends_forEach (fun _ _ _ => True) trivial (fun _ d _ w _ _ => hdel _ _) fun _ _ => trivial) (fun _ w2 _ => ?_) fun _ _ h => h
  rw [ends_bind]
  refine Lib.getBackends nofun ?_
  refine ends_forEach (fun _ _ _ => True) trivial (fun _ d _ w _ _ => ?_) fun _ _ => trivial
  exact Lib.ext rfl nofun (fun e he => by rintro _ ⟨⟩ (rfl | rfl | ⟨rfl, _⟩) <;> cases he) fun _ => trivial

/-- No call that can come next. -/
theorem miss_next {V : Prop} {s : Use} {c : Call} (hc : NextCall own x s M c)
    (happ : ∀ ds i, AppProg M (Shared.NoMiss ⟨own, fun _ _ => False, fun _ _ => none, V⟩) (M.decide ds i))
    (hv : (∀ bs l f, c = .create bs l f → (dedup bs).length = bs.length ∧ 25 ≤ M.threshold ∧ M.threshold ≤ 99) ∨ V) (hi : InUse own x s) (hu : OwnData.Usable own x s.world)
    (ht : Typed s.world.disk) (hh : ∀ j, Keep.Held j none s.world) : wp Lib (c.run M) (ends (fun _ _ => True) fun e _ => ∀ e', e = some e' → ¬ Miss V e') s.world := by
  have hw := wellFormed ht hu hh
  have hJ := Shared.inv_of_wellFormed hw (fun _ _ => False) (fun _ _ => none) nofun nofun V
  have hfresh : Pin.Fresh ⟨own, fun _ _ => False, fun _ _ => none, V⟩ := ⟨nofun, fun _ => rfl⟩
  have fin : ∀ {p : P Unit}, Shared.Safe ⟨own, fun _ _ => False, fun _ _ => none, V⟩ (Shared.Start own s.world) p →
      wp Lib p (ends (fun _ _ => True) fun e _ => ∀ e', e = some e' → ¬ Miss V e') s.world := fun hs =>
    ends_mono (wp_safe hs hJ Shared.start_true) (fun _ _ _ => trivial) fun _ _ h => h
  cases hc with
  | ikp => exact fin (Shared.Safe.bind Shared.safe_ikp fun _ => .ret)
  | create bs label fuel hj hx => exact fin (Shared.Safe.bind (Shared.safe_create hj (.inr hfresh) bs label fuel (hv.imp_left fun h => h _ _ _ rfl)) fun _ => .ret)
  | call _ hM hc =>
    by_cases hp : ∃ j, c = .purgeBareJid j
    · obtain ⟨j, rfl⟩ := hp
      exact miss_purge j _ hw
    rcases hi with ⟨_, h2⟩ | ⟨dev, h1, h2⟩
    · rw [h2] at hM; cases hM
    obtain ⟨hj, hx, hd⟩ := h2 M hM
    have hlab : ∃ l, Labelled s.world.disk own M.ownDev l := by
      rw [hd]
      exact (hw.own dev h1).2.2
    exact fin (Shared.safe_of_app hj hlab happ c (fun j h => hp ⟨j, h⟩) rfl (.inr (.inl hfresh)) (.inl hc))

/-- `KeyError`. -/
theorem key_next {s : Use} {c : Call} (hc : NextCall own x s M c) (h : Polite M) (hi : InUse own x s) (hu : OwnData.Usable own x s.world)
    (hh : ∀ j, Keep.Held j none s.world) : wp Lib (c.run M) (fun r w' => r = .raised .keyError → PlaintextMissing w' c) s.world := by
  cases hc with
  | ikp =>
    refine wp_mono (NoKey.of (I := fun _ => True) (fun _ _ => wp_iff.2 fun _ _ _ _ _ => trivial)
      (.bind (raises_identityKeyPair NoKey.core fun _ _ h => h) fun _ => .pure _) _ trivial) fun r w' h h' => absurd h' h.2
  | create bs label fuel hj hx =>
    refine wp_mono (Q := ends (fun _ _ => True) (fun e _ => e ≠ some .keyError)) ?_ fun r w' h h' => ?_
    · show wp Lib (_ >>= _) _ _
      rw [ends_bind]
      exact ends_mono (key_create hj hx bs label fuel _ hu hh) (fun _ _ _ => trivial) fun _ _ h => h
    · subst h'; exact absurd rfl h
  | call _ hM hc =>
    rcases hi with ⟨_, h2⟩ | ⟨dev, h1, h2⟩
    · rw [h2] at hM; cases hM
    obtain ⟨hj, hx, hd⟩ := h2 M hM
    rcases hu with hs | ⟨kp, dev', hs⟩
    · cases hs.id.symm.trans h1
    · cases hs.1.id.symm.trans h1
      exact key_call hj hd h hc _ ⟨hs, hh⟩

end Intact

/-! ### C24 -/

/-- Calls in the life of an account, one after the other.  The list contains the JIDs of which a purge was begun and not completed yet. -/
inductive Spec.Course (own : Jid) (x : XEdDSA) (s0 : Use) : Use → List Jid → Prop where
  | start : Course own x s0 s0 []
  | step {s s' : Use} {o : List Jid} (c : Mgr × Call) : Course own x s0 s o → ViaApi c.1 → (∀ j, c.2 ≠ .purgeBareJid j) → Step own x s c s' →
      Course own x s0 s' o
  | cut {s : Use} {o : List Jid} (M : Mgr) (j : Jid) {t : List Ev} {r : Res Exn Unit} {w' : World} : Course own x s0 s o → ViaApi M → M ∈ s.mgrs → j ≠ own →
      Exec (SM.purgeBareJid M j) t r → Lib.Runs s.world t w' → Course own x s0 ⟨w', s.mgrs⟩ (j :: o)
  | purged {s : Use} {o : List Jid} (M : Mgr) (j : Jid) {t : List Ev} {w' : World} : Course own x s0 s o → ViaApi M → M ∈ s.mgrs → j ≠ own →
      Exec (SM.purgeBareJid M j) t (.ok ()) → Lib.Runs s.world t w' → Course own x s0 ⟨w', s.mgrs⟩ (o.filter (· ≠ j))

namespace Intact
variable {own : Jid} {x : XEdDSA}

theorem gone_held {w : World} {j : Jid} (h : w.disk (.devList j) = none) : Keep.Held j none w := by
  refine ⟨⟨fun v hv => ?_, ?_⟩, nofun⟩
  · cases h.symm.trans hv
  · rintro d ⟨l, hl, _⟩; cases h.symm.trans hl

theorem course_inv {s0 s : Use} {o : List Jid} (hnew : New s0) (ht : Typed s0.world.disk) (h : Course own x s0 s o) :
    InUse own x s ∧ OwnData.Usable own x s.world ∧ Typed s.world.disk ∧ ∀ j, j ∉ o → Keep.Held j none s.world := by
  have hpurge : ∀ {s : Use} (M : Mgr) (j : Jid) {t : List Ev} {r : Res Exn Unit} {w' : World} {o : List Jid}, ViaApi M → M ∈ s.mgrs → j ≠ own →
      Exec (SM.purgeBareJid M j) t r → Lib.Runs s.world t w' →
      (InUse own x s ∧ OwnData.Usable own x s.world ∧ Typed s.world.disk ∧ ∀ j, j ∉ o → Keep.Held j none s.world) →
      InUse own x ⟨w', s.mgrs⟩ ∧ OwnData.Usable own x w' ∧ Typed w'.disk ∧ ∀ j', j' ∉ o → j' ≠ j → Keep.Held j' none w' := by
    rintro s M j t r w' o ha hM hj he hr ⟨h1, h2, h3, h4⟩
    have hst : Step own x s (M, .purgeBareJid j) ⟨w', s.mgrs⟩ := .call M _ hM nofun he hr
    exact ⟨inUse_step hst ha h1, OwnData.usable_step hst ha (fun h => hj (by cases h; rfl)) h1 h2, (typed_call ha (.purgeBareJid j)).run he hr h3,
      fun j' hj' hn => (Keep.held_purge fun h => hn h.symm).run he hr (h4 j' hj')⟩
  induction h with
  | start =>
    refine ⟨inUse_new hnew, OwnData.usable_new hnew, ht, fun j _ => gone_held ?_⟩
    cases h : s0.world.disk (.devList j) with
    | none => rfl
    | some v => rcases hnew.disk _ _ h with h | h <;> cases h
  | @step s s' o c _ happ hp hst ih =>
    obtain ⟨h1, h2, h3, h4⟩ := ih
    refine ⟨inUse_step hst happ h1, OwnData.usable_step hst happ (hp _) h1 h2, ?_, fun j hj => ?_⟩
    · cases hst with
      | ikp M he hr => exact (typed_call happ _).run he hr h3
      | @create w' t r M bs label fuel _ _ he hr =>
        have h : ∃ r', Exec ((Call.create bs label fuel).run M) t r' := by
          cases r with
          | ok d => exact ⟨_, exec_bind_iff.2 (.inl ⟨t, d, [], by simp, he, .ret ()⟩)⟩
          | raised e => exact ⟨_, exec_bind_iff.2 (.inr (.inl ⟨e, he, rfl⟩))⟩
          | crashed => exact ⟨_, exec_bind_iff.2 (.inr (.inr ⟨he, rfl⟩))⟩
        obtain ⟨r', h⟩ := h
        exact (typed_call happ _).run h hr h3
      | call M c _ _ he hr => exact (typed_call happ _).run he hr h3
    · cases hst with
      | ikp M he hr => exact (Keep.held_call (c := .getIdentityKeyPair) nofun nofun happ).run he hr (h4 j hj)
      | create M bs label fuel _ _ he hr => exact (Keep.complete_create bs label fuel).run he hr (h4 j hj)
      | call M c _ hc he hr => exact (Keep.held_call hc (hp _) happ).run he hr (h4 j hj)
  | @cut s o M j t r w' _ ha hM hj he hr ih =>
    obtain ⟨h1, h2, h3, h4⟩ := hpurge M j ha hM hj he hr ih
    exact ⟨h1, h2, h3, fun j' hj' => h4 j' (fun h => hj' (.tail _ h)) fun h => hj' (h ▸ .head _)⟩
  | @purged s o M j t w' _ ha hM hj he hr ih =>
    obtain ⟨h1, h2, h3, h4⟩ := hpurge M j ha hM hj he hr ih
    refine ⟨h1, h2, h3, fun j' hj' => ?_⟩
    by_cases h : j' = j
    · subst h
      exact gone_held ((wp_sound (SM.purge_jid s.world) he hr).1 _ (.inl rfl))
    · exact h4 j' (fun h' => hj' (by simp [h', h])) h

end Intact

/-- C24, as stated: in every state, no call fails because of the stored data.  A plaintext missing in the call is the caller's fault. -/
def C24_Claim : Prop :=
  ∀ (own : Jid) (x : XEdDSA) (s0 s : Use) (cs : List (Mgr × Call)) (M : Mgr) (c : Call) (t : List Ev) (e : Exn) (w' : World),
    New s0 → Typed s0.world.disk → Life own x s0 cs s → (∀ c ∈ cs, ViaApi c.1) → NextCall own x s M c → Polite M →
    Exec (c.run M) t (.raised e) → Lib.Runs s.world t w' → Blames e → e = .keyError ∧ PlaintextMissing w' c

theorem polite_ex : Polite Mgr.ex := fun _ _ _ _ => .ret ()

/-- The process died during the purge of "a", right after the first deletion. -/
def Use.cutPurge : Use := Friendly.genuine.useCut 3 Mgr.ex (.purgeBareJid "a") Use.met

/-- C24 is false of the code: `purge_bare_jid` (sm:602-608) deletes the data of devices before it deletes the device list that refers to them.  If
it does not get to the end, `get_device_information` fails from then on with `NothingException`. -/
theorem C24_refuted : ¬ C24_Claim := by
  intro h
  have hM : Mgr.ex ∈ Use.met.mgrs := by simp [Use.met, Friendly.use, Use.started]
  have hl := Friendly.genuine.lifeCut 3 met_life (M := Mgr.ex) (c := .purgeBareJid "a") hM nofun
  have hr : (Friendly.genuine.run ((Call.getDeviceInformation "a").run Mgr.ex) Use.cutPurge.world).2.1 = .raised .nothingException := by decide +kernel
  obtain ⟨h1, -⟩ := h "me" Mgr.ex.x Use.fresh Use.cutPurge _ Mgr.ex (.getDeviceInformation "a") _ .nothingException _ fresh_new nofun hl
    (by simp [viaApi_ex]) (.call Mgr.ex _ hM nofun) polite_ex (hr ▸ Friendly.genuine.exec _ _) (Friendly.genuine.runs _ _) (.inl rfl)
  cases h1

/-- C24, if every purge of another JID that was begun was completed later, and the own JID was never purged.  Everything else may end anywhere,
any number of times.  Missing: calls after an uncompleted `purge_bare_jid` (see `C24_refuted`), or after purging the own JID. -/
theorem C24_partial (own : Jid) (x : XEdDSA) (s0 s : Use) (M : Mgr) (c : Call) (t : List Ev) (e : Exn) (w' : World)
    (hnew : New s0) (ht : Typed s0.world.disk) (h : Course own x s0 s []) (hc : NextCall own x s M c) (hM : Polite M)
    (he : Exec (c.run M) t (.raised e)) (hr : Lib.Runs s.world t w') (hb : Blames e) : e = .keyError ∧ PlaintextMissing w' c := by
  obtain ⟨h1, h2, h3, h4⟩ := Intact.course_inv hnew ht h
  have h4' := fun j => h4 j nofun
  have hm := wp_sound (Intact.miss_next (V := True) hc (hM _ fun e he => ⟨fun h => he (.inl h), fun h => he (.inr (.inl h)), fun _ => trivial⟩) (.inr trivial)
    h1 h2 h3 h4') he hr e rfl
  rcases hb with h | h | h
  · exact absurd (.inl h) hm
  · exact absurd (.inr (.inl h)) hm
  · subst h
    exact ⟨rfl, wp_sound (Intact.key_next hc hM h1 h2 h4') he hr rfl⟩

/-- C24, for `ValueError`: under the same conditions, if trust decisions do not raise it themselves, only `create` raises it, and only for an
invalid configuration; so stored keys can always be decoded. -/
theorem C24_values_partial (own : Jid) (x : XEdDSA) (s0 s : Use) (M : Mgr) (c : Call) (t : List Ev) (w' : World)
    (hnew : New s0) (ht : Typed s0.world.disk) (h : Course own x s0 s []) (hc : NextCall own x s M c) (hM : Careful M)
    (he : Exec (c.run M) t (.raised .valueError)) (hr : Lib.Runs s.world t w') : ∃ bs l f, c = .create bs l f ∧ ¬ ValidConfig bs M.threshold := by
  obtain ⟨h1, h2, h3, h4⟩ := Intact.course_inv hnew ht h
  apply Classical.byContradiction
  intro hn
  refine wp_sound (Intact.miss_next (V := False) hc (hM _ fun e he hv => ⟨fun h => he (.inl h), fun h => he (.inr (.inl h)), fun h => hv h⟩) (.inl ?_)
    h1 h2 h3 (fun j => h4 j nofun)) he hr _ rfl (.inr (.inr ⟨rfl, id⟩))
  rintro bs l f rfl
  have hvc : ValidConfig bs M.threshold := Classical.byContradiction fun h => hn ⟨bs, l, f, rfl, h⟩
  exact ⟨dedup_length.2 hvc.once, hvc.low, hvc.high⟩

/-- A purge of "a" died, was repeated successfully; then "a" was met again. -/
def Use.remet : Use := Friendly.genuine.use Mgr.ex (.updateDeviceList "n" "a" [(7, some "x")])
  (Friendly.genuine.use Mgr.ex (.purgeBareJid "a") Use.cutPurge)

theorem remet_course : Course "me" Mgr.ex.x Use.fresh Use.remet [] := by
  have h : ∀ {s cs s' o}, Life "me" Mgr.ex.x s cs s' → (∀ c ∈ cs, c.1 = Mgr.ex ∧ ∀ j, c.2 ≠ .purgeBareJid j) → Course "me" Mgr.ex.x Use.fresh s o →
      Course "me" Mgr.ex.x Use.fresh s' o := by
    intro s cs s' o h hc h0
    induction h with
    | nil => exact h0
    | cons hst _ ih =>
      obtain ⟨h1, h2⟩ := hc _ (.head _)
      exact ih (fun c hc' => hc c (.tail _ hc')) (.step _ h0 (h1 ▸ viaApi_ex) h2 hst)
  have h1 := h met_life (by simp) .start
  have h2 : Course "me" Mgr.ex.x Use.fresh Use.cutPurge ["a"] :=
    .cut Mgr.ex "a" h1 viaApi_ex (by simp [Use.met, Friendly.use, Use.started]) (by decide) (Friendly.genuine.cut_exec 3 _ _) (Friendly.genuine.cut_runs 3 _ _)
  have hr : (Friendly.genuine.run ((Call.purgeBareJid "a").run Mgr.ex) Use.cutPurge.world).2.1 = .ok () := by decide +kernel
  have h3 : Course "me" Mgr.ex.x Use.fresh (Friendly.genuine.use Mgr.ex (.purgeBareJid "a") Use.cutPurge) [] :=
    .purged (o := ["a"]) Mgr.ex "a" h2 viaApi_ex (by simp [Use.cutPurge, Friendly.useCut, Use.met, Friendly.use, Use.started]) (by decide)
      (hr ▸ Friendly.genuine.exec _ _) (Friendly.genuine.runs _ _)
  exact .step (Mgr.ex, .updateDeviceList "n" "a" [(7, some "x")]) h3 viaApi_ex nofun
    (.call Mgr.ex _ (by simp [Use.cutPurge, Friendly.useCut, Use.met, Friendly.use, Use.started]) nofun (Friendly.genuine.exec _ _) (Friendly.genuine.runs _ _))

/-- All devices are trusted; sessions are found. -/
def trustful (w : World) (o : Op) : Except Exn o.Ret := match o with
  | .evalTrust _ => .ok .trusted
  | .encryptPlaintext _ p => .ok (⟨false, p.length⟩, ⟨1⟩)
  | o => genuine w o

theorem trustful_ok (w : World) (o : Op) (e : Exn) (h : trustful w o = .error e) : e.isInternal = false := by
  cases o <;> simp only [trustful] at h <;> first | exact genuine_ok w _ e h | (cases h; done)

def Friendly.trustful : Friendly := ⟨Verif.trustful, trustful_ok⟩

/-- The hypotheses of `C24_partial` are met by a history with an interrupted purge that was repeated.  Then a call works; if a plaintext is missing,
it fails with `KeyError`. -/
theorem C24_example : New Use.fresh ∧ Typed Use.fresh.world.disk ∧ Course "me" Mgr.ex.x Use.fresh Use.remet [] ∧
    (∃ t w', Exec ((Call.encrypt ["a"] [("n", [1]), ("o", [1])] none none).run Mgr.ex) t (.ok ()) ∧ Lib.Runs Use.remet.world t w') ∧
    ∃ t w', Exec ((Call.encrypt ["a"] [("o", [1])] none none).run Mgr.ex) t (.raised .keyError) ∧ Lib.Runs Use.remet.world t w' ∧
      PlaintextMissing w' (Call.encrypt ["a"] [("o", [1])] none none) := by
  have h1 : (Friendly.trustful.run ((Call.encrypt ["a"] [("n", [1]), ("o", [1])] none none).run Mgr.ex) Use.remet.world).2.1 = .ok () := by decide +kernel
  have h2 : (Friendly.trustful.run ((Call.encrypt ["a"] [("o", [1])] none none).run Mgr.ex) Use.remet.world).2.1 = .raised .keyError := by decide +kernel
  have hM : Mgr.ex ∈ Use.remet.mgrs := by simp [Use.remet, Use.cutPurge, Friendly.useCut, Use.met, Friendly.use, Use.started]
  have he := h2 ▸ Friendly.trustful.exec ((Call.encrypt ["a"] [("o", [1])] none none).run Mgr.ex) Use.remet.world
  exact ⟨fresh_new, nofun, remet_course, ⟨_, _, h1 ▸ Friendly.trustful.exec _ _, Friendly.trustful.runs _ _⟩, _, _, he, Friendly.trustful.runs _ _,
    (C24_partial "me" Mgr.ex.x Use.fresh Use.remet Mgr.ex (.encrypt ["a"] [("o", [1])] none none) _ _ _ fresh_new nofun remet_course (.call Mgr.ex _ hM nofun) polite_ex he
      (Friendly.trustful.runs _ _) (.inr (.inr rfl))).2⟩

end Verif
