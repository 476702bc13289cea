import Verif.Proofs.SampleLife
import Verif.Props.Keep
import Verif.Spec.Life
/-
Identity keys are pinned.
-/
namespace Verif
open Spec Foot

/-- What getting the identity key pair does to the storage. -/
structure GotIkp (w w' : World) : Prop where
  holds : ∀ kp, HoldsIkp w.disk kp → HoldsIkp w'.disk kp
  frame : ∀ k, k ≠ .ikpIsSeed → k ≠ .ikpKey → w'.disk k = w.disk k

theorem wp_ikp (w : World) : wp Lib IdentityKeyPair.get (ends (fun kp w' => HoldsIkp w'.disk kp ∧ GotIkp w w') (fun _ w' => GotIkp w w')) w := by
  refine wp_iff.2 fun t r w' he hr => ?_
  obtain ⟨_, h⟩ := wp_sound (wp_ikp_get w.disk []) he (w' := (w'.disk, t)) (Sem.runs_prod.2 ⟨Lib.runs_kv hr, Sem.runs_hist.2 (by simp)⟩)
  have hg : GotIkp w w' := by
    rcases h with ⟨h, _⟩ | ⟨hn, k, h, _⟩
    · simp only at h
      exact ⟨fun kp hk => h ▸ hk, fun _ _ _ => by rw [h]⟩
    · refine ⟨fun kp ⟨s, h1, h2⟩ => ?_, fun k' h1 h2 => ?_⟩
      · exfalso
        rcases hn with hn | hn
        · cases kp <;> simp [hn] at h2
        · rw [hn] at h1; cases h1
      · simp only [Writing] at h
        rcases h with h | h | h <;> simp [h, Disk.upd, h1, h2]
  cases r with
  | raised e => exact hg
  | crashed => exact hg
  | ok kp =>
    refine ⟨?_, hg⟩
    rcases h with ⟨h, h'⟩ | ⟨_, k, _, _, h⟩
    · simp only at h; rw [h]; exact h' kp rfl
    · obtain ⟨rfl, _, h4⟩ := h kp rfl
      simp only at h4; rw [h4]; exact holds_written _ k

theorem holds_keep {kp : IdentityKeyPair} {φ : Op → Prop} (h : ∀ k, k = Key.ikpIsSeed ∨ k = .ikpKey → (∀ v, ¬ φ (.store k v)) ∧ ¬ φ (.delete k)) :
    OpsKeep (fun w => HoldsIkp w.disk kp) φ := by
  intro o ho w r hok hw
  have h1 := place_keep (φ := φ) .ikpIsSeed (fun v => v = w.disk .ikpIsSeed) (h _ (.inl rfl)).1 (h _ (.inl rfl)).2 o ho w r hok rfl
  have h2 := place_keep (φ := φ) .ikpKey (fun v => v = w.disk .ikpKey) (h _ (.inr rfl)).1 (h _ (.inr rfl)).2 o ho w r hok rfl
  unfold HoldsIkp
  rw [h1, h2]
  exact hw

theorem writes_ikp {k : Key} (hk : k = .ikpIsSeed ∨ k = .ikpKey) : (∀ v, ¬ Writes (.store k v)) ∧ ¬ Writes (.delete k) := by
  refine ⟨fun v h => ?_, fun h => ?_⟩
  · rcases hk with rfl | rfl <;> (cases h with | other _ h _ => exact h _ _ rfl)
  · rcases hk with rfl | rfl <;> (cases h with | other _ _ h => exact h _ rfl)

theorem quiet_ikp {k : Key} (hk : k = .ikpIsSeed ∨ k = .ikpKey) : (∀ v, ¬ Quiet (.store k v)) ∧ ¬ Quiet (.delete k) := by
  constructor
  · intro v h
    rcases h with ⟨_, h⟩ | ⟨_, _, h⟩ <;> rcases hk with rfl | rfl <;> cases h
  · intro h
    rcases h with ⟨_, h⟩ | ⟨_, _, h⟩ <;> rcases hk with rfl | rfl <;> cases h

/-- The pair `kp` is stored. -/
def Holds (kp : IdentityKeyPair) (w : World) : Prop := HoldsIkp w.disk kp

theorem holds_quiet {kp : IdentityKeyPair} : OpsKeep (Holds kp) Quiet := holds_keep fun _ h => quiet_ikp h
theorem holds_writes {kp : IdentityKeyPair} : OpsKeep (Holds kp) Writes := holds_keep fun _ h => writes_ikp h
theorem holds_parts {kp : IdentityKeyPair} {M : Mgr} : Parts (Holds kp) M := .ofWrites holds_quiet holds_writes
theorem holds_own {kp : IdentityKeyPair} {M : Mgr} : OwnParts (Holds kp) M := .ofWrites holds_writes

theorem pres_ikp {I : World → Prop} (h : ∀ w w', I w → GotIkp w w' → I w') : Pres Lib I IdentityKeyPair.get := fun w hw =>
  wp_mono (wp_ikp w) fun r w' hr => by
    cases r with
    | ok kp => exact h w w' hw hr.2
    | raised e => exact h w w' hw hr
    | crashed => exact h w w' hw hr

namespace Pinned
variable {M : Mgr} {j : Jid} {d : DevId} {b : Bytes}

/-- The identity key of device `d` of `j` is stored as `b`. -/
def KeyAt (j : Jid) (d : DevId) (b : Bytes) (w : World) : Prop := HasKey w.disk j d b

theorem key_keep {φ : Op → Prop} (h1 : ∀ v, ¬ φ (.store (.devIdentityKey j d) v)) (h2 : ¬ φ (.delete (.devIdentityKey j d))) :
    OpsKeep (KeyAt j d b) φ := place_keep _ (fun v => v = some (.str (Base64.encode b))) h1 h2

theorem parts : Parts (KeyAt j d b) M where
  quiet := key_keep (by rintro v (⟨_, h⟩ | ⟨_, _, h⟩) <;> cases h) (by rintro (⟨_, h⟩ | ⟨_, _, h⟩) <;> cases h)
  info jid := by
    by_cases hj : jid = j
    · subst hj
      exact fun w hw => wp_mono (SM.looked_info' jid w) fun _ w' h => h.disk.pinned d _ hw
    · refine (key_keep (φ := Info jid) ?_ nofun).pres (SM.ops_getDeviceInformation' M jid)
      intro v h; cases h; exact hj rfl
  update ns jid dl := (key_keep (φ := Update M ns jid) (fun v h => by cases h) nofun).pres (SM.ops_updateDeviceList M ns jid dl)

theorem ownParts : OwnParts (KeyAt j d b) M :=
  ⟨fun a => (key_keep (φ := fun o => o = .store (.devActive M.ownJid M.ownDev) (.ofBools a)) nofun nofun).pres (.perform rfl),
   fun l => (key_keep (φ := fun o => o = .store (.devNamespaces M.ownJid M.ownDev) (.ofStrs l)) nofun nofun).pres (.perform rfl)⟩

theorem ikp : Pres Lib (KeyAt j d b) IdentityKeyPair.get :=
  pres_ikp fun _ _ hw h => (h.frame (.devIdentityKey j d) nofun nofun).trans hw

theorem extra {c : Call} (hc : ∀ bs l f, c ≠ .create bs l f) (hp : c ≠ .purgeBareJid j)
    (hd : c.inDecision = false → ∀ ds i, Pres Lib (KeyAt j d b) (M.decide ds i)) : Parts.Extra (KeyAt j d b) M c := by
  cases c with
  | getIdentityKeyPair => exact ikp
  | create bs l f => exact (hc _ _ _ rfl).elim
  | purgeBackend ns => exact ownParts
  | purgeBareJid jid =>
    refine (key_keep (φ := PurgeJid jid) nofun ?_).pres (SM.ops_purgeBareJid M jid)
    intro h; cases h; exact hp rfl
  | setTrust j' ik l => exact (key_keep (φ := fun o => o = .store (.trust j' ik) (.str l)) nofun nofun).pres (.perform rfl)
  | setOwnLabel l => exact (key_keep (φ := fun o => o = .store (.devLabel M.ownJid M.ownDev) (.ofOptStr l)) nofun nofun).pres (.perform rfl)
  | encrypt => exact hd rfl
  | _ => trivial

theorem call {c : Call} (hc : ∀ bs l f, c ≠ .create bs l f) (hp : c ≠ .purgeBareJid j) (happ : ViaApi M) :
    Pres Lib (KeyAt j d b) (c.run M) := by
  refine parts.call c (extra hc hp fun _ ds i => parts.app (fun c h => ?_) (fun _ => trivial) (happ ds i))
  refine extra ?_ ?_ fun h' => ?_
  · rintro bs l f rfl; cases h
  · rintro rfl; cases h
  · rw [h] at h'; cases h'

theorem create_again (bs : List Ns) (label : Option String) (fuel : Nat) :
    Pres Lib (fun w => KeyAt j d b w ∧ IdSet w) (SM.create M bs label fuel) :=
  Parts.create_again (fun _ => parts.and (.ofWrites idSet_quiet idSet_writes)) (fun _ => ownParts.and (.ofWrites idSet_writes))
    (ikp.and idSet_ikp) (fun _ h => h.2) bs label fuel

theorem storeOwnDevice (label : Option String) (ik : Bytes) (bs : List Ns) (h : j = M.ownJid → b = ik) :
    Pres Lib (KeyAt j d b) (SM.storeOwnDevice M label ik bs) := by
  refine Pres.ofOps (SM.ops_storeOwnDevice M label ik bs) fun o ho w r hok hw => ?_
  by_cases he : o = .store (.devIdentityKey j d) (.str (Base64.encode ik))
  · subst he
    cases r with
    | error e => exact hw
    | ok a =>
      cases ho
      rw [h rfl]
      exact Disk.upd_self
  · refine key_keep (φ := fun o' => o' = o) ?_ ?_ o rfl w r hok hw
    · rintro v rfl
      cases ho
      exact he rfl
    · rintro rfl
      cases ho

/-- `create`, for a key of another JID, or one that is that of the identity key pair. -/
theorem create {kp : IdentityKeyPair} (h : j = M.ownJid → b = kp.identityKey M.x) (bs : List Ns) (label : Option String) (fuel : Nat) :
    Pres Lib (fun w => KeyAt j d b w ∧ Holds kp w) (SM.create M bs label fuel) := by
  rw [SM.create_eq]
  split
  · exact Pres.raise _
  split
  · exact Pres.raise _
  refine Pres.bind (((parts (M := M)).and holds_parts).op trivial) fun _ => fun w hw => ?_
  rw [wp_bind]
  refine wp_mono (wp_ikp w) fun r w' hr => ?_
  have hp : ∀ {w'}, GotIkp w w' → KeyAt j d b w' ∧ Holds kp w' := fun hg => ⟨(hg.frame (.devIdentityKey j d) nofun nofun).trans hw.1, hg.holds kp hw.2⟩
  cases r with
  | raised e => exact hp hr
  | crashed => exact hp hr
  | ok kp' =>
    obtain rfl := holds_inj hr.1 (hp hr.2).2
    refine Parts.createRest (I := fun w => KeyAt j d b w ∧ Holds kp' w) (fun _ => parts.and holds_parts) (fun _ => ownParts.and holds_own) label kp' fuel
      (fun d' bs => (storeOwnDevice (M := { M with ownDev := d' }) label _ bs h).and (holds_writes.pres ((SM.ops_storeOwnDevice _ _ _ _).mono fun _ h => storeOwn_writes h))) _ (hp hr.2)

theorem create_other (h : j ≠ M.ownJid) (bs : List Ns) (label : Option String) (fuel : Nat) :
    Pres Lib (KeyAt j d b) (SM.create M bs label fuel) :=
  Parts.create (fun _ => parts) (fun _ => ownParts) ikp bs label fuel
    (fun d' ik bs => storeOwnDevice (M := { M with ownDev := d' }) label ik bs fun hj => (h hj).elim)

end Pinned

/-! ### Lives of accounts -/

/-- The own device id is stored as `v`. -/
def IdIs (v : Option JVal) (w : World) : Prop := w.disk .ownDeviceId = v

section ids
variable {M : Mgr} {v : Option JVal}

theorem idIs_keep {φ : Op → Prop} (h1 : ∀ v, ¬ φ (.store .ownDeviceId v)) (h2 : ¬ φ (.delete .ownDeviceId)) : OpsKeep (IdIs v) φ :=
  place_keep _ (fun x => x = v) h1 h2

theorem idIs_quiet : OpsKeep (IdIs v) Quiet :=
  idIs_keep (by rintro v (⟨_, h⟩ | ⟨_, _, h⟩) <;> cases h) (by rintro (⟨_, h⟩ | ⟨_, _, h⟩) <;> cases h)

theorem idIs_parts : Parts (IdIs v) M where
  quiet := idIs_quiet
  info jid := (idIs_keep (φ := Info jid) nofun nofun).pres (SM.ops_getDeviceInformation' M jid)
  update ns jid dl := (idIs_keep (φ := Update M ns jid) nofun nofun).pres (SM.ops_updateDeviceList M ns jid dl)

theorem idIs_own : OwnParts (IdIs v) M :=
  ⟨fun a => (idIs_keep (φ := fun o => o = .store (.devActive M.ownJid M.ownDev) (.ofBools a)) nofun nofun).pres (.perform rfl),
   fun l => (idIs_keep (φ := fun o => o = .store (.devNamespaces M.ownJid M.ownDev) (.ofStrs l)) nofun nofun).pres (.perform rfl)⟩

theorem idIs_ikp : Pres Lib (IdIs v) IdentityKeyPair.get := pres_ikp fun _ _ hw h => (h.frame .ownDeviceId nofun nofun).trans hw

theorem idIs_extra {c : Call} (hc : ∀ bs l f, c ≠ .create bs l f) (hd : c.inDecision = false → ∀ ds i, Pres Lib (IdIs v) (M.decide ds i)) :
    Parts.Extra (IdIs v) M c := by
  cases c with
  | getIdentityKeyPair => exact idIs_ikp
  | create bs l f => exact (hc _ _ _ rfl).elim
  | purgeBackend ns => exact idIs_own
  | purgeBareJid jid => exact (idIs_keep (φ := PurgeJid jid) nofun nofun).pres (SM.ops_purgeBareJid M jid)
  | setTrust j' ik l => exact (idIs_keep (φ := fun o => o = .store (.trust j' ik) (.str l)) nofun nofun).pres (.perform rfl)
  | setOwnLabel l => exact (idIs_keep (φ := fun o => o = .store (.devLabel M.ownJid M.ownDev) (.ofOptStr l)) nofun nofun).pres (.perform rfl)
  | encrypt => exact hd rfl
  | _ => trivial

theorem idIs_call {c : Call} (hc : ∀ bs l f, c ≠ .create bs l f) (happ : ViaApi M) : Pres Lib (IdIs v) (c.run M) := by
  refine idIs_parts.call c (idIs_extra hc fun _ ds i => idIs_parts.app (fun c h => ?_) (fun _ => trivial) (happ ds i))
  refine idIs_extra ?_ fun h' => ?_
  · rintro bs l f rfl; cases h
  · rw [h] at h'; cases h'

/-- The own device id, once stored, is what `create` returns. -/
theorem idIs_create {dev : DevId} (bs : List Ns) (label : Option String) (fuel : Nat) (w : World) (hw : IdIs (some (.int dev)) w) :
    wp Lib (SM.create M bs label fuel) (ends (fun d w' => d = dev ∧ IdIs (some (.int dev)) w') (fun _ => IdIs (some (.int dev)))) w := by
  rw [SM.create_eq]
  split
  · exact hw
  split
  · exact hw
  rw [ends_bind]
  refine Lib.setBackends hw ?_
  rw [ends_bind]
  have hw : IdIs (some (.int dev)) { w with backends := bs } := hw
  refine ends_mono (wp_ikp _) (fun kp w' h => ?_) fun _ w' h => (h.frame .ownDeviceId nofun nofun).trans hw
  have hw' : IdIs (some (.int dev)) w' := (h.2.frame .ownDeviceId nofun nofun).trans hw
  have hp : ∀ d, Parts (fun w => d = dev ∧ IdIs (some (.int dev)) w) { M with ownDev := d } := by
    intro d
    have hp := idIs_parts (M := { M with ownDev := d }) (v := some (.int dev))
    exact ⟨fun o ho w r hok h => ⟨h.1, hp.quiet o ho w r hok h.2⟩, fun jid w h => wp_mono (hp.info jid w h.2) fun _ _ h' => ⟨h.1, h'⟩,
      fun ns jid dl w h => wp_mono (hp.update ns jid dl w h.2) fun _ _ h' => ⟨h.1, h'⟩⟩
  refine ends_mono (wp_createRest (I := IdIs (some (.int dev))) (I0 := fun _ => False) (J := fun d w => d = dev ∧ IdIs (some (.int dev)) w)
    (X := IdIs (some (.int dev))) idIs_quiet (fun _ _ _ _ _ h => h) hp (fun d => (hp d).handleChangedBackends ?_) label kp fuel (fun _ _ _ h => h.elim)
    (fun _ h => h) (fun _ h => h.elim) (fun _ _ h => h.2) (fun w h hn => ?_) (fun w v d h hv hc => ?_) _ hw') (fun _ _ h => h) fun _ _ h => h
  · have hp := idIs_own (M := { M with ownDev := d }) (v := some (.int dev))
    exact ⟨fun a w h => wp_mono (hp.active a w h.2) fun _ _ h' => ⟨h.1, h'⟩, fun l w h => wp_mono (hp.namespaces l w h.2) fun _ _ h' => ⟨h.1, h'⟩⟩
  · rw [show w.disk .ownDeviceId = _ from h] at hn; cases hn
  · rw [show w.disk .ownDeviceId = _ from h] at hv
    cases hv
    rw [chkInt_of] at hc
    cases hc
    exact ⟨rfl, h⟩

end ids

/-! ### The first run -/

/-- Before the own device id is stored: nothing is known about other JIDs, and the identity keys of own devices are that of the stored pair. -/
structure EarlyD (own : Jid) (x : XEdDSA) (kp : IdentityKeyPair) (m : Disk) : Prop where
  id : m .ownDeviceId = none
  ikp : HoldsIkp m kp
  keys : ∀ d b, HasKey m own d b → b = kp.identityKey x
  foreign : ∀ j, j ≠ own → m (.devList j) = none

def EarlyK (own : Jid) (x : XEdDSA) (kp : IdentityKeyPair) (w : World) : Prop := EarlyD own x kp w.disk

/-- After it: the data is tidy, the own device is listed, with its data and the identity key of the stored pair. -/
def SoundK (own : Jid) (x : XEdDSA) (kp : IdentityKeyPair) (dev : DevId) (w : World) : Prop :=
  TidyW own dev w ∧ Pinned.KeyAt own dev (kp.identityKey x) w ∧ Holds kp w ∧ Keep.Held own (some dev) w

section first
variable {M : Mgr} {own : Jid} {x : XEdDSA} {kp : IdentityKeyPair}

theorem early_quiet : OpsKeep (EarlyK own x kp) Quiet := by
  refine quiet_keep (K := fun k => (∀ ns, k ≠ .queue ns) ∧ ∀ ns j, k ≠ .queueJid ns j) (fun _ h => h) fun w w' h hw => ?_
  refine ⟨(h .ownDeviceId ⟨nofun, nofun⟩).trans hw.id, ?_, fun d b hb => hw.keys d b ?_,
    fun j hj => (h (.devList j) ⟨nofun, nofun⟩).trans (hw.foreign j hj)⟩
  · have := hw.ikp
    unfold HoldsIkp at this ⊢
    rw [h .ikpKey ⟨nofun, nofun⟩, h .ikpIsSeed ⟨nofun, nofun⟩]
    exact this
  · exact (h (.devIdentityKey own d) ⟨nofun, nofun⟩).symm.trans hb

theorem early_upd {m : Disk} {k : Key} {v : JVal} (h : EarlyD own x kp m) (h1 : k ≠ .ownDeviceId) (h2 : k ≠ .ikpIsSeed) (h3 : k ≠ .ikpKey)
    (h4 : ∀ d, k = .devIdentityKey own d → v = .str (Base64.encode (kp.identityKey x))) (h5 : ∀ j, j ≠ own → k ≠ .devList j) :
    EarlyD own x kp (m.upd k (some v)) := by
  refine ⟨(Disk.upd_of_ne h1.symm).trans h.id, ?_, fun d b hb => ?_, fun j hj => (Disk.upd_of_ne (h5 j hj).symm).trans (h.foreign j hj)⟩
  · have := h.ikp
    unfold HoldsIkp at this ⊢
    rw [Disk.upd_of_ne h2.symm, Disk.upd_of_ne h3.symm]
    exact this
  · by_cases hk : Key.devIdentityKey own d = k
    · subst hk
      rw [h4 d rfl] at hb
      unfold HasKey at hb
      rw [Disk.upd_self] at hb
      have := congrArg Base64.decode (JVal.str.inj (Option.some.inj hb))
      simpa [Base64.decode_encode] using this.symm
    · exact h.keys d b ((Disk.upd_of_ne hk).symm.trans hb)

/-- Storing the own device. -/
theorem wp_storeOwnDevice (hj : M.ownJid = own) (label : Option String) (bs : List Ns) (w : World)
    (hw : EarlyK own x kp w) : wp Lib (SM.storeOwnDevice M label (kp.identityKey x) bs)
      (ends (fun _ => SoundK own x kp M.ownDev) (fun _ w' => EarlyK own x kp w')) w := by
  subst hj
  unfold SM.storeOwnDevice
  rw [ends_bind]
  refine Lib.store (fun _ _ => hw) ?_
  have h1 := early_upd (k := .devNamespaces M.ownJid M.ownDev) (v := .ofStrs bs) hw nofun nofun nofun nofun nofun
  rw [ends_bind]
  refine Lib.store (fun _ _ => h1) ?_
  have h2 := early_upd (k := .devActive M.ownJid M.ownDev) (v := .ofBools (bs.map fun ns => (ns, true))) h1 nofun nofun nofun nofun nofun
  rw [ends_bind]
  refine Lib.store (fun _ _ => h2) ?_
  have h3 := early_upd (k := .devLabel M.ownJid M.ownDev) (v := .ofOptStr label) h2 nofun nofun nofun nofun nofun
  rw [ends_bind]
  refine Lib.storeBytes (fun _ _ => h3) ?_
  have h4 := early_upd (k := .devIdentityKey M.ownJid M.ownDev) (v := .str (Base64.encode (kp.identityKey x))) h3 nofun nofun nofun (fun _ _ => rfl) nofun
  rw [ends_bind]
  refine Lib.store (fun _ _ => h4) ?_
  have h5 := early_upd (k := .devList M.ownJid) (v := .ofInts [M.ownDev]) h4 nofun nofun nofun nofun (fun j hj h => hj (by cases h; rfl))
  rw [ends_bind]
  refine Lib.store (fun _ _ => h5) ?_
  have h6 := early_upd (k := .trust M.ownJid (kp.identityKey x)) (v := .str M.undecided) h5 nofun nofun nofun nofun nofun
  refine Lib.store (fun _ _ => h6) ?_
  clear h1 h2 h3 h4 h5
  generalize hm : Disk.upd _ Key.ownDeviceId _ = m
  have hlist : m (.devList M.ownJid) = some (.ofInts [M.ownDev]) := by subst hm; simp [Disk.upd]
  have hfor : ∀ j, j ≠ M.ownJid → m (.devList j) = none := by
    intro j hj; subst hm; rw [Disk.upd_of_ne (by nofun)]; exact h6.foreign j hj
  have hact : m (.devActive M.ownJid M.ownDev) = some (.ofBools (bs.map fun ns => (ns, true))) := by subst hm; simp [Disk.upd]
  have hkn : ∀ j d, Known m j d → j = M.ownJid ∧ d = M.ownDev := by
    rintro j d ⟨l, h1, h2⟩
    by_cases hj : j = M.ownJid
    · subst hj
      rw [hlist] at h1
      cases ofInts_inj (Option.some.inj h1)
      exact ⟨rfl, by simpa using h2⟩
    · rw [hfor j hj] at h1; cases h1
  have hkey : m (.devIdentityKey M.ownJid M.ownDev) = some (.str (Base64.encode (kp.identityKey x))) := by subst hm; simp [Disk.upd]
  have hns : m (.devNamespaces M.ownJid M.ownDev) = some (.ofStrs bs) := by subst hm; simp [Disk.upd]
  have hlab : m (.devLabel M.ownJid M.ownDev) = some (.ofOptStr label) := by subst hm; simp [Disk.upd]
  have hik : HoldsIkp m kp := by
    have := h6.ikp
    subst hm
    unfold HoldsIkp at *
    rw [Disk.upd_of_ne (by nofun), Disk.upd_of_ne (by nofun)]
    exact this
  have key : ∀ w' : World, w'.disk = m → SoundK M.ownJid x kp M.ownDev w' := by
    rintro ⟨m', b, s, l⟩ rfl
    refine ⟨⟨?_, fun j v hv => ?_, fun j d hk hn => (hn (hkn j d hk)).elim, fun ns b hb => ?_⟩, hkey, hik, ⟨⟨fun v hv => ?_, fun d hd => ?_⟩, fun d hd => ?_⟩⟩
    · rw [← hm]; simp
    · by_cases hj : j = M.ownJid
      · subst hj; exact ⟨_, (Option.some.inj (hlist.symm.trans hv)).symm⟩
      · cases (hfor j hj).symm.trans hv
    · obtain ⟨dct, h1, h2⟩ := hb
      cases ofBools_inj (Option.some.inj (hact.symm.trans h1))
      have := Dict.mem_of_get h2
      simp only [List.mem_map, Prod.mk.injEq] at this
      obtain ⟨_, _, _, h⟩ := this
      exact h.symm
    · exact ⟨_, (Option.some.inj (hlist.symm.trans hv)).symm⟩
    · obtain ⟨_, rfl⟩ := hkn _ _ hd
      exact ⟨⟨bs, hns⟩, ⟨_, hact⟩, ⟨label, hlab⟩⟩
    · cases hd
      exact ⟨_, hlist, by simp⟩
  exact key _ rfl

theorem sound_parts (hj : M.ownJid = own) (d : DevId) : Parts (SoundK own x kp d) { M with ownDev := d } := by
  have h1 : Parts (TidyW own d) { M with ownDev := d } :=
    ⟨fun o ho w r _ hw => (Aside.disk (show Aside o by cases o <;> first | trivial | (rcases ho with ⟨_, rfl⟩ | ⟨_, _, rfl⟩ <;> exact ⟨nofun, nofun, nofun, nofun⟩))).tidy hw,
      fun jid => (tidy_getDeviceInformation' jid).pres, fun ns jid dl => tidy_updateDeviceList (M := { M with ownDev := d }) hj rfl ns jid dl⟩
  exact h1.and (Pinned.parts.and (holds_parts.and Keep.parts))

theorem sound_handle (hj : M.ownJid = own) (d : DevId) : Pres Lib (SoundK own x kp d) (SM.handleChangedBackends { M with ownDev := d }) :=
  (tidy_handleChangedBackends (M := { M with ownDev := d }) hj rfl).and
    ((Pinned.parts.handleChangedBackends Pinned.ownParts).and ((holds_parts.handleChangedBackends holds_own).and (Keep.parts.handleChangedBackends Keep.ownParts)))

/-- Before the own device id is stored. -/
structure Early (own : Jid) (x : XEdDSA) (m : Disk) : Prop where
  id : m .ownDeviceId = none
  keys : ∀ d b, HasKey m own d b → ∃ kp, HoldsIkp m kp ∧ b = kp.identityKey x
  foreign : ∀ j, j ≠ own → m (.devList j) = none

theorem EarlyD.early {m : Disk} (h : EarlyD own x kp m) : Early own x m := ⟨h.id, fun d b hb => ⟨kp, h.ikp, h.keys d b hb⟩, h.foreign⟩

theorem early_got {w w' : World} (h : GotIkp w w') (hw : Early own x w.disk) : Early own x w'.disk := by
  refine ⟨(h.frame .ownDeviceId nofun nofun).trans hw.id, fun d b hb => ?_, fun j hj => (h.frame (.devList j) nofun nofun).trans (hw.foreign j hj)⟩
  obtain ⟨kp, h1, h2⟩ := hw.keys d b ((h.frame (.devIdentityKey own d) nofun nofun).symm.trans hb)
  exact ⟨kp, h.holds kp h1, h2⟩

/-- `create` before the own device id is stored. -/
theorem early_create (hj : M.ownJid = own) (hx : M.x = x) (bs : List Ns) (label : Option String) (fuel : Nat) (w : World) (hw : Early own x w.disk) :
    wp Lib (SM.create M bs label fuel) (ends (fun d w' => ∃ kp, SoundK own x kp d w')
      (fun _ w' => Early own x w'.disk ∨ ∃ kp d, SoundK own x kp d w')) w := by
  rw [SM.create_eq]
  split
  · exact .inl hw
  split
  · exact .inl hw
  rw [ends_bind]
  refine Lib.setBackends (.inl hw) ?_
  rw [ends_bind]
  refine ends_mono (wp_ikp _) (fun kp w' h => ?_) fun _ w' h => .inl (early_got h hw)
  have hw' : EarlyK own x kp w' := by
    have := early_got h.2 hw
    refine ⟨this.id, h.1, fun d b hb => ?_, this.foreign⟩
    obtain ⟨kp', h1, h2⟩ := this.keys d b hb
    cases holds_inj h1 h.1
    exact h2
  refine ends_mono (wp_createRest (I := EarlyK own x kp) (I0 := EarlyK own x kp) (J := SoundK own x kp)
    (X := fun w => EarlyK own x kp w ∨ ∃ d, SoundK own x kp d w) early_quiet early_quiet (fun d => sound_parts hj d) (fun d => sound_handle hj d)
    label kp fuel (fun d bs w hw => ?_)
    (fun _ h => .inl h) (fun _ h => .inl h) (fun d _ h => .inr ⟨d, h⟩) (fun w h hn => h) (fun w v d h hv hc => ?_) _ hw') (fun _ _ h => ⟨kp, h⟩) ?_
  · subst hx
    exact ends_mono (wp_storeOwnDevice (M := { M with ownDev := d }) hj label bs w hw) (fun _ _ h => h) fun _ _ h => .inl h
  · cases hv.symm.trans h.id
  · rintro _ w' (h | ⟨d, h⟩)
    · exact .inl h.early
    · exact .inr ⟨kp, d, h⟩

end first

/-! ### Lives -/

/-- The own device id of an account in use. -/
def InUse (own : Jid) (x : XEdDSA) (s : Use) : Prop :=
  (Early own x s.world.disk ∧ s.mgrs = []) ∨
    ∃ dev : DevId, s.world.disk .ownDeviceId = some (.int dev) ∧ ∀ M ∈ s.mgrs, M.ownJid = own ∧ M.x = x ∧ M.ownDev = dev

theorem inUse_new {own : Jid} {x : XEdDSA} {s : Use} (h : New s) : InUse own x s := by
  have hn : ∀ k, k ≠ .ikpIsSeed → k ≠ .ikpKey → s.world.disk k = none := fun k h1 h2 => by
    cases hk : s.world.disk k with
    | none => rfl
    | some v => cases h.disk k v hk <;> contradiction
  refine .inl ⟨⟨hn _ nofun nofun, fun d b hb => ?_, fun j _ => hn _ nofun nofun⟩, h.mgrs⟩
  cases (hn (.devIdentityKey own d) nofun nofun).symm.trans hb

theorem inUse_step {own : Jid} {x : XEdDSA} {s s' : Use} {c : Mgr × Call} (h : Step own x s c s') (happ : ViaApi c.1) (hs : InUse own x s) :
    InUse own x s' := by
  cases h with
  | @ikp w' t r M he hr =>
    have hg : wp Lib (Call.getIdentityKeyPair.run M) (fun _ w' => GotIkp s.world w') s.world := by
      show wp Lib (_ >>= _) _ _
      rw [wp_bind]
      refine wp_mono (wp_ikp _) fun r w h => ?_
      cases r with
      | ok a => exact h.2
      | raised e => exact h
      | crashed => exact h
    have hg := wp_sound hg he hr
    rcases hs with ⟨h1, h2⟩ | ⟨dev, h1, h2⟩
    · exact .inl ⟨early_got hg h1, h2⟩
    · exact .inr ⟨dev, (hg.frame .ownDeviceId nofun nofun).trans h1, h2⟩
  | @create w' t r M bs label fuel hj hx he hr =>
    rcases hs with ⟨h1, h2⟩ | ⟨dev, h1, h2⟩
    · have h3 := wp_sound (early_create hj hx bs label fuel _ h1) he hr
      have key : ∀ {kp d}, SoundK own x kp d w' → w'.disk .ownDeviceId = some (.int d) := fun h => h.1.id
      cases r with
      | ok d =>
        obtain ⟨kp, h3⟩ := h3
        refine .inr ⟨d, key h3, fun M' hM => ?_⟩
        simp only [h2, returned, List.nil_append, List.mem_singleton] at hM
        subst hM
        exact ⟨hj, hx, rfl⟩
      | raised e =>
        rcases h3 with h3 | ⟨kp, d, h3⟩
        · exact .inl ⟨h3, by simp [h2, returned]⟩
        · exact .inr ⟨d, key h3, by simp [h2, returned]⟩
      | crashed =>
        rcases h3 with h3 | ⟨kp, d, h3⟩
        · exact .inl ⟨h3, by simp [h2, returned]⟩
        · exact .inr ⟨d, key h3, by simp [h2, returned]⟩
    · have h3 := wp_sound (idIs_create (M := M) bs label fuel _ h1) he hr
      cases r with
      | ok d =>
        obtain ⟨rfl, h3⟩ := h3
        refine .inr ⟨d, h3, fun M' hM => ?_⟩
        simp only [returned, List.mem_append, List.mem_singleton] at hM
        rcases hM with hM | rfl
        · exact h2 M' hM
        · exact ⟨hj, hx, rfl⟩
      | raised e => exact .inr ⟨dev, h3, by simpa [returned] using h2⟩
      | crashed => exact .inr ⟨dev, h3, by simpa [returned] using h2⟩
  | @call w' t r M c hM hc he hr =>
    rcases hs with ⟨h1, h2⟩ | ⟨dev, h1, h2⟩
    · rw [h2] at hM; cases hM
    · exact .inr ⟨dev, wp_sound (idIs_call hc happ _ h1) he hr, h2⟩

theorem inUse_life {own : Jid} {x : XEdDSA} {s s' : Use} {cs : List (Mgr × Call)} (h : Life own x s cs s') (happ : ∀ c ∈ cs, ViaApi c.1)
    (hs : InUse own x s) : InUse own x s' := by
  induction h with
  | nil => exact hs
  | cons hst _ ih => exact ih (fun c hc => happ c (.tail _ hc)) (inUse_step hst (happ _ (.head _)) hs)

/-- The own device id once stored, and every manager that was created has it. -/
theorem C70 {own : Jid} {x : XEdDSA} {s0 s s' : Use} {cs cs' : List (Mgr × Call)} (h0 : New s0) (h : Life own x s0 cs s)
    (h' : Life own x s cs' s') (happ : ∀ c ∈ cs ++ cs', ViaApi c.1) (M : Mgr) (hM : M ∈ s.mgrs) (M' : Mgr) (hM' : M' ∈ s'.mgrs) :
    M.ownDev = M'.ownDev ∧ s'.world.disk .ownDeviceId = some (.int M.ownDev) := by
  have h1 := inUse_life h (fun c hc => happ c (by simp [hc])) (inUse_new h0)
  have happ' : ∀ c ∈ cs', ViaApi c.1 := fun c hc => happ c (by simp [hc])
  have h2 := inUse_life h' happ' h1
  have hsub : ∀ {s s' : Use} {cs : List (Mgr × Call)}, Life own x s cs s' → ∀ M ∈ s.mgrs, M ∈ s'.mgrs := by
    intro s s' cs h
    induction h with
    | nil => exact fun _ h => h
    | cons hst _ ih =>
      intro M hM
      refine ih M ?_
      cases hst with
      | ikp => exact hM
      | create => exact List.mem_append_left _ hM
      | call => exact hM
  rcases h2 with ⟨_, h2⟩ | ⟨dev, h2, h3⟩
  · rw [h2] at hM'; cases hM'
  · obtain ⟨_, _, rfl⟩ := h3 M' hM'
    exact ⟨(h3 M (hsub h' M hM)).2.2, by rw [(h3 M (hsub h' M hM)).2.2]; exact h2⟩

theorem pinned_step {own : Jid} {x : XEdDSA} {s s' : Use} {c : Mgr × Call} (h : Step own x s c s') (happ : ViaApi c.1) (hs : InUse own x s)
    {j : Jid} {d : DevId} {b : Bytes} (hp : c.2 ≠ .purgeBareJid j) (hb : HasKey s.world.disk j d b) : HasKey s'.world.disk j d b := by
  cases h with
  | @ikp w' t r M he hr => exact wp_sound (Pinned.call (M := M) (c := .getIdentityKeyPair) (fun _ _ _ h => by cases h) (fun h => by cases h) happ _ hb) he hr
  | @create w' t r M bs label fuel hj hx he hr =>
    rcases hs with ⟨h1, h2⟩ | ⟨dev, h1, h2⟩
    · by_cases hjo : j = own
      · subst hjo
        obtain ⟨kp, h3, h4⟩ := h1.keys d b hb
        exact (wp_sound (Pinned.create (M := M) (kp := kp) (fun _ => by rw [hx]; exact h4) bs label fuel _ ⟨hb, h3⟩) he hr).1
      · exact wp_sound (Pinned.create_other (M := M) (by rw [hj]; exact hjo) bs label fuel _ hb) he hr
    · exact (wp_sound (Pinned.create_again (M := M) bs label fuel _ ⟨hb, by unfold IdSet; rw [h1]; nofun⟩) he hr).1
  | @call w' t r M c hM hc he hr => exact wp_sound (Pinned.call (M := M) hc hp happ _ hb) he hr


/-! ### C19 -/

/-- Once an identity key is stored for a device, it is never replaced or deleted in the life of the account, other than by purging the JID. -/
theorem C19 (own : Jid) (x : XEdDSA) (s0 s s' : Use) (cs cs' : List (Mgr × Call)) (j : Jid) (d : DevId) (b : Bytes)
    (hnew : New s0) (h : Life own x s0 cs s) (h' : Life own x s cs' s') (happ : ∀ c ∈ cs ++ cs', ViaApi c.1)
    (hp : ∀ c ∈ cs', c.2 ≠ .purgeBareJid j) (hb : HasKey s.world.disk j d b) : HasKey s'.world.disk j d b := by
  have h1 := inUse_life h (fun c hc => happ c (by simp [hc])) (inUse_new hnew)
  have happ' : ∀ c ∈ cs', ViaApi c.1 := fun c hc => happ c (by simp [hc])
  clear happ h
  induction h' with
  | nil => exact hb
  | cons hst _ ih =>
    exact ih (fun c hc => hp c (.tail _ hc)) (pinned_step hst (happ' _ (.head _)) h1 (hp _ (.head _)) hb)
      (inUse_step hst (happ' _ (.head _)) h1) fun c hc => happ' c (.tail _ hc)

/-- Bundles have other identity keys than before. -/
def rekeyed (w : World) (o : Op) : Except Exn o.Ret := match o with
  | .downloadBundle ns j d => .ok ⟨ns, j, d, [99], 0⟩
  | o => genuine w o

theorem rekeyed_ok (w : World) (o : Op) (e : Exn) (h : rekeyed w o = .error e) : e.isInternal = false := by
  cases o <;> simp only [rekeyed] at h <;> first | exact genuine_ok w _ e h | (cases h; done)

def Friendly.rekeyed : Friendly := ⟨Verif.rekeyed, rekeyed_ok⟩

/-- The device list shrinks and grows, the bundle changes, and the library is started again with fewer backends. -/
def Use.rekeyed : Use :=
  Friendly.rekeyed.again Mgr.ex ["n"] none (Friendly.rekeyed.use Mgr.ex (.getDeviceInformation "a")
    (Friendly.rekeyed.use Mgr.ex (.updateDeviceList "o" "a" [(7, none), (8, none)]) Use.met))

theorem C19_example : ∃ cs cs', Life "me" Mgr.ex.x Use.fresh cs Use.met ∧ Life "me" Mgr.ex.x Use.met cs' Use.rekeyed ∧ cs'.length = 3 ∧
    HasKey Use.met.world.disk "a" 7 [7] ∧ HasKey Use.rekeyed.world.disk "a" 7 [7] ∧ HasKey Use.rekeyed.world.disk "a" 8 [99] := by
  have h := Friendly.rekeyed.lifeAgain (Friendly.rekeyed.life (Friendly.rekeyed.life (.nil Use.met) (M := Mgr.ex) (c := .updateDeviceList "o" "a" [(7, none), (8, none)])
    (by simp [Use.met, Friendly.use, Use.started]) nofun) (M := Mgr.ex) (c := .getDeviceInformation "a") (by simp [Use.met, Friendly.use, Use.started]) nofun)
    (M := Mgr.ex) (own := "me") (x := Mgr.ex.x) rfl rfl ["n"] none
  exact ⟨_, _, met_life, h, rfl, rfl, C19 "me" Mgr.ex.x _ _ _ _ _ "a" 7 [7] fresh_new met_life h
    (by simp [ViaApi] <;> exact fun _ _ => .ret ()) (by simp) rfl, rfl⟩


/-- The account is started twice, with a device met in between; both managers have device id 1. -/
theorem C70_example : ∃ cs cs', Life "me" Mgr.ex.x Use.fresh cs Use.met ∧ Life "me" Mgr.ex.x Use.met cs' Use.rekeyed ∧
    Use.rekeyed.mgrs.length = 2 ∧ Use.rekeyed.world.disk .ownDeviceId = some (.int 1) := by
  obtain ⟨cs, cs', h, h', _⟩ := C19_example
  have hr : (Friendly.rekeyed.run (SM.create Mgr.ex ["n"] none 5) (Friendly.rekeyed.use Mgr.ex (.getDeviceInformation "a")
    (Friendly.rekeyed.use Mgr.ex (.updateDeviceList "o" "a" [(7, none), (8, none)]) Use.met)).world).2.1 = .ok 1 := by decide +kernel
  refine ⟨cs, cs', h, h', ?_, rfl⟩
  show ([Mgr.ex] ++ returned _ _).length = 2
  rw [hr]
  rfl

end Verif
