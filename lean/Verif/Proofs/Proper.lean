import Verif.Proofs.Knows
/-
What precedes the interactions of each call with backends and server.
-/
namespace Verif
open Spec Foot

namespace Spec

/-- The backend of which a method is called. -/
def backendOf : Op → Option Ns
  | .loadSession ns _ _ | .storeSession ns _ | .buildActive ns _ _ _ _ | .buildPassive ns _ _ _ _ | .encryptPlaintext ns _
  | .encryptEmpty ns | .encryptKM ns _ _ | .decryptPlaintext ns _ _ | .decryptKM ns _ _ | .spkAge ns | .rotateSpk ns
  | .hidePreKey ns _ | .deletePreKey ns _ | .deleteHidden ns | .numVisible ns | .generatePreKeys ns _ | .getBundle ns _ _
  | .purge ns | .purgeJid ns _ => some ns
  | _ => none

/-- The backend `ns` was found among the loaded ones. -/
def LoadedNs (h : List Ev) (ns : Ns) : Prop := ∃ bs, (⟨.getBackends, .ok bs⟩ : Ev) ∈ h ∧ ns ∈ bs

/-- The content of `m` is what the backend returned for an empty message, its only key is for the device with the session `s`, made from the
matching key material; the message goes to the JID of this device. -/
def EmptyTo (h : List Ev) (m : Message) (j : Jid) : Prop :=
  ∃ km k x s, (⟨.encryptEmpty m.ns, .ok (m.content, km)⟩ : Ev) ∈ h ∧ m.keys = [(k, x)] ∧
    ((∃ s0, (⟨.encryptKM m.ns s0 km, .ok (k, s)⟩ : Ev) ∈ h ∧ j = s.bareJid) ∨ (∃ d b, (⟨.buildActive m.ns j d b km, .ok (s, k)⟩ : Ev) ∈ h))

end Spec

/-- `I`: which device id is the own one.  `L`: device lists given by the caller. -/
def Proper (own : Jid) (I : List Ev → DevId → Prop) (L : Ns → DevList → Prop) (h : List Ev) : Op → Prop
  | .uploadList ns l => ∃ d dl, I h d ∧ ((⟨.downloadList ns own, .ok dl⟩ : Ev) ∈ h ∨ L ns dl) ∧ ∀ d', d' ≠ d → Dict.get l d' = Dict.get dl d'
  | .uploadBundle b => ∃ ns d, I h d ∧ (⟨.getBundle ns own d, .ok b⟩ : Ev) ∈ h
  | .deleteBundle _ d => I h d
  | .sendMessage m j => I h m.deviceId ∧ m.bareJid = own ∧ EmptyTo h m j
  | o => ∀ ns, backendOf o = some ns → LoadedNs h ns

namespace Proper
open SM

instance {ns : Ns} : Lasting (fun h => LoadedNs h ns) := Lasting.ex (L := fun bs h => (⟨.getBackends, .ok bs⟩ : Ev) ∈ h ∧ ns ∈ bs)

variable {I : List Ev → DevId → Prop} {L : Ns → DevList → Prop} {M : Mgr} {K : List Ev → Prop}

/-- Interactions that need no preparation. -/
def free : Op → Bool
  | .uploadList .. | .uploadBundle _ | .deleteBundle .. | .sendMessage .. => false
  | o => (backendOf o).isNone

theorem of_free {own : Jid} {o : Op} (h : free o = true) (x : List Ev) : Proper own I L x o := by
  cases o <;> first
    | (cases h; done)
    | (intro ns hns; cases hns; done)

variable [Lasting K]

theorem quiet {own : Jid} {α : Type} {p : P α} (h : AllOps (fun o => free o = true) p) : Kn (Proper own I L) K p (fun _ _ => True) :=
  Kn.ops (h.mono fun _ ho x _ => of_free ho x)

omit [Lasting K] in
theorem backend {own : Jid} {o : Op} {ns : Ns} (hK : ∀ h, K h → LoadedNs h ns) (ho : backendOf o = some ns) :
    Kn (Proper own I L) K (call o) (fun a h => (⟨o, .ok a⟩ : Ev) ∈ h) := Kn.call fun h hk => by
  cases o <;> first
    | (cases ho; done)
    | (intro ns' h'; cases ho; cases h'; exact hK h hk)

/-- A program that only uses the loaded backend `ns`. -/
theorem using' {own : Jid} {α : Type} {p : P α} {ns : Ns} (hK : ∀ h, K h → LoadedNs h ns)
    (h : AllOps (fun o => free o = true ∨ backendOf o = some ns) p) : Kn (Proper own I L) K p (fun _ _ => True) :=
  Kn.ops (h.mono fun o ho x hx => by
    rcases ho with ho | ho
    · exact of_free ho x
    · cases o <;> first
        | (cases ho; done)
        | (intro ns' h'; cases ho; cases h'; exact hK x hx))

omit [Lasting K] in
theorem free_call {own : Jid} {o : Op} (h : free o = true) : Kn (Proper own I L) K (call o) (fun a h => (⟨o, .ok a⟩ : Ev) ∈ h) :=
  Kn.call fun x _ => of_free h x

theorem getBackends {own : Jid} {α : Type} {f : List Ns → P α} {R : α → List Ev → Prop}
    (h : ∀ bs, Kn (Proper own I L) (fun h => K h ∧ (⟨.getBackends, .ok bs⟩ : Ev) ∈ h) (f bs) R) : Kn (Proper own I L) K (call .getBackends >>= f) R :=
  Kn.bind (free_call rfl) h

theorem info_free {jid : Jid} {o : Op} (h : Info jid o) : free o = true := by cases h <;> rfl

theorem kn_getDeviceInformation {own : Jid} (jid : Jid) : Kn (Proper own I L) K (getDeviceInformation M jid) (fun _ _ => True) :=
  quiet ((ops_getDeviceInformation M jid).mono fun _ h => info_free h)

theorem kn_getOwn {own : Jid} : Kn (Proper own I L) K (getOwnDeviceInformation M) (fun _ _ => True) :=
  quiet ((ops_getOwnDeviceInformation M).mono fun _ h => info_free h)

theorem kn_updateDeviceList (hK : ∀ h, K h → I h M.ownDev) (ns : Ns) (jid : Jid) (dl : DevList)
    (hd : jid = M.ownJid → ∀ h, K h → (⟨.downloadList ns M.ownJid, .ok dl⟩ : Ev) ∈ h ∨ L ns dl) :
    Kn (Proper M.ownJid I L) K (updateDeviceList M ns jid dl) (fun _ _ => True) := by
  unfold updateDeviceList
  refine Kn.seq (free_call rfl) fun bs => ?_
  split
  · exact Kn.raise
  refine Kn.seq (quiet (allOps_loadInts rfl)) fun old => Kn.seq (R := fun _ _ => True) ?_ fun dl' => ?_
  · unfold ensureOwnListed
    split
    · rename_i hj
      refine Kn.seq (free_call rfl) fun bs' => ?_
      split
      · refine Kn.seq (quiet (allOps_loadOptStr rfl)) fun l => Kn.seq (quiet (allOps_fromJust _)) fun label =>
          Kn.seq (Kn.call fun h hk => ⟨M.ownDev, dl, hK h hk, hd hj h hk, fun d' hd' => ?_⟩) fun _ => Kn.pure fun _ _ => trivial
        rw [Dict.get_set, if_neg fun h => hd' h.symm]
      · exact Kn.pure fun _ _ => trivial
    · exact Kn.pure fun _ _ => trivial
  · refine quiet ?_
    unfold addNewDevice updateKnownDevice updateListed updateUnlisted
    lib_ops []

theorem kn_refreshDeviceList (hK : ∀ h, K h → I h M.ownDev) (ns : Ns) (jid : Jid) :
    Kn (Proper M.ownJid I L) K (refreshDeviceList M ns jid) (fun _ _ => True) := by
  unfold refreshDeviceList
  refine Kn.bind (free_call rfl) fun dl => kn_updateDeviceList (fun h hk => hK h hk.1) ns jid dl fun hj h hk => ?_
  subst hj
  exact .inl hk.2

theorem kn_refreshDeviceLists (hK : ∀ h, K h → I h M.ownDev) (jid : Jid) :
    Kn (Proper M.ownJid I L) K (refreshDeviceLists M jid) (fun _ _ => True) := by
  unfold refreshDeviceLists
  exact Kn.seq (free_call rfl) fun bs => Kn.forEach fun ns _ => kn_refreshDeviceList hK ns jid

theorem kn_setOwnLabel (hK : ∀ h, K h → I h M.ownDev) (label : Option String) :
    Kn (Proper M.ownJid I L) K (setOwnLabel M label) (fun _ _ => True) := by
  unfold setOwnLabel
  refine Kn.seq (free_call rfl) fun _ => Kn.seq (free_call rfl) fun bs => Kn.forEach fun ns _ => Kn.bind (free_call rfl) fun dl =>
    (Kn.call fun h hk => ⟨M.ownDev, dl, hK h hk.1, .inl hk.2, fun d' hd' => ?_⟩).post fun _ _ _ => trivial
  rw [Dict.get_set, if_neg fun h => hd' h.symm]

theorem kn_purgeBackend (hK : ∀ h, K h → I h M.ownDev) (ns : Ns) :
    Kn (Proper M.ownJid I L) K (purgeBackend M ns) (fun _ _ => True) := by
  unfold purgeBackend
  refine Kn.bind (free_call rfl) fun dl => Kn.seq (Kn.when' fun _ => (Kn.call fun h hk => ⟨M.ownDev, dl, hK h hk.1, .inl hk.2, fun d' hd' => ?_⟩).post
    fun _ _ _ => trivial) fun _ => Kn.seq kn_getOwn fun x => Kn.seq (free_call rfl) fun _ => Kn.seq (free_call rfl) fun _ => getBackends fun bs =>
    Kn.seq (free_call rfl) fun _ => Kn.seq (Kn.when' fun hns => (backend (ns := ns) (fun h hk => ⟨bs, hk.2, hns⟩) rfl).post fun _ _ _ => trivial) fun _ =>
    (Kn.call fun h hk => hK h hk.1.1).post fun _ _ _ => trivial
  rw [Dict.get_erase, if_neg fun h => hd' h.symm]

theorem kn_purgeBareJid (jid : Jid) : Kn (Proper M.ownJid I L) K (purgeBareJid M jid) (fun _ _ => True) := by
  unfold purgeBareJid
  refine Kn.seq (quiet (allOps_loadInts rfl)) fun old => Kn.seq (quiet ?_) fun keys => Kn.seq (quiet ?_) fun _ => Kn.seq (free_call rfl) fun _ =>
    Kn.seq (quiet ?_) fun _ => getBackends fun bs => Kn.forEach fun ns hns =>
    (backend (ns := ns) (fun h hk => ⟨bs, hk.2, hns⟩) rfl).post fun _ _ _ => trivial
  · unfold collectIdentityKeys; lib_ops []
  · unfold deleteDevice; lib_ops []
  · lib_ops []

theorem kn_publish {own : Jid} {dev : DevId} (hK : ∀ h, K h → I h dev) (ns : Ns) (hl : ∀ h, K h → LoadedNs h ns) :
    Kn (Proper own I L) K (do let bundle ← call (.getBundle ns own dev); call (.uploadBundle bundle) : P Unit) (fun _ _ => True) :=
  Kn.bind (backend (ns := ns) hl rfl) fun _ => (Kn.call fun h hk => ⟨ns, dev, hK h hk.1, hk.2⟩).post fun _ _ _ => trivial

theorem kn_retryUpload (hK : ∀ h, K h → I h M.ownDev) (ns : Ns) (hl : ∀ h, K h → LoadedNs h ns) (fuel : Nat) :
    Kn (Proper M.ownJid I L) K (retryUpload M ns fuel) (fun _ _ => True) := by
  induction fuel with
  | zero => exact Kn.raise
  | succ n ih =>
    unfold retryUpload
    refine Kn.tryElse (kn_publish hK ns hl) (fun e => ?_) fun _ => Kn.pure fun _ _ => trivial
    split
    · exact Kn.seq (free_call rfl) fun _ => ih
    · exact Kn.raise

theorem kn_rotationRound (hK : ∀ h, K h → I h M.ownDev) (period : Int) (fuel : Nat) :
    Kn (Proper M.ownJid I L) K (rotationRound M period fuel) (fun _ _ => True) := by
  unfold rotationRound
  refine getBackends fun bs => Kn.seq (Kn.fold (S := fun _ _ => True) (fun _ _ => trivial) fun b ns hns => ?_) fun _ => (free_call rfl).post fun _ _ _ => trivial
  have hl : ∀ h, ((K h ∧ (⟨.getBackends, .ok bs⟩ : Ev) ∈ h) ∧ True) → LoadedNs h ns := fun h hk => ⟨bs, hk.1.2, hns⟩
  refine Kn.seq (backend (ns := ns) hl rfl) fun age => ?_
  dsimp only
  split
  · exact Kn.seq (backend (ns := ns) hl rfl) fun _ => Kn.seq (kn_retryUpload (fun h hk => hK h hk.1.1) ns hl fuel) fun _ => Kn.pure fun _ _ => trivial
  · exact Kn.pure fun _ _ => trivial

theorem kn_manageRotation (hK : ∀ h, K h → I h M.ownDev) (period : Int) (fuel rounds : Nat) :
    Kn (Proper M.ownJid I L) K (manageRotation M period fuel rounds) (fun _ _ => True) := by
  induction rounds with
  | zero => exact Kn.raise
  | succ n ih => unfold manageRotation; exact Kn.seq (kn_rotationRound hK period fuel) fun _ => ih

theorem kn_ensure (hK : ∀ h, K h → I h M.ownDev) : Kn (Proper M.ownJid I L) K (ensureDataConsistency M) (fun _ _ => True) := by
  unfold ensureDataConsistency
  refine getBackends fun bs => Kn.forEach fun ns hns => Kn.seq (kn_refreshDeviceList (fun h hk => hK h hk.1) ns M.ownJid) fun _ =>
    Kn.bind (backend (ns := ns) (fun h hk => ⟨bs, hk.2, hns⟩) rfl) fun b => Kn.seq (R := fun _ _ => True) (quiet ?_) fun u => Kn.when' fun _ =>
    (Kn.call fun h hk => ⟨ns, M.ownDev, hK h hk.1.1, hk.2⟩).post fun _ _ _ => trivial
  lib_ops []

theorem kn_refill {own : Jid} (ns : Ns) (hl : ∀ h, K h → LoadedNs h ns) : Kn (Proper own I L) K (refillPreKeys M ns) (fun _ _ => True) := by
  unfold refillPreKeys
  refine using' hl ?_
  lib_ops []
  all_goals exact .inr rfl

theorem kn_handleChanged (hK : ∀ h, K h → I h M.ownDev) : Kn (Proper M.ownJid I L) K (handleChangedBackends M) (fun _ _ => True) := by
  unfold handleChangedBackends
  refine Kn.seq kn_getOwn fun x => ?_
  obtain ⟨device, others⟩ := x
  refine Kn.seq (free_call rfl) fun bs => Kn.when' fun _ => Kn.seq (free_call rfl) fun _ => Kn.seq (free_call rfl) fun _ => getBackends fun bs =>
    Kn.seq (Kn.forEach fun ns hns => Kn.when' fun _ => ?_) fun _ => Kn.forEach fun ns _ => kn_purgeBackend (fun h hk => hK h hk.1) ns
  have hl : ∀ h, (K h ∧ (⟨.getBackends, .ok bs⟩ : Ev) ∈ h) → LoadedNs h ns := fun h hk => ⟨bs, hk.2, hns⟩
  refine Kn.seq (kn_refill ns hl) fun _ => ?_
  refine Kn.bind (backend (ns := ns) hl rfl) fun b => Kn.seq (Kn.call fun h hk => ⟨ns, M.ownDev, hK h hk.1.1, hk.2⟩) fun _ =>
    kn_refreshDeviceList (fun h hk => hK h hk.1.1) ns M.ownJid

theorem kn_replaceSession (hK : ∀ h, K h → I h M.ownDev) (jid : Jid) (d : DevId) (ns : Ns) (hl : ∀ h, K h → LoadedNs h ns) :
    Kn (Proper M.ownJid I L) K (replaceSession M jid d ns) (fun _ _ => True) := by
  unfold replaceSession
  refine Kn.bind (backend (ns := ns) hl rfl) fun x => ?_
  obtain ⟨content, km⟩ := x
  refine Kn.bind (free_call rfl) fun bundle => Kn.bind (backend (ns := ns) (fun h hk => hl h hk.1.1) rfl) fun x => ?_
  obtain ⟨session, ekm⟩ := x
  refine Kn.seq (Kn.call fun h hk => ⟨hK h hk.1.1.1, rfl, km, ekm, _, session, hk.1.1.2, rfl, .inr ⟨d, bundle, hk.2⟩⟩) fun _ =>
    (backend (ns := ns) (fun h hk => hl h hk.1.1.1) rfl).post fun _ _ _ => trivial

theorem kn_replaceSessions (hK : ∀ h, K h → I h M.ownDev) (jid : Jid) (d : DevId) :
    Kn (Proper M.ownJid I L) K (replaceSessions M jid d) (fun _ _ => True) := by
  unfold replaceSessions
  refine Kn.seq (kn_getDeviceInformation jid) fun devices => Kn.seq (quiet (allOps_next _)) fun device => getBackends fun bs =>
    Kn.seq (Kn.filterAll fun ns hns => ?_) fun ws => getBackends fun bs' => Kn.fold (fun _ _ => trivial) fun un ns hns => ?_
  · exact Kn.seq (backend (ns := ns) (fun h hk => ⟨bs, hk.2, hns⟩) rfl) fun _ => Kn.pure fun _ _ => trivial
  · split
    · refine Kn.tryElse (kn_replaceSession (fun h hk => hK h hk.1.1.1) _ _ ns fun h hk => ⟨bs', hk.1.2, hns⟩) (fun e => ?_) fun _ => Kn.pure fun _ _ => trivial
      split
      · exact Kn.pure fun _ _ => trivial
      · exact Kn.raise
    · exact Kn.pure fun _ _ => trivial

theorem kn_getSendingChainLength {own : Jid} (dev : DeviceInfo) : Kn (Proper own I L) K (getSendingChainLength dev) (fun _ _ => True) := by
  unfold getSendingChainLength
  refine getBackends fun bs => (Kn.mapAll (S := fun _ _ => True) fun ns hns => ?_).post fun _ _ _ => trivial
  exact Kn.seq (backend (ns := ns) (fun h hk => ⟨bs, hk.2, (List.mem_filter.1 hns).1⟩) rfl) fun _ => Kn.pure fun _ _ => trivial

theorem kn_sendEmptyMessage (hK : ∀ h, K h → I h M.ownDev) (ns : Ns) (s : Session) (hl : ∀ h, K h → LoadedNs h ns) :
    Kn (Proper M.ownJid I L) K (sendEmptyMessage M ns s) (fun _ _ => True) := by
  unfold sendEmptyMessage
  refine Kn.bind (backend (ns := ns) hl rfl) fun x => ?_
  obtain ⟨content, km⟩ := x
  refine Kn.bind (backend (ns := ns) (fun h hk => hl h hk.1) rfl) fun x => ?_
  obtain ⟨ekm, session⟩ := x
  refine Kn.seq (Kn.call fun h hk => ⟨hK h hk.1.1, rfl, km, ekm, _, session, hk.1.2, rfl, .inl ⟨s, hk.2, rfl⟩⟩) fun _ =>
    (backend (ns := ns) (fun h hk => hl h hk.1.1) rfl).post fun _ _ _ => trivial

theorem kn_sendQueuedBackend (hK : ∀ h, K h → I h M.ownDev) (ns : Ns) (hl : ∀ h, K h → LoadedNs h ns) :
    Kn (Proper M.ownJid I L) K (sendQueuedBackend M ns) (fun _ _ => True) := by
  unfold sendQueuedBackend sendQueuedJid sendQueued
  refine Kn.seq (quiet (allOps_loadStrs rfl)) fun jids => Kn.seq (free_call rfl) fun _ => Kn.forEach fun jid _ =>
    Kn.seq (quiet (allOps_loadInts rfl)) fun ids => Kn.seq (free_call rfl) fun _ => Kn.forEach fun d _ =>
    Kn.seq (backend (ns := ns) hl rfl) fun s => ?_
  split
  · exact Kn.pure fun _ _ => trivial
  · exact kn_sendEmptyMessage hK ns _ hl

theorem kn_afterHistorySync (hK : ∀ h, K h → I h M.ownDev) : Kn (Proper M.ownJid I L) K (afterHistorySync M) (fun _ _ => True) := by
  unfold afterHistorySync
  exact Kn.seq (free_call rfl) fun _ => getBackends fun bs => Kn.seq (Kn.forEach fun ns hns =>
    (backend (ns := ns) (fun h hk => ⟨bs, hk.2, hns⟩) rfl).post fun _ _ _ => trivial) fun _ => getBackends fun bs' => Kn.forEach fun ns hns =>
    kn_sendQueuedBackend (fun h hk => hK h hk.1.1) ns fun h hk => ⟨bs', hk.2, hns⟩

theorem kn_encryptDevice {own : Jid} (ns : Ns) (cache : List Bundle) (km : PlainKM) (st : EncState) (dev : DeviceInfo) (bs : List Ns) (hns : ns ∈ bs)
    (hs : ∀ x ∈ st.sessions, x.1 ∈ bs) (hl : ∀ h, K h → LoadedNs h ns) :
    Kn (Proper own I L) K (encryptDevice M ns cache km st dev) (fun st' _ => ∀ x ∈ st'.sessions, x.1 ∈ bs) := by
  unfold encryptDevice
  refine Kn.seq (backend (ns := ns) hl rfl) fun s => ?_
  refine Kn.tryElse (R := fun _ _ => True) (using' hl ?_) (fun e => ?_) fun x => ?_
  · unfold encryptForDevice bundleFor
    lib_ops []
    all_goals first | exact .inr rfl | exact .inl rfl
  · split
    · exact Kn.pure fun _ _ => hs
    · exact Kn.raise
  · obtain ⟨session, ekm⟩ := x
    refine Kn.pure fun _ _ x hx => ?_
    rcases List.mem_append.1 hx with hx | hx
    · exact hs x hx
    · cases List.mem_singleton.1 hx
      exact hns

theorem kn_encryptBackend {own : Jid} (cache : List Bundle) (pt : Dict Ns Bytes) (st : EncAll) (ns : Ns) (bs : List Ns) (hns : ns ∈ bs)
    (hs : ∀ x ∈ st.sessions, x.1 ∈ bs) (hl : ∀ h, K h → LoadedNs h ns) :
    Kn (Proper own I L) K (encryptBackend M cache pt st ns) (fun st' _ => ∀ x ∈ st'.sessions, x.1 ∈ bs) := by
  unfold encryptBackend
  dsimp only
  split
  · exact Kn.pure fun _ _ => hs
  split
  · exact Kn.raise
  refine Kn.seq (backend (ns := ns) hl rfl) fun x => ?_
  obtain ⟨content, km⟩ := x
  refine Kn.bind (Kn.fold (S := fun st' _ => ∀ x ∈ st'.sessions, x.1 ∈ bs) (fun _ _ => hs) fun st' dev _ h hk =>
    kn_encryptDevice ns cache km st' dev bs hns hk.2 hl h hk.1) fun st' => Kn.pure fun _ hk => hk.2

theorem kn_encryptTrusted {own : Jid} (jids : List Jid) (cache : List Bundle) (pt : Dict Ns Bytes) (devices : List DeviceInfo) :
    Kn (Proper own I L) K (encryptTrusted M jids cache pt devices) (fun _ _ => True) := by
  unfold encryptTrusted
  refine Kn.seq (quiet ?_) fun devices => getBackends fun bs => Kn.bind (Kn.fold (S := fun st' _ => ∀ x ∈ st'.sessions, x.1 ∈ bs)
    (fun _ _ => nofun) fun st ns hns h hk => kn_encryptBackend cache pt st ns bs hns hk.2
      (fun h (hk : K h ∧ (⟨.getBackends, .ok bs⟩ : Ev) ∈ h) => ⟨bs, hk.2, hns⟩) h hk.1) fun st => ?_
  · unfold devicesWithTrust; lib_ops []
  · dsimp only
    split
    · exact Kn.raise
    · refine Kn.seq (Kn.forEach fun x hx h hk => ?_) fun _ => Kn.pure fun _ _ => trivial
      refine ((backend (K := fun h => K h ∧ (⟨.getBackends, .ok bs⟩ : Ev) ∈ h) (ns := x.1) (fun h' hk' => ⟨bs, hk'.2, ?_⟩) rfl).post fun _ _ _ => trivial) h hk.1
      exact hk.2 x (SetOrder.mem_iter.1 hx)

omit [Lasting K] in
theorem weaken {own : Jid} {G : List Ev → Op → Prop} (hG : ∀ h o, Proper own I L h o → G h o) {α : Type} {p : P α} {R : α → List Ev → Prop}
    (h : Kn (Proper own I L) K p R) : Kn G K p R := fun x hx => (h x hx).mono (fun _ _ h => h) hG

theorem kn_encrypt {own : Jid} {G : List Ev → Op → Prop} (hG : ∀ h o, Proper own I L h o → G h o) (jids : List Jid) (pt : Dict Ns Bytes)
    (prio : Option (List Ns)) (i : Option String) (hd : ∀ ds i, Kn G K (M.decide ds i) (fun _ _ => True)) :
    Kn G K (encrypt M jids pt prio i) (fun _ _ => True) := by
  unfold encrypt
  refine Kn.seq (weaken hG (free_call rfl)) fun bs => Kn.seq (weaken hG (quiet (allOps_liftE _))) fun order => ?_
  refine Kn.seq (R := fun _ _ => True) (weaken hG (quiet ?_)) fun x => ?_
  · unfold recipientDevices
    have : ∀ j, AllOps (fun o => free o = true) (getDeviceInformation' M j) := fun j => (ops_getDeviceInformation' M j).mono fun _ h => info_free h
    lib_ops [this]
  obtain ⟨devices, cache⟩ := x
  refine Kn.seq (R := fun _ _ => True) ?_ fun devices => weaken hG (kn_encryptTrusted _ cache pt devices)
  unfold decideTrust
  refine Kn.seq (weaken hG (quiet (by unfold devicesWithTrust; lib_ops []))) fun un => Kn.seq (R := fun _ _ => True) ?_ fun ds =>
    Kn.seq (weaken hG (quiet (by unfold devicesWithTrust; lib_ops []))) fun su => ?_
  · unfold askTrust
    split
    · exact Kn.seq (hd _ _) fun _ => weaken hG (quiet (by unfold reloadTrust; lib_ops []))
    · exact Kn.pure fun _ _ => trivial
  · split
    · exact Kn.raise
    · exact Kn.pure fun _ _ => trivial

theorem kn_postDecrypt (hK : ∀ h, K h → I h M.ownDev) (ns : Ns) (kex : Option KeyExchange) (s : Session) (hl : ∀ h, K h → LoadedNs h ns) :
    Kn (Proper M.ownJid I L) K (postDecrypt M ns kex s) (fun _ _ => True) := by
  unfold postDecrypt consumePreKey
  refine Kn.seq (backend (ns := ns) hl rfl) fun _ => Kn.seq (Kn.when' fun _ => Kn.seq (free_call rfl) fun sync => Kn.seq (R := fun _ _ => True) (using' hl ?_) fun b =>
    Kn.when' fun _ => Kn.seq (kn_refill ns hl) fun _ => kn_publish hK ns hl) fun _ => ?_
  · unfold discardPreKey
    split <;> exact .perform (.inr rfl)
  · unfold autoReply
    refine Kn.when' fun _ => Kn.seq (free_call rfl) fun sync => ?_
    split
    · exact quiet (by unfold queueEmpty; lib_ops [])
    · exact kn_sendEmptyMessage hK ns s hl

theorem kn_decrypt (hK : ∀ h, K h → I h M.ownDev) (msg : Message) : Kn (Proper M.ownJid I L) K (decrypt M msg) (fun _ _ => True) := by
  unfold decrypt
  refine getBackends fun bs => ?_
  split
  · exact Kn.raise
  rename_i hns
  have hns : msg.ns ∈ bs := by simpa using hns
  have hl : ∀ h, (K h ∧ (⟨.getBackends, .ok bs⟩ : Ev) ∈ h) → LoadedNs h msg.ns := fun h hk => ⟨bs, hk.2, hns⟩
  have hK' : ∀ h, (K h ∧ (⟨.getBackends, .ok bs⟩ : Ev) ∈ h) → I h M.ownDev := fun h hk => hK h hk.1
  split
  · exact Kn.raise
  refine Kn.seq (R := fun _ _ => True) ?_ fun dev => Kn.seq (R := fun _ _ => True) (using' hl ?_) fun x => ?_
  · unfold findSender
    refine Kn.seq (kn_getDeviceInformation _) fun ds => ?_
    split
    · exact Kn.pure fun _ _ => trivial
    · refine Kn.seq (kn_refreshDeviceList hK' _ _) fun _ => Kn.seq (kn_getDeviceInformation _) fun ds => ?_
      split
      · exact Kn.pure fun _ _ => trivial
      · exact Kn.raise
  · unfold decryptContent keyMaterial decryptKeyMaterial handleKeyExchange plaintextOf
    lib_ops []
    all_goals first | exact .inr rfl | exact .inl rfl
  · obtain ⟨p, s, km⟩ := x
    exact Kn.seq (kn_postDecrypt hK' _ _ _ hl) fun _ => Kn.pure fun _ _ => trivial

/-- The own device id during `create`: it was stored or loaded. -/
def Identified (h : List Ev) (d : DevId) : Prop :=
  (⟨.store .ownDeviceId (.int d), .ok ()⟩ : Ev) ∈ h ∨ ∃ v, (⟨.load .ownDeviceId, .ok (some v)⟩ : Ev) ∈ h ∧ v.asInt = d

instance {d : DevId} : Lasting (fun h => Identified h d) := Lasting.or (K := fun h => (⟨.store .ownDeviceId (.int d), .ok ()⟩ : Ev) ∈ h)
  (K' := fun h => ∃ v, (⟨.load .ownDeviceId, .ok (some v)⟩ : Ev) ∈ h ∧ v.asInt = d)

theorem kn_firstRun {L : Ns → DevList → Prop} (label : Option String) (ik : Bytes) (fuel : Nat) :
    Kn (Proper M.ownJid Identified L) K (firstRun M label ik fuel) (fun d h => Identified h d) := by
  unfold firstRun
  refine Kn.seq (free_call rfl) fun bs => Kn.seq (quiet (by unfold takenDeviceIds; lib_ops [])) fun taken => Kn.seq (R := fun _ _ => True) (quiet ?_) fun d => ?_
  · clear label ik
    induction fuel with
    | zero => trivial
    | succ n ih => unfold drawDeviceId; lib_ops []
  dsimp only
  refine Kn.seq (free_call rfl) fun bs1 => Kn.bind (R := fun _ h => Identified h d) ?_ fun _ => getBackends fun bs2 => Kn.seq (Kn.forEach fun ns hns =>
    (backend (ns := ns) (fun h hk => ⟨bs2, hk.2, hns⟩) rfl).post fun _ _ _ => trivial) fun _ => getBackends fun bs3 => Kn.seq (Kn.forEach fun ns hns =>
    kn_publish (own := M.ownJid) (dev := d) (fun h hk => hk.1.1.2) ns fun h hk => ⟨bs3, hk.2, hns⟩) fun _ => Kn.seq (free_call rfl) fun bs4 =>
    Kn.seq (Kn.forEach fun ns hns => kn_refreshDeviceList (M := { M with ownDev := d }) (fun h hk => hk.1.1.2) ns M.ownJid) fun _ =>
    Kn.pure fun h hk => hk.1.1.2
  unfold storeOwnDevice
  exact Kn.seq (free_call rfl) fun _ => Kn.seq (free_call rfl) fun _ => Kn.seq (free_call rfl) fun _ => Kn.seq (quiet (allOps_storeBytes rfl)) fun _ =>
    Kn.seq (free_call rfl) fun _ => Kn.seq (free_call rfl) fun _ => (free_call rfl).post fun _ _ h => .inl h

theorem kn_create {L : Ns → DevList → Prop} (bs : List Ns) (label : Option String) (fuel : Nat) :
    Kn (Proper M.ownJid Identified L) K (create M bs label fuel) (fun _ _ => True) := by
  unfold create
  split
  · exact Kn.raise
  split
  · exact Kn.raise
  refine Kn.seq (free_call rfl) fun _ => Kn.seq (quiet (ops_ikp.mono fun _ h => by cases h <;> rfl)) fun ikp => Kn.seq (free_call rfl) fun _ =>
    Kn.bind (R := fun d h => Identified h d) (Kn.onNothing ?_ (kn_firstRun label _ fuel)) fun d =>
    Kn.seq (kn_handleChanged (M := { M with ownDev := d }) fun h hk => hk.2) fun _ => Kn.pure fun _ _ => trivial
  unfold Sto.loadInt
  refine Kn.bind (Kn.bind (R := fun v h => (⟨.load .ownDeviceId, .ok v⟩ : Ev) ∈ h) (free_call rfl) (S := fun m h => ∀ d, m = some d → Identified h d) fun v => ?_) fun m => ?_
  · cases v with
    | none => exact Kn.ret fun _ _ _ h => by cases h
    | some v =>
      simp only [Maybe.fmap]
      cases hc : (checkPrimitive .int v).map JVal.asInt with
      | error e => exact Kn.raise
      | ok n =>
        refine Kn.ret fun h hk d hd => .inr ⟨v, hk.2, ?_⟩
        cases hd
        unfold checkPrimitive at hc
        split at hc
        · cases hc; rfl
        · cases hc
  · cases m with
    | none => exact Kn.raise
    | some d => exact Kn.ret fun h hk => hk.2 d rfl

/-- All calls. -/
theorem kn_call {G : List Ev → Op → Prop} {K : List Ev → Prop} [Lasting K] (c : Call) (I : List Ev → DevId → Prop) (L : Ns → DevList → Prop)
    (hI : match c with | .create .. => I = Identified | _ => I = fun _ d => d = M.ownDev)
    (hL : ∀ ns dl, c = .updateDeviceList ns M.ownJid dl → L ns dl)
    (hG : ∀ h o, Proper M.ownJid I L h o → G h o) (hd : ∀ ds i, Kn G K (M.decide ds i) (fun _ _ => True)) :
    Kn G K (c.run M) (fun _ _ => True) := by
  cases c <;> (dsimp only at hI; subst hI) <;> simp only [Call.run]
  case encrypt jids pt prio i => exact Kn.seq (kn_encrypt hG jids pt prio i hd) fun _ => Kn.pure fun _ _ => trivial
  all_goals refine weaken hG ?_
  case getIdentityKeyPair => exact Kn.seq (K := K) (quiet (ops_ikp.mono fun _ h => by cases h <;> rfl)) fun _ => Kn.pure fun _ _ => trivial
  case create bs label fuel => exact Kn.seq (kn_create bs label fuel) fun _ => Kn.pure fun _ _ => trivial
  case purgeBackend ns => exact kn_purgeBackend (I := fun _ d => d = M.ownDev) (fun _ _ => rfl) ns
  case purgeBareJid jid => exact kn_purgeBareJid jid
  case ensureDataConsistency => exact kn_ensure (I := fun _ d => d = M.ownDev) fun _ _ => rfl
  case rotation p f r => exact kn_manageRotation (I := fun _ d => d = M.ownDev) (fun _ _ => rfl) p f r
  case updateDeviceList ns jid dl => exact kn_updateDeviceList (I := fun _ d => d = M.ownDev) (fun _ _ => rfl) ns jid dl fun hj _ _ => .inr (hL ns dl (by rw [hj]))
  case refreshDeviceList ns jid => exact kn_refreshDeviceList (I := fun _ d => d = M.ownDev) (fun _ _ => rfl) ns jid
  case refreshDeviceLists jid => exact kn_refreshDeviceLists (I := fun _ d => d = M.ownDev) (fun _ _ => rfl) jid
  case setTrust => exact (free_call rfl).post fun _ _ _ => trivial
  case replaceSessions jid d => exact Kn.seq (kn_replaceSessions (I := fun _ d => d = M.ownDev) (fun _ _ => rfl) jid d) fun _ => Kn.pure fun _ _ => trivial
  case getSendingChainLength dev => exact Kn.seq (kn_getSendingChainLength dev) fun _ => Kn.pure fun _ _ => trivial
  case setOwnLabel l => exact kn_setOwnLabel (I := fun _ d => d = M.ownDev) (fun _ _ => rfl) l
  case getDeviceInformation jid => exact Kn.seq (kn_getDeviceInformation jid) fun _ => Kn.pure fun _ _ => trivial
  case getOwnDeviceInformation => exact Kn.seq kn_getOwn fun _ => Kn.pure fun _ _ => trivial
  case beforeHistorySync => exact (free_call rfl).post fun _ _ _ => trivial
  case afterHistorySync => exact kn_afterHistorySync (I := fun _ d => d = M.ownDev) fun _ _ => rfl
  case decrypt msg => exact Kn.seq (kn_decrypt (I := fun _ d => d = M.ownDev) (fun _ _ => rfl) msg) fun _ => Kn.pure fun _ _ => trivial

end Proper
end Verif
