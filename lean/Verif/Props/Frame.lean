import Verif.Proofs.Footprint
import Verif.Proofs.DiskTrace
import Verif.Proofs.Sample
/-
Which places in storage a call can change (C80).
-/
namespace Verif
open Spec SM Foot

/-- Data about the devices of `j`, without trust and identity keys. -/
def Spec.ListData (j : Jid) (k : Key) : Prop :=
  k = .devList j ∨ ∃ d, k = .devNamespaces j d ∨ k = .devActive j d ∨ k = .devLabel j d

/-- What looking up the devices of `j` may change: identity keys that become known, and namespaces without activity information. -/
def Spec.LookupData (j : Jid) (k : Key) : Prop := ∃ d, k = .devIdentityKey j d ∨ k = .devNamespaces j d

/-- The places a call may store to. -/
def Spec.MayStore (M : Mgr) : Call → Key → Prop
  | .getIdentityKeyPair, k => k = .ikpIsSeed ∨ k = .ikpKey
  | .create .., k => k = .ikpIsSeed ∨ k = .ikpKey ∨ k = .ownDeviceId ∨ ListData M.ownJid k ∨ LookupData M.ownJid k ∨ ∃ ik, k = .trust M.ownJid ik
  | .purgeBackend _, k => LookupData M.ownJid k ∨ k = .devActive M.ownJid M.ownDev
  | .purgeBareJid _, _ => False
  | .ensureDataConsistency, k => ListData M.ownJid k
  | .rotation .., _ => False
  | .updateDeviceList _ j _, k => ListData j k
  | .refreshDeviceList _ j, k => ListData j k
  | .refreshDeviceLists j, k => ListData j k
  | .setTrust j ik _, k => k = .trust j ik
  | .replaceSessions j _, k => LookupData j k
  | .getSendingChainLength _, _ => False
  | .setOwnLabel _, k => k = .devLabel M.ownJid M.ownDev
  | .getDeviceInformation j, k => LookupData j k
  | .getOwnDeviceInformation, k => LookupData M.ownJid k
  | .beforeHistorySync, _ => False
  | .afterHistorySync, _ => False
  | .encrypt jids _ _ _, k => ∃ j, (j ∈ jids ∨ j = M.ownJid) ∧ LookupData j k
  | .decrypt msg, k => ListData msg.bareJid k ∨ LookupData msg.bareJid k ∨ ∃ ns, k = .queue ns ∨ ∃ j, k = .queueJid ns j

/-- The places a call may delete. -/
def Spec.MayDelete : Call → Key → Prop
  | .purgeBareJid j, k => ListData j k ∨ LookupData j k ∨ ∃ ik, k = .trust j ik
  | .afterHistorySync, k => ∃ ns, k = .queue ns ∨ ∃ j, k = .queueJid ns j
  | _, _ => False

/-- Calls during which the application may be asked for trust decisions. -/
def Call.asks : Call → Prop
  | .encrypt .. => True
  | _ => False

/-- All that is stored is stored in `K`, all that is deleted is in `L`. -/
structure Spec.Within (K L : Key → Prop) (t : List Ev) : Prop where
  stores : ∀ k v a, (⟨.store k v, a⟩ : Ev) ∈ t → K k
  deletes : ∀ k a, (⟨.delete k, a⟩ : Ev) ∈ t → L k

theorem AllOps.of_exec {S : Sig} {E α : Type} {φ : S.Op → Prop} {p : Prog S E α} (hne : ∀ o, Nonempty (Except E (S.Ret o)))
    (h : ∀ t r, Exec p t r → ∀ e ∈ t, φ e.1) : AllOps φ p := by
  induction p with
  | ret | raise => trivial
  | op o k ih =>
    refine ⟨?_, fun r => ih r fun t r' he e hm => h (⟨o, r⟩ :: t) r' (.op r he) e (.tail _ hm)⟩
    obtain ⟨a⟩ := hne o
    have hx : ∃ t r, Exec (k a) t r := by
      cases k a with
      | ret b => exact ⟨_, _, .ret b⟩
      | raise e => exact ⟨_, _, .raise e⟩
      | op o k => exact ⟨_, _, .crash o k⟩
    obtain ⟨t, r, hx⟩ := hx
    exact h _ _ (.op a hx) ⟨o, a⟩ List.mem_cons_self

namespace SM

/-- The interaction stores at most in `K` and deletes at most in `L`. -/
def Wi (K L : Key → Prop) : Op → Prop
  | .store k _ => K k
  | .delete k => L k
  | _ => True

theorem Wi.mono {K L K' L' : Key → Prop} (hK : ∀ k, K k → K' k) (hL : ∀ k, L k → L' k) {o : Op} (h : Wi K L o) : Wi K' L' o := by
  cases o <;> first | trivial | exact hK _ h | exact hL _ h

theorem wi_update {L : Key → Prop} {M : Mgr} {ns jid} {o : Op} (h : Update M ns jid o) : Wi (ListData jid) L o := by
  cases h <;> first | trivial | exact .inl rfl | exact .inr ⟨_, .inl rfl⟩ | exact .inr ⟨_, .inr (.inl rfl)⟩ | exact .inr ⟨_, .inr (.inr rfl)⟩

theorem wi_refresh {L : Key → Prop} {M : Mgr} {ns jid} {o : Op} (h : Refresh M ns jid o) : Wi (ListData jid) L o := by
  cases h with
  | download => trivial
  | update h => exact wi_update h

theorem wi_info {L : Key → Prop} {jid} {o : Op} (h : Info jid o) : Wi (LookupData jid) L o := by
  cases h <;> first | trivial | exact ⟨_, .inl rfl⟩ | exact ⟨_, .inr rfl⟩

theorem wi_purge {L : Key → Prop} {M : Mgr} {ns} {o : Op} (h : PurgeBackend M ns o) :
    Wi (fun k => LookupData M.ownJid k ∨ k = .devActive M.ownJid M.ownDev) L o := by
  cases h with
  | info h => exact (wi_info h).mono (fun _ => .inl) fun _ => id
  | active => exact .inr rfl
  | _ => trivial

theorem wi_sendEmpty {K L : Key → Prop} {ns} {o : Op} (h : SendEmpty ns o) : Wi K L o := by
  cases h <;> trivial

theorem wi_purgeJid {K : Key → Prop} {jid} {o : Op} (h : PurgeJid jid o) :
    Wi K (fun k => ListData jid k ∨ LookupData jid k ∨ ∃ ik, k = .trust jid ik) o := by
  cases h with
  | namespaces d => exact .inl (.inr ⟨d, .inl rfl⟩)
  | active d => exact .inl (.inr ⟨d, .inr (.inl rfl)⟩)
  | label d => exact .inl (.inr ⟨d, .inr (.inr rfl)⟩)
  | identityKey d => exact .inr (.inl ⟨d, .inl rfl⟩)
  | list => exact .inl (.inl rfl)
  | trust ik => exact .inr (.inr ⟨ik, rfl⟩)
  | _ => trivial

theorem wi_ikp {L : Key → Prop} {o : Op} (h : Ikp o) : Wi (fun k => k = .ikpIsSeed ∨ k = .ikpKey) L o := by
  cases h <;> first | trivial | exact .inl rfl | exact .inr rfl

theorem wi_create {L : Key → Prop} {M : Mgr} {bs label fuel} {o : Op} (h : Ikp o ∨ Create M o) :
    Wi (MayStore M (.create bs label fuel)) L o := by
  rcases h with h | h
  · exact (wi_ikp h).mono (fun k h => h.elim .inl fun h => .inr (.inl h)) fun _ => id
  · have hl : ∀ {k}, ListData M.ownJid k → MayStore M (.create bs label fuel) k := fun h => .inr (.inr (.inr (.inl h)))
    have hi : ∀ {k}, LookupData M.ownJid k → MayStore M (.create bs label fuel) k := fun h => .inr (.inr (.inr (.inr (.inl h))))
    cases h with
    | refresh ns d h => exact (wi_refresh h).mono (fun k h => hl h) fun _ => id
    | info h => exact (wi_info h).mono (fun k h => hi h) fun _ => id
    | purge ns d h => exact (wi_purge h).mono (fun k h => h.elim hi fun h => hl (.inr ⟨_, .inr (.inl h)⟩)) fun _ => id
    | namespaces d l => exact hi ⟨d, .inr rfl⟩
    | active d l => exact hl (.inr ⟨d, .inr (.inl rfl)⟩)
    | label d l => exact hl (.inr ⟨d, .inr (.inr rfl)⟩)
    | identityKey d l => exact hi ⟨d, .inl rfl⟩
    | list l => exact hl (.inl rfl)
    | trust ik => exact .inr (.inr (.inr (.inr (.inr ⟨ik, rfl⟩))))
    | ownDeviceId d => exact .inr (.inr (.inl rfl))
    | _ => trivial

theorem wi_encrypt (M : Mgr) (K L : Key → Prop) (hd : ∀ ds i, AllOps (Wi K L) (M.decide ds i)) (jids pt prio i) :
    AllOps (Wi (fun k => MayStore M (.encrypt jids pt prio i) k ∨ K k) L) (encrypt M jids pt prio i) := by
  have h0 : ∀ jid, jid ∈ jids ∨ jid = M.ownJid →
      AllOps (Wi (fun k => MayStore M (.encrypt jids pt prio i) k ∨ K k) L) (getDeviceInformation' M jid) := fun jid hj =>
    (ops_getDeviceInformation' M jid).mono fun o h => (wi_info h).mono (fun k h => .inl ⟨jid, hj, h⟩) fun _ => id
  have h3 : ∀ ds i', AllOps (Wi (fun k => MayStore M (.encrypt jids pt prio i) k ∨ K k) L) (M.decide ds i') := fun ds i' =>
    (hd ds i').mono fun o h => h.mono (fun k h => .inr h) fun _ => id
  have h1 : ∀ order, AllOps (Wi (fun k => MayStore M (.encrypt jids pt prio i) k ∨ K k) L)
      (recipientDevices M order (setUnion jids [M.ownJid])) := by
    intro order
    unfold recipientDevices
    refine .bind (.mapAll fun j hj => h0 j ?_) fun _ => ?_
    · rw [SetOrder.mem_iter, mem_setUnion] at hj
      simpa using hj
    · lib_ops []
  generalize hφ : Wi (fun k => MayStore M (.encrypt jids pt prio i) k ∨ K k) L = φ at *
  have h2 : ∀ jids cache pt devs, AllOps φ (encryptTrusted M jids cache pt devs) := by
    intro jids cache pt devs
    unfold encryptTrusted encryptBackend encryptDevice encryptForDevice bundleFor devicesWithTrust; lib_ops []
    all_goals subst hφ; trivial
  unfold encrypt decideTrust askTrust devicesWithTrust reloadTrust; lib_ops [h1, h2, h3]
  all_goals subst hφ; trivial

theorem wi_decrypt {L : Key → Prop} {M : Mgr} {msg} {o : Op} (h : Decrypt M msg o) : Wi (MayStore M (.decrypt msg)) L o := by
  cases h with
  | queue ns l => exact .inr (.inr ⟨ns, .inl rfl⟩)
  | queueJid ns j l => exact .inr (.inr ⟨ns, .inr ⟨j, rfl⟩⟩)
  | info h => exact (wi_info h).mono (fun k h => .inr (.inl h)) fun _ => id
  | refresh h => exact (wi_refresh h).mono (fun k h => .inl h) fun _ => id
  | sendEmpty h => exact wi_sendEmpty h
  | _ => trivial

theorem wi_call (M : Mgr) (K L : Key → Prop) (hd : ∀ ds i, AllOps (Wi K L) (M.decide ds i)) (c : Call) :
    AllOps (Wi (fun k => MayStore M c k ∨ c.asks ∧ K k) fun k => MayDelete c k ∨ c.asks ∧ L k) (c.run M) := by
  have up : ∀ {o}, Wi (MayStore M c) (MayDelete c) o → Wi (fun k => MayStore M c k ∨ c.asks ∧ K k) (fun k => MayDelete c k ∨ c.asks ∧ L k) o :=
    fun h => h.mono (fun _ => .inl) fun _ => .inl
  cases c with
  | getIdentityKeyPair => exact .bind (ops_ikp.mono fun o h => up (wi_ikp h)) fun _ => trivial
  | create bs label fuel => exact .bind ((ops_create M bs label fuel).mono fun o h => up (wi_create h)) fun _ => trivial
  | purgeBackend ns => exact (ops_purgeBackend M ns).mono fun o h => up (wi_purge h)
  | purgeBareJid jid => exact (ops_purgeBareJid M jid).mono fun o h => up (wi_purgeJid h)
  | ensureDataConsistency =>
    refine (ops_ensureDataConsistency M).mono fun o h => up ?_
    cases h with
    | refresh ns h => exact wi_refresh h
    | _ => trivial
  | rotation p fuel rounds => exact (ops_manageRotation M p fuel rounds).mono fun o h => by cases h <;> trivial
  | updateDeviceList ns jid dl => exact (ops_updateDeviceList M ns jid dl).mono fun o h => up (wi_update h)
  | refreshDeviceList ns jid => exact (ops_refreshDeviceList M ns jid).mono fun o h => up (wi_refresh h)
  | refreshDeviceLists jid =>
    have : ∀ ns, AllOps (Wi (MayStore M (.refreshDeviceLists jid)) (MayDelete (.refreshDeviceLists jid))) (refreshDeviceList M ns jid) :=
      fun ns => (ops_refreshDeviceList M ns jid).mono fun o h => wi_refresh h
    have h : AllOps (Wi (MayStore M (.refreshDeviceLists jid)) (MayDelete (.refreshDeviceLists jid))) (refreshDeviceLists M jid) := by
      unfold refreshDeviceLists
      generalize hφ : Wi (MayStore M (.refreshDeviceLists jid)) (MayDelete (.refreshDeviceLists jid)) = φ at *
      lib_ops [this]
      all_goals subst hφ; trivial
    exact h.mono fun o h => up h
  | setTrust jid ik level =>
    exact ⟨.inl rfl, fun r => by cases r <;> trivial⟩
  | replaceSessions jid d =>
    refine .bind ((ops_replaceSessions M jid d).mono fun o h => up ?_) fun _ => trivial
    cases h with
    | info h => exact wi_info h
    | _ => trivial
  | getSendingChainLength dev =>
    refine .bind ?_ fun _ => trivial
    generalize hφ : Wi _ _ = φ
    unfold getSendingChainLength; lib_ops []
    all_goals subst hφ; trivial
  | setOwnLabel label =>
    refine (ops_setOwnLabel M label).mono fun o h => up ?_
    cases h <;> first | trivial | exact rfl
  | getDeviceInformation jid => exact .bind ((ops_getDeviceInformation M jid).mono fun o h => up (wi_info h)) fun _ => trivial
  | getOwnDeviceInformation => exact .bind ((ops_getOwnDeviceInformation M).mono fun o h => up (wi_info h)) fun _ => trivial
  | beforeHistorySync => exact ⟨trivial, fun r => by cases r <;> trivial⟩
  | afterHistorySync =>
    refine (ops_afterHistorySync M).mono fun o h => up ?_
    cases h with
    | queue ns => exact ⟨ns, .inl rfl⟩
    | queueJid ns j => exact ⟨ns, .inr ⟨j, rfl⟩⟩
    | sendEmpty ns h => exact wi_sendEmpty h
    | _ => trivial
  | encrypt jids pt prio i =>
    refine .bind ((wi_encrypt M K L hd jids pt prio i).mono fun o h => h.mono (fun k h => ?_) fun k h => .inr ⟨trivial, h⟩) fun _ => trivial
    exact h.elim .inl fun h => .inr ⟨trivial, h⟩
  | decrypt msg => exact .bind ((ops_decrypt M msg).mono fun o h => up (wi_decrypt h)) fun _ => trivial

end SM

/-- C80: a call stores only to the places it is concerned with and deletes only what it is meant to remove, apart from what the
application does while it decides on trust. -/
theorem C80 (M : Mgr) (c : Call) (K L : Key → Prop) (hd : ∀ ds i t r, Exec (M.decide ds i) t r → Within K L t)
    (t : List Ev) (r : Res Exn Unit) (he : Exec (c.run M) t r) :
    Within (fun k => MayStore M c k ∨ c.asks ∧ K k) (fun k => MayDelete c k ∨ c.asks ∧ L k) t := by
  have h1 : ∀ ds i, AllOps (Wi K L) (M.decide ds i) := fun ds i => .of_exec (fun o => ⟨.error .keyError⟩) fun t r he e hm => by
    obtain ⟨o, a⟩ := e
    cases o <;> first | trivial | exact (hd ds i t r he).stores _ _ _ hm | exact (hd ds i t r he).deletes _ _ hm
  have := (wi_call M K L h1 c).exec he
  exact ⟨fun k v a hm => this _ hm, fun k a hm => this _ hm⟩

/-- Everything else in storage is as before. -/
theorem C80_rest (M : Mgr) (c : Call) (K L : Key → Prop) (hd : ∀ ds i t r, Exec (M.decide ds i) t r → Within K L t)
    (t : List Ev) (r : Res Exn Unit) (w w' : World) (he : Exec (c.run M) t r) (hr : Lib.Runs w t w') (k : Key)
    (h1 : ¬ MayStore M c k) (h2 : ¬ MayDelete c k) (h3 : c.asks → ¬ K k ∧ ¬ L k) : w'.disk k = w.disk k := by
  have hw := C80 M c K L hd t r he
  refine (Lib.load_const hr (fun e hm v he => ?_) fun e hm he => ?_).2
  · obtain ⟨o, a⟩ := e
    cases he
    exact (hw.stores _ _ _ hm).elim h1 fun h => (h3 h.1).1 h.2
  · obtain ⟨o, a⟩ := e
    cases he
    exact (hw.deletes _ _ hm).elim h2 fun h => (h3 h.1).2 h.2

/-- The JID a place is about. -/
def Key.about : Key → Option Jid
  | .devList j | .devNamespaces j _ | .devActive j _ | .devLabel j _ | .devIdentityKey j _ | .trust j _ => some j
  | _ => none

/-- The JIDs a call is about. -/
def Spec.Concerns (M : Mgr) : Call → Jid → Prop
  | .purgeBareJid j, x | .updateDeviceList _ j _, x | .refreshDeviceList _ j, x | .refreshDeviceLists j, x | .setTrust j _ _, x
  | .replaceSessions j _, x | .getDeviceInformation j, x => x = j
  | .encrypt jids _ _ _, x => x ∈ jids ∨ x = M.ownJid
  | .decrypt msg, x => x = msg.bareJid
  | _, x => x = M.ownJid

/-- What is stored about devices and trust of other JIDs than those the call is about is as before. -/
theorem C80_others (M : Mgr) (c : Call) (K L : Key → Prop) (hd : ∀ ds i t r, Exec (M.decide ds i) t r → Within K L t)
    (t : List Ev) (r : Res Exn Unit) (w w' : World) (he : Exec (c.run M) t r) (hr : Lib.Runs w t w') (k : Key) (j : Jid)
    (hk : k.about = some j) (hj : ¬ Concerns M c j) (h3 : c.asks → ¬ K k ∧ ¬ L k) : w'.disk k = w.disk k := by
  have hl : ∀ {x}, ListData x k → x = j := by
    rintro x (rfl | ⟨d, rfl | rfl | rfl⟩) <;> exact Option.some.inj hk
  have hi : ∀ {x}, LookupData x k → x = j := by
    rintro x ⟨d, rfl | rfl⟩ <;> exact Option.some.inj hk
  have ht : ∀ {x ik}, k = .trust x ik → x = j := by
    rintro x ik rfl; exact Option.some.inj hk
  refine C80_rest M c K L hd t r w w' he hr k (fun h => ?_) (fun h => ?_) h3
  · cases c <;> simp only [MayStore, Concerns] at h hj
    case getIdentityKeyPair => rcases h with rfl | rfl <;> cases hk
    case create =>
      rcases h with rfl | rfl | rfl | h | h | ⟨ik, h⟩
      · cases hk
      · cases hk
      · cases hk
      · exact hj (hl h).symm
      · exact hj (hi h).symm
      · exact hj (ht h).symm
    case purgeBackend =>
      rcases h with h | rfl
      · exact hj (hi h).symm
      · exact hj (Option.some.inj hk).symm
    case setTrust => exact hj (ht h).symm
    case setOwnLabel => subst h; exact hj (Option.some.inj hk).symm
    case encrypt =>
      obtain ⟨x, hx, h⟩ := h
      exact hj (hi h ▸ hx)
    case decrypt =>
      rcases h with h | h | ⟨ns, rfl | ⟨x, rfl⟩⟩
      · exact hj (hl h).symm
      · exact hj (hi h).symm
      · cases hk
      · cases hk
    all_goals first | exact hj (hl h).symm | exact hj (hi h).symm
  · cases c <;> simp only [MayDelete, Concerns] at h hj
    case purgeBareJid =>
      rcases h with h | h | ⟨ik, h⟩
      · exact hj (hl h).symm
      · exact hj (hi h).symm
      · exact hj (ht h).symm
    case afterHistorySync => rcases h with ⟨ns, rfl | ⟨x, rfl⟩⟩ <;> cases hk

/-- Purging the own JID removes the own device list and leaves the own device id. -/
theorem C80_example : ∃ t w', Exec ((Call.purgeBareJid "me").run Mgr.ex) t (.ok ()) ∧ Lib.Runs World.started t w' ∧
    World.started.disk (.devList "me") ≠ none ∧ w'.disk (.devList "me") = none ∧
    World.started.disk .ownDeviceId ≠ none ∧ w'.disk .ownDeviceId = World.started.disk .ownDeviceId := by
  have hres : (genuineRun ((Call.purgeBareJid "me").run Mgr.ex) World.started).2.1 = .ok () := by decide +kernel
  have hrun := genuineRun_runs ((Call.purgeBareJid "me").run Mgr.ex) World.started
  have hexec := hres ▸ genuineRun_exec ((Call.purgeBareJid "me").run Mgr.ex) World.started
  refine ⟨_, _, hexec, hrun, by decide +kernel, by decide +kernel, by decide +kernel, ?_⟩
  refine C80_rest Mgr.ex _ (fun _ => True) (fun _ => True) (fun _ _ _ _ _ => ⟨fun _ _ _ _ => trivial, fun _ _ _ => trivial⟩) _ _ _ _ hexec hrun _
    (fun h => h) ?_ (fun h => h.elim)
  rintro ((h | ⟨_, h | h | h⟩) | ⟨_, h | h⟩ | ⟨_, h⟩) <;> cases h

end Verif
