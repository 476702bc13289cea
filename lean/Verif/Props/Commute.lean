import Verif.Proofs.Apart
import Verif.Props.Frame
import Verif.Props.Concurrent
import Verif.Proofs.EncryptTrace
/-
Calls that have nothing to do with each other do not interfere, however they are interleaved (C84).
-/
namespace Verif
open Spec SM

/-- The places a call works with: reads, writes or deletes.  `sync`: whether history synchronization is in progress. -/
def Spec.Domain (M : Mgr) (sync : Bool) : Call → Key → Prop
  | .getIdentityKeyPair, k => k = .ikpIsSeed ∨ k = .ikpKey
  | .setTrust j ik _, k => k = .trust j ik
  | .purgeBareJid j, k | .updateDeviceList _ j _, k | .refreshDeviceList _ j, k | .refreshDeviceLists j, k
  | .replaceSessions j _, k | .getDeviceInformation j, k => k.about = some j
  | .ensureDataConsistency, k | .getOwnDeviceInformation, k => k.about = some M.ownJid
  | .setOwnLabel _, k => k = .devLabel M.ownJid M.ownDev
  | .rotation .., _ | .getSendingChainLength _, _ => False
  | .encrypt jids _ _ _, k => ∃ j, (j ∈ jids ∨ j = M.ownJid) ∧ k.about = some j
  | .decrypt msg, k => k.about = some msg.bareJid ∨ sync = true ∧ ∃ ns, k = .queue ns ∨ ∃ j, k = .queueJid ns j
  | _, _ => True

/-- Calls that change which backends are loaded, or whether history synchronization is in progress. -/
def Call.modal : Call → Prop
  | .create .. | .purgeBackend _ | .beforeHistorySync | .afterHistorySync => True
  | _ => False

/-- The trust decision works only with what is stored about the accounts it is asked about. -/
def Spec.Discreet (M : Mgr) : Prop := ∀ ds i t r, Exec (M.decide ds i) t r →
  KeepsFields t ∧ ∀ k, Touches t k → ∃ dev ∈ ds, k.about = some dev.bareJid

namespace Cmt

/-- The interaction stays in `K` and assigns no fields. -/
def In (K : Key → Prop) (o : Op) : Prop := o.setsField = false ∧ ∀ k, o.key = some k → K k

theorem In.mono {K L : Key → Prop} (h : ∀ k, K k → L k) {o : Op} (ho : In K o) : In L o := ⟨ho.1, fun k hk => h k (ho.2 k hk)⟩

theorem In.other {K : Key → Prop} {o : Op} (h : o.setsField = false) (h' : o.key = none) : In K o := ⟨h, fun k hk => by rw [h'] at hk; cases hk⟩
theorem In.load {K : Key → Prop} {k : Key} (h : K k) : In K (.load k) := ⟨rfl, fun _ hk => by cases hk; exact h⟩
theorem In.store {K : Key → Prop} {k : Key} {v : JVal} (h : K k) : In K (.store k v) := ⟨rfl, fun _ hk => by cases hk; exact h⟩
theorem In.delete {K : Key → Prop} {k : Key} (h : K k) : In K (.delete k) := ⟨rfl, fun _ hk => by cases hk; exact h⟩

/-- The places about an account. -/
def About (j : Jid) (k : Key) : Prop := k.about = some j

macro "in_tac" : tactic => `(tactic| first
  | exact In.other rfl rfl | exact In.load rfl | exact In.store rfl | exact In.delete rfl)

variable (M : Mgr)

theorem in_update (ns jid dl) : AllOps (In (About jid)) (updateDeviceList M ns jid dl) := by
  unfold updateDeviceList ensureOwnListed addNewDevice updateKnownDevice updateListed updateUnlisted
  generalize hφ : In (About jid) = φ
  lib_ops []
  all_goals subst hφ
  all_goals first
    | in_tac
    | (rename_i h _ _ _; exact In.load (congrArg some h.symm))
    | (subst_vars; in_tac)

theorem in_refresh (ns jid) : AllOps (In (About jid)) (refreshDeviceList M ns jid) :=
  .bind (.perform (.other rfl rfl)) fun _ => in_update M ns jid _

theorem in_fetch (jid d nss) : AllOps (In (About jid)) (fetchIdentityKey jid d nss) := by
  induction nss with
  | nil => trivial
  | cons ns nss ih =>
    unfold fetchIdentityKey
    generalize hφ : In (About jid) = φ at *
    lib_ops []
    all_goals subst hφ; in_tac

theorem in_device (jid d) : AllOps (In (About jid)) (deviceInformation M jid d) := by
  have h := in_fetch jid d
  unfold deviceInformation identityKeyOf repairNamespaces
  generalize hφ : In (About jid) = φ at *
  lib_ops [h]
  all_goals subst hφ; in_tac

theorem in_info' (jid) : AllOps (In (About jid)) (getDeviceInformation' M jid) := by
  have h := in_device M jid
  unfold getDeviceInformation'
  generalize hφ : In (About jid) = φ at *
  lib_ops [h]
  all_goals subst hφ; in_tac

theorem in_info (jid) : AllOps (In (About jid)) (getDeviceInformation M jid) := .bind (in_info' M jid) fun _ => trivial

theorem in_ownInfo : AllOps (In (About M.ownJid)) (getOwnDeviceInformation M) := by
  have h := in_info M M.ownJid
  unfold getOwnDeviceInformation
  lib_ops []

theorem in_purgeJid (jid) : AllOps (In (About jid)) (purgeBareJid M jid) := by
  unfold purgeBareJid collectIdentityKeys deleteDevice
  generalize hφ : In (About jid) = φ
  lib_ops []
  all_goals subst hφ; in_tac

theorem in_replace (jid d) : AllOps (In (About jid)) (replaceSessions M jid d) := by
  have h := in_info M jid
  unfold replaceSessions replaceSession
  generalize hφ : In (About jid) = φ at *
  lib_ops [h]
  all_goals subst hφ; in_tac

theorem in_send {K : Key → Prop} (ns s) : AllOps (In K) (sendEmptyMessage M ns s) :=
  (ops_sendEmptyMessage M ns s).mono fun o h => by cases h <;> exact .other rfl rfl

theorem in_ikp : AllOps (In fun k => k = .ikpIsSeed ∨ k = .ikpKey) IdentityKeyPair.get := by
  unfold IdentityKeyPair.get IdentityKeyPair.load IdentityKeyPair.generate
  generalize hφ : In (fun k => k = .ikpIsSeed ∨ k = .ikpKey) = φ
  lib_ops []
  all_goals subst hφ; first
    | exact In.other rfl rfl | exact In.load (.inl rfl) | exact In.load (.inr rfl) | exact In.store (.inl rfl) | exact In.store (.inr rfl)

/-! ### Programs whose interactions depend on what they were answered -/

/-- If all interactions are answered as in `ψ`, then all interactions satisfy `φ`, and the result satisfies `Q`. -/
def Stay (ψ : Ev → Prop) (φ : Op → Prop) {α : Type} (Q : α → Prop) (p : P α) : Prop :=
  ∀ t r, Exec p t r → (∀ e ∈ t, ψ e) → (∀ e ∈ t, φ e.1) ∧ ∀ a, r = .ok a → Q a

section
variable {ψ : Ev → Prop} {φ : Op → Prop} {α β : Type}

theorem Stay.of_ops {p : P α} (h : AllOps φ p) : Stay ψ φ (fun _ => True) p := fun _ _ he _ => ⟨fun e hm => h.exec he e hm, fun _ _ => trivial⟩

theorem Stay.bind {p : P α} {f : α → P β} {Q : α → Prop} {R : β → Prop} (hp : Stay ψ φ Q p) (hf : ∀ a, Q a → Stay ψ φ R (f a)) :
    Stay ψ φ R (p >>= f) := by
  intro t r he ht
  rcases exec_seq.1 he with ⟨t1, a, t2, rfl, h1, h2⟩ | ⟨e, h1, rfl⟩ | ⟨h1, rfl⟩
  · obtain ⟨g1, g2⟩ := hp _ _ h1 fun e hm => ht e (List.mem_append_left _ hm)
    obtain ⟨g3, g4⟩ := hf a (g2 a rfl) _ _ h2 fun e hm => ht e (List.mem_append_right _ hm)
    exact ⟨fun e hm => (List.mem_append.1 hm).elim (g1 e) (g3 e), g4⟩
  · exact ⟨(hp _ _ h1 ht).1, nofun⟩
  · exact ⟨(hp _ _ h1 ht).1, nofun⟩

theorem Stay.pure {a : α} {Q : α → Prop} (h : Q a) : Stay ψ φ Q (pure a) := by
  intro t r he _
  obtain ⟨rfl, rfl⟩ := exec_pure.1 he
  exact ⟨fun _ hm => absurd hm List.not_mem_nil, fun b hb => Res.ok.inj hb ▸ h⟩

/-- An interaction. -/
theorem Stay.call {o : Op} {Q : o.Ret → Prop} (h : φ o) (hq : ∀ a, ψ ⟨o, .ok a⟩ → Q a) : Stay ψ φ Q (Verif.call o) := by
  intro t r he ht
  rcases exec_call.1 he with ⟨rfl, rfl⟩ | ⟨e, rfl, rfl⟩ | ⟨a, rfl, rfl⟩
  · exact ⟨fun _ hm => absurd hm List.not_mem_nil, fun _ h => by cases h⟩
  · exact ⟨fun e hm => by rw [List.mem_singleton.1 hm]; exact h, fun _ h => by cases h⟩
  · exact ⟨fun e hm => by rw [List.mem_singleton.1 hm]; exact h, fun b hb => Res.ok.inj hb ▸ hq a (ht _ (List.mem_singleton.2 rfl))⟩

theorem Stay.mono {p : P α} {φ' : Op → Prop} {Q : α → Prop} (h : Stay ψ φ Q p) (hm : ∀ o, φ o → φ' o) : Stay ψ φ' Q p :=
  fun t r he ht => ⟨fun e hme => hm _ ((h t r he ht).1 e hme), (h t r he ht).2⟩

theorem Stay.when {c : Prop} [Decidable c] {p : P Unit} (h : c → Stay ψ φ (fun _ => True) p) : Stay ψ φ (fun _ => True) (Prog.when c p) := by
  unfold Prog.when
  split
  · exact h ‹_›
  · exact .of_ops trivial

end

theorem jids_of_recipients {M : Mgr} {order : List Ns} {jids : List Jid} (hnd : jids.Nodup) {t : List Ev} {x : List DeviceInfo × List Bundle}
    (he : Exec (recipientDevices M order jids) t (.ok x)) : ∀ dev ∈ x.1, dev.bareJid ∈ jids := by
  obtain ⟨-, infos, h⟩ := Rec.sound (φ := fun _ => True) (h := []) (trace_recipientDevices order jids hnd) he fun _ _ => trivial
  intro dev hd
  obtain ⟨i, hi, src, hs, -, ns, -, rfl⟩ := (h.devices dev).1 hd
  rw [show (({ src with namespaces := [ns] } : DeviceInfo).bareJid) = src.bareJid from rfl, (h.info i hi).bareJid src hs]
  exact (h.asked i.1).1 ⟨i, hi, rfl⟩

/-- The devices are accounts in `J`. -/
def Of (J : Jid → Prop) (ds : List DeviceInfo) : Prop := ∀ dev ∈ ds, J dev.bareJid

theorem stay_decide {ψ : Ev → Prop} {J : Jid → Prop} (hd : Discreet M) {ds : List DeviceInfo} (hds : Of J ds) (i : Option String) :
    Stay ψ (In fun k => ∃ j, J j ∧ k.about = some j) (fun _ => True) (M.decide ds i) := by
  intro t r he _
  obtain ⟨h1, h2⟩ := hd ds i t r he
  refine ⟨fun e hm => ⟨h1 e hm, fun k hk => ?_⟩, fun _ _ => trivial⟩
  obtain ⟨dev, hdev, ha⟩ := h2 k ⟨e, hm, hk⟩
  exact ⟨_, hds dev hdev, ha⟩

theorem stay_trustDevices {ψ : Ev → Prop} {J : Jid → Prop} {K : Key → Prop} (level) {ds : List DeviceInfo} (hds : Of J ds) :
    Stay ψ (In K) (Of J) (devicesWithTrust level ds) := by
  have hops : AllOps (In K) (devicesWithTrust level ds) := by
    unfold devicesWithTrust
    generalize hφ : In K = φ
    lib_ops []
    all_goals subst hφ; in_tac
  refine fun t r he _ => ⟨fun e hm => hops.exec he e hm, fun a ha dev hd => ?_⟩
  subst ha
  exact hds dev (exec_filterAll_mem he dev hd)

theorem stay_ask {ψ : Ev → Prop} {J : Jid → Prop} (hd : Discreet M) {ds us : List DeviceInfo} (hds : Of J ds) (hus : Of J us) (i : Option String) :
    Stay ψ (In fun k => ∃ j, J j ∧ k.about = some j) (Of J) (askTrust M ds us i) := by
  unfold askTrust
  split
  · refine (stay_decide M hd hus i).bind fun _ _ => ?_
    have hre : ∀ dev, J dev.bareJid → AllOps (In fun k => ∃ j, J j ∧ k.about = some j) (reloadTrust M dev) := by
      intro dev hj
      have : In (fun k => ∃ j, J j ∧ k.about = some j) (.load (.trust dev.bareJid dev.identityKey)) := .load ⟨_, hj, rfl⟩
      unfold reloadTrust
      generalize hφ : In (fun k => ∃ j, J j ∧ k.about = some j) = φ at *
      lib_ops []
    have hm : Stay ψ (In fun k => ∃ j, J j ∧ k.about = some j) (Of J) (Prog.mapAll (M.O.iter ds) (reloadTrust M)) := by
      intro t r he _
      refine ⟨fun e hm => (AllOps.mapAll fun dev hdev => hre dev (hds dev (by simpa using hdev))).exec he e hm, ?_⟩
      rintro a rfl dev hdev
      obtain ⟨src, hsrc, t', h'⟩ := exec_mapAll_mem he dev hdev
      unfold reloadTrust at h'
      obtain ⟨_, _, _, _, _, h''⟩ := exec_seq_ok.1 h'
      cases h''
      exact hds src (by simpa using hsrc)
    exact hm.bind fun a ha => .pure fun dev hdev => ha dev (by simpa using hdev)
  · exact .pure hds

theorem stay_decideTrust {ψ : Ev → Prop} {J : Jid → Prop} (hd : Discreet M) {ds : List DeviceInfo} (hds : Of J ds) (i : Option String) :
    Stay ψ (In fun k => ∃ j, J j ∧ k.about = some j) (fun _ => True) (decideTrust M ds i) := by
  have hit : ∀ {l : List DeviceInfo}, Of J l → Of J (M.O.iter l) := fun h dev hm => h dev (by simpa using hm)
  unfold decideTrust
  refine (stay_trustDevices _ (hit hds)).bind fun us hus => ?_
  refine (stay_ask M hd hds hus i).bind fun ds' hds' => ?_
  refine (stay_trustDevices _ (hit hds')).bind fun still _ => ?_
  split
  · exact .of_ops trivial
  · exact .of_ops trivial

theorem stay_encrypt {ψ : Ev → Prop} (hd : Discreet M) (jids pt prio i) :
    Stay ψ (In fun k => ∃ j, (j ∈ jids ∨ j = M.ownJid) ∧ k.about = some j) (fun _ => True) (encrypt M jids pt prio i) := by
  have mem : ∀ j, j ∈ setUnion jids [M.ownJid] → j ∈ jids ∨ j = M.ownJid := fun j h => by simpa [mem_setUnion] using h
  unfold encrypt
  refine (Stay.of_ops (.perform (.other rfl rfl))).bind fun bs _ => ?_
  refine (Stay.of_ops (allOps_liftE _)).bind fun order _ => ?_
  have hrec : Stay ψ (In fun k => ∃ j, (j ∈ jids ∨ j = M.ownJid) ∧ k.about = some j) (fun x => Of (fun j => j ∈ jids ∨ j = M.ownJid) x.1)
      (recipientDevices M order (setUnion jids [M.ownJid])) := by
    intro t r he _
    have hops : AllOps (In fun k => ∃ j, (j ∈ jids ∨ j = M.ownJid) ∧ k.about = some j) (recipientDevices M order (setUnion jids [M.ownJid])) := by
      unfold recipientDevices
      refine .bind (.mapAll fun j hj => (in_info' M j).mono fun o ho => ho.mono fun k hk => ⟨j, mem j (by simpa using hj), hk⟩) fun _ => ?_
      lib_ops []
    refine ⟨fun e hm => hops.exec he e hm, ?_⟩
    rintro x rfl dev hdev
    exact mem _ (jids_of_recipients (nodup_dedup _) he dev hdev)
  refine hrec.bind fun x hx => ?_
  obtain ⟨devices, cache⟩ := x
  refine (stay_decideTrust M hd hx i).bind fun ds _ => .of_ops ?_
  refine AllOps.mono (φ := In fun _ => False) ?_ fun o ho => ho.mono fun _ h => h.elim
  unfold encryptTrusted encryptBackend encryptDevice encryptForDevice bundleFor devicesWithTrust
  generalize hφ : In (fun _ => False) = φ
  lib_ops []
  all_goals subst hφ; in_tac

/-- `getSync` answers `sync` at most. -/
def Says (sync : Bool) (e : Ev) : Prop := e = ⟨.getSync, .ok true⟩ → sync = true

theorem stay_reply (sync : Bool) (msg : Message) (ns kex s) :
    Stay (Says sync) (In (Domain M sync (.decrypt msg))) (fun _ => True) (autoReply M ns kex s) := by
  unfold autoReply
  refine .when fun _ => ?_
  refine (Stay.call (Q := fun b => b = true → sync = true) (.other rfl rfl) ?_).bind fun b hb => ?_
  · rintro _ h rfl
    exact h rfl
  · split
    · rename_i htrue
      have hs := hb htrue
      have hq : ∀ ns, Domain M sync (.decrypt msg) (.queue ns) := fun ns => .inr ⟨hs, ns, .inl rfl⟩
      have hj : ∀ ns j, Domain M sync (.decrypt msg) (.queueJid ns j) := fun ns j => .inr ⟨hs, ns, .inr ⟨j, rfl⟩⟩
      refine .of_ops ?_
      unfold queueEmpty
      generalize hφ : In (Domain M sync (.decrypt msg)) = φ
      lib_ops []
      all_goals subst hφ; first
        | exact .load (hq _) | exact .load (hj _ _) | exact .store (hq _) | exact .store (hj _ _)
    · exact .of_ops (in_send M ns s)

theorem in_consume {K : Key → Prop} (ns s) : AllOps (In K) (consumePreKey M ns s) := by
  unfold consumePreKey discardPreKey refillPreKeys
  generalize hφ : In K = φ
  lib_ops []
  all_goals subst hφ; in_tac

theorem in_findSender (msg : Message) : AllOps (In (About msg.bareJid)) (findSender M msg) := by
  have h1 := in_info M msg.bareJid
  have h2 := in_refresh M msg.ns msg.bareJid
  unfold findSender
  generalize hφ : In (About msg.bareJid) = φ at *
  lib_ops []

theorem in_content {K : Key → Prop} (msg : Message) (dev ekm kex) : AllOps (In K) (decryptContent M msg dev ekm kex) := by
  unfold decryptContent keyMaterial plaintextOf decryptKeyMaterial handleKeyExchange
  generalize hφ : In K = φ
  lib_ops []
  all_goals subst hφ; in_tac

theorem stay_decrypt (sync : Bool) (msg : Message) :
    Stay (Says sync) (In (Domain M sync (.decrypt msg))) (fun _ => True) (decrypt M msg) := by
  unfold decrypt
  refine (Stay.of_ops (.perform (.other rfl rfl))).bind fun bs _ => ?_
  split
  · exact .of_ops trivial
  · split
    · exact .of_ops trivial
    · refine (Stay.of_ops ((in_findSender M msg).mono fun o h => h.mono fun _ => .inl)).bind fun dev _ => ?_
      refine (Stay.of_ops (in_content M msg dev _ _)).bind fun x _ => ?_
      obtain ⟨pt, s, km⟩ := x
      refine Stay.bind (Q := fun _ => True) ?_ fun _ _ => .of_ops trivial
      unfold postDecrypt
      refine (Stay.of_ops (.perform (.other rfl rfl))).bind fun _ _ => ?_
      refine (Stay.of_ops (.when fun _ => in_consume M msg.ns s)).bind fun _ _ => ?_
      exact stay_reply M sync msg msg.ns _ s

/-- The places a call works with. -/
theorem stay_call (sync : Bool) (c : Call) (hc : ¬ c.modal) (hd : c.asks → Discreet M) :
    Stay (Says sync) (In (Domain M sync c)) (fun _ => True) (c.run M) := by
  have drop : ∀ {α : Type} {K : Key → Prop} {p : P α}, AllOps (In K) p → AllOps (In K) (p >>= fun _ => pure ()) := fun h => .bind h fun _ => trivial
  cases c with
  | getIdentityKeyPair => exact .of_ops (drop in_ikp)
  | create | purgeBackend | beforeHistorySync | afterHistorySync => exact absurd trivial hc
  | purgeBareJid jid => exact .of_ops (in_purgeJid M jid)
  | ensureDataConsistency =>
    refine .of_ops ?_
    have h : ∀ ns, AllOps (In (Domain M sync .ensureDataConsistency)) (refreshDeviceList M ns M.ownJid) := fun ns => in_refresh M ns M.ownJid
    show AllOps _ (ensureDataConsistency M)
    unfold ensureDataConsistency
    generalize hφ : In (Domain M sync .ensureDataConsistency) = φ at *
    lib_ops [h]
    all_goals subst hφ; in_tac
  | rotation p fuel rounds => exact .of_ops ((ops_manageRotation M p fuel rounds).mono fun o h => by cases h <;> exact .other rfl rfl)
  | updateDeviceList ns jid dl => exact .of_ops (in_update M ns jid dl)
  | refreshDeviceList ns jid => exact .of_ops (in_refresh M ns jid)
  | refreshDeviceLists jid =>
    refine .of_ops ?_
    have h : ∀ ns, AllOps (In (Domain M sync (.refreshDeviceLists jid))) (refreshDeviceList M ns jid) := fun ns => in_refresh M ns jid
    show AllOps _ (refreshDeviceLists M jid)
    unfold refreshDeviceLists
    generalize hφ : In (Domain M sync (.refreshDeviceLists jid)) = φ at *
    lib_ops [h]
    all_goals subst hφ; in_tac
  | setTrust jid ik level => exact .of_ops (.perform (.store rfl))
  | replaceSessions jid d => exact .of_ops (drop (in_replace M jid d))
  | getSendingChainLength dev =>
    refine .of_ops (drop ?_)
    unfold getSendingChainLength
    generalize hφ : In _ = φ
    lib_ops []
    all_goals subst hφ; in_tac
  | setOwnLabel label =>
    refine .of_ops ((ops_setOwnLabel M label).mono fun o h => ?_)
    cases h <;> first | exact .other rfl rfl | exact .store rfl
  | getDeviceInformation jid => exact .of_ops (drop (in_info M jid))
  | getOwnDeviceInformation => exact .of_ops (drop (in_ownInfo M))
  | encrypt jids pt prio i => exact (stay_encrypt M (hd trivial) jids pt prio i).bind fun _ _ => .of_ops trivial
  | decrypt msg => exact (stay_decrypt M sync msg).bind fun _ _ => .of_ops trivial

theorem keeps {K : Key → Prop} {t : List Ev} (h : ∀ e ∈ t, In K e.1) : KeepsFields t := fun e hm => (h e hm).1
theorem touches {K : Key → Prop} {t : List Ev} (h : ∀ e ∈ t, In K e.1) {k : Key} (hk : Touches t k) : K k :=
  let ⟨e, hm, he⟩ := hk; (h e hm).2 k he

end Cmt

/-- What is assumed of calls that are running at the same time: none of them changes the mode, trust decisions stay with the accounts they
are asked about, and no two of them work with the same place. -/
structure Spec.Separate (sync : Bool) (calls : List Running) : Prop where
  mode : ∀ k ∈ calls, ¬ k.c.modal
  discreet : ∀ k ∈ calls, k.c.asks → Discreet k.M
  disjoint : calls.Pairwise fun a b => ∀ k, Domain a.M sync a.c k → ¬ Domain b.M sync b.c k

namespace Cmt

/-- All executions keep to their places. -/
theorem confined {w w' : World} {calls : List Running} {t : List Ev} (hc : Separate w.sync calls)
    (hs : Shuffle (calls.map (·.trace)) t) (hr : Lib.Runs w t w') : ∀ k ∈ calls, ∀ e ∈ k.trace, In (Domain k.M w.sync k.c) e.1 := by
  have hf : KeepsFields t := by
    intro e he
    obtain ⟨u, hu, hm⟩ := (hs.mem_iff e).1 he
    obtain ⟨k, hk, rfl⟩ := List.mem_map.1 hu
    exact ((stay_call k.M true k.c (hc.mode k hk) (hc.discreet k hk) _ _ k.exec fun _ _ _ => rfl).1 e hm).1
  intro k hk e he
  refine (stay_call k.M w.sync k.c (hc.mode k hk) (hc.discreet k hk) _ _ k.exec ?_).1 e he
  rintro x hx rfl
  have := Apt.getSync_of_runs hf hr ((hs.mem_iff _).2 ⟨_, List.mem_map_of_mem hk, hx⟩)
  exact (Except.ok.inj this).symm

theorem apart {sync : Bool} {calls : List Running} (hd : calls.Pairwise fun a b => ∀ k, Domain a.M sync a.c k → ¬ Domain b.M sync b.c k)
    (h : ∀ k ∈ calls, ∀ e ∈ k.trace, In (Domain k.M sync k.c) e.1) : (calls.map (·.trace)).Pairwise NoSharing := by
  rw [List.pairwise_map]
  exact hd.imp_of_mem fun ha hb hab k h1 h2 => hab k (touches (h _ ha) h1) (touches (h _ hb) h2)

end Cmt

/-- C84: calls that work with different places, in any interleaving, have no effect on each other: with the same answers from backends, server and
application, every other interleaving, and in particular running them one after the other in any order, is possible as well, gives every call the same
result, and leaves storage and fields in the same state. -/
theorem C84 {w w' : World} {calls : List Running} {t : List Ev} (hc : Separate w.sync calls)
    (hs : Shuffle (calls.map (·.trace)) t) (hr : Lib.Runs w t w') :
    (∀ t', Shuffle (calls.map (·.trace)) t' → ∃ w'', Lib.Runs w t' w'' ∧ SameState w'' w') ∧
    ∀ order : List Running, order.Perm calls → ∃ w'', Lib.Runs w (order.map (·.trace)).flatten w'' ∧ SameState w'' w' := by
  have hin := Cmt.confined hc hs hr
  have hf : ∀ u ∈ calls.map (·.trace), KeepsFields u := fun u hu => by
    obtain ⟨k, hk, rfl⟩ := List.mem_map.1 hu
    exact Cmt.keeps (hin k hk)
  have hp := Cmt.apart hc.disjoint hin
  exact ⟨fun t' hs' => Apt.any_order (.refl _) hs hs' hf hp hr,
    fun order ho => Apt.any_order (ho.map _) hs (Apt.shuffle_flatten _) hf hp hr⟩

/-- Each of them might as well have been the only one: it can run alone, and leaves the places it works with as they are in the end.  All other
places are as before. -/
theorem C84_alone {w w' : World} {calls : List Running} {t : List Ev} (hc : Separate w.sync calls)
    (hs : Shuffle (calls.map (·.trace)) t) (hr : Lib.Runs w t w') :
    (∀ k ∈ calls, ∃ v, Lib.Runs w k.trace v ∧ ∀ x, Domain k.M w.sync k.c x → v.disk x = w'.disk x) ∧
    (∀ x, (∀ k ∈ calls, ¬ Domain k.M w.sync k.c x) → w'.disk x = w.disk x) ∧ w'.backends = w.backends ∧ w'.sync = w.sync := by
  have hin := Cmt.confined hc hs hr
  have hf : ∀ u ∈ calls.map (·.trace), KeepsFields u := fun u hu => by
    obtain ⟨k, hk, rfl⟩ := List.mem_map.1 hu
    exact Cmt.keeps (hin k hk)
  have hft := Apt.keeps_of_shuffle hs hf
  have g := Apt.runs_other (K := fun _ => False) hft (fun _ _ h => h) hr
  refine ⟨fun k hk => ?_, fun x hx => ?_, g.backends.symm, g.sync.symm⟩
  · obtain ⟨pre, post, rfl⟩ := List.append_of_mem hk
    rw [List.map_append, List.map_cons] at hs hf
    obtain ⟨_, h2, h3⟩ := List.pairwise_append.1 hc.disjoint
    obtain ⟨v, h4, h5⟩ := Apt.alone hs hf hr rfl (K := Domain k.M w.sync k.c) (fun x hx => Cmt.touches (hin k hk) hx) (by
      intro u hu x hx hx'
      rw [← List.map_append] at hu
      obtain ⟨k', hk', rfl⟩ := List.mem_map.1 hu
      rcases List.mem_append.1 hk' with h | h
      · exact h3 k' h k List.mem_cons_self x (Cmt.touches (hin k' (List.mem_append_left _ h)) hx) hx'
      · exact (List.pairwise_cons.1 h2).1 k' h x hx' (Cmt.touches (hin k' (List.mem_append_right _ (.tail _ h))) hx)) (.refl _ w)
    exact ⟨v, h4, fun x hx => (h5.disk x hx).symm⟩
  · refine ((Apt.runs_other (K := (· = x)) hft ?_ hr).disk x rfl).symm
    rintro y hy rfl
    obtain ⟨u, hu, hy⟩ := (Apt.touches_of_shuffle hs).1 hy
    obtain ⟨k, hk, rfl⟩ := List.mem_map.1 hu
    exact hx k hk (Cmt.touches (hin k hk) hy)

/-- The hypotheses are met, for example, by calls about different accounts outside history synchronization: decryption of messages,
device list updates, trust, device information, session replacement and removal. -/
theorem C84_accounts {calls : List Running} (hm : ∀ k ∈ calls, match k.c with
      | .decrypt _ | .updateDeviceList .. | .refreshDeviceList .. | .refreshDeviceLists _ | .setTrust .. | .getDeviceInformation _
      | .replaceSessions .. | .purgeBareJid _ => True
      | _ => False)
    (hd : calls.Pairwise fun a b => ∀ j, Concerns a.M a.c j → ¬ Concerns b.M b.c j) : Separate false calls := by
  have key : ∀ k ∈ calls, ¬ k.c.modal ∧ ¬ k.c.asks ∧ ∀ x, Domain k.M false k.c x → ∃ j, Concerns k.M k.c j ∧ x.about = some j := by
    intro k hk
    have := hm k hk
    cases hc : k.c <;> rw [hc] at this <;> first
      | (cases this; done)
      | exact ⟨fun h => h, fun h => h, fun x hx => ⟨_, rfl, hx⟩⟩
      | exact ⟨fun h => h, fun h => h, fun x hx => ⟨_, rfl, by cases hx; rfl⟩⟩
      | (refine ⟨fun h => h, fun h => h, fun x hx => ⟨_, rfl, ?_⟩⟩
         rcases hx with h | ⟨h, _⟩
         · exact h
         · cases h)
  refine ⟨fun k hk => (key k hk).1, fun k hk h => absurd h (key k hk).2.1, hd.imp_of_mem fun ha hb hab x h1 h2 => ?_⟩
  obtain ⟨j, h3, h4⟩ := (key _ ha).2.2 x h1
  obtain ⟨j', h5, h6⟩ := (key _ hb).2.2 x h2
  cases Option.some.inj (h4.symm.trans h6)
  exact hab j h3 h5

/-- A message is decrypted, with a key exchange, while a device list of another account is updated, step by step in turn. -/
theorem C84_example : ∃ (calls : List Running) (t : List Ev) (w' : World), calls.map (·.c) = [.decrypt kexMessage, .updateDeviceList "n" "b" [(1, none)]] ∧
    (∀ k ∈ calls, k.res = .ok ()) ∧ Separate World.chat.sync calls ∧ Shuffle (calls.map (·.trace)) t ∧ Lib.Runs World.chat t w' ∧
    World.chat.disk (.devList "b") = none ∧ w'.disk (.devList "b") ≠ none ∧ t ≠ (calls.map (·.trace)).flatten := by
  let ps : List (P Unit) := [(Call.decrypt kexMessage).run Mgr.ex, (Call.updateDeviceList "n" "b" [(1, none)]).run Mgr.ex]
  let is := (List.replicate 30 [0, 1]).flatten ++ List.replicate 60 0
  have hx := sched_ok Lib (Lib.env friendly) (Lib.env_ok friendly friendly_ok) is ps World.chat
  have c1 : (sched (Lib.env friendly) Lib.next is ps World.chat).2.1[0]?.any (Prog.isOk fun _ => true) = true := by decide +kernel
  have c2 : (sched (Lib.env friendly) Lib.next is ps World.chat).2.1[1]?.any (Prog.isOk fun _ => true) = true := by decide +kernel
  have c3 : ((sched (Lib.env friendly) Lib.next is ps World.chat).2.2.2.disk (.devList "b")).isSome = true := by decide +kernel
  have c4 : ((sched (Lib.env friendly) Lib.next is ps World.chat).2.2.1.map fun e => e.1.isStorage) ≠
    ((sched (Lib.env friendly) Lib.next is ps World.chat).1.flatten.map fun e => e.1.isStorage) := by decide +kernel
  generalize sched (Lib.env friendly) Lib.next is ps World.chat = x at hx c1 c2 c3 c4
  obtain ⟨ts, y, t, w'⟩ := x
  obtain ⟨t1, t2, rfl⟩ := list2 (l := ts) hx.len
  obtain ⟨_, e1, -⟩ := hx.isOk 0 rfl rfl _ c1
  obtain ⟨_, e2, -⟩ := hx.isOk 1 rfl rfl _ c2
  refine ⟨[⟨Mgr.ex, .decrypt kexMessage, _, _, e1⟩, ⟨Mgr.ex, .updateDeviceList "n" "b" [(1, none)], _, _, e2⟩], t, w', rfl, ?_, ?_,
    hx.shuffle, hx.runs, rfl, (fun h => by rw [h] at c3; cases c3), fun h => c4 (by rw [h]; rfl)⟩
  · intro k hk
    simp only [List.mem_cons, List.not_mem_nil, or_false] at hk
    rcases hk with rfl | rfl <;> rfl
  · refine C84_accounts (fun k hk => ?_) ?_
    · simp only [List.mem_cons, List.not_mem_nil, or_false] at hk
      rcases hk with rfl | rfl <;> trivial
    · refine List.pairwise_cons.2 ⟨fun b hb => ?_, List.pairwise_singleton ..⟩
      cases List.mem_singleton.1 hb
      rintro _ rfl h
      exact absurd (show kexMessage.bareJid = "b" from h) (by decide)

end Verif
