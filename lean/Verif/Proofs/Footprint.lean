import Verif.Model.Api
import Verif.Base.AllOps
/-
Footprints: the interactions each function can perform.
-/
namespace Verif
namespace Foot

/-- `update_device_list` -/
inductive Update (M : Mgr) (ns : Ns) (jid : Jid) : Op → Prop where
  | load (k : Key) : Update M ns jid (.load k)
  | getBackends : Update M ns jid .getBackends
  | active (d : DevId) (a : Dict Ns Bool) : Update M ns jid (.store (.devActive jid d) (.ofBools a))
  | label (d : DevId) (l : Option String) : Update M ns jid (.store (.devLabel jid d) (.ofOptStr l))
  | namespaces (d : DevId) (l : List Ns) : Update M ns jid (.store (.devNamespaces jid d) (.ofStrs l))
  | list (l : List DevId) : Update M ns jid (.store (.devList jid) (.ofInts l))
  | upload (l : DevList) : jid = M.ownJid → Update M ns jid (.uploadList ns l)

/-- `refresh_device_list` -/
inductive Refresh (M : Mgr) (ns : Ns) (jid : Jid) : Op → Prop where
  | download : Refresh M ns jid (.downloadList ns jid)
  | update {o : Op} : Update M ns jid o → Refresh M ns jid o

/-- `get_device_information` -/
inductive Info (jid : Jid) : Op → Prop where
  | load (k : Key) : Info jid (.load k)
  | identityKey (d : DevId) (b : Bytes) : Info jid (.store (.devIdentityKey jid d) (.str (Base64.encode b)))
  | namespaces (d : DevId) (l : List Ns) : Info jid (.store (.devNamespaces jid d) (.ofStrs l))
  | bundle (ns : Ns) (d : DevId) : Info jid (.downloadBundle ns jid d)

/-- `purge_backend` -/
inductive PurgeBackend (M : Mgr) (ns : Ns) : Op → Prop where
  | download : PurgeBackend M ns (.downloadList ns M.ownJid)
  | upload (l : DevList) : PurgeBackend M ns (.uploadList ns l)
  | active (a : Dict Ns Bool) : PurgeBackend M ns (.store (.devActive M.ownJid M.ownDev) (.ofBools a))
  | getBackends : PurgeBackend M ns .getBackends
  | setBackends (bs : List Ns) : PurgeBackend M ns (.setBackends bs)
  | purge : PurgeBackend M ns (.purge ns)
  | deleteBundle : PurgeBackend M ns (.deleteBundle ns M.ownDev)
  | info {o : Op} : Info M.ownJid o → PurgeBackend M ns o

/-- `purge_bare_jid` -/
inductive PurgeJid (jid : Jid) : Op → Prop where
  | load (k : Key) : PurgeJid jid (.load k)
  | namespaces (d : DevId) : PurgeJid jid (.delete (.devNamespaces jid d))
  | active (d : DevId) : PurgeJid jid (.delete (.devActive jid d))
  | label (d : DevId) : PurgeJid jid (.delete (.devLabel jid d))
  | identityKey (d : DevId) : PurgeJid jid (.delete (.devIdentityKey jid d))
  | list : PurgeJid jid (.delete (.devList jid))
  | trust (ik : Bytes) : PurgeJid jid (.delete (.trust jid ik))
  | getBackends : PurgeJid jid .getBackends
  | purge (ns : Ns) : PurgeJid jid (.purgeJid ns jid)

/-- the rotation task -/
inductive Rotation (M : Mgr) : Op → Prop where
  | getBackends : Rotation M .getBackends
  | age (ns : Ns) : Rotation M (.spkAge ns)
  | rotate (ns : Ns) : Rotation M (.rotateSpk ns)
  | getBundle (ns : Ns) : Rotation M (.getBundle ns M.ownJid M.ownDev)
  | upload (b : Bundle) : Rotation M (.uploadBundle b)
  | sleep (n : Int) : Rotation M (.sleep n)

/-- `ensure_data_consistency` -/
inductive Ensure (M : Mgr) : Op → Prop where
  | getBundle (ns : Ns) : Ensure M (.getBundle ns M.ownJid M.ownDev)
  | download (ns : Ns) : Ensure M (.downloadBundle ns M.ownJid M.ownDev)
  | upload (b : Bundle) : Ensure M (.uploadBundle b)
  | refresh {o : Op} (ns : Ns) : Refresh M ns M.ownJid o → Ensure M o

/-- `set_own_label` -/
inductive OwnLabel (M : Mgr) : Op → Prop where
  | label (l : Option String) : OwnLabel M (.store (.devLabel M.ownJid M.ownDev) (.ofOptStr l))
  | getBackends : OwnLabel M .getBackends
  | download (ns : Ns) : OwnLabel M (.downloadList ns M.ownJid)
  | upload (ns : Ns) (l : DevList) : OwnLabel M (.uploadList ns l)

/-- `replace_sessions` -/
inductive Replace (jid : Jid) : Op → Prop where
  | getBackends : Replace jid .getBackends
  | loadSession (ns : Ns) (j : Jid) (d : DevId) : Replace jid (.loadSession ns j d)
  | encryptEmpty (ns : Ns) : Replace jid (.encryptEmpty ns)
  | bundle (ns : Ns) (j : Jid) (d : DevId) : Replace jid (.downloadBundle ns j d)
  | build (ns : Ns) (j : Jid) (d : DevId) (b : Bundle) (m : PlainKM) : Replace jid (.buildActive ns j d b m)
  | send (m : Message) (j : Jid) : Replace jid (.sendMessage m j)
  | store (ns : Ns) (s : Session) : Replace jid (.storeSession ns s)
  | info {o : Op} : Info jid o → Replace jid o

/-- sending an empty message -/
inductive SendEmpty (ns : Ns) : Op → Prop where
  | encryptEmpty : SendEmpty ns (.encryptEmpty ns)
  | encryptKM (s : Session) (m : PlainKM) : SendEmpty ns (.encryptKM ns s m)
  | send (m : Message) (j : Jid) : m.ns = ns → SendEmpty ns (.sendMessage m j)
  | store (s : Session) : SendEmpty ns (.storeSession ns s)

/-- `after_history_sync` -/
inductive AfterSync : Op → Prop where
  | setSync : AfterSync (.setSync false)
  | getBackends : AfterSync .getBackends
  | deleteHidden (ns : Ns) : AfterSync (.deleteHidden ns)
  | load (k : Key) : AfterSync (.load k)
  | queue (ns : Ns) : AfterSync (.delete (.queue ns))
  | queueJid (ns : Ns) (j : Jid) : AfterSync (.delete (.queueJid ns j))
  | loadSession (ns : Ns) (j : Jid) (d : DevId) : AfterSync (.loadSession ns j d)
  | sendEmpty {o : Op} (ns : Ns) : SendEmpty ns o → AfterSync o

/-- `encrypt`, apart from the application's trust decision -/
inductive Encrypt : Op → Prop where
  | getBackends : Encrypt .getBackends
  | evalTrust (dev : DeviceInfo) : Encrypt (.evalTrust dev)
  | encryptPlaintext (ns : Ns) (p : Bytes) : Encrypt (.encryptPlaintext ns p)
  | loadSession (ns : Ns) (j : Jid) (d : DevId) : Encrypt (.loadSession ns j d)
  | build (ns : Ns) (j : Jid) (d : DevId) (b : Bundle) (m : PlainKM) : Encrypt (.buildActive ns j d b m)
  | encryptKM (ns : Ns) (s : Session) (m : PlainKM) : Encrypt (.encryptKM ns s m)
  | storeSession (ns : Ns) (s : Session) : Encrypt (.storeSession ns s)
  | info {o : Op} (jid : Jid) : Info jid o → Encrypt o

/-- `decrypt` -/
inductive Decrypt (M : Mgr) (msg : Message) : Op → Prop where
  | getBackends : Decrypt M msg .getBackends
  | evalTrust (dev : DeviceInfo) : Decrypt M msg (.evalTrust dev)
  | loadSession (j : Jid) (d : DevId) : Decrypt M msg (.loadSession msg.ns j d)
  | build (j : Jid) (d : DevId) (x : KeyExchange) (e : EncKM) : Decrypt M msg (.buildPassive msg.ns j d x e)
  | decryptKM (s : Session) (e : EncKM) : Decrypt M msg (.decryptKM msg.ns s e)
  | decryptPlaintext (c : Content) (m : PlainKM) : Decrypt M msg (.decryptPlaintext msg.ns c m)
  | storeSession (s : Session) : Decrypt M msg (.storeSession msg.ns s)
  | getSync : Decrypt M msg .getSync
  | hide (s : Session) : Decrypt M msg (.hidePreKey msg.ns s)
  | delete (s : Session) : Decrypt M msg (.deletePreKey msg.ns s)
  | numVisible : Decrypt M msg (.numVisible msg.ns)
  | generate (n : Int) : Decrypt M msg (.generatePreKeys msg.ns n)
  | getBundle : Decrypt M msg (.getBundle msg.ns M.ownJid M.ownDev)
  | upload (b : Bundle) : Decrypt M msg (.uploadBundle b)
  | queue (ns : Ns) (l : List Jid) : Decrypt M msg (.store (.queue ns) (.ofStrs l))
  | queueJid (ns : Ns) (j : Jid) (l : List DevId) : Decrypt M msg (.store (.queueJid ns j) (.ofInts l))
  | info {o : Op} : Info msg.bareJid o → Decrypt M msg o
  | refresh {o : Op} : Refresh M msg.ns msg.bareJid o → Decrypt M msg o
  | sendEmpty {o : Op} : SendEmpty msg.ns o → Decrypt M msg o

/-- `IdentityKeyPair.get` -/
inductive Ikp : Op → Prop where
  | load (k : Key) : Ikp (.load k)
  | token : Ikp (.tokenBytes 32)
  | isSeed : Ikp (.store .ikpIsSeed (.bool true))
  | key (b : Bytes) : Ikp (.store .ikpKey (.str (Base64.encode b)))

/-- `create` after the identity key pair was obtained -/
inductive Create (M : Mgr) : Op → Prop where
  | load (k : Key) : Create M (.load k)
  | setBackends (bs : List Ns) : Create M (.setBackends bs)
  | setSync : Create M (.setSync true)
  | getBackends : Create M .getBackends
  | download (ns : Ns) : Create M (.downloadList ns M.ownJid)
  | randBelow (n : Nat) : Create M (.randBelow n)
  | namespaces (d : DevId) (l : List Ns) : Create M (.store (.devNamespaces M.ownJid d) (.ofStrs l))
  | active (d : DevId) (a : Dict Ns Bool) : Create M (.store (.devActive M.ownJid d) (.ofBools a))
  | label (d : DevId) (l : Option String) : Create M (.store (.devLabel M.ownJid d) (.ofOptStr l))
  | identityKey (d : DevId) (b : Bytes) : Create M (.store (.devIdentityKey M.ownJid d) (.str (Base64.encode b)))
  | list (l : List DevId) : Create M (.store (.devList M.ownJid) (.ofInts l))
  | trust (ik : Bytes) : Create M (.store (.trust M.ownJid ik) (.str M.undecided))
  | ownDeviceId (d : DevId) : Create M (.store .ownDeviceId (.int d))
  | generate (ns : Ns) (n : Int) : Create M (.generatePreKeys ns n)
  | numVisible (ns : Ns) : Create M (.numVisible ns)
  | getBundle (ns : Ns) (d : DevId) : Create M (.getBundle ns M.ownJid d)
  | upload (b : Bundle) : Create M (.uploadBundle b)
  | refresh {o : Op} (ns : Ns) (d : DevId) : Refresh { M with ownDev := d } ns M.ownJid o → Create M o
  | info {o : Op} : Info M.ownJid o → Create M o
  | purge {o : Op} (ns : Ns) (d : DevId) : PurgeBackend { M with ownDev := d } ns o → Create M o

end Foot
open Foot

section helpers
variable {φ : Op → Prop} {α β : Type}

theorem allOps_fmap (f : α → Except Exn β) (m : Option α) : AllOps φ (Maybe.fmap f m : P (Option β)) := by
  cases m with
  | none => trivial
  | some a => simp only [Maybe.fmap]; cases f a <;> trivial
theorem allOps_fromJust (m : Option α) : AllOps φ (Maybe.fromJust m : P α) := by cases m <;> trivial
theorem allOps_liftE (x : Except Exn α) : AllOps φ (liftE x) := by cases x <;> trivial
theorem allOps_next (x : Option α) : AllOps φ (nextOrRuntimeError x) := by cases x <;> trivial

theorem allOps_onNothing {p h : P α} (hp : AllOps φ p) (hh : AllOps φ h) : AllOps φ (onNothing p h) := by
  unfold onNothing; allops

theorem allOps_loadInt {k} (h : φ (.load k)) : AllOps φ (Sto.loadInt k) := .bind (.perform h) fun _ => allOps_fmap _ _
theorem allOps_loadStr {k} (h : φ (.load k)) : AllOps φ (Sto.loadStr k) := .bind (.perform h) fun _ => allOps_fmap _ _
theorem allOps_loadBool {k} (h : φ (.load k)) : AllOps φ (Sto.loadBool k) := .bind (.perform h) fun _ => allOps_fmap _ _
theorem allOps_loadBytes {k} (h : φ (.load k)) : AllOps φ (Sto.loadBytes k) := .bind (.perform h) fun _ => allOps_fmap _ _
theorem allOps_loadOptStr {k} (h : φ (.load k)) : AllOps φ (Sto.loadOptStr k) := .bind (.perform h) fun _ => allOps_fmap _ _
theorem allOps_loadInts {k} (h : φ (.load k)) : AllOps φ (Sto.loadInts k) := .bind (.perform h) fun _ => allOps_fmap _ _
theorem allOps_loadStrs {k} (h : φ (.load k)) : AllOps φ (Sto.loadStrs k) := .bind (.perform h) fun _ => allOps_fmap _ _
theorem allOps_loadBools {k} (h : φ (.load k)) : AllOps φ (Sto.loadBools k) := .bind (.perform h) fun _ => allOps_fmap _ _
theorem allOps_storeBytes {k b} (h : φ (.store k (.str (Base64.encode b)))) : AllOps φ (Sto.storeBytes k b) := .perform h

end helpers

/-- Like `allops`, with the helpers of the library and lemmas for called functions. -/
macro "lib_ops" "[" ts:term,* "]" : tactic => `(tactic| repeat' (first
  | assumption
  $[| with_reducible exact $ts ..]*
  | exact AllOps.ret _ | exact AllOps.pure _ | exact AllOps.raise _
  | exact allOps_fromJust _ | exact allOps_liftE _ | exact allOps_next _ | exact allOps_fmap _ _
  | with_reducible apply allOps_onNothing
  | with_reducible apply allOps_loadInt | with_reducible apply allOps_loadStr | with_reducible apply allOps_loadBool
  | with_reducible apply allOps_loadBytes | with_reducible apply allOps_loadOptStr
  | with_reducible apply allOps_loadInts | with_reducible apply allOps_loadStrs | with_reducible apply allOps_loadBools
  | with_reducible apply allOps_storeBytes
  | with_reducible apply AllOps.bind | with_reducible apply AllOps.bind' | with_reducible apply AllOps.tryCatch
  | with_reducible apply AllOps.tryElse | with_reducible apply AllOps.when | with_reducible apply AllOps.forEach | with_reducible apply AllOps.fold
  | with_reducible apply AllOps.mapAll | with_reducible apply AllOps.filterAll
  | with_reducible apply AllOps.perform
  | intro _
  | dsimp only
  | split
  | (constructor; done)))

namespace SM

theorem ops_updateDeviceList (M : Mgr) (ns jid dl) : AllOps (Update M ns jid) (updateDeviceList M ns jid dl) := by
  unfold updateDeviceList ensureOwnListed addNewDevice updateKnownDevice updateListed updateUnlisted
  lib_ops []
  · exact .upload _ (by assumption)

theorem ops_refreshDeviceList (M : Mgr) (ns jid) : AllOps (Refresh M ns jid) (refreshDeviceList M ns jid) :=
  .bind (.perform .download) fun _ => (ops_updateDeviceList M ns jid _).mono fun _ h => .update h

theorem ops_fetchIdentityKey (jid d nss) : AllOps (Info jid) (fetchIdentityKey jid d nss) := by
  induction nss with
  | nil => trivial
  | cons ns nss ih =>
    unfold fetchIdentityKey
    lib_ops []

theorem ops_deviceInformation (M : Mgr) (jid d) : AllOps (Info jid) (deviceInformation M jid d) := by
  unfold deviceInformation identityKeyOf repairNamespaces
  lib_ops [ops_fetchIdentityKey]

theorem ops_getDeviceInformation' (M : Mgr) (jid) : AllOps (Info jid) (getDeviceInformation' M jid) := by
  unfold getDeviceInformation'
  lib_ops [ops_deviceInformation]

theorem ops_getDeviceInformation (M : Mgr) (jid) : AllOps (Info jid) (getDeviceInformation M jid) :=
  .bind (ops_getDeviceInformation' M jid) fun _ => trivial

theorem ops_getOwnDeviceInformation (M : Mgr) : AllOps (Info M.ownJid) (getOwnDeviceInformation M) := by
  unfold getOwnDeviceInformation
  lib_ops [ops_getDeviceInformation]

theorem ops_setOwnLabel (M : Mgr) (l) : AllOps (OwnLabel M) (setOwnLabel M l) := by
  unfold setOwnLabel; lib_ops []

theorem ops_purgeBackend (M : Mgr) (ns) : AllOps (PurgeBackend M ns) (purgeBackend M ns) := by
  have : AllOps (PurgeBackend M ns) (getOwnDeviceInformation M) := (ops_getOwnDeviceInformation M).mono fun _ h => .info h
  unfold purgeBackend; lib_ops []
  all_goals exact .info (.namespaces _ _)

theorem ops_purgeBareJid (M : Mgr) (jid) : AllOps (PurgeJid jid) (purgeBareJid M jid) := by
  unfold purgeBareJid collectIdentityKeys deleteDevice; lib_ops []

theorem ops_retryUpload (M : Mgr) (ns fuel) : AllOps (Rotation M) (retryUpload M ns fuel) := by
  induction fuel with
  | zero => trivial
  | succ n ih => unfold retryUpload; lib_ops []

theorem ops_manageRotation (M : Mgr) (p fuel rounds) : AllOps (Rotation M) (manageRotation M p fuel rounds) := by
  induction rounds with
  | zero => trivial
  | succ n ih => unfold manageRotation rotationRound; lib_ops [ops_retryUpload]

theorem ops_ensureDataConsistency (M : Mgr) : AllOps (Ensure M) (ensureDataConsistency M) := by
  have : ∀ ns, AllOps (Ensure M) (refreshDeviceList M ns M.ownJid) := fun ns =>
    (ops_refreshDeviceList M ns M.ownJid).mono fun _ h => .refresh ns h
  unfold ensureDataConsistency; lib_ops [this]
  exact .refresh "" (.update .getBackends)

theorem ops_replaceSessions (M : Mgr) (jid d) : AllOps (Replace jid) (replaceSessions M jid d) := by
  have : AllOps (Replace jid) (getDeviceInformation M jid) := (ops_getDeviceInformation M jid).mono fun _ h => .info h
  unfold replaceSessions replaceSession; lib_ops []

theorem ops_sendEmptyMessage (M : Mgr) (ns s) : AllOps (SendEmpty ns) (sendEmptyMessage M ns s) := by
  unfold sendEmptyMessage; lib_ops []
  exact .send _ _ rfl

theorem ops_afterHistorySync (M : Mgr) : AllOps AfterSync (afterHistorySync M) := by
  have : ∀ ns s, AllOps AfterSync (sendEmptyMessage M ns s) := fun ns s =>
    (ops_sendEmptyMessage M ns s).mono fun _ h => .sendEmpty ns h
  unfold afterHistorySync sendQueuedBackend sendQueuedJid sendQueued; lib_ops [this]

theorem ops_recipientDevices (M : Mgr) (order jids) : AllOps Encrypt (recipientDevices M order jids) := by
  have : ∀ jid, AllOps Encrypt (getDeviceInformation' M jid) := fun jid =>
    (ops_getDeviceInformation' M jid).mono fun _ h => .info jid h
  unfold recipientDevices; lib_ops [this]

theorem ops_encryptTrusted (M : Mgr) (jids cache pt devs) : AllOps Encrypt (encryptTrusted M jids cache pt devs) := by
  unfold encryptTrusted encryptBackend encryptDevice encryptForDevice bundleFor devicesWithTrust; lib_ops []
  exact .info _ (.bundle _ _)

/-- `encrypt` performs interactions of its own and those of the application's trust decision. -/
theorem ops_encrypt (M : Mgr) (φ : Op → Prop) (hd : ∀ ds i, AllOps φ (M.decide ds i)) (jids pt prio i) :
    AllOps (fun o => Encrypt o ∨ φ o) (encrypt M jids pt prio i) := by
  have h1 : ∀ order jids, AllOps (fun o => Encrypt o ∨ φ o) (recipientDevices M order jids) := fun order jids =>
    (ops_recipientDevices M order jids).mono fun _ h => .inl h
  have h2 : ∀ jids cache pt devs, AllOps (fun o => Encrypt o ∨ φ o) (encryptTrusted M jids cache pt devs) :=
    fun jids cache pt devs => (ops_encryptTrusted M jids cache pt devs).mono fun _ h => .inl h
  have h3 : ∀ ds i, AllOps (fun o => Encrypt o ∨ φ o) (M.decide ds i) := fun ds i => (hd ds i).mono fun _ h => .inr h
  unfold encrypt decideTrust askTrust devicesWithTrust reloadTrust; lib_ops [h1, h2, h3]
  · exact .inl .getBackends
  · exact .inl (.evalTrust _)
  · exact .inl (.info "" (.load _))
  · exact .inl (.evalTrust _)

theorem ops_decrypt (M : Mgr) (msg) : AllOps (Decrypt M msg) (decrypt M msg) := by
  have h1 : AllOps (Decrypt M msg) (getDeviceInformation M msg.bareJid) :=
    (ops_getDeviceInformation M _).mono fun _ h => .info h
  have h2 : AllOps (Decrypt M msg) (refreshDeviceList M msg.ns msg.bareJid) :=
    (ops_refreshDeviceList M _ _).mono fun _ h => .refresh h
  have h3 : ∀ s, AllOps (Decrypt M msg) (sendEmptyMessage M msg.ns s) := fun s =>
    (ops_sendEmptyMessage M msg.ns s).mono fun _ h => .sendEmpty h
  unfold decrypt findSender decryptContent keyMaterial plaintextOf decryptKeyMaterial handleKeyExchange postDecrypt
    consumePreKey discardPreKey refillPreKeys
    autoReply queueEmpty
  lib_ops [h3]
  all_goals exact .info (.load _)

end SM

theorem ops_ikp : AllOps Ikp IdentityKeyPair.get := by
  unfold IdentityKeyPair.get IdentityKeyPair.load IdentityKeyPair.generate; lib_ops []

namespace SM

theorem ops_firstRun (M : Mgr) (label ik fuel) : AllOps (Create M) (firstRun M label ik fuel) := by
  have h1 : ∀ d ns, AllOps (Create M) (refreshDeviceList { M with ownDev := d } ns M.ownJid) := fun d ns =>
    (ops_refreshDeviceList _ _ _).mono fun _ h => .refresh ns d h
  have h2 : ∀ taken fuel, AllOps (Create M) (drawDeviceId taken fuel) := by
    intro taken fuel
    induction fuel with
    | zero => trivial
    | succ n ih => unfold drawDeviceId; lib_ops []
  unfold firstRun takenDeviceIds storeOwnDevice; lib_ops [h1, h2]

theorem ops_handleChangedBackends (M : Mgr) (d : DevId) :
    AllOps (Create M) (handleChangedBackends { M with ownDev := d }) := by
  have h1 : ∀ ns, AllOps (Create M) (refreshDeviceList { M with ownDev := d } ns M.ownJid) := fun ns =>
    (ops_refreshDeviceList _ _ _).mono fun _ h => .refresh ns d h
  have h2 : AllOps (Create M) (getOwnDeviceInformation { M with ownDev := d }) :=
    (ops_getOwnDeviceInformation _).mono fun _ h => .info h
  have h3 : ∀ ns, AllOps (Create M) (purgeBackend { M with ownDev := d } ns) := fun ns =>
    (ops_purgeBackend _ _).mono fun _ h => .purge ns d h
  unfold handleChangedBackends refillPreKeys; lib_ops [h1, h3]

/-- `create` performs its own interactions and those of obtaining the identity key pair. -/
theorem ops_create (M : Mgr) (bs label fuel) : AllOps (fun o => Ikp o ∨ Create M o) (create M bs label fuel) := by
  have h1 : AllOps (fun o => Ikp o ∨ Create M o) IdentityKeyPair.get := ops_ikp.mono fun _ h => .inl h
  have h2 : ∀ label ik fuel, AllOps (fun o => Ikp o ∨ Create M o) (firstRun M label ik fuel) := fun label ik fuel =>
    (ops_firstRun M label ik fuel).mono fun _ h => .inr h
  have h3 : ∀ d, AllOps (fun o => Ikp o ∨ Create M o) (handleChangedBackends { M with ownDev := d }) := fun d =>
    (ops_handleChangedBackends M d).mono fun _ h => .inr h
  unfold create; lib_ops [h2, h3]
  · exact .inr (.setBackends _)
  · exact .inr .setSync
  · exact .inr (.load _)

end SM
end Verif
