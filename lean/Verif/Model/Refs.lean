import Verif.Model.Api
/-
omemo/session_manager.py once more: the methods that are passed lists, sets and dictionaries by the application, or are returned
dictionaries by it (`_download_device_list`), or pass dictionaries to it (`_upload_device_list`), at the level of Python objects and
references.  Everything else is taken from Model/SessionManager.lean.
-/
namespace Verif.Refs

/-- The address of a mutable object. -/
abbrev Ref := Nat

/-- The content of a mutable object: a device list, a dictionary of plaintexts, or a collection of strings. -/
inductive Obj where
  | devs (l : DevList)
  | texts (d : Dict Ns Bytes)
  | names (l : List String)
deriving DecidableEq

def Obj.asDevs : Obj → DevList
  | .devs l => l
  | _ => []

def Obj.asTexts : Obj → Dict Ns Bytes
  | .texts d => d
  | _ => []

def Obj.asNames : Obj → List String
  | .names l => l
  | _ => []

/-- Interactions, and steps on mutable objects. -/
inductive ROp where
  | lib (o : Op)
  /-- `_download_device_list` (sm:875-899): returns a dictionary, shown with its content -/
  | download (ns : Ns) (j : Jid)
  /-- `_upload_device_list` (sm:852-873): passes a dictionary, shown with its content -/
  | upload (ns : Ns) (r : Ref) (l : DevList)
  /-- create an object -/
  | new (x : Obj)
  /-- look at the content of an object -/
  | read (r : Ref)
  /-- change the content of an object -/
  | write (r : Ref) (x : Obj)
  /-- other code runs -/
  | pause

/-- The type of the answer. -/
@[reducible] def ROp.Ret : ROp → Type
  | .lib o => o.Ret
  | .download .. => Ref × DevList
  | .new _ => Ref
  | .read _ => Obj
  | _ => Unit

abbrev RSig : Sig := ⟨ROp, ROp.Ret⟩
abbrev RP (α : Type) := Prog RSig Exn α
abbrev REv := Event RSig Exn

/-- Code that does not deal with mutable objects of the application. -/
def lift {α : Type} : P α → RP α
  | .ret a => .ret a
  | .raise e => .raise e
  | .op o k => .op (S := RSig) (.lib o) fun r => lift (k r)

def act (o : ROp) : RP o.Ret := Prog.perform (S := RSig) o

def devs (r : Ref) : RP DevList := do
  let x : Obj ← act (.read r)
  pure x.asDevs

def texts (r : Ref) : RP (Dict Ns Bytes) := do
  let x : Obj ← act (.read r)
  pure x.asTexts

def names (r : Ref) : RP (List String) := do
  let x : Obj ← act (.read r)
  pure x.asNames

/-! ### Device lists -/

/-- sm:1048-1051, one new device. -/
def addNewDevice (ns : Ns) (jid : Jid) (c : Ref) (d : DevId) : RP Unit := do
  lift (call (.store (.devActive jid d) (.ofBools [(ns, true)])))
  let dl ← devs c
  match dl.get d with
  | none => .raise .keyError
  | some label => do
    lift (call (.store (.devLabel jid d) (.ofOptStr label)))
    lift (call (.store (.devNamespaces jid d) (.ofStrs [ns])))

/-- sm:1062-1083, a known device that is on the new list. -/
def updateListed (M : Mgr) (ns : Ns) (jid : Jid) (c : Ref) (d : DevId) (namespaces : List Ns) (active : Dict Ns Bool) : RP Unit := do
  Prog.when (active.get ns ≠ some true) do
    lift (call (.store (.devActive jid d) (.ofBools (active.set ns true))))
  let m ← lift (Sto.loadOptStr (.devLabel jid d))
  let label ← lift (Maybe.fromJust m)
  let dl ← devs c
  match dl.get d with
  | none => .raise .keyError
  | some newLabel => do
    Prog.when (newLabel ≠ none ∧ newLabel ≠ label) do
      lift (call (.store (.devLabel jid d) (.ofOptStr newLabel)))
    Prog.when (ns ∉ namespaces) do
      lift (call (.store (.devNamespaces jid d) (.ofStrs (M.O.iter (setAdd namespaces ns)))))

/-- sm:1054-1089, one known device. -/
def updateKnownDevice (M : Mgr) (ns : Ns) (jid : Jid) (c : Ref) (d : DevId) : RP Unit := do
  let m ← lift (Sto.loadStrs (.devNamespaces jid d))
  let namespaces ← lift (Maybe.fromJust m)
  let m ← lift (Sto.loadBools (.devActive jid d))
  let active ← lift (Maybe.fromJust m)
  let dl ← devs c
  match dl.get d with
  | some _ => updateListed M ns jid c d (dedup namespaces) active
  | none => lift (SM.updateUnlisted ns jid d (dedup namespaces) active)

/-- sm:1030-1045: make sure this device is on its own list. -/
def ensureOwnListed (M : Mgr) (ns : Ns) (jid : Jid) (c : Ref) (newList : List DevId) : RP Unit := do
  if jid = M.ownJid then
    let bs ← lift (call .getBackends)
    if ns ∈ bs ∧ M.ownDev ∉ newList then
      let m ← lift (Sto.loadOptStr (.devLabel M.ownJid M.ownDev))
      let label ← lift (Maybe.fromJust m)
      let dl ← devs c
      act (.write c (.devs (dl.set M.ownDev label)))
      let dl' ← devs c
      act (.upload ns c dl')
      pure ()
    else pure ()
  else pure ()

/-- `SessionManager.update_device_list` (sm:985-1096), with the copy in sm:1021. -/
def updateDeviceList (M : Mgr) (ns : Ns) (jid : Jid) (r : Ref) : RP Unit := do
  let bs ← lift (call .getBackends)
  if ns ∉ bs then .raise .unknownNamespace
  else do
    let arg ← devs r
    let c ← act (.new (.devs arg))
    let dl ← devs c
    let newList := dl.keys
    let old ← lift (Sto.loadInts (.devList jid))
    let oldList := dedup (Maybe.maybe old [])
    let newDevices := setDiff newList oldList
    ensureOwnListed M ns jid c newList
    Prog.forEach (M.O.iter newDevices) (addNewDevice ns jid c)
    Prog.forEach (M.O.iter oldList) (updateKnownDevice M ns jid c)
    Prog.when (newDevices.length > 0) do
      lift (call (.store (.devList jid) (.ofInts (M.O.iter (setUnion newList oldList)))))

/-- `SessionManager.refresh_device_list` (sm:1098-1123). -/
def refreshDeviceList (M : Mgr) (ns : Ns) (jid : Jid) : RP Unit := do
  let x : Ref × DevList ← act (.download ns jid)
  updateDeviceList M ns jid x.1

/-- `SessionManager.refresh_device_lists` (sm:1125-1141). -/
def refreshDeviceLists (M : Mgr) (jid : Jid) : RP Unit := do
  let bs ← lift (call .getBackends)
  Prog.forEach bs fun ns => refreshDeviceList M ns jid

/-- `SessionManager.set_own_label` (sm:1310-1339). -/
def setOwnLabel (M : Mgr) (label : Option String) : RP Unit := do
  lift (call (.store (.devLabel M.ownJid M.ownDev) (.ofOptStr label)))
  let bs ← lift (call .getBackends)
  Prog.forEach bs fun ns => do
    let x : Ref × DevList ← act (.download ns M.ownJid)
    let dl ← devs x.1
    act (.write x.1 (.devs (Dict.set dl M.ownDev label)))
    let dl' ← devs x.1
    act (.upload ns x.1 dl')

/-- The part of `purge_backend` after the device list (sm:534-572). -/
def purgeRest (M : Mgr) (ns : Ns) : P Unit := do
  let (device, _) ← SM.getOwnDeviceInformation M
  call (.store (.devActive M.ownJid M.ownDev) (.ofBools (device.active.erase ns)))
  call (.store (.devNamespaces M.ownJid M.ownDev) (.ofStrs (M.O.iter (setDiff device.namespaces [ns]))))
  let bs ← call .getBackends
  call (.setBackends (setDiff bs [ns]))
  Prog.when (ns ∈ bs) do
    call (.purge ns)
  call (.deleteBundle ns M.ownDev)

/-- `SessionManager.purge_backend` (sm:495-572). -/
def purgeBackend (M : Mgr) (ns : Ns) : RP Unit := do
  let x : Ref × DevList ← act (.download ns M.ownJid)
  let dl ← devs x.1
  Prog.when (M.ownDev ∈ Dict.keys dl) do
    act (.write x.1 (.devs (Dict.erase dl M.ownDev)))
    let dl' ← devs x.1
    act (.upload ns x.1 dl')
  lift (purgeRest M ns)

/-- The part of the loop in `ensure_data_consistency` after the device list (sm:740-764). -/
def checkBundle (M : Mgr) (ns : Ns) : P Unit := do
  let localBundle ← call (.getBundle ns M.ownJid M.ownDev)
  let upload ← Prog.tryElse (call (.downloadBundle ns M.ownJid M.ownDev))
    (fun e => if e = .bundleDownloadFailed ∨ e = .bundleNotFound then pure true else throwE e)
    (fun remote => pure (decide (remote ≠ localBundle)))
  Prog.when (upload = true) do
    call (.uploadBundle localBundle)

/-- `SessionManager.ensure_data_consistency` (sm:715-766). -/
def ensureDataConsistency (M : Mgr) : RP Unit := do
  let bs ← lift (call .getBackends)
  Prog.forEach bs fun ns => do
    refreshDeviceList M ns M.ownJid
    lift (checkBundle M ns)

/-! ### Creation -/

/-- sm:361-365: the device ids on the server's device lists of the own account. -/
def takenDeviceIds (jid : Jid) (bs : List Ns) : RP (List DevId) := do
  let lists ← Prog.mapAll bs fun ns => do
    let x : Ref × DevList ← act (.download ns jid)
    let dl ← devs x.1
    pure (Dict.keys dl)
  pure (dedup lists.flatten)

/-- sm:369-424: the first run, between the choice of the device id and the device lists. -/
def firstSteps (M : Mgr) (label : Option String) (ik : Bytes) : P Unit := do
  SM.storeOwnDevice M label ik (← call .getBackends)
  Prog.forEach (← call .getBackends) fun ns => call (.generatePreKeys ns 100)
  Prog.forEach (← call .getBackends) fun ns => do
    let bundle ← call (.getBundle ns M.ownJid M.ownDev)
    call (.uploadBundle bundle)

/-- The first run branch of `create` (sm:356-429). -/
def firstRun (M : Mgr) (label : Option String) (ik : Bytes) (fuel : Nat) : RP DevId := do
  let bs ← lift (call .getBackends)
  let taken ← takenDeviceIds M.ownJid bs
  let d ← lift (SM.drawDeviceId taken fuel)
  lift (firstSteps { M with ownDev := d } label ik)
  let bs ← lift (call .getBackends)
  Prog.forEach bs fun ns => refreshDeviceList { M with ownDev := d } ns M.ownJid
  pure d

/-- A backend that was not loaded in the last run, before its device list is refreshed (sm:455-465). -/
def addBackend (M : Mgr) (ns : Ns) : P Unit := do
  SM.refillPreKeys M ns
  let bundle ← call (.getBundle ns M.ownJid M.ownDev)
  call (.uploadBundle bundle)

/-- sm:441-451: store the namespaces loaded now. -/
def storeLoaded (M : Mgr) (loaded : List Ns) : P Unit := do
  call (.store (.devActive M.ownJid M.ownDev) (.ofBools ((M.O.iter loaded).map fun ns => (ns, true))))
  call (.store (.devNamespaces M.ownJid M.ownDev) (.ofStrs (M.O.iter loaded)))

/-- sm:431-473: react to backends that were added or removed since the last run. -/
def handleChangedBackends (M : Mgr) : RP Unit := do
  let x ← lift (SM.getOwnDeviceInformation M)
  let bs ← lift (call .getBackends)
  let loaded := dedup bs
  let active := x.1.namespaces
  Prog.when (¬ setEq loaded active) do
    lift (storeLoaded M loaded)
    let bs ← lift (call .getBackends)
    Prog.forEach bs fun ns => do
      Prog.when (ns ∉ active) do
        lift (addBackend M ns)
        refreshDeviceList M ns M.ownJid
    Prog.forEach (M.O.iter (setDiff active loaded)) fun ns => purgeBackend M ns

/-- sm:345-351: the steps before the device id is loaded. -/
def prepare (bs : List Ns) : P IdentityKeyPair := do
  call (.setBackends bs)
  let ikp ← IdentityKeyPair.get
  call (.setSync true)
  pure ikp

/-- `SessionManager.create` (sm:251-493), with the copy in sm:345. -/
def create (M : Mgr) (r : Ref) (label : Option String) (fuel : Nat) : RP DevId := do
  let bs ← names r
  if (dedup bs).length ≠ bs.length then .raise .valueError
  else if ¬ (25 ≤ M.threshold ∧ M.threshold ≤ 99) then .raise .valueError
  else do
    let arg ← names r
    let c ← act (.new (.names arg))
    let bs ← names c
    let ikp ← lift (prepare bs)
    let d ← (lift (do Maybe.fromJust (← Sto.loadInt .ownDeviceId))).tryCatch fun e =>
      if e = .nothingException then firstRun M label (ikp.identityKey M.x) fuel else .raise e
    handleChangedBackends { M with ownDev := d }
    pure d

/-! ### Encryption -/

/-- sm:1771-1810: choose the recipient devices among the devices of all recipients. -/
def chooseDevices (M : Mgr) (order : List Ns) (tmp : List (List DeviceInfo × List Bundle)) : P (List DeviceInfo × List Bundle) := do
  let devices := dedup (tmp.map (·.1)).flatten
  let devices ← Prog.filterAll (M.O.iter devices) fun dev => liftE (SM.isValidRecipient M order dev)
  let cache := dedup (tmp.map (·.2)).flatten
  let devices ← Prog.mapAll (M.O.iter devices) fun dev => liftE (SM.applyPriority M order dev)
  let devices := (dedup devices).filter fun dev => decide (dev.namespaces.length > 0)
  pure (devices, cache)

/-- sm:1879-1940: one backend with recipient devices, with the plaintext looked up. -/
def encryptWith (M : Mgr) (cache : List Bundle) (st : SM.EncAll) (ns : Ns) (pt : Bytes) : P SM.EncAll := do
  let backendDevices := st.devices.filter fun dev => decide (dev.namespaces.head? = some ns)
  let (content, km) ← call (.encryptPlaintext ns pt)
  let st' ← Prog.fold (M.O.iter backendDevices)
    { devices := st.devices, errors := st.errors, sessions := st.sessions, keys := [] }
    (SM.encryptDevice M ns cache km)
  let message : Message := { ns := ns, bareJid := M.ownJid, deviceId := M.ownDev, content := content, keys := st'.keys }
  pure { devices := st'.devices, errors := st'.errors, sessions := st'.sessions,
         messages := Dict.set st.messages message km }

/-- sm:1865-1940, one backend.  The plaintext is looked up when the backend is reached (sm:1880). -/
def encryptBackend (M : Mgr) (cache : List Bundle) (rt : Ref) (st : SM.EncAll) (ns : Ns) : RP SM.EncAll := do
  if (st.devices.filter fun dev => decide (dev.namespaces.head? = some ns)).length = 0 then pure st
  else do
    let plaintext ← texts rt
    match plaintext.get ns with
    | none => .raise .keyError
    | some pt => lift (encryptWith M cache st ns pt)

/-- sm:1942-1966: the end of `encrypt`. -/
def finish (M : Mgr) (jids : List Jid) (st : SM.EncAll) : P (Dict Message PlainKM × List SM.EncError) := do
  let missing := SM.noEligible M st.devices jids
  if missing.length > 0 then throwE (.noEligibleDevices missing)
  else do
    Prog.forEach (M.O.iter st.sessions) fun (ns, session) => call (.storeSession ns session)
    pure (st.messages, st.errors)

/-- The priority order as it is now, if one was passed. -/
def priority (rprio : Option Ref) : RP (Option (List Ns)) :=
  match rprio with
  | none => pure none
  | some r => do
    let l ← names r
    pure (some l)

/-- `effective_backend_priority_order` (sm:1721-1722): the list that was passed, as it is now, or the available namespaces. -/
def currentOrder (rprio : Option Ref) (available : List Ns) : RP (List Ns) :=
  match rprio with
  | none => pure available
  | some r => names r

/-- sm:1814-1966: trust decisions and encryption. -/
def encryptRest (M : Mgr) (rt : Ref) (identifier : Option String) (jids : List Jid) (x : List DeviceInfo × List Bundle) :
    RP (Dict Message PlainKM × List SM.EncError) := do
  act .pause
  let devices ← lift (SM.decideTrust M x.1 identifier)
  let devices ← lift (SM.devicesWithTrust .trusted (M.O.iter devices))
  let bs ← lift (call .getBackends)
  let st ← Prog.fold bs { devices := devices, errors := [], sessions := [], messages := [] } (encryptBackend M x.2 rt)
  lift (finish M jids st)

/-- `SessionManager.encrypt` (sm:1654-1966).  The recipients are copied (sm:1730); the plaintexts and the priority order are not. -/
def encrypt (M : Mgr) (rj rt : Ref) (rprio : Option Ref) (identifier : Option String) : RP (Dict Message PlainKM × List SM.EncError) := do
  let available ← lift (call .getBackends)
  let prio ← priority rprio
  let order ← lift (liftE (SM.effectiveOrder available prio))
  let jids ← names rj
  let tmp ← lift (Prog.mapAll (M.O.iter (setUnion jids [M.ownJid])) (SM.getDeviceInformation' M))
  let order ← currentOrder rprio order
  let x ← lift (chooseDevices M order tmp)
  encryptRest M rt identifier (setUnion jids [M.ownJid]) x

/-! ### Decryption -/

/-- sm:2040-2070: find the sending device. -/
def findSender (M : Mgr) (msg : Message) : RP DeviceInfo := do
  let devices ← lift (SM.getDeviceInformation M msg.bareJid)
  match SM.pickDevice M msg.deviceId devices with
  | some dev => pure dev
  | none => do
    refreshDeviceList M msg.ns msg.bareJid
    let devices ← lift (SM.getDeviceInformation M msg.bareJid)
    match SM.pickDevice M msg.deviceId devices with
    | some dev => pure dev
    | none => .raise .senderNotFound

/-- sm:2072-2254: what follows. -/
def decryptRest (M : Mgr) (msg : Message) (ekm : EncKM) (kex : Option KeyExchange) (dev : DeviceInfo) :
    P (Option Bytes × DeviceInfo × PlainKM) := do
  let (plaintext, session, km) ← SM.decryptContent M msg dev ekm kex
  SM.postDecrypt M msg.ns kex session
  pure (plaintext, dev, km)

/-- `SessionManager.decrypt` (sm:1968-2254). -/
def decrypt (M : Mgr) (msg : Message) : RP (Option Bytes × DeviceInfo × PlainKM) := do
  let bs ← lift (call .getBackends)
  if msg.ns ∉ bs then .raise .unknownNamespace
  else do
    match (M.O.iter msg.keys).find? fun k => decide (k.1.bareJid = M.ownJid ∧ k.1.deviceId = M.ownDev) with
    | none => .raise .messageNotForUs
    | some (ekm, kex) => do
      let dev ← findSender M msg
      lift (decryptRest M msg ekm kex dev)

/-! ### Calls -/

/-- A call of a public method, with references to the collections that are passed. -/
inductive RCall where
  | updateDeviceList (ns : Ns) (jid : Jid) (r : Ref)
  | create (r : Ref) (label : Option String) (fuel : Nat)
  | encrypt (rj rt : Ref) (rprio : Option Ref) (identifier : Option String)
  | refreshDeviceList (ns : Ns) (jid : Jid)
  | refreshDeviceLists (jid : Jid)
  | setOwnLabel (label : Option String)
  | purgeBackend (ns : Ns)
  | ensureDataConsistency
  | decrypt (msg : Message)
  /-- a method that deals with no mutable collections of the application, see `Plain` -/
  | plain (c : Call)

/-- The methods that are neither passed mutable collections nor use `_download_device_list`. -/
def RCall.Plain : Call → Prop
  | .getIdentityKeyPair | .purgeBareJid _ | .rotation .. | .setTrust .. | .replaceSessions .. | .getSendingChainLength _
  | .getDeviceInformation _ | .getOwnDeviceInformation | .beforeHistorySync | .afterHistorySync => True
  | _ => False

/-- The program of a call, with its return value dropped. -/
def RCall.run (M : Mgr) : RCall → RP Unit
  | .updateDeviceList ns jid r => Refs.updateDeviceList M ns jid r
  | .create r label fuel => do let _ ← Refs.create M r label fuel; pure ()
  | .encrypt rj rt rprio i => do let _ ← Refs.encrypt M rj rt rprio i; pure ()
  | .refreshDeviceList ns jid => Refs.refreshDeviceList M ns jid
  | .refreshDeviceLists jid => Refs.refreshDeviceLists M jid
  | .setOwnLabel label => Refs.setOwnLabel M label
  | .purgeBackend ns => Refs.purgeBackend M ns
  | .ensureDataConsistency => Refs.ensureDataConsistency M
  | .decrypt msg => do let _ ← Refs.decrypt M msg; pure ()
  | .plain c => lift (c.run M)

end Verif.Refs
