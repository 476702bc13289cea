import Verif.Model.IdentityKeyPair
/-
omemo/session_manager.py, function by function.  `sm` in citations is omemo/session_manager.py.
Logging is left out everywhere.
-/
namespace Verif

/-- The fields of a `SessionManager` that do not change after `create` (sm:240-249, 344-351), together with what the
application supplies by subclassing.  The changing fields `__backends` and `__synchronizing` are
accessed through `Op.getBackends` etc., because concurrent calls share them. -/
structure Mgr where
  ownJid : Jid
  ownDev : DevId
  /-- `undecided_trust_level_name` -/
  undecided : String
  /-- `pre_key_refill_threshold` -/
  threshold : Int
  /-- iteration order of Python sets -/
  O : SetOrder
  /-- `KeyExchange.builds_same_session` (message.py:68-77), implemented by the backend -/
  sameSession : KeyExchange → KeyExchange → Bool
  /-- `_make_trust_decision` (sm:924-951), implemented by the application: any program -/
  decide : List DeviceInfo → Option String → P Unit
  /-- the `xeddsa` library -/
  x : XEdDSA

/-- sm:235 -/
def DEVICE_ID_MIN : Nat := 1
/-- sm:236 -/
def DEVICE_ID_MAX : Nat := 2 ^ 31 - 1
/-- sm:237 -/
def STALENESS_MAGIC_NUMBER : Nat := 53

/-- Raise if an inline computation raises. -/
def liftE {α : Type} : Except Exn α → P α
  | .ok a => .ret a
  | .error e => .raise e

/-- `next(iterable)` inside a coroutine: `StopIteration` surfaces as `RuntimeError`. -/
def nextOrRuntimeError {α : Type} : Option α → P α
  | some a => .ret a
  | none => .raise .runtimeError

namespace SM

/-! ### Device list management -/

/-- sm:1048-1051, one new device. -/
def addNewDevice (ns : Ns) (jid : Jid) (dl : DevList) (d : DevId) : P Unit := do
  call (.store (.devActive jid d) (.ofBools [(ns, true)]))
  match dl.get d with
  | none => throwE .keyError
  | some label => do
    call (.store (.devLabel jid d) (.ofOptStr label))
    call (.store (.devNamespaces jid d) (.ofStrs [ns]))

/-- sm:1062-1083, a known device that is on the new list. -/
def updateListed (M : Mgr) (ns : Ns) (jid : Jid) (d : DevId) (newLabel : Option String)
    (namespaces : List Ns) (active : Dict Ns Bool) : P Unit := do
  Prog.when (active.get ns ≠ some true) do
    call (.store (.devActive jid d) (.ofBools (active.set ns true)))
  let label ← Maybe.fromJust (← Sto.loadOptStr (.devLabel jid d))
  Prog.when (newLabel ≠ none ∧ newLabel ≠ label) do
    call (.store (.devLabel jid d) (.ofOptStr newLabel))
  Prog.when (ns ∉ namespaces) do
    call (.store (.devNamespaces jid d) (.ofStrs (M.O.iter (setAdd namespaces ns))))

/-- sm:1084-1089, a known device that is not on the new list. -/
def updateUnlisted (ns : Ns) (jid : Jid) (d : DevId) (namespaces : List Ns) (active : Dict Ns Bool) : P Unit := do
  Prog.when (ns ∈ namespaces) do
    match active.get ns with
    | none => throwE .keyError
    | some true => call (.store (.devActive jid d) (.ofBools (active.set ns false)))
    | some false => pure ()

/-- sm:1054-1089, one known device. -/
def updateKnownDevice (M : Mgr) (ns : Ns) (jid : Jid) (dl : DevList) (d : DevId) : P Unit := do
  let namespaces := dedup (← Maybe.fromJust (← Sto.loadStrs (.devNamespaces jid d)))
  let active ← Maybe.fromJust (← Sto.loadBools (.devActive jid d))
  match dl.get d with
  | some newLabel => updateListed M ns jid d newLabel namespaces active
  | none => updateUnlisted ns jid d namespaces active

/-- sm:1030-1045: make sure this device is on its own list; returns the device list with this device added. -/
def ensureOwnListed (M : Mgr) (ns : Ns) (jid : Jid) (dl : DevList) : P DevList := do
  if jid = M.ownJid then
    let bs ← call .getBackends
    if ns ∈ bs ∧ M.ownDev ∉ dl.keys then
      let label ← Maybe.fromJust (← Sto.loadOptStr (.devLabel M.ownJid M.ownDev))
      let dl' := dl.set M.ownDev label
      call (.uploadList ns dl')
      pure dl'
    else pure dl
  else pure dl

/-- `SessionManager.update_device_list` (sm:985-1096). -/
def updateDeviceList (M : Mgr) (ns : Ns) (jid : Jid) (dl : DevList) : P Unit := do
  let bs ← call .getBackends
  if ns ∉ bs then throwE .unknownNamespace
  else do
    let newList := dl.keys
    let oldList := dedup (Maybe.maybe (← Sto.loadInts (.devList jid)) [])
    let newDevices := setDiff newList oldList
    let dl' ← ensureOwnListed M ns jid dl
    Prog.forEach (M.O.iter newDevices) (addNewDevice ns jid dl')
    Prog.forEach (M.O.iter oldList) (updateKnownDevice M ns jid dl')
    Prog.when (newDevices.length > 0) do
      call (.store (.devList jid) (.ofInts (M.O.iter (setUnion newList oldList))))

/-- `SessionManager.refresh_device_list` (sm:1098-1123). -/
def refreshDeviceList (M : Mgr) (ns : Ns) (jid : Jid) : P Unit := do
  let dl ← call (.downloadList ns jid)
  updateDeviceList M ns jid dl

/-- `SessionManager.refresh_device_lists` (sm:1125-1141). -/
def refreshDeviceLists (M : Mgr) (jid : Jid) : P Unit := do
  let bs ← call .getBackends
  Prog.forEach bs fun ns => refreshDeviceList M ns jid

/-! ### Trust management -/

/-- `SessionManager.set_trust` (sm:1147-1164). -/
def setTrust (jid : Jid) (ik : Bytes) (level : String) : P Unit :=
  call (.store (.trust jid ik) (.str level))

/-! ### Device metadata -/

/-- The `for namespace in namespaces` loop with its `else` (sm:1427-1462): download bundles until one
succeeds, store its identity key. `none`: no bundle could be downloaded. -/
def fetchIdentityKey (jid : Jid) (d : DevId) : List Ns → P (Option Bundle)
  | [] => .ret none
  | ns :: rest =>
    Prog.tryElse (call (.downloadBundle ns jid d))
      (fun e => if e = .bundleDownloadFailed ∨ e = .bundleNotFound then fetchIdentityKey jid d rest else throwE e)
      (fun bundle => do
        Sto.storeBytes (.devIdentityKey jid d) bundle.identityKey
        pure (some bundle))

/-- sm:1414-1462: the identity key of a device, together with the bundle downloaded for it, if any. -/
def identityKeyOf (M : Mgr) (jid : Jid) (d : DevId) (namespaces : List Ns) : P (Option (Bytes × Option Bundle)) :=
  onNothing
    (do
      let ik ← Maybe.fromJust (← Sto.loadBytes (.devIdentityKey jid d))
      pure (some (ik, none)))
    (do
      match ← fetchIdentityKey jid d (M.O.iter namespaces) with
      | none => pure none
      | some bundle => pure (some (bundle.identityKey, some bundle)))

/-- sm:1472-1479: drop namespaces without activity information. -/
def repairNamespaces (M : Mgr) (jid : Jid) (d : DevId) (namespaces : List Ns) (active : Dict Ns Bool) : P (List Ns) := do
  if namespaces.any (fun ns => (active.get ns).isNone) then
    let namespaces := setInter namespaces active.keys
    call (.store (.devNamespaces jid d) (.ofStrs (M.O.iter namespaces)))
    pure namespaces
  else pure namespaces

/-- One round of the loop in `__get_device_information` (sm:1406-1489).  `none`: the device is skipped. -/
def deviceInformation (M : Mgr) (jid : Jid) (d : DevId) : P (Option (DeviceInfo × Option Bundle)) := do
  let namespaces := dedup (← Maybe.fromJust (← Sto.loadStrs (.devNamespaces jid d)))
  match ← identityKeyOf M jid d namespaces with
  | none => pure none
  | some (ik, bundle) => do
    let active ← Maybe.fromJust (← Sto.loadBools (.devActive jid d))
    let label ← Maybe.fromJust (← Sto.loadOptStr (.devLabel jid d))
    let level := Maybe.maybe (← Sto.loadStr (.trust jid ik)) M.undecided
    let namespaces ← repairNamespaces M jid d namespaces active
    pure (some ({ namespaces := namespaces, active := active, bareJid := jid, deviceId := d, identityKey := ik,
                  trustLevelName := level, label := label }, bundle))

/-- `SessionManager.__get_device_information` (sm:1367-1493). -/
def getDeviceInformation' (M : Mgr) (jid : Jid) : P (List DeviceInfo × List Bundle) := do
  let deviceList := dedup (Maybe.maybe (← Sto.loadInts (.devList jid)) [])
  Prog.fold (M.O.iter deviceList) ([], []) fun (devices, cache) d => do
    match ← deviceInformation M jid d with
    | none => pure (devices, cache)
    | some (dev, none) => pure (setAdd devices dev, cache)
    | some (dev, some bundle) => pure (setAdd devices dev, setAdd cache bundle)

/-- `SessionManager.get_device_information` (sm:1341-1365). -/
def getDeviceInformation (M : Mgr) (jid : Jid) : P (List DeviceInfo) := do
  let (devices, _) ← getDeviceInformation' M jid
  pure devices

/-- `SessionManager.get_own_device_information` (sm:1495-1510). -/
def getOwnDeviceInformation (M : Mgr) : P (DeviceInfo × List DeviceInfo) := do
  let all ← getDeviceInformation M M.ownJid
  let others := all.filter (fun dev => decide (dev.deviceId ≠ M.ownDev))
  let own ← nextOrRuntimeError (M.O.iter (setDiff all others)).head?
  pure (own, others)

/-- `SessionManager.set_own_label` (sm:1310-1339). -/
def setOwnLabel (M : Mgr) (label : Option String) : P Unit := do
  call (.store (.devLabel M.ownJid M.ownDev) (.ofOptStr label))
  let bs ← call .getBackends
  Prog.forEach bs fun ns => do
    let dl ← call (.downloadList ns M.ownJid)
    call (.uploadList ns (Dict.set dl M.ownDev label))

/-! ### Purging, consistency, rotation -/

/-- `SessionManager.purge_backend` (sm:495-572). -/
def purgeBackend (M : Mgr) (ns : Ns) : P Unit := do
  let dl ← call (.downloadList ns M.ownJid)
  Prog.when (M.ownDev ∈ Dict.keys dl) do
    call (.uploadList ns (Dict.erase dl M.ownDev))
  let (device, _) ← getOwnDeviceInformation M
  call (.store (.devActive M.ownJid M.ownDev) (.ofBools (device.active.erase ns)))
  call (.store (.devNamespaces M.ownJid M.ownDev) (.ofStrs (M.O.iter (setDiff device.namespaces [ns]))))
  let bs ← call .getBackends
  call (.setBackends (setDiff bs [ns]))
  Prog.when (ns ∈ bs) do
    call (.purge ns)
  call (.deleteBundle ns M.ownDev)

/-- sm:593-599: collect the identity keys of the devices that have one. -/
def collectIdentityKeys (jid : Jid) (deviceList : List DevId) : P (List Bytes) :=
  Prog.fold deviceList [] fun keys d =>
    onNothing
      (do
        let ik ← Maybe.fromJust (← Sto.loadBytes (.devIdentityKey jid d))
        pure (setAdd keys ik))
      (pure keys)

/-- sm:602-606, one device. -/
def deleteDevice (jid : Jid) (d : DevId) : P Unit := do
  call (.delete (.devNamespaces jid d))
  call (.delete (.devActive jid d))
  call (.delete (.devLabel jid d))
  call (.delete (.devIdentityKey jid d))

/-- `SessionManager.purge_bare_jid` (sm:574-624). -/
def purgeBareJid (M : Mgr) (jid : Jid) : P Unit := do
  let deviceList := dedup (Maybe.maybe (← Sto.loadInts (.devList jid)) [])
  let keys ← collectIdentityKeys jid (M.O.iter deviceList)
  Prog.forEach (M.O.iter deviceList) (deleteDevice jid)
  call (.delete (.devList jid))
  Prog.forEach (M.O.iter keys) fun ik => call (.delete (.trust jid ik))
  let bs ← call .getBackends
  Prog.forEach bs fun ns => call (.purgeJid ns jid)

/-- The inner `while True` of the rotation task (sm:679-695), cut off after `fuel` attempts. -/
def retryUpload (M : Mgr) (ns : Ns) : Nat → P Unit
  | 0 => throwE .outOfFuel
  | fuel + 1 =>
    let retryDelay : Int := 60
    Prog.tryElse
      (do
        let bundle ← call (.getBundle ns M.ownJid M.ownDev)
        call (.uploadBundle bundle))
      (fun e => if e = .bundleUploadFailed then do
          call (.sleep retryDelay)
          -- sm:692-693 double the delay, but sm:680 resets it at the beginning of the next round
          retryUpload M ns fuel
        else throwE e)
      (fun _ => pure ())

/-- One round of the rotation task (sm:663-713). -/
def rotationRound (M : Mgr) (period : Int) (fuel : Nat) : P Unit := do
  let bs ← call .getBackends
  let nextCheck ← Prog.fold bs period fun nextCheck ns => do
    let age ← call (.spkAge ns)
    let nextRotation := period - age
    if nextRotation < 0 then
      call (.rotateSpk ns)
      retryUpload M ns fuel
      pure nextCheck
    else
      pure (min nextCheck nextRotation)
  call (.sleep (nextCheck + 60))

/-- `SessionManager.__manage_signed_pre_key_rotation` (sm:626-713), `rounds` rounds of it. -/
def manageRotation (M : Mgr) (period : Int) (fuel : Nat) : Nat → P Unit
  | 0 => throwE .outOfFuel
  | rounds + 1 => do
    rotationRound M period fuel
    manageRotation M period fuel rounds

/-- `SessionManager.ensure_data_consistency` (sm:715-766). -/
def ensureDataConsistency (M : Mgr) : P Unit := do
  let bs ← call .getBackends
  Prog.forEach bs fun ns => do
    refreshDeviceList M ns M.ownJid
    let localBundle ← call (.getBundle ns M.ownJid M.ownDev)
    let upload ← Prog.tryElse (call (.downloadBundle ns M.ownJid M.ownDev))
      (fun e => if e = .bundleDownloadFailed ∨ e = .bundleNotFound then pure true else throwE e)
      (fun remote => pure (decide (remote ≠ localBundle)))
    Prog.when (upload = true) do
      call (.uploadBundle localBundle)

/-! ### Creation -/

/-- sm:369-376: draw device ids until one is not taken; cut off after `fuel` draws. -/
def drawDeviceId (taken : List DevId) : Nat → P DevId
  | 0 => throwE .outOfFuel
  | fuel + 1 => do
    let n ← call (.randBelow (DEVICE_ID_MAX - DEVICE_ID_MIN))
    let d : Int := (n : Nat) + DEVICE_ID_MIN
    if d ∉ taken then pure d else drawDeviceId taken fuel

/-- sm:361-365: the device ids on the server's device lists of the own account. -/
def takenDeviceIds (jid : Jid) (bs : List Ns) : P (List DevId) := do
  let lists ← Prog.mapAll bs fun ns => do
    let dl ← call (.downloadList ns jid)
    pure (Dict.keys dl)
  pure (dedup lists.flatten)

/-- sm:379-416: the stores of the first run. -/
def storeOwnDevice (M : Mgr) (label : Option String) (ik : Bytes) (bs : List Ns) : P Unit := do
  call (.store (.devNamespaces M.ownJid M.ownDev) (.ofStrs bs))
  call (.store (.devActive M.ownJid M.ownDev) (.ofBools (bs.map fun ns => (ns, true))))
  call (.store (.devLabel M.ownJid M.ownDev) (.ofOptStr label))
  Sto.storeBytes (.devIdentityKey M.ownJid M.ownDev) ik
  call (.store (.devList M.ownJid) (.ofInts [M.ownDev]))
  call (.store (.trust M.ownJid ik) (.str M.undecided))
  call (.store .ownDeviceId (.int M.ownDev))

/-- The first run branch of `create` (sm:357-429). -/
def firstRun (M : Mgr) (label : Option String) (ik : Bytes) (fuel : Nat) : P DevId := do
  let taken ← takenDeviceIds M.ownJid (← call .getBackends)
  let d ← drawDeviceId taken fuel
  let M := { M with ownDev := d }
  storeOwnDevice M label ik (← call .getBackends)
  Prog.forEach (← call .getBackends) fun ns => call (.generatePreKeys ns 100)
  Prog.forEach (← call .getBackends) fun ns => do
    let bundle ← call (.getBundle ns M.ownJid M.ownDev)
    call (.uploadBundle bundle)
  Prog.forEach (← call .getBackends) fun ns => refreshDeviceList M ns M.ownJid
  pure d

/-- Refill of pre keys (sm:457-459 and sm:2215-2218). -/
def refillPreKeys (M : Mgr) (ns : Ns) : P Unit := do
  let n ← call (.numVisible ns)
  Prog.when (n ≤ M.threshold) do
    call (.generatePreKeys ns (100 - n))

/-- sm:431-473: react to backends that were added or removed since the last run. -/
def handleChangedBackends (M : Mgr) : P Unit := do
  let (device, _) ← getOwnDeviceInformation M
  let loaded := dedup (← call .getBackends)
  let active := device.namespaces
  Prog.when (¬ setEq loaded active) do
    call (.store (.devActive M.ownJid M.ownDev) (.ofBools ((M.O.iter loaded).map fun ns => (ns, true))))
    call (.store (.devNamespaces M.ownJid M.ownDev) (.ofStrs (M.O.iter loaded)))
    Prog.forEach (← call .getBackends) fun ns => do
      Prog.when (ns ∉ active) do
        refillPreKeys M ns
        let bundle ← call (.getBundle ns M.ownJid M.ownDev)
        call (.uploadBundle bundle)
        refreshDeviceList M ns M.ownJid
    Prog.forEach (M.O.iter (setDiff active loaded)) fun ns => purgeBackend M ns

/-- `SessionManager.create` (sm:251-493), without starting the rotation task (`manageRotation`) at the end.
`M.ownDev` is ignored; returns the own device id.  `fuel` bounds the number of random draws. -/
def create (M : Mgr) (bs : List Ns) (label : Option String) (fuel : Nat) : P DevId := do
  if (dedup bs).length ≠ bs.length then throwE .valueError
  else if ¬ (25 ≤ M.threshold ∧ M.threshold ≤ 99) then throwE .valueError
  else do
    call (.setBackends bs)
    let ikp ← IdentityKeyPair.get
    call (.setSync true)
    let d ← onNothing
      (do Maybe.fromJust (← Sto.loadInt .ownDeviceId))
      (firstRun M label (ikp.identityKey M.x) fuel)
    handleChangedBackends { M with ownDev := d }
    pure d

/-! ### Sessions -/

/-- sm:1234-1260, the body of the `try`. -/
def replaceSession (M : Mgr) (jid : Jid) (d : DevId) (ns : Ns) : P Unit := do
  let (content, km) ← call (.encryptEmpty ns)
  let bundle ← call (.downloadBundle ns jid d)
  let (session, ekm) ← call (.buildActive ns jid d bundle km)
  call (.sendMessage { ns := ns, bareJid := M.ownJid, deviceId := M.ownDev, content := content,
                       keys := [(ekm, some session.keyExchange)] } jid)
  call (.storeSession ns session)

/-- `SessionManager.replace_sessions` (sm:1170-1270). -/
def replaceSessions (M : Mgr) (jid : Jid) (d : DevId) : P (Dict Ns Exn) := do
  let devices ← getDeviceInformation M jid
  let device ← nextOrRuntimeError ((M.O.iter devices).find? fun dev => decide (dev.deviceId = d))
  let withSession ← Prog.filterAll (← call .getBackends) fun ns => do
    let s ← call (.loadSession ns device.bareJid device.deviceId)
    pure (Option.isSome s)
  let namespaces := setInter device.namespaces withSession
  Prog.fold (← call .getBackends) [] fun unsuccessful ns => do
    if ns ∈ namespaces then
      Prog.tryElse (replaceSession M device.bareJid device.deviceId ns)
        (fun e => if e.isOmemo then pure (Dict.set unsuccessful ns e) else throwE e)
        (fun _ => pure unsuccessful)
    else pure unsuccessful

/-- `SessionManager.get_sending_chain_length` (sm:1272-1304). -/
def getSendingChainLength (dev : DeviceInfo) : P (Dict Ns (Option Nat)) := do
  let bs ← call .getBackends
  Prog.mapAll (bs.filter fun ns => decide (ns ∈ dev.namespaces)) fun ns => do
    let s : Option Session ← call (.loadSession ns dev.bareJid dev.deviceId)
    pure (ns, s.map fun s => s.sendingChainLength)

/-- A lowercase hexadecimal digit, part of `bytes.hex()` (sm:1525). -/
def hexDigit (n : Nat) : Char := if n < 10 then Char.ofNat (48 + n) else Char.ofNat (87 + n)

/-- `bytes.hex()` (sm:1525) -/
def hexChars (b : Bytes) : List Char := b.flatMap fun x => [hexDigit (x.toNat / 16), hexDigit (x.toNat % 16)]

/-- `[ s[i:i + 8] for i in range(0, len(s), 8) ]` (sm:1526-1528) -/
def groupsOf8 (cs : List Char) : List (List Char) :=
  (List.range ((cs.length + 7) / 8)).map fun i => (cs.drop (i * 8)).take 8

/-- `SessionManager.format_identity_key` (sm:1512-1528).  `conv` is `xeddsa.ed25519_pub_to_curve25519_pub`. -/
def formatIdentityKey (conv : Bytes → Bytes) (ik : Bytes) : List String :=
  (groupsOf8 (hexChars (conv ik))).map String.ofList

/-! ### History synchronization -/

/-- The key exchange to attach to a message encrypted with a session (sm:1646-1650, 1924-1928). -/
def kexFor (s : Session) : Option KeyExchange :=
  if s.initiation = .active ∧ s.confirmed = false then some s.keyExchange else none

/-- `SessionManager.__send_empty_message` (sm:1622-1652). -/
def sendEmptyMessage (M : Mgr) (ns : Ns) (session : Session) : P Unit := do
  let (content, km) ← call (.encryptEmpty ns)
  let (ekm, session) ← call (.encryptKM ns session km)
  call (.sendMessage { ns := ns, bareJid := M.ownJid, deviceId := M.ownDev, content := content,
                       keys := [(ekm, kexFor session)] } session.bareJid)
  call (.storeSession ns session)

/-- `SessionManager.before_history_sync` (sm:1534-1559). -/
def beforeHistorySync : P Unit := call (.setSync true)

/-- sm:1604-1614, one queued device. -/
def sendQueued (M : Mgr) (ns : Ns) (jid : Jid) (d : DevId) : P Unit := do
  let s : Option Session ← call (.loadSession ns jid d)
  match s with
  | none => pure ()
  | some session => sendEmptyMessage M ns session

/-- sm:1593-1614, one queued JID. -/
def sendQueuedJid (M : Mgr) (ns : Ns) (jid : Jid) : P Unit := do
  let ids := dedup (Maybe.maybe (← Sto.loadInts (.queueJid ns jid)) [])
  call (.delete (.queueJid ns jid))
  Prog.forEach (M.O.iter ids) fun d => sendQueued M ns jid d

/-- sm:1583-1614, one backend. -/
def sendQueuedBackend (M : Mgr) (ns : Ns) : P Unit := do
  let jids := dedup (Maybe.maybe (← Sto.loadStrs (.queue ns)) [])
  call (.delete (.queue ns))
  Prog.forEach (M.O.iter jids) fun jid => sendQueuedJid M ns jid

/-- `SessionManager.after_history_sync` (sm:1561-1616). -/
def afterHistorySync (M : Mgr) : P Unit := do
  call (.setSync false)
  Prog.forEach (← call .getBackends) fun ns => call (.deleteHidden ns)
  Prog.forEach (← call .getBackends) fun ns => sendQueuedBackend M ns

/-! ### Encryption -/

/-- `dict(device.active)[namespace]` for all namespaces of the device (sm:1753-1756, 1799-1802): the namespaces it
is active for, or `KeyError`. -/
def activeNamespaces (dev : DeviceInfo) : Except Exn (List Ns) :=
  if dev.namespaces.any (fun ns => (dev.active.get ns).isNone) then .error .keyError
  else .ok (dev.namespaces.filter fun ns => decide (dev.active.get ns = some true))

/-- `is_valid_recipient_device` (sm:1733-1763). -/
def isValidRecipient (M : Mgr) (order : List Ns) (dev : DeviceInfo) : Except Exn Bool :=
  if dev.bareJid = M.ownJid ∧ dev.deviceId = M.ownDev then .ok false
  else (activeNamespaces dev).map fun active => decide (setInter active order ≠ [])

/-- `apply_backend_priorty_order` (sm:1781-1803). -/
def applyPriority (M : Mgr) (order : List Ns) (dev : DeviceInfo) : Except Exn DeviceInfo :=
  (activeNamespaces dev).map fun active =>
    { dev with namespaces := (sortedBy (fun ns => order.idxOf ns)
        ((M.O.iter active).filter fun ns => decide (ns ∈ order))).take 1 }

/-- sm:1816-1819, 1834-1837, 1845-1848: the devices whose trust level evaluates to `level`. -/
def devicesWithTrust (level : TrustLevel) (devices : List DeviceInfo) : P (List DeviceInfo) :=
  Prog.filterAll devices fun dev => do
    let l : TrustLevel ← call (.evalTrust dev)
    pure (decide (l = level))

/-- sm:1826-1829, one device. -/
def reloadTrust (M : Mgr) (dev : DeviceInfo) : P DeviceInfo := do
  let level := Maybe.maybe (← Sto.loadStr (.trust dev.bareJid dev.identityKey)) M.undecided
  pure { dev with trustLevelName := level }

/-- sm:1821-1829: let the application decide about undecided devices, then load all trust levels again. -/
def askTrust (M : Mgr) (devices undecided : List DeviceInfo) (identifier : Option String) : P (List DeviceInfo) :=
  if undecided.length > 0 then do
    M.decide undecided identifier
    let ds ← Prog.mapAll (M.O.iter devices) (reloadTrust M)
    pure (dedup ds)
  else pure devices

/-- sm:1814-1842: trust decisions.  Returns the devices with their current trust levels. -/
def decideTrust (M : Mgr) (devices : List DeviceInfo) (identifier : Option String) : P (List DeviceInfo) := do
  let undecided ← devicesWithTrust .undecided (M.O.iter devices)
  let devices ← askTrust M devices undecided identifier
  let stillUndecided ← devicesWithTrust .undecided (M.O.iter devices)
  if stillUndecided.length > 0 then throwE .stillUndecided
  else pure devices

/-- `EncryptionError` (sm:195-204). -/
structure EncError where
  ns : Ns
  bareJid : Jid
  deviceId : DevId
  exn : Exn
deriving DecidableEq, Repr

/-- sm:1897-1911: the bundle from the cache, or downloaded. -/
def bundleFor (ns : Ns) (dev : DeviceInfo) (bundle : Option Bundle) : P Bundle :=
  match bundle with
  | none => call (.downloadBundle ns dev.bareJid dev.deviceId)
  | some bundle => pure bundle

/-- sm:1897-1911: encrypt the key material for one device, building the session if there is none. -/
def encryptForDevice (ns : Ns) (dev : DeviceInfo) (session : Option Session) (bundle : Option Bundle) (km : PlainKM) :
    P (Session × EncKM) := do
  match session with
  | none => do
    let bundle ← bundleFor ns dev bundle
    call (.buildActive ns dev.bareJid dev.deviceId bundle km)
  | some session => do
    let (ekm, session) ← call (.encryptKM ns session km)
    pure (session, ekm)

/-- The local variables of the encryption loops (sm:1862-1864, 1882). -/
structure EncState where
  devices : List DeviceInfo
  errors : List EncError
  sessions : List (Ns × Session)
  keys : List (EncKM × Option KeyExchange)

/-- The exceptions that do not abort the encryption (sm:1912). -/
def isNonCritical (e : Exn) : Bool := e = .bundleDownloadFailed ∨ e = .bundleNotFound ∨ e = .keyExchangeFailed

/-- sm:1884-1931, one device.  Simplified: exception objects and sessions are compared by identity in Python, so
adding them to a set always adds an element. -/
def encryptDevice (M : Mgr) (ns : Ns) (cache : List Bundle) (km : PlainKM) (st : EncState) (dev : DeviceInfo) :
    P EncState := do
  let session : Option Session ← call (.loadSession ns dev.bareJid dev.deviceId)
  let bundle := (M.O.iter cache).find? fun b => decide (b.ns = ns ∧ b.bareJid = dev.bareJid ∧ b.deviceId = dev.deviceId)
  Prog.tryElse (encryptForDevice ns dev session bundle km)
    (fun e => if isNonCritical e then
        pure { st with devices := setDiff st.devices [dev]
                       errors := st.errors ++ [{ ns := ns, bareJid := dev.bareJid, deviceId := dev.deviceId, exn := e }] }
      else throwE e)
    (fun (session, ekm) =>
        pure { st with keys := setAdd st.keys (ekm, kexFor session)
                       sessions := st.sessions ++ [(ns, session)] })

/-- The local variables of the outer loop (sm:1862-1864). -/
structure EncAll where
  devices : List DeviceInfo
  errors : List EncError
  sessions : List (Ns × Session)
  messages : Dict Message PlainKM

/-- sm:1865-1940, one backend.  Simplified: `next(iter(device.namespaces))` never meets an empty set, because such
devices were removed in sm:1810. -/
def encryptBackend (M : Mgr) (cache : List Bundle) (plaintext : Dict Ns Bytes) (st : EncAll) (ns : Ns) : P EncAll := do
  let backendDevices := st.devices.filter fun dev => decide (dev.namespaces.head? = some ns)
  if backendDevices.length = 0 then pure st
  else do
    match plaintext.get ns with
    | none => throwE .keyError
    | some pt => do
      let (content, km) ← call (.encryptPlaintext ns pt)
      let st' ← Prog.fold (M.O.iter backendDevices)
        { devices := st.devices, errors := st.errors, sessions := st.sessions, keys := [] }
        (encryptDevice M ns cache km)
      let message : Message := { ns := ns, bareJid := M.ownJid, deviceId := M.ownDev, content := content, keys := st'.keys }
      pure { devices := st'.devices, errors := st'.errors, sessions := st'.sessions,
             messages := Dict.set st.messages message km }

/-- sm:1710-1722: the effective backend priority order. -/
def effectiveOrder (available : List Ns) (priority : Option (List Ns)) : Except Exn (List Ns) :=
  match priority with
  | none => .ok available
  | some l => if (setDiff (dedup l) available).length > 0 then .error .unknownNamespace else .ok l

/-- sm:1728-1810: the recipient devices, each with the single namespace to use, and the bundle cache. -/
def recipientDevices (M : Mgr) (order : List Ns) (jids : List Jid) : P (List DeviceInfo × List Bundle) := do
  let tmp ← Prog.mapAll (M.O.iter jids) (getDeviceInformation' M)
  let devices := dedup (tmp.map (·.1)).flatten
  let devices ← Prog.filterAll (M.O.iter devices) fun dev => liftE (isValidRecipient M order dev)
  let cache := dedup (tmp.map (·.2)).flatten
  let devices ← Prog.mapAll (M.O.iter devices) fun dev => liftE (applyPriority M order dev)
  let devices := (dedup devices).filter fun dev => decide (dev.namespaces.length > 0)
  pure (devices, cache)

/-- sm:1944-1948: recipients without a device left. -/
def noEligible (M : Mgr) (devices : List DeviceInfo) (jids : List Jid) : List Jid :=
  setDiff (jids.filter fun jid => devices.all fun dev => decide (dev.bareJid ≠ jid)) [M.ownJid]

/-- sm:1844-1966: the part of `encrypt` after the trust decisions. -/
def encryptTrusted (M : Mgr) (jids : List Jid) (cache : List Bundle) (plaintext : Dict Ns Bytes)
    (devices : List DeviceInfo) : P (Dict Message PlainKM × List EncError) := do
  let devices ← devicesWithTrust .trusted (M.O.iter devices)
  let st ← Prog.fold (← call .getBackends)
    { devices := devices, errors := [], sessions := [], messages := [] }
    (encryptBackend M cache plaintext)
  let missing := noEligible M st.devices jids
  if missing.length > 0 then throwE (.noEligibleDevices missing)
  else do
    Prog.forEach (M.O.iter st.sessions) fun (ns, session) => call (.storeSession ns session)
    pure (st.messages, st.errors)

/-- `SessionManager.encrypt` (sm:1654-1966). -/
def encrypt (M : Mgr) (jids : List Jid) (plaintext : Dict Ns Bytes) (priority : Option (List Ns))
    (identifier : Option String) : P (Dict Message PlainKM × List EncError) := do
  let available ← call .getBackends
  let order ← liftE (effectiveOrder available priority)
  let jids := setUnion jids [M.ownJid]
  let (devices, cache) ← recipientDevices M order jids
  let devices ← decideTrust M devices identifier
  encryptTrusted M jids cache plaintext devices

/-! ### Decryption -/

/-- `next((device for device in devices if device.device_id == device_id), None)` -/
def pickDevice (M : Mgr) (d : DevId) (devices : List DeviceInfo) : Option DeviceInfo :=
  (M.O.iter devices).find? fun dev => decide (dev.deviceId = d)

/-- sm:2040-2070: find the sending device, refreshing the device list once if it is not known. -/
def findSender (M : Mgr) (msg : Message) : P DeviceInfo := do
  match pickDevice M msg.deviceId (← getDeviceInformation M msg.bareJid) with
  | some dev => pure dev
  | none => do
    refreshDeviceList M msg.ns msg.bareJid
    match pickDevice M msg.deviceId (← getDeviceInformation M msg.bareJid) with
    | some dev => pure dev
    | none => throwE .senderNotFound

/-- `decrypt_key_material` (sm:2078-2110). -/
def decryptKeyMaterial (ns : Ns) (dev : DeviceInfo) (ekm : EncKM) : P (Session × PlainKM) := do
  let s : Option Session ← call (.loadSession ns dev.bareJid dev.deviceId)
  match s with
  | none => throwE .noSession
  | some session => do
    let (km, session) ← call (.decryptKM ns session ekm)
    pure (session, km)

/-- `handle_key_exchange` (sm:2112-2179). -/
def handleKeyExchange (M : Mgr) (ns : Ns) (dev : DeviceInfo) (kex : KeyExchange) (ekm : EncKM) : P (Session × PlainKM) := do
  if kex.identityKey ≠ dev.identityKey then throwE .publicDataInconsistency
  else do
    let s : Option Session ← call (.loadSession ns dev.bareJid dev.deviceId)
    match s.filter (fun s => decide (s.initiation = .passive) && M.sameSession s.keyExchange kex) with
    | none => call (.buildPassive ns dev.bareJid dev.deviceId kex ekm)
    | some session => do
      let (km, session) ← call (.decryptKM ns session ekm)
      pure (session, km)

/-- sm:2203-2212: hide the pre key during history synchronization, delete it otherwise; whether this changed the visible pre keys. -/
def discardPreKey (ns : Ns) (sync : Bool) (session : Session) : P Bool :=
  if sync then call (.hidePreKey ns session) else call (.deletePreKey ns session)

/-- sm:2201-2221: pre key bookkeeping after a key exchange. -/
def consumePreKey (M : Mgr) (ns : Ns) (session : Session) : P Unit := do
  let sync : Bool ← call .getSync
  let changed ← discardPreKey ns sync session
  Prog.when (changed = true) do
    refillPreKeys M ns
    let bundle ← call (.getBundle ns M.ownJid M.ownDev)
    call (.uploadBundle bundle)

/-- sm:2233-2246: queue an empty message. -/
def queueEmpty (M : Mgr) (session : Session) : P Unit := do
  let jids := dedup (Maybe.maybe (← Sto.loadStrs (.queue session.ns)) [])
  call (.store (.queue session.ns) (.ofStrs (M.O.iter (setAdd jids session.bareJid))))
  let ids := dedup (Maybe.maybe (← Sto.loadInts (.queueJid session.ns session.bareJid)) [])
  call (.store (.queueJid session.ns session.bareJid) (.ofInts (M.O.iter (setAdd ids session.deviceId))))

/-- sm:2223-2249: send or queue the automatic empty reply. -/
def autoReply (M : Mgr) (ns : Ns) (kex : Option KeyExchange) (session : Session) : P Unit := do
  Prog.when (kex ≠ none ∨ session.receivingChainLength.getD 0 > STALENESS_MAGIC_NUMBER) do
    let sync : Bool ← call .getSync
    if sync then queueEmpty M session else sendEmptyMessage M ns session

/-- sm:2198-2249: everything after the message has been decrypted. -/
def postDecrypt (M : Mgr) (ns : Ns) (kex : Option KeyExchange) (session : Session) : P Unit := do
  call (.storeSession ns session)
  Prog.when (kex ≠ none) (consumePreKey M ns session)
  autoReply M ns kex session

/-- sm:2181-2185: the key material, with or without key exchange. -/
def keyMaterial (M : Mgr) (msg : Message) (dev : DeviceInfo) (ekm : EncKM) (kex : Option KeyExchange) : P (Session × PlainKM) :=
  match kex with
  | none => decryptKeyMaterial msg.ns dev ekm
  | some kex => handleKeyExchange M msg.ns dev kex ekm

/-- sm:2190-2194: the plaintext, `None` for an empty message. -/
def plaintextOf (msg : Message) (km : PlainKM) : P (Option Bytes) :=
  if msg.content.empty then pure none
  else do
    let pt : Bytes ← call (.decryptPlaintext msg.ns msg.content km)
    pure (some pt)

/-- sm:2072-2194: trust check, key material, content. -/
def decryptContent (M : Mgr) (msg : Message) (dev : DeviceInfo) (ekm : EncKM) (kex : Option KeyExchange) :
    P (Option Bytes × Session × PlainKM) := do
  let level : TrustLevel ← call (.evalTrust dev)
  if level = .distrusted then throwE .senderDistrusted
  else do
    let (session, km) ← keyMaterial M msg dev ekm kex
    let plaintext ← plaintextOf msg km
    pure (plaintext, session, km)

/-- `SessionManager.decrypt` (sm:1968-2254). -/
def decrypt (M : Mgr) (msg : Message) : P (Option Bytes × DeviceInfo × PlainKM) := do
  let bs ← call .getBackends
  if msg.ns ∉ bs then throwE .unknownNamespace
  else do
    match (M.O.iter msg.keys).find? fun k => decide (k.1.bareJid = M.ownJid ∧ k.1.deviceId = M.ownDev) with
    | none => throwE .messageNotForUs
    | some (ekm, kex) => do
      let dev ← findSender M msg
      let (plaintext, session, km) ← decryptContent M msg dev ekm kex
      postDecrypt M msg.ns kex session
      pure (plaintext, dev, km)

end SM
end Verif
