import Verif.Model.BTBV
import Verif.Model.Contracts
/-
The implementation of the abstract parts of the library that comes with its tests: a session manager with manual trust, servers that are
dictionaries, and a storage that is a dictionary.  `si` is tests/session_manager_impl.py, `ims` is tests/in_memory_storage.py.
-/
namespace Verif.Ref

/-! ### Trust -/

/-- `TrustLevel` (si:20-28). -/
inductive Level where
  | trusted | undecided | distrusted
deriving DecidableEq, Repr

/-- `TrustLevel.….name` and `.value`, which coincide (si:26-28). -/
def Level.name : Level → String
  | .trusted => "TRUSTED"
  | .undecided => "UNDECIDED"
  | .distrusted => "DISTRUSTED"

/-- `TrustLevel(name)` (si:128); `none`: it raises `ValueError`. -/
def levelOf (name : String) : Option Level :=
  [Level.trusted, .undecided, .distrusted].find? fun l => decide (l.name = name)

/-- `_evaluate_custom_trust_level` (si:126-139). -/
def evaluate (dev : DeviceInfo) : Except Exn TrustLevel :=
  match levelOf dev.trustLevelName with
  | none => .error .unknownTrustLevel
  | some .trusted => .ok .trusted
  | some .undecided => .ok .undecided
  | some .distrusted => .ok .distrusted

/-- `_make_trust_decision` (si:141-147). -/
def makeTrustDecision (O : SetOrder) (undecided : List DeviceInfo) (_ : Option String) : P Unit :=
  Prog.forEach (O.iter undecided) fun dev => SM.setTrust dev.bareJid dev.identityKey Level.trusted.name

/-- A manager of class `SessionManagerImpl` (si:77-151). -/
def mgr (M : Mgr) : Mgr := { M with decide := makeTrustDecision M.O }

/-! ### Servers -/

/-- The dictionaries given to `make_session_manager_impl` (si:52-54, 57-62). -/
structure Cloud where
  bundles : Ns → Jid → DevId → Option Bundle
  lists : Ns → Jid → Option DevList
  queue : List (Jid × Message)

/-- What the methods of the implementation for the account `own` return or raise; `none` for interactions of other kinds.
`_upload_bundle` (si:79-85), `_download_bundle` (si:87-96), `_delete_bundle` (si:98-107), `_upload_device_list` (si:109-114),
`_download_device_list` (si:116-124), `_evaluate_custom_trust_level`, `_send_message` (si:149-151). -/
def reply (own : Jid) (c : Cloud) : (o : Op) → Option (Except Exn o.Ret)
  | .uploadBundle _ => some (.ok ())
  | .downloadBundle ns j d => some (match c.bundles ns j d with | some b => .ok b | none => .error .bundleDownloadFailed)
  | .deleteBundle ns d => some (match c.bundles ns own d with | some _ => .ok () | none => .error .bundleDeletionFailed)
  | .uploadList _ _ => some (.ok ())
  | .downloadList ns j => some (.ok ((c.lists ns j).getD []))
  | .sendMessage _ _ => some (.ok ())
  | .evalTrust dev => some (evaluate dev)
  | _ => none

/-- The dictionaries afterwards. -/
def after (own : Jid) (c : Cloud) : Op → Cloud
  | .uploadBundle b =>
    { c with bundles := fun n j d => if n = b.ns ∧ j = b.bareJid ∧ d = b.deviceId then some b else c.bundles n j d }
  | .deleteBundle ns d => { c with bundles := fun n j d' => if n = ns ∧ j = own ∧ d' = d then none else c.bundles n j d' }
  | .uploadList ns dl => { c with lists := fun n j => if n = ns ∧ j = own then some dl else c.lists n j }
  | .sendMessage m j => { c with queue := c.queue ++ [(j, m)] }
  | _ => c

/-- A manager for the account `own` with this implementation; everything else is arbitrary. -/
def Hosted (own : Jid) : Sem LibSig Exn Cloud where
  ok c e := ∀ r, reply own c e.1 = some r → e.2 = r
  next c e := after own c e.1

/-! ### Storage -/

/-- `InMemoryStorage` (ims:11-31) in place of the abstract methods, and the cache of `Storage`, which it enables (ims:17). -/
def InMemory : Sem RawSig Exn RawW where
  ok w
    | ⟨.rawLoad k, r⟩ => r = .ok (w.disk k)
    | ⟨.rawStore _ _, r⟩ => r = .ok ()
    | ⟨.rawDelete _, r⟩ => r = .ok ()
    | ⟨.cacheGet k, r⟩ => r = .ok (w.cache k)
    | ⟨.cacheSet _ _, r⟩ => r = .ok ()
    | ⟨.other _, _⟩ => True
  next w
    | ⟨.rawStore k v, _⟩ => { w with disk := w.disk.upd k (some v) }
    | ⟨.rawDelete k, _⟩ => { w with disk := w.disk.upd k none }
    | ⟨.cacheSet k m, _⟩ => { w with cache := fun k' => if k' = k then some m else w.cache k' }
    | _ => w

end Verif.Ref
