import Verif.Spec.Trace
/-
Vocabulary for statements about `decrypt`.
-/
namespace Verif.Spec

/-- Interactions for looking up device information and refreshing a device list. -/
def Op.looks : Op → Bool
  | .load _ | .getBackends | .downloadList .. | .downloadBundle .. | .uploadList .. => true
  | .store (.devList _) _ | .store (.devNamespaces ..) _ | .store (.devActive ..) _ | .store (.devLabel ..) _
  | .store (.devIdentityKey ..) _ => true
  | _ => false

/-- Interactions that recover key material or content. -/
def Op.recovers : Op → Bool
  | .loadSession .. | .buildPassive .. | .decryptKM .. | .decryptPlaintext .. => true
  | _ => false

/-- Lasting effects of receiving a message: on sessions, pre keys, the bundle, messages and queues. -/
def Op.lasting : Op → Bool
  | .storeSession .. | .hidePreKey .. | .deletePreKey .. | .generatePreKeys .. | .deleteHidden .. | .rotateSpk .. | .uploadBundle ..
  | .sendMessage .. | .store (.queue _) _ | .store (.queueJid ..) _ | .delete .. => true
  | _ => false

/-- Interactions with the pre keys of a backend. -/
def Op.preKeys : Op → Bool
  | .hidePreKey .. | .deletePreKey .. | .deleteHidden .. | .generatePreKeys .. | .numVisible .. => true
  | _ => false

/-- Giving up a pre key. -/
def Op.givesUp : Op → Bool
  | .hidePreKey .. | .deletePreKey .. => true
  | _ => false

/-- Recovering key material, with an old or a new session. -/
def Op.usesSession : Op → Bool
  | .decryptKM .. | .buildPassive .. => true
  | _ => false

/-- Sending a message, or queueing one. -/
def Op.replies : Op → Bool
  | .sendMessage .. | .store (.queueJid ..) _ => true
  | _ => false

/-- Uploading a bundle. -/
def Op.publishes : Op → Bool
  | .uploadBundle .. => true
  | _ => false

/-- The key of the message for this device: the first one addressed to it, in the iteration order of the set of keys. -/
def keyForUs (M : Mgr) (msg : Message) : Option (EncKM × Option KeyExchange) :=
  (M.O.iter msg.keys).find? fun k => decide (k.1.bareJid = M.ownJid ∧ k.1.deviceId = M.ownDev)

/-- The information on the sending device consists of what was loaded from storage, and the device was in the device list. -/
structure KnownSender (M : Mgr) (msg : Message) (h : List Ev) (dev : DeviceInfo) : Prop where
  bareJid : dev.bareJid = msg.bareJid
  deviceId : dev.deviceId = msg.deviceId
  seen : Seen M.undecided h dev
  listed : ∃ ids, LoadedIds h msg.bareJid ids ∧ msg.deviceId ∈ ids

/-- The backend `ns` recovered key material `km` from `ekm`, and answered with the session `s`. -/
def GaveKM (ns : Ns) (e : Ev) (ekm : EncKM) (s : Session) (km : PlainKM) : Prop :=
  (∃ s0, e = ⟨.decryptKM ns s0 ekm, .ok (km, s)⟩) ∨ (∃ j d x, e = ⟨.buildPassive ns j d x ekm, .ok (s, km)⟩)

/-- The stored session was built passively by the same key exchange. -/
def Same (M : Mgr) (s : Session) (x : KeyExchange) : Prop := s.initiation = .passive ∧ M.sameSession s.keyExchange x = true

/-- The synchronization mode as last read. -/
def LastSync (h : List Ev) (b : Bool) : Prop := ∃ u v, h = u ++ ⟨.getSync, .ok b⟩ :: v ∧ ∀ e ∈ v, e.1 ≠ .getSync

/-- An empty message is due: after a key exchange, and if the other side has sent more than 53 messages since the last reply. -/
def ReplyDue (kex : Option KeyExchange) (s : Session) : Prop := kex.isSome = true ∨ ∃ n, s.receivingChainLength = some n ∧ 53 < n

end Verif.Spec
