import Verif.Base.Prog
import Verif.Base.Py
import Verif.Model.Base64
/-
The data types of python-omemo and the interactions its code performs.

Abstract base classes implemented by backends (`Session`, `Bundle`, `Content`, ...) are modelled by their
public properties plus an opaque number `blob` standing for everything else a backend keeps in them.
-/
namespace Verif

abbrev Jid := String
abbrev Ns := String
/-- Device ids are Python ints of any size. -/
abbrev DevId := Int

/-- JSON values (omemo/types.py:61-74).  Simplified: no bound on the nesting depth; a float is kept as its textual form. -/
inductive JVal where
  | null
  | bool (b : Bool)
  | int (i : Int)
  | float (repr : String)
  | str (s : String)
  | list (l : List JVal)
  | dict (l : List (String × JVal))

/-- Exceptions.  One constructor per exception class the code raises, catches or forwards.
omemo/session_manager.py:55-192, omemo/backend.py:19-47, omemo/storage.py:22, omemo/storage.py:94.
`app n` stands for any exception outside the library's hierarchy raised by application code.  Simplified:
messages are dropped; an application defined subclass is identified with its documented parent. -/
inductive Exn where
  | trustDecisionFailed | stillUndecided | noEligibleDevices (jids : List Jid)
  | messageNotForUs | senderNotFound | senderDistrusted | noSession | publicDataInconsistency
  | unknownTrustLevel | unknownNamespace
  | bundleUploadFailed | bundleDownloadFailed | bundleNotFound | bundleDeletionFailed
  | deviceListUploadFailed | deviceListDownloadFailed | messageSendingFailed
  | decryptionFailed | keyExchangeFailed | tooManySkippedMessageKeys
  | storageException
  | nothingException | typeError | keyError | valueError
  /-- `StopIteration` raised inside a coroutine, which Python turns into `RuntimeError`. -/
  | runtimeError
  | app (n : Nat)
  /-- Not a Python exception: a loop without a bound of its own was cut off after the number of rounds given to the
  model.  Theorems quantify over that number. -/
  | outOfFuel
deriving DecidableEq, Repr

/-- `isinstance(e, OMEMOException)` (omemo/types.py:27; class statements in session_manager.py, backend.py, storage.py).
`NothingException` (storage.py:94) is not one. -/
def Exn.isOmemo : Exn → Bool
  | .nothingException | .typeError | .keyError | .valueError | .runtimeError | .app _ | .outOfFuel => false
  | _ => true

/-- omemo/types.py:49-56 -/
inductive TrustLevel where
  | trusted | distrusted | undecided
deriving DecidableEq, Repr

/-- omemo/types.py:33-45.  `namespaces` is a frozenset, `active` the frozenset of items of a dict. -/
structure DeviceInfo where
  namespaces : List Ns
  active : Dict Ns Bool
  bareJid : Jid
  deviceId : DevId
  identityKey : Bytes
  trustLevelName : String
  label : Option String
deriving DecidableEq, Repr

/-- omemo/session.py:14-21 -/
inductive Initiation where
  | active | passive
deriving DecidableEq, Repr

/-- omemo/message.py:56-77.  `builds_same_session` is a parameter of the model, see `Cfg`. -/
structure KeyExchange where
  identityKey : Bytes
  blob : Nat
deriving DecidableEq, Repr

/-- omemo/message.py:36-53 -/
structure EncKM where
  bareJid : Jid
  deviceId : DevId
  blob : Nat
deriving DecidableEq, Repr

/-- omemo/message.py:30-33 -/
structure PlainKM where
  blob : Nat
deriving DecidableEq, Repr

/-- omemo/message.py:14-27 -/
structure Content where
  empty : Bool
  blob : Nat
deriving DecidableEq, Repr

/-- omemo/message.py:80-90 -/
structure Message where
  ns : Ns
  bareJid : Jid
  deviceId : DevId
  content : Content
  keys : List (EncKM × Option KeyExchange)
deriving DecidableEq, Repr

/-- omemo/session.py:24-110 -/
structure Session where
  ns : Ns
  bareJid : Jid
  deviceId : DevId
  initiation : Initiation
  confirmed : Bool
  keyExchange : KeyExchange
  receivingChainLength : Option Nat
  sendingChainLength : Nat
  blob : Nat
deriving DecidableEq, Repr

/-- omemo/bundle.py:9-64.  `__eq__` compares contents, i.e. is structural equality here. -/
structure Bundle where
  ns : Ns
  bareJid : Jid
  deviceId : DevId
  identityKey : Bytes
  blob : Nat
deriving DecidableEq, Repr

/-- A device list as passed to and from the server: `Dict[int, Optional[str]]`. -/
abbrev DevList := Dict DevId (Option String)

/-- The places in storage used by the core library, one constructor per f-string in the source:
`/ikp/is_seed`, `/ikp/key` (identity_key_pair.py:68-69, 81-82); `/own_device_id` (session_manager.py:354, 416);
`/devices/{jid}/list` (:402), `/devices/{jid}/{id}/namespaces|active|label|identity_key` (:381-396);
`/trust/{jid}/{b64(ik)}` (:411); `/queue/{ns}` (:1585), `/queue/{ns}/{jid}` (:1597).
The strings are `Key.render` in Model/Keys.lean, proved injective there for slash-free JIDs and namespaces. -/
inductive Key where
  | ikpIsSeed
  | ikpKey
  | ownDeviceId
  | devList (j : Jid)
  | devNamespaces (j : Jid) (d : DevId)
  | devActive (j : Jid) (d : DevId)
  | devLabel (j : Jid) (d : DevId)
  | devIdentityKey (j : Jid) (d : DevId)
  | trust (j : Jid) (ik : Bytes)
  | queue (ns : Ns)
  | queueJid (ns : Ns) (j : Jid)
deriving DecidableEq, Repr

/-- The interactions of the core library with its surroundings. -/
inductive Op where
  -- the storage object: Storage.load / store / delete (storage.py:233-287)
  | load (k : Key)
  | store (k : Key) (v : JVal)
  | delete (k : Key)
  -- instance fields shared by concurrent calls: self.__backends, self.__synchronizing (session_manager.py:240-249)
  | getBackends
  | setBackends (bs : List Ns)
  | getSync
  | setSync (b : Bool)
  -- methods of the backend for namespace `ns` (backend.py:150-433); a method that mutates the session it is given
  -- returns the mutated session
  | loadSession (ns : Ns) (j : Jid) (d : DevId)
  | storeSession (ns : Ns) (s : Session)
  | buildActive (ns : Ns) (j : Jid) (d : DevId) (b : Bundle) (m : PlainKM)
  | buildPassive (ns : Ns) (j : Jid) (d : DevId) (x : KeyExchange) (e : EncKM)
  | encryptPlaintext (ns : Ns) (p : Bytes)
  | encryptEmpty (ns : Ns)
  | encryptKM (ns : Ns) (s : Session) (m : PlainKM)
  | decryptPlaintext (ns : Ns) (c : Content) (m : PlainKM)
  | decryptKM (ns : Ns) (s : Session) (e : EncKM)
  | spkAge (ns : Ns)
  | rotateSpk (ns : Ns)
  | hidePreKey (ns : Ns) (s : Session)
  | deletePreKey (ns : Ns) (s : Session)
  | deleteHidden (ns : Ns)
  | numVisible (ns : Ns)
  | generatePreKeys (ns : Ns) (n : Int)
  | getBundle (ns : Ns) (j : Jid) (d : DevId)
  | purge (ns : Ns)
  | purgeJid (ns : Ns) (j : Jid)
  -- the abstract network methods (session_manager.py:772-899, 953-979)
  | uploadBundle (b : Bundle)
  | downloadBundle (ns : Ns) (j : Jid) (d : DevId)
  | deleteBundle (ns : Ns) (d : DevId)
  | uploadList (ns : Ns) (l : DevList)
  | downloadList (ns : Ns) (j : Jid)
  | sendMessage (m : Message) (j : Jid)
  -- _evaluate_custom_trust_level (session_manager.py:901-922)
  | evalTrust (dev : DeviceInfo)
  -- secrets.randbelow, secrets.token_bytes, asynchronous sleeping
  | randBelow (n : Nat)
  | tokenBytes (n : Nat)
  | sleep (seconds : Int)

/-- The type of the answer of each interaction. -/
@[reducible] def Op.Ret : Op → Type
  | .load _ => Option JVal
  | .getBackends => List Ns
  | .getSync => Bool
  | .loadSession .. => Option Session
  | .buildActive .. => Session × EncKM
  | .buildPassive .. => Session × PlainKM
  | .encryptPlaintext .. => Content × PlainKM
  | .encryptEmpty .. => Content × PlainKM
  | .encryptKM .. => EncKM × Session
  | .decryptPlaintext .. => Bytes
  | .decryptKM .. => PlainKM × Session
  | .spkAge _ => Int
  | .hidePreKey .. => Bool
  | .deletePreKey .. => Bool
  | .numVisible _ => Int
  | .getBundle .. => Bundle
  | .downloadBundle .. => Bundle
  | .downloadList .. => DevList
  | .evalTrust _ => TrustLevel
  | .randBelow _ => Nat
  | .tokenBytes _ => Bytes
  | _ => Unit

/-- The signature of the library. -/
abbrev LibSig : Sig := ⟨Op, Op.Ret⟩

/-- A library program. -/
abbrev P (α : Type) := Prog LibSig Exn α

/-- A library event: interaction and answer. -/
abbrev Ev := Event LibSig Exn

/-- Perform an interaction. -/
abbrev call (o : Op) : P o.Ret := Prog.perform (S := LibSig) o

/-- `raise e` -/
abbrev throwE {α : Type} (e : Exn) : P α := .raise e

end Verif
