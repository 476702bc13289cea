import Verif.Model.Contracts
import Verif.Model.SessionManager
/-
Vocabulary for statements about sequences of interactions.
-/
namespace Verif.Spec

/-- The value `v` was loaded from `k`. -/
def Loaded (h : List Ev) (k : Key) (v : JVal) : Prop := (⟨.load k, .ok (some v)⟩ : Ev) ∈ h

/-- A bundle was downloaded. -/
def Downloaded (h : List Ev) (ns : Ns) (j : Jid) (d : DevId) (b : Bundle) : Prop := (⟨.downloadBundle ns j d, .ok b⟩ : Ev) ∈ h

/-- A device information consists of what was loaded from storage, with `undecided` for a missing trust level and the key of a
downloaded bundle for a missing identity key.  Namespaces without activity information are left out. -/
structure Seen (undecided : String) (h : List Ev) (dev : DeviceInfo) : Prop where
  namespaces : ∃ l, Loaded h (.devNamespaces dev.bareJid dev.deviceId) (.ofStrs l) ∧
    (∀ ns, ns ∈ dev.namespaces ↔ ns ∈ l ∧ (dev.active.get ns).isSome = true) ∧
    ((∃ s, Loaded h (.devIdentityKey dev.bareJid dev.deviceId) (.str s) ∧ Base64.decode s = some dev.identityKey) ∨
     (∃ ns b, ns ∈ l ∧ Downloaded h ns dev.bareJid dev.deviceId b ∧ b.identityKey = dev.identityKey))
  nodup : dev.namespaces.Nodup
  active : Loaded h (.devActive dev.bareJid dev.deviceId) (.ofBools dev.active)
  label : Loaded h (.devLabel dev.bareJid dev.deviceId) (.ofOptStr dev.label)
  level : Loaded h (.trust dev.bareJid dev.identityKey) (.str dev.trustLevelName) ∨
    ((⟨.load (.trust dev.bareJid dev.identityKey), .ok none⟩ : Ev) ∈ h ∧ dev.trustLevelName = undecided)

theorem Seen.mono {u : String} {h h' : List Ev} {dev : DeviceInfo} (hs : Seen u h dev) (hh : ∀ e ∈ h, e ∈ h') : Seen u h' dev := by
  obtain ⟨⟨l, h1, h2, h3⟩, h4, h5, h6, h7⟩ := hs
  refine ⟨⟨l, hh _ h1, h2, ?_⟩, h4, hh _ h5, hh _ h6, ?_⟩
  · rcases h3 with ⟨s, h3, h8⟩ | ⟨ns, b, h3, h8, h9⟩
    · exact .inl ⟨s, hh _ h3, h8⟩
    · exact .inr ⟨ns, b, h3, hh _ h8, h9⟩
  · rcases h7 with h7 | ⟨h7, h8⟩
    · exact .inl (hh _ h7)
    · exact .inr ⟨hh _ h7, h8⟩

/-- The device list of `jid` was loaded with exactly these ids (Python accepts `True` and `False` as integers). -/
def LoadedIds (h : List Ev) (jid : Jid) (ids : List DevId) : Prop :=
  (∃ l, Loaded h (.devList jid) (.list l) ∧ ids = l.map JVal.asInt) ∨ ((⟨.load (.devList jid), .ok none⟩ : Ev) ∈ h ∧ ids = [])

/-- The device has no stored identity key, and no bundle of it can be downloaded for any of its namespaces. -/
def Keyless (h : List Ev) (jid : Jid) (d : DevId) : Prop :=
  ((⟨.load (.devIdentityKey jid d), .ok none⟩ : Ev) ∈ h ∨ (⟨.load (.devIdentityKey jid d), .error .nothingException⟩ : Ev) ∈ h) ∧
  ∃ l, Loaded h (.devNamespaces jid d) (.ofStrs l) ∧
    ∀ ns ∈ l, (⟨.downloadBundle ns jid d, .error .bundleDownloadFailed⟩ : Ev) ∈ h ∨ (⟨.downloadBundle ns jid d, .error .bundleNotFound⟩ : Ev) ∈ h

theorem LoadedIds.mono {h h' : List Ev} {jid : Jid} {ids : List DevId} (hl : LoadedIds h jid ids) (hh : ∀ e ∈ h, e ∈ h') : LoadedIds h' jid ids := by
  rcases hl with ⟨l, h1, h2⟩ | ⟨h1, h2⟩
  · exact .inl ⟨l, hh _ h1, h2⟩
  · exact .inr ⟨hh _ h1, h2⟩

theorem Keyless.mono {h h' : List Ev} {jid : Jid} {d : DevId} (hl : Keyless h jid d) (hh : ∀ e ∈ h, e ∈ h') : Keyless h' jid d := by
  obtain ⟨h1, l, h2, h3⟩ := hl
  exact ⟨h1.imp (hh _) (hh _), l, hh _ h2, fun ns hns => (h3 ns hns).imp (hh _) (hh _)⟩

/-- Every interaction of `h` is related to what happened before it by `G`. -/
def Guarded (G : List Ev → Ev → Prop) (h : List Ev) : Prop := ∀ h1 e h2, h = h1 ++ e :: h2 → G h1 e

/-- Interactions that hand key material to a backend in order to encrypt it. -/
def Op.handsOut : Op → Bool
  | .buildActive .. | .encryptKM .. => true
  | _ => false

/-- The interaction `e`, performed after `h`, hands key material `m` to the backend `ns` to encrypt it for device `d` of `j`: a new
session is built for this device, or the session just loaded for it is used. -/
def HandsOut (h : List Ev) (e : Ev) (ns : Ns) (j : Jid) (d : DevId) (m : PlainKM) : Prop :=
  (∃ b, e.1 = .buildActive ns j d b m) ∨
  (∃ s, e.1 = .encryptKM ns s m ∧ h.getLast? = some ⟨.loadSession ns j d, .ok (some s)⟩)

/-- The answer of the backend: encrypted key material and session. -/
def Gives (e : Ev) (k : EncKM) (s : Session) : Prop :=
  (∃ ns j d b m, e = ⟨.buildActive ns j d b m, .ok (s, k)⟩) ∨ (∃ ns s0 m, e = ⟨.encryptKM ns s0 m, .ok (k, s)⟩)

/-- In `h` some key material for device `d` of `j` was handed to a backend, and the backend answered with `k` and `s`. -/
def Served (h : List Ev) (ns : Ns) (j : Jid) (d : DevId) (m : PlainKM) (k : EncKM) (s : Session) : Prop :=
  ∃ h1 e h2, h = h1 ++ e :: h2 ∧ HandsOut h1 e ns j d m ∧ Gives e k s

/-- The sessions returned by the backends for key material handed out. -/
def given (h : List Ev) : List (Ns × Session) :=
  h.filterMap fun
    | ⟨.buildActive ns _ _ _ _, .ok (s, _)⟩ => some (ns, s)
    | ⟨.encryptKM ns _ _, .ok (_, s)⟩ => some (ns, s)
    | _ => none

/-- `ns` is the first namespace in the order for which the device is active. -/
structure FirstActive (order : List Ns) (dev : DeviceInfo) (ns : Ns) : Prop where
  mem : ns ∈ order
  namespaces : ns ∈ dev.namespaces
  active : dev.active.get ns = some true
  first : ∀ ns' ∈ order, ns' ∈ dev.namespaces → dev.active.get ns' = some true → order.idxOf ns ≤ order.idxOf ns'

/-- The key exchange belongs to the message exactly if the session was actively initiated and is not confirmed. -/
def KexRule (s : Session) (x : Option KeyExchange) : Prop :=
  (s.initiation = .active ∧ s.confirmed = false → x = some s.keyExchange) ∧ (¬ (s.initiation = .active ∧ s.confirmed = false) → x = none)

/-- `l` is the result of the last evaluation of the trust in device `dev.deviceId` of `dev.bareJid`, made for exactly the information
`dev`. -/
def LastEval (h : List Ev) (dev : DeviceInfo) (l : TrustLevel) : Prop :=
  ∃ u v, h = u ++ ⟨.evalTrust dev, .ok l⟩ :: v ∧
    ∀ e ∈ v, ∀ dev' : DeviceInfo, dev'.bareJid = dev.bareJid → dev'.deviceId = dev.deviceId → e.1 ≠ .evalTrust dev'

/-- The steps of an encryption: encryption of content and keys, and storing sessions. -/
def Op.encrypts : Op → Bool
  | .encryptPlaintext .. | .buildActive .. | .encryptKM .. | .storeSession .. => true
  | _ => false

/-- Storing a session. -/
def Op.storesSession : Op → Bool
  | .storeSession .. => true
  | _ => false

/-- The trust decision callback neither encrypts nor evaluates trust levels itself. -/
def CallbackQuiet (decide : List DeviceInfo → Option String → P Unit) : Prop :=
  ∀ ds i t r, Exec (decide ds i) t r → ∀ e ∈ t, Op.encrypts e.1 = false ∧ ∀ dev, e.1 ≠ .evalTrust dev

/-- No backend is loaded twice (checked by `create`, session_manager.py:337-338). -/
def BackendsOnce (t : List Ev) : Prop := ∀ bs, (⟨.getBackends, .ok bs⟩ : Ev) ∈ t → bs.Nodup

/-- Backends answer with sessions and key material for the device they were asked for (backend.py:150-280). -/
structure Addressed (t : List Ev) : Prop where
  load : ∀ ns j d s, (⟨.loadSession ns j d, .ok (some s)⟩ : Ev) ∈ t → s.bareJid = j ∧ s.deviceId = d
  build : ∀ ns j d b m s k, (⟨.buildActive ns j d b m, .ok (s, k)⟩ : Ev) ∈ t →
    (s.bareJid = j ∧ s.deviceId = d) ∧ k.bareJid = j ∧ k.deviceId = d
  encrypt : ∀ ns s m k s', (⟨.encryptKM ns s m, .ok (k, s')⟩ : Ev) ∈ t →
    (s'.bareJid = s.bareJid ∧ s'.deviceId = s.deviceId) ∧ k.bareJid = s.bareJid ∧ k.deviceId = s.deviceId

/-- The loaded backends do not change during the call. -/
def BackendsStay (t : List Ev) : Prop :=
  ∀ bs bs', (⟨.getBackends, .ok bs⟩ : Ev) ∈ t → (⟨.getBackends, .ok bs'⟩ : Ev) ∈ t → bs = bs'

/-- A device of `j` got key material. -/
def Reached (t : List Ev) (j : Jid) : Prop := ∃ ns d m k s, Served t ns j d m k s

/-- The keys in a message for device `d` of `j`. -/
def keysFor (m : Message) (j : Jid) (d : DevId) : List (EncKM × Option KeyExchange) :=
  m.keys.filter fun k => decide (k.1.bareJid = j ∧ k.1.deviceId = d)

/-- The encryption errors for device `d` of `j`. -/
def errorsFor (errs : List SM.EncError) (j : Jid) (d : DevId) : List SM.EncError :=
  errs.filter fun e => decide (e.bareJid = j ∧ e.deviceId = d)

end Verif.Spec
