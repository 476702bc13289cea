import Verif.Model.Contracts
/-
What the stored data means, written down without reference to the code that reads and writes it.
-/
namespace Verif.Spec

/-- The form of the data at each place, see the documentation of the keys in Model/Types.lean. -/
def Form : Key → JVal → Prop
  | .ikpIsSeed, v => ∃ b : Bool, v = .bool b
  | .ikpKey, v => ∃ b : Bytes, v = .str (Base64.encode b)
  | .ownDeviceId, v => ∃ i : Int, v = .int i
  | .devList _, v => ∃ l : List Int, v = .ofInts l
  | .devNamespaces _ _, v => ∃ l : List String, v = .ofStrs l
  | .devActive _ _, v => ∃ l : Dict String Bool, v = .ofBools l
  | .devLabel _ _, v => ∃ l : Option String, v = .ofOptStr l
  | .devIdentityKey _ _, v => ∃ b : Bytes, v = .str (Base64.encode b)
  | .trust _ _, v => ∃ s : String, v = .str s
  | .queue _, v => ∃ l : List String, v = .ofStrs l
  | .queueJid _ _, v => ∃ l : List Int, v = .ofInts l

/-- All stored data has the form it is supposed to have. -/
def Typed (m : Disk) : Prop := ∀ k v, m k = some v → Form k v

/-- The stored device list of `j` contains `d`. -/
def Known (m : Disk) (j : Jid) (d : DevId) : Prop := ∃ l, m (.devList j) = some (.ofInts l) ∧ d ∈ l

/-- Device `d` of `j` is stored as supporting `ns`. -/
def Advertises (m : Disk) (j : Jid) (d : DevId) (ns : Ns) : Prop :=
  ∃ l, m (.devNamespaces j d) = some (.ofStrs l) ∧ ns ∈ l

/-- Device `d` of `j` is stored as active (`b = true`) or inactive for `ns`. -/
def Activity (m : Disk) (j : Jid) (d : DevId) (ns : Ns) (b : Bool) : Prop :=
  ∃ a, m (.devActive j d) = some (.ofBools a) ∧ a.get ns = some b

/-- Device `d` of `j` is stored with label `l`, which may be `None`. -/
def Labelled (m : Disk) (j : Jid) (d : DevId) (l : Option String) : Prop :=
  m (.devLabel j d) = some (.ofOptStr l)

/-- Device `d` of `j` is stored with identity key `ik`. -/
def HasKey (m : Disk) (j : Jid) (d : DevId) (ik : Bytes) : Prop :=
  m (.devIdentityKey j d) = some (.str (Base64.encode ik))

/-- The places that hold data about the devices of `j`, apart from identity keys and trust. -/
def DevicePlace (j : Jid) (k : Key) : Prop :=
  k = .devList j ∨ ∃ d, k = .devNamespaces j d ∨ k = .devActive j d ∨ k = .devLabel j d

end Verif.Spec
