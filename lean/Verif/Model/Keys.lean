import Verif.Model.Contracts
/-
The strings used as storage keys.  Everywhere else in the model a location in storage is a `Key`; this file gives the
strings the code uses for them (one f-string per constructor), and `Props/Keys.lean` proves that
different locations have different strings.
-/
namespace Verif

/-- A decimal digit. -/
def decDigit (n : Nat) : Char := Char.ofNat (48 + n)

/-- `str(n)` for a natural number: implicit in every f-string that contains a device id, e.g.
session_manager.py:381. -/
def natChars (n : Nat) : List Char :=
  if n < 10 then [decDigit n] else natChars (n / 10) ++ [decDigit (n % 10)]
termination_by n

/-- `str(i)` for an int. -/
def intChars : Int → List Char
  | .ofNat n => natChars n
  | .negSucc n => '-' :: natChars (n + 1)

/-- The parts of a key between slashes. -/
def Key.segments : Key → List (List Char)
  /- identity_key_pair.py:68, 81 -/
  | .ikpIsSeed => ["ikp".toList, "is_seed".toList]
  /- identity_key_pair.py:69, 82 -/
  | .ikpKey => ["ikp".toList, "key".toList]
  /- session_manager.py:354, 416 -/
  | .ownDeviceId => ["own_device_id".toList]
  /- session_manager.py:402, 589, 609, 1024, 1094, 1399 -/
  | .devList j => ["devices".toList, j.toList, "list".toList]
  /- session_manager.py:381, 449, 547, 603, 1051, 1056, 1083, 1408, 1479 -/
  | .devNamespaces j d => ["devices".toList, j.toList, intChars d, "namespaces".toList]
  /- session_manager.py:386, 443, 542, 604, 1049, 1060, 1066, 1089, 1464 -/
  | .devActive j d => ["devices".toList, j.toList, intChars d, "active".toList]
  /- session_manager.py:391, 605, 1042, 1050, 1071, 1078, 1330, 1465 -/
  | .devLabel j d => ["devices".toList, j.toList, intChars d, "label".toList]
  /- session_manager.py:396, 596, 606, 1417, 1452 -/
  | .devIdentityKey j d => ["devices".toList, j.toList, intChars d, "identity_key".toList]
  /- session_manager.py:411, 614, 1162, 1468, 1827 -/
  | .trust j ik => ["trust".toList, j.toList, (Base64.encode ik).toList]
  /- session_manager.py:1585, 1586, 2234, 2237 -/
  | .queue ns => ["queue".toList, ns.toList]
  /- session_manager.py:1597, 1600, 2241, 2246 -/
  | .queueJid ns j => ["queue".toList, ns.toList, j.toList]

/-- Every segment is preceded by a slash. -/
def joinSegments (l : List (List Char)) : List Char := l.flatMap fun s => '/' :: s

/-- The string used as storage key. -/
def Key.render (k : Key) : String := String.ofList (joinSegments k.segments)

end Verif
