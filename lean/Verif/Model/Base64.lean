/-
`base64.urlsafe_b64encode` and `base64.urlsafe_b64decode` of the Python standard library, as used by
omemo/storage.py:301, omemo/storage.py:341 and the trust keys in omemo/session_manager.py
(lines 409, 614, 1162, 1468, 1827).  Part of what those lines do, hence modelled rather than assumed.
-/
namespace Verif

/-- Python `bytes`. -/
abbrev Bytes := List UInt8

namespace Base64

/-- The URL-safe base64 alphabet (RFC 4648 section 5), used by `urlsafe_b64encode`. -/
def alpha (n : Nat) : Char :=
  if n < 26 then Char.ofNat (65 + n)
  else if n < 52 then Char.ofNat (97 + (n - 26))
  else if n < 62 then Char.ofNat (48 + (n - 52))
  else if n = 62 then '-' else '_'

/-- `urlsafe_b64encode(...)`, as a list of characters: three bytes become four characters, the last group is
padded with `=`. (storage.py:301) -/
def encodeChars : Bytes → List Char
  | [] => []
  | [a] => [alpha (a.toNat / 4), alpha (a.toNat % 4 * 16), '=', '=']
  | [a, b] => [alpha (a.toNat / 4), alpha (a.toNat % 4 * 16 + b.toNat / 16), alpha (b.toNat % 16 * 4), '=']
  | a :: b :: c :: r =>
    alpha (a.toNat / 4) :: alpha (a.toNat % 4 * 16 + b.toNat / 16) ::
      alpha (b.toNat % 16 * 4 + c.toNat / 64) :: alpha (c.toNat % 64) :: encodeChars r

/-- `base64.urlsafe_b64encode(value).decode("ASCII")` (storage.py:301). -/
def encode (b : Bytes) : String := String.ofList (encodeChars b)

/-- The value of a base64 character. `urlsafe_b64decode` first maps `-_` to `+/`, so both alphabets are
accepted; every other character has no value and is skipped by the lenient decoder. -/
def value? (c : Char) : Option Nat :=
  let n := c.toNat
  if 65 ≤ n ∧ n ≤ 90 then some (n - 65)
  else if 97 ≤ n ∧ n ≤ 122 then some (n - 97 + 26)
  else if 48 ≤ n ∧ n ≤ 57 then some (n - 48 + 52)
  else if c = '-' ∨ c = '+' then some 62
  else if c = '_' ∨ c = '/' then some 63
  else none

/-- CPython's `binascii.a2b_base64` in non-strict mode: `quad` is the position in the group of four, `pads`
the number of padding characters seen, `left` the bits carried over. `none` is `binascii.Error`. -/
def decodeLoop : List Char → Nat → Nat → Nat → Option Bytes
  | [], quad, _, _ => if quad = 0 then some [] else none
  | c :: cs, quad, pads, left =>
    if c = '=' then
      if quad ≥ 2 then
        if quad + (pads + 1) ≥ 4 then some [] else decodeLoop cs quad (pads + 1) left
      else decodeLoop cs quad pads left
    else match value? c with
      | none => decodeLoop cs quad pads left
      | some v =>
        match quad with
        | 0 => decodeLoop cs 1 0 v
        | 1 => (decodeLoop cs 2 0 (v % 16)).map (UInt8.ofNat (left * 4 + v / 16) :: ·)
        | 2 => (decodeLoop cs 3 0 (v % 4)).map (UInt8.ofNat (left * 16 + v / 4) :: ·)
        | _ => (decodeLoop cs 0 0 0).map (UInt8.ofNat (left * 64 + v) :: ·)

/-- `base64.urlsafe_b64decode(value.encode("ASCII"))` (storage.py:341). `none`: a `ValueError`, either because
the string is not ASCII or because it is not decodable. -/
def decode (s : String) : Option Bytes :=
  if s.toList.all (fun c => c.toNat < 128) then decodeLoop s.toList 0 0 0 else none

end Base64
end Verif
