import Verif.Model.SessionManager
/-
C65: fingerprints.
-/
namespace Verif
namespace Spec

/-- The sixteen lowercase hexadecimal digits. -/
def digits : List Char := ['0', '1', '2', '3', '4', '5', '6', '7', '8', '9', 'a', 'b', 'c', 'd', 'e', 'f']

/-- The hexadecimal form of a byte string: two digits per byte, the more significant one first. -/
inductive Hex : Bytes → List Char → Prop where
  | nil : Hex [] []
  | cons {x : UInt8} {b : Bytes} {hi lo : Nat} {c c' : Char} {cs : List Char} :
      x.toNat = 16 * hi + lo → digits[hi]? = some c → digits[lo]? = some c' → Hex b cs → Hex (x :: b) (c :: c' :: cs)

end Spec
open Spec SM

theorem hexDigit_eq (n : Nat) (h : n < 16) : digits[n]? = some (hexDigit n) := by
  revert n; decide

theorem digits_inj {m n : Nat} {c : Char} (hm : digits[m]? = some c) (hn : digits[n]? = some c) : m = n := by
  have h1 : m < 16 := (List.getElem?_eq_some_iff.1 hm).1
  have h2 : n < 16 := (List.getElem?_eq_some_iff.1 hn).1
  have : ∀ m n : Fin 16, digits[m.1]? = digits[n.1]? → m = n := by decide
  have := this ⟨m, h1⟩ ⟨n, h2⟩ (hm.trans hn.symm)
  simpa using this

theorem hex_hexChars (b : Bytes) : Hex b (hexChars b) := by
  induction b with
  | nil => exact .nil
  | cons x b ih =>
    have hx := x.toNat_lt
    exact .cons (by omega) (hexDigit_eq _ (by omega)) (hexDigit_eq _ (by omega)) ih

/-- The hexadecimal form determines the byte string. -/
theorem Spec.Hex.unique {a b : Bytes} {cs : List Char} (ha : Hex a cs) (hb : Hex b cs) : a = b := by
  induction ha generalizing b with
  | nil => cases hb; rfl
  | cons hx h1 h2 _ ih =>
    cases hb with
    | cons hy h3 h4 hb =>
      cases digits_inj h1 h3
      cases digits_inj h2 h4
      rw [ih hb, UInt8.toNat_inj.1 (hx.trans hy.symm)]

theorem flatten_groups (cs : List Char) (k : Nat) :
    ((List.range k).map fun i => (cs.drop (i * 8)).take 8).flatten = cs.take (k * 8) := by
  induction k with
  | zero => simp
  | succ k ih =>
    rw [List.range_succ, List.map_append, List.flatten_append, ih]
    have : (k + 1) * 8 = k * 8 + 8 := by omega
    rw [this, List.take_add]
    simp

theorem flatten_groupsOf8 (cs : List Char) : (groupsOf8 cs).flatten = cs := by
  rw [groupsOf8, flatten_groups]
  exact List.take_of_length_le (by omega)

theorem hex_length {b : Bytes} {cs : List Char} (h : Hex b cs) : cs.length = 2 * b.length := by
  induction h with
  | nil => rfl
  | cons _ _ _ _ ih => simp only [List.length_cons, ih]; omega

/-- C65: the groups of a fingerprint, one after the other, are the hexadecimal form of the converted key; every group except the last has
eight characters, the last one between one and eight. -/
theorem C65_hex (conv : Bytes → Bytes) (ik : Bytes) :
    Hex (conv ik) ((formatIdentityKey conv ik).flatMap String.toList) ∧
    (∀ g ∈ (formatIdentityKey conv ik).dropLast, g.toList.length = 8) ∧
    ∀ g ∈ formatIdentityKey conv ik, 1 ≤ g.toList.length ∧ g.toList.length ≤ 8 := by
  have hl := hex_length (hex_hexChars (conv ik))
  generalize hcs : hexChars (conv ik) = cs at hl
  have hmap : formatIdentityKey conv ik = (groupsOf8 cs).map String.ofList := by rw [formatIdentityKey, hcs]
  refine ⟨?_, ?_, ?_⟩
  · have : (formatIdentityKey conv ik).flatMap String.toList = cs := by
      rw [hmap, List.flatMap_def, List.map_map]
      have : String.toList ∘ String.ofList = id := by funext x; simp
      rw [this, List.map_id, flatten_groupsOf8]
    rw [this, ← hcs]
    exact hex_hexChars _
  · intro g hg
    rw [hmap, ← List.map_dropLast] at hg
    obtain ⟨x, hx, rfl⟩ := List.mem_map.1 hg
    rw [groupsOf8, ← List.map_dropLast] at hx
    obtain ⟨i, hi, rfl⟩ := List.mem_map.1 hx
    rw [List.dropLast_eq_take, List.length_range] at hi
    obtain ⟨j, hj, rfl⟩ := List.mem_take_iff_getElem.1 hi
    simp only [List.getElem_range, List.length_range] at hj ⊢
    simp only [String.toList_ofList, List.length_take, List.length_drop]
    omega
  · intro g hg
    rw [hmap] at hg
    obtain ⟨x, hx, rfl⟩ := List.mem_map.1 hg
    obtain ⟨i, hi, rfl⟩ := List.mem_map.1 hx
    rw [List.mem_range] at hi
    simp only [String.toList_ofList, List.length_take, List.length_drop]
    omega

/-- C65: the fingerprint of a key of 32 bytes consists of eight groups of eight characters. -/
theorem C65_groups (conv : Bytes → Bytes) (ik : Bytes) (h : (conv ik).length = 32) :
    (formatIdentityKey conv ik).length = 8 ∧ ∀ g ∈ formatIdentityKey conv ik, g.toList.length = 8 := by
  have hl := hex_length (hex_hexChars (conv ik))
  rw [h] at hl
  refine ⟨by simp [formatIdentityKey, groupsOf8, hl], fun g hg => ?_⟩
  obtain ⟨x, hx, rfl⟩ := List.mem_map.1 hg
  obtain ⟨i, hi, rfl⟩ := List.mem_map.1 hx
  rw [List.mem_range] at hi
  simp only [String.toList_ofList, List.length_take, List.length_drop]
  omega

/-- C65: different converted keys have different fingerprints. -/
theorem C65_injective (conv : Bytes → Bytes) (a b : Bytes) (h : formatIdentityKey conv a = formatIdentityKey conv b) : conv a = conv b := by
  have ha := (C65_hex conv a).1
  rw [h] at ha
  exact ha.unique (C65_hex conv b).1

example : formatIdentityKey id ((List.range 32).map fun n => UInt8.ofNat (200 + n)) =
    ["c8c9cacb", "cccdcecf", "d0d1d2d3", "d4d5d6d7", "d8d9dadb", "dcdddedf", "e0e1e2e3", "e4e5e6e7"] := by decide +kernel

end Verif
