import Verif.Model.Base64
/-
Helper lemmas on base64: decoding inverts encoding.
-/
namespace Verif.Base64

theorem alpha_spec : ∀ n : Fin 64, value? (alpha n) = some n.val ∧ alpha n ≠ '=' ∧ (alpha n).toNat < 128 := by
  decide +kernel

/-- The characters of URL-safe base64. -/
def urlSafe : List Char := "ABCDEFGHIJKLMNOPQRSTUVWXYZabcdefghijklmnopqrstuvwxyz0123456789-_".toList

theorem alpha_urlSafe : ∀ n : Fin 64, alpha n ∈ urlSafe := by decide +kernel

theorem value_alpha {n : Nat} (h : n < 64) : value? (alpha n) = some n := (alpha_spec ⟨n, h⟩).1
theorem alpha_ne {n : Nat} (h : n < 64) : alpha n ≠ '=' := (alpha_spec ⟨n, h⟩).2.1
theorem alpha_lt {n : Nat} (h : n < 64) : (alpha n).toNat < 128 := (alpha_spec ⟨n, h⟩).2.2

theorem loop0 {n : Nat} (h : n < 64) {cs p l} : decodeLoop (alpha n :: cs) 0 p l = decodeLoop cs 1 0 n := by
  rw [decodeLoop]; simp [alpha_ne h, value_alpha h]
theorem loop1 {n : Nat} (h : n < 64) {cs p l} : decodeLoop (alpha n :: cs) 1 p l =
    (decodeLoop cs 2 0 (n % 16)).map (UInt8.ofNat (l * 4 + n / 16) :: ·) := by
  rw [decodeLoop]; simp [alpha_ne h, value_alpha h]
theorem loop2 {n : Nat} (h : n < 64) {cs p l} : decodeLoop (alpha n :: cs) 2 p l =
    (decodeLoop cs 3 0 (n % 4)).map (UInt8.ofNat (l * 16 + n / 4) :: ·) := by
  rw [decodeLoop]; simp [alpha_ne h, value_alpha h]
theorem loop3 {n : Nat} (h : n < 64) {cs p l} : decodeLoop (alpha n :: cs) 3 p l =
    (decodeLoop cs 0 0 0).map (UInt8.ofNat (l * 64 + n) :: ·) := by
  rw [decodeLoop]; simp [alpha_ne h, value_alpha h]

theorem byte_eq {n : Nat} {a : UInt8} (h : n = a.toNat) : UInt8.ofNat n = a := by subst h; simp

theorem decodeLoop_encodeChars (b : Bytes) : decodeLoop (encodeChars b) 0 0 0 = some b := by
  fun_induction encodeChars b with
  | case1 => simp [decodeLoop]
  | case2 a =>
    have ha := a.toNat_lt
    rw [loop0 (by omega), loop1 (by omega)]
    simp only [decodeLoop, if_true]
    simp only [ge_iff_le, Nat.le_refl, if_true, Nat.reduceAdd, Nat.reduceLeDiff, if_false, Option.map_some]
    rw [byte_eq (a := a) (by omega)]
  | case3 a b =>
    have ha := a.toNat_lt
    have hb := b.toNat_lt
    rw [loop0 (by omega), loop1 (by omega), loop2 (by omega)]
    simp only [decodeLoop, if_true]
    simp only [ge_iff_le, if_true, Nat.reduceAdd, Nat.reduceLeDiff, Option.map_some]
    rw [byte_eq (a := a) (by omega), byte_eq (a := b) (by omega)]
  | case4 a b c r ih =>
    have ha := a.toNat_lt
    have hb := b.toNat_lt
    have hc := c.toNat_lt
    rw [loop0 (by omega), loop1 (by omega), loop2 (by omega), loop3 (by omega), ih]
    simp only [Option.map_some]
    rw [byte_eq (a := a) (by omega), byte_eq (a := b) (by omega), byte_eq (a := c) (by omega)]

theorem encodeChars_urlSafe (b : Bytes) : ∀ c ∈ encodeChars b, c ∈ urlSafe ∨ c = '=' := by
  have al : ∀ {n}, n < 64 → alpha n ∈ urlSafe := fun {n} h => alpha_urlSafe ⟨n, h⟩
  fun_induction encodeChars b with
  | case1 => simp
  | case2 a =>
    have ha := a.toNat_lt
    simp only [List.mem_cons, List.not_mem_nil, or_false]
    rintro c (rfl | rfl | rfl | rfl)
    · exact .inl (al (by omega))
    · exact .inl (al (by omega))
    · exact .inr rfl
    · exact .inr rfl
  | case3 a b =>
    have ha := a.toNat_lt
    have hb := b.toNat_lt
    simp only [List.mem_cons, List.not_mem_nil, or_false]
    rintro c (rfl | rfl | rfl | rfl)
    · exact .inl (al (by omega))
    · exact .inl (al (by omega))
    · exact .inl (al (by omega))
    · exact .inr rfl
  | case4 a b c r ih =>
    have ha := a.toNat_lt
    have hb := b.toNat_lt
    have hc := c.toNat_lt
    simp only [List.mem_cons]
    rintro c (rfl | rfl | rfl | rfl | h)
    · exact .inl (al (by omega))
    · exact .inl (al (by omega))
    · exact .inl (al (by omega))
    · exact .inl (al (by omega))
    · exact ih c h

theorem urlSafe_lt : ∀ c ∈ urlSafe, c.toNat < 128 := by decide +kernel
theorem urlSafe_no_slash : '/' ∉ urlSafe := by decide +kernel

theorem decode_encode (b : Bytes) : decode (encode b) = some b := by
  unfold decode encode
  rw [String.toList_ofList, if_pos, decodeLoop_encodeChars]
  rw [List.all_eq_true]
  intro c hc
  rcases encodeChars_urlSafe b c hc with h | rfl
  · exact decide_eq_true (urlSafe_lt c h)
  · rfl

theorem encode_injective {a b : Bytes} (h : encode a = encode b) : a = b := by
  have := congrArg decode h
  rw [decode_encode, decode_encode] at this
  exact Option.some.inj this

theorem slash_not_mem_encode (b : Bytes) : '/' ∉ (encode b).toList := by
  unfold encode
  rw [String.toList_ofList]
  intro h
  rcases encodeChars_urlSafe b _ h with h | h
  · exact urlSafe_no_slash h
  · revert h; decide

end Verif.Base64
