import Verif.Model.Keys
import Verif.Proofs.Base64
/-
C04: storage keys.
-/
namespace Verif

theorem decDigit_spec : ∀ n : Fin 10, (decDigit n).toNat = 48 + n.val ∧ decDigit n ≠ '/' ∧ decDigit n ≠ '-' := by
  decide +kernel

theorem toNat_decDigit {n : Nat} (h : n < 10) : (decDigit n).toNat = 48 + n := (decDigit_spec ⟨n, h⟩).1

/-- The value of a decimal numeral. -/
def decValue (l : List Char) : Nat := l.foldl (fun a c => a * 10 + (c.toNat - 48)) 0

theorem decValue_natChars (n : Nat) : decValue (natChars n) = n := by
  induction n using Nat.strongRecOn with
  | _ n ih =>
    rw [natChars]
    split
    · next h => simp [decValue, toNat_decDigit h]
    · next h =>
      have h1 := ih (n / 10) (by omega)
      simp only [decValue] at h1 ⊢
      rw [List.foldl_append, h1]
      simp only [List.foldl_cons, List.foldl_nil, toNat_decDigit (Nat.mod_lt n (by omega : 10 > 0))]
      omega

theorem natChars_injective {m n : Nat} (h : natChars m = natChars n) : m = n := by
  rw [← decValue_natChars m, h, decValue_natChars]

theorem natChars_digits (n : Nat) : ∀ c ∈ natChars n, c ≠ '/' ∧ c ≠ '-' := by
  induction n using Nat.strongRecOn with
  | _ n ih =>
    rw [natChars]
    split
    · next h =>
      intro c hc
      rw [List.mem_singleton] at hc
      subst hc
      exact (decDigit_spec ⟨n, h⟩).2
    · next h =>
      intro c hc
      rcases List.mem_append.1 hc with hc | hc
      · exact ih (n / 10) (by omega) c hc
      · rw [List.mem_singleton] at hc
        subst hc
        exact (decDigit_spec ⟨n % 10, Nat.mod_lt n (by omega)⟩).2

theorem natChars_ne_nil (n : Nat) : natChars n ≠ [] := by rw [natChars]; split <;> simp

theorem intChars_injective {a b : Int} (h : intChars a = intChars b) : a = b := by
  cases a with
  | ofNat m =>
    cases b with
    | ofNat n => exact congrArg Int.ofNat (natChars_injective h)
    | negSucc n =>
      simp only [intChars] at h
      exact absurd rfl (natChars_digits m '-' (h ▸ List.mem_cons_self)).2
  | negSucc m =>
    cases b with
    | ofNat n =>
      simp only [intChars] at h
      exact absurd rfl (natChars_digits n '-' (h ▸ List.mem_cons_self)).2
    | negSucc n =>
      simp only [intChars, List.cons.injEq, true_and] at h
      have := natChars_injective h
      rw [show m = n by omega]

theorem intChars_no_slash (d : Int) : '/' ∉ intChars d := by
  cases d with
  | ofNat n => exact fun h => (natChars_digits n _ h).1 rfl
  | negSucc n =>
    simp only [intChars, List.mem_cons, not_or]
    exact ⟨by decide, fun h => (natChars_digits _ _ h).1 rfl⟩

/-- Joining with slashes is injective on lists of slash-free segments. -/
theorem joinSegments_injective {a b : List (List Char)} (ha : ∀ s ∈ a, '/' ∉ s) (hb : ∀ s ∈ b, '/' ∉ s)
    (h : joinSegments a = joinSegments b) : a = b := by
  have seg : ∀ (s s' : List Char) (r r' : List (List Char)), '/' ∉ s → '/' ∉ s' →
      s ++ joinSegments r = s' ++ joinSegments r' → s = s' ∧ joinSegments r = joinSegments r' := by
    intro s
    induction s with
    | nil =>
      intro s' r r' _ h2 h
      cases s' with
      | nil => exact ⟨rfl, h⟩
      | cons c s' =>
        exfalso
        cases r with
        | nil => simp [joinSegments] at h
        | cons x r =>
          simp only [joinSegments, List.flatMap_cons, List.nil_append, List.cons_append, List.cons.injEq] at h
          rw [← h.1] at h2
          simp at h2
    | cons c s ih =>
      intro s' r r' h1 h2 h
      cases s' with
      | nil =>
        exfalso
        cases r' with
        | nil => simp [joinSegments] at h
        | cons x r' =>
          simp only [joinSegments, List.flatMap_cons, List.nil_append, List.cons_append, List.cons.injEq] at h
          rw [h.1] at h1
          simp at h1
      | cons c' s' =>
        simp only [List.cons_append, List.cons.injEq] at h
        simp only [List.mem_cons, not_or] at h1 h2
        obtain ⟨e1, e2⟩ := ih s' r r' h1.2 h2.2 h.2
        exact ⟨by rw [h.1, e1], e2⟩
  induction a generalizing b with
  | nil =>
    cases b with
    | nil => rfl
    | cons x b => simp [joinSegments] at h
  | cons s a ih =>
    cases b with
    | nil => simp [joinSegments] at h
    | cons s' b =>
      have h' : s ++ joinSegments a = s' ++ joinSegments b := by
        simpa [joinSegments, List.flatMap_cons] using h
      obtain ⟨e1, e2⟩ := seg s s' a b (ha s (by simp)) (hb s' (by simp)) h'
      rw [e1, ih (fun s hs => ha s (by simp [hs])) (fun s hs => hb s (by simp [hs])) e2]

namespace Spec

/-- No slash in a JID or namespace. -/
def NoSlash (s : String) : Prop := '/' ∉ s.toList

/-- The namespaces and bare JIDs occurring in a location contain no slash. -/
def CleanKey : Key → Prop
  | .ikpIsSeed | .ikpKey | .ownDeviceId => True
  | .devList j | .devNamespaces j _ | .devActive j _ | .devLabel j _ | .devIdentityKey j _ | .trust j _ => NoSlash j
  | .queue ns => NoSlash ns
  | .queueJid ns j => NoSlash ns ∧ NoSlash j

end Spec
open Spec

theorem segments_no_slash {k : Key} (h : CleanKey k) : ∀ s ∈ k.segments, '/' ∉ s := by
  cases k <;> simp only [Key.segments, List.mem_cons, List.not_mem_nil, or_false, forall_eq_or_imp, forall_eq]
  case ikpIsSeed => decide
  case ikpKey => decide
  case ownDeviceId => decide
  case devList j => exact ⟨by decide, h, by decide⟩
  case devNamespaces j d => exact ⟨by decide, h, intChars_no_slash d, by decide⟩
  case devActive j d => exact ⟨by decide, h, intChars_no_slash d, by decide⟩
  case devLabel j d => exact ⟨by decide, h, intChars_no_slash d, by decide⟩
  case devIdentityKey j d => exact ⟨by decide, h, intChars_no_slash d, by decide⟩
  case trust j ik => exact ⟨by decide, h, Base64.slash_not_mem_encode ik⟩
  case queue ns => exact ⟨by decide, h⟩
  case queueJid ns j => exact ⟨by decide, h.1, h.2⟩

theorem segments_injective {k k' : Key} (h : k.segments = k'.segments) : k = k' := by
  cases k <;> cases k' <;>
    simp only [Key.segments, List.cons.injEq, and_true, true_and, and_false, reduceCtorEq, String.toList_inj] at h <;>
    first
      | rfl
      | (exfalso; revert h; decide)
      | skip
  all_goals first
    | (exfalso; exact absurd h.1 (by decide))
    | (exfalso; exact absurd h.2.2 (by decide))
    | (obtain ⟨h1, h2⟩ := h; first | (subst h1; rw [intChars_injective h2]) | (subst h1; rw [Base64.encode_injective h2]) | (subst h1; subst h2; rfl))
    | (subst h; rfl)

/-- C04.  Different locations have different storage keys, for any device ids, identity keys, and any namespaces and
JIDs without slash. -/
theorem C04_keys_injective (k k' : Key) (hk : CleanKey k) (hk' : CleanKey k') (h : k.render = k'.render) : k = k' := by
  have := String.ofList_injective h
  exact segments_injective (joinSegments_injective (segments_no_slash hk) (segments_no_slash hk') this)

/-- C04 at the level of data: a storage indexed by strings behaves, on clean locations, like the storage indexed by
locations that the other theorems use. -/
theorem C04_string_storage (m : String → Option JVal) (k k' : Key) (v : Option JVal) (hk : CleanKey k) (hk' : CleanKey k') :
    (if k'.render = k.render then v else m k'.render) = (Disk.upd (fun k => m k.render) k v) k' := by
  unfold Disk.upd
  by_cases h : k' = k
  · simp [h]
  · rw [if_neg h, if_neg fun he => h (C04_keys_injective k' k hk' hk he)]

/-- The slash-freeness hypothesis can not be dropped: the queue of the namespace `a/b` and the queue of the JID `b`
under the namespace `a` are the same storage key. -/
theorem C04_slash_refuted : ¬ ∀ k k' : Key, k.render = k'.render → k = k' := fun h => by
  have := h (.queue "a/b") (.queueJid "a" "b") (by decide +kernel)
  cases this

/-- The hypotheses of C04 are met by the locations of realistic data. -/
example : CleanKey (.queueJid "urn:xmpp:omemo:2" "alice@example.org") ∧ CleanKey (.trust "alice@example.org" [1, 2, 3]) := by
  simp only [CleanKey, NoSlash]; decide +kernel

/-- What the strings look like. -/
example : (Key.devLabel "a@b" (-12)).render = "/devices/a@b/-12/label" := by decide +kernel

end Verif
