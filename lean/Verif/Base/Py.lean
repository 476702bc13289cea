/-
Python containers as lists: `set`/`frozenset` (duplicate-free lists), `dict` (association lists with
first-match lookup), `sorted(..., key=...)`.  Nothing in this file depends on python-omemo.
-/
namespace Verif

section Sets
variable {α : Type} [DecidableEq α]

/-- `frozenset(xs)`, in insertion order. -/
def dedup : List α → List α
  | [] => []
  | x :: xs => x :: (dedup xs).filter (fun y => decide (y ≠ x))

@[simp] theorem mem_dedup {x : α} {xs : List α} : x ∈ dedup xs ↔ x ∈ xs := by
  induction xs with
  | nil => simp [dedup]
  | cons y ys ih => simp only [dedup, List.mem_cons, List.mem_filter, ih]; grind

theorem nodup_dedup (xs : List α) : (dedup xs).Nodup := by
  induction xs with
  | nil => simp [dedup]
  | cons y ys ih =>
    rw [dedup, List.nodup_cons]
    exact ⟨by simp, ih.sublist List.filter_sublist⟩

theorem dedup_eq_self {xs : List α} (h : xs.Nodup) : dedup xs = xs := by
  induction xs with
  | nil => rfl
  | cons y ys ih =>
    rw [List.nodup_cons] at h
    rw [dedup, ih h.2, List.filter_eq_self.2]
    intro a ha; simp only [decide_eq_true_eq]; rintro rfl; exact h.1 ha

/-- `xs - ys` for sets. -/
def setDiff (xs ys : List α) : List α := xs.filter (fun x => decide (x ∉ ys))

/-- `xs & ys` for sets. -/
def setInter (xs ys : List α) : List α := xs.filter (fun x => decide (x ∈ ys))

/-- `xs | ys` for sets. -/
def setUnion (xs ys : List α) : List α := dedup (xs ++ ys)

/-- `xs.add(x)`. -/
def setAdd (xs : List α) (x : α) : List α := if x ∈ xs then xs else xs ++ [x]

/-- `xs == ys` for sets. -/
def setEq (xs ys : List α) : Bool := xs.all (fun x => decide (x ∈ ys)) && ys.all (fun y => decide (y ∈ xs))

@[simp] theorem mem_setAdd {x y : α} {xs : List α} : y ∈ setAdd xs x ↔ y ∈ xs ∨ y = x := by
  unfold setAdd; split <;> simp <;> grind

theorem setEq_iff {xs ys : List α} : setEq xs ys = true ↔ ∀ x, x ∈ xs ↔ x ∈ ys := by
  simp only [setEq, Bool.and_eq_true, List.all_eq_true, decide_eq_true_eq]
  grind

@[simp] theorem mem_setDiff {x : α} {xs ys : List α} : x ∈ setDiff xs ys ↔ x ∈ xs ∧ x ∉ ys := by
  simp [setDiff]
@[simp] theorem mem_setInter {x : α} {xs ys : List α} : x ∈ setInter xs ys ↔ x ∈ xs ∧ x ∈ ys := by
  simp [setInter]
@[simp] theorem mem_setUnion {x : α} {xs ys : List α} : x ∈ setUnion xs ys ↔ x ∈ xs ∨ x ∈ ys := by
  simp [setUnion]

end Sets

/-- The iteration order of Python sets: unspecified, hence an arbitrary permutation of the insertion
order.  Theorems quantify over all of these. -/
structure SetOrder where
  iter : {α : Type} → List α → List α
  perm : ∀ {α : Type} (xs : List α), (iter xs).Perm xs

/-- Insertion order, used in examples. -/
def SetOrder.insertion : SetOrder := ⟨id, fun xs => List.Perm.refl xs⟩

/-- Reverse insertion order, used in examples. -/
def SetOrder.reversed : SetOrder := ⟨List.reverse, fun xs => List.reverse_perm xs⟩

@[simp] theorem SetOrder.mem_iter {O : SetOrder} {α : Type} {x : α} {xs : List α} :
    x ∈ O.iter xs ↔ x ∈ xs := (O.perm xs).mem_iff

@[simp] theorem SetOrder.nodup_iter {O : SetOrder} {α : Type} {xs : List α} :
    (O.iter xs).Nodup ↔ xs.Nodup := (O.perm xs).nodup_iff

@[simp] theorem SetOrder.length_iter {O : SetOrder} {α : Type} {xs : List α} :
    (O.iter xs).length = xs.length := (O.perm xs).length_eq

@[simp] theorem SetOrder.iter_eq_nil {O : SetOrder} {α : Type} {xs : List α} :
    O.iter xs = [] ↔ xs = [] := by
  rw [← List.length_eq_zero_iff, O.length_iter, List.length_eq_zero_iff]

section Dicts
variable {K V : Type} [DecidableEq K]

/-- A Python `dict`, as an association list in insertion order. -/
abbrev Dict (K V : Type) := List (K × V)

namespace Dict

/-- `d.get(k)`. -/
def get : Dict K V → K → Option V
  | [], _ => none
  | (k', v) :: d, k => if k' = k then some v else get d k

/-- `d[k] = v`. -/
def set : Dict K V → K → V → Dict K V
  | [], k, v => [(k, v)]
  | (k', v') :: d, k, v => if k' = k then (k, v) :: d else (k', v') :: set d k v

/-- `d.pop(k, None)`. -/
def erase (d : Dict K V) (k : K) : Dict K V := d.filter (fun x => decide (x.1 ≠ k))

/-- `d.keys()`. -/
def keys (d : Dict K V) : List K := dedup (d.map (·.1))

@[simp] theorem get_nil {k : K} : get ([] : Dict K V) k = none := rfl

theorem get_cons {k k' : K} {v : V} {d : Dict K V} :
    get ((k', v) :: d) k = if k' = k then some v else get d k := rfl

theorem get_set {d : Dict K V} {k k' : K} {v : V} :
    get (set d k v) k' = if k = k' then some v else get d k' := by
  induction d with
  | nil => simp [set, get]
  | cons x d ih =>
    obtain ⟨a, b⟩ := x
    simp only [set]
    split <;> simp only [get] <;> grind

@[simp] theorem get_set_self {d : Dict K V} {k : K} {v : V} : get (set d k v) k = some v := by
  simp [get_set]

theorem get_erase {d : Dict K V} {k k' : K} :
    get (erase d k) k' = if k = k' then none else get d k' := by
  induction d with
  | nil => simp [erase]
  | cons x d ih =>
    obtain ⟨a, b⟩ := x
    simp only [erase, List.filter_cons, get] at *
    grind [get]

theorem get_isSome_iff {d : Dict K V} {k : K} : (get d k).isSome ↔ k ∈ d.map (·.1) := by
  induction d with
  | nil => simp
  | cons x d ih =>
    obtain ⟨a, b⟩ := x
    simp only [get, List.map_cons, List.mem_cons]
    grind

@[simp] theorem mem_keys {d : Dict K V} {k : K} : k ∈ keys d ↔ (get d k).isSome := by
  rw [get_isSome_iff, keys, mem_dedup]

theorem get_eq_none_iff {d : Dict K V} {k : K} : get d k = none ↔ k ∉ keys d := by
  rw [mem_keys]; cases get d k <;> simp

theorem nodup_keys (d : Dict K V) : (keys d).Nodup := nodup_dedup _

theorem mem_of_get {d : Dict K V} {k : K} {v : V} (h : get d k = some v) : (k, v) ∈ d := by
  induction d with
  | nil => simp at h
  | cons x d ih =>
    obtain ⟨a, b⟩ := x
    simp only [get] at h
    grind

end Dict
end Dicts

section Sorting
variable {α : Type}

/-- Insert into a list sorted by `f`, after elements with a smaller or equal key: stable insertion. -/
def insertBy (f : α → Nat) (x : α) : List α → List α
  | [] => [x]
  | y :: ys => if f x < f y then x :: y :: ys else y :: insertBy f x ys

/-- `sorted(xs, key=f)`: a stable sort. -/
def sortedBy (f : α → Nat) (xs : List α) : List α := xs.foldl (fun acc x => insertBy f x acc) []

theorem mem_insertBy {f : α → Nat} {x y : α} {ys : List α} :
    y ∈ insertBy f x ys ↔ y = x ∨ y ∈ ys := by
  induction ys with
  | nil => simp [insertBy]
  | cons z zs ih => simp only [insertBy]; split <;> simp [ih]; grind

theorem sorted_insertBy {f : α → Nat} {x : α} {ys : List α} (h : ys.Pairwise (fun a b => f a ≤ f b)) :
    (insertBy f x ys).Pairwise (fun a b => f a ≤ f b) := by
  induction ys with
  | nil => simp [insertBy]
  | cons z zs ih =>
    rw [List.pairwise_cons] at h
    simp only [insertBy]
    split
    · rw [List.pairwise_cons, List.pairwise_cons]
      refine ⟨?_, h⟩
      intro a ha
      simp only [List.mem_cons] at ha
      rcases ha with rfl | ha
      · omega
      · have := h.1 a ha; omega
    · rw [List.pairwise_cons]
      refine ⟨fun a ha => ?_, ih h.2⟩
      rcases mem_insertBy.1 ha with rfl | ha
      · omega
      · exact h.1 a ha

theorem mem_sortedBy {f : α → Nat} {xs : List α} {y : α} : y ∈ sortedBy f xs ↔ y ∈ xs := by
  suffices H : ∀ xs acc : List α, y ∈ xs.foldl (fun acc x => insertBy f x acc) acc ↔ y ∈ acc ∨ y ∈ xs by
    simpa [sortedBy] using H xs []
  intro xs
  induction xs with
  | nil => simp
  | cons x xs ih => intro acc; simp only [List.foldl_cons, ih, mem_insertBy, List.mem_cons]; grind

theorem sorted_sortedBy (f : α → Nat) (xs : List α) :
    (sortedBy f xs).Pairwise (fun a b => f a ≤ f b) := by
  suffices H : ∀ xs acc : List α, acc.Pairwise (fun a b => f a ≤ f b) →
      (xs.foldl (fun acc x => insertBy f x acc) acc).Pairwise (fun a b => f a ≤ f b) from
    H xs [] (by simp)
  intro xs
  induction xs with
  | nil => simp
  | cons x xs ih => intro acc h; exact ih _ (sorted_insertBy h)

/-- `sorted(xs, key=f)[0:1]` is empty for an empty collection and otherwise consists of one element of
`xs` with minimal key. -/
theorem sortedBy_take_one (f : α → Nat) (xs : List α) :
    ((sortedBy f xs).take 1 = [] ↔ xs = []) ∧
    ∀ y ∈ (sortedBy f xs).take 1, (sortedBy f xs).take 1 = [y] ∧ y ∈ xs ∧ ∀ z ∈ xs, f y ≤ f z := by
  have hs := sorted_sortedBy f xs
  have hm : ∀ y, y ∈ sortedBy f xs ↔ y ∈ xs := fun y => mem_sortedBy
  generalize sortedBy f xs = l at *
  cases l with
  | nil => constructor
           · simp only [List.take_nil, true_iff]
             cases xs with
             | nil => rfl
             | cons a b => have := (hm a).2 (by simp); simp at this
           · simp
  | cons a l =>
    rw [List.pairwise_cons] at hs
    refine ⟨?_, ?_⟩
    · simp only [List.take_succ_cons, reduceCtorEq, false_iff]
      rintro rfl; have := (hm a).1 (by simp); simp at this
    · intro y hy
      simp only [List.take_succ_cons, List.take_zero, List.mem_singleton] at hy
      subst hy
      refine ⟨by simp, (hm y).1 (by simp), fun z hz => ?_⟩
      rcases List.mem_cons.1 ((hm z).2 hz) with rfl | hz
      · exact Nat.le_refl _
      · exact hs.1 z hz

end Sorting

end Verif
