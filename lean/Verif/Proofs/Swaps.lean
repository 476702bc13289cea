import Verif.Base.Prog
/-
Interleavings of independent threads: equal to running them one after the other, up to swapping neighbours that are independent.
-/
namespace Verif

/-- Equal up to swapping neighbours related by `R`. -/
inductive Swaps {α : Type} (R : α → α → Prop) : List α → List α → Prop where
  | refl (t : List α) : Swaps R t t
  | swap {t u : List α} {a b : α} (t1 t2 : List α) : R a b → t = t1 ++ a :: b :: t2 → u = t1 ++ b :: a :: t2 → Swaps R t u
  | trans {t u v : List α} : Swaps R t u → Swaps R u v → Swaps R t v

namespace Swaps
variable {α : Type} {R : α → α → Prop} {t u : List α}

theorem symm (hR : ∀ a b, R a b → R b a) (h : Swaps R t u) : Swaps R u t := by
  induction h with
  | refl => exact .refl _
  | swap t1 t2 h h1 h2 => exact .swap t1 t2 (hR _ _ h) h2 h1
  | trans _ _ i1 i2 => exact .trans i2 i1

theorem cons (a : α) (h : Swaps R t u) : Swaps R (a :: t) (a :: u) := by
  induction h with
  | refl => exact .refl _
  | swap t1 t2 h h1 h2 => exact .swap (a :: t1) t2 h (by rw [h1]; rfl) (by rw [h2]; rfl)
  | trans _ _ i1 i2 => exact .trans i1 i2

theorem append (l : List α) (h : Swaps R t u) : Swaps R (l ++ t) (l ++ u) := by
  induction l with
  | nil => exact h
  | cons a l ih => exact ih.cons a

/-- Moving an element to the right. -/
theorem move (a : α) (l t : List α) (h : ∀ b ∈ l, R a b) : Swaps R (a :: (l ++ t)) (l ++ a :: t) := by
  induction l with
  | nil => exact .refl _
  | cons b l ih =>
    exact .trans (.swap [] (l ++ t) (h b List.mem_cons_self) rfl rfl) ((ih fun c hc => h c (.tail _ hc)).cons b)

theorem mem_iff (h : Swaps R t u) (a : α) : a ∈ t ↔ a ∈ u := by
  induction h with
  | refl => exact Iff.rfl
  | swap t1 t2 h h1 h2 => rw [h1, h2]; simp only [List.mem_append, List.mem_cons]; exact or_congr_right (by rw [← or_assoc, ← or_assoc, or_comm (a := a = _)])
  | trans _ _ i1 i2 => exact i1.trans i2

/-- What holds of all pairs in this order, and of independent ones in any order, holds after swapping. -/
theorem pairwise {Q : α → α → Prop} (hQ : ∀ a b, R a b → Q b a) (h : Swaps R t u) (hp : t.Pairwise Q) : u.Pairwise Q := by
  induction h with
  | refl => exact hp
  | swap t1 t2 h h1 h2 =>
    subst h1 h2
    rw [List.pairwise_append] at hp ⊢
    obtain ⟨g1, g2, g3⟩ := hp
    obtain ⟨g4, g5⟩ := List.pairwise_cons.1 g2
    obtain ⟨g6, g7⟩ := List.pairwise_cons.1 g5
    refine ⟨g1, List.pairwise_cons.2 ⟨fun x hx => ?_, List.pairwise_cons.2 ⟨fun x hx => g4 x (.tail _ hx), g7⟩⟩, fun a ha b hb => ?_⟩
    · rcases List.mem_cons.1 hx with rfl | hx
      · exact hQ _ _ h
      · exact g6 x hx
    · refine g3 a ha b ?_
      simp only [List.mem_cons] at hb ⊢
      rcases hb with h | h | h
      · exact .inr (.inl h)
      · exact .inl h
      · exact .inr (.inr h)
  | trans _ _ i1 i2 => exact i2 (i1 hp)

end Swaps

/-- An interleaving of threads that are independent of each other is equal to running them one after the other. -/
theorem Shuffle.swaps {α : Type} {R : α → α → Prop} {ts : List (List α)} {t : List α} (hs : Shuffle ts t)
    (hp : ts.Pairwise fun u v => ∀ a ∈ u, ∀ b ∈ v, R a b) (hR : ∀ a b, R a b → R b a) : Swaps R t ts.flatten := by
  induction hs with
  | nil h =>
    rw [show List.flatten _ = [] from List.flatten_eq_nil_iff.2 h]
    exact .refl _
  | @cons pre post e u t hs ih =>
    have h1 := List.pairwise_append.1 hp
    obtain ⟨h2, h3, h4⟩ := h1
    obtain ⟨h5, h6⟩ := List.pairwise_cons.1 h3
    have h7 := ih (List.pairwise_append.2 ⟨h2, List.pairwise_cons.2 ⟨fun v hv a ha => h5 v hv a (.tail _ ha), h6⟩, fun a ha b hb x hx y hy => by
      rcases List.mem_cons.1 hb with rfl | hb
      · exact h4 a ha (e :: b) List.mem_cons_self x hx y (.tail _ hy)
      · exact h4 a ha b (.tail _ hb) x hx y hy⟩)
    refine (h7.cons e).trans ?_
    rw [List.flatten_append, List.flatten_append, List.flatten_cons, List.flatten_cons, List.cons_append]
    refine Swaps.move e _ _ fun b hb => ?_
    obtain ⟨v, hv, hb⟩ := List.mem_flatten.1 hb
    exact hR _ _ (h4 v hv (e :: u) List.mem_cons_self b hb e List.mem_cons_self)

end Verif
