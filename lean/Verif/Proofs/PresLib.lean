import Verif.Proofs.Preserve
import Verif.Proofs.Trace
import Verif.Spec.Trace
/-
Invariants of programs, function by function; facts about an interaction and what happened before it.
-/
namespace Verif
open Spec Foot

namespace Pres
variable {S : Sig} {E W α β γ : Type} {N : Sem S E W} {I : W → Prop}

theorem raise (e : E) : Pres N I (.raise e : Prog S E α) := fun _ hw => hw

theorem bind' {p : Prog S E α} {f : α → Prog S E β} (hp : Pres N I p) (hf : ∀ a, Pres N I (f a)) : Pres N I (p.bind f) := bind hp hf

theorem when {c : Prop} [Decidable c] {p : Prog S E Unit} (h : c → Pres N I p) : Pres N I (Prog.when c p) := by
  unfold Prog.when; split
  · exact h ‹_›
  · exact pure _

theorem tryElse {p : Prog S E α} {h : E → Prog S E β} {f : α → Prog S E β} (hp : Pres N I p) (hh : ∀ e, Pres N I (h e))
    (hf : ∀ a, Pres N I (f a)) : Pres N I (p.tryElse h f) := by
  intro w hw
  rw [wp_tryElse]
  refine wp_mono (hp w hw) fun r w' h => ?_
  cases r with
  | ok a => exact hf a w' h
  | raised e => exact hh e w' h
  | crashed => exact h

theorem fold {xs : List α} {b : β} {f : β → α → Prog S E β} (h : ∀ b, ∀ x ∈ xs, Pres N I (f b x)) : Pres N I (Prog.fold xs b f) := by
  induction xs generalizing b with
  | nil => exact pure _
  | cons x xs ih => exact bind (h b x (by simp)) fun b => ih fun b y hy => h b y (by simp [hy])

theorem mapAll {xs : List α} {f : α → Prog S E β} (h : ∀ x ∈ xs, Pres N I (f x)) : Pres N I (Prog.mapAll xs f) := by
  induction xs with
  | nil => exact pure _
  | cons x xs ih => exact bind (h x (by simp)) fun b => bind (ih fun y hy => h y (by simp [hy])) fun _ => pure _

theorem filterAll {xs : List α} {f : α → Prog S E Bool} (h : ∀ x ∈ xs, Pres N I (f x)) : Pres N I (Prog.filterAll xs f) := by
  induction xs with
  | nil => exact pure _
  | cons x xs ih => exact bind (h x (by simp)) fun b => bind (ih fun y hy => h y (by simp [hy])) fun _ => pure _

theorem perform {o : S.Op} (h : ∀ w r, N.ok w ⟨o, r⟩ → I w → I (N.next w ⟨o, r⟩)) : Pres N I (.perform o : Prog S E (S.Ret o)) := by
  intro w hw
  rw [wp_perform]
  exact ⟨hw, fun a ha => h w _ ha hw, fun e he => h w _ he hw⟩
end Pres

theorem guarded_nil {G : List Ev → Ev → Prop} : Guarded G [] := by
  intro h1 e h2 h
  cases h1 <;> cases h

theorem Spec.Guarded.prefix {G : List Ev → Ev → Prop} {h t : List Ev} (hg : Guarded G (h ++ t)) : Guarded G h := by
  intro h1 e h2 he
  exact hg h1 e (h2 ++ t) (by rw [he]; simp)

theorem guarded_snoc {G : List Ev → Ev → Prop} {h : List Ev} {e : Ev} : Guarded G (h ++ [e]) ↔ Guarded G h ∧ G h e := by
  constructor
  · intro hg
    exact ⟨hg.prefix, hg h e [] rfl⟩
  · rintro ⟨hg, he⟩ h1 e' h2 heq
    rcases List.eq_nil_or_concat h2 with rfl | ⟨h2, x, rfl⟩
    · obtain ⟨rfl, h3⟩ := List.append_inj' heq rfl
      cases h3
      exact he
    · have : h ++ [e] = (h1 ++ e' :: h2) ++ [x] := by simpa using heq
      obtain ⟨rfl, h3⟩ := List.append_inj' this rfl
      exact hg h1 e' h2 rfl

/-- What holds for every interaction whatever happened before is kept by every program with only such interactions. -/
theorem pres_quiet {φ : Ev → Prop} {G : List Ev → Ev → Prop} {ψ : Op → Prop} {α : Type} {p : P α} (hp : AllOps ψ p)
    (h : ∀ o, ψ o → ∀ h r, G h ⟨o, r⟩) : Pres (Rec φ) (Guarded G) p :=
  Pres.ofOps hp fun o ho w r _ hw => guarded_snoc.2 ⟨hw, h o ho w r⟩

end Verif
