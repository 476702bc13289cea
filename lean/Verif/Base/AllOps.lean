import Verif.Base.Prog
/-
Which interactions a program can perform, whatever the answers.  Nothing in this file depends on python-omemo.
-/
namespace Verif

/-- Every interaction that can occur in `p`, for any answers, satisfies `φ`. -/
def AllOps {S : Sig} {E α : Type} (φ : S.Op → Prop) : Prog S E α → Prop
  | .ret _ => True
  | .raise _ => True
  | .op o k => φ o ∧ ∀ r, AllOps φ (k r)

namespace AllOps
variable {S : Sig} {E α β : Type} {φ ψ : S.Op → Prop}

theorem exec {p : Prog S E α} (h : AllOps φ p) {t r} (he : Exec p t r) : ∀ e ∈ t, φ e.1 := by
  induction he with
  | ret | raise | crash => simp
  | op x _ ih =>
    intro e hm
    rcases List.mem_cons.1 hm with rfl | hm
    · exact h.1
    · exact ih (h.2 x) e hm

theorem mono {p : Prog S E α} (h : AllOps φ p) (hi : ∀ o, φ o → ψ o) : AllOps ψ p := by
  induction p with
  | ret | raise => trivial
  | op o k ih => exact ⟨hi o h.1, fun r => ih r (h.2 r)⟩

theorem ret (a : α) : AllOps φ (.ret a : Prog S E α) := trivial
theorem pure (a : α) : AllOps φ (Pure.pure a : Prog S E α) := trivial
theorem raise (e : E) : AllOps φ (.raise e : Prog S E α) := trivial

theorem perform {o : S.Op} (h : φ o) : AllOps φ (.perform o : Prog S E (S.Ret o)) := by
  refine ⟨h, fun r => ?_⟩
  cases r <;> trivial

theorem bind' {p : Prog S E α} {f : α → Prog S E β} (hp : AllOps φ p) (hf : ∀ a, AllOps φ (f a)) :
    AllOps φ (p.bind f) := by
  induction p with
  | ret a => exact hf a
  | raise e => trivial
  | op o k ih => exact ⟨hp.1, fun r => ih r (hp.2 r)⟩

theorem bind {p : Prog S E α} {f : α → Prog S E β} (hp : AllOps φ p) (hf : ∀ a, AllOps φ (f a)) :
    AllOps φ (p >>= f) := bind' hp hf

theorem when {c : Prop} [Decidable c] {p : Prog S E Unit} (h : c → AllOps φ p) : AllOps φ (Prog.when c p) := by
  unfold Prog.when; split
  · exact h ‹_›
  · trivial

theorem tryCatch {p : Prog S E α} {h : E → Prog S E α} (hp : AllOps φ p) (hh : ∀ e, AllOps φ (h e)) :
    AllOps φ (p.tryCatch h) := by
  induction p with
  | ret a => trivial
  | raise e => exact hh e
  | op o k ih => exact ⟨hp.1, fun r => ih r (hp.2 r)⟩

theorem tryElse {p : Prog S E α} {h : E → Prog S E β} {f : α → Prog S E β} (hp : AllOps φ p)
    (hh : ∀ e, AllOps φ (h e)) (hf : ∀ a, AllOps φ (f a)) : AllOps φ (p.tryElse h f) := by
  induction p with
  | ret a => exact hf a
  | raise e => exact hh e
  | op o k ih => exact ⟨hp.1, fun r => ih r (hp.2 r)⟩

theorem forEach {xs : List α} {f : α → Prog S E Unit} (h : ∀ x ∈ xs, AllOps φ (f x)) :
    AllOps φ (Prog.forEach xs f) := by
  induction xs with
  | nil => trivial
  | cons x xs ih => exact bind' (h x (by simp)) fun _ => ih fun y hy => h y (by simp [hy])

theorem fold {xs : List α} {b : β} {f : β → α → Prog S E β} (h : ∀ b, ∀ x ∈ xs, AllOps φ (f b x)) :
    AllOps φ (Prog.fold xs b f) := by
  induction xs generalizing b with
  | nil => trivial
  | cons x xs ih => exact bind' (h b x (by simp)) fun _ => ih fun b y hy => h b y (by simp [hy])

theorem mapAll {xs : List α} {f : α → Prog S E β} (h : ∀ x ∈ xs, AllOps φ (f x)) :
    AllOps φ (Prog.mapAll xs f) := by
  induction xs with
  | nil => trivial
  | cons x xs ih =>
    exact bind' (h x (by simp)) fun _ => bind' (ih fun y hy => h y (by simp [hy])) fun _ => trivial

theorem filterAll {xs : List α} {f : α → Prog S E Bool} (h : ∀ x ∈ xs, AllOps φ (f x)) :
    AllOps φ (Prog.filterAll xs f) := by
  induction xs with
  | nil => trivial
  | cons x xs ih =>
    exact bind' (h x (by simp)) fun _ => bind' (ih fun y hy => h y (by simp [hy])) fun _ => trivial

/-- An invariant that is preserved by every single interaction satisfying `φ` is preserved by the program, at every crash
point as well. -/
theorem invariant {W : Type} {M : Sem S E W} {I : W → Prop} {p : Prog S E α} (h : AllOps φ p)
    (hI : ∀ w o r, φ o → M.ok w ⟨o, r⟩ → I w → I (M.next w ⟨o, r⟩)) (w : W) (hw : I w) :
    wp M p (fun _ => I) w := by
  induction p generalizing w with
  | ret | raise => exact hw
  | op o k ih => exact ⟨hw, fun r hr => ih r (h.2 r) _ (hI w o r h.1 hr hw)⟩

end AllOps

/-- Decompose a goal `AllOps φ p`; leaves the goals for single interactions. -/
macro "allops" : tactic => `(tactic| repeat' (first
  | assumption
  | exact AllOps.ret _ | exact AllOps.pure _ | exact AllOps.raise _
  | apply AllOps.bind | apply AllOps.bind' | apply AllOps.tryCatch | apply AllOps.tryElse
  | apply AllOps.when | apply AllOps.forEach | apply AllOps.fold | apply AllOps.mapAll | apply AllOps.filterAll
  | apply AllOps.perform
  | intro _
  | split))

end Verif
