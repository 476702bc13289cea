import Verif.Base.Prog
/-
What a program does when an interaction fails: pass the exception on at once, or go on.  Nothing in this file depends on python-omemo.
-/
namespace Verif

/-- When an interaction `o` of the program fails with `e`, either the program ends with `e` at once, and not `must o e`, or it goes on, and
`may o e`.  All other exceptions that the program raises satisfy `ρ`. -/
def Prompt {S : Sig} {E α : Type} (must may : S.Op → E → Prop) (ρ : E → Prop) : Prog S E α → Prop
  | .ret _ => True
  | .raise e => ρ e
  | .op o k => (∀ a, Prompt must may ρ (k (.ok a))) ∧
      ∀ e, (may o e ∧ Prompt must may ρ (k (.error e))) ∨ (¬ must o e ∧ k (.error e) = .raise e)

/-- An execution of such a program: after a failure that must not be tolerated, nothing follows and the exception is raised. -/
structure Passes {S : Sig} {E α : Type} (must may : S.Op → E → Prop) (ρ : E → Prop) (t : List (Event S E)) (r : Res E α) : Prop where
  passed : ∀ u (o : S.Op) e v, t = u ++ ⟨o, .error e⟩ :: v → ¬ may o e → v = [] ∧ r = .raised e
  raised : ∀ e, r = .raised e → ρ e ∨ ∃ u, ∃ o : S.Op, t = u ++ [⟨o, .error e⟩] ∧ ¬ must o e

namespace Prompt
variable {S : Sig} {E α β : Type} {must may must' : S.Op → E → Prop} {ρ ρ' : E → Prop}

theorem exec {p : Prog S E α} (h : Prompt must may ρ p) {t r} (he : Exec p t r) : Passes must may ρ t r := by
  induction p generalizing t r with
  | ret a => cases he; exact ⟨by simp, nofun⟩
  | raise e => cases he; exact ⟨by simp, fun e' h' => by cases h'; exact .inl h⟩
  | op o k ih =>
    cases he with
    | crash => exact ⟨by simp, nofun⟩
    | @op _ _ x t res hx =>
      have lift : Passes must may ρ t r → (∀ e, x = .error e → may o e) → Passes must may ρ (⟨o, x⟩ :: t) r := by
        intro hp hm
        refine ⟨fun u o' e v hu hn => ?_, fun e hr => ?_⟩
        · cases u with
          | nil => cases hu; exact absurd (hm e rfl) hn
          | cons y u => injection hu with _ hu; exact hp.passed u o' e v hu hn
        · rcases hp.raised e hr with h1 | ⟨u, o', rfl, h1⟩
          · exact .inl h1
          · exact .inr ⟨⟨o, x⟩ :: u, o', rfl, h1⟩
      cases x with
      | ok a => exact lift (ih _ (h.1 a) hx) nofun
      | error e =>
        rcases h.2 e with ⟨h1, h2⟩ | ⟨h1, h2⟩
        · exact lift (ih _ h2 hx) fun e' h' => by cases h'; exact h1
        · rw [h2] at hx
          cases hx
          refine ⟨fun u o' e' v hu hn => ?_, fun e' hr => ?_⟩
          · cases u with
            | nil => cases hu; exact ⟨rfl, rfl⟩
            | cons y u => injection hu with _ hu; cases u <;> cases hu
          · cases hr
            exact .inr ⟨[], o, rfl, h1⟩

/-- A program all of whose executions are of this kind. -/
theorem of_exec (hm : ∀ o e, must o e → may o e) {p : Prog S E α} (h : ∀ t r, Exec p t r → Passes must may ρ t r) : Prompt must may ρ p := by
  have key : ∀ (p : Prog S E α) pre, (∀ t r, Exec p t r → Passes must may ρ (pre ++ t) r) → (∀ e, p = .raise e → ρ e) → Prompt must may ρ p := by
    intro p
    induction p with
    | ret => intros; trivial
    | raise e => exact fun pre h h0 => h0 e rfl
    | op o k ih =>
      intro pre h _
      have hx : ∀ x t r, Exec (k x) t r → Passes must may ρ ((pre ++ [⟨o, x⟩]) ++ t) r := fun x t r he => by simpa using h _ r (.op x he)
      refine ⟨fun a => ih _ _ (hx _) fun e hq => ?_, fun e => ?_⟩
      · rcases (hx (.ok a) [] (.raised e) (by rw [hq]; exact .raise e)).raised e rfl with h1 | ⟨u, o', h1, _⟩
        · exact h1
        · rw [List.append_nil] at h1
          have := (List.append_inj_right' h1 rfl)
          cases this
      · by_cases hc : ¬ must o e ∧ k (.error e) = .raise e
        · exact .inr hc
        · by_cases hy : may o e
          · refine .inl ⟨hy, ih _ _ (hx _) fun e' hq => ?_⟩
            rcases (hx (.error e) [] (.raised e') (by rw [hq]; exact .raise e')).raised e' rfl with h1 | ⟨u, o', h1, h2⟩
            · exact h1
            · rw [List.append_nil] at h1
              have := (List.append_inj_right' h1 rfl)
              cases this
              exact absurd ⟨h2, hq⟩ hc
          · refine absurd ⟨fun h1 => hy (hm o e h1), ?_⟩ hc
            have hk : ∀ t r, Exec (k (.error e)) t r → t = [] ∧ r = .raised e := fun t r he =>
              (hx _ t r he).passed pre o e t (by simp) hy
            cases hq : k (.error e) with
            | ret a => have := (hk [] (.ok a) (by rw [hq]; exact .ret a)).2; cases this
            | raise e' => have := (hk [] (.raised e') (by rw [hq]; exact .raise e')).2; cases this; rfl
            | op o' k' => have := (hk [] .crashed (by rw [hq]; exact .crash o' k')).2; cases this
  refine key p [] h fun e hq => ?_
  rcases (h [] (.raised e) (by rw [hq]; exact .raise e)).raised e rfl with h1 | ⟨u, o, h1, _⟩
  · exact h1
  · cases u <;> cases h1

theorem ret (a : α) : Prompt must may ρ (.ret a : Prog S E α) := trivial
theorem pure (a : α) : Prompt must may ρ (Pure.pure a : Prog S E α) := trivial
theorem raise {e : E} (h : ρ e) : Prompt must may ρ (.raise e : Prog S E α) := h

theorem perform {o : S.Op} (h : ∀ e, ¬ must o e) : Prompt must may ρ (.perform o : Prog S E (S.Ret o)) :=
  ⟨fun _ => trivial, fun e => .inr ⟨h e, rfl⟩⟩

theorem bind' {p : Prog S E α} {f : α → Prog S E β} (hp : Prompt must may ρ p) (hf : ∀ a, Prompt must may ρ (f a)) :
    Prompt must may ρ (p.bind f) := by
  induction p with
  | ret a => exact hf a
  | raise e => exact hp
  | op o k ih =>
    refine ⟨fun a => ih _ (hp.1 a), fun e => ?_⟩
    rcases hp.2 e with ⟨h1, h2⟩ | ⟨h1, h2⟩
    · exact .inl ⟨h1, ih _ h2⟩
    · exact .inr ⟨h1, by simp only [h2]; rfl⟩

theorem bind {p : Prog S E α} {f : α → Prog S E β} (hp : Prompt must may ρ p) (hf : ∀ a, Prompt must may ρ (f a)) :
    Prompt must may ρ (p >>= f) := bind' hp hf

theorem when {c : Prop} [Decidable c] {p : Prog S E Unit} (h : c → Prompt must may ρ p) : Prompt must may ρ (Prog.when c p) := by
  unfold Prog.when; split
  · exact h ‹_›
  · trivial

/-- A handler around a part that passes all failures on. -/
theorem tryElse {p : Prog S E α} {h : E → Prog S E β} {f : α → Prog S E β} (hp : Prompt must' (fun _ _ => False) ρ' p)
    (hh : ∀ o e, ¬ must' o e → (may o e ∧ Prompt must may ρ (h e)) ∨ (¬ must o e ∧ h e = .raise e))
    (ho : ∀ e, ρ' e → Prompt must may ρ (h e)) (hf : ∀ a, Prompt must may ρ (f a)) : Prompt must may ρ (p.tryElse h f) := by
  induction p with
  | ret a => exact hf a
  | raise e => exact ho e hp
  | op o k ih =>
    refine ⟨fun a => ih _ (hp.1 a), fun e => ?_⟩
    rcases hp.2 e with ⟨h1, _⟩ | ⟨h1, h2⟩
    · exact h1.elim
    · simp only [h2]
      exact hh o e h1

theorem tryCatch {p : Prog S E α} {h : E → Prog S E α} (hp : Prompt must' (fun _ _ => False) ρ' p)
    (hh : ∀ o e, ¬ must' o e → (may o e ∧ Prompt must may ρ (h e)) ∨ (¬ must o e ∧ h e = .raise e))
    (ho : ∀ e, ρ' e → Prompt must may ρ (h e)) : Prompt must may ρ (p.tryCatch h) := by
  induction p with
  | ret a => trivial
  | raise e => exact ho e hp
  | op o k ih =>
    refine ⟨fun a => ih _ (hp.1 a), fun e => ?_⟩
    rcases hp.2 e with ⟨h1, _⟩ | ⟨h1, h2⟩
    · exact h1.elim
    · simp only [h2]
      exact hh o e h1

theorem forEach {xs : List α} {f : α → Prog S E Unit} (h : ∀ x ∈ xs, Prompt must may ρ (f x)) :
    Prompt must may ρ (Prog.forEach xs f) := by
  induction xs with
  | nil => trivial
  | cons x xs ih => exact bind' (h x (by simp)) fun _ => ih fun y hy => h y (by simp [hy])

theorem fold {xs : List α} {b : β} {f : β → α → Prog S E β} (h : ∀ b, ∀ x ∈ xs, Prompt must may ρ (f b x)) :
    Prompt must may ρ (Prog.fold xs b f) := by
  induction xs generalizing b with
  | nil => trivial
  | cons x xs ih => exact bind' (h b x (by simp)) fun _ => ih fun b y hy => h b y (by simp [hy])

theorem mapAll {xs : List α} {f : α → Prog S E β} (h : ∀ x ∈ xs, Prompt must may ρ (f x)) :
    Prompt must may ρ (Prog.mapAll xs f) := by
  induction xs with
  | nil => trivial
  | cons x xs ih =>
    exact bind' (h x (by simp)) fun _ => bind' (ih fun y hy => h y (by simp [hy])) fun _ => trivial

theorem filterAll {xs : List α} {f : α → Prog S E Bool} (h : ∀ x ∈ xs, Prompt must may ρ (f x)) :
    Prompt must may ρ (Prog.filterAll xs f) := by
  induction xs with
  | nil => trivial
  | cons x xs ih =>
    exact bind' (h x (by simp)) fun _ => bind' (ih fun y hy => h y (by simp [hy])) fun _ => trivial

end Prompt
end Verif
