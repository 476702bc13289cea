import Verif.Base.Prog
/-
Which exceptions a program can raise.  Nothing in this file depends on python-omemo.
-/
namespace Verif

/-- If interactions answer only with exceptions satisfying `χ`, then `p` raises only exceptions satisfying `ρ`. -/
def Raises {S : Sig} {E α : Type} (χ : S.Op → E → Prop) (ρ : E → Prop) : Prog S E α → Prop
  | .ret _ => True
  | .raise e => ρ e
  | .op o k => ∀ r, (∀ e, r = .error e → χ o e) → Raises χ ρ (k r)

namespace Raises
variable {S : Sig} {E α β : Type} {χ : S.Op → E → Prop} {ρ ρ' : E → Prop}

theorem exec {p : Prog S E α} (h : Raises χ ρ p) {t e} (he : Exec p t (.raised e)) (ht : ∀ x ∈ t, ∀ y, x.2 = .error y → χ x.1 y) :
    ρ e := by
  induction p generalizing t with
  | ret => cases he
  | raise => cases he; exact h
  | op o k ih =>
    cases he with
    | op x hx => exact ih _ (h _ fun y hy => ht ⟨o, x⟩ (by simp) y hy) hx fun y hy => ht y (by simp [hy])

theorem mono {p : Prog S E α} (h : Raises χ ρ p) (hi : ∀ e, ρ e → ρ' e) : Raises χ ρ' p := by
  induction p with
  | ret => trivial
  | raise => exact hi _ h
  | op o k ih => exact fun r hr => ih r (h r hr)

theorem ret (a : α) : Raises χ ρ (.ret a : Prog S E α) := trivial
theorem pure (a : α) : Raises χ ρ (Pure.pure a : Prog S E α) := trivial
theorem raise {e : E} (h : ρ e) : Raises χ ρ (.raise e : Prog S E α) := h

theorem perform {o : S.Op} (h : ∀ e, χ o e → ρ e) : Raises χ ρ (.perform o : Prog S E (S.Ret o)) := by
  intro r hr
  cases r with
  | ok a => trivial
  | error e => exact h e (hr e rfl)

theorem bind' {p : Prog S E α} {f : α → Prog S E β} (hp : Raises χ ρ p) (hf : ∀ a, Raises χ ρ (f a)) :
    Raises χ ρ (p.bind f) := by
  induction p with
  | ret a => exact hf a
  | raise e => exact hp
  | op o k ih => exact fun r hr => ih r (hp r hr)

theorem bind {p : Prog S E α} {f : α → Prog S E β} (hp : Raises χ ρ p) (hf : ∀ a, Raises χ ρ (f a)) :
    Raises χ ρ (p >>= f) := bind' hp hf

theorem when {c : Prop} [Decidable c] {p : Prog S E Unit} (h : c → Raises χ ρ p) : Raises χ ρ (Prog.when c p) := by
  unfold Prog.when; split
  · exact h ‹_›
  · trivial

theorem tryCatch {p : Prog S E α} {h : E → Prog S E α} (hp : Raises χ ρ' p) (hh : ∀ e, ρ' e → Raises χ ρ (h e)) :
    Raises χ ρ (p.tryCatch h) := by
  induction p with
  | ret a => trivial
  | raise e => exact hh e hp
  | op o k ih => exact fun r hr => ih r (hp r hr)

theorem tryElse {p : Prog S E α} {h : E → Prog S E β} {f : α → Prog S E β} (hp : Raises χ ρ' p)
    (hh : ∀ e, ρ' e → Raises χ ρ (h e)) (hf : ∀ a, Raises χ ρ (f a)) : Raises χ ρ (p.tryElse h f) := by
  induction p with
  | ret a => exact hf a
  | raise e => exact hh e hp
  | op o k ih => exact fun r hr => ih r (hp r hr)

theorem forEach {xs : List α} {f : α → Prog S E Unit} (h : ∀ x ∈ xs, Raises χ ρ (f x)) :
    Raises χ ρ (Prog.forEach xs f) := by
  induction xs with
  | nil => trivial
  | cons x xs ih => exact bind' (h x (by simp)) fun _ => ih fun y hy => h y (by simp [hy])

theorem fold {xs : List α} {b : β} {f : β → α → Prog S E β} (h : ∀ b, ∀ x ∈ xs, Raises χ ρ (f b x)) :
    Raises χ ρ (Prog.fold xs b f) := by
  induction xs generalizing b with
  | nil => trivial
  | cons x xs ih => exact bind' (h b x (by simp)) fun _ => ih fun b y hy => h b y (by simp [hy])

theorem mapAll {xs : List α} {f : α → Prog S E β} (h : ∀ x ∈ xs, Raises χ ρ (f x)) :
    Raises χ ρ (Prog.mapAll xs f) := by
  induction xs with
  | nil => trivial
  | cons x xs ih =>
    exact bind' (h x (by simp)) fun _ => bind' (ih fun y hy => h y (by simp [hy])) fun _ => trivial

theorem filterAll {xs : List α} {f : α → Prog S E Bool} (h : ∀ x ∈ xs, Raises χ ρ (f x)) :
    Raises χ ρ (Prog.filterAll xs f) := by
  induction xs with
  | nil => trivial
  | cons x xs ih =>
    exact bind' (h x (by simp)) fun _ => bind' (ih fun y hy => h y (by simp [hy])) fun _ => trivial

end Raises

/-- If interactions are answered according to `χ`, then `p` raises only exceptions satisfying `ρ`. -/
def RaisesOn {S : Sig} {E α : Type} (χ : Event S E → Prop) (ρ : E → Prop) : Prog S E α → Prop
  | .ret _ => True
  | .raise e => ρ e
  | .op o k => ∀ r, χ ⟨o, r⟩ → RaisesOn χ ρ (k r)

namespace RaisesOn
variable {S : Sig} {E α β : Type} {χ : Event S E → Prop} {ρ : E → Prop}

theorem exec {p : Prog S E α} (h : RaisesOn χ ρ p) {t e} (he : Exec p t (.raised e)) (ht : ∀ x ∈ t, χ x) : ρ e := by
  induction p generalizing t with
  | ret => cases he
  | raise => cases he; exact h
  | op o k ih =>
    cases he with
    | op x hx => exact ih _ (h _ (ht ⟨o, x⟩ (by simp))) hx fun y hy => ht y (by simp [hy])

theorem of {χ' : S.Op → E → Prop} {p : Prog S E α} (h : Raises χ' ρ p) (hχ : ∀ x, χ x → ∀ e, x.2 = .error e → χ' x.1 e) : RaisesOn χ ρ p := by
  induction p with
  | ret => trivial
  | raise => exact h
  | op o k ih => exact fun r hr => ih r (h r fun e he => hχ ⟨o, r⟩ hr e he)

theorem bind {p : Prog S E α} {f : α → Prog S E β} (hp : RaisesOn χ ρ p) (hf : ∀ a, RaisesOn χ ρ (f a)) : RaisesOn χ ρ (p >>= f) := by
  change RaisesOn χ ρ (Prog.bind p f)
  induction p with
  | ret a => exact hf a
  | raise e => exact hp
  | op o k ih => exact fun r hr => ih r (hp r hr)

/-- An interaction, then something that may use what is known about its answer. -/
theorem perform {o : S.Op} {f : S.Ret o → Prog S E β} (h : ∀ e, χ ⟨o, .error e⟩ → ρ e) (hf : ∀ a, χ ⟨o, .ok a⟩ → RaisesOn χ ρ (f a)) :
    RaisesOn χ ρ ((Prog.perform o : Prog S E (S.Ret o)) >>= f) := by
  intro r hr
  cases r with
  | ok a => exact hf a hr
  | error e => exact h e hr

end RaisesOn
end Verif
