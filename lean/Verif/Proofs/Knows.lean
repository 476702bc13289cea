import Verif.Proofs.Footprint
import Verif.Spec.Trace
/-
Interactions that have to be preceded by others: what a program knows of the interactions so far.
-/
namespace Verif
open Spec

/-- `p`, started after the interactions `h`, performs only interactions related by `G` to what happened before them, and establishes `R` if it
returns. -/
def Grd {α : Type} (G : List Ev → Op → Prop) (R : α → List Ev → Prop) : P α → List Ev → Prop
  | .ret a, h => R a h
  | .raise _, _ => True
  | .op o k, h => G h o ∧ ∀ r, Grd G R (k r) (h ++ [⟨o, r⟩])

/-- What stays true once it is. -/
class Lasting (K : List Ev → Prop) : Prop where
  step : ∀ h e, K h → K (h ++ [e])

namespace Lasting
variable {K K' : List Ev → Prop}

theorem grow [Lasting K] {h t : List Ev} (hk : K h) : K (h ++ t) := by
  induction t generalizing h with
  | nil => simpa using hk
  | cons e t ih => simpa using ih (step h e hk)

instance top : Lasting (fun _ => True) := ⟨fun _ _ h => h⟩
instance const {p : Prop} : Lasting (fun _ => p) := ⟨fun _ _ h => h⟩
instance mem {e : Ev} : Lasting (fun h => e ∈ h) := ⟨fun h x he => by simp [he]⟩
instance and [Lasting K] [Lasting K'] : Lasting (fun h => K h ∧ K' h) := ⟨fun h e hk => ⟨step h e hk.1, step h e hk.2⟩⟩
instance or [Lasting K] [Lasting K'] : Lasting (fun h => K h ∨ K' h) := ⟨fun h e hk => hk.imp (step h e) (step h e)⟩
instance ex {β : Type} {L : β → List Ev → Prop} [∀ b, Lasting (L b)] : Lasting (fun h => ∃ b, L b h) :=
  ⟨fun h e ⟨b, hb⟩ => ⟨b, step h e hb⟩⟩
instance all {β : Type} {L : β → List Ev → Prop} [∀ b, Lasting (L b)] : Lasting (fun h => ∀ b, L b h) :=
  ⟨fun h e hb b => step h e (hb b)⟩
instance imp {A : Prop} [Lasting K] : Lasting (fun h => A → K h) := ⟨fun h e hk a => step h e (hk a)⟩

end Lasting

/-- `Grd` for all histories for which `K` holds. -/
def Kn {α : Type} (G : List Ev → Op → Prop) (K : List Ev → Prop) (p : P α) (R : α → List Ev → Prop) : Prop := ∀ h, K h → Grd G R p h

section
variable {α β : Type} {G : List Ev → Op → Prop} {K : List Ev → Prop} {R : α → List Ev → Prop}

theorem Grd.bind {S : β → List Ev → Prop} {p : P α} {f : α → P β} {h : List Ev} (hp : Grd G R p h)
    (hf : ∀ a t, R a (h ++ t) → Grd G S (f a) (h ++ t)) : Grd G S (p.bind f) h := by
  induction p generalizing h with
  | ret a => simpa [Prog.bind] using hf a [] (by simpa [Grd] using hp)
  | raise e => trivial
  | op o k ih => exact ⟨hp.1, fun r => ih r (hp.2 r) fun a t ha => by simpa using hf a (⟨o, r⟩ :: t) (by simpa using ha)⟩

theorem Grd.tryElse {S : β → List Ev → Prop} {p : P α} {f : α → P β} {g : Exn → P β} {h : List Ev} (hp : Grd G R p h)
    (hg : ∀ e t, Grd G S (g e) (h ++ t)) (hf : ∀ a t, R a (h ++ t) → Grd G S (f a) (h ++ t)) : Grd G S (p.tryElse g f) h := by
  induction p generalizing h with
  | ret a => simpa [Prog.tryElse] using hf a [] (by simpa [Grd] using hp)
  | raise e => simpa [Prog.tryElse] using hg e []
  | op o k ih =>
    exact ⟨hp.1, fun r => ih r (hp.2 r) (fun e t => by simpa using hg e (⟨o, r⟩ :: t)) fun a t ha => by simpa using hf a (⟨o, r⟩ :: t) (by simpa using ha)⟩

theorem Grd.tryCatch {p : P α} {g : Exn → P α} {h : List Ev} (hp : Grd G R p h) (hg : ∀ e t, Grd G R (g e) (h ++ t)) :
    Grd G R (p.tryCatch g) h := by
  induction p generalizing h with
  | ret a => exact hp
  | raise e => simpa [Prog.tryCatch] using hg e []
  | op o k ih => exact ⟨hp.1, fun r => ih r (hp.2 r) fun e t => by simpa using hg e (⟨o, r⟩ :: t)⟩

theorem Grd.mono {S : α → List Ev → Prop} {G' : List Ev → Op → Prop} {p : P α} {h : List Ev} (hp : Grd G R p h) (hr : ∀ a h, R a h → S a h)
    (hg : ∀ h o, G h o → G' h o) : Grd G' S p h := by
  induction p generalizing h with
  | ret a => exact hr _ _ hp
  | raise e => trivial
  | op o k ih => exact ⟨hg _ _ hp.1, fun r => ih r (hp.2 r)⟩

theorem Grd.exec {p : P α} {h : List Ev} (hp : Grd G R p h) {t r} (he : Exec p t r) :
    (∀ h1 e h2, t = h1 ++ e :: h2 → G (h ++ h1) e.1) ∧ ∀ a, r = .ok a → R a (h ++ t) := by
  induction he generalizing h with
  | ret a => exact ⟨fun h1 e h2 hh => by simp at hh, fun b hb => by cases hb; simpa [Grd] using hp⟩
  | raise | crash => exact ⟨fun h1 e h2 hh => by simp at hh, nofun⟩
  | @op o k x t r _ ih =>
    obtain ⟨h3, h4⟩ := ih (hp.2 x)
    refine ⟨fun h1 e h2 hh => ?_, fun a ha => by simpa using h4 a ha⟩
    cases h1 with
    | nil =>
      simp only [List.nil_append, List.cons.injEq] at hh
      obtain ⟨rfl, rfl⟩ := hh
      simpa using hp.1
    | cons y h1 =>
      simp only [List.cons_append, List.cons.injEq] at hh
      obtain ⟨rfl, rfl⟩ := hh
      simpa using h3 h1 e h2 rfl

/-- A program of which the executions are known. -/
theorem Grd.of_exec {p : P α} {h : List Ev} (hp : ∀ t r, Exec p t r → ∀ h1 e h2, t = h1 ++ e :: h2 → G (h ++ h1) e.1) : Grd G (fun _ _ => True) p h := by
  induction p generalizing h with
  | ret | raise => trivial
  | op o k ih =>
    refine ⟨?_, fun x => ih x fun t r he h1 e h2 ht => ?_⟩
    · obtain ⟨t, r, he⟩ : ∃ t r, Exec (k (.error .runtimeError)) t r := by
        cases k (.error .runtimeError) with
        | ret a => exact ⟨_, _, .ret a⟩
        | raise e => exact ⟨_, _, .raise e⟩
        | op o k => exact ⟨_, _, .crash o k⟩
      have := hp (⟨o, .error .runtimeError⟩ :: t) r (.op _ he) [] _ t rfl
      simpa using this
    · have := hp (⟨o, x⟩ :: t) r (.op x he) (⟨o, x⟩ :: h1) e h2 (by simp [ht])
      simpa using this

namespace Kn

theorem pre {K' : List Ev → Prop} {p : P α} (hp : Kn G K p R) (h : ∀ h, K' h → K h) : Kn G K' p R := fun x hx => hp x (h x hx)

theorem post {S : α → List Ev → Prop} {p : P α} (hp : Kn G K p R) (h : ∀ a h, R a h → S a h) : Kn G K p S := fun x hx => (hp x hx).mono h fun _ _ h => h

theorem bind [Lasting K] {S : β → List Ev → Prop} {p : P α} {f : α → P β} (hp : Kn G K p R) (hf : ∀ a, Kn G (fun h => K h ∧ R a h) (f a) S) :
    Kn G K (p >>= f) S := fun h hk => Grd.bind (hp h hk) fun a _ ha => hf a _ ⟨Lasting.grow hk, ha⟩

theorem bind' [Lasting K] {S : β → List Ev → Prop} {p : P α} {f : α → P β} (hp : Kn G K p R) (hf : ∀ a, Kn G (fun h => K h ∧ R a h) (f a) S) :
    Kn G K (p.bind f) S := bind hp hf

/-- Forgetting what the first part established. -/
theorem seq [Lasting K] {S : β → List Ev → Prop} {p : P α} {f : α → P β} (hp : Kn G K p R) (hf : ∀ a, Kn G K (f a) S) : Kn G K (p >>= f) S :=
  bind hp fun a => (hf a).pre fun _ h => h.1

theorem ret {a : α} (h : ∀ h, K h → R a h) : Kn G K (.ret a) R := h
theorem pure {a : α} (h : ∀ h, K h → R a h) : Kn G K (Pure.pure a : P α) R := h
theorem raise {e : Exn} : Kn G K (.raise e : P α) R := fun _ _ => trivial

theorem call {o : Op} (hg : ∀ h, K h → G h o) : Kn G K (Verif.call o) (fun a h => (⟨o, .ok a⟩ : Ev) ∈ h) := fun h hk =>
  ⟨hg h hk, fun r => by cases r <;> simp [Grd]⟩

/-- A program that only performs interactions that are fine with the knowledge at the beginning. -/
theorem ops [Lasting K] {p : P α} (hp : AllOps (fun o => ∀ h, K h → G h o) p) : Kn G K p (fun _ _ => True) := by
  intro h hk
  induction p generalizing h with
  | ret | raise => trivial
  | op o k ih => exact ⟨hp.1 h hk, fun r => ih r (hp.2 r) _ (Lasting.step _ _ hk)⟩

theorem when {c : Prop} [Decidable c] {p : P Unit} {R : Unit → List Ev → Prop} (hp : c → Kn G K p R) (h : ¬ c → ∀ h, K h → R () h) : Kn G K (Prog.when c p) R := by
  unfold Prog.when
  split
  · exact hp ‹_›
  · exact h ‹_›

theorem when' {c : Prop} [Decidable c] {p : P Unit} (hp : c → Kn G K p (fun _ _ => True)) : Kn G K (Prog.when c p) (fun _ _ => True) :=
  when hp fun _ _ _ => trivial

theorem tryElse [Lasting K] {S : β → List Ev → Prop} {p : P α} {f : α → P β} {g : Exn → P β} (hp : Kn G K p R) (hg : ∀ e, Kn G K (g e) S)
    (hf : ∀ a, Kn G (fun h => K h ∧ R a h) (f a) S) : Kn G K (p.tryElse g f) S := fun h hk =>
  (hp h hk).tryElse (fun e _ => hg e _ (Lasting.grow hk)) fun a _ ha => hf a _ ⟨Lasting.grow hk, ha⟩

theorem tryCatch [Lasting K] {p : P α} {g : Exn → P α} (hp : Kn G K p R) (hg : ∀ e, Kn G K (g e) R) : Kn G K (p.tryCatch g) R := fun h hk =>
  (hp h hk).tryCatch fun e _ => hg e _ (Lasting.grow hk)

theorem onNothing [Lasting K] {p g : P α} (hp : Kn G K p R) (hg : Kn G K g R) : Kn G K (Verif.onNothing p g) R := by
  unfold Verif.onNothing
  refine tryCatch hp fun e => ?_
  split
  · exact hg
  · exact raise

theorem forEach [Lasting K] {xs : List α} {f : α → P Unit} (h : ∀ x ∈ xs, Kn G K (f x) (fun _ _ => True)) :
    Kn G K (Prog.forEach xs f) (fun _ _ => True) := by
  induction xs with
  | nil => exact fun _ _ => trivial
  | cons x xs ih => exact seq (h x (by simp)) fun _ => ih fun y hy => h y (by simp [hy])

theorem fold [Lasting K] {xs : List α} {f : β → α → P β} {b : β} {S : β → List Ev → Prop} (h0 : ∀ h, K h → S b h)
    (h : ∀ b, ∀ x ∈ xs, Kn G (fun h => K h ∧ S b h) (f b x) S) : Kn G K (Prog.fold xs b f) S := by
  have : ∀ b, Kn G (fun h => K h ∧ S b h) (Prog.fold xs b f) S := by
    clear h0
    induction xs with
    | nil => exact fun b _ hb => hb.2
    | cons x xs ih =>
      intro b z hz
      exact Grd.bind (h b x (by simp) z hz) fun a t ha => ih (fun b y hy => h b y (by simp [hy])) a _ ⟨Lasting.grow hz.1, ha⟩
  exact fun z hz => this b z ⟨hz, h0 z hz⟩

theorem mapAll [Lasting K] {xs : List α} {f : α → P β} {S : β → List Ev → Prop} [∀ b, Lasting (S b)] (h : ∀ x ∈ xs, Kn G K (f x) S) :
    Kn G K (Prog.mapAll xs f) (fun ys h => ∀ y, y ∈ ys → S y h) := by
  induction xs with
  | nil => exact fun _ _ _ hy => absurd hy List.not_mem_nil
  | cons x xs ih =>
    refine bind' (h x (by simp)) fun y => bind' (((ih fun y hy => h y (by simp [hy]))).pre fun _ h => h.1) fun ys => pure fun z hz w hw => ?_
    rcases List.mem_cons.1 hw with rfl | hw
    · exact hz.1.2
    · exact hz.2 w hw

theorem filterAll [Lasting K] {xs : List α} {f : α → P Bool} (h : ∀ x ∈ xs, Kn G K (f x) (fun _ _ => True)) :
    Kn G K (Prog.filterAll xs f) (fun ys _ => ∀ y, y ∈ ys → y ∈ xs) := by
  induction xs with
  | nil => exact fun _ _ _ hy => absurd hy List.not_mem_nil
  | cons x xs ih =>
    refine bind' (h x (by simp)) fun y => bind' ((ih fun y hy => h y (by simp [hy])).pre fun _ h => h.1) fun ys => pure fun z hz w hw => ?_
    split at hw
    · rcases List.mem_cons.1 hw with rfl | hw
      · simp
      · simp [hz.2 w hw]
    · simp [hz.2 w hw]

theorem exec {p : P α} (hp : Kn G (fun _ => True) p R) {t r} (he : Exec p t r) : Guarded (fun h e => G h e.1) t :=
  fun h1 e h2 ht => by simpa using ((hp [] trivial).exec he).1 h1 e h2 ht

end Kn
end
end Verif
