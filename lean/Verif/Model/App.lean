import Verif.Model.Api
/-
What an application can do inside the trust decision callback: anything that goes through the public API.
-/
namespace Verif

/-- The calls considered in trust decisions: all but creating a manager, purging a JID and encrypting. -/
def Call.inDecision : Call → Bool
  | .create .. | .purgeBareJid _ | .encrypt .. => false
  | _ => true

/-- A program of the application: computations, interactions with the outside world (not with the library's storage), and calls of
the public API of manager `M`.  `X` is what exceptions it may raise, given that nothing it calls raises others. -/
inductive AppProg (M : Mgr) (X : Exn → Prop) : {α : Type} → P α → Prop where
  | ret {α : Type} (a : α) : AppProg M X (.ret a)
  | raise {α : Type} (e : Exn) : X e → AppProg M X (.raise e : P α)
  | ext {α : Type} (o : Op) (k : Except Exn o.Ret → P α) : o.isExternal = true →
      (∀ r, (∀ e, r = .error e → X e) → AppProg M X (k r)) → AppProg M X (.op o k)
  | info {α : Type} (jid : Jid) (h : Exn → P α) (f : List DeviceInfo → P α) : (∀ e, X e → AppProg M X (h e)) →
      (∀ a, AppProg M X (f a)) → AppProg M X (Prog.tryElse (SM.getDeviceInformation M jid) h f)
  | api {α : Type} (c : Call) (h : Exn → P α) (f : Unit → P α) : c.inDecision = true → (∀ e, X e → AppProg M X (h e)) →
      (∀ a, AppProg M X (f a)) → AppProg M X (Prog.tryElse (c.run M) h f)

namespace AppProg
variable {M : Mgr} {X : Exn → Prop} {α β : Type}

theorem bind' {p : P α} {f : α → P β} (hp : AppProg M X p) (hf : ∀ a, AppProg M X (f a)) : AppProg M X (p.bind f) := by
  induction hp with
  | ret a => exact hf a
  | raise e he => exact .raise e he
  | ext o k ho _ ih => exact .ext o _ ho fun r hr => ih r hr
  | info jid h g _ _ ihh ihg =>
    rw [Prog.tryElse_bind]
    exact .info jid _ _ ihh ihg
  | api c h g hc _ _ ihh ihg =>
    rw [Prog.tryElse_bind]
    exact .api c _ _ hc ihh ihg

theorem bind {p : P α} {f : α → P β} (hp : AppProg M X p) (hf : ∀ a, AppProg M X (f a)) : AppProg M X (p >>= f) := hp.bind' hf

theorem when {c : Prop} [Decidable c] {p : P Unit} (h : AppProg M X p) : AppProg M X (Prog.when c p) := by
  unfold Prog.when
  split
  · exact h
  · exact .ret ()

theorem forEach {xs : List β} {f : β → P Unit} (h : ∀ x ∈ xs, AppProg M X (f x)) : AppProg M X (Prog.forEach xs f) := by
  induction xs with
  | nil => exact .ret ()
  | cons x xs ih => exact (h x (by simp)).bind' fun _ => ih fun y hy => h y (by simp [hy])

theorem fold {γ : Type} {xs : List β} {b : γ} {f : γ → β → P γ} (h : ∀ b, ∀ x ∈ xs, AppProg M X (f b x)) :
    AppProg M X (Prog.fold xs b f) := by
  induction xs generalizing b with
  | nil => exact .ret b
  | cons x xs ih => exact (h b x (by simp)).bind' fun _ => ih fun b y hy => h b y (by simp [hy])

theorem getDeviceInformation (jid : Jid) : AppProg M X (SM.getDeviceInformation M jid) := by
  rw [← Prog.tryElse_id (SM.getDeviceInformation M jid)]
  exact .info jid _ _ (fun e he => .raise e he) fun a => .ret a

theorem call (c : Call) (hc : c.inDecision = true) : AppProg M X (c.run M) := by
  rw [← Prog.tryElse_id (c.run M)]
  exact .api c _ _ hc (fun e he => .raise e he) fun a => .ret a

end AppProg
end Verif
