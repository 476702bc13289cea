import Verif.Props.Exceptions
import Verif.Wrong.Decrypt
/-
Wrong programs in place of calls that raise what they should not, and the claims that reject them (C67, C69).  See Wrong/Encrypt.lean for the
method.
-/
namespace Verif
namespace Wrong
open SM Spec

/-- C69 for a program in place of a call. -/
def C69 (run : Mgr → Call → P Unit) : Prop :=
  ∀ (M : Mgr), CallbackFair M → ∀ (c : Call) (t : List Ev) (e : Exn), Exec (run M c) t (.raised e) →
    ErrIn t e ∨ Documented c e ∨ e = .trustDecisionFailed ∨ BadData e ∨ (LooksUp c t ∧ e = .keyError) ∨
      (SearchesDevice c ∧ e = .runtimeError) ∨ (UpdatesLists c ∧ e = .unknownNamespace) ∨ Unfinished c e

theorem C69_real : C69 fun M c => c.run M := fun M hd c t e he => C69_causes M hd c t e he

/-- C67, what holds of it, for a program in place of a call. -/
def C67 (run : Mgr → Call → P Unit) : Prop :=
  ∀ (M : Mgr), CallbackFair M → ∀ (c : Call), ¬ SearchesDevice c → ∀ (t : List Ev) (w w' : World), Lib.Runs w t w' →
    ¬ Exec (run M c) t (.raised .runtimeError)

theorem C67_real : C67 fun M c => c.run M := fun M hd c hc t w w' hr => C67_others_partial M hd c hc t w w' hr

/-- An exception that only the wrong program accounts for. -/
theorem C69_not {run : Mgr → Call → P Unit} (c : Call) (e : Exn) (w : World)
    (hr : (trial genuine (run Mgr.ex c) w).2.1 = .raised e)
    (ht : (trial genuine (run Mgr.ex c) w).1.all (fun x => match x.2 with | .ok _ => true | .error y => decide (y ≠ e)) = true)
    (hn : ¬ (Documented c e ∨ e = .trustDecisionFailed ∨ BadData e ∨ e = .keyError ∨ (SearchesDevice c ∧ e = .runtimeError) ∨
      (UpdatesLists c ∧ e = .unknownNamespace) ∨ Unfinished c e)) : ¬ C69 run := by
  intro hc
  rcases hc Mgr.ex Mgr.ex_fair c _ e (hr ▸ trial_exec genuine (run Mgr.ex c) w) with ⟨x, hx, hy⟩ | h | h | h | ⟨-, h⟩ | h
  · have := List.all_eq_true.1 ht x hx
    rw [hy] at this
    exact of_decide_eq_true this rfl
  · exact hn (.inl h)
  · exact hn (.inr (.inl h))
  · exact hn (.inr (.inr (.inl h)))
  · exact hn (.inr (.inr (.inr (.inl h))))
  · exact hn (.inr (.inr (.inr (.inr h))))

/-- Purging a JID of which nothing is known raises `RuntimeError` (sm:589: no default). -/
def insisting (M : Mgr) : Call → P Unit
  | .purgeBareJid j => do
    match ← Sto.loadInts (.devList j) with
    | none => throwE .runtimeError
    | some _ => purgeBareJid M j
  | c => c.run M

theorem C69_insisting : ¬ C69 insisting :=
  C69_not (.purgeBareJid "nobody") .runtimeError World.fresh (by decide +kernel) (by decide +kernel) (by simp [Documented, BadData, SearchesDevice, UpdatesLists, Unfinished])

theorem C67_insisting : ¬ C67 insisting := by
  intro hc
  have hr : (trial genuine (insisting Mgr.ex (.purgeBareJid "nobody")) World.fresh).2.1 = .raised .runtimeError := by decide +kernel
  exact hc Mgr.ex Mgr.ex_fair (.purgeBareJid "nobody") (by simp [SearchesDevice]) _ World.fresh _ (trial_runs genuine_ok _ _)
    (hr ▸ trial_exec genuine (insisting Mgr.ex (.purgeBareJid "nobody")) World.fresh)

/-- `set_trust` only takes names of levels that the library knows. -/
def finicky (M : Mgr) : Call → P Unit
  | .setTrust j ik name => if name ∈ ["TRUSTED", "DISTRUSTED", "UNDECIDED"] then setTrust j ik name else throwE .unknownTrustLevel
  | c => c.run M

theorem C69_finicky : ¬ C69 finicky :=
  C69_not (.setTrust "a" [7] "BLINDLY_TRUSTED") .unknownTrustLevel World.fresh (by decide +kernel) (by decide +kernel)
    (by simp [Documented, BadData, SearchesDevice, UpdatesLists, Unfinished])

end Wrong
end Verif
