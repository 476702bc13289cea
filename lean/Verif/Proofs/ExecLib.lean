import Verif.Proofs.TrustTrace
/-
Executions of straight-line programs, step by step.
-/
namespace Verif
open SM
variable {α β : Type}

theorem exec_call {o : Op} {t : List Ev} {r : Res Exn o.Ret} : Exec (call o) t r ↔
    (t = [] ∧ r = .crashed) ∨ (∃ e, t = [⟨o, .error e⟩] ∧ r = .raised e) ∨ ∃ a, t = [⟨o, .ok a⟩] ∧ r = .ok a := by
  constructor
  · intro h
    cases h with
    | crash => exact .inl ⟨rfl, rfl⟩
    | op x h =>
      cases x with
      | error e => cases h; exact .inr (.inl ⟨e, rfl, rfl⟩)
      | ok a => cases h; exact .inr (.inr ⟨a, rfl, rfl⟩)
  · rintro (⟨rfl, rfl⟩ | ⟨e, rfl, rfl⟩ | ⟨a, rfl, rfl⟩)
    · exact .crash _ _
    · exact .op (.error e) (.raise e)
    · exact .op (.ok a) (.ret a)

/-- A call followed by something. -/
theorem exec_call_bind {o : Op} {f : o.Ret → P β} {t : List Ev} {r : Res Exn β} : Exec (call o >>= f) t r ↔
    (t = [] ∧ r = .crashed) ∨ (∃ e, t = [⟨o, .error e⟩] ∧ r = .raised e) ∨ ∃ a t', t = ⟨o, .ok a⟩ :: t' ∧ Exec (f a) t' r := by
  refine (exec_bind_iff (p := call o) (f := f)).trans ⟨?_, ?_⟩
  · rintro (⟨t1, a, t2, rfl, h1, h2⟩ | ⟨e, h, rfl⟩ | ⟨h, rfl⟩)
    · rcases exec_call.1 h1 with ⟨_, h⟩ | ⟨_, _, h⟩ | ⟨a', rfl, h⟩
      · cases h
      · cases h
      · cases h; exact .inr (.inr ⟨a, t2, rfl, h2⟩)
    · rcases exec_call.1 h with ⟨_, hx⟩ | ⟨e', rfl, hx⟩ | ⟨a', _, hx⟩
      · cases hx
      · cases hx; exact .inr (.inl ⟨_, rfl, rfl⟩)
      · cases hx
    · rcases exec_call.1 h with ⟨rfl, h⟩ | ⟨_, _, h⟩ | ⟨_, _, h⟩
      · exact .inl ⟨rfl, rfl⟩
      · cases h
      · cases h
  · rintro (⟨rfl, rfl⟩ | ⟨e, rfl, rfl⟩ | ⟨a, t', rfl, h⟩)
    · exact .inr (.inr ⟨exec_call.2 (.inl ⟨rfl, rfl⟩), rfl⟩)
    · exact .inr (.inl ⟨e, exec_call.2 (.inr (.inl ⟨e, rfl, rfl⟩)), rfl⟩)
    · exact .inl ⟨[⟨o, .ok a⟩], a, t', rfl, exec_call.2 (.inr (.inr ⟨a, rfl, rfl⟩)), h⟩

/-- A sequence. -/
theorem exec_seq {p : P α} {f : α → P β} {t : List Ev} {r : Res Exn β} : Exec (p >>= f) t r ↔
      (∃ t1 a t2, t = t1 ++ t2 ∧ Exec p t1 (.ok a) ∧ Exec (f a) t2 r) ∨
      (∃ e, Exec p t (.raised e) ∧ r = .raised e) ∨ (Exec p t .crashed ∧ r = .crashed) := exec_bind_iff

/-- A sequence that succeeds. -/
theorem exec_seq_ok {p : P α} {f : α → P β} {t : List Ev} {b : β} : Exec (p >>= f) t (.ok b) ↔
      ∃ t1 a t2, t = t1 ++ t2 ∧ Exec p t1 (.ok a) ∧ Exec (f a) t2 (.ok b) := by
  rw [exec_seq]; simp

theorem exec_call_ok {o : Op} {t : List Ev} {a : o.Ret} : Exec (call o) t (.ok a) ↔ t = [⟨o, .ok a⟩] := by
  rw [exec_call]
  simp only [reduceCtorEq, and_false, exists_false, false_or]
  constructor
  · rintro ⟨a', rfl, h⟩; cases h; rfl
  · rintro rfl; exact ⟨a, rfl, rfl⟩

theorem exec_call_bind_ok {o : Op} {f : o.Ret → P β} {t : List Ev} {b : β} : Exec (call o >>= f) t (.ok b) ↔
    ∃ a t', t = ⟨o, .ok a⟩ :: t' ∧ Exec (f a) t' (.ok b) := by
  rw [exec_call_bind]; simp

theorem exec_pure {a : α} {t : List Ev} {r : Res Exn α} : Exec (pure a : P α) t r ↔ t = [] ∧ r = .ok a := by
  constructor
  · intro h; cases h; exact ⟨rfl, rfl⟩
  · rintro ⟨rfl, rfl⟩; exact .ret a

theorem exec_throw {e : Exn} {t : List Ev} {r : Res Exn α} : Exec (throwE e : P α) t r ↔ t = [] ∧ r = .raised e := by
  constructor
  · intro h; cases h; exact ⟨rfl, rfl⟩
  · rintro ⟨rfl, rfl⟩; exact .raise e

theorem exec_when {c : Prop} [Decidable c] {p : P Unit} {t : List Ev} {r : Res Exn Unit} :
    Exec (Prog.when c p) t r ↔ (c ∧ Exec p t r) ∨ (¬ c ∧ t = [] ∧ r = .ok ()) := by
  unfold Prog.when
  split
  · rename_i h; simp [h]
  · rename_i h
    simp only [h, false_and, false_or, not_false_iff, true_and]
    exact exec_pure

/-- A typed load that succeeds. -/
theorem exec_typed_ok {k : Key} {f : JVal → Except Exn β} {t : List Ev} {a : Option β}
    (h : Exec (call (.load k) >>= fun o => (Maybe.fmap f o : P (Option β))) t (.ok a)) :
    ∃ o, t = [⟨.load k, .ok o⟩] ∧ (∀ v, o = some v → ∃ b, f v = .ok b ∧ a = some b) ∧ (o = none → a = none) := by
  obtain ⟨o, t', rfl, h'⟩ := exec_call_bind_ok.1 h
  refine ⟨o, ?_⟩
  cases o with
  | none => cases h'; exact ⟨rfl, by simp, fun _ => rfl⟩
  | some v =>
    unfold Maybe.fmap at h'
    cases hv : f v with
    | ok b =>
      simp only [hv] at h'
      cases h'
      exact ⟨rfl, fun w hw => ⟨b, by cases hw; exact hv, rfl⟩, by simp⟩
    | error e => simp only [hv] at h'; cases h'

theorem exec_loadInts_ok {k : Key} {t : List Ev} {a : Option (List Int)} (h : Exec (Sto.loadInts k) t (.ok a)) :
    ∃ o, t = [⟨.load k, .ok o⟩] ∧ (∀ v, o = some v → ∃ l, v = .list l ∧ a = some (l.map JVal.asInt)) ∧ (o = none → a = none) := by
  obtain ⟨o, rfl, h1, h2⟩ := exec_typed_ok h
  refine ⟨o, rfl, fun v hv => ?_, h2⟩
  obtain ⟨b, hb, rfl⟩ := h1 v hv
  unfold checkList at hb
  split at hb
  · split at hb
    · cases hb; exact ⟨_, rfl, rfl⟩
    · cases hb
  · cases hb

theorem exec_loadStrs_ok {k : Key} {t : List Ev} {a : Option (List String)} (h : Exec (Sto.loadStrs k) t (.ok a)) :
    ∃ o, t = [⟨.load k, .ok o⟩] ∧ (∀ v, o = some v → ∃ l, v = .ofStrs l ∧ a = some l) ∧ (o = none → a = none) := by
  obtain ⟨o, rfl, h1, h2⟩ := exec_typed_ok h
  refine ⟨o, rfl, fun v hv => ?_, h2⟩
  obtain ⟨b, hb, rfl⟩ := h1 v hv
  exact ⟨b, strs_of_check hb, rfl⟩

end Verif
