import Verif.Base.Prog
/-
Executable scheduler, used for concrete interleaved executions in refutations.  Nothing in this file depends on python-omemo.
-/
namespace Verif

/-- Run programs interleaved: the schedule says which program performs its next interaction. Returns the trace of each program, what
is left of each, the interleaved trace and the final state. -/
def sched {S : Sig} {E W α : Type} (env : W → (o : S.Op) → Except E (S.Ret o)) (next : W → Event S E → W) :
    List Nat → List (Prog S E α) → W → List (List (Event S E)) × List (Prog S E α) × List (Event S E) × W
  | [], ps, w => (ps.map fun _ => [], ps, [], w)
  | i :: is, ps, w =>
    match ps[i]? with
    | some (.op o k) =>
      let e : Event S E := ⟨o, env w o⟩
      let x := sched env next is (ps.set i (k (env w o))) (next w e)
      (x.1.modify i (e :: ·), x.2.1, e :: x.2.2.1, x.2.2.2)
    | _ => sched env next is ps w

/-- What is true of a run of the scheduler. -/
structure SchedOk {S : Sig} {E W α : Type} (M : Sem S E W) (ps : List (Prog S E α)) (w : W)
    (x : List (List (Event S E)) × List (Prog S E α) × List (Event S E) × W) : Prop where
  len : x.1.length = ps.length
  len' : x.2.1.length = ps.length
  shuffle : Shuffle x.1 x.2.2.1
  runs : M.Runs w x.2.2.1 x.2.2.2
  exec : ∀ (i : Nat) p p' t, ps[i]? = some p → x.2.1[i]? = some p' → x.1[i]? = some t → ∀ u r, Exec p' u r → Exec p (t ++ u) r

theorem sched_ok {S : Sig} {E W α : Type} (M : Sem S E W) (env : W → (o : S.Op) → Except E (S.Ret o))
    (hok : ∀ w o, M.ok w ⟨o, env w o⟩) (is : List Nat) (ps : List (Prog S E α)) (w : W) :
    SchedOk M ps w (sched env M.next is ps w) := by
  induction is generalizing ps w with
  | nil =>
    refine ⟨by simp [sched], rfl, ?_, rfl, ?_⟩
    · exact .nil (by simp [sched])
    · intro i p p' t h1 h2 h3 u r h
      simp only [sched] at h2 h3
      rw [h1] at h2; cases h2
      rw [List.getElem?_map, h1] at h3
      cases h3
      exact h
  | cons i is ih =>
    unfold sched
    split
    · rename_i o k hi
      have hlt : i < ps.length := (List.getElem?_eq_some_iff.1 hi).1
      have hx := ih (ps.set i (k (env w o))) (M.next w ⟨o, env w o⟩)
      simp only
      generalize sched env M.next is (ps.set i (k (env w o))) (M.next w ⟨o, env w o⟩) = x at hx ⊢
      have l1 : x.1.length = ps.length := by rw [hx.len, List.length_set]
      refine ⟨by simp [l1], by rw [hx.len', List.length_set], ?_, ⟨hok _ _, hx.runs⟩, ?_⟩
      · have h := hx.shuffle
        have hlt' : i < x.1.length := by omega
        rw [List.modify_eq_take_cons_drop hlt']
        refine .cons ?_
        rw [List.getElem_cons_drop, List.take_append_drop]
        exact h
      · intro j p p' t h1 h2 h3 u r h
        by_cases hj : j = i
        · subst hj
          rw [hi] at h1; cases h1
          rw [List.getElem?_modify_eq] at h3
          cases hxt : x.1[j]? with
          | none => rw [hxt] at h3; cases h3
          | some t0 =>
            rw [hxt] at h3; cases h3
            refine .op _ (hx.exec j _ p' t0 ?_ h2 hxt u r h)
            rw [List.getElem?_set_self hlt]
        · simp only at h3
          rw [List.getElem?_modify_ne _ _ (Ne.symm hj)] at h3
          refine hx.exec j p p' t ?_ h2 h3 u r h
          rw [List.getElem?_set_ne (fun h => hj h.symm)]; exact h1
    · exact ih ps w

/-- A program that is over, with a value that satisfies `f`. -/
def Prog.isOk {S : Sig} {E α : Type} (f : α → Bool) : Prog S E α → Bool
  | .ret a => f a
  | _ => false

/-- A program that is over, with an exception that satisfies `f`. -/
def Prog.isRaise {S : Sig} {E α : Type} (f : E → Bool) : Prog S E α → Bool
  | .raise e => f e
  | _ => false

/-- A program that is not over. -/
def Prog.isOp {S : Sig} {E α : Type} : Prog S E α → Bool
  | .op _ _ => true
  | _ => false

section
variable {S : Sig} {E W α : Type} {M : Sem S E W} {ps : List (Prog S E α)} {w : W}
  {x : List (List (Event S E)) × List (Prog S E α) × List (Event S E) × W}

theorem SchedOk.isOk (h : SchedOk M ps w x) (i : Nat) {p : Prog S E α} {t : List (Event S E)} (h1 : ps[i]? = some p)
    (h2 : x.1[i]? = some t) (f : α → Bool) (h3 : x.2.1[i]?.any (Prog.isOk f) = true) : ∃ a, Exec p t (.ok a) ∧ f a = true := by
  cases h4 : x.2.1[i]? with
  | none => rw [h4] at h3; cases h3
  | some p' =>
    rw [h4] at h3
    cases p' with
    | ret a => exact ⟨a, by simpa using h.exec i p _ t h1 h4 h2 [] _ (.ret a), h3⟩
    | raise e => cases h3
    | op o k => cases h3

theorem SchedOk.isRaise (h : SchedOk M ps w x) (i : Nat) {p : Prog S E α} {t : List (Event S E)} (h1 : ps[i]? = some p)
    (h2 : x.1[i]? = some t) (f : E → Bool) (h3 : x.2.1[i]?.any (Prog.isRaise f) = true) : ∃ e, Exec p t (.raised e) ∧ f e = true := by
  cases h4 : x.2.1[i]? with
  | none => rw [h4] at h3; cases h3
  | some p' =>
    rw [h4] at h3
    cases p' with
    | ret a => cases h3
    | raise e => exact ⟨e, by simpa using h.exec i p _ t h1 h4 h2 [] _ (.raise e), h3⟩
    | op o k => cases h3

theorem SchedOk.cut (h : SchedOk M ps w x) (i : Nat) {p : Prog S E α} {t : List (Event S E)} (h1 : ps[i]? = some p)
    (h2 : x.1[i]? = some t) (h3 : x.2.1[i]?.any Prog.isOp = true) : Exec p t .crashed := by
  cases h4 : x.2.1[i]? with
  | none => rw [h4] at h3; cases h3
  | some p' =>
    rw [h4] at h3
    cases p' with
    | ret a => cases h3
    | raise e => cases h3
    | op o k => simpa using h.exec i p _ t h1 h4 h2 [] .crashed (.crash _ _)

theorem list2 {α : Type} {l : List α} (h : l.length = 2) : ∃ a b, l = [a, b] := by
  rcases l with _ | ⟨a, _ | ⟨b, _ | ⟨c, l⟩⟩⟩ <;> simp at h
  exact ⟨a, b, rfl⟩

theorem list3 {α : Type} {l : List α} (h : l.length = 3) : ∃ a b c, l = [a, b, c] := by
  rcases l with _ | ⟨a, _ | ⟨b, _ | ⟨c, _ | ⟨d, l⟩⟩⟩⟩ <;> simp at h
  exact ⟨a, b, c, rfl⟩

end

end Verif
