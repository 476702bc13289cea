import Verif.Proofs.ExecLib
/-
Executions of loops, round by round, and of device lookups.
-/
namespace Verif
open SM Spec
variable {α β : Type}

theorem exec_forEach_nil {f : α → P Unit} {t : List Ev} {r} : Exec (Prog.forEach [] f) t r ↔ t = [] ∧ r = .ok () := exec_pure

theorem exec_forEach_cons {x : α} {xs : List α} {f : α → P Unit} {t : List Ev} {r} : Exec (Prog.forEach (x :: xs) f) t r ↔
    (∃ t1 t2, t = t1 ++ t2 ∧ Exec (f x) t1 (.ok ()) ∧ Exec (Prog.forEach xs f) t2 r) ∨
    (∃ e, Exec (f x) t (.raised e) ∧ r = .raised e) ∨ (Exec (f x) t .crashed ∧ r = .crashed) := by
  refine (exec_bind_iff (p := f x) (f := fun _ => Prog.forEach xs f)).trans (or_congr_left ⟨?_, ?_⟩)
  · rintro ⟨t1, a, t2, h⟩; exact ⟨t1, t2, h⟩
  · rintro ⟨t1, t2, h⟩; exact ⟨t1, (), t2, h⟩

theorem exec_forEach_cons_ok {x : α} {xs : List α} {f : α → P Unit} {t : List Ev} : Exec (Prog.forEach (x :: xs) f) t (.ok ()) ↔
    ∃ t1 t2, t = t1 ++ t2 ∧ Exec (f x) t1 (.ok ()) ∧ Exec (Prog.forEach xs f) t2 (.ok ()) := by
  rw [exec_forEach_cons]; simp

theorem exec_fold_nil {b : β} {f : β → α → P β} {t : List Ev} {r} : Exec (Prog.fold [] b f) t r ↔ t = [] ∧ r = .ok b := exec_pure

theorem exec_fold_cons {x : α} {xs : List α} {b : β} {f : β → α → P β} {t : List Ev} {r} : Exec (Prog.fold (x :: xs) b f) t r ↔
    (∃ t1 b' t2, t = t1 ++ t2 ∧ Exec (f b x) t1 (.ok b') ∧ Exec (Prog.fold xs b' f) t2 r) ∨
    (∃ e, Exec (f b x) t (.raised e) ∧ r = .raised e) ∨ (Exec (f b x) t .crashed ∧ r = .crashed) :=
  exec_bind_iff (p := f b x) (f := fun b' => Prog.fold xs b' f)

theorem exec_mapAll_nil {f : α → P β} {t : List Ev} {r} : Exec (Prog.mapAll [] f) t r ↔ t = [] ∧ r = .ok [] := exec_pure

theorem exec_mapAll_cons_ok {x : α} {xs : List α} {f : α → P β} {t : List Ev} {ys} : Exec (Prog.mapAll (x :: xs) f) t (.ok ys) ↔
    ∃ t1 y t2 ys', t = t1 ++ t2 ∧ ys = y :: ys' ∧ Exec (f x) t1 (.ok y) ∧ Exec (Prog.mapAll xs f) t2 (.ok ys') := by
  constructor
  · intro h
    obtain ⟨t1, y, t2, rfl, h1, h2⟩ := (exec_seq_ok (p := f x)).1 h
    obtain ⟨t3, ys', t4, rfl, h3, h4⟩ := (exec_seq_ok (p := Prog.mapAll xs f)).1 h2
    cases h4
    exact ⟨t1, y, t3, ys', by simp, rfl, h1, h3⟩
  · rintro ⟨t1, y, t2, ys', rfl, rfl, h1, h2⟩
    refine (exec_seq_ok (p := f x)).2 ⟨t1, y, t2, rfl, h1, (exec_seq_ok (p := Prog.mapAll xs f)).2 ⟨t2, ys', [], by simp, h2, .ret _⟩⟩

theorem exec_filterAll_nil {f : α → P Bool} {t : List Ev} {r} : Exec (Prog.filterAll [] f) t r ↔ t = [] ∧ r = .ok [] := exec_pure

theorem exec_filterAll_cons_ok {x : α} {xs : List α} {f : α → P Bool} {t : List Ev} {ys} : Exec (Prog.filterAll (x :: xs) f) t (.ok ys) ↔
    ∃ t1 b t2 ys', t = t1 ++ t2 ∧ ys = (if b then x :: ys' else ys') ∧ Exec (f x) t1 (.ok b) ∧ Exec (Prog.filterAll xs f) t2 (.ok ys') := by
  constructor
  · intro h
    obtain ⟨t1, y, t2, rfl, h1, h2⟩ := (exec_seq_ok (p := f x)).1 h
    obtain ⟨t3, ys', t4, rfl, h3, h4⟩ := (exec_seq_ok (p := Prog.filterAll xs f)).1 h2
    cases h4
    exact ⟨t1, y, t3, ys', by simp, rfl, h1, h3⟩
  · rintro ⟨t1, y, t2, ys', rfl, rfl, h1, h2⟩
    refine (exec_seq_ok (p := f x)).2 ⟨t1, y, t2, rfl, h1, (exec_seq_ok (p := Prog.filterAll xs f)).2 ⟨t2, ys', [], by simp, h2, .ret _⟩⟩

/-- What is true of every execution of `p` under the contract without assumptions. -/
theorem exec_of_rec {p : P α} {Q : α → List Ev → Prop} {X : Option Exn → List Ev → Prop} (h : wp (Rec fun _ => True) p (ends Q X) [])
    {t : List Ev} {a : α} (he : Exec p t (.ok a)) : Q a t := Rec.sound h he fun _ _ => trivial

theorem exec_getDeviceInformation' {M : Mgr} {jid : Jid} {t : List Ev} {x} (h : Exec (getDeviceInformation' M jid) t (.ok x)) :
    InfoOk M jid t x := (exec_of_rec (trace_getDeviceInformation' jid) h).2

theorem exec_getDeviceInformation {M : Mgr} {jid : Jid} {t : List Ev} {x} (h : Exec (getDeviceInformation M jid) t (.ok x)) :
    ∃ c, InfoOk M jid t (x, c) := by
  obtain ⟨t1, ⟨x', c⟩, t2, rfl, h1, h2⟩ := exec_seq_ok.1 h
  cases h2
  exact ⟨c, by simpa using exec_getDeviceInformation' h1⟩

end Verif
