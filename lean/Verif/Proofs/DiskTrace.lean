import Verif.Model.Contracts
/-
What the storage answers in the course of an execution, for keys that are written in known ways.
-/
namespace Verif
variable {w w' : World} {t : List Ev} {k : Key}

/-- A key that is neither stored nor deleted: all loads answer what was there at the beginning, and it is still there at the end. -/
theorem Lib.load_const (hr : Lib.Runs w t w') (hs : ∀ e ∈ t, ∀ v, e.1 ≠ .store k v) (hd : ∀ e ∈ t, e.1 ≠ .delete k) :
    (∀ v, (⟨.load k, .ok v⟩ : Ev) ∈ t → v = w.disk k) ∧ w'.disk k = w.disk k := by
  induction t generalizing w with
  | nil => cases hr; exact ⟨by simp, rfl⟩
  | cons e t ih =>
    obtain ⟨h1, h2⟩ := hr
    have hsame : (Lib.next w e).disk k = w.disk k := by
      have a := hs e (by simp)
      have b := hd e (by simp)
      obtain ⟨o, x⟩ := e
      cases o <;> cases x <;> first
        | rfl
        | (refine Disk.upd_of_ne ?_; rintro rfl; exact a _ rfl)
        | (refine Disk.upd_of_ne ?_; rintro rfl; exact b rfl)
    obtain ⟨i1, i2⟩ := ih h2 (fun e he => hs e (by simp [he])) fun e he => hd e (by simp [he])
    refine ⟨fun v hv => ?_, i2.trans hsame⟩
    rcases List.mem_cons.1 hv with rfl | hv
    · exact h1
    · rw [i1 v hv, hsame]

/-- A key that is not deleted stays present: no load finds it missing. -/
theorem Lib.load_present (hr : Lib.Runs w t w') (hd : ∀ e ∈ t, e.1 ≠ .delete k) (hk : w.disk k ≠ none) :
    (⟨.load k, .ok none⟩ : Ev) ∉ t ∧ w'.disk k ≠ none := by
  induction t generalizing w with
  | nil => cases hr; exact ⟨by simp, hk⟩
  | cons e t ih =>
    obtain ⟨h1, h2⟩ := hr
    have hsome : (Lib.next w e).disk k ≠ none := by
      have b := hd e (by simp)
      obtain ⟨o, x⟩ := e
      cases o <;> cases x <;> first
        | exact hk
        | (simp only [Lib, Disk.upd]; split
           · first | (rename_i h; exact absurd (congrArg Op.delete h).symm b) | simp
           · exact hk)
    obtain ⟨i1, i2⟩ := ih h2 (fun e he => hd e (by simp [he])) hsome
    refine ⟨fun hv => ?_, i2⟩
    rcases List.mem_cons.1 hv with rfl | hv
    · exact hk h1.symm
    · exact i1 hv

/-- The storage does not raise the exceptions of the library. -/
theorem Lib.load_failure (hr : Lib.Runs w t w') {e : Exn} (hm : (⟨.load k, .error e⟩ : Ev) ∈ t) : e.isFailure = true := by
  induction t generalizing w with
  | nil => cases hm
  | cons x t ih =>
    obtain ⟨h1, h2⟩ := hr
    rcases List.mem_cons.1 hm with rfl | hm
    · exact h1
    · exact ih h2 hm

/-- Nothing raises the exceptions the library uses internally. -/
theorem Lib.no_internal (hr : Lib.Runs w t w') {e : Exn} (x : Ev) (hm : x ∈ t) (hx : x.2 = .error e) : e.isInternal = false := by
  induction t generalizing w with
  | nil => cases hm
  | cons y t ih =>
    obtain ⟨h1, h2⟩ := hr
    rcases List.mem_cons.1 hm with rfl | hm
    · obtain ⟨o, r⟩ := x
      change r = .error e at hx
      subst hx
      cases o <;> first
        | exact Exn.not_internal_of_failure h1
        | exact h1
        | (cases h1; done)
    · exact ih h2 hm

end Verif
