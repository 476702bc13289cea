import Verif.Base.Raises
import Verif.Proofs.Trace
/-
Exceptions of the storage helpers, and where the exceptions of a call come from.
-/
namespace Verif

/-- The exceptions for malformed or missing stored data satisfy `ρ`. -/
structure Core (ρ : Exn → Prop) : Prop where
  nothing : ρ .nothingException
  type : ρ .typeError
  value : ρ .valueError

/-- `KeyError`, too. -/
structure Basic (ρ : Exn → Prop) : Prop extends Core ρ where
  key : ρ .keyError

section
variable {α β : Type} {χ : Op → Exn → Prop} {ρ : Exn → Prop}

theorem raises_fmap {f : α → Except Exn β} {m : Option α} (h : ∀ a e, f a = .error e → ρ e) :
    Raises (S := LibSig) χ ρ (Maybe.fmap f m : P (Option β)) := by
  cases m with
  | none => trivial
  | some a =>
    simp only [Maybe.fmap]
    cases hf : f a with
    | ok b => trivial
    | error e => exact h a e hf

theorem raises_fromJust (hb : Core ρ) (m : Option α) : Raises (S := LibSig) χ ρ (Maybe.fromJust m : P α) := by
  cases m with
  | none => exact hb.nothing
  | some a => trivial

theorem raises_next (hr : ρ .runtimeError) (x : Option α) : Raises (S := LibSig) χ ρ (nextOrRuntimeError x) := by
  cases x with
  | none => exact hr
  | some a => trivial

theorem raises_liftE {x : Except Exn α} (h : ∀ e, x = .error e → ρ e) : Raises (S := LibSig) χ ρ (liftE x) := by
  cases x with
  | ok a => trivial
  | error e => exact h e rfl

theorem raises_onNothing {p h : P α} (hp : Raises (S := LibSig) χ ρ p) (hh : Raises (S := LibSig) χ ρ h) :
    Raises (S := LibSig) χ ρ (onNothing p h) := by
  unfold onNothing
  refine Raises.tryCatch hp fun e he => ?_
  split
  · exact hh
  · exact he

theorem check_map_error {x : Except Exn JVal} {f : JVal → β} {e : Exn} (h : x.map f = .error e) : x = .error e := by
  cases x with
  | ok a => cases h
  | error e' => cases h; rfl

theorem checkPrimitive_error {ty v e} (h : checkPrimitive ty v = .error e) : e = .typeError := by
  unfold checkPrimitive at h
  split at h <;> cases h
  rfl

theorem checkOptional_error {ty v e} (h : checkOptional ty v = .error e) : e = .typeError := by
  unfold checkOptional at h
  split at h
  · cases h
  · split at h <;> cases h
    rfl

theorem checkList_error {ty v e} (h : checkList ty v = .error e) : e = .typeError := by
  unfold checkList at h
  split at h
  · split at h <;> cases h
    rfl
  · cases h; rfl

theorem checkDict_error {ty v e} (h : checkDict ty v = .error e) : e = .typeError := by
  unfold checkDict at h
  split at h
  · split at h <;> cases h
    rfl
  · cases h; rfl

theorem checkBytes_error {v e} (h : checkBytes v = .error e) : e = .typeError ∨ e = .valueError := by
  unfold checkBytes at h
  split at h
  · split at h <;> cases h
    exact .inr rfl
  · cases h; exact .inl rfl

theorem map_error {x : Except Exn α} {f : α → β} {e : Exn} (h : x.map f = .error e) : x = .error e := by
  cases x with
  | ok a => cases h
  | error e' => cases h; rfl

variable (hb : Core ρ) {k : Key} (h : ∀ e, χ (.load k) e → ρ e)
include hb h
theorem raises_loadInt : Raises (S := LibSig) χ ρ (Sto.loadInt k) :=
  .bind (.perform h) fun _ => raises_fmap fun _ _ he => by rw [checkPrimitive_error (map_error he)]; exact hb.type
theorem raises_loadStr : Raises (S := LibSig) χ ρ (Sto.loadStr k) :=
  .bind (.perform h) fun _ => raises_fmap fun _ _ he => by rw [checkPrimitive_error (map_error he)]; exact hb.type
theorem raises_loadBool : Raises (S := LibSig) χ ρ (Sto.loadBool k) :=
  .bind (.perform h) fun _ => raises_fmap fun _ _ he => by rw [checkPrimitive_error (map_error he)]; exact hb.type
theorem raises_loadBytes : Raises (S := LibSig) χ ρ (Sto.loadBytes k) :=
  .bind (.perform h) fun _ => raises_fmap fun _ _ he => by
    rcases checkBytes_error he with rfl | rfl
    · exact hb.type
    · exact hb.value
theorem raises_loadOptStr : Raises (S := LibSig) χ ρ (Sto.loadOptStr k) :=
  .bind (.perform h) fun _ => raises_fmap fun _ _ he => by rw [checkOptional_error (map_error he)]; exact hb.type
theorem raises_loadInts : Raises (S := LibSig) χ ρ (Sto.loadInts k) :=
  .bind (.perform h) fun _ => raises_fmap fun _ _ he => by rw [checkList_error (map_error he)]; exact hb.type
theorem raises_loadStrs : Raises (S := LibSig) χ ρ (Sto.loadStrs k) :=
  .bind (.perform h) fun _ => raises_fmap fun _ _ he => by rw [checkList_error (map_error he)]; exact hb.type
theorem raises_loadBools : Raises (S := LibSig) χ ρ (Sto.loadBools k) :=
  .bind (.perform h) fun _ => raises_fmap fun _ _ he => by rw [checkDict_error (map_error he)]; exact hb.type
end

/-- Decompose a goal `Raises χ ρ p`, given `hb : Core ρ` and lemmas for called functions. -/
macro "lib_raises" hb:term "," "[" ts:term,* "]" : tactic => `(tactic| repeat' (first
  | assumption
  $[| with_reducible exact $ts ..]*
  | exact Raises.ret _ | exact Raises.pure _
  | exact raises_fromJust $hb _
  | with_reducible apply raises_onNothing
  | with_reducible apply raises_loadInt $hb | with_reducible apply raises_loadStr $hb | with_reducible apply raises_loadBool $hb
  | with_reducible apply raises_loadBytes $hb | with_reducible apply raises_loadOptStr $hb
  | with_reducible apply raises_loadInts $hb | with_reducible apply raises_loadStrs $hb | with_reducible apply raises_loadBools $hb
  | with_reducible apply raises_liftE
  | with_reducible apply Raises.bind | with_reducible apply Raises.bind'
  | with_reducible apply Raises.when | with_reducible apply Raises.forEach | with_reducible apply Raises.fold
  | with_reducible apply Raises.mapAll | with_reducible apply Raises.filterAll
  | with_reducible apply Raises.perform
  | intro _
  | dsimp only
  | split))

/-- Some interaction of `t` raised `y`. -/
def ErrIn (t : List Ev) (y : Exn) : Prop := ∃ e ∈ t, e.2 = .error y

/-- The interactions of an execution. -/
theorem Rec.exec {φ : Ev → Prop} {α : Type} {p : P α} {h : List Ev} :
    wp (Rec φ) p (fun r h' => ∃ t, h' = h ++ t ∧ Exec p t r ∧ ∀ e ∈ t, φ e) h := by
  rw [wp_iff]
  intro t r h' he hr
  have : ∀ (t : List Ev) h, (Rec φ).Runs h t h' → h' = h ++ t ∧ ∀ e ∈ t, φ e := by
    intro t
    induction t with
    | nil => rintro h rfl; exact ⟨by simp, by simp⟩
    | cons e t ih =>
      rintro h ⟨h1, h2⟩
      obtain ⟨h3, h4⟩ := ih _ h2
      refine ⟨by rw [h3]; simp [Rec], ?_⟩
      intro x hx
      rcases List.mem_cons.1 hx with rfl | hx
      · exact h1
      · exact h4 x hx
  obtain ⟨h1, h2⟩ := this t h hr
  exact ⟨t, h1, he, h2⟩

/-- An exception that the program does not raise by itself was raised by an interaction. -/
theorem Rec.cause {φ : Ev → Prop} {α : Type} {p : P α} {h : List Ev} {σ : Exn → Prop}
    (hp : ∀ y, σ y → Raises (S := LibSig) (fun _ e => e ≠ y) (· ≠ y) p) :
    wp (Rec φ) p (fun r h' => ∃ t, h' = h ++ t ∧ ∀ y, σ y → r = .raised y → ErrIn t y) h := by
  refine wp_mono Rec.exec ?_
  rintro r _ ⟨t, rfl, he, _⟩
  refine ⟨t, rfl, ?_⟩
  rintro y hy rfl
  apply Classical.byContradiction
  intro hno
  exact (hp y hy).exec he (fun x hx z hz hzy => hno ⟨x, hx, by rw [hz, hzy]⟩) rfl

end Verif
