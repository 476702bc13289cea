import Verif.Proofs.LibLemmas
import Verif.Proofs.Footprint
/-
Reasoning about the sequence of interactions of a program when answers are arbitrary, up to an assumption about single
interactions.  Arbitrary answers include everything concurrent calls can bring about.
-/
namespace Verif

/-- Arbitrary answers subject to `φ`; the state is the sequence of interactions so far. -/
def Rec (φ : Ev → Prop) : Sem LibSig Exn (List Ev) where
  ok _ e := φ e
  next h e := h ++ [e]

namespace Rec
variable {φ : Ev → Prop} {α β : Type} {h : List Ev}

theorem next_eq {e : Ev} : (Rec φ).next h e = h ++ [e] := rfl

theorem runs {t : List Ev} (ht : ∀ e ∈ t, φ e) : (Rec φ).Runs h t (h ++ t) := by
  induction t generalizing h with
  | nil => simp [Sem.Runs]
  | cons e t ih =>
    refine ⟨ht e (by simp), ?_⟩
    have := ih (h := h ++ [e]) fun x hx => ht x (by simp [hx])
    simpa [Rec] using this

theorem sound {p : P α} {Q : Res Exn α → List Ev → Prop} (hp : wp (Rec φ) p Q h) {t r} (he : Exec p t r) (ht : ∀ e ∈ t, φ e) :
    Q r (h ++ t) := wp_sound hp he (runs ht)

theorem call {o : Op} {Q : o.Ret → List Ev → Prop} {X : Option Exn → List Ev → Prop} (hx : X none h)
    (h1 : ∀ a, φ ⟨o, .ok a⟩ → Q a (h ++ [⟨o, .ok a⟩])) (h2 : ∀ e, φ ⟨o, .error e⟩ → X (some e) (h ++ [⟨o, .error e⟩])) :
    wp (Rec φ) (Verif.call o) (ends Q X) h :=
  wp_perform.2 ⟨hx, h1, h2⟩

/-- The interactions of a program satisfy what all its interactions satisfy. -/
theorem ops {p : P α} {ψ : Op → Prop} (hp : AllOps ψ p) :
    wp (Rec φ) p (fun _ h' => ∃ t, h' = h ++ t ∧ ∀ e ∈ t, ψ e.1) h := by
  induction p generalizing h with
  | ret | raise => exact ⟨[], by simp, by simp⟩
  | op o k ih =>
    refine ⟨⟨[], by simp, by simp⟩, fun r _ => wp_mono (ih r (hp.2 r)) ?_⟩
    rintro _ _ ⟨t, rfl, ht⟩
    refine ⟨⟨o, r⟩ :: t, by simp [Rec], ?_⟩
    intro e he
    rcases List.mem_cons.1 he with rfl | he
    · exact hp.1
    · exact ht e he

/-- The history only grows. -/
theorem grows {p : P α} : wp (Rec φ) p (fun _ h' => ∃ t, h' = h ++ t) h := by
  have : AllOps (fun _ => True) p := by
    induction p with
    | ret | raise => trivial
    | op o k ih => exact ⟨trivial, ih⟩
  exact wp_mono (ops this) fun _ _ ⟨t, h, _⟩ => ⟨t, h⟩

/-- A typed load. -/
theorem typed {k : Key} {f : JVal → Except Exn β} {Q : Option β → List Ev → Prop} {X : Option Exn → List Ev → Prop}
    (hx : ∀ x h', X x h')
    (h0 : φ ⟨.load k, .ok none⟩ → Q none (h ++ [⟨.load k, .ok none⟩]))
    (h1 : ∀ v b, f v = .ok b → φ ⟨.load k, .ok (some v)⟩ → Q (some b) (h ++ [⟨.load k, .ok (some v)⟩])) :
    wp (Rec φ) (Verif.call (.load k) >>= fun v => Maybe.fmap f v) (ends Q X) h := by
  rw [ends_bind]
  refine call (hx _ _) (fun a ha => ?_) fun e _ => hx _ _
  rw [wp_fmap]
  cases a with
  | none => exact h0 ha
  | some v =>
    simp only [fmapRes]
    cases hf : f v with
    | error e => exact hx _ _
    | ok b => exact h1 v b hf ha

/-- A typed load followed by `from_just`. -/
theorem typedJust {k : Key} {f : JVal → Except Exn β} {g : β → P α} {Q : α → List Ev → Prop} {X : Option Exn → List Ev → Prop}
    (hx : ∀ x h', X x h')
    (h1 : ∀ v b, f v = .ok b → φ ⟨.load k, .ok (some v)⟩ → wp (Rec φ) (g b) (ends Q X) (h ++ [⟨.load k, .ok (some v)⟩])) :
    wp (Rec φ) ((Verif.call (.load k) >>= fun v => Maybe.fmap f v) >>= fun o => Maybe.fromJust o >>= g) (ends Q X) h := by
  rw [ends_bind]
  refine typed hx (fun _ => ?_) fun v b hf hv => ?_
  · rw [ends_bind, wp_fromJust]
    exact ⟨nofun, fun _ => hx _ _⟩
  · rw [ends_bind, wp_fromJust]
    refine ⟨?_, nofun⟩
    rintro _ ⟨⟩
    exact h1 v b hf hv

end Rec

/-! ### Values that can be read have the form that is written -/

theorem bools_of_check {v : JVal} {a : Dict String Bool} (h : chkBools v = .ok a) : v = .ofBools a := by
  unfold chkBools checkDict at h
  split at h
  · rename_i l
    split at h
    · rename_i hl
      cases h
      simp only [JVal.ofBools, JVal.dict.injEq, List.map_map]
      induction l with
      | nil => rfl
      | cons x l ih =>
        simp only [List.all_cons, Bool.and_eq_true] at hl
        rw [List.map_cons, ← ih hl.2]
        obtain ⟨s, v⟩ := x
        cases v <;> first | rfl | (cases hl.1; done)
    · cases h
  · cases h

theorem strs_of_check {v : JVal} {a : List String} (h : chkStrs v = .ok a) : v = .ofStrs a := by
  unfold chkStrs checkList at h
  split at h
  · rename_i l
    split at h
    · rename_i hl
      cases h
      simp only [JVal.ofStrs, JVal.list.injEq, List.map_map]
      induction l with
      | nil => rfl
      | cons x l ih =>
        simp only [List.all_cons, Bool.and_eq_true] at hl
        rw [List.map_cons, ← ih hl.2]
        cases x <;> first | rfl | (cases hl.1; done)
    · cases h
  · cases h

theorem optStr_of_check {v : JVal} {a : Option String} (h : chkOptStr v = .ok a) : v = .ofOptStr a := by
  unfold chkOptStr checkOptional at h
  split at h
  · cases h; rfl
  · split at h
    · cases h
      rename_i hl
      cases v <;> first | rfl | (cases hl; done)
    · cases h

theorem str_of_check {v : JVal} {a : String} (h : chkStr v = .ok a) : v = .str a := by
  unfold chkStr checkPrimitive at h
  split at h
  · cases h
    rename_i hl
    cases v <;> first | rfl | (cases hl; done)
  · cases h

end Verif
