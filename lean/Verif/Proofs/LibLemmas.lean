import Verif.Proofs.KVLemmas
/-
Rules for reasoning about programs under the contract `Lib`, one per kind of interaction.
-/
namespace Verif

/-- A postcondition in two parts: `Q` for a value, `X` for leaving early; `X none` is death of the process. -/
def ends {E W α : Type} (Q : α → W → Prop) (X : Option E → W → Prop) : Res E α → W → Prop
  | .ok a, w => Q a w
  | .raised e, w => X (some e) w
  | .crashed, w => X none w

section ends
variable {S : Sig} {E W α β : Type} {N : Sem S E W} {Q : α → W → Prop} {X : Option E → W → Prop} {w : W}

@[simp] theorem ends_ok {a : α} : ends Q X (.ok a) w = Q a w := rfl
@[simp] theorem ends_raised {e : E} : ends Q X (.raised e) w = X (some e) w := rfl
@[simp] theorem ends_crashed : ends Q X .crashed w = X none w := rfl

theorem andThen_ends {f : β → W → Prop} : andThen (ends Q X) f = ends f X := by
  funext r w; cases r <;> rfl

theorem ends_bind {p : Prog S E β} {f : β → Prog S E α} :
    wp N (p >>= f) (ends Q X) w ↔ wp N p (ends (fun b w' => wp N (f b) (ends Q X) w') X) w := by
  rw [wp_bind, andThen_ends]

theorem ends_when {c : Prop} [Decidable c] {p : Prog S E Unit} {Q : Unit → W → Prop} (h1 : c → wp N p (ends Q X) w)
    (h2 : ¬ c → Q () w) : wp N (Prog.when c p) (ends Q X) w := by
  unfold Prog.when
  split
  · exact h1 ‹_›
  · exact h2 ‹_›

theorem ends_mono {p : Prog S E α} {Q' : α → W → Prop} {X' : Option E → W → Prop} (h : wp N p (ends Q X) w)
    (hq : ∀ a w', Q a w' → Q' a w') (hx : ∀ x w', X x w' → X' x w') : wp N p (ends Q' X') w := by
  refine wp_mono h fun r w' hr => ?_
  cases r with
  | ok a => exact hq _ _ hr
  | raised e => exact hx _ _ hr
  | crashed => exact hx _ _ hr

theorem ends_and {p : Prog S E α} {Q' : α → W → Prop} {X' : Option E → W → Prop} (h : wp N p (ends Q X) w)
    (h' : wp N p (ends Q' X') w) : wp N p (ends (fun a w' => Q a w' ∧ Q' a w') (fun x w' => X x w' ∧ X' x w')) w := by
  refine wp_mono (wp_and h h') fun r w' hr => ?_
  cases r <;> exact hr

theorem ends_forEach {xs : List β} {f : β → Prog S E Unit} {Q : Unit → W → Prop} (I : List β → List β → W → Prop)
    (h0 : I [] xs w)
    (hstep : ∀ done x rest w, xs = done ++ x :: rest → I done (x :: rest) w →
      wp N (f x) (ends (fun _ w' => I (done ++ [x]) rest w') X) w)
    (hend : ∀ w, I xs [] w → Q () w) :
    wp N (Prog.forEach xs f) (ends Q X) w :=
  wp_forEach I h0 (fun done x rest w hx hi => by rw [andThen_ends]; exact hstep done x rest w hx hi) hend

theorem ends_fold {γ : Type} {xs : List β} {b : γ} {f : γ → β → Prog S E γ} {Q : γ → W → Prop}
    (I : List β → List β → γ → W → Prop) (h0 : I [] xs b w)
    (hstep : ∀ done x rest b w, xs = done ++ x :: rest → I done (x :: rest) b w →
      wp N (f b x) (ends (fun b' w' => I (done ++ [x]) rest b' w') X) w)
    (hend : ∀ b w, I xs [] b w → Q b w) :
    wp N (Prog.fold xs b f) (ends Q X) w :=
  wp_fold I h0 (fun done x rest b w hx hi => by rw [andThen_ends]; exact hstep done x rest b w hx hi) hend

end ends

/-- Leaving early because of the storage: the process died or the storage raised. -/
def Fail : Option Exn → Prop
  | none => True
  | some e => e.isFailure = true

/-- Leaving early with anything but an internal exception. -/
def Clean : Option Exn → Prop
  | none => True
  | some e => e.isInternal = false

theorem Fail.clean {x : Option Exn} (h : Fail x) : Clean x := by
  cases x with
  | none => trivial
  | some e => exact Exn.not_internal_of_failure h

/-- Typed reading of a place: `NothingException` if it is empty. -/
def rd {β : Type} (f : JVal → Except Exn β) : Option JVal → Except Exn β
  | none => .error .nothingException
  | some v => f v

def chkInts (v : JVal) : Except Exn (List Int) := (checkList .int v).map (List.map JVal.asInt)
def chkStrs (v : JVal) : Except Exn (List String) := (checkList .str v).map (List.map JVal.asStr)
def chkBools (v : JVal) : Except Exn (Dict String Bool) := (checkDict .bool v).map (List.map fun x => (x.1, x.2.asBool))
def chkOptStr (v : JVal) : Except Exn (Option String) := (checkOptional .str v).map JVal.asOptStr
def chkStr (v : JVal) : Except Exn String := (checkPrimitive .str v).map JVal.asStr
def chkInt (v : JVal) : Except Exn Int := (checkPrimitive .int v).map JVal.asInt

@[simp] theorem chkInts_of (l : List Int) : chkInts (.ofInts l) = .ok l := read_ofInts l
@[simp] theorem chkStrs_of (l : List String) : chkStrs (.ofStrs l) = .ok l := read_ofStrs l
@[simp] theorem chkBools_of (l : Dict String Bool) : chkBools (.ofBools l) = .ok l := read_ofBools l
@[simp] theorem chkOptStr_of (l : Option String) : chkOptStr (.ofOptStr l) = .ok l := read_ofOptStr l
@[simp] theorem chkStr_of (s : String) : chkStr (.str s) = .ok s := rfl
@[simp] theorem chkInt_of (s : Int) : chkInt (.int s) = .ok s := rfl

namespace Lib
variable {α β : Type} {Q : α → World → Prop} {X : Option Exn → World → Prop} {w : World} {k : Key}

theorem load {Q : Option JVal → World → Prop} (hx : ∀ x, Fail x → X x w) (h : Q (w.disk k) w) :
    wp Lib (call (.load k)) (ends Q X) w := by
  refine wp_perform.2 ⟨hx none trivial, fun a ha => ?_, fun e he => hx (some e) he⟩
  cases (show a = w.disk k from ha); exact h

theorem store {Q : Unit → World → Prop} {v : JVal} (hx : ∀ x, Fail x → X x w) (h : Q () { w with disk := w.disk.upd k (some v) }) :
    wp Lib (call (.store k v)) (ends Q X) w :=
  wp_perform.2 ⟨hx none trivial, fun _ _ => h, fun e he => hx (some e) he⟩

theorem storeBytes {Q : Unit → World → Prop} {b : Bytes} (hx : ∀ x, Fail x → X x w)
    (h : Q () { w with disk := w.disk.upd k (some (.str (Base64.encode b))) }) :
    wp Lib (Sto.storeBytes k b) (ends Q X) w := store hx h

theorem delete {Q : Unit → World → Prop} (hx : ∀ x, Fail x → X x w) (h : Q () { w with disk := w.disk.upd k none }) :
    wp Lib (call (.delete k)) (ends Q X) w :=
  wp_perform.2 ⟨hx none trivial, fun _ _ => h, fun e he => hx (some e) he⟩

theorem getBackends {Q : List Ns → World → Prop} (hx : X none w) (h : Q w.backends w) :
    wp Lib (call .getBackends) (ends Q X) w := by
  refine wp_perform.2 ⟨hx, fun a ha => ?_, fun e he => ?_⟩
  · cases (show Except.ok a = Except.ok w.backends from ha); exact h
  · cases (show Except.error e = Except.ok w.backends from he)

theorem getSync {Q : Bool → World → Prop} (hx : X none w) (h : Q w.sync w) :
    wp Lib (call .getSync) (ends Q X) w := by
  refine wp_perform.2 ⟨hx, fun a ha => ?_, fun e he => ?_⟩
  · cases (show Except.ok a = Except.ok w.sync from ha); exact h
  · cases (show Except.error e = Except.ok w.sync from he)

theorem setBackends {Q : Unit → World → Prop} {bs : List Ns} (hx : X none w) (h : Q () { w with backends := bs }) :
    wp Lib (call (.setBackends bs)) (ends Q X) w :=
  wp_perform.2 ⟨hx, fun _ _ => h, fun _ he => False.elim he⟩

theorem setSync {Q : Unit → World → Prop} {b : Bool} (hx : X none w) (h : Q () { w with sync := b }) :
    wp Lib (call (.setSync b)) (ends Q X) w :=
  wp_perform.2 ⟨hx, fun _ _ => h, fun _ he => False.elim he⟩

theorem ext {o : Op} {Q : o.Ret → World → Prop} (ho : o.isExternal = true) (hx : X none w)
    (he : ∀ e, e.isInternal = false → X (some e) (w.push ⟨o, .error e⟩)) (h : ∀ a, Q a (w.push ⟨o, .ok a⟩)) :
    wp Lib (call o) (ends Q X) w := by
  refine wp_perform.2 ⟨hx, fun a _ => ?_, fun e h1 => ?_⟩
  · rw [next_ext ho]; exact h a
  · rw [next_ext ho]; exact he e ((ok_ext ho).1 h1 e rfl)

/-- A typed load followed by `from_just`. -/
theorem typedJust {f : JVal → Except Exn β} {g : β → P α} (hx : ∀ x, Fail x → X x w)
    (he : ∀ e, rd f (w.disk k) = .error e → X (some e) w)
    (h : ∀ b, rd f (w.disk k) = .ok b → wp Lib (g b) (ends Q X) w) :
    wp Lib ((call (.load k) >>= fun v => Maybe.fmap f v) >>= fun o => Maybe.fromJust o >>= g) (ends Q X) w := by
  rw [ends_bind, ends_bind]
  refine load hx ?_
  rw [wp_fmap]
  cases hv : w.disk k with
  | none =>
    simp only [fmapRes, ends_ok]
    rw [ends_bind, wp_fromJust]
    exact ⟨nofun, fun _ => he _ (by rw [hv]; rfl)⟩
  | some v =>
    simp only [fmapRes]
    cases hf : f v with
    | error e => exact he e (by rw [hv]; exact hf)
    | ok b =>
      simp only [ends_ok]
      rw [ends_bind, wp_fromJust]
      refine ⟨?_, nofun⟩
      rintro _ ⟨⟩
      exact h b (by rw [hv]; exact hf)

/-- A typed load. -/
theorem typed {f : JVal → Except Exn β} {Q : Option β → World → Prop} (hx : ∀ x, Fail x → X x w)
    (he : ∀ v e, w.disk k = some v → f v = .error e → X (some e) w)
    (h0 : w.disk k = none → Q none w)
    (h : ∀ v b, w.disk k = some v → f v = .ok b → Q (some b) w) :
    wp Lib (call (.load k) >>= fun v => Maybe.fmap f v) (ends Q X) w := by
  rw [ends_bind]
  refine load hx ?_
  rw [wp_fmap]
  cases hv : w.disk k with
  | none => exact h0 hv
  | some v =>
    simp only [fmapRes]
    cases hf : f v with
    | error e => exact he v e hv hf
    | ok b => exact h v b hv hf

end Lib

end Verif
