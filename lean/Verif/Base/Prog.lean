/-
Program trees: the formal stand-in for an asynchronous Python function.

A Python coroutine is modelled as a tree that returns, raises, or performs one interaction with the outside
world and continues with the answer (a value or an exception).  Nothing in this file depends on python-omemo.
-/
namespace Verif

/-- A signature: the interactions a program can perform and the type of the answer of each. -/
structure Sig where
  Op : Type
  Ret : Op → Type

/-- A program over signature `S`, with exceptions of type `E` and result type `α`. -/
inductive Prog (S : Sig) (E α : Type) : Type where
  | ret (a : α)
  | raise (e : E)
  | op (o : S.Op) (k : Except E (S.Ret o) → Prog S E α)

/-- One interaction with its answer. -/
abbrev Event (S : Sig) (E : Type) := (o : S.Op) × Except E (S.Ret o)

/-- How an execution ends.  `crashed`: the process died before some interaction. -/
inductive Res (E α : Type) where
  | ok (a : α)
  | raised (e : E)
  | crashed

namespace Prog

variable {S : Sig} {E α β γ : Type}

/-- Sequencing: `x = await p; ...`. An exception of `p` propagates. -/
def bind : Prog S E α → (α → Prog S E β) → Prog S E β
  | ret a, f => f a
  | raise e, _ => raise e
  | op o k, f => op o (fun r => bind (k r) f)

instance : Monad (Prog S E) where
  pure := ret
  bind := bind

/-- Perform one interaction; if the answer is an exception, it propagates. -/
def perform (o : S.Op) : Prog S E (S.Ret o) :=
  op o fun
    | .ok a => ret a
    | .error e => raise e

/-- `try: p except: h`. The handler sees every exception and may re-raise. -/
def tryCatch : Prog S E α → (E → Prog S E α) → Prog S E α
  | ret a, _ => ret a
  | raise e, h => h e
  | op o k, h => op o (fun r => tryCatch (k r) h)

/-- `try: x = p except e: h(e) else: f(x)`: exceptions of `f` are not handled. -/
def tryElse : Prog S E α → (E → Prog S E β) → (α → Prog S E β) → Prog S E β
  | ret a, _, f => f a
  | raise e, h, _ => h e
  | op o k, h, f => op o (fun r => tryElse (k r) h f)

/-- `if c: p`. -/
def when (c : Prop) [Decidable c] (p : Prog S E Unit) : Prog S E Unit := if c then p else ret ()

/-- `for x in xs: body(x)`. -/
def forEach : List α → (α → Prog S E Unit) → Prog S E Unit
  | [], _ => ret ()
  | x :: xs, f => bind (f x) (fun _ => forEach xs f)

/-- `for x in xs: s = body(s, x)`: a loop that updates local variables `s`. -/
def fold : List α → β → (β → α → Prog S E β) → Prog S E β
  | [], b, _ => ret b
  | x :: xs, b, f => bind (f b x) (fun b' => fold xs b' f)

/-- `[ await f(x) for x in xs ]`. -/
def mapAll (xs : List α) (f : α → Prog S E β) : Prog S E (List β) :=
  match xs with
  | [] => ret []
  | x :: xs => bind (f x) fun b => bind (mapAll xs f) fun bs => ret (b :: bs)

/-- `[ x for x in xs if await f(x) ]`. -/
def filterAll (xs : List α) (f : α → Prog S E Bool) : Prog S E (List α) :=
  match xs with
  | [] => ret []
  | x :: xs => bind (f x) fun b => bind (filterAll xs f) fun ys => ret (if b then x :: ys else ys)

end Prog

/-- `Exec p t r`: when the interactions of `p` are answered as recorded in `t`, `p` ends with `r`.
The answers are arbitrary; the process may die before any interaction. -/
inductive Exec {S : Sig} {E α : Type} : Prog S E α → List (Event S E) → Res E α → Prop where
  | ret (a : α) : Exec (.ret a) [] (.ok a)
  | raise (e : E) : Exec (.raise e) [] (.raised e)
  | crash (o : S.Op) (k : Except E (S.Ret o) → Prog S E α) : Exec (.op o k) [] .crashed
  | op {o : S.Op} {k : Except E (S.Ret o) → Prog S E α} (r : Except E (S.Ret o))
      {t : List (Event S E)} {res : Res E α} :
      Exec (k r) t res → Exec (.op o k) (⟨o, r⟩ :: t) res

/-- An environment contract: which answers are possible in state `w`, and how the state evolves. -/
structure Sem (S : Sig) (E W : Type) where
  ok : W → Event S E → Prop
  next : W → Event S E → W

namespace Sem
variable {S : Sig} {E W V : Type}

/-- The trace `t` is possible from `w` under the contract and leads to `w'`. -/
def Runs (M : Sem S E W) : W → List (Event S E) → W → Prop
  | w, [], w' => w' = w
  | w, e :: t, w' => M.ok w e ∧ Runs M (M.next w e) t w'

/-- No assumption at all; the state is the sequence of interactions so far. -/
def hist (S : Sig) (E : Type) : Sem S E (List (Event S E)) where
  ok _ _ := True
  next h e := h ++ [e]

/-- Two contracts at once. -/
def prod (M : Sem S E W) (N : Sem S E V) : Sem S E (W × V) where
  ok w e := M.ok w.1 e ∧ N.ok w.2 e
  next w e := (M.next w.1 e, N.next w.2 e)

theorem runs_nil {M : Sem S E W} {w w' : W} : M.Runs w [] w' ↔ w' = w := Iff.rfl

theorem runs_cons {M : Sem S E W} {w w' : W} {e t} :
    M.Runs w (e :: t) w' ↔ M.ok w e ∧ M.Runs (M.next w e) t w' := Iff.rfl

theorem runs_append {M : Sem S E W} {w w' : W} {t u} :
    M.Runs w (t ++ u) w' ↔ ∃ w1, M.Runs w t w1 ∧ M.Runs w1 u w' := by
  induction t generalizing w with
  | nil => simp [Runs]
  | cons e t ih => simp [Runs, ih, and_assoc]

theorem runs_hist {h h' : List (Event S E)} {t} : (hist S E).Runs h t h' ↔ h' = h ++ t := by
  induction t generalizing h with
  | nil => simp [Runs]
  | cons e t ih => simp only [runs_cons, ih]; simp [hist]

theorem runs_prod {M : Sem S E W} {N : Sem S E V} {w w' : W × V} {t} :
    (M.prod N).Runs w t w' ↔ M.Runs w.1 t w'.1 ∧ N.Runs w.2 t w'.2 := by
  induction t generalizing w with
  | nil => simp [Runs, Prod.ext_iff]
  | cons e t ih => simp only [runs_cons, ih]; simp only [prod]; grind

/-- Final states are determined by the trace. -/
theorem runs_det {M : Sem S E W} {w a b : W} {t} (h1 : M.Runs w t a) (h2 : M.Runs w t b) : a = b := by
  induction t generalizing w with
  | nil => simp_all [Runs]
  | cons e t ih => exact ih h1.2 h2.2

end Sem

/-- Weakest precondition: `Q` holds of result and final state of every execution of `p` from `w`,
including executions cut short by a crash. -/
def wp {S : Sig} {E W α : Type} (M : Sem S E W) : Prog S E α → (Res E α → W → Prop) → W → Prop
  | .ret a, Q, w => Q (.ok a) w
  | .raise e, Q, w => Q (.raised e) w
  | .op o k, Q, w => Q .crashed w ∧ ∀ r, M.ok w ⟨o, r⟩ → wp M (k r) Q (M.next w ⟨o, r⟩)

section WP
variable {S : Sig} {E W α β : Type} {M : Sem S E W}

/-- Soundness and completeness of `wp` with respect to executions. -/
theorem wp_iff {p : Prog S E α} {Q : Res E α → W → Prop} {w : W} :
    wp M p Q w ↔ ∀ t r w', Exec p t r → M.Runs w t w' → Q r w' := by
  induction p generalizing w with
  | ret a =>
    constructor
    · intro h t r w' he hr; cases he; cases hr; exact h
    · intro h; exact h [] _ w (.ret a) rfl
  | raise e =>
    constructor
    · intro h t r w' he hr; cases he; cases hr; exact h
    · intro h; exact h [] _ w (.raise e) rfl
  | op o k ih =>
    constructor
    · intro h t r w' he hr
      cases he with
      | crash => cases hr; exact h.1
      | op r he => exact (ih r).1 (h.2 r hr.1) _ _ _ he hr.2
    · intro h
      refine ⟨h [] _ w (.crash o k) rfl, fun r hr => (ih r).2 fun t res w' he hrun => ?_⟩
      exact h _ res w' (.op r he) ⟨hr, hrun⟩

theorem wp_sound {p : Prog S E α} {Q : Res E α → W → Prop} {w w' : W} {t r}
    (h : wp M p Q w) (he : Exec p t r) (hr : M.Runs w t w') : Q r w' := wp_iff.1 h t r w' he hr

theorem wp_mono {p : Prog S E α} {Q Q' : Res E α → W → Prop} {w : W}
    (h : wp M p Q w) (hq : ∀ r w', Q r w' → Q' r w') : wp M p Q' w := by
  induction p generalizing w with
  | ret a => exact hq _ _ h
  | raise e => exact hq _ _ h
  | op o k ih => exact ⟨hq _ _ h.1, fun r hr => ih r (h.2 r hr)⟩

theorem wp_and {p : Prog S E α} {Q Q' : Res E α → W → Prop} {w : W}
    (h : wp M p Q w) (h' : wp M p Q' w) : wp M p (fun r w' => Q r w' ∧ Q' r w') w := by
  rw [wp_iff] at *
  exact fun t r w' he hr => ⟨h t r w' he hr, h' t r w' he hr⟩

/-- Continue after a prefix: `f` after a value, otherwise the result is passed on. -/
def andThen (Q : Res E β → W → Prop) (f : α → W → Prop) : Res E α → W → Prop
  | .ok a, w => f a w
  | .raised e, w => Q (.raised e) w
  | .crashed, w => Q .crashed w

@[simp] theorem andThen_ok {Q : Res E β → W → Prop} {f : α → W → Prop} {a w} :
    andThen Q f (.ok a) w = f a w := rfl
@[simp] theorem andThen_raised {Q : Res E β → W → Prop} {f : α → W → Prop} {e w} :
    andThen Q f (.raised e) w = Q (.raised e) w := rfl
@[simp] theorem andThen_crashed {Q : Res E β → W → Prop} {f : α → W → Prop} {w} :
    andThen Q f .crashed w = Q .crashed w := rfl

theorem wp_bind' {p : Prog S E α} {f : α → Prog S E β} {Q : Res E β → W → Prop} {w : W} :
    wp M (Prog.bind p f) Q w ↔ wp M p (andThen Q fun a w' => wp M (f a) Q w') w := by
  induction p generalizing w with
  | ret a => simp [Prog.bind, wp]
  | raise e => simp [Prog.bind, wp]
  | op o k ih => simp [Prog.bind, wp, ih]

@[simp] theorem wp_bind {p : Prog S E α} {f : α → Prog S E β} {Q : Res E β → W → Prop} {w : W} :
    wp M (p >>= f) Q w ↔ wp M p (andThen Q fun a w' => wp M (f a) Q w') w := wp_bind'

@[simp] theorem wp_bind_def {p : Prog S E α} {f : α → Prog S E β} {Q : Res E β → W → Prop} {w : W} :
    wp M (p.bind f) Q w ↔ wp M p (andThen Q fun a w' => wp M (f a) Q w') w := wp_bind'

@[simp] theorem wp_pure {a : α} {Q : Res E α → W → Prop} {w : W} :
    wp M (pure a : Prog S E α) Q w ↔ Q (.ok a) w := Iff.rfl

@[simp] theorem wp_ret {a : α} {Q : Res E α → W → Prop} {w : W} :
    wp M (.ret a : Prog S E α) Q w ↔ Q (.ok a) w := Iff.rfl

@[simp] theorem wp_raise {e : E} {Q : Res E α → W → Prop} {w : W} :
    wp M (.raise e : Prog S E α) Q w ↔ Q (.raised e) w := Iff.rfl

@[simp] theorem wp_perform {o : S.Op} {Q : Res E (S.Ret o) → W → Prop} {w : W} :
    wp M (.perform o) Q w ↔ Q .crashed w ∧
      (∀ a, M.ok w ⟨o, .ok a⟩ → Q (.ok a) (M.next w ⟨o, .ok a⟩)) ∧
      (∀ e, M.ok w ⟨o, .error e⟩ → Q (.raised e) (M.next w ⟨o, .error e⟩)) := by
  constructor
  · intro h; exact ⟨h.1, fun a ha => h.2 _ ha, fun e he => h.2 _ he⟩
  · intro h; refine ⟨h.1, fun r hr => ?_⟩
    cases r with
    | ok a => exact h.2.1 a hr
    | error e => exact h.2.2 e hr

theorem wp_op {o : S.Op} {k : Except E (S.Ret o) → Prog S E α} {Q : Res E α → W → Prop} {w : W} :
    wp M (.op o k) Q w ↔ Q .crashed w ∧ ∀ r, M.ok w ⟨o, r⟩ → wp M (k r) Q (M.next w ⟨o, r⟩) := Iff.rfl

theorem forall_except {ε α : Type} {p : Except ε α → Prop} :
    (∀ r, p r) ↔ (∀ a, p (.ok a)) ∧ ∀ e, p (.error e) :=
  ⟨fun h => ⟨fun a => h _, fun e => h _⟩, fun h r => by cases r with | ok a => exact h.1 a | error e => exact h.2 e⟩

@[simp] theorem wp_ite {c : Prop} [Decidable c] {p q : Prog S E α} {Q : Res E α → W → Prop} {w : W} :
    wp M (if c then p else q) Q w ↔ (c → wp M p Q w) ∧ (¬ c → wp M q Q w) := by
  split <;> simp [*]

@[simp] theorem wp_when {c : Prop} [Decidable c] {p : Prog S E Unit} {Q : Res E Unit → W → Prop} {w : W} :
    wp M (Prog.when c p) Q w ↔ (c → wp M p Q w) ∧ (¬ c → Q (.ok ()) w) := by
  unfold Prog.when; split <;> simp [*]

/-- What a handler makes of a result. -/
def handled (Q : Res E α → W → Prop) (h : E → W → Prop) : Res E α → W → Prop
  | .raised e, w => h e w
  | r, w => Q r w

@[simp] theorem handled_ok {Q : Res E α → W → Prop} {h : E → W → Prop} {a w} :
    handled Q h (.ok a) w = Q (.ok a) w := rfl
@[simp] theorem handled_raised {Q : Res E α → W → Prop} {h : E → W → Prop} {e w} :
    handled Q h (.raised e) w = h e w := rfl
@[simp] theorem handled_crashed {Q : Res E α → W → Prop} {h : E → W → Prop} {w} :
    handled Q h .crashed w = Q .crashed w := rfl

@[simp] theorem wp_tryCatch {p : Prog S E α} {h : E → Prog S E α} {Q : Res E α → W → Prop} {w : W} :
    wp M (p.tryCatch h) Q w ↔ wp M p (handled Q fun e w' => wp M (h e) Q w') w := by
  induction p generalizing w with
  | ret a => simp [Prog.tryCatch]
  | raise e => simp [Prog.tryCatch]
  | op o k ih => simp [Prog.tryCatch, wp, ih]

/-- Postcondition split of `tryElse`. -/
def split3 (Q : Res E β → W → Prop) (h : E → W → Prop) (f : α → W → Prop) : Res E α → W → Prop
  | .ok a, w => f a w
  | .raised e, w => h e w
  | .crashed, w => Q .crashed w

@[simp] theorem split3_ok {Q : Res E β → W → Prop} {h : E → W → Prop} {f : α → W → Prop} {a w} :
    split3 Q h f (.ok a) w = f a w := rfl
@[simp] theorem split3_raised {Q : Res E β → W → Prop} {h : E → W → Prop} {f : α → W → Prop} {e w} :
    split3 Q h f (.raised e) w = h e w := rfl
@[simp] theorem split3_crashed {Q : Res E β → W → Prop} {h : E → W → Prop} {f : α → W → Prop} {w} :
    split3 Q h f .crashed w = Q .crashed w := rfl

@[simp] theorem wp_tryElse {p : Prog S E α} {h : E → Prog S E β} {f : α → Prog S E β}
    {Q : Res E β → W → Prop} {w : W} :
    wp M (p.tryElse h f) Q w ↔
      wp M p (split3 Q (fun e w' => wp M (h e) Q w') (fun a w' => wp M (f a) Q w')) w := by
  induction p generalizing w with
  | ret a => simp [Prog.tryElse]
  | raise e => simp [Prog.tryElse]
  | op o k ih => simp [Prog.tryElse, wp, ih]

/-- Compute weakest preconditions. -/
macro "wpsimp" : tactic => `(tactic| simp only [Prog.perform, wp_op, forall_except, wp_bind, wp_bind_def, wp_pure, wp_ret,
  wp_raise, wp_tryCatch, wp_tryElse, andThen_ok, andThen_raised, andThen_crashed, handled_ok, handled_raised,
  handled_crashed, split3_ok, split3_raised, split3_crashed])

/-- Loop rule: `I done rest` holds before each round; leaving by exception or crash must give `Q`. -/
theorem wp_forEach {xs : List α} {f : α → Prog S E Unit} {Q : Res E Unit → W → Prop} {w : W}
    (I : List α → List α → W → Prop)
    (h0 : I [] xs w)
    (hstep : ∀ done x rest w, xs = done ++ x :: rest → I done (x :: rest) w →
      wp M (f x) (andThen Q fun _ w' => I (done ++ [x]) rest w') w)
    (hend : ∀ w, I xs [] w → Q (.ok ()) w) :
    wp M (Prog.forEach xs f) Q w := by
  suffices H : ∀ rest done w, xs = done ++ rest → I done rest w → wp M (Prog.forEach rest f) Q w from
    H xs [] w rfl h0
  intro rest
  induction rest with
  | nil => intro done w hx hi; simp only [Prog.forEach, wp_ret]; exact hend w (by simpa [hx] using hi)
  | cons x rest ih =>
    intro done w hx hi
    simp only [Prog.forEach, wp_bind_def]
    refine wp_mono (hstep done x rest w hx hi) fun r w' hr => ?_
    cases r with
    | ok a => exact ih (done ++ [x]) w' (by simp [hx]) hr
    | raised e => exact hr
    | crashed => exact hr

/-- Loop rule for loops with local variables. -/
theorem wp_fold {xs : List α} {b : β} {f : β → α → Prog S E β} {Q : Res E β → W → Prop} {w : W}
    (I : List α → List α → β → W → Prop)
    (h0 : I [] xs b w)
    (hstep : ∀ done x rest b w, xs = done ++ x :: rest → I done (x :: rest) b w →
      wp M (f b x) (andThen Q fun b' w' => I (done ++ [x]) rest b' w') w)
    (hend : ∀ b w, I xs [] b w → Q (.ok b) w) :
    wp M (Prog.fold xs b f) Q w := by
  suffices H : ∀ rest done b w, xs = done ++ rest → I done rest b w → wp M (Prog.fold rest b f) Q w from
    H xs [] b w rfl h0
  intro rest
  induction rest with
  | nil => intro done b w hx hi; simp only [Prog.fold, wp_ret]; exact hend b w (by simpa [hx] using hi)
  | cons x rest ih =>
    intro done b w hx hi
    simp only [Prog.fold, wp_bind_def]
    refine wp_mono (hstep done x rest b w hx hi) fun r w' hr => ?_
    cases r with
    | ok a => exact ih (done ++ [x]) a w' (by simp [hx]) hr
    | raised e => exact hr
    | crashed => exact hr

/-- Two contracts at once. -/
theorem wp_prod {V : Type} {N : Sem S E V} {p : Prog S E α}
    {Q : Res E α → W → Prop} {Q' : Res E α → V → Prop} {w : W} {v : V}
    (h : wp M p Q w) (h' : wp N p Q' v) : wp (M.prod N) p (fun r s => Q r s.1 ∧ Q' r s.2) (w, v) := by
  rw [wp_iff] at *
  intro t r s he hr
  rw [Sem.runs_prod] at hr
  exact ⟨h t r s.1 he hr.1, h' t r s.2 he hr.2⟩

end WP

section ExecLemmas
variable {S : Sig} {E α β : Type}

/-- Executions of a sequence. -/
theorem exec_bind_iff {p : Prog S E α} {f : α → Prog S E β} {t r} :
    Exec (Prog.bind p f) t r ↔
      (∃ t1 a t2, t = t1 ++ t2 ∧ Exec p t1 (.ok a) ∧ Exec (f a) t2 r) ∨
      (∃ e, Exec p t (.raised e) ∧ r = .raised e) ∨ (Exec p t .crashed ∧ r = .crashed) := by
  induction p generalizing t with
  | ret a =>
    simp only [Prog.bind]
    constructor
    · intro h; exact .inl ⟨[], a, t, rfl, .ret a, h⟩
    · rintro (⟨t1, a, t2, rfl, h1, h2⟩ | ⟨e, h, _⟩ | ⟨h, _⟩)
      · cases h1; exact h2
      · cases h
      · cases h
  | raise e =>
    simp only [Prog.bind]
    constructor
    · intro h; cases h; exact .inr (.inl ⟨e, .raise e, rfl⟩)
    · rintro (⟨t1, a, t2, rfl, h1, h2⟩ | ⟨e, h, rfl⟩ | ⟨h, _⟩)
      · cases h1
      · cases h; exact .raise e
      · cases h
  | op o k ih =>
    simp only [Prog.bind]
    constructor
    · intro h
      cases h with
      | crash => exact .inr (.inr ⟨.crash o k, rfl⟩)
      | op x h =>
        rcases (ih x).1 h with ⟨t1, a, t2, rfl, h1, h2⟩ | ⟨e, h3, rfl⟩ | ⟨h3, rfl⟩
        · exact .inl ⟨_ :: t1, a, t2, rfl, .op x h1, h2⟩
        · exact .inr (.inl ⟨e, .op x h3, rfl⟩)
        · exact .inr (.inr ⟨.op x h3, rfl⟩)
    · rintro (⟨t1, a, t2, rfl, h1, h2⟩ | ⟨e, h, rfl⟩ | ⟨h, rfl⟩)
      · cases h1 with
        | op x h1 => exact .op x ((ih x).2 (.inl ⟨_, a, t2, rfl, h1, h2⟩))
      · cases h with
        | op x h => exact .op x ((ih x).2 (.inr (.inl ⟨e, h, rfl⟩)))
      · cases h with
        | crash => exact .crash o _
        | op x h => exact .op x ((ih x).2 (.inr (.inr ⟨h, rfl⟩)))

/-- Executions of a `try`. -/
theorem exec_tryElse_iff {p : Prog S E α} {h : E → Prog S E β} {f : α → Prog S E β} {t r} :
    Exec (p.tryElse h f) t r ↔
      (∃ t1 a t2, t = t1 ++ t2 ∧ Exec p t1 (.ok a) ∧ Exec (f a) t2 r) ∨
      (∃ t1 e t2, t = t1 ++ t2 ∧ Exec p t1 (.raised e) ∧ Exec (h e) t2 r) ∨ (Exec p t .crashed ∧ r = .crashed) := by
  induction p generalizing t with
  | ret a =>
    simp only [Prog.tryElse]
    constructor
    · intro h; exact .inl ⟨[], a, t, rfl, .ret a, h⟩
    · rintro (⟨t1, a, t2, rfl, h1, h2⟩ | ⟨t1, e, t2, rfl, h1, h2⟩ | ⟨h1, _⟩)
      · cases h1; exact h2
      · cases h1
      · cases h1
  | raise e =>
    simp only [Prog.tryElse]
    constructor
    · intro h; exact .inr (.inl ⟨[], e, t, rfl, .raise e, h⟩)
    · rintro (⟨t1, a, t2, rfl, h1, h2⟩ | ⟨t1, e, t2, rfl, h1, h2⟩ | ⟨h1, _⟩)
      · cases h1
      · cases h1; exact h2
      · cases h1
  | op o k ih =>
    simp only [Prog.tryElse]
    constructor
    · intro h
      cases h with
      | crash => exact .inr (.inr ⟨.crash o k, rfl⟩)
      | op x h =>
        rcases (ih x).1 h with ⟨t1, a, t2, rfl, h1, h2⟩ | ⟨t1, e, t2, rfl, h1, h2⟩ | ⟨h3, rfl⟩
        · exact .inl ⟨_ :: t1, a, t2, rfl, .op x h1, h2⟩
        · exact .inr (.inl ⟨_ :: t1, e, t2, rfl, .op x h1, h2⟩)
        · exact .inr (.inr ⟨.op x h3, rfl⟩)
    · rintro (⟨t1, a, t2, rfl, h1, h2⟩ | ⟨t1, e, t2, rfl, h1, h2⟩ | ⟨h1, rfl⟩)
      · cases h1 with
        | op x h1 => exact .op x ((ih x).2 (.inl ⟨_, a, t2, rfl, h1, h2⟩))
      · cases h1 with
        | op x h1 => exact .op x ((ih x).2 (.inr (.inl ⟨_, e, t2, rfl, h1, h2⟩)))
      · cases h1 with
        | crash => exact .crash o _
        | op x h => exact .op x ((ih x).2 (.inr (.inr ⟨h, rfl⟩)))

/-- Cutting an execution short gives an execution: the process may die at any point. -/
theorem exec_prefix {p : Prog S E α} {t u r} (h : Exec p (t ++ u) r) (hu : u ≠ []) : Exec p t .crashed := by
  induction t generalizing p with
  | nil =>
    cases h with
    | ret | raise | crash => exact absurd rfl hu
    | op x h => exact .crash _ _
  | cons e t ih =>
    cases h with
    | op x h => exact .op x (ih h)

end ExecLemmas

theorem Prog.tryElse_bind {S : Sig} {E α β γ : Type} {p : Prog S E α} {h : E → Prog S E β} {f : α → Prog S E β} {g : β → Prog S E γ} :
    (p.tryElse h f).bind g = p.tryElse (fun e => (h e).bind g) (fun a => (f a).bind g) := by
  induction p with
  | ret | raise => rfl
  | op o k ih => simp only [Prog.tryElse, Prog.bind, ih]

theorem Prog.tryElse_id {S : Sig} {E α : Type} (p : Prog S E α) : p.tryElse .raise .ret = p := by
  induction p with
  | ret | raise => rfl
  | op o k ih => simp only [Prog.tryElse, ih]

/-! ### Executable runner, used for concrete executions in examples and refutations -/

/-- Run `p` against a deterministic environment `env` for at most `n` interactions, then crash. -/
def runProg {S : Sig} {E W α : Type} (env : W → (o : S.Op) → Except E (S.Ret o))
    (next : W → Event S E → W) : Nat → Prog S E α → W → List (Event S E) × Res E α × W
  | _, .ret a, w => ([], .ok a, w)
  | _, .raise e, w => ([], .raised e, w)
  | 0, .op _ _, w => ([], .crashed, w)
  | n + 1, .op o k, w =>
    let r := env w o
    let x := runProg env next n (k r) (next w ⟨o, r⟩)
    (⟨o, r⟩ :: x.1, x.2)

theorem runProg_exec {S : Sig} {E W α : Type} (env : W → (o : S.Op) → Except E (S.Ret o))
    (next : W → Event S E → W) (n : Nat) (p : Prog S E α) (w : W) :
    Exec p (runProg env next n p w).1 (runProg env next n p w).2.1 := by
  induction n generalizing p w with
  | zero => cases p <;> constructor
  | succ n ih =>
    cases p with
    | ret | raise => constructor
    | op o k => exact .op _ (ih _ _)

theorem runProg_runs {S : Sig} {E W α : Type} (M : Sem S E W)
    (env : W → (o : S.Op) → Except E (S.Ret o)) (hok : ∀ w o, M.ok w ⟨o, env w o⟩)
    (n : Nat) (p : Prog S E α) (w : W) :
    M.Runs w (runProg env M.next n p w).1 (runProg env M.next n p w).2.2 := by
  induction n generalizing p w with
  | zero => cases p <;> rfl
  | succ n ih =>
    cases p with
    | ret | raise => rfl
    | op o k => exact ⟨hok _ _, ih _ _⟩

/-! ### Interleavings -/

/-- `Shuffle ts t`: `t` is an interleaving of the traces `ts` that keeps the order within each. -/
inductive Shuffle {α : Type} : List (List α) → List α → Prop where
  | nil {ts : List (List α)} : (∀ x ∈ ts, x = []) → Shuffle ts []
  | cons {pre post : List (List α)} {e : α} {u t : List α} :
      Shuffle (pre ++ u :: post) t → Shuffle (pre ++ (e :: u) :: post) (e :: t)

/-- An interleaving consists of exactly the events of its parts. -/
theorem Shuffle.mem_iff {α : Type} {ts : List (List α)} {t : List α} (h : Shuffle ts t) (e : α) :
    e ∈ t ↔ ∃ u ∈ ts, e ∈ u := by
  induction h with
  | nil h =>
    constructor
    · intro h'; cases h'
    · rintro ⟨u, hu, he⟩; rw [h u hu] at he; cases he
  | @cons pre post x u t _ ih =>
    rw [List.mem_cons, ih]
    constructor
    · rintro (rfl | ⟨v, hv, he⟩)
      · exact ⟨e :: u, by simp, by simp⟩
      · rcases List.mem_append.1 hv with hv | hv
        · exact ⟨v, by simp [hv], he⟩
        · rcases List.mem_cons.1 hv with rfl | hv
          · exact ⟨x :: v, by simp, by simp [he]⟩
          · exact ⟨v, by simp [hv], he⟩
    · rintro ⟨v, hv, he⟩
      rcases List.mem_append.1 hv with hv | hv
      · exact .inr ⟨v, by simp [hv], he⟩
      · rcases List.mem_cons.1 hv with rfl | hv
        · rcases List.mem_cons.1 he with rfl | he
          · exact .inl rfl
          · exact .inr ⟨u, by simp, he⟩
        · exact .inr ⟨v, by simp [hv], he⟩

/-- If every event sets the component `f` of the state to `x` or leaves it alone, and some event sets it,
then it is `x` at the end. -/
theorem Sem.runs_set {S : Sig} {E W X : Type} {M : Sem S E W} (f : W → X) (x : X) {t : List (Event S E)} {w w' : W}
    (hr : M.Runs w t w') (h : ∀ e ∈ t, (∀ w, f (M.next w e) = x) ∨ (∀ w, f (M.next w e) = f w))
    (hs : f w = x ∨ ∃ e ∈ t, ∀ w, f (M.next w e) = x) : f w' = x := by
  induction t generalizing w with
  | nil =>
    cases hr
    rcases hs with hs | ⟨e, he, _⟩
    · exact hs
    · cases he
  | cons e t ih =>
    refine ih hr.2 (fun e he => h e (by simp [he])) ?_
    rcases h e (by simp) with h1 | h1
    · exact .inl (h1 w)
    · rcases hs with hs | ⟨e', he', h2⟩
      · exact .inl ((h1 w).trans hs)
      · rcases List.mem_cons.1 he' with rfl | he'
        · exact .inl (h2 w)
        · exact .inr ⟨e', he', h2⟩

end Verif
