import Verif.Model.Refs
/-
What is known about mutable objects during a call, and how executions on objects relate to executions on values.
-/
namespace Verif.Refs

/-- What a call knows: the contents of objects as far as they are known, the objects that only the call itself changes, and the
objects that exist. -/
structure Mem where
  known : Ref → Option Obj
  safe : Ref → Bool
  used : Ref → Bool

/-- Other code has run: it may have changed every object that is not safe from it. -/
def Mem.forget (w : Mem) : Mem := { w with known := fun r => if w.safe r then w.known r else none }

def Mem.learn (w : Mem) (r : Ref) (x : Obj) : Mem := { w with known := fun s => if s = r then some x else w.known s }

def Mem.see (w : Mem) (r : Ref) : Mem := { w with used := fun s => if s = r then true else w.used s }

def Mem.keep (w : Mem) (r : Ref) : Mem := { w with safe := fun s => if s = r then true else w.safe s }

def Mem.share (w : Mem) (r : Ref) : Mem := { w with safe := fun s => if s = r then false else w.safe s }

/-- Interactions that are no interactions in the code, but accesses to attributes of the session manager.  No other code runs. -/
def silent : Op → Bool
  | .getBackends | .setBackends _ | .getSync | .setSync _ => true
  | _ => false

/-- The contract of memory: objects have the content written last, new objects did not exist before, other code runs at each
interaction and changes the objects that are not safe.  `quiet`: `_upload_device_list` neither changes nor gives away to be changed
the dictionary it is passed, at least until the end of the call. -/
def heap (quiet : Bool) : Sem RSig Exn Mem where
  ok w
    | ⟨.new _, .ok r⟩ => w.used r = false
    | ⟨.read r, .ok x⟩ => ∀ y, w.known r = some y → x = y
    | ⟨.download _ _, .ok (r, l)⟩ => w.safe r = true → w.known r = some (.devs l)
    | ⟨.new _, .error _⟩ | ⟨.read _, .error _⟩ | ⟨.write _ _, .error _⟩ | ⟨.pause, .error _⟩ => False
    | _ => True
  next w
    | ⟨.lib o, _⟩ => if silent o then w else w.forget
    | ⟨.download _ _, .ok (r, l)⟩ => (w.forget.learn r (.devs l)).see r
    | ⟨.download _ _, .error _⟩ => w.forget
    | ⟨.upload _ r _, _⟩ => if quiet then w.forget else (w.share r).forget
    | ⟨.new x, .ok r⟩ => ((w.learn r x).keep r).see r
    | ⟨.read r, .ok x⟩ => w.learn r x
    | ⟨.write r x, _⟩ => w.learn r x
    | ⟨.pause, _⟩ => w.forget
    | _ => w

/-- An interaction without references: what was passed and returned, with its content at that time. -/
def absEv : REv → Option Ev
  | ⟨.lib o, a⟩ => some ⟨o, a⟩
  | ⟨.download ns j, .ok x⟩ => some ⟨.downloadList ns j, .ok x.2⟩
  | ⟨.download ns j, .error e⟩ => some ⟨.downloadList ns j, .error e⟩
  | ⟨.upload ns _ l, a⟩ => some ⟨.uploadList ns l, a⟩
  | _ => none

/-- The interactions of a call, without references. -/
def seen (t : List REv) : List Ev := t.filterMap absEv

theorem seen_append (t u : List REv) : seen (t ++ u) = seen t ++ seen u := List.filterMap_append

theorem exec_nil {S : Sig} {E α : Type} (p : Prog S E α) : ∃ r, Exec p [] r := by
  cases p with
  | ret a => exact ⟨_, .ret a⟩
  | raise e => exact ⟨_, .raise e⟩
  | op o k => exact ⟨_, .crash o k⟩

theorem exec_bind_any {S : Sig} {E α β : Type} {p : Prog S E α} {f : α → Prog S E β} {t r} (h : Exec p t r) :
    ∃ r', Exec (p >>= f) t r' := by
  cases r with
  | ok a =>
    obtain ⟨r', h'⟩ := exec_nil (f a)
    exact ⟨r', exec_bind_iff.2 (.inl ⟨t, a, [], by simp, h, h'⟩)⟩
  | raised e => exact ⟨_, exec_bind_iff.2 (.inr (.inl ⟨e, h, rfl⟩))⟩
  | crashed => exact ⟨_, exec_bind_iff.2 (.inr (.inr ⟨h, rfl⟩))⟩

theorem exec_op {α : Type} {o : Op} {k : Except Exn o.Ret → P α} {a : Except Exn o.Ret} {t r} (h : Exec (k a) t r) :
    Exec (Prog.op (S := LibSig) o k) (⟨o, a⟩ :: t) r :=
  Exec.op (S := LibSig) (o := o) a h

theorem exec_op_crash {α : Type} {o : Op} {k : Except Exn o.Ret → P α} : Exec (Prog.op (S := LibSig) o k) [] .crashed :=
  Exec.crash (S := LibSig) o k

theorem call_ok {o : Op} (x : o.Ret) : Exec (call o) [⟨o, .ok x⟩] (.ok x) := exec_op (.ret x)

theorem call_error {o : Op} (e : Exn) : Exec (call o) [⟨o, .error e⟩] (.raised e) := exec_op (.raise e)

theorem call_crash {o : Op} : Exec (call o) [] .crashed := exec_op_crash

/-- Executions of `p` are executions of `q`, if `I` holds at the beginning; `R` relates results and holds at the end. -/
def Sim (b : Bool) {α β : Type} (I : Mem → Prop) (p : RP α) (q : P β) (R : α → β → Mem → Prop) : Prop :=
  ∀ t r w w', Exec p t r → (heap b).Runs w t w' → I w → match r with
    | .ok x => ∃ y, Exec q (seen t) (.ok y) ∧ R x y w'
    | .raised e => Exec q (seen t) (.raised e)
    | .crashed => ∃ r', Exec q (seen t) r'

/-- Not affected by other code that runs. -/
def Stable (I : Mem → Prop) : Prop := ∀ w, I w → I w.forget

namespace Sim
variable {b : Bool} {α β γ δ : Type} {I : Mem → Prop}

theorem ret {x : α} {y : β} {R : α → β → Mem → Prop} (h : ∀ w, I w → R x y w) : Sim b I (.ret x) (.ret y) R := by
  intro t r w w' he hr hi
  cases he
  cases hr
  exact ⟨y, .ret y, h _ hi⟩

theorem raise {e : Exn} {R : α → β → Mem → Prop} : Sim b I (.raise e : RP α) (.raise e : P β) R := by
  intro t r w w' he hr hi
  cases he
  exact .raise e

theorem pre {J : Mem → Prop} {p : RP α} {q : P β} {R : α → β → Mem → Prop} (h : Sim b I p q R) (hj : ∀ w, J w → I w) :
    Sim b J p q R := fun t r w w' he hr hi => h t r w w' he hr (hj _ hi)

theorem post {p : RP α} {q : P β} {R R' : α → β → Mem → Prop} (h : Sim b I p q R) (hr : ∀ x y w, R x y w → R' x y w) :
    Sim b I p q R' := by
  intro t r w w' he hw hi
  have := h t r w w' he hw hi
  cases r with
  | ok x =>
    obtain ⟨y, h1, h2⟩ := this
    exact ⟨y, h1, hr _ _ _ h2⟩
  | raised e => exact this
  | crashed => exact this

theorem bind {p : RP α} {q : P β} {f : α → RP γ} {g : β → P δ} {R : α → β → Mem → Prop} {R' : γ → δ → Mem → Prop}
    (hp : Sim b I p q R) (hf : ∀ x y, Sim b (R x y) (f x) (g y) R') : Sim b I (p >>= f) (q >>= g) R' := by
  intro t r w w' he hw hi
  rcases exec_bind_iff.1 he with ⟨t1, x, t2, rfl, h1, h2⟩ | ⟨e, h1, rfl⟩ | ⟨h1, rfl⟩
  · obtain ⟨w1, hw1, hw2⟩ := Sem.runs_append.1 hw
    obtain ⟨y, h3, h4⟩ := hp _ _ _ _ h1 hw1 hi
    have h5 := hf x y _ _ _ _ h2 hw2 h4
    rw [seen_append]
    cases r with
    | ok z =>
      obtain ⟨z', h6, h7⟩ := h5
      exact ⟨z', exec_bind_iff.2 (.inl ⟨_, y, _, rfl, h3, h6⟩), h7⟩
    | raised e => exact exec_bind_iff.2 (.inl ⟨_, y, _, rfl, h3, h5⟩)
    | crashed =>
      obtain ⟨r', h6⟩ := h5
      exact ⟨r', exec_bind_iff.2 (.inl ⟨_, y, _, rfl, h3, h6⟩)⟩
  · exact exec_bind_iff.2 (.inr (.inl ⟨e, hp _ _ _ _ h1 hw hi, rfl⟩))
  · obtain ⟨r', h2⟩ := hp _ _ _ _ h1 hw hi
    exact exec_bind_any h2

/-- A step without interactions. -/
theorem skip {p : RP α} {f : α → RP γ} {q : P δ} {R : α → Unit → Mem → Prop} {R' : γ → δ → Mem → Prop}
    (hp : Sim b I p (.ret ()) R) (hf : ∀ x, Sim b (R x ()) (f x) q R') : Sim b I (p >>= f) q R' :=
  Sim.bind (q := .ret ()) (g := fun _ => q) hp fun x _ => hf x

theorem lift {q : P α} (hs : Stable I) : Sim b I (Refs.lift q) q (fun x y w => x = y ∧ I w) := by
  intro t r w w' he hw hi
  induction q generalizing t w with
  | ret a =>
    cases he
    cases hw
    exact ⟨a, .ret a, rfl, hi⟩
  | raise e =>
    cases he
    exact .raise e
  | op o k ih =>
    cases he with
    | crash => exact ⟨_, exec_op_crash⟩
    | op a he =>
      have hi' : I ((heap b).next w ⟨.lib o, a⟩) := by
        show I (if silent o then w else w.forget)
        split
        · exact hi
        · exact hs _ hi
      have h := ih a _ _ he hw.2 hi'
      cases r with
      | ok x =>
        obtain ⟨y, h1, h2⟩ := h
        exact ⟨y, exec_op h1, h2⟩
      | raised e => exact exec_op (k := _) h
      | crashed =>
        obtain ⟨r', h1⟩ := h
        exact ⟨r', exec_op h1⟩

/-- An access to an attribute of the session manager. -/
theorem attr {o : Op} (ho : silent o = true) : Sim b I (Refs.lift (call o)) (call o) (fun x y w => x = y ∧ I w) := by
  intro t r w w' he hw hi
  cases he with
  | crash => exact ⟨_, call_crash⟩
  | op a he =>
    cases a with
    | ok x =>
      cases he
      refine ⟨x, call_ok x, rfl, ?_⟩
      cases hw.2
      show I (if silent o then w else w.forget)
      rw [ho]
      exact hi
    | error e =>
      cases he
      exact call_error e

/-- Following a part without references. -/
theorem lift_bind {q : P α} {f : α → RP γ} {g : α → P δ} {R : γ → δ → Mem → Prop} (hs : Stable I)
    (hf : ∀ x, Sim b I (f x) (g x) R) : Sim b I (Refs.lift q >>= f) (q >>= g) R :=
  Sim.bind (Sim.lift hs) fun x y => by
    intro t r w w' he hw hi
    obtain ⟨rfl, hi⟩ := hi
    exact hf x t r w w' he hw hi

theorem attr_bind {o : Op} {f : o.Ret → RP γ} {g : o.Ret → P δ} {R : γ → δ → Mem → Prop} (ho : silent o = true)
    (hf : ∀ x, Sim b I (f x) (g x) R) : Sim b I (Refs.lift (call o) >>= f) (call o >>= g) R :=
  Sim.bind (Sim.attr ho) fun x y => by
    intro t r w w' he hw hi
    obtain ⟨rfl, hi⟩ := hi
    exact hf x t r w w' he hw hi

theorem learn_known {w : Mem} {r : Ref} {x : Obj} (h : w.known r = some x) : w.learn r x = w := by
  have : (fun s => if s = r then some x else w.known s) = w.known := by
    funext s
    split
    · rename_i hs
      rw [hs, h]
    · rfl
  unfold Mem.learn
  rw [this]

/-- Reading an object whose content is known. -/
theorem read {r : Ref} {x : Obj} (h : ∀ w, I w → w.known r = some x) :
    Sim b I (act (.read r)) (.ret ()) (fun y _ w => y = x ∧ I w) := by
  intro t res w w' he hw hi
  cases he with
  | crash => exact ⟨_, .ret ()⟩
  | op a he =>
    cases a with
    | ok y =>
      cases he
      have hy : y = x := hw.1 _ (h _ hi)
      subst hy
      have hw2 : w' = w.learn r y := hw.2
      rw [learn_known (h _ hi)] at hw2
      subst hw2
      exact ⟨(), .ret (), rfl, hi⟩
    | error e => exact hw.1.elim

theorem read_bind {r : Ref} {x : Obj} {g : Obj → α} {f : α → RP γ} {q : P δ} {R : γ → δ → Mem → Prop}
    (h : ∀ w, I w → w.known r = some x) (hf : Sim b I (f (g x)) q R) :
    Sim b I ((do let y : Obj ← act (.read r); pure (g y)) >>= f) q R := by
  refine Sim.skip (R := fun a _ w => a = g x ∧ I w) ?_ fun a => ?_
  · refine Sim.skip (Sim.read h) fun y => ?_
    exact Sim.ret fun w hw => ⟨by rw [hw.1], hw.2⟩
  · intro t res w w' he hw hi
    obtain ⟨rfl, hi⟩ := hi
    exact hf t res w w' he hw hi

theorem devs_bind {r : Ref} {l : DevList} {f : DevList → RP γ} {q : P δ} {R : γ → δ → Mem → Prop}
    (h : ∀ w, I w → w.known r = some (.devs l)) (hf : Sim b I (f l) q R) : Sim b I (devs r >>= f) q R :=
  read_bind (g := Obj.asDevs) h hf

theorem texts_bind {r : Ref} {l : Dict Ns Bytes} {f : Dict Ns Bytes → RP γ} {q : P δ} {R : γ → δ → Mem → Prop}
    (h : ∀ w, I w → w.known r = some (.texts l)) (hf : Sim b I (f l) q R) : Sim b I (texts r >>= f) q R :=
  read_bind (g := Obj.asTexts) h hf

theorem names_bind {r : Ref} {l : List String} {f : List String → RP γ} {q : P δ} {R : γ → δ → Mem → Prop}
    (h : ∀ w, I w → w.known r = some (.names l)) (hf : Sim b I (f l) q R) : Sim b I (names r >>= f) q R :=
  read_bind (g := Obj.asNames) h hf

/-- A new object with content `x`. -/
theorem new_bind {x : Obj} {f : Ref → RP γ} {q : P δ} {R : γ → δ → Mem → Prop}
    (hf : ∀ r, Sim b (fun w => w.known r = some x ∧ w.safe r = true) (f r) q R) : Sim b I (act (.new x) >>= f) q R := by
  refine Sim.skip (R := fun r _ w => w.known r = some x ∧ w.safe r = true) ?_ hf
  intro t res w w' he hw hi
  cases he with
  | crash => exact ⟨_, .ret ()⟩
  | op a he =>
    cases a with
    | ok r =>
      cases he
      have hw2 : w' = ((w.learn r x).keep r).see r := hw.2
      subst hw2
      exact ⟨(), .ret (), by simp [Mem.see, Mem.keep, Mem.learn], by simp [Mem.see, Mem.keep]⟩
    | error e => exact hw.1.elim

/-- Writing to an object. -/
theorem write_bind {r : Ref} {x : Obj} {J : Mem → Prop} {f : Unit → RP γ} {q : P δ} {R : γ → δ → Mem → Prop}
    (h : ∀ w, I w → J (w.learn r x)) (hf : Sim b J (f ()) q R) : Sim b I (act (.write r x) >>= f) q R := by
  refine Sim.skip (R := fun _ _ w => J w) ?_ fun _ => hf
  intro t res w w' he hw hi
  cases he with
  | crash => exact ⟨_, .ret ()⟩
  | op a he =>
    cases a with
    | ok y =>
      cases he
      have hw2 : w' = w.learn r x := hw.2
      subst hw2
      exact ⟨(), .ret (), h _ hi⟩
    | error e => exact hw.1.elim

theorem pause_bind {f : Unit → RP γ} {q : P δ} {R : γ → δ → Mem → Prop} (hs : Stable I)
    (hf : Sim b I (f ()) q R) : Sim b I (act .pause >>= f) q R := by
  refine Sim.skip (R := fun _ _ w => I w) ?_ fun _ => hf
  intro t res w w' he hw hi
  cases he with
  | crash => exact ⟨_, .ret ()⟩
  | op a he =>
    cases a with
    | ok y =>
      cases he
      have hw2 : w' = w.forget := hw.2
      subst hw2
      exact ⟨(), .ret (), hs _ hi⟩
    | error e => exact hw.1.elim

/-- `_upload_device_list`: the dictionary remains known if it is only used quietly. -/
theorem upload {ns : Ns} {r : Ref} {l : DevList} (h : b = true ∨ ∀ w, I w → I (w.share r)) (hs : Stable I) :
    Sim b I (act (.upload ns r l)) (call (.uploadList ns l)) (fun x y w => x = y ∧ I w) := by
  intro t res w w' he hw hi
  cases he with
  | crash => exact ⟨_, call_crash⟩
  | op a he =>
    cases a with
    | ok y =>
      cases he
      have hw2 : w' = if b then w.forget else (w.share r).forget := hw.2
      refine ⟨y, call_ok (o := .uploadList ns l) y, rfl, ?_⟩
      rw [hw2]
      split
      · exact hs _ hi
      · rename_i hb
        rcases h with h | h
        · exact absurd h hb
        · exact hs _ (h _ hi)
    | error e =>
      cases he
      exact call_error e

/-- `_download_device_list`: the content of the dictionary is known until other code runs. -/
theorem download_bind {ns : Ns} {j : Jid} {f : Ref × DevList → RP γ} {g : DevList → P δ} {R : γ → δ → Mem → Prop}
    (hf : ∀ r l, Sim b (fun w => w.known r = some (.devs l)) (f (r, l)) (g l) R) :
    Sim b I (act (.download ns j) >>= f) (call (.downloadList ns j) >>= g) R := by
  refine Sim.bind (R := fun x y w => x.2 = y ∧ w.known x.1 = some (.devs y)) ?_ fun x y => ?_
  · intro t res w w' he hw hi
    cases he with
    | crash => exact ⟨_, call_crash⟩
    | op a he =>
      cases a with
      | ok y =>
        cases he
        have hw2 : w' = (w.forget.learn y.1 (.devs y.2)).see y.1 := hw.2
        subst hw2
        exact ⟨y.2, call_ok (o := .downloadList ns j) y.2, rfl, by simp [Mem.see, Mem.learn]⟩
      | error e =>
        cases he
        exact call_error e
  · intro t res w w' he hw hi
    obtain ⟨rfl, hi⟩ := hi
    exact hf x.1 x.2 t res w w' he hw hi

theorem forEach {xs : List α} {f : α → RP Unit} {g : α → P Unit} (h : ∀ x ∈ xs, Sim b I (f x) (g x) fun _ _ => I) :
    Sim b I (Prog.forEach xs f) (Prog.forEach xs g) fun _ _ => I := by
  induction xs with
  | nil => exact Sim.ret fun w hw => hw
  | cons x xs ih =>
    exact Sim.bind (h x (List.mem_cons_self ..)) fun _ _ => ih fun y hy => h y (List.mem_cons_of_mem _ hy)

theorem fold {xs : List α} {s : β} {f : β → α → RP β} {g : β → α → P β}
    (h : ∀ s, ∀ x ∈ xs, Sim b I (f s x) (g s x) fun a c w => a = c ∧ I w) :
    Sim b I (Prog.fold xs s f) (Prog.fold xs s g) fun a c w => a = c ∧ I w := by
  induction xs generalizing s with
  | nil => exact Sim.ret fun w hw => ⟨rfl, hw⟩
  | cons x xs ih =>
    refine Sim.bind (h s x (List.mem_cons_self ..)) fun a c => ?_
    intro t res w w' he hw hi
    obtain ⟨rfl, hi⟩ := hi
    exact ih (fun s y hy => h s y (List.mem_cons_of_mem _ hy)) t res w w' he hw hi

theorem mapAll {xs : List α} {f : α → RP β} {g : α → P β} (h : ∀ x ∈ xs, Sim b I (f x) (g x) fun a c w => a = c ∧ I w) :
    Sim b I (Prog.mapAll xs f) (Prog.mapAll xs g) fun a c w => a = c ∧ I w := by
  induction xs with
  | nil => exact Sim.ret fun w hw => ⟨rfl, hw⟩
  | cons x xs ih =>
    refine Sim.bind (h x (List.mem_cons_self ..)) fun a c => ?_
    intro t res w w' he hw hi
    obtain ⟨rfl, hi⟩ := hi
    have : Sim b I (Prog.mapAll xs f >>= fun bs => .ret (a :: bs)) (Prog.mapAll xs g >>= fun bs => .ret (a :: bs))
        fun a c w => a = c ∧ I w :=
      Sim.bind (ih fun y hy => h y (List.mem_cons_of_mem _ hy)) fun a' c' => Sim.ret fun w hw => ⟨by rw [hw.1], hw.2⟩
    exact this t res w w' he hw hi

theorem when {c : Prop} [Decidable c] {p : RP Unit} {q : P Unit} (h : c → Sim b I p q fun _ _ => I) :
    Sim b I (Prog.when c p) (Prog.when c q) fun _ _ => I := by
  unfold Prog.when
  split
  · exact h ‹_›
  · exact Sim.ret fun w hw => hw

/-- `try` around a part without references. -/
theorem tryCatch {p : P α} {h : Exn → RP α} {h' : Exn → P α} (hs : Stable I)
    (hh : ∀ e, Sim b I (h e) (h' e) fun x y w => x = y ∧ I w) :
    Sim b I ((Refs.lift p).tryCatch h) (p.tryCatch h') fun x y w => x = y ∧ I w := by
  intro t r w w' he hw hi
  induction p generalizing t w with
  | ret a =>
    cases he
    cases hw
    exact ⟨a, .ret a, rfl, hi⟩
  | raise e => exact hh e t r w w' he hw hi
  | op o k ih =>
    cases he with
    | crash => exact ⟨_, exec_op_crash⟩
    | op a he =>
      have hi' : I ((heap b).next w ⟨.lib o, a⟩) := by
        show I (if silent o then w else w.forget)
        split
        · exact hi
        · exact hs _ hi
      have h := ih a _ _ he hw.2 hi'
      cases r with
      | ok x =>
        obtain ⟨y, h1, h2⟩ := h
        exact ⟨y, exec_op h1, h2⟩
      | raised e => exact exec_op (k := _) h
      | crashed =>
        obtain ⟨r', h1⟩ := h
        exact ⟨r', exec_op h1⟩

end Sim

/-- The content of an object that only the call changes. -/
def Holds (r : Ref) (x : Obj) (w : Mem) : Prop := w.known r = some x ∧ w.safe r = true

theorem holds_stable (r : Ref) (x : Obj) : Stable (Holds r x) := by
  intro w hw
  refine ⟨?_, hw.2⟩
  simp only [Mem.forget, hw.2, if_true]
  exact hw.1

theorem true_stable : Stable fun _ => True := fun _ _ => trivial

end Verif.Refs
