import Verif.Props.Contact
import Verif.Proofs.ExecLoops
/-
How much work calls are.
-/
namespace Verif
open SM Spec Foot

namespace Spec

/-- The number of entries of a stored value. -/
def entries : JVal → Nat
  | .list l => l.length
  | .dict l => l.length
  | _ => 0

/-- The number of entries in what an interaction answers: a stored list or dictionary, a device list, the loaded backends. -/
def answered (e : Ev) : Nat := match e with
  | ⟨.load _, .ok (some v)⟩ => entries v
  | ⟨.downloadList _ _, .ok l⟩ => l.length
  | ⟨.getBackends, .ok l⟩ => l.length
  | _ => 0

/-- The number of namespaces in the answer, if those of a device are loaded. -/
def namespacesRead (e : Ev) : Nat := match e with
  | ⟨.load (.devNamespaces _ _), .ok (some v)⟩ => entries v
  | _ => 0

/-- Requests to servers. -/
def Op.network : Op → Nat
  | .downloadList .. | .downloadBundle .. | .uploadList .. | .uploadBundle .. | .deleteBundle .. | .sendMessage .. => 1
  | _ => 0

def total (f : Ev → Nat) (t : List Ev) : Nat := (t.map f).sum

end Spec

namespace Work
variable {α β : Type} {T : Tariff} {M : Mgr}

/-- What interactions cost, and what their answers are worth, in executions in which `holds` holds of all interactions. -/
structure Tariff where
  cost : Op → Nat
  credit : Ev → Nat
  holds : Ev → Prop

/-- What is left of the budget when the program ends. -/
def left (φ : α → Nat) : Res Exn α → Nat
  | .ok a => φ a
  | _ => 0

/-- The program costs at most `n` and what the answers are worth, and leaves `φ`. -/
def Bd (T : Tariff) (n : Nat) (p : P α) (φ : α → Nat) : Prop :=
  ∀ t r, Exec p t r → (∀ e ∈ t, T.holds e) → total (fun e => T.cost e.1) t + left φ r ≤ n + total T.credit t

theorem total_append (f : Ev → Nat) (a b : List Ev) : total f (a ++ b) = total f a + total f b := by simp [total]

namespace Bd

theorem weaken {n m : Nat} {p : P α} {φ ψ : α → Nat} (h : Bd T n p φ) (hn : n ≤ m) (hφ : ∀ a, ψ a ≤ φ a) : Bd T m p ψ := by
  intro t r he hh
  have := h t r he hh
  have h2 : left ψ r ≤ left φ r := by cases r <;> simp [left, hφ]
  omega

theorem more {n m : Nat} {p : P α} {φ : α → Nat} (h : Bd T n p φ) (hn : n ≤ m) : Bd T m p φ := h.weaken hn fun _ => Nat.le_refl _

theorem frame {n : Nat} {p : P α} {φ : α → Nat} (h : Bd T n p φ) (k : Nat) : Bd T (n + k) p (fun a => φ a + k) := by
  intro t r he hh
  have := h t r he hh
  cases r <;> simp only [left] at * <;> omega

theorem pure {a : α} {φ : α → Nat} : Bd T (φ a) (Pure.pure a : P α) φ := by
  intro t r he hh
  obtain ⟨rfl, rfl⟩ := exec_pure.1 he
  simp [total, left]

theorem ret {a : α} {φ : α → Nat} {n : Nat} (h : φ a ≤ n) : Bd T n (.ret a : P α) φ := (pure (a := a)).more h

theorem raise {e : Exn} {φ : α → Nat} {n : Nat} : Bd T n (.raise e : P α) φ := by
  intro t r he hh
  obtain ⟨rfl, rfl⟩ := exec_throw.1 he
  simp [total, left]

theorem throw {e : Exn} {φ : α → Nat} {n : Nat} : Bd T n (throwE e : P α) φ := raise

theorem call {o : Op} {φ : LibSig.Ret o → Nat} {n : Nat} (h0 : T.cost o ≤ n) (h : ∀ a, T.holds ⟨o, .ok a⟩ → T.cost o + φ a ≤ n + T.credit ⟨o, .ok a⟩) : Bd T n (Verif.call o) φ := by
  intro t r he hh
  rcases exec_call.1 he with ⟨rfl, rfl⟩ | ⟨e, rfl, rfl⟩ | ⟨a, rfl, rfl⟩
  · simp [total, left]
  · simp [total, left]; omega
  · simpa [total, left] using h a (hh _ (by simp))

theorem seq {n : Nat} {p : P α} {f : α → P β} {φ : α → Nat} {ψ : β → Nat} (hp : Bd T n p φ) (hf : ∀ a, Bd T (φ a) (f a) ψ) : Bd T n (p >>= f) ψ := by
  intro t r he hh
  rcases exec_seq.1 he with ⟨t1, a, t2, rfl, h1, h2⟩ | ⟨e, h1, rfl⟩ | ⟨h1, rfl⟩
  · have a1 := hp _ _ h1 fun e he => hh e (by simp [he])
    have a2 := hf _ _ _ h2 fun e he => hh e (by simp [he])
    rw [total_append, total_append]
    simp only [left] at a1
    omega
  · simpa [left] using hp _ _ h1 hh
  · simpa [left] using hp _ _ h1 hh

/-- Nothing is left after the first part. -/
theorem and {n m : Nat} {p : P α} {f : α → P β} {ψ : β → Nat} (hp : Bd T n p fun _ => 0) (hf : ∀ a, Bd T m (f a) ψ) : Bd T (n + m) (p >>= f) ψ :=
  seq (hp.frame m) fun a => (hf a).more (by omega)

/-- One interaction after which the budget is `k`. -/
theorem step {o : Op} {f : LibSig.Ret o → P β} {n k : Nat} {ψ : β → Nat} (h : T.cost o + k ≤ n) (hf : ∀ a, Bd T k (f a) ψ) : Bd T n (Verif.call o >>= f) ψ :=
  seq (call (φ := fun _ => k) (by omega) (fun _ _ => by omega)) hf

theorem last {o : Op} {n : Nat} (h : T.cost o ≤ n) : Bd T n (Verif.call o) (fun _ => 0) := call h fun _ _ => by omega

theorem tryElse' {n k : Nat} {p : P α} {h : Exn → P β} {f : α → P β} {φ : α → Nat} {ψ : β → Nat} (hp : Bd T n p φ) (hx : ∀ e, Bd T k (h e) ψ) (hf : ∀ a, Bd T (φ a + k) (f a) ψ) :
    Bd T (n + k) (p.tryElse h f) ψ := by
  intro t r he hh
  rcases exec_tryElse_iff.1 he with ⟨t1, a, t2, rfl, h1, h2⟩ | ⟨t1, e, t2, rfl, h1, h2⟩ | ⟨h1, rfl⟩
  · have a1 := hp _ _ h1 fun e he => hh e (by simp [he])
    have a2 := hf _ _ _ h2 fun e he => hh e (by simp [he])
    rw [total_append, total_append]
    simp only [left] at a1
    omega
  · have a1 := hp _ _ h1 fun e he => hh e (by simp [he])
    have a2 := hx _ _ _ h2 fun e he => hh e (by simp [he])
    rw [total_append, total_append]
    simp only [left] at a1
    omega
  · have a1 := hp _ _ h1 hh
    simp only [left] at *
    omega

theorem tryElse {n k : Nat} {p : P α} {h : Exn → P β} {f : α → P β} {ψ : β → Nat} (hp : Bd T n p (fun _ => 0)) (hx : ∀ e, Bd T k (h e) ψ) (hf : ∀ a, Bd T k (f a) ψ) :
    Bd T (n + k) (p.tryElse h f) ψ := tryElse' hp hx fun a => (hf a).more (by omega)

theorem tryCatch_eq (p : P α) (h : Exn → P α) : p.tryCatch h = p.tryElse h .ret := by
  induction p with
  | ret a => rfl
  | raise e => rfl
  | op o k ih => simp only [Prog.tryCatch, Prog.tryElse, ih]

theorem onNothing {n k : Nat} {p h : P α} {φ : α → Nat} (hp : Bd T n p φ) (hh : Bd T k h φ) : Bd T (n + k) (Verif.onNothing p h) φ := by
  unfold Verif.onNothing
  rw [tryCatch_eq]
  refine tryElse' hp (fun e => ?_) fun a => ret (by omega)
  split
  · exact hh
  · exact raise

theorem when {b : Prop} [Decidable b] {n : Nat} {p : P Unit} (hp : Bd T n p (fun _ => 0)) : Bd T n (Prog.when b p) (fun _ => 0) := by
  unfold Prog.when
  split
  · exact hp
  · exact ret (Nat.zero_le _)

theorem forEach {k : Nat} {xs : List α} {f : α → P Unit} (h : ∀ x ∈ xs, Bd T k (f x) (fun _ => 0)) : Bd T (k * xs.length) (Prog.forEach xs f) (fun _ => 0) := by
  induction xs with
  | nil => exact ret (Nat.zero_le _)
  | cons x xs ih =>
    have h1 := (h x List.mem_cons_self).frame (k * xs.length)
    refine (seq h1 fun _ => (ih fun y hy => h y (List.mem_cons_of_mem _ hy)).more (by omega)).more ?_
    simp only [List.length_cons, Nat.mul_add]
    omega

theorem fold {k : Nat} {xs : List α} {f : β → α → P β} (h : ∀ b, ∀ x ∈ xs, Bd T k (f b x) (fun _ => 0)) (b : β) : Bd T (k * xs.length) (Prog.fold xs b f) (fun _ => 0) := by
  induction xs generalizing b with
  | nil => exact ret (Nat.zero_le _)
  | cons x xs ih =>
    have h1 := (h b x List.mem_cons_self).frame (k * xs.length)
    refine (seq h1 fun b' => (ih (fun b y hy => h b y (List.mem_cons_of_mem _ hy)) b').more (by omega)).more ?_
    simp only [List.length_cons, Nat.mul_add]
    omega

/-- A loop in which the rest of the budget depends on what is still to be done. -/
theorem foldR {xs : List α} {f : β → α → P β} {I : List α → β → Nat} (h : ∀ x rest b, Bd T (I (x :: rest) b) (f b x) (I rest)) (b : β) : Bd T (I xs b) (Prog.fold xs b f) (I []) := by
  induction xs generalizing b with
  | nil => exact ret (Nat.le_refl _)
  | cons x xs ih => exact seq (h x xs b) fun b' => ih b'

theorem foldI {xs : List α} {f : β → α → P β} {φ : β → Nat} {k : Nat} (h : ∀ b, ∀ x ∈ xs, Bd T (φ b + k) (f b x) φ) (b : β) : Bd T (φ b + k * xs.length) (Prog.fold xs b f) φ := by
  induction xs generalizing b with
  | nil => exact ret (by simp)
  | cons x xs ih =>
    refine (seq ((h b x List.mem_cons_self).frame (k * xs.length)) fun b' => ih (fun b y hy => h b y (List.mem_cons_of_mem _ hy)) b').more ?_
    simp only [List.length_cons, Nat.mul_add]
    omega

theorem mapAll {xs : List α} {f : α → P β} {φ : β → Nat} {k : Nat} (h : ∀ x ∈ xs, Bd T k (f x) φ) : Bd T (k * xs.length) (Prog.mapAll xs f) (fun l => (l.map φ).sum) := by
  induction xs with
  | nil => exact ret (by simp)
  | cons x xs ih =>
    refine (seq ((h x List.mem_cons_self).frame (k * xs.length)) fun b =>
      (seq (((ih fun y hy => h y (List.mem_cons_of_mem _ hy)).frame (φ b)).more (by omega)) fun bs => ret ?_)).more ?_
    · simp; omega
    · simp only [List.length_cons, Nat.mul_add]
      omega

theorem mapAll' {xs : List α} {f : α → P β} {k e : Nat} (h : ∀ x ∈ xs, Bd T k (f x) (fun _ => 0)) : Bd T ((k + e) * xs.length) (Prog.mapAll xs f) (fun l => e * l.length) := by
  refine (mapAll (φ := fun _ => e) fun x hx => ((h x hx).frame e).weaken (Nat.le_refl _) fun _ => by omega).weaken (Nat.le_refl _) fun l => ?_
  induction l with
  | nil => simp
  | cons x l ih => simp [Nat.mul_add] at *; omega

theorem filterAll {xs : List α} {f : α → P Bool} {k e : Nat} (h : ∀ x ∈ xs, Bd T k (f x) (fun _ => 0)) : Bd T ((k + e) * xs.length) (Prog.filterAll xs f) (fun l => e * l.length) := by
  induction xs with
  | nil => exact ret (by simp)
  | cons x xs ih =>
    refine (and (m := (k + e) * xs.length + e) (h x List.mem_cons_self) fun b =>
      (seq ((ih fun y hy => h y (List.mem_cons_of_mem _ hy)).frame e) fun bs => ret ?_)).more ?_
    · split <;> simp [Nat.mul_add]
    · simp only [List.length_cons, Nat.mul_add, Nat.add_mul]
      omega

theorem fmap {f : α → Except Exn β} {m : Option α} {φ : Option β → Nat} {n : Nat} (h : ∀ x, (m = none ∧ x = none ∨ ∃ a b, m = some a ∧ f a = .ok b ∧ x = some b) → φ x ≤ n) :
    Bd T n (Maybe.fmap f m : P (Option β)) φ := by
  cases m with
  | none => exact ret (h _ (.inl ⟨rfl, rfl⟩))
  | some a =>
    simp only [Maybe.fmap]
    cases hf : f a with
    | ok b => exact ret (h _ (.inr ⟨a, b, rfl, hf, rfl⟩))
    | error e => exact raise

theorem fromJust {m : Option α} {φ : α → Nat} {n : Nat} (h : ∀ a, m = some a → φ a ≤ n) : Bd T n (Maybe.fromJust m : P α) φ := by
  cases m with
  | none => exact raise
  | some a => exact ret (h a rfl)

theorem liftE {x : Except Exn α} {n : Nat} {φ : α → Nat} (h : ∀ a, x = .ok a → φ a ≤ n) : Bd T n (Verif.liftE x) φ := by
  cases x with
  | ok a => exact ret (h a rfl)
  | error e => exact raise

theorem next {x : Option α} {n : Nat} {φ : α → Nat} (h : ∀ a, φ a ≤ n) : Bd T n (nextOrRuntimeError x) φ := by
  cases x with
  | some a => exact ret (h a)
  | none => exact raise

end Bd

/-! ### All interactions -/

def whole (k : Nat) : Tariff := { cost := fun _ => 1, credit := fun e => k * answered e, holds := fun e => BackendsOnce [e] }

theorem dedup_le {α : Type} [DecidableEq α] (l : List α) : (dedup l).length ≤ l.length := by
  induction l with
  | nil => simp [dedup]
  | cons x l ih =>
    have := List.length_filter_le (fun y => decide (y ≠ x)) (dedup l)
    simp only [dedup, List.length_cons]
    omega

section
variable {k : Nat} {ns : Ns} {jid : Jid} {d : DevId}

theorem load_const {key : Key} {f : JVal → Except Exn α} {n : Nat} : Bd (whole k) (n + 1) (Verif.call (.load key) >>= Maybe.fmap f) (fun _ => n) :=
  Bd.step (k := n) (by simp [whole]; try omega) fun _ => Bd.fmap fun _ _ => Nat.le_refl _

theorem load_list {key : Key} {ty : PyType} {f : JVal → α} {n : Nat} :
    Bd (whole k) (n + 1) (Verif.call (.load key) >>= Maybe.fmap fun v => (checkList ty v).map (List.map f)) (fun m => n + k * (Maybe.maybe m []).length) := by
  refine Bd.seq (φ := fun m : Option JVal => n + k * (m.elim 0 entries)) (Bd.call (by simp [whole]) fun a _ => ?_) fun m => Bd.fmap ?_
  · cases a <;> simp [whole, answered] <;> omega
  · rintro x (⟨rfl, rfl⟩ | ⟨v, l, rfl, hc, rfl⟩)
    · simp [Maybe.maybe]
    · cases v with
      | list l0 =>
        simp only [checkList] at hc
        split at hc
        · cases hc; simp [Maybe.maybe, entries]
        · cases hc
      | _ => cases hc

theorem bd_fetch {n : Nat} {nss : List Ns} : Bd (whole k) (nss.length + 1 + n) (fetchIdentityKey jid d nss) (fun _ => n) := by
  induction nss with
  | nil => exact Bd.ret (by omega)
  | cons x nss ih =>
    refine (Bd.tryElse (n := 1) (k := nss.length + 1 + n) (Bd.last (by simp [whole])) (fun e => ?_) fun b => ?_).more (by simp; omega)
    · split
      · exact ih
      · exact Bd.raise
    · exact Bd.step (k := n) (by simp [whole]; try omega) fun _ => Bd.ret (Nat.le_refl _)

theorem free_ret {a : α} {n : Nat} : Bd T n (.ret a : P α) (fun _ => 0) := Bd.ret (Nat.zero_le _)

theorem free_pure {a : α} {n : Nat} : Bd T n (Pure.pure a : P α) (fun _ => 0) := free_ret

/-- A loaded value that must exist. -/
theorem load_just {key : Key} {f : JVal → Except Exn α} {n : Nat} {q : α → P β} {ψ : β → Nat} (h : ∀ a, Bd (whole k) n (q a) ψ) :
    Bd (whole k) (n + 1) ((Verif.call (.load key) >>= Maybe.fmap f) >>= fun m => Maybe.fromJust m >>= q) ψ :=
  Bd.seq load_const fun _ => Bd.seq (Bd.fromJust (φ := fun _ => n) fun _ _ => Nat.le_refl _) h

theorem bd_repair {nss : List Ns} {active : Dict Ns Bool} : Bd (whole k) 1 (repairNamespaces M jid d nss active) (fun _ => 0) := by
  unfold repairNamespaces
  split
  · exact Bd.step (k := 0) (by simp [whole]) fun _ => free_pure
  · exact free_pure

theorem bd_identityKeyOf {nss : List Ns} : Bd (whole k) (nss.length + 2) (identityKeyOf M jid d nss) (fun _ => 0) := by
  refine (Bd.onNothing (n := 1) (k := nss.length + 1) (load_just (n := 0) fun _ => free_pure) ?_).more (by omega)
  refine Bd.seq ((bd_fetch (n := 0)).more (by simp)) fun m => ?_
  cases m <;> exact free_pure

theorem bd_deviceInformation (hk : 1 ≤ k) : Bd (whole k) 7 (deviceInformation M jid d) (fun _ => 0) := by
  refine Bd.seq (load_list (n := 6)) fun m => Bd.seq (Bd.fromJust (φ := fun l => 6 + k * l.length) fun l hl => by subst hl; exact Nat.le_refl _) fun l => ?_
  have hl : (dedup l).length ≤ k * l.length := Nat.le_trans (dedup_le l) (Nat.le_mul_of_pos_left _ hk)
  refine (Bd.and (n := (dedup l).length + 2) (m := 4) bd_identityKeyOf fun x => ?_).more (by omega)
  rcases x with _ | ⟨ik, b⟩
  · exact free_pure
  · refine load_just fun active => load_just fun label => ?_
    exact Bd.seq (load_const (n := 1)) fun level => Bd.and (m := 0) bd_repair fun _ => free_pure

theorem setAdd_le {α : Type} [DecidableEq α] (l : List α) (x : α) : (setAdd l x).length ≤ l.length + 1 := by
  unfold setAdd
  split <;> simp

theorem bd_info' {e : Nat} (hk : 7 + e ≤ k) : Bd (whole k) 1 (getDeviceInformation' M jid) (fun x => e * x.1.length) := by
  refine Bd.seq (load_list (n := 0)) fun m => ?_
  refine (Bd.foldI (k := 7 + e) (φ := fun x : List DeviceInfo × List Bundle => e * x.1.length) (fun dc x _ => ?_) _).more ?_
  · refine (Bd.and (n := 7) (m := e * dc.1.length + e) (bd_deviceInformation (Nat.le_trans (by omega) hk)) fun r => ?_).more (by omega)
    have hs := fun dev => Nat.mul_le_mul_left e (setAdd_le dc.1 dev)
    rcases r with _ | ⟨dev, _ | b⟩
    · exact Bd.ret (by simp)
    · exact Bd.ret (by have := hs dev; simp only [Nat.mul_add, Nat.mul_one] at this; exact this)
    · exact Bd.ret (by have := hs dev; simp only [Nat.mul_add, Nat.mul_one] at this; exact this)
  · rw [SetOrder.length_iter]
    have := dedup_le (Maybe.maybe m [])
    have : (7 + e) * (dedup (Maybe.maybe m [])).length ≤ k * (Maybe.maybe m []).length := Nat.mul_le_mul hk this
    simp
    omega

theorem bd_info (hk : 7 ≤ k) : Bd (whole k) 1 (getDeviceInformation M jid) (fun _ => 0) := Bd.and (m := 0) ((bd_info' (e := 0) hk).weaken (Nat.le_refl _) fun _ => Nat.zero_le _) fun _ => free_pure

theorem bd_known {dl : DevList} : Bd (whole k) 6 (updateKnownDevice M ns jid dl d) (fun _ => 0) := by
  refine load_just fun nss => load_just fun active => ?_
  split
  · refine Bd.and (n := 1) (m := 3) (Bd.when (Bd.last (by simp [whole]))) fun _ => load_just fun label => ?_
    exact Bd.and (n := 1) (m := 1) (Bd.when (Bd.last (by simp [whole]))) fun _ => Bd.when (Bd.last (by simp [whole]))
  · refine Bd.when ?_
    split
    · exact Bd.raise
    · exact Bd.last (by simp [whole])
    · exact free_pure

theorem bd_new {dl : DevList} : Bd (whole k) 3 (addNewDevice ns jid dl d) (fun _ => 0) := by
  refine Bd.step (k := 2) (by simp [whole]) fun _ => ?_
  split
  · exact Bd.raise
  · exact Bd.step (k := 1) (by simp [whole]) fun _ => Bd.last (by simp [whole])

theorem bd_ensure {dl : DevList} : Bd (whole k) 3 (ensureOwnListed M ns jid dl) (fun _ => 0) := by
  unfold ensureOwnListed
  split
  · refine Bd.step (k := 2) (by simp [whole]) fun _ => ?_
    split
    · exact load_just fun label => Bd.step (k := 0) (by simp [whole]) fun _ => free_pure
    · exact free_pure
  · exact free_pure

theorem bd_update (hk : 6 ≤ k) {dl : DevList} : Bd (whole k) (6 + 3 * dl.length) (updateDeviceList M ns jid dl) (fun _ => 0) := by
  refine Bd.step (k := 5 + 3 * dl.length) (by simp [whole]; omega) fun bs => ?_
  split
  · exact Bd.raise
  · refine Bd.seq ((load_list (n := 4 + 3 * dl.length)).more (by omega)) fun m => ?_
    have h1 := dedup_le (Maybe.maybe m [])
    have h2 : 6 * (dedup (Maybe.maybe m [])).length ≤ k * (Maybe.maybe m []).length := Nat.mul_le_mul hk h1
    have h3 : (setDiff dl.keys (dedup (Maybe.maybe m []))).length ≤ dl.length :=
      Nat.le_trans (List.length_filter_le _ _) (Nat.le_trans (dedup_le _) (by simp))
    refine (Bd.and (n := 3) (m := 1 + 3 * dl.length + k * (Maybe.maybe m []).length) bd_ensure fun dl' => ?_).more (by omega)
    refine (Bd.and (m := 1 + k * (Maybe.maybe m []).length) (Bd.forEach fun x _ => bd_new) fun _ => ?_).more
      (by rw [SetOrder.length_iter]; omega)
    refine (Bd.and (m := 1) (Bd.forEach fun x _ => bd_known) fun _ => ?_).more (by rw [SetOrder.length_iter]; omega)
    exact Bd.when (Bd.last (by simp [whole]))

theorem bd_refresh (hk : 7 ≤ k) : Bd (whole k) 7 (refreshDeviceList M ns jid) (fun _ => 0) := by
  refine Bd.seq (φ := fun dl : DevList => 6 + k * dl.length) (Bd.call (by simp [whole]) fun dl _ => by simp [whole, answered]; omega) fun dl => ?_
  exact (bd_update (by omega)).more (by have := Nat.mul_le_mul_right dl.length (show 3 ≤ k by omega); omega)

theorem bd_findSender (hk : 7 ≤ k) {msg : Message} : Bd (whole k) 9 (findSender M msg) (fun _ => 0) := by
  refine Bd.and (n := 1) (m := 8) (bd_info hk) fun devs => ?_
  split
  · exact free_pure
  · refine Bd.and (n := 7) (m := 1) (bd_refresh hk) fun _ => Bd.and (n := 1) (m := 0) (bd_info hk) fun devs => ?_
    split
    · exact free_pure
    · exact Bd.raise

theorem bd_keyMaterial {msg : Message} {dev : DeviceInfo} {ekm : EncKM} {kex : Option KeyExchange} : Bd (whole k) 2 (keyMaterial M msg dev ekm kex) (fun _ => 0) := by
  unfold keyMaterial
  split
  · refine Bd.step (k := 1) (by simp [whole]) fun s => ?_
    split
    · exact Bd.raise
    · exact Bd.step (k := 0) (by simp [whole]) fun _ => free_pure
  · unfold handleKeyExchange
    split
    · exact Bd.raise
    · refine Bd.step (k := 1) (by simp [whole]) fun s => ?_
      split
      · exact Bd.last (by simp [whole])
      · exact Bd.step (k := 0) (by simp [whole]) fun _ => free_pure

theorem bd_content {msg : Message} {dev : DeviceInfo} {ekm : EncKM} {kex : Option KeyExchange} : Bd (whole k) 4 (decryptContent M msg dev ekm kex) (fun _ => 0) := by
  refine Bd.step (k := 3) (by simp [whole]) fun level => ?_
  split
  · exact Bd.raise
  · refine Bd.and (n := 2) (m := 1) bd_keyMaterial fun _ => Bd.and (n := 1) (m := 0) ?_ fun _ => free_pure
    unfold plaintextOf
    split
    · exact free_pure
    · exact Bd.step (k := 0) (by simp [whole]) fun _ => free_pure

theorem bd_refill : Bd (whole k) 2 (refillPreKeys M ns) (fun _ => 0) :=
  Bd.step (k := 1) (by simp [whole]) fun _ => Bd.when (Bd.last (by simp [whole]))

theorem bd_consume {session : Session} : Bd (whole k) 6 (consumePreKey M ns session) (fun _ => 0) := by
  refine Bd.step (k := 5) (by simp [whole]) fun sync => Bd.and (n := 1) (m := 4) ?_ fun ch => Bd.when ?_
  · unfold discardPreKey
    split <;> exact Bd.last (by simp [whole])
  · exact Bd.and (n := 2) (m := 2) bd_refill fun _ => Bd.step (k := 1) (by simp [whole]) fun _ => Bd.last (by simp [whole])

theorem bd_sendEmpty {session : Session} : Bd (whole k) 4 (sendEmptyMessage M ns session) (fun _ => 0) :=
  Bd.step (k := 3) (by simp [whole]) fun _ => Bd.step (k := 2) (by simp [whole]) fun _ => Bd.step (k := 1) (by simp [whole]) fun _ => Bd.last (by simp [whole])

theorem bd_queueEmpty {session : Session} : Bd (whole k) 4 (queueEmpty M session) (fun _ => 0) :=
  Bd.seq load_const fun _ => Bd.step (k := 2) (by simp [whole]) fun _ => Bd.seq (load_const (n := 1)) fun _ => Bd.last (by simp [whole])

theorem bd_autoReply {kex : Option KeyExchange} {session : Session} : Bd (whole k) 5 (autoReply M ns kex session) (fun _ => 0) := by
  refine Bd.when (Bd.step (k := 4) (by simp [whole]) fun sync => ?_)
  split
  · exact bd_queueEmpty
  · exact bd_sendEmpty

theorem bd_decrypt (hk : 7 ≤ k) {msg : Message} : Bd (whole k) 26 (decrypt M msg) (fun _ => 0) := by
  refine Bd.step (k := 25) (by simp [whole]) fun bs => ?_
  split
  · exact Bd.raise
  · split
    · exact Bd.raise
    · refine Bd.and (n := 9) (m := 16) (bd_findSender hk) fun dev => Bd.and (n := 4) (m := 12) bd_content fun x => ?_
      refine Bd.and (n := 12) (m := 0) ?_ fun _ => free_pure
      exact Bd.step (k := 11) (by simp [whole]) fun _ => Bd.and (n := 6) (m := 5) (Bd.when bd_consume) fun _ => bd_autoReply

theorem bd_sendQueuedJid (hk : 5 ≤ k) : Bd (whole k) 2 (sendQueuedJid M ns jid) (fun _ => 0) := by
  refine Bd.seq (load_list (n := 1)) fun m => Bd.step (k := k * (Maybe.maybe m []).length) (by simp [whole]) fun _ => ?_
  refine (Bd.forEach (k := 5) fun x _ => Bd.step (k := 4) (by simp [whole]) fun s => ?_).more ?_
  · split
    · exact free_pure
    · exact bd_sendEmpty
  · rw [SetOrder.length_iter]
    exact Nat.mul_le_mul hk (dedup_le _)

theorem bd_sendQueuedBackend (hk : 5 ≤ k) : Bd (whole k) 2 (sendQueuedBackend M ns) (fun _ => 0) := by
  refine Bd.seq (load_list (n := 1)) fun m => Bd.step (k := k * (Maybe.maybe m []).length) (by simp [whole]) fun _ => ?_
  refine (Bd.forEach (k := 2) fun x _ => bd_sendQueuedJid hk).more ?_
  rw [SetOrder.length_iter]
  exact Nat.mul_le_mul (by omega) (dedup_le _)

theorem bd_after (hk : 5 ≤ k) : Bd (whole k) 3 (afterHistorySync M) (fun _ => 0) := by
  refine Bd.step (k := 2) (by simp [whole]) fun _ => ?_
  refine Bd.seq (φ := fun bs : List Ns => 1 + k * bs.length) (Bd.call (by simp [whole]) fun bs _ => by simp [whole, answered]; omega) fun bs => ?_
  refine (Bd.and (m := 1) (Bd.forEach (k := 1) fun x _ => Bd.last (by simp [whole])) fun _ => ?_).more
    (by have := Nat.mul_le_mul_right bs.length (show 1 ≤ k by omega); omega)
  refine Bd.seq (φ := fun bs : List Ns => k * bs.length) (Bd.call (by simp [whole]) fun bs _ => by simp [whole, answered]) fun bs => ?_
  exact (Bd.forEach (k := 2) fun x _ => bd_sendQueuedBackend hk).more (Nat.mul_le_mul_right _ (by omega))

theorem bd_lists (hk : 7 ≤ k) : Bd (whole k) 1 (refreshDeviceLists M jid) (fun _ => 0) := by
  refine Bd.seq (φ := fun bs : List Ns => k * bs.length) (Bd.call (by simp [whole]) fun bs _ => by simp [whole, answered]) fun bs => ?_
  exact (Bd.forEach (k := 7) fun x _ => bd_refresh hk).more (Nat.mul_le_mul_right _ hk)

/-! ### Encryption -/

theorem bd_recipients {e : Nat} (hk : 7 + e ≤ k) {order : List Ns} {jids : List Jid} : Bd (whole k) jids.length (recipientDevices M order jids) (fun x => e * x.1.length) := by
  refine Bd.seq ((Bd.mapAll fun x _ => bd_info' hk).more (by simp)) fun tmp => ?_
  have h1 : e * (dedup (tmp.map (·.1)).flatten).length ≤ (tmp.map fun x => e * x.1.length).sum := by
    refine Nat.le_trans (Nat.mul_le_mul_left e (dedup_le _)) ?_
    clear hk
    induction tmp with
    | nil => simp
    | cons x tmp ih => simp [Nat.mul_add] at *; omega
  refine Bd.seq ((Bd.filterAll (k := 0) (e := e) fun x _ => Bd.liftE fun _ _ => Nat.zero_le _).more (by rw [SetOrder.length_iter, Nat.zero_add]; omega)) fun devs => ?_
  refine Bd.seq ((Bd.mapAll' (k := 0) (e := e) fun x _ => Bd.liftE fun _ _ => Nat.zero_le _).more (by rw [SetOrder.length_iter, Nat.zero_add]; omega)) fun devs => ?_
  exact Bd.ret (Nat.mul_le_mul_left e (Nat.le_trans (List.length_filter_le _ _) (dedup_le _)))

theorem bd_withTrust {e : Nat} {level : TrustLevel} {ds : List DeviceInfo} : Bd (whole k) ((1 + e) * ds.length) (devicesWithTrust level ds) (fun l => e * l.length) :=
  Bd.filterAll fun _ _ => Bd.step (k := 0) (by simp [whole]) fun _ => free_pure

theorem bd_decide {e q : Nat} (hq : ∀ ds i, Bd (whole k) (q * ds.length) (M.decide ds i) (fun _ => 0)) {ds : List DeviceInfo} {i : Option String} :
    Bd (whole k) ((3 + q + e) * ds.length) (decideTrust M ds i) (fun l => e * l.length) := by
  refine Bd.seq (((bd_withTrust (e := q)).frame ((2 + e) * ds.length)).more ?_) fun un => ?_
  · rw [SetOrder.length_iter, ← Nat.add_mul]
    exact Nat.mul_le_mul_right _ (by omega)
  refine Bd.seq (φ := fun l : List DeviceInfo => (1 + e) * l.length) ?_ fun l => ?_
  · unfold askTrust
    split
    · refine Bd.and (m := (2 + e) * ds.length) (hq _ _) fun _ => ?_
      refine Bd.seq ((Bd.mapAll' (k := 1) (e := 1 + e) fun x _ => Bd.seq (load_const (n := 0)) fun _ => free_pure).more ?_) fun l => ?_
      · rw [SetOrder.length_iter]
        exact Nat.mul_le_mul_right _ (by omega)
      · exact Bd.ret (Nat.mul_le_mul_left _ (dedup_le _))
    · exact Bd.ret (by have := Nat.mul_le_mul_right ds.length (show 1 + e ≤ 2 + e by omega); omega)
  · refine Bd.seq (((bd_withTrust (e := 0)).frame (e * l.length)).more ?_) fun un => ?_
    · rw [SetOrder.length_iter, Nat.add_mul, Nat.add_mul]; omega
    · split
      · exact Bd.raise
      · exact Bd.ret (by omega)

/-- How many devices each of the backends is used for. -/
def shares (bs : List Ns) (ds : List DeviceInfo) : Nat := (bs.map fun ns => (ds.filter fun dev => decide (dev.namespaces.head? = some ns)).length).sum

theorem shares_le {bs : List Ns} {ds : List DeviceInfo} (h : bs.Nodup) : shares bs ds ≤ ds.length := by
  have key : ∀ dev : DeviceInfo, (bs.map fun ns => if dev.namespaces.head? = some ns then 1 else 0).sum ≤ 1 := by
    intro dev
    induction bs with
    | nil => simp
    | cons b bs ih =>
      simp only [List.map_cons, List.sum_cons]
      have h0 := ih h.of_cons
      split
      · rename_i hb
        have : (bs.map fun ns => if dev.namespaces.head? = some ns then 1 else 0).sum = 0 := by
          have hn := (List.nodup_cons.1 h).1
          clear ih h h0
          induction bs with
          | nil => rfl
          | cons c bs ih =>
            simp only [List.mem_cons, not_or] at hn
            have h0 := ih hn.2
            rw [hb] at h0 ⊢
            simp only [List.map_cons, List.sum_cons, h0]
            simp [hn.1]
        omega
      · omega
  induction ds with
  | nil => 
    clear key h
    induction bs with
    | nil => exact Nat.le_refl _
    | cons b bs ih => simpa [shares] using ih
  | cons dev ds ih =>
    have split : shares bs (dev :: ds) = (bs.map fun ns => if dev.namespaces.head? = some ns then 1 else 0).sum + shares bs ds := by
      clear key ih h
      unfold shares
      induction bs with
      | nil => rfl
      | cons b bs ih =>
        simp only [List.map_cons, List.sum_cons]
        rw [ih]
        simp only [List.filter_cons]
        by_cases hb : dev.namespaces.head? = some b <;> simp [hb] <;> omega
    have := key dev
    simp only [List.length_cons]
    omega

theorem shares_diff {bs : List Ns} {ds xs : List DeviceInfo} : shares bs (setDiff ds xs) ≤ shares bs ds := by
  unfold shares
  induction bs with
  | nil => simp
  | cons b bs ih =>
    have : ((setDiff ds xs).filter fun dev => decide (dev.namespaces.head? = some b)).length ≤ (ds.filter fun dev => decide (dev.namespaces.head? = some b)).length :=
      (List.Sublist.filter _ List.filter_sublist).length_le
    simp only [List.map_cons, List.sum_cons]
    omega

theorem bd_encryptDevice {cache : List Bundle} {km : PlainKM} {st : EncState} {dev : DeviceInfo} {rest : List Ns} :
    Bd (whole k) (st.sessions.length + 5 * shares rest st.devices + 4) (encryptDevice M ns cache km st dev) (fun st => st.sessions.length + 5 * shares rest st.devices) := by
  refine Bd.step (k := st.sessions.length + 5 * shares rest st.devices + 3) (by simp [whole]; omega) fun s => ?_
  refine (Bd.tryElse (n := 2) (k := st.sessions.length + 5 * shares rest st.devices + 1) ?_ (fun e => ?_) fun x => ?_).more (by omega)
  · unfold encryptForDevice
    split
    · refine Bd.and (n := 1) (m := 1) ?_ fun b => Bd.last (by simp [whole])
      unfold bundleFor
      split
      · exact Bd.last (by simp [whole])
      · exact free_pure
    · exact Bd.step (k := 0) (by simp [whole]) fun _ => free_pure
  · split
    · refine Bd.ret ?_
      have := shares_diff (bs := rest) (ds := st.devices) (xs := [dev])
      simp only
      omega
    · exact Bd.raise
  · exact Bd.ret (by simp; omega)

theorem bd_encryptBackend {cache : List Bundle} {pt : Dict Ns Bytes} {st : EncAll} {rest : List Ns} :
    Bd (whole k) (st.sessions.length + 5 * shares (ns :: rest) st.devices) (encryptBackend M cache pt st ns) (fun st => st.sessions.length + 5 * shares rest st.devices) := by
  have hs : shares (ns :: rest) st.devices = (st.devices.filter fun dev => decide (dev.namespaces.head? = some ns)).length + shares rest st.devices := by simp [shares]
  unfold encryptBackend
  by_cases hne : (st.devices.filter fun dev => decide (dev.namespaces.head? = some ns)).length = 0
  · rw [if_pos hne]
    exact Bd.ret (by omega)
  · rw [if_neg hne]
    split
    · exact Bd.raise
    · refine Bd.step (k := st.sessions.length + 5 * shares rest st.devices + 4 * (st.devices.filter fun dev => decide (dev.namespaces.head? = some ns)).length)
        (by simp only [whole]; omega) fun x => ?_
      refine Bd.seq ((Bd.foldI (φ := fun st : EncState => st.sessions.length + 5 * shares rest st.devices) (k := 4) (fun b x _ => bd_encryptDevice) _).more ?_) fun st' => ?_
      · rw [SetOrder.length_iter]
        exact Nat.le_refl _
      · exact Bd.ret (Nat.le_refl _)

theorem bd_trusted {jids : List Jid} {cache : List Bundle} {pt : Dict Ns Bytes} {ds : List DeviceInfo} : Bd (whole k) (1 + 6 * ds.length) (encryptTrusted M jids cache pt ds) (fun _ => 0) := by
  refine Bd.seq (((bd_withTrust (e := 5)).frame 1).more (by rw [SetOrder.length_iter]; omega)) fun ds => ?_
  refine Bd.seq (φ := fun bs : List Ns => 5 * shares bs ds) (Bd.call (by simp [whole]) fun bs hb => ?_) fun bs => ?_
  · have := shares_le (ds := ds) (hb bs (by simp))
    simp only [whole]
    omega
  refine Bd.seq ((Bd.foldR (I := fun rest (st : EncAll) => st.sessions.length + 5 * shares rest st.devices) (fun x rest b => bd_encryptBackend) _).more (by simp)) fun st => ?_
  by_cases hm : (noEligible M st.devices jids).length > 0
  · rw [if_pos hm]
    exact Bd.raise
  · rw [if_neg hm]
    refine Bd.and (m := 0) (n := st.sessions.length) ((Bd.forEach (k := 1) fun x _ => Bd.last (by simp [whole])).more (by simp)) (fun _ => free_pure) |>.more (by simp)

theorem bd_encrypt {q : Nat} (hk : 16 + q ≤ k) (hq : ∀ ds i, Bd (whole k) (q * ds.length) (M.decide ds i) (fun _ => 0)) {jids : List Jid} {pt : Dict Ns Bytes} {prio : Option (List Ns)}
    {i : Option String} : Bd (whole k) (3 + jids.length) (encrypt M jids pt prio i) (fun _ => 0) := by
  refine Bd.step (k := 2 + jids.length) (by simp [whole]; omega) fun available => ?_
  refine Bd.seq (Bd.liftE (φ := fun _ => 2 + jids.length) fun _ _ => Nat.le_refl _) fun order => ?_
  have hj : (setUnion jids [M.ownJid]).length ≤ jids.length + 1 := Nat.le_trans (dedup_le _) (by simp)
  refine Bd.seq (((bd_recipients (e := 9 + q) (by omega)).frame 1).more (by omega)) fun x => ?_
  refine Bd.seq (((bd_decide (e := 6) hq).frame 1).more (by rw [show 3 + q + 6 = 9 + q by omega]; omega)) fun ds => ?_
  exact bd_trusted.more (by omega)

/-! ### The other calls -/

theorem bd_backends {n m : Nat} {f : List Ns → P α} (hm : m ≤ k) {ψ : α → Nat} (h : ∀ bs, Bd (whole k) (n + m * bs.length) (f bs) ψ) : Bd (whole k) (n + 1) (Verif.call .getBackends >>= f) ψ := by
  refine Bd.seq (φ := fun bs : List Ns => n + m * bs.length) (Bd.call (by simp [whole]) fun bs _ => ?_) h
  have := Nat.mul_le_mul_right bs.length hm
  simp [whole, answered]
  omega

theorem bd_replace (hk : 7 ≤ k) : Bd (whole k) 3 (replaceSessions M jid d) (fun _ => 0) := by
  refine Bd.and (n := 1) (m := 2) (bd_info hk) fun devs => Bd.seq (Bd.next (φ := fun _ => 2) fun _ => Nat.le_refl _) fun dev => ?_
  refine bd_backends (n := 1) (m := 1) (by omega) fun bs => ?_
  refine Bd.seq (((Bd.filterAll (k := 1) (e := 0) fun ns _ => Bd.step (k := 0) (by simp [whole]) fun _ => free_pure).frame 1).more (by omega)) fun l => ?_
  refine (bd_backends (n := 0) (m := 5) (by omega) fun bs => ?_).more (by omega)
  refine (Bd.fold (k := 5) (fun b ns _ => ?_) _).more (by omega)
  split
  · refine Bd.tryElse (n := 5) (k := 0) ?_ (fun e => ?_) fun _ => free_pure
    · exact Bd.step (k := 4) (by simp [whole]) fun _ => Bd.step (k := 3) (by simp [whole]) fun _ => Bd.step (k := 2) (by simp [whole]) fun _ =>
        Bd.step (k := 1) (by simp [whole]) fun _ => Bd.last (by simp [whole])
    · split
      · exact free_pure
      · exact Bd.raise
  · exact free_pure

theorem bd_consistency (hk : 10 ≤ k) : Bd (whole k) 1 (ensureDataConsistency M) (fun _ => 0) := by
  refine bd_backends (n := 0) (m := 10) hk fun bs => (Bd.forEach (k := 10) fun ns _ => ?_).more (by omega)
  refine Bd.and (n := 7) (m := 3) (bd_refresh (by omega)) fun _ => Bd.step (k := 2) (by simp [whole]) fun b => ?_
  refine Bd.and (n := 1) (m := 1) (Bd.tryElse (n := 1) (k := 0) (Bd.last (by simp [whole])) (fun e => ?_) fun _ => free_pure) fun u => Bd.when (Bd.last (by simp [whole]))
  split
  · exact free_pure
  · exact Bd.raise

theorem bd_collect {ds : List DevId} : Bd (whole k) (2 * ds.length) (collectIdentityKeys jid ds) (fun l => l.length) := by
  refine (Bd.foldI (φ := fun l : List Bytes => l.length) (k := 2) (fun keys d _ => ?_) _).more (by simp)
  refine (((Bd.onNothing (n := 2) (k := 0) (φ := fun l : List Bytes => l.length - keys.length) (load_just fun ik => Bd.ret ?_) (Bd.ret (by simp))).frame keys.length).weaken (by omega) fun l => by omega)
  have := setAdd_le keys ik
  omega

theorem bd_purgeBareJid (hk : 6 ≤ k) : Bd (whole k) 3 (purgeBareJid M jid) (fun _ => 0) := by
  refine Bd.seq (load_list (n := 2)) fun m => ?_
  have hd : 6 * (dedup (Maybe.maybe m [])).length ≤ k * (Maybe.maybe m []).length := Nat.mul_le_mul hk (dedup_le _)
  refine Bd.seq ((bd_collect.frame (2 + 4 * (dedup (Maybe.maybe m [])).length)).more (by rw [SetOrder.length_iter]; omega)) fun keys => ?_
  refine (Bd.and (m := 2 + keys.length) (Bd.forEach (k := 4) fun x _ => ?_) fun _ => ?_).more (by rw [SetOrder.length_iter]; omega)
  · exact Bd.step (k := 3) (by simp [whole]) fun _ => Bd.step (k := 2) (by simp [whole]) fun _ => Bd.step (k := 1) (by simp [whole]) fun _ => Bd.last (by simp [whole])
  refine Bd.step (k := 1 + keys.length) (by simp [whole]; omega) fun _ => ?_
  refine (Bd.and (m := 1) (Bd.forEach (k := 1) fun x _ => Bd.last (by simp [whole])) fun _ => ?_).more (by rw [SetOrder.length_iter]; omega)
  exact bd_backends (n := 0) (m := 1) (by omega) fun bs => (Bd.forEach (k := 1) fun x _ => Bd.last (by simp [whole])).more (by omega)

theorem bd_setOwnLabel (hk : 2 ≤ k) {label : Option String} : Bd (whole k) 2 (setOwnLabel M label) (fun _ => 0) :=
  Bd.step (k := 1) (by simp [whole]) fun _ => bd_backends (n := 0) (m := 2) hk fun bs =>
    (Bd.forEach (k := 2) fun _ _ => Bd.step (k := 1) (by simp [whole]) fun _ => Bd.last (by simp [whole])).more (by omega)

theorem bd_own (hk : 7 ≤ k) : Bd (whole k) 1 (getOwnDeviceInformation M) (fun _ => 0) :=
  Bd.and (m := 0) (bd_info hk) fun _ => Bd.seq (Bd.next (φ := fun _ => 0) fun _ => Nat.le_refl _) fun _ => free_pure

theorem bd_purgeBackend (hk : 7 ≤ k) : Bd (whole k) 9 (purgeBackend M ns) (fun _ => 0) := by
  refine Bd.step (k := 8) (by simp [whole]) fun dl => Bd.and (n := 1) (m := 7) (Bd.when (Bd.last (by simp [whole]))) fun _ => ?_
  refine Bd.and (n := 1) (m := 6) (bd_own hk) fun x => Bd.step (k := 5) (by simp [whole]) fun _ => Bd.step (k := 4) (by simp [whole]) fun _ => ?_
  refine Bd.step (k := 3) (by simp [whole]) fun bs => Bd.step (k := 2) (by simp [whole]) fun _ => ?_
  exact Bd.and (n := 1) (m := 1) (Bd.when (Bd.last (by simp [whole]))) fun _ => Bd.last (by simp [whole])

theorem bd_chain (hk : 1 ≤ k) {dev : DeviceInfo} : Bd (whole k) 1 (getSendingChainLength dev) (fun _ => 0) := by
  refine bd_backends (n := 0) (m := 1) hk fun bs => ?_
  refine (Bd.mapAll' (k := 1) (e := 0) fun x _ => Bd.step (k := 0) (by simp [whole]) fun _ => free_pure).weaken ?_ fun _ => Nat.zero_le _
  have := List.length_filter_le (fun ns => decide (ns ∈ dev.namespaces)) bs
  omega

theorem bd_identity : Bd (whole k) 5 IdentityKeyPair.get (fun _ => 0) := by
  refine Bd.and (n := 5) (m := 0) ((Bd.onNothing (n := 2) (k := 3) (load_just fun _ => load_just fun _ => free_pure) ?_).more (by omega)) fun _ => free_pure
  exact Bd.step (k := 2) (by simp [whole]) fun _ => Bd.step (k := 1) (by simp [whole]) fun _ => Bd.step (k := 0) (by simp [whole]) fun _ => free_pure

/-! ### Creation -/

/-- The namespaces of a device. -/
def width (ds : List DeviceInfo) : Nat := (ds.map fun dev => dev.namespaces.length).sum

theorem width_add {ds : List DeviceInfo} {dev : DeviceInfo} : width (setAdd ds dev) ≤ width ds + dev.namespaces.length := by
  unfold setAdd width
  split <;> simp

theorem width_mem {ds : List DeviceInfo} {dev : DeviceInfo} (h : dev ∈ ds) : dev.namespaces.length ≤ width ds := by
  unfold width
  induction ds with
  | nil => simp at h
  | cons x ds ih =>
    simp only [List.map_cons, List.sum_cons]
    rcases List.mem_cons.1 h with rfl | h
    · omega
    · have := ih h
      omega

theorem bd_deviceInformationW {e : Nat} (hk : 1 + e ≤ k) : Bd (whole k) 7 (deviceInformation M jid d) (fun r => e * (r.elim 0 fun x => x.1.namespaces.length)) := by
  refine Bd.seq (load_list (n := 6)) fun m => Bd.seq (Bd.fromJust (φ := fun l => 6 + k * l.length) fun l hl => by subst hl; exact Nat.le_refl _) fun l => ?_
  have hl : (1 + e) * (dedup l).length ≤ k * l.length := Nat.mul_le_mul hk (dedup_le l)
  rw [Nat.add_mul] at hl
  refine (Bd.and (n := (dedup l).length + 2) (m := 4 + e * (dedup l).length) bd_identityKeyOf fun x => ?_).more (by omega)
  rcases x with _ | ⟨ik, b⟩
  · exact Bd.ret (by simp)
  · refine (load_just (n := 3 + e * (dedup l).length) fun active => (load_just (n := 2 + e * (dedup l).length) fun label => ?_).more (by omega)).more (by omega)
    refine Bd.seq ((load_const (n := 1 + e * (dedup l).length)).more (by omega)) fun level => ?_
    refine Bd.seq (φ := fun nss : List Ns => e * nss.length) ?_ fun nss => Bd.ret (by simp)
    unfold repairNamespaces
    split
    · refine Bd.step (k := e * (dedup l).length) (by simp [whole]) fun _ => Bd.ret (Nat.mul_le_mul_left e (List.length_filter_le _ _))
    · exact Bd.ret (by omega)

theorem bd_infoW {e : Nat} (hk : 7 ≤ k) (he : 1 + e ≤ k) : Bd (whole k) 1 (getDeviceInformation' M jid) (fun x => e * width x.1) := by
  refine Bd.seq (load_list (n := 0)) fun m => ?_
  refine (Bd.foldI (k := 7) (φ := fun x : List DeviceInfo × List Bundle => e * width x.1) (fun dc x _ => ?_) _).more ?_
  · refine Bd.seq (((bd_deviceInformationW he).frame (e * width dc.1)).more (by omega)) fun r => ?_
    have hs := fun dev : DeviceInfo => Nat.mul_le_mul_left e (width_add (ds := dc.1) (dev := dev))
    simp only [Nat.mul_add] at hs
    rcases r with _ | ⟨dev, _ | b⟩
    · exact Bd.ret (by simp)
    · exact Bd.ret (by have := hs dev; simp only [Option.elim]; omega)
    · exact Bd.ret (by have := hs dev; simp only [Option.elim]; omega)
  · rw [SetOrder.length_iter]
    have := dedup_le (Maybe.maybe m [])
    have : 7 * (dedup (Maybe.maybe m [])).length ≤ k * (Maybe.maybe m []).length := Nat.mul_le_mul hk this
    simp [width]
    omega

theorem bd_ownW {e : Nat} (hk : 7 ≤ k) (he : 1 + e ≤ k) : Bd (whole k) 1 (getOwnDeviceInformation M) (fun x => e * x.1.namespaces.length) := by
  refine Bd.seq (φ := fun ds => e * width ds) (Bd.seq (bd_infoW hk he) fun x => Bd.ret (Nat.le_refl _)) fun ds => ?_
  generalize ho : (M.O.iter (setDiff ds (ds.filter fun dev => decide (dev.deviceId ≠ M.ownDev)))).head? = o
  dsimp only
  rw [ho]
  rcases o with _ | dev
  · exact Bd.raise
  · refine Bd.ret ?_
    have h1 : dev ∈ ds := by
      have := List.mem_of_mem_head? ho
      rw [SetOrder.mem_iter] at this
      exact (List.mem_filter.1 this).1
    exact Nat.mul_le_mul_left e (width_mem h1)

theorem bd_handleChanged (hk : 11 ≤ k) : Bd (whole k) 5 (handleChangedBackends M) (fun _ => 0) := by
  refine Bd.seq (((bd_ownW (e := 9) (by omega) (by omega)).frame 4).more (by omega)) fun x => ?_
  refine Bd.step (k := 9 * x.1.namespaces.length + 3) (by simp [whole]; omega) fun loaded => Bd.when ?_
  refine Bd.step (k := 9 * x.1.namespaces.length + 2) (by simp [whole]; omega) fun _ => ?_
  refine Bd.step (k := 9 * x.1.namespaces.length + 1) (by simp [whole]; omega) fun _ => ?_
  refine bd_backends (n := 9 * x.1.namespaces.length) (m := 11) hk fun bs => ?_
  refine (Bd.and (m := 9 * x.1.namespaces.length) (Bd.forEach (k := 11) fun ns _ => Bd.when ?_) fun _ => ?_).more (by omega)
  · exact Bd.and (n := 2) (m := 9) bd_refill fun _ => Bd.step (k := 8) (by simp [whole]) fun _ => Bd.step (k := 7) (by simp [whole]) fun _ => bd_refresh (by omega)
  · refine (Bd.forEach (k := 9) fun ns _ => bd_purgeBackend (by omega)).more ?_
    rw [SetOrder.length_iter]
    exact Nat.mul_le_mul_left 9 (List.length_filter_le _ _)

theorem bd_draw {taken : List DevId} {fuel : Nat} : Bd (whole k) fuel (drawDeviceId taken fuel) (fun _ => 0) := by
  induction fuel with
  | zero => exact Bd.raise
  | succ f ih =>
    refine Bd.step (k := f) (by simp [whole]; omega) fun n => ?_
    dsimp only
    split
    · exact free_pure
    · exact ih

theorem bd_firstRun (hk : 7 ≤ k) {label : Option String} {ik : Bytes} {fuel : Nat} : Bd (whole k) (12 + fuel) (firstRun M label ik fuel) (fun _ => 0) := by
  refine (bd_backends (n := 11 + fuel) (m := 1) (by omega) fun bs => ?_).more (by omega)
  refine (Bd.and (n := bs.length) (m := 11 + fuel) ?_ fun taken => ?_).more (by omega)
  · refine Bd.and (m := 0) ((Bd.mapAll' (k := 1) (e := 0) fun _ _ => Bd.step (k := 0) (by simp [whole]) fun _ => free_pure).weaken (m := bs.length) (by simp) fun _ => Nat.zero_le _) fun _ => free_pure
  refine (Bd.and (n := fuel) (m := 11) bd_draw fun d => ?_).more (by omega)
  refine Bd.step (k := 10) (by simp [whole]) fun bs => Bd.and (n := 7) (m := 3) ?_ fun _ => ?_
  · exact Bd.step (k := 6) (by simp [whole]) fun _ => Bd.step (k := 5) (by simp [whole]) fun _ => Bd.step (k := 4) (by simp [whole]) fun _ =>
      Bd.step (k := 3) (by simp [whole]) fun _ => Bd.step (k := 2) (by simp [whole]) fun _ => Bd.step (k := 1) (by simp [whole]) fun _ => Bd.last (by simp [whole])
  refine bd_backends (n := 2) (m := 1) (by omega) fun bs => (Bd.and (m := 2) (Bd.forEach (k := 1) fun _ _ => Bd.last (by simp [whole])) fun _ => ?_).more (by omega)
  refine bd_backends (n := 1) (m := 2) (by omega) fun bs => (Bd.and (m := 1) (Bd.forEach (k := 2) fun _ _ => Bd.step (k := 1) (by simp [whole]) fun _ => Bd.last (by simp [whole])) fun _ => ?_).more (by omega)
  exact bd_backends (n := 0) (m := 7) hk fun bs => (Bd.and (m := 0) (Bd.forEach (k := 7) fun _ _ => bd_refresh hk) fun _ => free_pure).more (by omega)

theorem bd_create (hk : 11 ≤ k) {bs : List Ns} {label : Option String} {fuel : Nat} : Bd (whole k) (25 + fuel) (create M bs label fuel) (fun _ => 0) := by
  unfold create
  split
  · exact Bd.raise
  split
  · exact Bd.raise
  refine Bd.step (k := 24 + fuel) (by simp [whole]; omega) fun _ => ?_
  refine (Bd.and (n := 5) (m := 19 + fuel) bd_identity fun ikp => ?_).more (by omega)
  refine Bd.step (k := 18 + fuel) (by simp [whole]; omega) fun _ => ?_
  refine (Bd.and (n := 13 + fuel) (m := 5) ((Bd.onNothing (n := 1) (k := 12 + fuel) ?_ (bd_firstRun (by omega))).more (by omega)) fun d => ?_).more (by omega)
  · exact Bd.seq (load_const (n := 0)) fun _ => Bd.fromJust fun _ _ => Nat.le_refl _
  · exact Bd.and (n := 5) (m := 0) (bd_handleChanged hk) fun _ => free_pure

end
end Work

namespace Spec

/-- What the application passes to a call. -/
def named : Call → Nat
  | .updateDeviceList _ _ dl => 3 * dl.length
  | .encrypt jids _ _ _ => jids.length
  | .create _ _ draws => draws
  | _ => 0

/-- The trust decision takes at most `q` interactions for each device it is asked about. -/
def Brief (q : Nat) (M : Mgr) : Prop := ∀ ds i t r, Exec (M.decide ds i) t r → t.length ≤ q * ds.length

end Spec

namespace Work
theorem total_one (t : List Ev) : total (fun _ => 1) t = t.length := by
  induction t with
  | nil => rfl
  | cons e t ih => simp [total] at *; omega

theorem total_mul (k : Nat) (f : Ev → Nat) (t : List Ev) : total (fun e => k * f e) t = k * total f t := by
  induction t with
  | nil => rfl
  | cons e t ih => simp [total, Nat.mul_add] at *; omega

theorem bd_run {M : Mgr} {q : Nat} (hq : Brief q M) (c : Call) (hr : ∀ p f n, c ≠ .rotation p f n) :
    Bd (whole (16 + q)) (26 + named c) (c.run M) (fun _ => 0) := by
  have hq' : ∀ ds i, Bd (whole (16 + q)) (q * ds.length) (M.decide ds i) (fun _ => 0) := by
    intro ds i t r he _
    have h1 := hq ds i t r he
    have h2 := total_one t
    have h3 : left (fun _ : Unit => 0) r = 0 := by cases r <;> rfl
    simp only [whole] at *
    omega
  have drop : ∀ {α : Type} {p : P α} {n : Nat}, Bd (whole (16 + q)) n p (fun _ => 0) → Bd (whole (16 + q)) n (p >>= fun _ => Pure.pure ()) (fun _ => 0) :=
    fun h => (Bd.and (m := 0) h fun _ => free_pure)
  cases c with
  | getIdentityKeyPair => exact (drop bd_identity).more (by simp [named])
  | create bs l f => exact (drop (bd_create (by omega))).more (by simp [named])
  | rotation p f n => exact absurd rfl (hr p f n)
  | purgeBackend ns => exact (bd_purgeBackend (by omega)).more (by simp [named])
  | purgeBareJid j => exact (bd_purgeBareJid (by omega)).more (by simp [named])
  | ensureDataConsistency => exact (bd_consistency (by omega)).more (by simp [named])
  | updateDeviceList ns j dl => exact (bd_update (by omega)).more (by simp [named])
  | refreshDeviceList ns j => exact (bd_refresh (by omega)).more (by simp [named])
  | refreshDeviceLists j => exact (bd_lists (by omega)).more (by simp [named])
  | setTrust j ik l => exact Bd.last (by simp [whole]; omega)
  | replaceSessions j d => exact (drop (bd_replace (by omega))).more (by simp [named])
  | getSendingChainLength dev => exact (drop (bd_chain (by omega))).more (by simp [named])
  | setOwnLabel l => exact (bd_setOwnLabel (by omega)).more (by simp [named])
  | getDeviceInformation j => exact (drop (bd_info (by omega))).more (by simp [named])
  | getOwnDeviceInformation => exact (drop (bd_own (by omega))).more (by simp [named])
  | beforeHistorySync => exact Bd.last (by simp [whole]; omega)
  | afterHistorySync => exact (bd_after (by omega)).more (by simp [named])
  | encrypt jids pt prio i => exact (drop (bd_encrypt (by omega) hq')).more (by simp [named])
  | decrypt msg => exact (drop (bd_decrypt (by omega))).more (by simp [named])

/-! ### Requests to servers -/

def requests : Tariff := { cost := Op.network, credit := namespacesRead, holds := fun _ => True }

variable {α : Type} {M : Mgr} {ns : Ns} {jid : Jid} {d : DevId}

theorem quiet {p : P α} (h : AllOps (fun o : Op => Op.network o = 0) p) : Bd requests 0 p (fun _ => 0) := by
  intro t r he _
  have h1 := h.exec he
  have h2 : total (fun e => requests.cost e.1) t = 0 := by
    clear he
    rename_i hh
    clear hh
    induction t with
    | nil => rfl
    | cons e t ih =>
      have h2 := h1 e List.mem_cons_self
      have h3 := ih fun x hx => h1 x (List.mem_cons_of_mem _ hx)
      simp only [total, requests, List.map_cons, List.sum_cons] at *
      omega
  have h3 : left (fun _ : α => 0) r = 0 := by cases r <;> rfl
  omega

abbrev Offline (p : P α) : Prop := AllOps (fun o : Op => Op.network o = 0) p

theorem off_repair {nss : List Ns} {a : Dict Ns Bool} : Offline (repairNamespaces M jid d nss a) := by unfold repairNamespaces; lib_ops [] <;> rfl
theorem off_new {dl : DevList} : Offline (addNewDevice ns jid dl d) := by unfold addNewDevice; lib_ops [] <;> rfl
theorem off_listed {l : Option String} {nss : List Ns} {a : Dict Ns Bool} : Offline (updateListed M ns jid d l nss a) := by unfold updateListed; lib_ops [] <;> rfl
theorem off_unlisted {nss : List Ns} {a : Dict Ns Bool} : Offline (updateUnlisted ns jid d nss a) := by unfold updateUnlisted; lib_ops [] <;> rfl
theorem off_known {dl : DevList} : Offline (updateKnownDevice M ns jid dl d) := by
  unfold updateKnownDevice
  lib_ops [off_listed, off_unlisted] <;> rfl
theorem off_keyMaterial {msg : Message} {dev : DeviceInfo} {ekm : EncKM} {kex : Option KeyExchange} : Offline (keyMaterial M msg dev ekm kex) := by
  unfold keyMaterial decryptKeyMaterial handleKeyExchange
  lib_ops [] <;> rfl
theorem off_plaintext {msg : Message} {km : PlainKM} : Offline (plaintextOf msg km) := by unfold plaintextOf; lib_ops [] <;> rfl
theorem off_content {msg : Message} {dev : DeviceInfo} {ekm : EncKM} {kex : Option KeyExchange} : Offline (decryptContent M msg dev ekm kex) := by
  unfold decryptContent
  lib_ops [off_keyMaterial, off_plaintext] <;> rfl
theorem off_discard {b : Bool} {s : Session} : Offline (discardPreKey ns b s) := by unfold discardPreKey; lib_ops [] <;> rfl
theorem off_refill : Offline (refillPreKeys M ns) := by unfold refillPreKeys; lib_ops [] <;> rfl
theorem off_queue {s : Session} : Offline (queueEmpty M s) := by unfold queueEmpty; lib_ops [] <;> rfl

theorem rq_fetch {nss : List Ns} : Bd requests nss.length (fetchIdentityKey jid d nss) (fun _ => 0) := by
  induction nss with
  | nil => exact free_ret
  | cons x nss ih =>
    refine (Bd.tryElse (n := 1) (k := nss.length) (Bd.last (by simp [requests, Op.network])) (fun e => ?_) fun b => ?_).more (by simp; omega)
    · split
      · exact ih
      · exact Bd.raise
    · exact Bd.step (k := 0) (by simp [requests, Op.network]) fun _ => free_ret

theorem rq_namespaces : Bd requests 0 (Sto.loadStrs (.devNamespaces jid d)) (fun m => (Maybe.maybe m []).length) := by
  refine Bd.seq (φ := fun m : Option JVal => m.elim 0 entries) (Bd.call (by simp [requests, Op.network]) fun a _ => ?_) fun m => Bd.fmap ?_
  · cases a <;> simp [requests, Op.network, namespacesRead]
  · rintro x (⟨rfl, rfl⟩ | ⟨v, l, rfl, hc, rfl⟩)
    · simp [Maybe.maybe]
    · cases v with
      | list l0 =>
        simp only [checkList] at hc
        split at hc
        · cases hc; simp [Maybe.maybe, entries]
        · cases hc
      | _ => cases hc

theorem rq_deviceInformation : Bd requests 0 (deviceInformation M jid d) (fun _ => 0) := by
  refine Bd.seq rq_namespaces fun m => Bd.seq (Bd.fromJust (φ := fun l => l.length) fun l hl => by subst hl; exact Nat.le_refl _) fun l => ?_
  refine (Bd.and (n := (dedup l).length) (m := 0) ?_ fun x => ?_).more (dedup_le l)
  · refine (Bd.onNothing (n := 0) (k := (dedup l).length) (quiet (by lib_ops [] <;> rfl)) ?_).more (by omega)
    refine (Bd.and (m := 0) rq_fetch fun m => ?_).more (by simp)
    cases m <;> exact free_pure
  · rcases x with _ | ⟨ik, b⟩
    · exact free_pure
    · exact quiet (by lib_ops [off_repair] <;> rfl)

theorem rq_info : Bd requests 0 (getDeviceInformation M jid) (fun _ => 0) := by
  refine Bd.and (n := 0) (m := 0) (Bd.and (n := 0) (m := 0) (quiet (by lib_ops [] <;> rfl)) fun m => ?_) fun _ => free_pure
  refine (Bd.fold (k := 0) (fun dc x _ => ?_) _).more (by simp)
  refine (Bd.and (n := 0) (m := 0) rq_deviceInformation fun r => ?_)
  rcases r with _ | ⟨dev, _ | b⟩ <;> exact free_pure

theorem rq_update {dl : DevList} : Bd requests 1 (updateDeviceList M ns jid dl) (fun _ => 0) := by
  refine Bd.step (k := 1) (by simp [requests, Op.network]) fun bs => ?_
  split
  · exact Bd.raise
  · refine Bd.and (n := 0) (m := 1) (quiet (by lib_ops [] <;> rfl)) fun m => Bd.and (n := 1) (m := 0) ?_ fun dl' => ?_
    · unfold ensureOwnListed
      split
      · refine Bd.step (k := 1) (by simp [requests, Op.network]) fun _ => ?_
        split
        · refine Bd.and (n := 0) (m := 1) (quiet (by lib_ops [] <;> rfl)) fun l => Bd.and (n := 0) (m := 1) (quiet (by lib_ops [] <;> rfl)) fun l => ?_
          exact Bd.step (k := 0) (by simp [requests, Op.network]) fun _ => free_pure
        · exact free_pure
      · exact free_pure
    · exact quiet (by lib_ops [off_new, off_known] <;> rfl)

theorem rq_decrypt {msg : Message} : Bd requests 4 (decrypt M msg) (fun _ => 0) := by
  refine Bd.step (k := 4) (by simp [requests, Op.network]) fun bs => ?_
  split
  · exact Bd.raise
  split
  · exact Bd.raise
  refine Bd.and (n := 2) (m := 2) (Bd.and (n := 0) (m := 2) rq_info fun devs => ?_) fun dev => Bd.and (n := 0) (m := 2) ?_ fun x => Bd.and (n := 2) (m := 0) ?_ fun _ => free_pure
  · split
    · exact free_pure
    · refine Bd.and (n := 2) (m := 0) (Bd.step (k := 1) (by simp [requests, Op.network]) fun dl => rq_update) fun _ => Bd.and (n := 0) (m := 0) rq_info fun devs => ?_
      split
      · exact free_pure
      · exact Bd.raise
  · exact quiet off_content
  · refine Bd.step (k := 2) (by simp [requests, Op.network]) fun _ => Bd.and (n := 1) (m := 1) (Bd.when ?_) fun _ => Bd.when ?_
    · refine Bd.and (n := 0) (m := 1) (quiet (by lib_ops [] <;> rfl)) fun s => Bd.and (n := 0) (m := 1) (quiet off_discard) fun ch => Bd.when ?_
      exact Bd.and (n := 0) (m := 1) (quiet off_refill) fun _ => Bd.step (k := 1) (by simp [requests, Op.network]) fun _ => Bd.last (by simp [requests, Op.network])
    · refine Bd.step (k := 1) (by simp [requests, Op.network]) fun sync => ?_
      split
      · exact (quiet off_queue).more (by omega)
      · exact Bd.step (k := 1) (by simp [requests, Op.network]) fun _ => Bd.step (k := 1) (by simp [requests, Op.network]) fun _ => Bd.step (k := 0) (by simp [requests, Op.network]) fun _ =>
          Bd.last (by simp [requests, Op.network])

theorem not_left {n : Nat} {T : Tariff} {p : P α} (h : Bd T n p (fun _ => 0)) {t : List Ev} {r : Res Exn α} (he : Exec p t r) (ht : ∀ e ∈ t, T.holds e) :
    total (fun e => T.cost e.1) t ≤ n + total T.credit t := Nat.le_trans (Nat.le_add_right _ _) (h t r he ht)

end Work

/-- C117: the work of every call is linear in what it is given and in what it reads. -/
theorem C117 (M : Mgr) (q : Nat) (hq : Brief q M) (c : Call) (hr : ∀ p f n, c ≠ .rotation p f n) (t : List Ev) (r : Res Exn Unit) (he : Exec (c.run M) t r) (hb : BackendsOnce t) :
    t.length ≤ 26 + named c + (16 + q) * total answered t := by
  have h := Work.not_left (Work.bd_run hq c hr) he fun e hm bs hbs => hb bs (by simp at hbs; exact hbs ▸ hm)
  simp only [Work.whole] at h
  rwa [Work.total_one, Work.total_mul] at h

/-- C117: a message that is received causes at most four requests to servers, and one for each namespace that is stored for a device of the sender. -/
theorem C117_requests (M : Mgr) (msg : Message) (t : List Ev) (r : Res Exn (Option Bytes × DeviceInfo × PlainKM)) (he : Exec (decrypt M msg) t r) :
    total (fun e => Op.network e.1) t ≤ 4 + total namespacesRead t := Work.not_left Work.rq_decrypt he fun _ _ => trivial

/-- C117: a device list that is received causes at most one request. -/
theorem C117_list (M : Mgr) (ns : Ns) (jid : Jid) (dl : DevList) (t : List Ev) (r : Res Exn Unit) (he : Exec (updateDeviceList M ns jid dl) t r) :
    total (fun e => Op.network e.1) t ≤ 1 + total namespacesRead t := Work.not_left Work.rq_update he fun _ _ => trivial

/-! ### Example -/

namespace Work

/-- The sender has one device, on the list that can be downloaded. -/
def listing : Friendly where
  answer w o := match o with
    | .downloadList _ j => .ok (if j = "a" then [(7, none)] else [])
    | o => (Attribution.world 7).answer w o
  ok w o e h := by
    cases o <;> first
      | (cases h; done)
      | exact (Attribution.world 7).ok w _ e h

theorem brief_ex : Brief 0 Mgr.ex := by
  intro ds i t r he
  cases he
  simp

def onceB (e : Ev) : Bool := match e with
  | ⟨.getBackends, .ok l⟩ => decide l.Nodup
  | _ => true

theorem once_of {t : List Ev} (h : t.all onceB = true) : BackendsOnce t := by
  intro bs hm
  have := List.all_eq_true.1 h _ hm
  exact of_decide_eq_true this

end Work

/-- The first message of an unknown device: its list and bundle are downloaded, a reply is queued, 32 interactions in all. -/
theorem C117_example : ∃ t r, Brief 0 Mgr.ex ∧ Exec (Call.run Mgr.ex (.decrypt Attribution.hello)) t (.ok r) ∧ BackendsOnce t ∧ t.length = 32 ∧ total answered t = 8 ∧
    total (fun e => Op.network e.1) t = 3 ∧ total namespacesRead t = 1 := by
  generalize hw : Use.started.world = w
  have key : ((Work.listing.run (Call.run Mgr.ex (.decrypt Attribution.hello)) w).2.1 matches .ok _) = true ∧ (Work.listing.run (Call.run Mgr.ex (.decrypt Attribution.hello)) w).1.all Work.onceB = true ∧
      (Work.listing.run (Call.run Mgr.ex (.decrypt Attribution.hello)) w).1.length = 32 ∧ total answered (Work.listing.run (Call.run Mgr.ex (.decrypt Attribution.hello)) w).1 = 8 ∧
      total (fun e => Op.network e.1) (Work.listing.run (Call.run Mgr.ex (.decrypt Attribution.hello)) w).1 = 3 ∧
      total namespacesRead (Work.listing.run (Call.run Mgr.ex (.decrypt Attribution.hello)) w).1 = 1 := by
    subst hw
    decide +kernel
  have he := Work.listing.exec (Call.run Mgr.ex (.decrypt Attribution.hello)) w
  revert he key
  generalize Work.listing.run (Call.run Mgr.ex (.decrypt Attribution.hello)) w = z
  obtain ⟨t, r, w'⟩ := z
  rintro ⟨h1, h2, h3, h4, h5, h6⟩ he
  cases r with
  | ok a => exact ⟨t, a, Work.brief_ex, he, Work.once_of h2, h3, h4, h5, h6⟩
  | raised e => cases h1
  | crashed => cases h1

end Verif
