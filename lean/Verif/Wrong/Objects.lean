import Verif.Props.Isolation
/-
Wrong ways of handing objects to and out of a storage, and the claim that rejects them (C05).  See Wrong/Encrypt.lean for the method.
-/
namespace Verif
namespace Wrong
open Heap

/-- What `Just(...)` does with the object it gets, and what `from_just` does with the one it has: the heap afterwards, and the object that is
kept or handed out. -/
structure Copies where
  keep : Heap → Nat → Heap × Nat
  give : Heap → Nat → Heap × Nat

/-- As in the code (storage.py:133-141, 151-155). -/
def rightCopies : Copies := ⟨deepcopy, deepcopy⟩

def justBy (c : Copies) (s : St) (a : Nat) : St × MaybeRef := ({ s with heap := (c.keep s.heap a).1 }, some (c.keep s.heap a).2)

def giveBy (c : Copies) (s : St) (a : Nat) : St := { s with heap := (c.give s.heap a).1, roots := (c.give s.heap a).2 :: s.roots }

def storeBy (c : Copies) (s : St) (k : Key) (a : Nat) : St :=
  { (justBy c s a).1 with cache := fun k' => if k' = k then some (justBy c s a).2 else s.cache k' }

def loadBy (c : Copies) (s : St) (k : Key) (raw : Option Nat) : St × MaybeRef :=
  match s.cache k with
  | some m => ({ s with maybes := m :: s.maybes }, m)
  | none =>
    let (s, m) : St × MaybeRef := match raw with
      | none => (s, none)
      | some a => justBy c s a
    ({ s with cache := fun k' => if k' = k then some m else s.cache k', maybes := m :: s.maybes }, m)

/-- `Step` with other ways of copying. -/
inductive StepBy (c : Copies) : St → Obs → St → Prop where
  | alloc (s : St) (o : Obj) (h : ∀ c ∈ o.kids, c ∈ s.roots) :
      StepBy c s .silent { s with heap := s.heap ++ [o], roots := s.heap.length :: s.roots }
  | deref (s : St) (a x : Nat) (o : Obj) (ha : a ∈ s.roots) (ho : s.heap[a]? = some o) (hc : x ∈ o.kids) :
      StepBy c s .silent { s with roots := x :: s.roots }
  | mutate (s : St) (a : Nat) (o : Obj) (ha : a ∈ s.roots) (h : ∀ c ∈ o.kids, c ∈ s.roots) :
      StepBy c s .silent { s with heap := s.heap.set a o }
  | store (s : St) (k : Key) (a : Nat) (ha : a ∈ s.roots) :
      StepBy c s (.stored k (value s.heap a)) (storeBy c s k a)
  | delete (s : St) (k : Key) : StepBy c s (.deleted k) (delete s k)
  | load (s : St) (k : Key) (raw : Option Nat) (h : ∀ a, raw = some a → a ∈ s.roots) :
      StepBy c s (.loaded k ((loadBy c s k raw).2.map (value (loadBy c s k raw).1.heap))) (loadBy c s k raw).1
  | wrap (s : St) (a : Nat) (ha : a ∈ s.roots) :
      StepBy c s (.wrapped (value s.heap a)) { (justBy c s a).1 with maybes := (justBy c s a).2 :: s.maybes }
  | unwrap (s : St) (i : Nat) (a : Nat) (h : s.maybes.reverse[i]? = some (some a)) :
      StepBy c s (.unwrapped i (value (giveBy c s a).heap (c.give s.heap a).2)) (giveBy c s a)

inductive StepsBy (c : Copies) : St → List Obs → St → Prop where
  | nil (s : St) : StepsBy c s [] s
  | cons {s s' s'' : St} {o : Obs} {t : List Obs} : StepBy c s o s' → StepsBy c s' t s'' → StepsBy c s (o :: t) s''

theorem loadBy_right (s : St) (k : Key) (raw : Option Nat) : loadBy rightCopies s k raw = load s k raw := by
  unfold loadBy load
  cases s.cache k with
  | some m => rfl
  | none => cases raw <;> rfl

/-- With the copies of the code the steps are those of the model. -/
theorem stepBy_right {s o s'} (h : StepBy rightCopies s o s') : Step s o s' := by
  cases h with
  | alloc o h => exact .alloc s o h
  | deref a x o ha ho hc => exact .deref s a x o ha ho hc
  | mutate a o ha h => exact .mutate s a o ha h
  | store k a ha => exact .store s k a ha
  | delete k => exact .delete s k
  | load k raw h => rw [loadBy_right]; exact .load s k raw h
  | wrap a ha => exact .wrap s a ha
  | unwrap i a h => exact .unwrap s i a h

theorem stepsBy_right {s t s'} (h : StepsBy rightCopies s t s') : Steps s t s' := by
  induction h with
  | nil s => exact .nil s
  | cons h _ ih => exact .cons (stepBy_right h) ih

/-- C05 for a way of copying. -/
def C05 (c : Copies) : Prop := ∀ (t : List Obs) (s : St), StepsBy c init t s → Isolated (fun _ => none) [] t

theorem C05_real : C05 rightCopies := fun t s h => C05_isolation t s (stepsBy_right h)

/-- `Just` keeps the object it is given (storage.py:141: no copy). -/
def aliasing : Copies := { rightCopies with keep := fun h a => (h, a) }

theorem C05_aliasing : ¬ C05 aliasing := by
  intro hc
  have h := hc _ _ (.cons (.alloc _ ⟨.list, []⟩ (by simp)) (.cons (.store _ .ownDeviceId 0 (by simp [init]))
    (.cons (.mutate _ 0 ⟨.list, [0]⟩ (by simp [init, storeBy, justBy]) (by simp [init, storeBy, justBy])) (.cons (.load _ .ownDeviceId none (by simp)) (.nil _)))))
  have := congrFun (Option.some.inj (h.1 _ rfl)) 1
  simp [init, storeBy, loadBy, justBy, aliasing, value, view] at this

/-- `from_just` hands out the object that is kept (storage.py:151-155: no copy). -/
def exposing : Copies := { rightCopies with give := fun h a => (h, a) }

theorem C05_exposing : ¬ C05 exposing := by
  intro hc
  have h := hc _ _ (.cons (.alloc _ ⟨.list, []⟩ (by simp)) (.cons (.store _ .ownDeviceId 0 (by simp [init]))
    (.cons (.load _ .ownDeviceId none (by simp)) (.cons (.unwrap _ 0 1 rfl)
    (.cons (.mutate _ 1 ⟨.list, [1]⟩ (by simp [giveBy, exposing]) (by simp [giveBy, exposing]))
    (.cons (.load _ .ownDeviceId none (by simp)) (.nil _)))))))
  have := congrFun (Option.some.inj (h.2.2.1 _ rfl)) 1
  simp [init, storeBy, loadBy, justBy, giveBy, exposing, rightCopies, deepcopy, Obj.shift, value, view] at this

/-- `copy.copy(x)`: only the object itself is copied. -/
def shallow (h : Heap) (a : Nat) : Heap × Nat := (h ++ (h[a]?).toList, h.length)

/-- Objects are copied, but not what they contain (storage.py:141: `copy` in place of `deepcopy`). -/
def superficial : Copies := { rightCopies with keep := shallow }

theorem C05_superficial : ¬ C05 superficial := by
  intro hc
  have h := hc _ _ (.cons (.alloc _ ⟨.list, []⟩ (by simp)) (.cons (.alloc _ ⟨.list, [0]⟩ (by simp [init])) (.cons (.store _ .ownDeviceId 1 (by simp [init]))
    (.cons (.mutate _ 0 ⟨.list, [0]⟩ (by simp [init, storeBy, justBy]) (by simp [init, storeBy, justBy])) (.cons (.load _ .ownDeviceId none (by simp)) (.nil _))))))
  have := congrFun (Option.some.inj (h.1 _ rfl)) 2
  simp [init, storeBy, loadBy, justBy, superficial, shallow, value, view] at this

end Wrong
end Verif
