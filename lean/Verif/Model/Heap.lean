import Verif.Model.Types
/-
omemo/storage.py once more, at the level of Python objects and references, for properties about in-place mutation of
lists and dictionaries.
-/
namespace Verif.Heap

/-- What kind of object it is: an immutable value, a list, or a dictionary with the given keys. -/
inductive Kind where
  | atom (v : String)
  | list
  | dict (keys : List String)
deriving DecidableEq, Repr

/-- A Python object: its kind and the references it contains.  References are addresses, numbers. -/
structure Obj where
  kind : Kind
  kids : List Nat
deriving DecidableEq, Repr

/-- The heap: the object at each address. -/
abbrev Heap := List Obj

/-- An object with all references moved by `n`. -/
def Obj.shift (n : Nat) (o : Obj) : Obj := { o with kids := o.kids.map (· + n) }

/-- `copy.deepcopy(x)` for the object at `a`: fresh copies of all objects, with the copies referring to copies, so that
sharing and cycles are preserved.  Simplified: objects that are not reachable from `a` are copied as well;
nothing refers to those copies. -/
def deepcopy (h : Heap) (a : Nat) : Heap × Nat := (h ++ h.map (Obj.shift h.length), a + h.length)

/-- A `Maybe` object as held by the cache or by a caller: `none` is `Nothing`, `some a` is a `Just` whose private field
refers to `a`. -/
abbrev MaybeRef := Option Nat

/-- The state of the process: the heap, what the cache of one `Storage` refers to (storage.py:190), the references held by
code outside of storage.py (application, rest of the library, the storage implementation), and the
`Maybe` objects it holds. -/
structure St where
  heap : Heap
  cache : Key → Option MaybeRef
  roots : List Nat
  maybes : List MaybeRef

/-- `Just(value)` (storage.py:133-141): keeps a deep copy. -/
def just (s : St) (a : Nat) : St × MaybeRef :=
  let (h, b) := deepcopy s.heap a
  ({ s with heap := h }, some b)

/-- `Maybe.from_just` and `Maybe.maybe` of a `Just` (storage.py:151-155): hands out a deep copy. -/
def fromJust (s : St) (a : Nat) : St :=
  let (h, b) := deepcopy s.heap a
  { s with heap := h, roots := b :: s.roots }

/-- `Storage.store` (storage.py:255-270) with enabled cache, when `_store` has returned. -/
def store (s : St) (k : Key) (a : Nat) : St :=
  let (s, m) := just s a
  { s with cache := fun k' => if k' = k then some m else s.cache k' }

/-- `Storage.delete` (storage.py:272-287) with enabled cache, when `_delete` has returned. -/
def delete (s : St) (k : Key) : St := { s with cache := fun k' => if k' = k then some none else s.cache k' }

/-- `Storage.load` (storage.py:233-253) with enabled cache.  `raw` is what `_load` returned if it was called: `none` for
`Nothing()`, `some a` for a `Just` made from the object at `a`. -/
def load (s : St) (k : Key) (raw : Option Nat) : St × MaybeRef :=
  match s.cache k with
  | some m => ({ s with maybes := m :: s.maybes }, m)
  | none =>
    let (s, m) : St × MaybeRef := match raw with
      | none => (s, none)
      | some a => just s a
    ({ s with cache := fun k' => if k' = k then some m else s.cache k', maybes := m :: s.maybes }, m)

/-- The value an object stands for: the tree obtained by following references. -/
inductive Tree where
  | cut
  | node (kind : Kind) (kids : List Tree)

/-- The first `n` levels of the object at `a`. -/
def view (h : Heap) : Nat → Nat → Tree
  | 0, _ => .cut
  | n + 1, a => match h[a]? with
    | none => .cut
    | some o => .node o.kind (o.kids.map (view h n))

/-- A value: all of its levels. -/
abbrev Val := Nat → Tree

/-- The value of the object at `a`. -/
def value (h : Heap) (a : Nat) : Val := fun n => view h n a

/-- What is visible of one step from outside. -/
inductive Obs where
  | stored (k : Key) (v : Val)
  | deleted (k : Key)
  /-- `load` returned a new `Maybe` object with this content -/
  | loaded (k : Key) (v : Option Val)
  /-- a `Just` was made from an object of this value -/
  | wrapped (v : Val)
  /-- `from_just`/`maybe` of the `i`-th `Maybe` object returned an object of this value -/
  | unwrapped (i : Nat) (v : Val)
  | silent

/-- One step: code outside of storage.py works on the objects it can reach, or calls storage.py.  `fmap` is `from_just`, steps
of the mapped function, and `Just(...)` (storage.py:157-158). -/
inductive Step : St → Obs → St → Prop where
  /-- create an object -/
  | alloc (s : St) (o : Obj) (h : ∀ c ∈ o.kids, c ∈ s.roots) :
      Step s .silent { s with heap := s.heap ++ [o], roots := s.heap.length :: s.roots }
  /-- follow a reference -/
  | deref (s : St) (a c : Nat) (o : Obj) (ha : a ∈ s.roots) (ho : s.heap[a]? = some o) (hc : c ∈ o.kids) :
      Step s .silent { s with roots := c :: s.roots }
  /-- change an object in place -/
  | mutate (s : St) (a : Nat) (o : Obj) (ha : a ∈ s.roots) (h : ∀ c ∈ o.kids, c ∈ s.roots) :
      Step s .silent { s with heap := s.heap.set a o }
  | store (s : St) (k : Key) (a : Nat) (ha : a ∈ s.roots) :
      Step s (.stored k (value s.heap a)) (store s k a)
  | delete (s : St) (k : Key) : Step s (.deleted k) (delete s k)
  | load (s : St) (k : Key) (raw : Option Nat) (h : ∀ a, raw = some a → a ∈ s.roots) :
      Step s (.loaded k ((load s k raw).2.map (value (load s k raw).1.heap))) (load s k raw).1
  | wrap (s : St) (a : Nat) (ha : a ∈ s.roots) :
      Step s (.wrapped (value s.heap a)) { (just s a).1 with maybes := (just s a).2 :: s.maybes }
  | unwrap (s : St) (i : Nat) (a : Nat) (h : s.maybes.reverse[i]? = some (some a)) :
      Step s (.unwrapped i (value (fromJust s a).heap (a + s.heap.length))) (fromJust s a)

/-- A history. -/
inductive Steps : St → List Obs → St → Prop where
  | nil (s : St) : Steps s [] s
  | cons {s s' s'' : St} {o : Obs} {t : List Obs} : Step s o s' → Steps s' t s'' → Steps s (o :: t) s''

/-- A fresh process with an empty cache. -/
def init : St := ⟨[], fun _ => none, [], []⟩

end Verif.Heap
