import Verif.Model.Types
/-
omemo/storage.py
-/
namespace Verif

/-! ### Type checks of the typed load methods -/

/-- The classes accepted as `primitive` (storage.py:161, `PrimitiveTypeT`). -/
inductive PyType where
  | none | float | int | str | bool
deriving DecidableEq, Repr

/-- `isinstance(value, primitive)`; note that in Python `bool` is a subclass of `int`. -/
def isInstance : JVal → PyType → Bool
  | .null, .none => true
  | .float _, .float => true
  | .int _, .int => true
  | .bool _, .int => true
  | .bool _, .bool => true
  | .str _, .str => true
  | _, _ => false

/-- `check_type` in `load_primitive` (storage.py:318-321). -/
def checkPrimitive (ty : PyType) (v : JVal) : Except Exn JVal :=
  if isInstance v ty then .ok v else .error .typeError

/-- `check_type` in `load_bytes` (storage.py:339-342). -/
def checkBytes : JVal → Except Exn Bytes
  | .str s => match Base64.decode s with
    | some b => .ok b
    | none => .error .valueError
  | _ => .error .typeError

/-- `check_type` in `load_optional` (storage.py:365-368). -/
def checkOptional (ty : PyType) (v : JVal) : Except Exn JVal :=
  match v with
  | .null => .ok .null
  | v => if isInstance v ty then .ok v else .error .typeError

/-- `check_type` in `load_list` (storage.py:387-390). -/
def checkList (ty : PyType) (v : JVal) : Except Exn (List JVal) :=
  match v with
  | .list l => if l.all (isInstance · ty) then .ok l else .error .typeError
  | _ => .error .typeError

/-- `check_type` in `load_dict` (storage.py:413-417). -/
def checkDict (ty : PyType) (v : JVal) : Except Exn (Dict String JVal) :=
  match v with
  | .dict l => if l.all (fun x => isInstance x.2 ty) then .ok l else .error .typeError
  | _ => .error .typeError

section Maybe
variable {S : Sig} {α β : Type}

/-- `Maybe.fmap` with a function that may raise (storage.py:124-125, 157-158). -/
def Maybe.fmap (f : α → Except Exn β) : Option α → Prog S Exn (Option β)
  | none => .ret none
  | some a => match f a with
    | .ok b => .ret (some b)
    | .error e => .raise e

/-- `Maybe.from_just` (storage.py:118-119, 151-152). -/
def Maybe.fromJust : Option α → Prog S Exn α
  | some a => .ret a
  | none => .raise .nothingException

/-- `Maybe.maybe` (storage.py:121-122, 154-155). -/
def Maybe.maybe (m : Option α) (default : α) : α :=
  match m with
  | some a => a
  | none => default

end Maybe

/-! ### The storage class with its cache, over the abstract `_load`, `_store`, `_delete` -/

/-- What `Storage` itself interacts with: the three abstract methods (storage.py:192-231) and its private
cache dictionary (storage.py:190).  `other` is everything that is not storage access. -/
inductive ROp where
  | rawLoad (k : Key)
  | rawStore (k : Key) (v : JVal)
  | rawDelete (k : Key)
  /-- `key in self.__cache`, `self.__cache[key]` -/
  | cacheGet (k : Key)
  /-- `self.__cache[key] = ...` -/
  | cacheSet (k : Key) (m : Option JVal)
  | other (o : Op)

@[reducible] def ROp.Ret : ROp → Type
  | .rawLoad _ => Option JVal
  | .cacheGet _ => Option (Option JVal)
  | .other o => o.Ret
  | _ => Unit

abbrev RawSig : Sig := ⟨ROp, ROp.Ret⟩

/-- A program at the level of raw storage. -/
abbrev R (α : Type) := Prog RawSig Exn α

abbrev rcall (o : ROp) : R o.Ret := Prog.perform (S := RawSig) o

namespace Storage

/-- `Storage.load` (storage.py:233-253).  `cached` is whether the cache is enabled. -/
def load (cached : Bool) (k : Key) : R (Option JVal) := do
  if cached then
    let c ← rcall (.cacheGet k)
    match c with
    | some m => pure m
    | none => do
      let value ← rcall (.rawLoad k)
      rcall (.cacheSet k value)
      pure value
  else
    rcall (.rawLoad k)

/-- `Storage.store` (storage.py:255-270). -/
def store (cached : Bool) (k : Key) (v : JVal) : R Unit := do
  rcall (.rawStore k v)
  if cached then rcall (.cacheSet k (some v)) else pure ()

/-- `Storage.delete` (storage.py:272-287). -/
def delete (cached : Bool) (k : Key) : R Unit := do
  rcall (.rawDelete k)
  if cached then rcall (.cacheSet k none) else pure ()

/-- `Storage.store_bytes` (storage.py:289-301). -/
def storeBytes (cached : Bool) (k : Key) (b : Bytes) : R Unit := store cached k (.str (Base64.encode b))

/-- `Storage.load_primitive` (storage.py:303-323). -/
def loadPrimitive (cached : Bool) (k : Key) (ty : PyType) : R (Option JVal) := do
  Maybe.fmap (checkPrimitive ty) (← load cached k)

/-- `Storage.load_bytes` (storage.py:325-344). -/
def loadBytes (cached : Bool) (k : Key) : R (Option Bytes) := do
  Maybe.fmap checkBytes (← load cached k)

/-- `Storage.load_optional` (storage.py:346-370). -/
def loadOptional (cached : Bool) (k : Key) (ty : PyType) : R (Option JVal) := do
  Maybe.fmap (checkOptional ty) (← load cached k)

/-- `Storage.load_list` (storage.py:372-392). -/
def loadList (cached : Bool) (k : Key) (ty : PyType) : R (Option (List JVal)) := do
  Maybe.fmap (checkList ty) (← load cached k)

/-- `Storage.load_dict` (storage.py:394-419). -/
def loadDict (cached : Bool) (k : Key) (ty : PyType) : R (Option (Dict String JVal)) := do
  Maybe.fmap (checkDict ty) (← load cached k)

end Storage

/-! ### The same methods as seen by the library, where `load`/`store`/`delete` are single interactions.
`Proofs/StorageCache.lean` proves that running the library on `Storage.load/store/delete` above is the
same as running it on a plain key-value map. -/

/-- The value of a Python int (or bool used as int). -/
def JVal.asInt : JVal → Int
  | .int i => i
  | .bool true => 1
  | _ => 0

def JVal.asStr : JVal → String
  | .str s => s
  | _ => ""

def JVal.asBool : JVal → Bool
  | .bool b => b
  | _ => false

def JVal.asOptStr : JVal → Option String
  | .str s => some s
  | _ => none

/-- `None` or a string as JSON. -/
def JVal.ofOptStr : Option String → JVal
  | some s => .str s
  | none => .null

/-- A Python `list` of ints. -/
def JVal.ofInts (l : List Int) : JVal := .list (l.map .int)

/-- A Python `list` of strings. -/
def JVal.ofStrs (l : List String) : JVal := .list (l.map .str)

/-- A Python `dict` from strings to bools. -/
def JVal.ofBools (d : Dict String Bool) : JVal := .dict (d.map fun x => (x.1, .bool x.2))

namespace Sto

/-- `storage.load_primitive(key, int)` (storage.py:303-323) -/
def loadInt (k : Key) : P (Option Int) := do
  Maybe.fmap (fun v => (checkPrimitive .int v).map JVal.asInt) (← call (.load k))

/-- `storage.load_primitive(key, str)` -/
def loadStr (k : Key) : P (Option String) := do
  Maybe.fmap (fun v => (checkPrimitive .str v).map JVal.asStr) (← call (.load k))

/-- `storage.load_primitive(key, bool)` -/
def loadBool (k : Key) : P (Option Bool) := do
  Maybe.fmap (fun v => (checkPrimitive .bool v).map JVal.asBool) (← call (.load k))

/-- `storage.load_bytes(key)` (storage.py:325-344) -/
def loadBytes (k : Key) : P (Option Bytes) := do
  Maybe.fmap checkBytes (← call (.load k))

/-- `storage.load_optional(key, str)` (storage.py:346-370) -/
def loadOptStr (k : Key) : P (Option (Option String)) := do
  Maybe.fmap (fun v => (checkOptional .str v).map JVal.asOptStr) (← call (.load k))

/-- `storage.load_list(key, int)` (storage.py:372-392) -/
def loadInts (k : Key) : P (Option (List Int)) := do
  Maybe.fmap (fun v => (checkList .int v).map (List.map JVal.asInt)) (← call (.load k))

/-- `storage.load_list(key, str)` -/
def loadStrs (k : Key) : P (Option (List String)) := do
  Maybe.fmap (fun v => (checkList .str v).map (List.map JVal.asStr)) (← call (.load k))

/-- `storage.load_dict(key, bool)` (storage.py:394-419) -/
def loadBools (k : Key) : P (Option (Dict String Bool)) := do
  Maybe.fmap (fun v => (checkDict .bool v).map (List.map fun x => (x.1, x.2.asBool))) (← call (.load k))

/-- `storage.store_bytes(key, value)` (storage.py:289-301) -/
def storeBytes (k : Key) (b : Bytes) : P Unit := call (.store k (.str (Base64.encode b)))

end Sto
end Verif
