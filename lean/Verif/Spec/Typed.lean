import Verif.Model.Storage
/-
Specification of the typed load methods of a storage.
-/
namespace Verif.Spec

/-- `v` is an instance of the Python class `ty`, where `True` and `False` are also ints. -/
inductive HasType : PyType → JVal → Prop where
  | none : HasType .none .null
  | float (r : String) : HasType .float (.float r)
  | int (i : Int) : HasType .int (.int i)
  | boolInt (b : Bool) : HasType .int (.bool b)
  | bool (b : Bool) : HasType .bool (.bool b)
  | str (s : String) : HasType .str (.str s)

/-- The outcomes of a typed load of a location with content `c`, if the storage does not fail.
`good v b`: the stored value `v` has the requested type and represents `b`. -/
inductive TypedLoad {β : Type} (good : JVal → β → Prop) : Option JVal → Res Exn (Option β) → Prop where
  | nothing : TypedLoad good none (.ok none)
  | value {v : JVal} {b : β} : good v b → TypedLoad good (some v) (.ok (some b))
  | bad {v : JVal} : (∀ b, ¬ good v b) → TypedLoad good (some v) (.raised .typeError)

end Verif.Spec
