import Verif.Model.Types
/-
Specification of a key-value storage as seen by its callers.
-/
namespace Verif.Spec

/-- A call of the untyped storage API. -/
inductive StCall where
  | load (k : Key)
  | store (k : Key) (v : JVal)
  | delete (k : Key)

/-- What the caller saw: an exception, or a value (`none` is `Nothing`; writes return no value). -/
abbrev Observed := StCall × Except Exn (Option JVal)

/-- `Explains m h`: the calls and results `h` are those of a plain map with initial content `m`. -/
def Explains : (Key → Option JVal) → List Observed → Prop
  | _, [] => True
  | m, (.load k, .ok v) :: h => v = m k ∧ Explains m h
  | m, (.store k v, .ok _) :: h => Explains (fun k' => if k' = k then some v else m k') h
  | m, (.delete k, .ok _) :: h => Explains (fun k' => if k' = k then none else m k') h
  | m, (_, .error _) :: h => Explains m h

end Verif.Spec
