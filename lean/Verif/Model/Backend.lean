import Verif.Model.Types
/-
omemo/backend.py: the constructor of the abstract class, the only code in it.
-/
namespace Verif

/-- The two limits kept by a backend (backend.py:120-122). -/
structure BackendLimits where
  perSession : Int
  perMessage : Int
deriving DecidableEq, Repr

/-- Python truthiness of `a or (0 > b)` where `a : Optional[int]`: `a` if `a` is a nonzero int, otherwise `0 > b`.
`or` binds weaker than `>`. -/
def orGreater (a : Option Int) (b : Int) : Bool :=
  match a with
  | none => decide (0 > b)
  | some n => if n ≠ 0 then true else decide (0 > b)

/-- `Backend.__init__` (backend.py:91-122). -/
def Backend.init (perSession : Int) (perMessage : Option Int) : Except Exn BackendLimits :=
  if perMessage = some 0 ∧ perSession ≠ 0 then .error .valueError
  else if orGreater perMessage perSession then .error .valueError
  else .ok { perSession := perSession, perMessage := match perMessage with | none => perSession | some n => n }

end Verif
