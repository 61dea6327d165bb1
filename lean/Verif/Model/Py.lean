/-!
# Python-level vocabulary used by the model

Exceptions are modelled as values.  Only the class of the exception is kept; the
message is dropped.
-/

namespace Verif

/-- The Python exception classes the modelled code can raise.
(as raised, for example, by common.py:28-35 (`assert`) or evals.py:108-114 (list index)) -/
inductive PyErr where
  | assertionError
  | typeError
  | indexError
  | zeroDivisionError
  | valueError
  | nameError
  | attributeError
  | keyError
  | unboundLocalError
  deriving DecidableEq, Repr

/-- Result of a Python call: a value or an exception. (any function of the package, for example common.py:14-67) -/
abbrev Py (α : Type _) := Except PyErr α

/-- `assert b`. (as in common.py:28) -/
def pyAssert (b : Bool) : Py Unit := if b then .ok () else .error .assertionError

end Verif
