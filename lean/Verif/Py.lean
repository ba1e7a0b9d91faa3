/-
Python runtime vocabulary shared by all model files.
-/
namespace Grain

/-- The exception classes the modelled code raises (or lets the interpreter raise).
`stopIteration` is not here: the end of an iterator is a value of `Res`, see `Verif/Iter/Model.lean`. -/
inductive Err where
  | indexError
  | valueError
  | typeError
  | zeroDivision
  | keyError
  | attributeError
  | overflowError
  | notImplemented
  | assertion
  | runtimeError
  | user (code : Nat)      -- an exception raised by a user supplied function
  deriving DecidableEq, Repr

/-- Result of a Python call: a value or a raised exception. -/
abbrev Py (α : Type u) := Except Err α

instance [DecidableEq α] : DecidableEq (Py α) := fun a b =>
  match a, b with
  | .ok x, .ok y => if h : x = y then isTrue (by rw [h]) else isFalse (by intro hh; cases hh; exact h rfl)
  | .error x, .error y => if h : x = y then isTrue (by rw [h]) else isFalse (by intro hh; cases hh; exact h rfl)
  | .ok _, .error _ => isFalse (by intro h; cases h)
  | .error _, .ok _ => isFalse (by intro h; cases h)

/-- `sys.maxsize` on the 64-bit CPython grain supports. -/
def maxsize : Nat := 2 ^ 63 - 1

end Grain
