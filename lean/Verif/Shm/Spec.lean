import Verif.Py
import Mathlib.Algebra.BigOperators.Group.List.Basic
/-
What a user sees of the elements that pass between processes: values.  Used to state C83 and C84.
-/
namespace Grain

/-- A NumPy data type: a number for it, the size of an item in bytes, whether the items are Python objects (`hasobject`). -/
structure ShmDType where
  code : Nat
  itemsize : Nat
  hasobject : Bool
  deriving DecidableEq, Repr

/-- A value: an array is its shape, its data type and its bytes in C order; anything else is opaque. -/
inductive ShmVal (O : Type) where
  | other (o : O)
  | arr (shape : List Nat) (d : ShmDType) (bytes : List Nat)
  deriving DecidableEq, Repr

/-- The number of bytes of an array. -/
def ShmDType.nbytes (d : ShmDType) (shape : List Nat) : Nat := shape.prod * d.itemsize

end Grain
