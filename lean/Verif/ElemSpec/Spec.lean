import Verif.Batch.Spec
/-
What it means that an element is as its specification says.
-/
namespace Grain

/-- `ShapeDtypeStruct`: a shape, with `none` for a dimension that is not known in advance, and a type. -/
structure ShapeDtype (N : Numpy) where
  shape : List (Option Nat)
  dtype : N.D

/-- The array has the type, the number of dimensions, and the dimensions that are given. -/
def ShapeDtype.Fits {N : Numpy} (s : ShapeDtype N) (a : Arr N) : Prop :=
  a.dtype = s.dtype ∧ a.shape.length = s.shape.length ∧ ∀ (k n : Nat), s.shape[k]? = some (some n) → a.shape[k]? = some n

/-- The element has the structure of the specification (also in the order of dictionary keys), and every array fits. -/
def Conforms {N : Numpy} (s : Tree (ShapeDtype N)) (e : Tree (Arr N)) : Prop :=
  e.SameShape s ∧ ∀ p d, s.leafAt p = some d → ∃ a, e.leafAt p = some a ∧ d.Fits a

end Grain
