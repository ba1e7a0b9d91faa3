import Verif.Tree.Spec
/-
Arrays as numpy has them, and what it means that a batch has the elements as its rows.
-/
namespace Grain

/-- What is used of numpy's types of array elements. -/
structure Numpy where
  /-- Types (`np.dtype`). -/
  D : Type
  /-- Values of array elements. -/
  V : Type
  /-- Values that can be given as `pad_value`. -/
  P : Type
  /-- `np.result_type`: the type that arrays of these types are joined in. -/
  resultType : List D → Py D
  /-- The value written when one of the first type is assigned to an array of the second. -/
  cast : D → D → V → V
  /-- `np.can_cast(a, b, 'same_kind')`. -/
  sameKind : D → D → Bool
  /-- `dtype.itemsize`. -/
  itemsize : D → Nat
  /-- `dtype.hasobject`. -/
  hasObject : D → Bool
  /-- `dtype.kind in ("U", "S")`. -/
  isStr : D → Bool
  /-- The value stored by `np.full(..., fill_value=pad, dtype=d)`. -/
  fill : D → P → Py V

/-- What is assumed of these: arrays of one type are joined in that type, and copying to the same type changes nothing. -/
structure Numpy.Lawful (N : Numpy) : Prop where
  same : ∀ d (ds : List N.D), (∀ e ∈ ds, e = d) → N.resultType (d :: ds) = .ok d
  castSame : ∀ d v, N.cast d d v = v
  kindSame : ∀ d, N.sameKind d d = true

/-- An array: its shape, its type and its values in row-major order. -/
structure Arr (N : Numpy) where
  shape : List Nat
  dtype : N.D
  data : List N.V

/-- Number of values of an array of a shape. -/
def numel : List Nat → Nat
  | [] => 1
  | n :: s => n * numel s

/-- There are as many values as the shape says. -/
def Arr.WF {N : Numpy} (a : Arr N) : Prop := a.data.length = numel a.shape

/-- `a[k]`: the `k`-th of the slices along the first dimension. -/
def Arr.row {N : Numpy} (a : Arr N) (k : Nat) : Option (Arr N) :=
  match a.shape with
  | [] => none
  | n :: s => if k < n then some ⟨s, a.dtype, (a.data.drop (k * numel s)).take (numel s)⟩ else none

/-- `a.astype(d)`. -/
def Arr.astype {N : Numpy} (a : Arr N) (d : N.D) : Arr N := ⟨a.shape, d, a.data.map (N.cast a.dtype d)⟩

/-- The elements have the same features, however the keys of dictionaries are ordered. -/
def SameFeatures (values : List (Tree α)) : Prop :=
  ∀ v ∈ values.head?, v.Ok ∧ ∀ u ∈ values.tail, v.same u = true ∧ ∀ p, (v.leafAt p).isSome → (u.leafAt p).isSome

/-- The arrays found at a path in the elements. -/
def featureAt (values : List (Tree α)) (p : List PathKey) : List α := values.filterMap (fun u => u.leafAt p)

end Grain
