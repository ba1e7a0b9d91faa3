import Mathlib.Data.Int.Log
import Mathlib.Data.Rat.Floor
import Mathlib.Algebra.Order.Field.Basic
import Verif.MapDs.Model
/-
Floating point in grain.  Python's `float` is an IEEE binary64 number.  A finite float is a rational number here, and an
operation is the exact operation followed by rounding to the nearest float, ties to even.
-/
namespace Grain

/-- Nearest integer, ties to the even one (the rounding mode of IEEE arithmetic; Python's `/` on two integers is correctly
rounded in this mode too, `long_true_divide` of CPython). -/
def roundEven (q : ℚ) : ℤ :=
  let f := ⌊q⌋
  if q - f < 1 / 2 then f
  else if 1 / 2 < q - f then f + 1
  else if f % 2 = 0 then f else f + 1

/-- Exponent of the last digit of a float of the size of `q`: 53 significant binary digits, and never below `2^-1074`. -/
def ulpExp (q : ℚ) : ℤ := max (Int.log 2 |q| - 52) (-1074)

/-- The binary64 number nearest to `q`, without the upper limit of the exponent. -/
def fl (q : ℚ) : ℚ := roundEven (q / 2 ^ ulpExp q) * 2 ^ ulpExp q

/-- The result of a floating point operation whose exact value is `q`.  Simplification: a result too large for a float
is an `OverflowError` at once.  For `int / int` this is what Python does; for an operation on floats Python yields an
infinity, which raises the same error when `int()` is applied to it, as all uses below do. -/
def float (q : ℚ) : Py ℚ := if 2 ^ 1024 ≤ |fl q| then .error .overflowError else .ok (fl q)

/-- `a / b` on two Python integers. -/
def intTrueDiv (a b : ℤ) : Py ℚ := if b = 0 then .error .zeroDivision else float (a / b)

/-- `x / y` on two floats. -/
def floatDiv (x y : ℚ) : Py ℚ := if y = 0 then .error .zeroDivision else float (x / y)

/-- `int(x)` of a finite float: truncation towards zero. -/
def pyInt64 (x : ℚ) : ℤ := if 0 ≤ x then ⌊x⌋ else ⌈x⌉

/-- `len(obj)` when `obj.__len__()` returns `n`: the interpreter rejects negative and over-long results. -/
def pyLen (n : ℤ) : Py Nat :=
  if n < 0 then .error .valueError else if (maxsize : ℤ) < n then .error .overflowError else .ok n.toNat

/-! ### `RangeDataSource` -/

/-- A data source: its length and what `__getitem__` does. -/
structure IntSource where
  len : ℤ
  getitem : ℤ → Py ℤ

/-- `RangeDataSource`, python/data_sources.py:108-128.  (`record_key.__index__()` is the identity on integers.) -/
def rangeSource (start stop step : ℤ) : Py IntSource :=
  if step = 0 then .error .assertion
  else do
    let q ← intTrueDiv (stop - start) step
    let len := ⌈q⌉
    if len < 0 then .error .assertion
    else .ok ⟨len, fun key => if key < 0 ∨ len ≤ key then .error .indexError else .ok (start + key * step)⟩

/-! ### Lengths of batches and of `flat_map` -/

/-- `BatchMapDataset._get_length`, T/batch.py:427-431, as computed. -/
def batchLenFloat (parentLen batchSize : Nat) (dropRemainder : Bool) : Py ℤ :=
  if dropRemainder then .ok (parentLen / batchSize : Nat) else do
    let q ← intTrueDiv parentLen batchSize
    .ok ⌈q⌉

/-- `FlatMapMapDataset.__len__`, T/flatmap.py:40-46, as computed (comparing an integer with a float is exact). -/
def flatMapLenFloat (parentLen maxFanOut : Nat) : Py ℤ := do
  let q ← intTrueDiv maxsize maxFanOut
  if q ≤ (parentLen : ℚ) then .ok maxsize else .ok (maxFanOut * parentLen : Nat)

/-! ### Proportions of a mix -/

/-- `min(values)`. -/
def pyMin : List ℚ → Py ℚ
  | [] => .error .valueError
  | v :: vs => .ok (vs.foldl min v)

/-- `_float_to_int_proportions`, T/mix.py:306-311.  A value is an integer or a finite float.  `p * scale_factor` converts
an integer to a float first. -/
def floatToIntProportions (values : List ℚ) : Py (List ℤ) := do
  let m ← pyMin values
  if m = 0 then .error .zeroDivision
  else do
    let scale ← float (100 / m)
    values.mapM (fun p => do
      let p ← float p
      let x ← float (p * scale)
      .ok (pyInt64 x))

/-- `len(parent) / (weight / weight_sum)`, T/mix.py:56-59. -/
def mixLengthOf (weightSum : ℤ) (len : Nat) (weight : ℤ) : Py ℚ := do
  let share ← intTrueDiv weight weightSum
  let l ← float len
  floatDiv l share

/-- The length computed by `SelectionWithProportionsMap.__init__`, T/mix.py:52-71, from integer proportions. -/
def mixLenFloat (lens : List Nat) (proportions : List ℤ) : Py ℤ := do
  if lens.length ≠ proportions.length then .error .assertion
  let lengths ← (lens.zip proportions).mapM (fun q => mixLengthOf proportions.sum q.1 q.2)
  if lengths.contains 0 then .error .valueError
  let l ← pyMin lengths
  .ok (min maxsize (pyInt64 l))

/-- The normalised proportions of `SelectionWithProportionsMap.__init__`, T/mix.py:44-49. -/
def mixProportions (n : Nat) : Option (List ℚ) → Py (List ℤ)
  | none => .ok (List.replicate n 1)
  | some values => if values.contains 0 then .error .valueError else floatToIntProportions values

/-- `SelectionWithProportionsMap.__init__`, T/mix.py:38-71: the proportions and the length it stores. -/
def mixInit (lens : List Nat) (values : Option (List ℚ)) : Py (List ℤ × ℤ) := do
  let proportions ← mixProportions lens.length values
  let len ← mixLenFloat lens proportions
  .ok (proportions, len)

/-! ### The ratio of filtered elements -/

/-- `skipped_ratio >= threshold`, T/filter.py:110-111 and 121, as computed; `threshold` is the configured float. -/
def overThresholdFloat (passed skipped : Nat) (threshold : ℚ) : Py Bool := do
  let ratio ← intTrueDiv skipped (passed + skipped : Nat)
  .ok (decide (threshold ≤ ratio))

end Grain
