import Verif.Float.Model
/-
`pick_performance_config`, T/prefetch_autotune.py, with binary64 rounding.
-/
namespace Grain

/-- An element as `_get_element_size_bytes` sees it. -/
inductive SizedObj where
  | dict (values : List (String × SizedObj))
  | seq (items : List SizedObj)
  | array (nbytes : Nat)
  | other (getsizeof : Nat)

mutual
/-- `_get_element_size_bytes`, T/prefetch_autotune.py:17-31. -/
def SizedObj.bytes : SizedObj → Nat
  | .dict vs => SizedObj.bytesOfFields vs
  | .seq is => SizedObj.bytesOfItems is
  | .array n => n
  | .other n => n
/-- The loop over `element.items()`, lines 21-22. -/
def SizedObj.bytesOfFields : List (String × SizedObj) → Nat
  | [] => 0
  | (_, v) :: vs => v.bytes + SizedObj.bytesOfFields vs
/-- The loop over a list or tuple, lines 24-25. -/
def SizedObj.bytesOfItems : List SizedObj → Nat
  | [] => 0
  | i :: is => i.bytes + SizedObj.bytesOfItems is
end

/-- `np.mean` of a list of integers: the sum as a float (simplification: the sum is rounded once; `np.add.reduce` rounds every
partial sum, which are all exact below `2^53`) divided by the number.  The mean of nothing is NaN, on which `int()` raises
`ValueError` later: raised here at once. -/
def npMean (l : List Nat) : Py ℚ :=
  if l = [] then .error .valueError else do
    let s ← float l.sum
    floatDiv s l.length

/-- `_get_average_element_size_mb`, T/prefetch_autotune.py:34-67.  A dataset is the list of the sizes in bytes of its elements
(of an endless one: as many as are sampled). -/
def avgSizeMb (dss : List (List Nat)) (samples : Nat) : Py ℚ :=
  if dss = [] then .ok 0 else do
    let k ← float samples
    let q ← floatDiv k dss.length
    let sampled := (dss.map (fun ds => ds.take ⌈q⌉.toNat)).flatten
    if sampled.length < samples then .ok 0
    else do
      let mean ← npMean sampled
      floatDiv mean (1024 * 1024)

/-- `_get_num_workers`, T/prefetch_autotune.py:70-93. -/
def numWorkersFor (ds : List Nat) (ramBudgetMb : Nat) (maxWorkers : Option Nat) (cpus samples : Nat) : Py ℤ := do
  let avg ← avgSizeMb [ds] samples
  let maxWorkers := maxWorkers.getD cpus
  if avg ≤ 0 then .ok maxWorkers
  else do
    let b ← float ramBudgetMb
    let q ← floatDiv b avg
    .ok (min (pyInt64 q) maxWorkers)

/-- `_get_buffer_size`, T/prefetch_autotune.py:96-127: the `prefetch_buffer_size`.  `dss` are the parents of the pipeline's
`PrefetchIterDataset`s (`_find_prefetch_iter_dataset_parents`, 171-195). -/
def bufferSizeFor (dss : List (List Nat)) (ramBudgetMb : Nat) (maxBuffer : Option Nat) (samples : Nat) : Py ℤ := do
  let avg ← avgSizeMb dss samples
  let maxBuffer := maxBuffer.getD 1000
  if avg ≤ 0 then .ok maxBuffer
  else do
    let b ← float ramBudgetMb
    let y ← float (avg * dss.length)
    let q ← floatDiv b y
    .ok (min (pyInt64 q) maxBuffer)

/-- `pick_performance_config`, T/prefetch_autotune.py:130-168: the number of workers and the buffer size. -/
def performanceConfig (ds : List Nat) (dss : List (List Nat)) (ramBudgetMb : Nat) (maxWorkers maxBuffer : Option Nat)
    (cpus samples : Nat) : Py (ℤ × ℤ) := do
  let w ← numWorkersFor ds ramBudgetMb maxWorkers cpus samples
  let b ← bufferSizeFor dss ramBudgetMb maxBuffer samples
  .ok (w, b)

end Grain
