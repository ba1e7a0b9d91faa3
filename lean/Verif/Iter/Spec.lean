import Verif.Iter.Basic
import Verif.MapDs.Spec
import Mathlib.Data.List.FinRange
/-
Specifications of the streams of the transformations, on lists of outcomes.  Nothing here refers to iterator states.
-/
namespace Grain

/-- Number of elements (not errors) among the first `n` outcomes. -/
def okCount (ys : List (Py α)) (n : Nat) : Nat := ((ys.take n).filter (fun y => y.toBool)).length

/-- Outcome of mapping `f` over one outcome: errors and `None` pass through. -/
def mapOutcome (f : α → Py (Option β)) : Py (Option α) → Py (Option β)
  | .error e => .error e
  | .ok none => .ok none
  | .ok (some a) => f a

/-- `g k x` at every outcome `x`, where `k` counts the elements returned before. -/
def countedMap (g : Nat → α → Py β) : Nat → List (Py α) → List (Py β)
  | _, [] => []
  | k, .error e :: xs => .error e :: countedMap g k xs
  | k, .ok a :: xs =>
    match g k a with
    | .ok b => .ok b :: countedMap g (k + 1) xs
    | .error e => .error e :: countedMap g k xs

/-- The first `count` elements (errors in between stay). -/
def limitStream : Nat → List (Py α) → List (Py α)
  | 0, _ => []
  | _ + 1, [] => []
  | k + 1, .ok a :: xs => .ok a :: limitStream k xs
  | k + 1, .error e :: xs => .error e :: limitStream (k + 1) xs

/-- What filtering does to one outcome: `none` means dropped; errors of the parent and of the predicate pass through. -/
def filterOutcome (pred : α → Py Bool) : Py α → Option (Py α)
  | .error e => some (.error e)
  | .ok a =>
    match pred a with
    | .ok true => some (.ok a)
    | .ok false => none
    | .error e => some (.error e)

/-- Number of batches of size `b` in `n` elements. -/
def batchCount (n b : Nat) (drop : Bool) : Nat := if drop then n / b else (n + b - 1) / b

/-- The batches of the elements `as`: consecutive groups of `b`.  The last short group exists only when the data is known
to end there and the remainder is kept. -/
def batchStream (b : Nat) (drop : Bool) (f : List α → Py β) (as : List α) (ended : Bool) : List (Py β) :=
  (List.range (batchCount as.length b (drop || !ended))).map (fun i => f (group as b i))

/-- Windows of `w` consecutive elements, window `i` reordered by `σ i`.  Without knowledge of the end of the data only
the full windows are known. -/
def windowStream (w : Nat) (σ : Nat → List α → List α) (as : List α) (ended : Bool) : List α :=
  ((List.range (batchCount as.length w (!ended))).map (fun i => σ i (group as w i))).flatten

/-- Length of the shortest of several lists. -/
def minLen {n : Nat} (as : Fin n → List α) : Nat := ((List.finRange n).map (fun i => (as i).length)).min?.getD 0

/-- Row `k` of several lists. -/
def zipRow {n : Nat} (as : Fin n → List α) (k : Nat) : List α := (List.finRange n).filterMap (fun i => (as i)[k]?)

/-- The rows of several lists, up to the length of the shortest. -/
def zipStream {n : Nat} (as : Fin n → List α) : List (List α) := (List.range (minLen as)).map (zipRow as)

end Grain
