import Verif.Stack.Spec
import Verif.Py
/-
What the user of a stack of iterators may rely on when elements raise.  No part of the code appears here: the reference is
a position in a fixed stream of outcomes (an element, an exception, or `none` for `StopIteration`).
-/
namespace Grain

/-- The outcome is an exception of an element. -/
def Raises (r : Option (Py α)) : Prop := ∃ e, r = some (.error e)

/-- A checkpoint taken at position `n` may stand for position `k`: everything between is an exception. -/
def Lagging (x : Nat → Option (Py α)) (k n : Nat) : Prop := k ≤ n ∧ ∀ j, k ≤ j → j < n → Raises (x j)

/-- The user who makes the calls `ops` on an ideal iterator over the outcomes `x`, at position `n`, with checkpoints of the
positions `saved`, may see the outcomes `outs`.  Each `next` gives the outcome of the position and goes on to the following
one, also after an exception.  A checkpoint stands for the position, or for an earlier one with only exceptions between:
a restored iterator may repeat exceptions that the user has seen, but neither repeats nor loses an element. -/
inductive LagRun (x : Nat → Option (Py α)) : Nat → List Nat → List Op → List (Option (Py α)) → Prop
  | nil {n saved} : LagRun x n saved [] []
  | next {n saved ops outs} : LagRun x (nextPos x n) saved ops outs → LagRun x n saved (.next :: ops) (x n :: outs)
  | save {n saved ops outs} (k : Nat) : Lagging x k n → LagRun x n (saved ++ [k]) ops outs →
      LagRun x n saved (.save :: ops) outs
  | restore {n saved ops outs} (i p : Nat) : saved[i]? = some p → LagRun x p saved ops outs →
      LagRun x n saved (.restore i :: ops) outs
  | fresh {n saved ops outs} (i p : Nat) : saved[i]? = some p → LagRun x p saved ops outs →
      LagRun x n saved (.fresh i :: ops) outs

/-- Only checkpoints that were saved before are restored, when `saved` of them exist already. -/
def savedFirst : Nat → List Op → Bool
  | _, [] => true
  | saved, .next :: ops => savedFirst saved ops
  | saved, .save :: ops => savedFirst (saved + 1) ops
  | saved, .restore k :: ops => k < saved && savedFirst saved ops
  | saved, .fresh k :: ops => k < saved && savedFirst saved ops

/-- The outcomes up to the first exception, which is the last of them. -/
def streamUntilRaise (x : Nat → Option (Py α)) (n : Nat) : Option (Py α) :=
  if (List.range n).any (fun j => x j matches some (.error _)) then none else x n

/-- The worker that outcome `t` of the dataset belongs to, one of `workers` that take turns, had an exception before. -/
def failedBefore (workers : Nat) (zs : List (Py α)) (t : Nat) : Bool :=
  (List.range t).any (fun s => s % workers == t % workers && (zs[s]? matches some (.error _)))

/-- The outcomes of the dataset `zs` read by `workers` workers that take turns: in order, without those that belong to a
worker that had an exception before. -/
def workersOutcomes (workers : Nat) (zs : List (Py α)) : List (Py α) :=
  (List.range zs.length).filterMap (fun t => if failedBefore workers zs t then none else zs[t]?)

/-- The turns of an input that is asked again after an exception: each is an element with the exceptions before it. -/
def turnsOfInput : List (Py α) → List (List (Py α))
  | [] => []
  | .ok a :: l => [.ok a] :: turnsOfInput l
  | .error e :: l =>
    match turnsOfInput l with
    | [] => [[.error e]]
    | b :: bs => (.error e :: b) :: bs

/-- Outcomes `i, i + n, i + 2 * n, …` of `zs`. -/
def nthOutcomes (n i : Nat) (zs : List (Py α)) : List (Py α) := (List.range zs.length).filterMap (fun m => zs[m * n + i]?)

/-- The outcomes of the dataset `zs` read by `threads` inputs that take turns, where a turn goes on after an exception. -/
def threadsOutcomes (threads : Nat) (zs : List (Py α)) : List (Py α) :=
  (List.range (zs.length * threads)).flatMap
    (fun t => ((turnsOfInput (nthOutcomes threads (t % threads) zs))[t / threads]?).getD [])

/-- The outcomes of the datasets `xs 0, …, xs (n - 1)` that take turns, where a turn goes on after an exception and a dataset
that is over is passed over.  No dataset has more turns than all of them have outcomes. -/
def interleaveOutcomes (n : Nat) (xs : Nat → List (Py α)) : List (Py α) :=
  (List.range (((List.range n).map (fun i => (xs i).length)).sum * n)).flatMap
    (fun t => ((turnsOfInput (xs (t % n)))[t / n]?).getD [])

/-- The outcomes up to the first exception, which is the last of them. -/
def untilRaiseList : List (Py α) → List (Py α)
  | [] => []
  | .ok a :: l => .ok a :: untilRaiseList l
  | .error e :: _ => [.error e]

/-- How many elements there are before position `n`. -/
def elementsBefore (x : Nat → Option (Py α)) (n : Nat) : Nat := (List.range n).countP (fun j => x j matches some (.ok _))

/-- The outcomes cut after `count` elements; exceptions do not count. -/
def streamTakeRaise (count : Nat) (x : Nat → Option (Py α)) (n : Nat) : Option (Py α) :=
  if elementsBefore x n < count then x n else none

/-- The outcomes of a function of the elements and of their numbers: an element for which `f` raises has no number.  The
second component is the number of the next element. -/
def indexedFrom (f : Nat → α → Py β) (x : Nat → Option (Py α)) : Nat → Option (Py β) × Nat
  | 0 => indexedAt f (x 0) 0
  | n + 1 => indexedAt f (x (n + 1)) (indexedFrom f x n).2
where
  indexedAt (f : Nat → α → Py β) (r : Option (Py α)) (i : Nat) : Option (Py β) × Nat :=
    match r with
    | none => (none, i)
    | some (.error e) => (some (.error e), i)
    | some (.ok a) => (some (f i a), match f i a with | .ok _ => i + 1 | .error _ => i)

def streamIndexRaise (f : Nat → α → Py β) (x : Nat → Option (Py α)) (n : Nat) : Option (Py β) := (indexedFrom f x n).1

/-- `y` consists of the elements of `x` that pass `f`, of the exceptions of `x` and of those that `f` raises, in order;
`pos m` is the position in `x` after `m` of them.  It says also that from everywhere in `x` there follows an outcome of `y`,
or the end. -/
def FilteredRaise (f : α → Py Bool) (x y : Nat → Option (Py α)) (pos : Nat → Nat) : Prop :=
  pos 0 = 0 ∧ ∀ m, ∃ d, (∀ i < d, ∃ a, x (pos m + i) = some (.ok a) ∧ f a = .ok false) ∧
    ((∃ a, x (pos m + d) = some (.ok a) ∧ f a = .ok true ∧ y m = some (.ok a) ∧ pos (m + 1) = pos m + d + 1) ∨
     (∃ a e, x (pos m + d) = some (.ok a) ∧ f a = .error e ∧ y m = some (.error e) ∧ pos (m + 1) = pos m + d + 1) ∨
     (∃ e, x (pos m + d) = some (.error e) ∧ y m = some (.error e) ∧ pos (m + 1) = pos m + d + 1) ∨
     (x (pos m + d) = none ∧ y m = none ∧ pos (m + 1) = pos m + d))

/-- The outcomes in batches of `b` that start at position `i` of `x`, of which `vs` were read already: the outcome and
the position after it.  An exception ends the batch: the elements read for it are lost. -/
def batchFrom (drop : Bool) (x : Nat → Option (Py α)) : Nat → List α → Nat → Option (Py (List α)) × Nat
  | 0, vs, i => (some (.ok vs), i)
  | b + 1, vs, i =>
    match x i with
    | some (.ok a) => batchFrom drop x b (vs ++ [a]) (i + 1)
    | some (.error e) => (some (.error e), i + 1)
    | none => if drop || vs.isEmpty then (none, i) else (some (.ok vs), i)

/-- Where batch number `n` starts. -/
def batchStart (b : Nat) (drop : Bool) (x : Nat → Option (Py α)) : Nat → Nat
  | 0 => 0
  | n + 1 => (batchFrom drop x b [] (batchStart b drop x n)).2

/-- The stream of outcomes `x` in batches of `b`. -/
def streamBatchRaise (b : Nat) (drop : Bool) (x : Nat → Option (Py α)) (n : Nat) : Option (Py (List α)) :=
  (batchFrom drop x b [] (batchStart b drop x n)).1

end Grain
