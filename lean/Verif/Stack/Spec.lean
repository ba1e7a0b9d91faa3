import Verif.Iter.Stream
import Mathlib.Data.List.FinRange
/-
What the user of a stack of iterators may rely on, whatever threads run inside it.  No part of the code appears here:
the reference is a position in a fixed stream of elements.
-/
namespace Grain

/-- Position in the stream `x` after one `next`: one further, unless the stream is over. -/
def nextPos (x : Nat → Option α) (n : Nat) : Nat :=
  match x n with
  | some _ => n + 1
  | none => n

/-- Outcomes of the `next` calls (`none` is `StopIteration`) of a user who makes the calls `ops` on an ideal iterator
over `x`: a checkpoint is a position.  `none` if a checkpoint that was never saved is restored. -/
def streamRun (x : Nat → Option α) : Nat → List Nat → List Op → Option (List (Option α))
  | _, _, [] => some []
  | n, saved, .next :: ops => (streamRun x (nextPos x n) saved ops).map (x n :: ·)
  | n, saved, .save :: ops => streamRun x n (saved ++ [n]) ops
  | _, saved, .restore k :: ops => saved[k]?.bind (fun p => streamRun x p saved ops)
  | _, saved, .fresh k :: ops => saved[k]?.bind (fun p => streamRun x p saved ops)

/-- The stream in batches of `b`: element number `n` is made of the elements `n * b, …` of `x`; a shorter last batch is
dropped or kept. -/
def streamBatch (b : Nat) (drop : Bool) (x : Nat → Option α) (n : Nat) : Option (List α) :=
  let vs := (List.range b).filterMap (fun i => x (n * b + i))
  if vs.length = b ∨ (vs ≠ [] ∧ drop = false) then some vs else none

/-- The stream cut into windows of `w`, of which the last may be shorter, and each window read in the order that `shuffle`
gives for its number, from the last to the first. -/
def streamWindows (shuffle : Nat → List α → List α) (w : Nat) (x : Nat → Option α) (n : Nat) : Option α :=
  (shuffle (n / w) ((List.range w).filterMap (fun i => x (n / w * w + i)))).reverse[n % w]?

/-- The stream cut after `k` elements. -/
def streamTake (k : Nat) (x : Nat → Option α) (n : Nat) : Option α := if n < k then x n else none

/-- Several streams side by side, up to the end of the shortest. -/
def streamZip (x : Fin n → Nat → Option α) (m : Nat) : Option (List α) :=
  if ∀ i, (x i m).isSome then some ((List.finRange n).filterMap (fun i => x i m)) else none

/-- All streams have the same length. -/
def EqualLengths (x : Fin n → Nat → Option α) : Prop := ∀ i j m, (x i m).isSome = (x j m).isSome

/-- How often stream `i` is chosen before position `m`. -/
def timesChosen (sel : Nat → Fin n) (i : Fin n) (m : Nat) : Nat := (List.range m).countP (fun k => sel k == i)

/-- The streams mixed: at position `m` the first element of stream `sel m` that was not yet used; over as soon as one is
missing. -/
def streamMix (sel : Nat → Fin n) (x : Fin n → Nat → Option α) (m : Nat) : Option α :=
  if (List.range m).all (fun k => (x (sel k) (timesChosen sel (sel k) k)).isSome) then x (sel m) (timesChosen sel (sel m) m)
  else none

/-- `y` consists of the elements of `x` that pass `f`, in order; `pos m` is the position in `x` after `m` of them.  It
says also that from everywhere in `x` there follows an element that passes, or the end. -/
def Filtered (f : α → Bool) (x y : Nat → Option α) (pos : Nat → Nat) : Prop :=
  pos 0 = 0 ∧ ∀ m, ∃ d, (∀ i < d, ∃ a, x (pos m + i) = some a ∧ f a = false) ∧
    ((∃ a, x (pos m + d) = some a ∧ f a = true ∧ y m = some a ∧ pos (m + 1) = pos m + d + 1) ∨
     (x (pos m + d) = none ∧ y m = none ∧ pos (m + 1) = pos m + d))

/-- The streams `x` interleaved, `cycle` of them at a time: `y m` comes from the stream `who m`. -/
structure Interleaves (x : Fin n → Nat → Option α) (cycle : Nat) (y : Nat → Option α) (who : Nat → Fin n) : Prop where
  /-- the next element of that stream that was not yet used: nothing is lost, repeated or reordered within a stream -/
  element : ∀ m a, y m = some a → x (who m) (timesChosen who (who m) m) = some a
  /-- at the end all streams are used up -/
  all : ∀ m, (∀ k < m, (y k).isSome) → y m = none → ∀ d, x d (timesChosen who d m) = none
  /-- at every point at most `cycle` streams are started and not used up -/
  openMost : ∀ m, (∀ k < m, (y k).isSome) → ∀ ds : List (Fin n), ds.Nodup →
    (∀ d ∈ ds, 0 < timesChosen who d m ∧ (x d (timesChosen who d m)).isSome) → ds.length ≤ cycle
  /-- streams are started in their order -/
  inOrder : ∀ m, (∀ k < m, (y k).isSome) → ∀ d e, d < e → 0 < timesChosen who e m → 0 < timesChosen who d m ∨ x d 0 = none
  /-- round robin: a stream that was read and has a further element is read again within `cycle` elements -/
  fair : ∀ m, (∀ k ≤ m, (y k).isSome) → (x (who m) (timesChosen who (who m) (m + 1))).isSome →
    ∃ j, 0 < j ∧ j ≤ cycle ∧ who (m + j) = who m ∧ (y (m + j)).isSome

/-- `y` consists of the lists that `f` makes of the elements of the endless stream `x`, one after the other: those of element
`k` begin at `first k`.  There is always a further element with a list that is not empty. -/
structure Flattens (f : α → List β) (x : Nat → Option α) (y : Nat → Option β) (first : Nat → Nat) : Prop where
  zero : first 0 = 0
  block : ∀ k, ∃ a, x k = some a ∧ first (k + 1) = first k + (f a).length ∧ ∀ p, p < (f a).length → y (first k + p) = (f a)[p]?
  more : ∀ k, ∃ j a, k ≤ j ∧ x j = some a ∧ f a ≠ []

/-- `r` consists of the rows of the batches of the stream `x`, one after the other: those of batch `k` begin at `first k`.  No
batch is empty. -/
structure Concats (x : Nat → Option (List α)) (r : Nat → Option α) (first : Nat → Nat) : Prop where
  zero : first 0 = 0
  block : ∀ k a, x k = some a → a ≠ [] ∧ first (k + 1) = first k + a.length ∧ ∀ p, p < a.length → r (first k + p) = a[p]?
  over : ∀ k, x k = none → ∀ m, first k ≤ m → r m = none

/-- A stream of `len` elements gone through `epochs` times, for ever if `none`. -/
def streamRepeat (epochs : Option Nat) (len : Nat) (x : Nat → Option α) (n : Nat) : Option α :=
  match epochs with
  | none => x (n % len)
  | some N => if n < N * len then x (n % len) else none

/-- Once over, a stream stays over. -/
def StaysOver (x : Nat → Option α) : Prop := ∀ n, x n = none → x (n + 1) = none

end Grain
