import Verif.Iter.Model
/-
The iterator over a random access dataset, as a position in that dataset: what its calls mean, sparse datasets included (C28).
-/
namespace Grain

/-- The calls on the iterator: reading, the two ways of saving and restoring, and changes of the settings. -/
inductive RaOp where
  | next
  | getState
  /-- `set_state` of the `k`-th saved state on this iterator. -/
  | setState (k : Nat)
  /-- `set_state` of the `k`-th saved state on a new iterator, which is used from now on. -/
  | fresh (k : Nat)
  | getIndex
  | setIndex (i : Nat)
  | tweak (t : PrefetchTweak)
  deriving DecidableEq

/-- The first element to be returned at or after position `pos`, with its index: `None` is skipped unless allowed. -/
def nextKept (vs : List (Option α)) (allow : Bool) (pos : Nat) : Option (Option α × Nat) :=
  (vs.zipIdx.drop pos).find? (fun x => allow || x.1.isSome)

/-- What the calls return: the iterator is a position in the list `vs` of all the values of the dataset, and both the state and
the next index are that position. -/
def raSpec (vs : List (Option α)) (allow : Bool) : Nat → List Nat → List RaOp → Option (List (Res (Option α) ⊕ Int))
  | _, _, [] => some []
  | pos, saved, .next :: ops =>
    match nextKept vs allow pos with
    | some (x, k) => (raSpec vs allow (k + 1) saved ops).map (.inl (.item x) :: ·)
    | none => (raSpec vs allow vs.length saved ops).map (.inl .stop :: ·)
  | pos, saved, .getState :: ops => raSpec vs allow pos (saved ++ [pos]) ops
  | _, saved, .setState k :: ops => do
    let p ← saved[k]?
    raSpec vs allow p saved ops
  | _, saved, .fresh k :: ops => do
    let p ← saved[k]?
    raSpec vs allow p saved ops
  | pos, saved, .getIndex :: ops => (raSpec vs allow pos saved ops).map (.inr (pos : Int) :: ·)
  | _, saved, .setIndex i :: ops => if i ≤ vs.length then raSpec vs allow i saved ops else none
  | pos, saved, .tweak _ :: ops => raSpec vs allow pos saved ops

/-- The same calls on the iterator; an exception of a call other than `next` is reported as `none`. -/
def raRun (it : Iter α) (tweak : it.S → PrefetchTweak → it.S × Option Err) (F : Nat) :
    it.S → List it.C → List RaOp → Option (List (Res α ⊕ Int))
  | _, _, [] => some []
  | s, saved, .next :: ops => do
    let (s, r) ← it.next F s
    (raRun it tweak F s saved ops).map (.inl r :: ·)
  | s, saved, .getState :: ops =>
    let (s, c) := it.get s
    raRun it tweak F s (saved ++ [c]) ops
  | s, saved, .setState k :: ops => do
    let c ← saved[k]?
    match (← it.set F s c) with
    | (s, none) => raRun it tweak F s saved ops
    | (_, some _) => none
  | _, saved, .fresh k :: ops => do
    let c ← saved[k]?
    match (← it.set F it.init c) with
    | (s, none) => raRun it tweak F s saved ops
    | (_, some _) => none
  | s, saved, .getIndex :: ops =>
    match it.getIdx s with
    | .ok i => (raRun it tweak F s saved ops).map (.inr i :: ·)
    | .error _ => none
  | s, saved, .setIndex i :: ops =>
    match it.setIdx s i with
    | (s, none) => raRun it tweak F s saved ops
    | (_, some _) => none
  | s, saved, .tweak t :: ops =>
    match tweak s t with
    | (s, none) => raRun it tweak F s saved ops
    | (_, some _) => none

end Grain
