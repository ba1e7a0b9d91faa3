import Verif.Iter.Basic
/-
Specification for C49: `get_next_index` and `set_next_index` (grain/_src/python/dataset/dataset.py:1875-1882).
-/
namespace Grain

/-- The calls of `Op`, and `get_next_index()` and `set_next_index(i)`. -/
inductive IdxOp where
  | op (o : Op)
  | getIndex
  | setIndex (i : Nat)
  deriving DecidableEq, Repr

/-- The ideal iterator over the elements `vs`: a position.  The outcomes are those of `next` and the numbers returned by
`get_next_index`.  `ended` says that the stream ends after `vs`; `atEnd` whether the two index calls are considered at the end of the
stream too (otherwise only where an element follows). -/
def idxSpec (vs : List α) (ended atEnd : Bool) : Nat → List Nat → List IdxOp → Option (List (Res α ⊕ Int))
  | _, _, [] => some []
  | pos, saved, .op .next :: ops => do
    let r ← outcome (vs.map Except.ok) ended pos
    let rest ← idxSpec vs ended atEnd (min vs.length (pos + 1)) saved ops
    some (.inl r :: rest)
  | pos, saved, .op .save :: ops => idxSpec vs ended atEnd pos (saved ++ [pos]) ops
  | _, saved, .op (.restore k) :: ops => do
    let p ← saved[k]?
    if p < vs.length ∨ ended = true then idxSpec vs ended atEnd p saved ops else none
  | _, saved, .op (.fresh k) :: ops => do
    let p ← saved[k]?
    if p < vs.length ∨ ended = true then idxSpec vs ended atEnd p saved ops else none
  | pos, saved, .getIndex :: ops =>
    if pos < vs.length ∨ (atEnd = true ∧ ended = true) then do
      let rest ← idxSpec vs ended atEnd pos saved ops
      some (.inr pos :: rest)
    else none
  | _, saved, .setIndex i :: ops =>
    if i < vs.length ∨ (atEnd = true ∧ ended = true ∧ i = vs.length) then idxSpec vs ended atEnd i saved ops else none

/-- The same calls on the real iterator; an exception of a call other than `next` is reported as `none`. -/
def idxRun (it : Iter α) (F : Nat) : it.S → List it.C → List IdxOp → Option (List (Res α ⊕ Int))
  | _, _, [] => some []
  | s, saved, .op .next :: ops => do
    let (s, r) ← it.next F s
    let rest ← idxRun it F s saved ops
    some (.inl r :: rest)
  | s, saved, .op .save :: ops =>
    let (s, c) := it.get s
    idxRun it F s (saved ++ [c]) ops
  | s, saved, .op (.restore k) :: ops => do
    let c ← saved[k]?
    match (← it.set F s c) with
    | (s, none) => idxRun it F s saved ops
    | (_, some _) => none
  | _, saved, .op (.fresh k) :: ops => do
    let c ← saved[k]?
    match (← it.set F it.init c) with
    | (s, none) => idxRun it F s saved ops
    | (_, some _) => none
  | s, saved, .getIndex :: ops =>
    match it.getIdx s with
    | .ok i => (idxRun it F s saved ops).map (.inr i :: ·)
    | .error _ => none
  | s, saved, .setIndex i :: ops =>
    match it.setIdx s i with
    | (s, none) => idxRun it F s saved ops
    | (_, some _) => none

end Grain
