import Verif.Iter.Basic
/-
`assert_equal_output_after_checkpoint`, python/testing/experimental.py:10-65 (`grain.testing`-style helper for users' own
iterators).
-/
namespace Grain

/-- The first loop, lines 25-46: a state and a value for every element; ends at `StopIteration`.  `specOf` is `spec_like`;
`first` is `state_spec`.  The first number bounds the turns (`itertools.count()`). -/
def ckCollect (it : Iter α) [DecidableEq σ] (specOf : it.C → σ) (F : Nat) :
    Nat → it.S → Option σ → List it.C → List α → Option (Py (List it.C × List α))
  | 0, _, _, _, _ => none
  | t + 1, s, first, cs, vs =>
    let (s, c) := it.get s
    if first.any (fun p => decide (p ≠ specOf c)) then some (.error .assertion)
    else
      match it.next F s with
      | none => none
      | some (s, .item a) => ckCollect it specOf F t s (some (first.getD (specOf c))) (cs ++ [c]) (vs ++ [a])
      | some (_, .stop) => some (.ok (cs, vs))
      | some (_, .fail e) => some (.error e)

/-- `list(new_iterator)`, line 60. -/
def ckDrain (it : Iter α) (F : Nat) : Nat → it.S → Option (Py (List α))
  | 0, _ => none
  | t + 1, s =>
    match it.next F s with
    | none => none
    | some (s, .item a) =>
      match ckDrain it F t s with
      | none => none
      | some (.error e) => some (.error e)
      | some (.ok vs) => some (.ok (a :: vs))
    | some (_, .stop) => some (.ok [])
    | some (_, .fail e) => some (.error e)

/-- One turn of the second loop, lines 50-65.  `same` is `assert_equal` on states; the message (an f-string) calls
`get_state` a second time before the comparison.  Values are compared with `=` (simplification: `assert_equal` also takes
arrays and NaN). -/
def ckReplay (it : Iter α) [DecidableEq α] (same : it.C → it.C → Bool) (F : Nat) (c : it.C) (expected : List α) :
    Option (Py Unit) :=
  match it.set F it.init c with
  | none => none
  | some (_, some e) => some (.error e)
  | some (s, none) =>
    let (s, c') := it.get s
    let (s, _) := it.get s
    if same c' c then
      match ckDrain it F F s with
      | none => none
      | some (.error e) => some (.error e)
      | some (.ok vs) => if vs = expected then some (.ok ()) else some (.error .assertion)
    else some (.error .assertion)

/-- The second loop, lines 50-65; `i` is the number of the state at the head. -/
def ckReplays (it : Iter α) [DecidableEq α] (same : it.C → it.C → Bool) (F : Nat) (expected : List α) :
    Nat → List it.C → Option (Py Unit)
  | _, [] => some (.ok ())
  | i, c :: cs =>
    match ckReplay it same F c (expected.drop i) with
    | some (.ok ()) => ckReplays it same F expected (i + 1) cs
    | r => r

/-- `assert_equal_output_after_checkpoint`, python/testing/experimental.py:10-65. -/
def checkpointTest (it : Iter α) [DecidableEq α] [DecidableEq σ] (specOf : it.C → σ) (same : it.C → it.C → Bool) (F : Nat) :
    Option (Py Unit) :=
  match ckCollect it specOf F F it.init none [] [] with
  | none => none
  | some (.error e) => some (.error e)
  | some (.ok (cs, vs)) =>
    if vs = [] then some (.error .assertion) else ckReplays it same F vs 0 cs

end Grain
