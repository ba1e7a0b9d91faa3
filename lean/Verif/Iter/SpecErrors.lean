import Verif.Iter.Spec
/-
C85: what a failing element may do to the others.  Nothing here refers to iterator states, except `YieldsOutcomes`, which says what the
calls of `next` return.
-/
namespace Grain

/-- The elements among the outcomes of the calls of `next`: those of the calls that did not raise, in order. -/
def elements (xs : List (Py α)) : List α := xs.filterMap (fun x => x.toOption)

/-- The exceptions among the outcomes, in order. -/
def failures (xs : List (Py α)) : List Err := xs.filterMap (fun x => match x with | .ok _ => none | .error e => some e)

/-- A new iterator yields the outcomes `ys` (and then `StopIteration` forever, if `ended`) to a caller who goes on after
exceptions and takes no checkpoints. -/
def YieldsOutcomes (it : Iter α) (ys : List (Py α)) (ended : Bool) : Prop :=
  ∀ n outs, specRun ys ended (fun _ => true) 0 [] (List.replicate n .next) = some outs →
    Ev (fun F => implRun it F it.init [] (List.replicate n .next) = some outs)

/-- What `batch` yields if the parent's calls may fail (`ended`: the data is known to end): the elements of an unfinished batch
are `acc`. -/
def batchOutcomes (b : Nat) (drop : Bool) (f : List α → Py β) (ended : Bool) : List α → List (Py α) → List (Py β)
  | acc, [] => if ended = true ∧ drop = false ∧ acc ≠ [] then [f acc] else []
  | _, .error e :: xs => .error e :: batchOutcomes b drop f ended [] xs
  | acc, .ok a :: xs =>
    if acc.length + 1 = b then f (acc ++ [a]) :: batchOutcomes b drop f ended [] xs
    else batchOutcomes b drop f ended (acc ++ [a]) xs

/-- What `flat_map` yields if the parent's calls may fail. -/
def flatMapOutcomes (g : α → List β) (xs : List (Py α)) : List (Py β) :=
  xs.flatMap (fun x => match x with
    | .error e => [.error e]
    | .ok a => (g a).map Except.ok)

/-- What `zip` yields if the calls of the second input may fail: the element that was to be the partner is lost. -/
def zipOutcomes : List α → List (Py α) → List (Py (List α))
  | a :: as, .ok b :: ys => .ok [a, b] :: zipOutcomes as ys
  | _ :: as, .error e :: ys => .error e :: zipOutcomes as ys
  | _, _ => []

end Grain
