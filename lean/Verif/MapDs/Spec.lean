import Verif.MapDs.Model
/-
Specification vocabulary for random access datasets: everything is stated through what a user observes,
i.e. `len(ds)` and `ds[i]`.
-/
namespace Grain

/-- What a user sees of epoch `e`: `[ds[e * len(ds) + i] for i in range(len(ds))]`, each read being a value or an
exception.  Epoch 0 is `list(ds)`. -/
def epoch (ds : MapDs α) (e : Int) : List (Py (Option α)) :=
  (List.range ds.len).map (fun (i : Nat) => ds.getitem (e * (ds.len : Int) + (i : Int)))

/-- The positions Python's `seq[start:stop:step]` selects from a sequence of length `n`, in order, written from
the language reference: a negative bound counts from the end, bounds outside the sequence are clamped, a missing
bound is the end of the sequence; the selected positions are those at a whole number of steps from the start
that lie before the stop. -/
def pySlicePositions (start stop : Option Int) (step : Int) (n : Nat) : List Int :=
  let norm : Int → Int := fun b => if b < 0 then b + n else b
  let positions : List Int := (List.range n).map (fun (i : Nat) => (i : Int))
  if step > 0 then
    let lo := max 0 ((start.map norm).getD 0)
    positions.filter (fun x => decide (lo ≤ x) && decide ((x - lo) % step = 0) &&
      (match stop with | none => true | some s => decide (x < norm s)))
  else
    let hi := min ((n : Int) - 1) ((start.map norm).getD ((n : Int) - 1))
    positions.reverse.filter (fun x => decide (x ≤ hi) && decide ((hi - x) % (-step) = 0) &&
      (match stop with | none => true | some s => decide (norm s < x)))

/-- Round robin over several sequences, skipping the ones that are exhausted. -/
def roundRobin (ls : List (List α)) : List α :=
  (List.range (ls.foldl (fun m l => max m l.length) 0)).flatMap (fun k => ls.filterMap (fun l => l[k]?))

/-- Consecutive groups of `b`: group number `i`. -/
def group (xs : List α) (b i : Nat) : List α := (xs.drop (i * b)).take b

/-- Reading the random access dataset from beginning to end gives `vs`. -/
def Reads (ds : MapDs α) (vs : List (Option α)) : Prop :=
  vs.length = ds.len ∧ ∀ k (hk : k < vs.length), ds.getitem k = .ok vs[k]

end Grain
