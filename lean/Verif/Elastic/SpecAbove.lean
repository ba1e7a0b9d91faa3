import Verif.Elastic.Above
/-
Specification for C59: an elastic job with transformations above its interleave.
-/
namespace Grain


/-- What `map` makes of one result. -/
def mapRes (f : α → Py (Option β)) : Res (Option α) → Res (Option β)
  | .item none => .item none
  | .item (some a) =>
    match f a with
    | .ok b => .item b
    | .error e => .fail e
  | .stop => .stop
  | .fail e => .fail e

/-- What `filter` makes of one result. -/
def filterRes (pred : α → Py Bool) : Res α → Option (Res α)
  | .item a =>
    match pred a with
    | .ok true => some (.item a)
    | .ok false => none
    | .error e => some (.fail e)
  | .stop => some .stop
  | .fail e => some (.fail e)

/-- The elements among results. -/
def itemsOf (rs : List (Res α)) : List α := rs.filterMap (fun r => match r with | .item a => some a | _ => none)

/-- What `batch(b)` makes of results without failures: the batches, one after the other, are the elements; none is empty or longer
than `b`. -/
def Batched (b : Nat) (below : List (Res α)) (rs : List (Res (List α))) : Prop :=
  (∀ e, Res.fail e ∉ below) →
    itemsOf below = (itemsOf rs).flatten ∧ (∀ vs ∈ itemsOf rs, vs ≠ [] ∧ vs.length ≤ b) ∧ ∀ e, Res.fail e ∉ rs

/-- `R` says how the results of the transformations depend on those of the interleave: whatever is done with the transformed iterator
can be done with the interleave. -/
def HoldsNothing (t : Above α β) (R : List (Res α) → List (Res β) → Prop) : Prop :=
  (∀ p s ps, t.inner p (t.setInner p s ps) = ps) ∧
  ∀ (p : Iter α) (F m : Nat) (s s' : (t.wrap p).S) (rs : List (Res β)), runNexts (t.wrap p) F m s = some (s', rs) →
    ∃ m' below, runNexts p F m' (t.inner p s) = some (t.inner p s', below) ∧ R below rs

end Grain
