import Verif.Iter.Stream
import Verif.MapDs.Model
/-
`IterDataset.mix` of datasets given by name, and restarts with other components or weights
(grain/_src/python/dataset/transformations/mix.py:183-294; T stands for grain/_src/python/dataset/transformations).
-/
namespace Grain

/-- State of `_MixedDatasetIterator`, T/mix.py:194-207, the parents by name.  Names that are not in the mixture have no object in
the program; what stands for them here is never looked at. -/
structure NamedState (D : String → Iter α) where
  parents : ∀ k, (D k).S
  index : Nat
  stop : Bool

/-- A state returned by `get_state`, T/mix.py:234-241: a dictionary of the parents' states (a name that is not in it: `none`), the
index and the stop flag.  It has the same type for all mixtures, so that it can be restored into another one. -/
abbrev NamedCk (D : String → Iter α) := (∀ k, Option (D k).C) × Nat × Bool

/-- The loop of `set_state` for a mapping, T/mix.py:249-251: parents whose name is not in the state are left alone. -/
def namedSet (D : String → Iter α) (F : Nat) (c : ∀ k, Option (D k).C) :
    List String → (∀ k, (D k).S) → Option ((∀ k, (D k).S) × Option Err)
  | [], s => some (s, none)
  | k :: ks, s =>
    match c k with
    | none => namedSet D F c ks s
    | some ck => do
      match (← (D k).set F (s k) ck) with
      | (sk, none) => namedSet D F c ks (Function.update s k sk)
      | (sk, some e) => some (Function.update s k sk, some e)

/-- `_MixedDatasetIterator` for a mapping, T/mix.py:183-259.  `D k` is the iterator of the dataset called `k`, `names` the names in the
order in which `tree_lib.flatten` lists them (C55), `proportions` the integer proportions in the same order. -/
def namedMixIter (D : String → Iter α) (names : List String) (proportions : List Nat) : Iter α where
  S := NamedState D
  C := NamedCk D
  init := { parents := fun k => (D k).init, index := 0, stop := false }
  next F s :=
    if s.stop then some (s, .stop)
    else
      match datasetAndKey (s.index : Int) proportions with
      | .error e => some (s, .fail e)
      | .ok (d, _) =>
        match names[d]? with
        | none => some ({ s with index := s.index + 1, stop := true }, .fail .indexError)
        | some k => do
          let (sk, r) ← (D k).next F (s.parents k)
          let s : NamedState D := { s with index := s.index + 1, parents := Function.update s.parents k sk }
          match r with
          | .item a => some (s, .item a)
          | .stop => some ({ s with stop := true }, .stop)
          | .fail e => some ({ s with stop := true }, .fail e)
  get s := ({ s with parents := fun k => if k ∈ names then ((D k).get (s.parents k)).1 else s.parents k },
            (fun k => if k ∈ names then some ((D k).get (s.parents k)).2 else none, s.index, s.stop))
  set F s c := do
    match (← namedSet D F c.1 names s.parents) with
    | (q, some e) => some ({ s with parents := q }, some e)
    | (q, none) => some ({ parents := q, index := c.2.1, stop := c.2.2 }, none)

end Grain
