import Verif.Interleave.Model
/-
`InterleaveIterDataset` over a `MapDataset` of datasets from which some were filtered out (T/interleave.py:525-526: "The
sequence can be a `MapDataset`"): `len(datasets)` counts all entries and `datasets[i]` is `None` for those filtered out.
T/ = grain/_src/python/dataset/transformations/.
-/
namespace Grain

/-- The next element of `_prefetch_ds_iter`, T/interleave.py:51-75, at position `pf`: entries that are `None` stay `None` under
`map` (T/map.py:95-107) and are passed over by `to_iter_dataset` (T/prefetch.py:232-257). -/
def nextPresent (present : Nat → Bool) (n pf : Nat) : Option Nat :=
  (List.range n).find? (fun p => decide (pf ≤ p) && present p)

/-- The loop of `__next__`, T/interleave.py:103-167, as `ilLoop`, with entry `d` filtered out unless `present d`.  The
`StopIteration` of `next(self._prefetch_ds_iter)` (141) leaves the loop.  Future states and kept iterators are left out: no
state is restored here and `repeat` is not used. -/
def ilLoopSparse (f : IterFam α) (present : Nat → Bool) (n L : Nat) (F : Nat) :
    Nat → ILState f.S f.C → Option (ILState f.S f.C × Res α)
  | 0, _ => none
  | k + 1, s =>
    match s.slots s.cyc with
    | some (d, st) =>
      match f.next d F st with
      | none => none
      | some (st, .item a) =>
        some ({ s with slots := Function.update s.slots s.cyc (some (d, st)), cyc := (s.cyc + 1) % L }, .item a)
      | some (st, .fail e) => some ({ s with slots := Function.update s.slots s.cyc (some (d, st)) }, .fail e)
      | some (st, .stop) =>
        ilLoopSparse f present n L F k
          { s with exState := Function.update s.exState s.cyc (some (f.get d st).2)
                   slots := Function.update s.slots s.cyc none
                   cyc := (s.cyc + 1) % L }
    | none =>
      if s.nextDs < n then
        match nextPresent present n s.pf with
        | some p =>
          ilLoopSparse f present n L F k
            { s with pf := p + 1
                     slots := Function.update s.slots s.cyc (some (p, f.init p))
                     exState := Function.update s.exState s.cyc none
                     indices := Function.update s.indices s.cyc s.nextDs
                     nextDs := s.nextDs + 1 }
        | none => some ({ s with pf := n }, .stop)
      else if anyLive L s.slots then ilLoopSparse f present n L F k { s with cyc := (s.cyc + 1) % L }
      else some (s, .stop)

/-- `k` calls of `next` on a new iterator (cycle length: 76). -/
def sparseNexts (f : IterFam α) (present : Nat → Bool) (n cycle F : Nat) : Nat → ILState f.S f.C → Option (List (Res α))
  | 0, _ => some []
  | k + 1, s =>
    match ilLoopSparse f present n (min cycle n) F F { s with started := true } with
    | none => none
    | some (s, r) => (sparseNexts f present n cycle F k s).map (r :: ·)

end Grain
