import Verif.Elastic.Model
/-
Transformations above the interleave of an elastic iterator: `ElasticIterDatasetIterator`, grain/_src/python/dataset/elastic_iterator.py
(EI), saves and restores only the shard states of the highest sliceable iterator (the interleave, found by
`_find_sliceable_iterator`, EI:89-111).
T/ = grain/_src/python/dataset/transformations/.
-/
namespace Grain

/-- Transformations with one parent: the iterator, the state of the parent inside its state (`_parent`), and its state with the
parent's state replaced (the parent is an object of its own, `set_shard_states` changes only it, EI:245-246). -/
structure Above (α β : Type) where
  wrap : Iter α → Iter β
  inner : ∀ p, (wrap p).S → p.S
  setInner : ∀ p, (wrap p).S → p.S → (wrap p).S

/-- `map`, T/map.py:292-327. -/
def Above.map (f : α → Py (Option β)) : Above (Option α) (Option β) where
  wrap := mapIter f
  inner _ s := s
  setInner _ _ s := s

/-- `filter`, T/filter.py:139-190; no threshold for raising. -/
def Above.filter (pred : α → Py Bool) : Above α α where
  wrap := filterIter pred none
  inner _ s := s.1
  setInner _ t s := (s, t.2)

/-- `batch`, T/batch.py:283-332. -/
def Above.batch (b : Nat) (drop : Bool) (f : List α → Py β) : Above α β where
  wrap := batchIter b drop f
  inner _ s := s
  setInner _ _ s := s

/-- `map_with_index`, T/map.py:387-429. -/
def Above.mapWithIndex (f : Nat → α → Py (Option β)) : Above (Option α) (Option β) where
  wrap := mapWithIndexIter f
  inner _ s := s.1
  setInner _ t s := (s, t.2)

/-- `flat_map`, T/flatmap.py:78-141. -/
def Above.flatMap (f : α → Py (List β)) : Above α β where
  wrap := flatMapIter f
  inner _ s := s.ps
  setInner _ t s := { t with ps := s }

/-- `WindowShuffleIterDataset`, T/shuffle.py:182-260. -/
def Above.windowShuffle (shuffle : Nat → List α → Py (List α)) (w : Nat) : Above α α where
  wrap := windowShuffleIter shuffle w
  inner _ s := s.ps
  setInner _ t s := { t with ps := s }

/-- One transformation above another. -/
def Above.comp (t : Above α β) (u : Above β γ) : Above α γ where
  wrap p := u.wrap (t.wrap p)
  inner p s := t.inner p (u.inner (t.wrap p) s)
  setInner p s ps := u.setInner (t.wrap p) s (t.setInner p (u.inner (t.wrap p) s) ps)

/-- No transformation above the interleave. -/
def Above.id : Above α α where
  wrap p := p
  inner _ s := s
  setInner _ _ s := s

/-- One host between two resizes, as `elasticRun`, with the transformations `t` above the interleave: a new iterator over the whole
dataset, the shard states put into its interleave (EI:224-246), `m` calls of `next` of the whole iterator (EI:178-180), and the shard
states of its interleave (EI:182-210). -/
def elasticRunAbove (t : Above α β) (g : IterFam α) (n cycle hosts host F : Nat) (dir : Option (Nat → Option (ShardState g.C)))
    (m : Nat) : Option (List (Res β) × List (ShardState g.C)) := do
  let s ← elasticStart g n cycle hosts host F dir
  let r ← runNexts (t.wrap (interleaveIter g n cycle false)) F m
    (t.setInner (interleaveIter g n cycle false) (t.wrap (interleaveIter g n cycle false)).init s)
  some (r.2, (ilGetShards g n (min cycle n) (t.inner (interleaveIter g n cycle false) r.1)).2)

/-- Host number `host` of `hosts` hosts that share `D` datasets; as `elasticHost`. -/
def elasticHostAbove (t : Above α β) (f : IterFam α) (D cycle hosts host F : Nat) (dir : Option (Nat → Option (ShardState f.C)))
    (m : Nat) : Option (List (Res β) × List (ShardState f.C)) :=
  elasticRunAbove t (f.host hosts host) (hostLen D hosts host) cycle hosts host F dir m

/-- All hosts between two resizes, with `m i` calls of `next` on host `i`; as `elasticPhase`. -/
def elasticPhaseAbove (t : Above α β) (f : IterFam α) (D cycle F : Nat) (dir : Option (Nat → Option (ShardState f.C))) (hosts : Nat)
    (m : Nat → Nat) : Option (List (List (Res β)) × (Nat → Option (ShardState f.C))) := do
  let rs ← (List.range hosts).mapM (fun i => elasticHostAbove t f D cycle hosts i F dir (m i))
  some (rs.map (·.1), saveHosts hosts (fun i => (rs[i]?.map (·.2)).getD []))

/-- A job that is resized again and again; as `elasticHistory`. -/
def elasticHistoryAbove (t : Above α β) (f : IterFam α) (D cycle F : Nat) :
    Option (Nat → Option (ShardState f.C)) → List (Nat × (Nat → Nat)) →
    Option (List (List (List (Res β))) × Option (Nat → Option (ShardState f.C)))
  | dir, [] => some ([], dir)
  | dir, (hosts, m) :: phases => do
    let r ← elasticPhaseAbove t f D cycle F dir hosts m
    let rest ← elasticHistoryAbove t f D cycle F (some r.2) phases
    some (r.1 :: rest.1, rest.2)

end Grain
