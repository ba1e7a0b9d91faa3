import Verif.Interleave.Model
import Verif.Iter.Model
import Mathlib.Data.List.Sort
/-
Model of the elastic iterators, grain/_src/python/dataset/elastic_iterator.py, of the shard states of interleave iterators,
grain/_src/python/dataset/transformations/interleave.py, and of elastic checkpoints,
grain/_src/python/checkpoint/elastic_checkpoint.py.
T/ = grain/_src/python/dataset/transformations/.
-/
namespace Grain

/-! ### Shard states of an interleave iterator -/

/-- `{"exhausted": ..., "state": ...}`; `state = none` is `None`. -/
structure ShardState (C : Type) where
  exhausted : Bool
  state : Option C

/-- `InterleaveDatasetIterator.get_shard_states`, T/interleave.py:211-252.  First an entry for each dataset that is not in use
(225-243; for those in use `None`, overwritten below), then the ones in use (245-250).  `_get_iterator_start_state` (431-439) is the state of a new
iterator. -/
def ilGetShards (f : IterFam α) (n L : Nat) (s : ILState f.S f.C) : ILState f.S f.C × List (ShardState f.C) :=
  let g := ilGet f n L s
  let entry := fun i =>
    if g.2.nextDs ≤ i then
      match g.1.future i with
      | some c => ⟨false, some c⟩
      | none => ⟨false, some (f.get i (f.init i)).2⟩
    else ⟨true, some (f.get i (f.init i)).2⟩
  (g.1, (List.range L).foldl (fun l j => l.set (g.2.indices j) ⟨g.2.exhausted j, g.2.states j⟩) ((List.range n).map entry))

/-- The entries of the new state, `set_shard_states`, T/interleave.py:300-334: the first `L` datasets that are not exhausted,
then exhausted ones until there are `L`. -/
def shardSlots (L : Nat) (shards : List (ShardState C)) : List (Nat × Option C × Bool) :=
  let active := shards.zipIdx.filter (fun q => !q.1.exhausted)
  let inUse := active.take L
  inUse.map (fun q => (q.2, q.1.state, false)) ++
    ((shards.zipIdx.filter (fun q => q.1.exhausted)).take (L - inUse.length)).map (fun q => (q.2, q.1.state, true))

/-- `next_index_in_datasets`, T/interleave.py:319-321: after the last dataset in use. -/
def shardNext (L : Nat) (shards : List (ShardState C)) : Nat :=
  match (shards.zipIdx.filter (fun q => !q.1.exhausted)).take L with
  | [] => 0
  | q :: qs => (qs.map (·.2)).foldl max q.2 + 1

/-- `future_states`, T/interleave.py:317-318. -/
def shardFuture (L : Nat) (shards : List (ShardState C)) (d : Nat) : Option C :=
  (((shards.zipIdx.filter (fun q => !q.1.exhausted)).drop L).find? (fun q => q.2 = d)).bind (·.1.state)

/-- The state built by `set_shard_states`, T/interleave.py:336-343.  (It has `L` entries when there is a state for each
dataset; the functions are arbitrary beyond the entries.) -/
def shardCk (L : Nat) (shards : List (ShardState C)) : ILCk C where
  cyc := 0
  nextDs := shardNext L shards
  indices i := ((shardSlots L shards)[i]?.map (·.1)).getD i
  states i := (shardSlots L shards)[i]?.bind (·.2.1)
  exhausted i := ((shardSlots L shards)[i]?.map (·.2.2)).getD false
  future := shardFuture L shards

/-- `InterleaveDatasetIterator.set_shard_states`, T/interleave.py:300-344. -/
def ilSetShards (f : IterFam α) (n L : Nat) (keep : Bool) (F : Nat) (s : ILState f.S f.C) (shards : List (ShardState f.C)) :
    Option (ILState f.S f.C × Option Err) :=
  ilSet f n L keep F s (shardCk L shards)

/-! ### Elastic checkpoints -/

/-- The files written for one host: `get_shard_states`, elastic_iterator.py:182-210, and `save_elastic_iterator`,
elastic_checkpoint.py:36-37. -/
def shardFiles (hosts host : Nat) (states : List σ) : List (Nat × σ) := states.mapIdx (fun l s => (l * hosts + host, s))

/-- Writing files `shard_state_{idx}.json` to the directory, elastic_checkpoint.py:37-40.  Different numbers give different names
(C48); a state read back from JSON is the state. -/
def writeFiles (dir : Nat → Option σ) (files : List (Nat × σ)) : Nat → Option σ :=
  files.foldl (fun d kv => Function.update d kv.1 (some kv.2)) dir

/-- The loop of `restore_elastic_iterator`, elastic_checkpoint.py:57-64; `F` bounds the number of turns. -/
def readFiles (dir : Nat → Option σ) (hosts : Nat) : Nat → Nat → Option (List (Nat × σ))
  | 0, _ => none
  | F + 1, k =>
    match dir k with
    | none => some []
    | some s => (readFiles dir hosts F (k + hosts)).map (fun l => (k, s) :: l)

/-- The states in the order of their numbers (`sorted`; the numbers are different), elastic_iterator.py:241-245. -/
def orderStates (l : List (Nat × σ)) : List σ := (l.insertionSort (fun a b => a.1 ≤ b.1)).map (·.2)

/-- The datasets of one host: `datasets[host::hosts]`, elastic_iterator.py:425-432, T/interleave.py:573-575. -/
def IterFam.host (f : IterFam α) (hosts host : Nat) : IterFam α where
  S := f.S
  C := f.C
  init l := f.init (l * hosts + host)
  next l := f.next (l * hosts + host)
  get l := f.get (l * hosts + host)
  set l := f.set (l * hosts + host)

/-- How many of `D` datasets a host has. -/
def hostLen (D hosts host : Nat) : Nat := (D - host + hosts - 1) / hosts

/-- `m` calls of `next`. -/
def runNexts (it : Iter α) (F : Nat) : Nat → it.S → Option (it.S × List (Res α))
  | 0, s => some (s, [])
  | m + 1, s => do
    let (s, r) ← it.next F s
    let (s, rs) ← runNexts it F m s
    some (s, r :: rs)

/-- The iterator of a host: new, or with the states read from a checkpoint (`set_shard_states` makes a new iterator,
elastic_iterator.py:224-246). -/
def elasticStart (g : IterFam α) (n cycle hosts host F : Nat) : Option (Nat → Option (ShardState g.C)) → Option (ILState g.S g.C)
  | none => some (ilInit g.S g.C)
  | some dir => do
    let files ← readFiles dir hosts F host
    match (← ilSetShards g n (min cycle n) false F (ilInit g.S g.C) (orderStates files)) with
    | (s, none) => some s
    | (_, some _) => none

/-- One host between two resizes: an `ElasticIterDatasetIterator` over an interleave of the host's `n` datasets
(elastic_iterator.py:110-250), new or restored from a checkpoint, `m` calls of `next`, and the states it saves.  (Without batches,
`global_batch_size = 0`; a batch is only a group of elements here, no element is held back between two batches.) -/
def elasticRun (g : IterFam α) (n cycle hosts host F : Nat) (dir : Option (Nat → Option (ShardState g.C))) (m : Nat) :
    Option (List (Res α) × List (ShardState g.C)) := do
  let s ← elasticStart g n cycle hosts host F dir
  let (s, rs) ← runNexts (interleaveIter g n cycle false) F m s
  some (rs, (ilGetShards g n (min cycle n) s).2)

/-- Host number `host` of `hosts` hosts that share `D` datasets. -/
def elasticHost (f : IterFam α) (D cycle hosts host F : Nat) (dir : Option (Nat → Option (ShardState f.C))) (m : Nat) :
    Option (List (Res α) × List (ShardState f.C)) :=
  elasticRun (f.host hosts host) (hostLen D hosts host) cycle hosts host F dir m

/-- The directory after all hosts saved their states (host 0 first; the files are different, so the order does not matter). -/
def saveHosts (hosts : Nat) (states : Nat → List σ) : Nat → Option σ :=
  writeFiles (fun _ => none) ((List.range hosts).flatMap (fun i => shardFiles hosts i (states i)))

/-- All hosts between two resizes, with `m i` calls of `next` on host `i`. -/
def elasticPhase (f : IterFam α) (D cycle F : Nat) (dir : Option (Nat → Option (ShardState f.C))) (hosts : Nat) (m : Nat → Nat) :
    Option (List (List (Res α)) × (Nat → Option (ShardState f.C))) := do
  let rs ← (List.range hosts).mapM (fun i => elasticHost f D cycle hosts i F dir (m i))
  some (rs.map (·.1), saveHosts hosts (fun i => (rs[i]?.map (·.2)).getD []))

/-- A job that is resized again and again: each phase has its number of hosts and its numbers of calls of `next`, and starts from
the checkpoint of the phase before. -/
def elasticHistory (f : IterFam α) (D cycle F : Nat) :
    Option (Nat → Option (ShardState f.C)) → List (Nat × (Nat → Nat)) →
    Option (List (List (List (Res α))) × Option (Nat → Option (ShardState f.C)))
  | dir, [] => some ([], dir)
  | dir, (hosts, m) :: phases => do
    let r ← elasticPhase f D cycle F dir hosts m
    let rest ← elasticHistory f D cycle F (some r.2) phases
    some (r.1 :: rest.1, rest.2)

/-! ### Elastic map iterators -/

/-- The dataset one shard reads from the global index `g` on, `_ElasticMapDatasetIterator._iterator`, elastic_iterator.py:310-328:
`ds[g + shard_index :: shard_count].batch(host_batch_size, drop_remainder=True)`. -/
def elasticShardDs (batchFn : List (Option α) → Py (Option β)) (ds : MapDs α) (globalBatch shardIndex shardCount g : Nat) : Py (MapDs β) := do
  let s ← SliceSpec.make (some ((g + shardIndex : Nat) : Int)) none (some (shardCount : Int)) ds.len
  if globalBatch % shardCount ≠ 0 then .error .valueError
  else if globalBatch / shardCount = 0 then .error .valueError
  else .ok (batchDs (globalBatch / shardCount) true false batchFn (sliceDs s ds))

/-- State of `_ElasticMapDatasetIterator`, elastic_iterator.py:292-308: the global index of the next batch, and once it was used the
cached inner iterator with the global index it was built for. -/
structure ElasticMapState where
  g : Nat
  inner : Option (Nat × PrefetchState)

/-- `next(self._iterator)` and the update of the global index, elastic_iterator.py:330-333, with the inner iterator in state `st`. -/
def elasticMapAdvance (globalBatch F : Nat) (s : ElasticMapState) (g0 : Nat) (d : MapDs β) (st : PrefetchState) :
    Option (ElasticMapState × Res (Option β)) :=
  match prefetchLoop d false none F st with
  | none => none
  | some (st, .item x) => some ({ g := s.g + globalBatch, inner := some (g0, st) }, .item x)
  | some (st, r) => some ({ s with inner := some (g0, st) }, r)

/-- `_ElasticMapDatasetIterator`, elastic_iterator.py:276-347, for shard `shardIndex` of `shardCount`, without multiprocessing
(`size` and `threads` are the read options).  `init` is a new iterator.  `set_state` throws the inner iterator away; the next
`next` builds another one (`cached_property`; when building it raises, nothing is cached). -/
def elasticMapIter (batchFn : List (Option α) → Py (Option β)) (ds : MapDs α) (size threads globalBatch shardIndex shardCount : Nat) :
    Iter (Option β) where
  S := ElasticMapState
  C := Nat
  init := { g := 0, inner := none }
  next F s :=
    match s.inner with
    | none =>
      match elasticShardDs batchFn ds globalBatch shardIndex shardCount s.g with
      | .error e => some (s, .fail e)
      | .ok d => elasticMapAdvance globalBatch F s s.g d (prefetchIter size threads false none d).init
    | some (g0, st) =>
      match elasticShardDs batchFn ds globalBatch shardIndex shardCount g0 with
      | .error e => some (s, .fail e)
      | .ok d => elasticMapAdvance globalBatch F s g0 d st
  get s := (s, s.g)
  set _ _ c := some ({ g := c, inner := none }, none)

/-- One phase of an elastic job over a map dataset: global batch size, number of shards, number of steps, and the shard whose
checkpoint is used afterwards. -/
structure MapPhase where
  globalBatch : Nat
  shards : Nat
  steps : Nat
  saver : Nat

/-- All shards of a phase: new iterators, restored from the checkpoint `ck`, `steps` calls of `next` on each.  The results are what
the shards returned and their checkpoints. -/
def elasticMapPhase (batchFn : List (Option α) → Py (Option β)) (ds : MapDs α) (size threads F : Nat) (ck : Nat) (ph : MapPhase) :
    Option (List (List (Res (Option β)) × Nat)) :=
  (List.range ph.shards).mapM (fun i => do
    let it := elasticMapIter batchFn ds size threads ph.globalBatch i ph.shards
    match (← it.set F it.init ck) with
    | (_, some _) => none
    | (s, none) =>
      let (s, rs) ← runNexts it F ph.steps s
      some (rs, (it.get s).2))

/-- A sequence of phases, each restored from the checkpoint of one shard of the phase before. -/
def elasticMapHistory (batchFn : List (Option α) → Py (Option β)) (ds : MapDs α) (size threads F : Nat) :
    Nat → List MapPhase → Option (List (List (List (Res (Option β)) × Nat)))
  | _, [] => some []
  | ck, ph :: phases => do
    let r ← elasticMapPhase batchFn ds size threads F ck ph
    let (_, ck) ← r[ph.saver]?
    let rest ← elasticMapHistory batchFn ds size threads F ck phases
    some (r :: rest)

end Grain
