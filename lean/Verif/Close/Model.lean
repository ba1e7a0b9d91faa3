import Verif.Iter.Model
import Verif.Interleave.Model
import Verif.Sources.Model
import Verif.Packing.Model
import Verif.Cts.Model
import Verif.Elastic.Model
/-
`DatasetIterator.close` and its overrides.  D/ = grain/_src/python/dataset/, T/ = D/transformations/.
-/
namespace Grain

/-- An iterator with its `close`.  `sources s` says for every iterator at the bottom of the pipeline that holds resources (a
thread pool, a file) whether it has been closed. -/
structure Closable (α : Type) where
  it : Iter α
  close : it.S → it.S
  sources : it.S → List Bool

/-- `it` with the field `_closed` of `DatasetIterator.__init__`, D/dataset.py:1442.  `checks`: `__next__` begins with
`self._assert_not_closed()` (D/dataset.py:1554-1556). -/
def Iter.flagged (it : Iter α) (checks : Bool) : Iter α where
  S := it.S × Bool
  C := it.C
  init := (it.init, false)
  next F s :=
    if checks && s.2 then some (s, .fail .valueError)
    else do
      let (t, r) ← it.next F s.1
      some ((t, s.2), r)
  get s := (((it.get s.1).1, s.2), (it.get s.1).2)
  set F s c := do
    let (t, e) ← it.set F s.1 c
    some ((t, s.2), e)

/-- `DatasetIterator.close`, D/dataset.py:1534-1552, for an iterator class that does not override it: `closeParents` closes the
parents. -/
def Closable.derived (it : Iter α) (closeParents : it.S → it.S) (sources : it.S → List Bool) : Closable α where
  it := it.flagged false
  close s := if s.2 then s else (closeParents s.1, true)
  sources s := sources s.1

/-- `PrefetchDatasetIterator`, T/prefetch.py:243 and 380-391: `close` shuts the thread pool down and empties the buffer, if there
is a thread pool. -/
def Closable.mapDataset (size threads : Nat) (allowNones : Bool) (thr : Option Threshold) (ds : MapDs α) : Closable (Option α) where
  it := (prefetchIter size threads allowNones thr ds).flagged true
  close s := if s.2 then s else ((if s.1.exec then { s.1 with buffer := [] } else s.1 : PrefetchState), true)
  sources s := [s.2]

/-- An iterator over a file, D/sources/tfrecord_dataset.py:79-97 or D/sources/parquet_dataset.py:34-83.  They inherit `close`;
the file stays open until the object is deleted (tfrecord_dataset.py:74-76). -/
def Closable.file (it : Iter α) : Closable α := Closable.derived it (fun s => s) (fun _ => [false])

/-! ### One parent -/

/-- `_MapDatasetIterator`, T/map.py:292-327, inherits `close`: the parent is closed (D/dataset.py:1534-1552). -/
def Closable.map (f : α → Py (Option β)) (c : Closable (Option α)) : Closable (Option β) :=
  .derived (mapIter f c.it) c.close c.sources

/-- `_RandomMapDatasetIterator`, T/map.py:330-384, inherits `close`: the parent is closed (D/dataset.py:1534-1552). -/
def Closable.randomMap (f : α → Nat → Py (Option β)) (i n : Nat) (c : Closable (Option α)) : Closable (Option β) :=
  .derived (randomMapIter f i n c.it) (fun s => (c.close s.1, s.2)) (fun s => c.sources s.1)

/-- `_MapWithIndexDatasetIterator`, T/map.py:387-429, inherits `close`: the parent is closed (D/dataset.py:1534-1552). -/
def Closable.mapWithIndex (f : Nat → α → Py (Option β)) (c : Closable (Option α)) : Closable (Option β) :=
  .derived (mapWithIndexIter f c.it) (fun s => (c.close s.1, s.2)) (fun s => c.sources s.1)

/-- `_LimitDatasetIterator`, T/limit.py:25-61, inherits `close`: the parent is closed (D/dataset.py:1534-1552). -/
def Closable.limit (n : Nat) (c : Closable α) : Closable α :=
  .derived (limitIter n c.it) (fun s => (c.close s.1, s.2)) (fun s => c.sources s.1)

/-- `_FilterDatasetIterator`, T/filter.py:139-190, inherits `close`: the parent is closed (D/dataset.py:1534-1552). -/
def Closable.filter (pred : α → Py Bool) (thr : Option Threshold) (c : Closable α) : Closable α :=
  .derived (filterIter pred thr c.it) (fun s => (c.close s.1, s.2)) (fun s => c.sources s.1)

/-- `_BatchDatasetIterator`, T/batch.py:283-332, inherits `close`: the parent is closed (D/dataset.py:1534-1552). -/
def Closable.batch (b : Nat) (drop : Bool) (f : List α → Py β) (c : Closable α) : Closable β :=
  .derived (batchIter b drop f c.it) c.close c.sources

/-- `_RebatchDatasetIterator`, T/rebatch.py:76-187, inherits `close`: the parent is closed (D/dataset.py:1534-1552). -/
def Closable.rebatch (b : Nat) (drop : Bool) (c : Closable (List α)) : Closable (List α) :=
  .derived (rebatchIter b drop c.it) (fun (s : RebatchState c.it.S c.it.C α) => { s with ps := c.close s.ps })
    (fun (s : RebatchState c.it.S c.it.C α) => c.sources s.ps)

/-- `_FlatMapDatasetIterator`, T/flatmap.py:78-141, inherits `close`: the parent is closed (D/dataset.py:1534-1552). -/
def Closable.flatMap (f : α → Py (List β)) (c : Closable α) : Closable β :=
  .derived (flatMapIter f c.it) (fun (s : FlatMapState c.it.S c.it.C β) => { s with ps := c.close s.ps })
    (fun (s : FlatMapState c.it.S c.it.C β) => c.sources s.ps)

/-- `_RepeatDatasetIterator`, T/repeat.py:85-138, inherits `close`: the parent is closed (D/dataset.py:1534-1552). -/
def Closable.repeat (numEpochs : Option Nat) (c : Closable α) : Closable α :=
  .derived (repeatIter numEpochs c.it) (fun (s : RepeatState c.it.S c.it.C) => { s with ps := c.close s.ps })
    (fun (s : RepeatState c.it.S c.it.C) => c.sources s.ps)

/-- `_InMemoryCacheDatasetIterator`, T/cache.py:50-109, inherits `close`: the parent is closed (D/dataset.py:1534-1552). -/
def Closable.cache (c : Closable α) : Closable α :=
  .derived (cacheIter c.it) (fun (s : CacheState c.it.S c.it.C α) => { s with ps := c.close s.ps })
    (fun (s : CacheState c.it.S c.it.C α) => c.sources s.ps)

/-- `_WindowShuffleDatasetIterator`, T/shuffle.py:182-260, inherits `close`: the parent is closed (D/dataset.py:1534-1552). -/
def Closable.windowShuffle (shuffle : Nat → List α → Py (List α)) (w : Nat) (c : Closable α) : Closable α :=
  .derived (windowShuffleIter shuffle w c.it) (fun (s : WinState c.it.S c.it.C α) => { s with ps := c.close s.ps })
    (fun (s : WinState c.it.S c.it.C α) => c.sources s.ps)

/-- `PackingDatasetIterator`, T/packing.py:28-266, inherits `close`: the parent is closed (D/dataset.py:1534-1552). -/
def Closable.pack (pk : Packer E R) (order : Nat → List R → List Nat) (c : Closable E) : Closable R :=
  .derived (packIter pk order c.it) (fun (s : PackState pk.B R c.it.S c.it.C) => { s with parent := c.close s.parent })
    (fun (s : PackState pk.B R c.it.S c.it.C) => c.sources s.parent)

/-- `_ConcatThenSplitDatasetIterator`, T/packing_concat_then_split.py:221-575,
inherits `close`: the parent is closed (D/dataset.py:1534-1552). -/
def Closable.concatThenSplit (cfg : CtsCfg τ) (c : Closable (List (CtsVal τ))) : Closable (List (CtsCol τ)) :=
  .derived (ctsIter cfg c.it) (fun (s : CtsState τ c.it.S c.it.C) => { s with parent := c.close s.parent })
    (fun (s : CtsState τ c.it.S c.it.C) => c.sources s.parent)

/-- `ThreadPrefetchDatasetIterator`, T/prefetch.py:599-663: with a buffer, `__next__` calls `start_prefetch`, which raises when the
iterator is closed (605-606); without one it reads the parent.  `close` (657-663) closes the parent in any case.
Simplification: the elements in the buffer and the thread are left out (they are invisible: C29; `close` ends them). -/
def Closable.threadPrefetch (size : Nat) (c : Closable α) : Closable α where
  it := c.it.flagged (decide (0 < size))
  close s := (c.close s.1, true)
  sources s := c.sources s.1

/-! ### Several parents -/

/-- `_ZipDatasetIterator`, T/zip.py:90-146, inherits `close`: the parents are closed (D/dataset.py:1534-1552). -/
def Closable.zip {n : Nat} (strict : Bool) (cs : Fin n → Closable α) : Closable (List α) :=
  .derived (zipIter strict (fun i => (cs i).it)) (fun (s : ∀ i, (cs i).it.S) => fun i => (cs i).close (s i))
    (fun (s : ∀ i, (cs i).it.S) => (List.finRange n).flatMap (fun i => (cs i).sources (s i)))

/-- `_MixedDatasetIterator`, T/mix.py:183-259, inherits `close`: the parents are closed (D/dataset.py:1534-1552). -/
def Closable.mix {n : Nat} (proportions : List Nat) (cs : Fin n → Closable α) : Closable α :=
  .derived (mixIter proportions (fun i => (cs i).it))
    (fun (s : MixState (fun i => (cs i).it)) => { s with parents := fun i => (cs i).close (s.parents i) })
    (fun (s : MixState (fun i => (cs i).it)) => (List.finRange n).flatMap (fun i => (cs i).sources (s.parents i)))

/-- The iterators of interleaved datasets with their `close`. -/
structure CloseFam (α : Type) extends IterFam α where
  close : Nat → S → S
  sources : Nat → S → List Bool

/-- `InterleaveDatasetIterator`, T/interleave.py:99 and 378-386: closes the iterators in use.  Simplification: the iterators
prepared ahead of their use are left out.  The sources are those of the iterators in use and of the used up ones that are kept
(`_exhausted_iterators`). -/
def Closable.interleave (f : CloseFam α) (n cycle : Nat) (keep : Bool) : Closable α where
  it := (interleaveIter f.toIterFam n cycle keep).flagged true
  close s := if s.2 then s else
    (({ s.1 with slots := fun i => (s.1.slots i).map (fun o => (o.1, f.close o.1 o.2)) } : ILState f.S f.C), true)
  sources s := (List.range (min cycle n)).flatMap (fun i =>
    ((show ILState f.S f.C from s.1).slots i).toList.flatMap (fun o => f.sources o.1 o.2) ++
    ((show ILState f.S f.C from s.1).kept i).toList.flatMap (fun k => f.sources k.2.1 k.2.2))

/-! ### ElasticIterator -/

/-- `ElasticIterator` over a map dataset, D/elastic_iterator.py:445-496, around the iterator of `elasticMapIter`.  `close`
(478-481) looks for the attribute `_base_iterator`, but the iterator is cached under the name of the property,
`base_iterator` (445-446): nothing is closed. -/
def Closable.elastic (batchFn : List (Option α) → Py (Option β)) (ds : MapDs α) (size threads globalBatch shardIndex shardCount : Nat) :
    Closable (Option β) where
  it := elasticMapIter batchFn ds size threads globalBatch shardIndex shardCount
  close s := s
  sources s := match (show ElasticMapState from s).inner with
    | none => []
    | some _ => [false]

end Grain
