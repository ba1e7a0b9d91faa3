import Verif.Multiprocess.Model
import Verif.Shuffle.Model
/-
Models of `grain/_src/python/samplers.py` and of the dataset behind `DataLoader`, `grain/_src/python/data_loader.py`.
-/
namespace Grain

/-! ### Samplers -/

/-- `RecordMetadata`, python/record.py: the position in the global sequence, the record to read and the key of the random
generator (`Philox(key=seed + index)`). -/
structure RecMeta where
  index : Int
  key : Option Int
  rng : Option Int
  deriving DecidableEq, Repr

/-- What `DataLoader` uses of a sampler: `__getitem__` and, if there is one, `__len__`. -/
structure Sampler where
  get : Int → Py RecMeta
  len : Option Nat

/-- `SequentialSampler`, python/samplers.py:42-85.  Constructor 45-66, `__len__` 68-69, `__getitem__` 77-85. -/
def sequentialSampler (numRecords : Int) (o : ShardOptions) (seed : Option Int) : Py Sampler :=
  if numRecords ≤ 0 then .error .valueError
  else
    let maxIndex : Int := if o.dropRemainder then numRecords / (o.shardCount : Int) * (o.shardCount : Int) else numRecords
    .ok { get := fun index =>
            if index < 0 ∨ index ≥ maxIndex then .error .indexError
            else .ok { index := index, key := some index, rng := seed.map (· + index) }
          len := some maxIndex.toNat }

/-- The records of this shard, python/samplers.py:164-171; `none` is `NoSharding()`. -/
def recordRange (range : RangeDs) (o : Option ShardOptions) : MapDs Int :=
  match o with
  | none => range.toDs
  | some o => shardDs o range.toDs

/-- `IndexSampler._record_keys`, python/samplers.py:164-173. -/
def recordKeys (keysOf : Nat → List (BitVec 32)) (range : RangeDs) (o : Option ShardOptions) (shuffle : Bool) (seed : Nat) :
    MapDs Int :=
  if shuffle then shuffleDs keysOf seed (recordRange range o) else recordRange range o

/-- `IndexSampler._max_index`, python/samplers.py:162 and 167-171. -/
def indexMax (numRecords : Int) (o : Option ShardOptions) (numEpochs : Option Int) : Option Int :=
  match numEpochs with
  | none => none
  | some e =>
    match o with
    | none => some (e * numRecords)
    | some o =>
      let se := evenSplit numRecords.toNat o
      if o.dropRemainder then some (min (e * numRecords) (((se.2 - se.1 : Nat) : Int) * (o.shardCount : Int) * e))
      else some (e * numRecords)

/-- A constructed `IndexSampler`: `__len__`, python/samplers.py:176-177, and `__getitem__`, 189-204. -/
def indexSamplerObj (keys : MapDs Int) (maxIndex : Option Int) (shardCount : Int) (seed : Option Int) : Sampler where
  get := fun index =>
    if index < 0 ∨ (∃ m ∈ maxIndex, index ≥ m) then .error .indexError
    else do
      let key ← keys.getitem (index / shardCount)
      .ok { index := index, key := key, rng := seed.map (· + index) }
  len := some (match maxIndex with | none => maxsize | some m => m.toNat)

/-- `IndexSampler.__init__`, python/samplers.py:130-174, with its checks.  (A seed that is not an integer is not expressible
here.)  `keysOf` is the key schedule of the shuffle. -/
def indexSampler (keysOf : Nat → List (BitVec 32)) (numRecords : Int) (o : Option ShardOptions) (shuffle : Bool)
    (numEpochs : Option Int) (seed : Option Int) : Py Sampler :=
  if numRecords ≤ 0 then .error .valueError
  else if ∃ e ∈ numEpochs, e ≤ 0 then .error .valueError
  else if shuffle ∧ seed = none then .error .valueError
  else if ∃ s ∈ seed, s < 0 ∨ s ≥ 2 ^ 32 then .error .valueError
  else do
    let range ← RangeDs.make numRecords none 1
    .ok (indexSamplerObj (recordKeys keysOf range o shuffle (seed.getD 0).toNat) (indexMax numRecords o numEpochs)
      ((o.map (·.shardCount)).getD 1 : Nat) seed)

/-! ### The dataset read by a data loader -/

/-- The binary search of `_SamplerMapDataset._sampler_size`, python/data_loader.py:142-151; `probe` is
`self._sampler[mid]`.  Only `IndexError` is caught. -/
def samplerSearch (probe : Nat → Py RecMeta) (lo hi : Nat) : Py Nat :=
  if h : lo < hi then
    match probe ((lo + hi) / 2) with
    | .ok _ => samplerSearch probe ((lo + hi) / 2 + 1) hi
    | .error .indexError => samplerSearch probe lo ((lo + hi) / 2)
    | .error e => .error e
  else .ok lo
termination_by hi - lo

/-- `_SamplerMapDataset._sampler_size`, python/data_loader.py:138-151. -/
def samplerSize (s : Sampler) : Py Nat :=
  match s.len with
  | some n => .ok n
  | none => samplerSearch (fun i => s.get (i : Int)) 0 maxsize

/-- `_SamplerMapDataset.__init__`, python/data_loader.py:126-136: the length of this shard. -/
def samplerDsLen (size : Nat) (o : ShardOptions) : Nat :=
  if o.dropRemainder then size / o.shardCount
  else size / o.shardCount + (if o.shardIndex < size % o.shardCount then 1 else 0)

/-- `Record`, python/record.py. -/
structure Rec (D : Type) where
  md : RecMeta
  data : D

/-- `_SamplerMapDataset`, python/data_loader.py:116-169; `src` is `MapDataset.source(data_source)`.  `_getitems` is
inherited.  (A sampler whose metadata has no record key is not expressible: indexing the source with `None` raises.) -/
def samplerDs (src : MapDs V) (s : Sampler) (o : ShardOptions) (size : Nat) : MapDs (Rec (Option V)) :=
  let get : Int → Py (Option (Rec (Option V))) := fun index => do
    let m ← s.get (index * (o.shardCount : Int) + (o.shardIndex : Int))
    match m.key with
    | none => .error .typeError
    | some k =>
      let d ← src.getitem k
      .ok (some ⟨m, d⟩)
  { len := samplerDsLen size o, getitem := get, getitems := fun is => is.mapM get }

/-! ### Operations -/

/-- The transformations of a `DataLoader` that keep its own checkpoint format (`FlatMap`, which switches to the native one,
and legacy operations are in `LegacyModel.lean`).  User functions may raise.  A random map gets the key of the
record's generator (that a second random map continues the same generator object is left out); `TfRandomMap` is the same
(data_loader.py:686-692). -/
inductive DlOp (D : Type) where
  | map (f : D → Py D)
  | randomMap (f : D → Option Int → Py D)
  | filter (pred : D → Py Bool)
  | batch (b : Nat) (drop : Bool) (fn : List D → Py D)

/-- One record with its data replaced. -/
def Rec.withData (r : Rec D) (d : Py D) : Py (Option (Rec D)) := do
  let d ← d
  .ok (some { r with data := d })

/-- `_RecordBatchFn.__call__`, python/data_loader.py:713-725: the batch has the metadata of its last record, without the
record key.  (`records[0]` of an empty list raises `IndexError`; the batch iterator never passes one.) -/
def batchRecords (fn : List D → Py D) (rs : List (Option (Rec D))) : Py (Option (Rec D)) :=
  match (rs.filterMap id).getLast? with
  | none => .error .indexError
  | some l => do
    let d ← fn ((rs.filterMap id).map (·.data))
    .ok (some ⟨{ l.md with key := none }, d⟩)

/-- A family of iterators (one for each worker) whose checkpoints are of type `C`. -/
structure OpFam (C α : Type) where
  S : Type
  init : Nat → S
  next : Nat → Nat → S → Option (S × Res α)
  get : Nat → S → S × C
  set : Nat → Nat → S → C → Option (S × Option Err)

/-- The same as a family of iterators; no code corresponds to it. -/
def OpFam.fam (f : OpFam C α) : IterFam α where
  S := f.S
  C := C
  init := f.init
  next := f.next
  get := f.get
  set := f.set

/-- A family whose checkpoints are `{"next_index": i}`. -/
abbrev IdxFam (α : Type) := OpFam Int α

/-- The reading end: `to_iter_dataset` of the workers' slices.  Records are never `None`. -/
def readFam (size threads : Nat) (ds : MapDs α) (n : Nat) : IdxFam (Option α) where
  S := PrefetchState
  init w := (prefetchIter size threads false none (workerDs n w ds)).init
  next w := (prefetchIter size threads false none (workerDs n w ds)).next
  get w := (prefetchIter size threads false none (workerDs n w ds)).get
  set w := (prefetchIter size threads false none (workerDs n w ds)).set

/-- `_apply_transform_to_dataset`, python/data_loader.py:669-740, on each worker's iterator. -/
def DlOp.apply (op : DlOp D) (p : OpFam C (Option (Rec D))) : OpFam C (Option (Rec D)) :=
  match op with
  | .map f =>
    { S := p.S
      init := fun w => (mapIter (fun r => r.withData (f r.data)) (p.fam.iter w)).init
      next := fun w => (mapIter (fun r => r.withData (f r.data)) (p.fam.iter w)).next
      get := fun w => (mapIter (fun r => r.withData (f r.data)) (p.fam.iter w)).get
      set := fun w => (mapIter (fun r => r.withData (f r.data)) (p.fam.iter w)).set }
  | .randomMap f =>
    { S := p.S
      init := fun w => (mapIter (fun r => r.withData (f r.data r.md.rng)) (p.fam.iter w)).init
      next := fun w => (mapIter (fun r => r.withData (f r.data r.md.rng)) (p.fam.iter w)).next
      get := fun w => (mapIter (fun r => r.withData (f r.data r.md.rng)) (p.fam.iter w)).get
      set := fun w => (mapIter (fun r => r.withData (f r.data r.md.rng)) (p.fam.iter w)).set }
  | .filter pred =>
    let g : Option (Rec D) → Py Bool := fun r => match r with | some r => pred r.data | none => .error .attributeError
    { S := p.S × Checker
      init := fun w => (filterIter g none (p.fam.iter w)).init
      next := fun w => (filterIter g none (p.fam.iter w)).next
      get := fun w => (filterIter g none (p.fam.iter w)).get
      set := fun w => (filterIter g none (p.fam.iter w)).set }
  | .batch b drop fn =>
    { S := p.S
      init := fun w => (batchIter b drop (batchRecords fn) (p.fam.iter w)).init
      next := fun w => (batchIter b drop (batchRecords fn) (p.fam.iter w)).next
      get := fun w => (batchIter b drop (batchRecords fn) (p.fam.iter w)).get
      set := fun w => (batchIter b drop (batchRecords fn) (p.fam.iter w)).set }

/-- The operations one after the other, then `ds.map(lambda r: r.data)`, python/data_loader.py:456-468.  (What
`lambda r: r.data` returns may be `None`.) -/
def loaderFam (ops : List (DlOp (Option V))) (p : IdxFam (Option (Rec (Option V)))) : IdxFam (Option V) :=
  let q := ops.foldl (fun p op => op.apply p) p
  { S := q.S
    init := fun w => (mapIter (fun (r : Rec (Option V)) => .ok r.data) (q.fam.iter w)).init
    next := fun w => (mapIter (fun (r : Rec (Option V)) => .ok r.data) (q.fam.iter w)).next
    get := fun w => (mapIter (fun (r : Rec (Option V)) => .ok r.data) (q.fam.iter w)).get
    set := fun w => (mapIter (fun (r : Rec (Option V)) => .ok r.data) (q.fam.iter w)).set }

/-! ### Checkpoints of the data loader -/

/-- What identifies a data loader in its checkpoints. -/
structure LoaderConf where
  shard : ShardOptions
  workers : Nat
  sampler : String
  source : String
  deriving DecidableEq, Repr

/-- The state dictionary, python/data_loader.py:289-296 (the version number is not read by anyone).  `lastSeen i` is
`last_seen_indices[str(i)]`. -/
structure LoaderState where
  lastSeen : Nat → Option Int
  lastWorker : Int
  workers : Nat
  sampler : String
  source : String

/-- `_DataLoaderStateDatasetIterator.get_state`, python/data_loader.py:270-297: `m` is `len(workers_state)`, `cyc` is
`next_index_in_cycle`, `next i` the `next_index` of worker `i`. -/
def LoaderConf.encode (c : LoaderConf) (m cyc : Nat) (next : Nat → Option Int) : LoaderState :=
  let g : Int := (m : Int) * (c.shard.shardCount : Int)
  { lastSeen := fun i => if i < m then (next i).map (fun x =>
      ((c.shard.shardIndex : Int) - g) + (i : Int) * (c.shard.shardCount : Int) + x * g) else none
    lastWorker := (cyc : Int) - 1
    workers := c.workers
    sampler := c.sampler
    source := c.source }

/-- `DataLoader._validate_state`, python/data_loader.py:490-513. -/
def LoaderConf.validate (c : LoaderConf) (s : LoaderState) : Option Err :=
  if s.workers ≠ c.workers then some .valueError
  else if s.sampler ≠ c.sampler then some .valueError
  else if s.source ≠ c.source then some .valueError
  else none

/-- `next_index` of worker `i`, python/data_loader.py:309-311 (`workers = 0`) and 320-327. -/
def LoaderConf.nextIndex (c : LoaderConf) (i : Nat) (last : Int) : Int :=
  if c.workers = 0 then (last + (c.shard.shardCount : Int) - (c.shard.shardIndex : Int)) / (c.shard.shardCount : Int)
  else
    let g : Int := (c.workers : Int) * (c.shard.shardCount : Int)
    (last + g - (c.shard.shardIndex : Int) - (i : Int) * (c.shard.shardCount : Int)) / g

/-- The dataset state made by `set_state`, python/data_loader.py:316-339. -/
def LoaderConf.decode (c : LoaderConf) (s : LoaderState) : ILCk Int where
  cyc := ((s.lastWorker + 1) % (c.workers : Int)).toNat
  nextDs := c.workers
  indices := fun i => i
  states := fun i => (s.lastSeen i).map (c.nextIndex i)
  exhausted := fun _ => false
  future := fun _ => none

/-- `DataLoaderIterator`, python/data_loader.py:516-580, over `_DataLoaderStateDatasetIterator`, 240-340, without worker
processes. -/
def loaderIter0 (c : LoaderConf) (f : IdxFam α) : Iter α where
  S := f.S
  C := LoaderState
  init := f.init 0
  next := f.next 0
  get s := ((f.get 0 s).1, c.encode 1 0 (fun _ => some (f.get 0 s).2))
  set F s st :=
    match c.validate st with
    | some e => some (s, some e)
    | none =>
      match st.lastSeen 0 with
      | none => some (s, some .keyError)
      | some l => f.set 0 F s (c.nextIndex 0 l)

/-- The same with `c.workers > 0` worker processes.  The state goes through JSON, so it is a copy. -/
def loaderIterN (c : LoaderConf) (f : IdxFam α) : Iter α where
  S := ILState f.S Int
  C := LoaderState
  init := ilInit f.S Int
  next := (interleaveIter f.fam c.workers c.workers false).next
  get s :=
    let g := (interleaveIter f.fam c.workers c.workers false).get s
    (g.1, c.encode c.workers g.2.cyc g.2.states)
  set F s st :=
    match c.validate st with
    | some e => some (s, some e)
    | none =>
      if ∃ i ∈ List.range c.workers, st.lastSeen i = none then some (s, some .keyError)
      else (interleaveIter f.fam c.workers c.workers false).set F s (c.decode st)

/-- `DataLoader._create_dataset` and `__iter__`, python/data_loader.py:450-488. -/
def loaderIter (c : LoaderConf) (f : Nat → IdxFam α) : Iter α :=
  if c.workers = 0 then loaderIter0 c (f 1) else loaderIterN c (f c.workers)

/-- The iterator of a data loader: source, sampler (of size `size`), shard, operations, read options. -/
def dataLoader (c : LoaderConf) (src : MapDs V) (s : Sampler) (size : Nat) (ops : List (DlOp (Option V)))
    (bufferSize threads : Nat) : Iter (Option V) :=
  loaderIter c (fun n => loaderFam ops (readFam bufferSize threads (samplerDs src s c.shard size) n))

end Grain
