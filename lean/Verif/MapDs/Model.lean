import Verif.Shuffle.Model
import Verif.Sharding.Model
/-
Model of the random access datasets (`MapDataset`) of grain.

T/ = grain/_src/python/dataset/transformations/.

Conventions.  An element is an `Option α`; `none` is Python's `None` (a missing element).  `getitem` is
`__getitem__` on an `int`, `getitems` is the batched `_getitems`.  Python's `//` and `%` by a positive number
are `Int`'s `/` and `%`.  Statistics recording (`record_self_time`, `record_output_spec`) is the identity on
values and is dropped.
-/
namespace Grain

/-- `MapDataset`, grain/_src/python/dataset/dataset.py:373-402: `__len__`, `__getitem__` on an `int`, `_getitems`. -/
structure MapDs (α : Type) where
  len : Nat
  getitem : Int → Py (Option α)
  getitems : List Int → Py (List (Option α))

/-- `index % n` -/
def pymod (i : Int) (n : Nat) : Py Int := if n = 0 then .error .zeroDivision else .ok (i % (n : Int))

/-- `divmod(index, n)` -/
def pydivmod (i : Int) (n : Nat) : Py (Int × Int) :=
  if n = 0 then .error .zeroDivision else .ok (i / (n : Int), i % (n : Int))

/-- `list[i]` for a Python list and an index that is never negative here. -/
def pyget (l : List α) (i : Nat) : Py α :=
  match l[i]? with
  | some a => .ok a
  | none => .error .indexError

/-- `range(start, stop)` as a list of integers. -/
def pyRange (start stop : Int) : List Int :=
  (List.range (stop - start).toNat).map (fun (k : Nat) => start + (k : Int))

/-- Number of elements of `range(start, stop, step)` (CPython `compute_range_length`). -/
def rangeLen (start stop step : Int) : Nat :=
  if step > 0 then (if start < stop then ((stop - start - 1) / step + 1).toNat else 0)
  else if step < 0 then (if start > stop then ((start - stop - 1) / (-step) + 1).toNat else 0)
  else 0

/-! ### Sources -/

/-- `SourceMapDataset`, T/source.py:47-119.  `read` is `source.__getitem__`; `readMany` is `source._getitems`
if the source supports batched reads (101-119).  Sources without a length (68-71) are not modelled. -/
def sourceDs (len : Nat) (read : Int → Py (Option α))
    (readMany : Option (List Int → Py (List (Option α)))) : MapDs α where
  len := len
  getitem i := do
    let j ← pymod i len
    read j
  getitems is := do
    match readMany with
    | none => is.mapM (fun i => do let j ← pymod i len; read j)
    | some rm =>
      let js ← is.mapM (fun i => pymod i len)
      rm js

/-- A source backed by an in-memory list, e.g. `MapDataset.source([...])`. -/
def listSource (xs : List α) : MapDs α :=
  sourceDs xs.length (fun i => do let a ← pyget xs i.toNat; .ok (some a)) none

/-- `RangeMapDataset` (after the constructor normalised `start`/`stop`), T/source.py:159-205.
`step = 0` makes `len(range(...))` raise `ValueError` in the constructor. -/
structure RangeDs where
  start : Int
  stop : Int
  step : Int
  originalStart : Int
  originalLen : Nat
  length : Nat
  deriving DecidableEq, Repr

/-- `RangeMapDataset.__init__`, T/source.py:162-169; `stop = none` is Python's `None`. -/
def RangeDs.make (start : Int) (stop : Option Int) (step : Int) : Py RangeDs :=
  let s := match stop with | none => 0 | some _ => start
  let e := match stop with | none => start | some e => e
  if step = 0 then .error .valueError
  else
    let n := rangeLen s e step
    .ok { start := s, stop := e, step := step, originalStart := s, originalLen := n, length := n }

/-- `RangeMapDataset.__getitem__`, T/source.py:199-205. -/
def RangeDs.getitem (r : RangeDs) (index : Int) : Py Int := do
  let j ← pymod index r.length
  .ok (r.start + j * r.step)

/-- `RangeMapDataset.set_slice(slice(w, _, n), sequential_slice=True)`, T/source.py:180-196. -/
def RangeDs.setSlice (r : RangeDs) (worker count : Int) : Py RangeDs := do
  let o ← ShardOptions.make worker count false
  let (s, e) := evenSplit r.originalLen o
  let start := r.originalStart + s * r.step
  let stop := r.originalStart + e * r.step
  .ok { r with start := start, stop := stop, length := rangeLen start stop r.step }

/-- `MapDataset.range(...)` as a dataset; `_getitems` is inherited (dataset.py:388-402). -/
def RangeDs.toDs (r : RangeDs) : MapDs Int where
  len := r.length
  getitem i := do let a ← r.getitem i; .ok (some a)
  getitems is := is.mapM (fun i => do let a ← r.getitem i; .ok (some a))

/-! ### One-to-one transformations -/

/-- `MapMapDataset`, T/map.py:138-179. -/
def mapDs (f : α → Py (Option β)) (p : MapDs α) : MapDs β :=
  let mapElement : Option α → Py (Option β) := fun e =>
    match e with | none => .ok none | some a => f a
  { len := p.len
    getitem := fun i => do let e ← p.getitem i; mapElement e
    getitems := fun is => do let es ← p.getitems is; es.mapM mapElement }

/-- `MapWithIndexMapDataset`, T/map.py:241-289. -/
def mapWithIndexDs (f : Int → α → Py (Option β)) (p : MapDs α) : MapDs β :=
  let mapElement : Int → Option α → Py (Option β) := fun i e =>
    match e with | none => .ok none | some a => f i a
  { len := p.len
    getitem := fun i => do let e ← p.getitem i; mapElement i e
    getitems := fun is => do let es ← p.getitems is; (is.zip es).mapM (fun q => mapElement q.1 q.2) }

/-- `RandomMapMapDataset`, T/map.py:182-238.  The generator given to the user function is determined by
`(seed, index)` (see `Verif/Rng`), so the user function is a function of the index and the element. -/
def randomMapDs (f : α → Int → Py (Option β)) (p : MapDs α) : MapDs β :=
  let mapElement : Option α → Int → Py (Option β) := fun e i =>
    match e with | none => .ok none | some a => f a i
  { len := p.len
    getitem := fun i => do let e ← p.getitem i; mapElement e i
    getitems := fun is => do let es ← p.getitems is; (es.zip is).mapM (fun q => mapElement q.1 q.2) }

/-- `FilterMapDataset`, T/filter.py:29-71. -/
def filterDs (pred : α → Py Bool) (p : MapDs α) : MapDs α :=
  let filterElement : Option α → Py (Option α) := fun e =>
    match e with
    | none => .ok none
    | some a => do if (← pred a) then .ok (some a) else .ok none
  { len := p.len
    getitem := fun i => do let e ← p.getitem i; filterElement e
    getitems := fun is => do let es ← p.getitems is; es.mapM filterElement }

/-- `FlatMapMapDataset`, T/flatmap.py:29-75; `_getitems` is inherited.  `max_fan_out = 0` makes `divmod`
raise.  In `__len__` the comparison with `sys.maxsize / max_fan_out` is done in floating point in the code
and exactly here (`flat_map_length_exact`). -/
def flatMapDs (maxFanOut : Nat) (f : α → Py (List (Option β))) (p : MapDs α) : MapDs β :=
  let get : Int → Py (Option β) := fun i => do
    let (elementIndex, splitIndex) ← pydivmod i maxFanOut
    let e ← p.getitem elementIndex
    match e with
    | none => .ok none
    | some a => do
      let splits ← f a
      if splits.length > maxFanOut then .error .valueError
      else match splits[splitIndex.toNat]? with
        | some s => .ok s
        | none => .ok none
  { len := if maxsize ≤ p.len * maxFanOut then maxsize else maxFanOut * p.len
    getitem := get
    getitems := fun is => is.mapM get }

/-! ### Index transformations -/

/-- Python's `slice(start, stop, step).indices(length)` (CPython `PySlice_AdjustIndices`), used at
T/slice.py:32. -/
def sliceIndices (start stop step : Option Int) (length : Nat) : Py (Int × Int × Int) :=
  let st := step.getD 1
  if st = 0 then .error .valueError
  else
    let neg : Bool := decide (st < 0)
    let lower : Int := if neg then -1 else 0
    let upper : Int := if neg then (length : Int) - 1 else length
    let adjust : Int → Int := fun x =>
      if x < 0 then (if x + length < lower then lower else x + length)
      else (if x > upper then upper else x)
    let s := match start with | none => (if neg then upper else lower) | some x => adjust x
    let e := match stop with | none => (if neg then lower else upper) | some x => adjust x
    .ok (s, e, st)

/-- `SliceMapDataset`: fields computed by the constructor, T/slice.py:27-33. -/
structure SliceSpec where
  parentLength : Nat
  start : Int
  stop : Int
  step : Int
  length : Nat
  deriving DecidableEq, Repr

/-- `SliceMapDataset.__init__`, T/slice.py:27-33. -/
def SliceSpec.make (start stop step : Option Int) (parentLength : Nat) : Py SliceSpec := do
  let (s, e, st) ← sliceIndices start stop step parentLength
  .ok { parentLength := parentLength, start := s, stop := e, step := st, length := rangeLen s e st }

/-- `SliceMapDataset._sliced_index`, T/slice.py:38-44. -/
def SliceSpec.slicedIndex (s : SliceSpec) (index : Int) : Py Int := do
  let (parentEpoch, relativeOffset) ← pydivmod index s.length
  .ok (s.start + relativeOffset * s.step + parentEpoch * s.parentLength)

/-- `SliceMapDataset`, T/slice.py:46-56. -/
def sliceDs (s : SliceSpec) (p : MapDs α) : MapDs α where
  len := s.length
  getitem i := do let j ← s.slicedIndex i; p.getitem j
  getitems is := do let js ← is.mapM s.slicedIndex; p.getitems js

/-- `ReindexMapDataset._reindexed_index`, T/slice.py:100-103. -/
def reindexedIndex (indices : List Int) (parentLength : Nat) (index : Int) : Py Int := do
  let (parentEpoch, relativeOffset) ← pydivmod index indices.length
  let parentIndex ← pyget indices relativeOffset.toNat
  .ok (parentIndex + parentEpoch * parentLength)

/-- `ReindexMapDataset`, T/slice.py:88-115. -/
def reindexDs (indices : List Int) (p : MapDs α) : MapDs α where
  len := indices.length
  getitem i := do let j ← reindexedIndex indices p.len i; p.getitem j
  getitems is := do let js ← is.mapM (reindexedIndex indices p.len); p.getitems js

/-- `ReindexMapDataset` with a dataset of integers as indices, T/slice.py:88-115 (`MapDataset.slice`, D/dataset.py:676-730): `self._indices[…]`
is always an index below `len`, i.e. in the first epoch of the indices.  Adding a filtered entry (`None`) and an integer raises. -/
def reindexByDs (indices : MapDs Int) (p : MapDs α) : MapDs α :=
  let reindexed : Int → Py Int := fun index => do
    let (parentEpoch, relativeOffset) ← pydivmod index indices.len
    match ← indices.getitem relativeOffset with
    | some parentIndex => .ok (parentIndex + parentEpoch * p.len)
    | none => .error .typeError
  { len := indices.len
    getitem := fun i => do let j ← reindexed i; p.getitem j
    getitems := fun is => do let js ← is.mapM reindexed; p.getitems js }

/-- `RepeatMapDataset.__init__`, T/repeat.py:44-59: validation and length. -/
def repeatLen (parentLen : Nat) (numEpochs : Option Int) : Py Nat :=
  if (match numEpochs with | some n => decide (n ≤ 0) | none => false) then .error .valueError
  else if parentLen ≥ maxsize then .error .valueError
  else match numEpochs with
    | none => .ok (if parentLen = 0 then 0 else maxsize)
    | some n => .ok (n.toNat * parentLen)

/-- `RepeatMapDataset`, T/repeat.py:67-78, with the length computed by `repeatLen`. -/
def repeatDs (length : Nat) (reseed : Bool) (p : MapDs α) : MapDs α where
  len := length
  getitem i := do
    let j ← if reseed then .ok i else pymod i p.len
    p.getitem j
  getitems is := do
    let js ← if reseed then .ok is else is.mapM (fun i => pymod i p.len)
    p.getitems js

/-- `ShuffleMapDataset`, T/shuffle.py:54-83. -/
def shuffleDs (keysOf : Nat → List (BitVec 32)) (seed : Nat) (p : MapDs α) : MapDs α where
  len := p.len
  getitem i := do let j ← shuffledIndex keysOf seed p.len i; p.getitem j
  getitems is := do let js ← is.mapM (shuffledIndex keysOf seed p.len); p.getitems js

/-- `WindowShuffleMapDataset`, T/shuffle.py:106-135. -/
def windowShuffleDs (keysOf : Nat → List (BitVec 32)) (seed w : Nat) (p : MapDs α) : MapDs α where
  len := p.len
  getitem i := do let j ← windowShuffledIndex keysOf seed w i; p.getitem j
  getitems is := do let js ← is.mapM (windowShuffledIndex keysOf seed w); p.getitems js

/-- `_ShardMapDataset`, python/samplers.py:88-108; `_getitems` is inherited. -/
def shardDs (o : ShardOptions) (p : MapDs α) : MapDs α :=
  let se := evenSplit p.len o
  let get : Int → Py (Option α) := fun index => do
    let (epoch, indexInEpoch) ← pydivmod index (se.2 - se.1)
    p.getitem (epoch * p.len + indexInEpoch + se.1)
  { len := se.2 - se.1, getitem := get, getitems := fun is => is.mapM get }

/-! ### Many-to-one -/

/-- `ZipMapDataset.__init__`, T/zip.py:30-37. -/
def zipLen (lengths : List Nat) : Py Nat :=
  match lengths with
  | [] => .error .valueError
  | l :: ls => if ls.all (fun x => l == x) then .ok l else .error .valueError

/-- Python's `zip(*rows)` for a list of lists: stops at the shortest row. -/
def pyZipStar : List (List α) → List (List α)
  | [] => []
  | rows@(_ :: _) =>
    let n := rows.foldl (fun m r => min m r.length) (rows.headD []).length
    (List.range n).map (fun i => rows.filterMap (fun r => r[i]?))

/-- `ZipMapDataset`, T/zip.py:39-53.  A zipped element is a tuple of (possibly missing) elements; the tuple
itself is never `None`. -/
def zipDs (length : Nat) (parents : List (MapDs α)) : MapDs (List (Option α)) where
  len := length
  getitem i := do
    let es ← parents.mapM (fun p => p.getitem i)
    .ok (some es)
  getitems is := do
    let pes ← parents.mapM (fun p => p.getitems is)
    .ok ((pyZipStar pes).map some)

/-- `BatchMapDataset._get_length`, T/batch.py:427-431.  The code computes `math.ceil(len / batch_size)` with a
float division; the model uses the exact quotient (`batch_length_exact`: they agree up to `2^53`). -/
def batchLen (parentLen batchSize : Nat) (dropRemainder : Bool) : Nat :=
  if dropRemainder then parentLen / batchSize else (parentLen + batchSize - 1) / batchSize

/-- `BatchMapDataset`, T/batch.py:383-468; `_getitems` is inherited.  `pushdown` is the experiment flag at
433-439.  The constructor rejects `batch_size <= 0` (404). -/
def batchDs (batchSize : Nat) (dropRemainder pushdown : Bool) (batchFn : List (Option α) → Py (Option β))
    (p : MapDs α) : MapDs β :=
  let length := batchLen p.len batchSize dropRemainder
  let get : Int → Py (Option β) := fun index => do
    let (epoch, indexInEpoch) ← pydivmod index length
    let start := indexInEpoch * batchSize
    let stop := min (p.len : Int) ((indexInEpoch + 1) * batchSize)
    let start := start + epoch * p.len
    let stop := stop + epoch * p.len
    let values ← if pushdown then p.getitems (pyRange start stop) else (pyRange start stop).mapM p.getitem
    batchFn values
  { len := length, getitem := get, getitems := fun is => is.mapM get }

/-- The loop of `_dataset_and_key_of_next_element`, T/mix.py:336-348, from component number `i` on. -/
def mixLoop (i : Nat) : List Nat → Nat → Int → Int → Py (Nat × Int)
  | [], _, _, _ => .error (.user 0)                       -- PyGrainInternalError, line 346
  | p :: ps, remaining, currK, currK1 =>
    let nextK := (currK * ((remaining : Int) - p)) / remaining
    let nextK1 := (currK1 * ((remaining : Int) - p)) / remaining
    let countKPlus1 := currK1 - nextK1
    if currK - nextK ≠ countKPlus1 then .ok (i, countKPlus1 - 1)
    else mixLoop (i + 1) ps (remaining - p) nextK nextK1

/-- `_dataset_and_key_of_next_element`, T/mix.py:314-348. -/
def datasetAndKey (k : Int) (proportions : List Nat) : Py (Nat × Int) :=
  mixLoop 0 proportions proportions.sum k (k + 1)

/-- A selection map: length and `__getitem__` (dataset number, index in it). -/
structure SelMap where
  len : Nat
  sel : Int → Py (Nat × Int)

/-- `SelectionWithProportionsMap`, T/mix.py:35-78, from integer proportions (after
`_float_to_int_proportions`).  The length is `int(min(len_i / (w_i / W)))`, computed in floating point by the
code and exactly here (how they relate: `mix_length_close`). -/
def selProportions (lens : List Nat) (proportions : List Nat) : Py SelMap :=
  if proportions.contains 0 then .error .valueError
  else if lens.length ≠ proportions.length then .error .assertion
  else if lens.contains 0 then .error .valueError
  else
    let w := proportions.sum
    match (lens.zip proportions).map (fun q => q.1 * w / q.2) with
    | [] => .error .valueError                             -- min() of an empty sequence
    | l :: ls => .ok { len := min maxsize (ls.foldl min l), sel := fun k => datasetAndKey k proportions }

/-- `bisect.bisect_right(a, x)` on a non-decreasing list: number of leading entries `≤ x`
(for sorted input this is what the binary search returns). -/
def bisectRight (a : List Nat) (x : Int) : Nat := (a.takeWhile (fun (y : Nat) => decide ((y : Int) ≤ x))).length

/-- Cumulative sizes, T/mix.py:367-369. -/
def cumulative : List Nat → Nat → List Nat
  | [], acc => [acc]
  | s :: ss, acc => acc :: cumulative ss (acc + s)

/-- `_ConcatSelectionMap`, T/mix.py:351-385. -/
def selConcat (sizes : List Nat) : Py SelMap :=
  if sizes.any (fun s => decide (s ≥ maxsize)) then .error .valueError
  else
    let cum := cumulative sizes 0
    let total := cum.getLastD 0
    .ok { len := total,
          sel := fun index => do
            let (epoch, indexInEpoch) ← pydivmod index total
            let datasetIndex := bisectRight cum indexInEpoch - 1
            let size ← pyget sizes datasetIndex
            let base ← pyget cum datasetIndex
            .ok (datasetIndex, (indexInEpoch - base) + epoch * size) }

/-- Grouping of `MixedMapDataset._getitems`, T/mix.py:157-164: for the dictionary `keys_by_parent` (insertion
ordered) the list of `(parent, [(original position, key)])`. -/
def groupInsert (d : List (Nat × List (Nat × Int))) (parent pos : Nat) (key : Int) :
    List (Nat × List (Nat × Int)) :=
  match d with
  | [] => [(parent, [(pos, key)])]
  | (p, l) :: rest => if p = parent then (p, l ++ [(pos, key)]) :: rest else (p, l) :: groupInsert rest parent pos key

/-- The loop over the indices in T/mix.py:157-164. -/
def groupByParent : List (Nat × Int) → Nat → List (Nat × List (Nat × Int)) → List (Nat × List (Nat × Int))
  | [], _, d => d
  | (parent, key) :: rest, pos, d => groupByParent rest (pos + 1) (groupInsert d parent pos key)

/-- Assignment loop at T/mix.py:172-173: `mixed[original_indices[i]] = element`. -/
def scatter (mixed : List (Option α)) : List Nat → List (Option α) → List (Option α)
  | pos :: ps, e :: es => scatter (mixed.set pos e) ps es
  | _, _ => mixed

/-- Loop over parents at T/mix.py:167-173. -/
def mixFill (parents : List (MapDs α)) :
    List (Nat × List (Nat × Int)) → List (Option α) → Py (List (Option α))
  | [], mixed => .ok mixed
  | (parentIdx, entries) :: rest, mixed => do
    let p ← pyget parents parentIdx
    let es ← p.getitems (entries.map (·.2))
    mixFill parents rest (scatter mixed (entries.map (·.1)) es)

/-- `MixedMapDataset`, T/mix.py:87-175, for any selection map (also `ConcatenateMapDataset`, 388-401). -/
def mixDs (sm : SelMap) (parents : List (MapDs α)) : MapDs α where
  len := sm.len
  getitem i := do
    let (d, k) ← sm.sel i
    let p ← pyget parents d
    p.getitem k
  getitems is := do
    let pairs ← is.mapM sm.sel
    mixFill parents (groupByParent pairs 0 []) (List.replicate is.length none)

end Grain
