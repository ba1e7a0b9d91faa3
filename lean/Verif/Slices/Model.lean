import Verif.MapDs.Model
import Verif.Multiprocess.Model
/-
Model of how `mp_prefetch` (and its version with threads) slices a pipeline for its workers:
grain/_src/python/dataset/transformations/{prefetch,process_prefetch,source,interleave}.py and
grain/_src/python/dataset/sources/parquet_dataset.py.  Dataset objects are changed in place, so the model has a heap: objects
have addresses, and an object used twice in a pipeline has the same address in both places.  (`copy.deepcopy` and pickling keep
shared objects shared.)
-/
namespace Grain

/-- `SourceMapDataset`, T/source.py:50-59: the source it reads now and, after the first slicing, the unsliced dataset. -/
structure SrcState (α : Type) where
  orig : Option (MapDs α)
  cur : MapDs α

/-- A dataset object with a `set_slice` method.  `prefetch`: `PrefetchIterDataset` with its parent.  `interleave`: the sequence
of datasets of an `InterleaveIterDataset` or the paths of a `ParquetIterDataset`.  `range`: a `RangeMapDataset` whose integers
are shown as elements by `emb`. -/
inductive SliceObj (α : Type) where
  | prefetch (parent : MapDs α)
  | interleave (datasets : MapDs α)
  | source (s : SrcState α)
  | range (emb : Int → α) (r : RangeDs)

/-- Reading a `SourceMapDataset`, T/source.py:61-99. -/
def SrcState.ds (s : SrcState α) : MapDs α := sourceDs s.cur.len s.cur.getitem none

/-- What an object holds. -/
def SliceObj.ds : SliceObj α → MapDs α
  | .prefetch p => p
  | .interleave d => d
  | .source s => s.ds
  | .range emb r => mapDs (fun i => .ok (some (emb i))) r.toDs

/-- `self._original_source_map_dataset` after T/source.py:135-136.  A dataset without elements counts as false. -/
def SrcState.original (s : SrcState α) : MapDs α :=
  match s.orig with
  | none => s.ds
  | some o => if o.len = 0 then s.ds else o

/-- `SourceMapDataset.set_slice(slice(w, None, n), True)`, T/source.py:121-138. -/
def SrcState.setSlice (n w : Nat) (s : SrcState α) : Py (SrcState α) := do
  let o ← ShardOptions.make (w : Int) (n : Int) false
  let se := evenSplit s.cur.len o
  let sp ← SliceSpec.make (some (se.1 : Int)) (some (se.2 : Int)) none s.original.len
  .ok { orig := some s.original, cur := sliceDs sp s.original }

/-- `set_slice(slice(w, None, n), sequential_slice)` of the objects: T/prefetch.py:146-152 (the sequential case is in `Pl.slice`),
T/interleave.py:573-575, parquet_dataset.py:156-158, T/source.py:133-138, 180-196. -/
def SliceObj.setSlice (seq : Bool) (n w : Nat) : SliceObj α → Py (SliceObj α)
  | .prefetch p => do
    let s ← SliceSpec.make (some (w : Int)) none (some (n : Int)) p.len
    .ok (.prefetch (sliceDs s p))
  | .interleave d => do
    let s ← SliceSpec.make (some (w : Int)) none (some (n : Int)) d.len
    .ok (.interleave (sliceDs s d))
  | .source s => if seq then do .ok (.source (← s.setSlice n w)) else .error .assertion
  | .range emb r => if seq then do .ok (.range emb (← r.setSlice w n)) else .error .assertion

mutual
/-- A pipeline as the slicing sees it: objects with `set_slice` by address; a `PrefetchIterDataset` with its pipeline of
map datasets; other transformations with their parents. -/
inductive Pl where
  | prefetch (a : Nat) (p : Pl)
  | obj (a : Nat)
  | node (ps : Pls)
/-- The parents of a dataset. -/
inductive Pls where
  | nil
  | cons (p : Pl) (ps : Pls)
end

/-- The objects. -/
abbrev SliceHeap (α : Type) := Nat → SliceObj α

/-- One object changed. -/
def SliceHeap.sliceAt (h : SliceHeap α) (seq : Bool) (n w a : Nat) : Py (SliceHeap α) := do
  let o ← (h a).setSlice seq n w
  .ok (fun b => if b = a then o else h b)

mutual
/-- `_set_slice_iter_dataset` and `_set_slice_map_dataset`, T/prefetch.py:394-447, with the recursion of
`PrefetchIterDataset.set_slice` for sequential slices (:151-152).  A dataset without parents and without `set_slice` raises
`ValueError`. -/
def Pl.slice (seq : Bool) (n w : Nat) : Pl → SliceHeap α → Py (SliceHeap α)
  | .prefetch a p, h => if seq then Pl.slice seq n w p h else h.sliceAt seq n w a
  | .obj a, h => h.sliceAt seq n w a
  | .node .nil, _ => .error .valueError
  | .node (.cons p ps), h => Pls.slice seq n w (.cons p ps) h
/-- The loop over the parents. -/
def Pls.slice (seq : Bool) (n w : Nat) : Pls → SliceHeap α → Py (SliceHeap α)
  | .nil, h => .ok h
  | .cons p ps, h => do Pls.slice seq n w ps (← Pl.slice seq n w p h)
end

/-! ### Map datasets over sliced sources -/

/-- A pipeline of map datasets over sources in the heap.  `repeat` and `slice` keep the lengths they computed in their
constructors: T/repeat.py:51-58, T/slice.py:27-33. -/
inductive MapPl (α : Type) where
  | obj (a : Nat)
  | map (f : α → Py (Option α)) (p : MapPl α)
  | filter (f : α → Py Bool) (p : MapPl α)
  | shuffle (seed : Nat) (p : MapPl α)
  | repeat (length : Nat) (p : MapPl α)
  | slice (s : SliceSpec) (p : MapPl α)

/-- Reading the pipeline with the objects as they are now.  (`repeat` with `reseed_each_epoch=True`, the default.) -/
def MapPl.ds (keysOf : Nat → List (BitVec 32)) (h : SliceHeap α) : MapPl α → MapDs α
  | .obj a => (h a).ds
  | .map f p => mapDs f (p.ds keysOf h)
  | .filter f p => filterDs f (p.ds keysOf h)
  | .shuffle seed p => shuffleDs keysOf seed (p.ds keysOf h)
  | .repeat length p => repeatDs length true (p.ds keysOf h)
  | .slice s p => sliceDs s (p.ds keysOf h)

/-- The constructors: `p.repeat(num_epochs)` and `p[start:stop:step]` with the objects as they are now. -/
def MapPl.mkRepeat (keysOf : Nat → List (BitVec 32)) (h : SliceHeap α) (numEpochs : Option Int) (p : MapPl α) : Py (MapPl α) := do
  .ok (.repeat (← repeatLen (p.ds keysOf h).len numEpochs) p)
/-- `p[start:stop:step]`, see `MapPl.mkRepeat`. -/
def MapPl.mkSlice (keysOf : Nat → List (BitVec 32)) (h : SliceHeap α) (start stop step : Option Int) (p : MapPl α) : Py (MapPl α) := do
  .ok (.slice (← SliceSpec.make start stop step (p.ds keysOf h).len) p)

/-- The same pipeline for the slicing. -/
def MapPl.pl : MapPl α → Pl
  | .obj a => .obj a
  | .map _ p => .node (.cons p.pl .nil)
  | .filter _ p => .node (.cons p.pl .nil)
  | .shuffle _ p => .node (.cons p.pl .nil)
  | .repeat _ p => .node (.cons p.pl .nil)
  | .slice _ p => .node (.cons p.pl .nil)

end Grain
