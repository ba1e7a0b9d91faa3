import Verif.Iter.Model
import Verif.Interleave.Model
/-
`mp_prefetch`: the dataset is cut in strided slices, one for each worker process, and the workers are interleaved.
T/ = grain/_src/python/dataset/transformations/.
-/
namespace Grain

/-- What worker `w` of `n` reads: `multiprocess_prefetch` (T/process_prefetch.py:711-726: one worker reads the dataset
itself), `_LazyWorkerSliceIterDataset.__iter__` (:662-668), `PrefetchIterDataset.set_slice` (T/prefetch.py:144-150 with
`sequential_slice=False`).  The slice `slice(w, None, n)` never raises since `n` is not 0. -/
def workerDs (n w : Nat) (ds : MapDs α) : MapDs α :=
  if n = 1 then ds
  else
    match SliceSpec.make (some (w : Int)) none (some (n : Int)) ds.len with
    | .ok s => sliceDs s ds
    | .error _ => ds

/-- The worker iterators of `ds.to_iter_dataset().random_map(f).mp_prefetch(n)`; `f a j` is the user function with generator
number `j`.  With an `f` that ignores `j` this is `map`.  Each worker is run by a process prefetch iterator, which by C30 yields
what the iterator itself yields, so the process boundary is left out here; `_MpContextIterDataset` passes `w` and `n` to
`random_map` (:728-734). -/
def workerFam (size threads : Nat) (allow : Bool) (f : α → Nat → Py (Option β)) (ds : MapDs α) (n : Nat) : IterFam (Option β) where
  S := PrefetchState × Nat
  C := Int × Nat
  init w := (randomMapIter f w n (prefetchIter size threads allow none (workerDs n w ds))).init
  next w := (randomMapIter f w n (prefetchIter size threads allow none (workerDs n w ds))).next
  get w := (randomMapIter f w n (prefetchIter size threads allow none (workerDs n w ds))).get
  set w := (randomMapIter f w n (prefetchIter size threads allow none (workerDs n w ds))).set

/-- The same with `map_with_index` in place of `random_map`. -/
def workerIndexFam (size threads : Nat) (allow : Bool) (f : Nat → α → Py (Option β)) (ds : MapDs α) (n : Nat) : IterFam (Option β) where
  S := PrefetchState × Nat
  C := Int × Nat
  init w := (mapWithIndexIter f (prefetchIter size threads allow none (workerDs n w ds))).init
  next w := (mapWithIndexIter f (prefetchIter size threads allow none (workerDs n w ds))).next
  get w := (mapWithIndexIter f (prefetchIter size threads allow none (workerDs n w ds))).get
  set w := (mapWithIndexIter f (prefetchIter size threads allow none (workerDs n w ds))).set

/-- `multiprocess_prefetch`, T/process_prefetch.py:678-762, of `ds.to_iter_dataset().random_map(f)`: with `num_workers = 0` the dataset
is returned as it is. -/
def mpIter (n size threads : Nat) (allow : Bool) (f : α → Nat → Py (Option β)) (ds : MapDs α) : Iter (Option β) :=
  if n = 0 then randomMapIter f 0 1 (prefetchIter size threads allow none ds)
  else interleaveIter (workerFam size threads allow f ds n) n n false

end Grain
