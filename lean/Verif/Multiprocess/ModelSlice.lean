import Verif.Multiprocess.Model
import Verif.ElemSpec.Model
import Mathlib.Logic.Function.Basic
/-
`mp_prefetch` and `multithread_prefetch` of whole pipelines: how the pipeline is cut in slices, one for each worker, and
how the workers are put together.  T/ = grain/_src/python/dataset/transformations/.
-/
namespace Grain

/-- Iterators of different kinds as one family.  A state belongs to the iterator that made it; restoring the state of one
into another does not happen in the code modelled here and is an error. -/
def IterFam.ofIters (it : Nat → Iter α) : IterFam α where
  S := (d : Nat) × (it d).S
  C := (d : Nat) × (it d).C
  init d := ⟨d, (it d).init⟩
  next _ F s := ((it s.1).next F s.2).map (fun r => (⟨s.1, r.1⟩, r.2))
  get _ s := (⟨s.1, ((it s.1).get s.2).1⟩, ⟨s.1, ((it s.1).get s.2).2⟩)
  set _ F s c :=
    if h : c.1 = s.1 then ((it s.1).set F s.2 (h ▸ c.2)).map (fun r => (⟨s.1, r.1⟩, r.2)) else some (s, some .typeError)

/-- What a worker that could not be set up gives to its reader: the exception, T/process_prefetch.py:294-310, 526-539. -/
def failIter (e : Err) : Iter α where
  S := Unit
  C := Unit
  init := ()
  next _ s := some (s, .fail e)
  get s := (s, ())
  set _ s _ := some (s, some e)

/-- `l[w::n]` of a Python list. -/
def listStride (n w : Nat) (l : List α) : List α := (List.range l.length).filterMap (fun k => l[w + k * n]?)

/-- A dataset object with a `set_slice` method (`SupportsInPlaceSlicing`, T/prefetch.py:95-99).  `mapDs` is a
`PrefetchIterDataset` over the random access dataset `ds`; `interleave` is an `InterleaveIterDataset`, or a
`ParquetIterDataset`, whose `_paths` are cut in the same way (sources/parquet_dataset.py:146-158). -/
inductive WorkObj (V : Type) : Type 1
  | mapDs (size threads : Nat) (allow : Bool) (ds : MapDs V)
  | interleave (cycle : Nat) (its : List (Iter (Option V)))

/-- `set_slice(slice(w, None, n))`: `PrefetchIterDataset` T/prefetch.py:146-152 (`workerDs` is `self._parent.slice(sl)`);
`InterleaveIterDataset` T/interleave.py:573-575.  Sequential slices are modelled in Verif/Slices (C54, C58). -/
def WorkObj.setSlice (n w : Nat) : WorkObj V → WorkObj V
  | .mapDs size threads allow ds => .mapDs size threads allow (workerDs n w ds)
  | .interleave cycle its => .interleave cycle (listStride n w its)

/-- `__iter__` of the object: T/prefetch.py:160-163, T/interleave.py:564-571. -/
def WorkObj.iter : WorkObj V → Iter (Option V)
  | .mapDs size threads allow ds => prefetchIter size threads allow none ds
  | .interleave cycle its =>
    interleaveIter (IterFam.ofIters (fun d => its.getD d (failIter .indexError))) its.length cycle false

/-- A stream pipeline as a graph of dataset objects.  `object id` is the object number `id` of those with a `set_slice` method;
the same number may occur several times.  `user it` is a dataset without parents and without `set_slice`.  `zip` has two parents
and `tuple` makes the Python tuple. -/
inductive WorkDs (V : Type) : Type 1
  | object (id : Nat)
  | user (it : Iter (Option V))
  | map (f : V → Py (Option V)) (p : WorkDs V)
  | randomMap (f : V → Nat → Py (Option V)) (p : WorkDs V)
  | mapWithIndex (f : Nat → V → Py (Option V)) (p : WorkDs V)
  | filter (pred : Option V → Py Bool) (p : WorkDs V)
  | flatMap (f : Option V → Py (List (Option V))) (p : WorkDs V)
  | zip (strict : Bool) (tuple : List (Option V) → Option V) (p q : WorkDs V)
  | batch (b : Nat) (drop : Bool) (fn : List (Option V) → Py (Option V)) (p : WorkDs V)
  | limit (k : Nat) (p : WorkDs V)
  | repeat (k : Nat) (p : WorkDs V)

/-- The numbers of the sliceable objects met on the way through the graph, with repetitions. -/
def WorkDs.objects : WorkDs V → List Nat
  | .object id => [id]
  | .user _ => []
  | .map _ p => p.objects
  | .randomMap _ p => p.objects
  | .mapWithIndex _ p => p.objects
  | .filter _ p => p.objects
  | .flatMap _ p => p.objects
  | .zip _ _ p q => p.objects ++ q.objects
  | .batch _ _ _ p => p.objects
  | .limit _ p => p.objects
  | .repeat _ p => p.objects

/-- The iterator of the pipeline in worker `w` of `n`, with the objects in `heap`. -/
def WorkDs.iter (heap : Nat → WorkObj V) (n w : Nat) : WorkDs V → Iter (Option V)
  | .object id => (heap id).iter
  | .user it => it
  | .map f p => mapIter f (p.iter heap n w)
  | .randomMap f p => randomMapIter f w n (p.iter heap n w)
  | .mapWithIndex f p => mapWithIndexIter f (p.iter heap n w)
  | .filter pred p => filterIter pred none (p.iter heap n w)
  | .flatMap f p => flatMapIter f (p.iter heap n w)
  | .zip strict tuple p q => (zipIter strict (n := 2) (fun i => if i = 0 then p.iter heap n w else q.iter heap n w)).view tuple
  | .batch b drop fn p => batchIter b drop fn (p.iter heap n w)
  | .limit k p => limitIter k (p.iter heap n w)
  | .repeat k p => repeatIter (some k) (p.iter heap n w)

/-- `_set_slice_iter_dataset`, T/prefetch.py:394-419: walks through the parents and slices the objects it meets in place, those it
meets again once more. -/
def WorkDs.setSlice (n w : Nat) : WorkDs V → (Nat → WorkObj V) → Py (Nat → WorkObj V)
  | .object id, h => .ok (Function.update h id ((h id).setSlice n w))
  | .user _, _ => .error .valueError
  | .map _ p, h => p.setSlice n w h
  | .randomMap _ p, h => p.setSlice n w h
  | .mapWithIndex _ p, h => p.setSlice n w h
  | .filter _ p, h => p.setSlice n w h
  | .flatMap _ p, h => p.setSlice n w h
  | .zip _ _ p q, h => do q.setSlice n w (← p.setSlice n w h)
  | .batch _ _ _ p, h => p.setSlice n w h
  | .limit _ p, h => p.setSlice n w h
  | .repeat _ p, h => p.setSlice n w h

/-- The iterator of worker `w` of `n`, T/process_prefetch.py:711-734 and 662-668, T/prefetch.py:804-821: one worker takes the
dataset itself, several take a copy each (of the whole graph, so that shared objects stay shared) and slice it.  Each worker is
run by a process prefetch iterator, which by C30 yields what the iterator itself yields as long as no exception is raised, so
the process boundary is left out.
(`multithread_prefetch` raises the exception of `_set_slice_iter_dataset` when it is called, not when it is read.) -/
def workerIter (n w : Nat) (heap : Nat → WorkObj V) (d : WorkDs V) : Iter (Option V) :=
  if n = 1 then d.iter heap n w
  else
    match d.setSlice n w heap with
    | .ok h => d.iter h n w
    | .error e => failIter e

/-- `multiprocess_prefetch(d, num_workers=n)`, T/process_prefetch.py:678-762, and
`multithread_prefetch(d, num_threads=n, ...)`, T/prefetch.py:775-830: the same up to what runs the workers. -/
def parallelIter (n : Nat) (heap : Nat → WorkObj V) (d : WorkDs V) : Iter (Option V) :=
  if n = 0 then d.iter heap 1 0
  else interleaveIter (IterFam.ofIters (fun w => workerIter n w heap d)) n n false

end Grain
