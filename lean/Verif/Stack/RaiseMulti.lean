import Verif.Stack.Interleave
import Verif.Stack.RaiseProcess
/-
Interleaves, and `mp_prefetch` with several workers, of iterators whose elements may raise.

Simplifications: those of Verif/Stack/Interleave.lean and Verif/Stack/RaiseProcess.lean.
-/
namespace Grain
namespace Raise

/-- `InterleaveDatasetIterator` (transformations/interleave.py:33-298) of `n` datasets with cycle length `L + 1 ≤ n`, as
`Grain.ilTrans`.  Only `StopIteration` is caught (interleave.py:130): another exception of the iterator in use leaves
`__next__` before `_next_index_in_cycle` is changed (:125-127), so the same iterator is asked by the next call. -/
def ilTrans (n L : Nat) : MultiTrans n (Py α) (Py α) where
  L := IlLoc n L
  K := IlLoc n L
  l0 := { cyc := 0, nextDs := 0, slots := fun _ => none, exh := fun _ => false }
  start := ilSeek (L + 1)
  resume := fun _ l r =>
    match r with
    | some (.ok a) => .inr (some (.ok a), { l with cyc := l.cyc + 1 })
    | some (.error e) => .inr (some (.error e), l)
    | none =>
      ilSeek (L + 1) { l with slots := Function.update l.slots l.cyc none
                              exh := Function.update l.exh l.cyc true
                              cyc := l.cyc + 1 }
  onGet := ilFill (List.finRange (L + 1))
  sets := fun l i => (List.finRange (L + 1)).any (fun j => l.slots j == some i)

/-- `InterleaveIterDataset(datasets, cycle_length=cycle)` of `n` datasets, as `Grain.interleaveOver`. -/
def interleaveOver (n cycle : Nat) (c : Fin n → ConcIter (Py α)) : ConcIter (Py α) :=
  renewed (multiOver (ilTrans n (min cycle n - 1)) c)

/-- `ds.mp_prefetch` with `workers` workers (process_prefetch.py:708-755): worker `i` runs `c i`, which is the dataset
sliced for it, in a process of its own; the interleave adds a thread prefetch (interleave.py:479-482). -/
def mpPrefetchOver (workers size : Nat) (c : Fin workers → ConcIter (Py α)) : ConcIter (Py α) :=
  interleaveOver workers workers (fun i => prefetchOver size (processOver size false (c i)))

/-- `multithread_prefetch(ds, num_threads, buffer_size)` (prefetch.py:775-830): thread `i` reads `c i`, which is the dataset
sliced for it (:805-811), through the thread prefetch that the interleave adds (interleave.py:479-482). -/
def multithreadPrefetchOver (threads size : Nat) (c : Fin threads → ConcIter (Py α)) : ConcIter (Py α) :=
  interleaveOver threads threads (fun i => prefetchOver size (c i))

end Raise
end Grain
