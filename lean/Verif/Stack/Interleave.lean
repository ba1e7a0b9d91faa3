import Verif.Stack.Multi
import Verif.Stack.Process
/-
Interleave (transformations/interleave.py) over iterators that may have threads and processes of their own, and
`mp_prefetch` with several workers.

Simplifications: those of Verif/Stack/Multi.lean.  States are restored into new iterators only (restores into used ones lose
data, F6; the sequential model Verif/Interleave/Model.lean has them).  The iterator of a dataset is made when its slot opens it
and starts its threads then (in the code a pool of threads makes it a little ahead of time; `warmOver` in Start.lean adds that,
with `interleave_started_ahead_invisible`).  A used-up iterator is kept, without
being asked again, and its state is taken when `get_state` is called (in the code it is taken when it ends, and the iterator
is dropped); that state is never restored.
-/
namespace Grain

/-- The fields of `InterleaveDatasetIterator` (interleave.py:76-94) with cycle length `L + 1`: `_next_index_in_cycle`,
`_next_index_in_datasets`, which dataset is in which slot, `_exhausted_iterator_state` is not `None`. -/
structure IlLoc (n L : Nat) where
  cyc : Fin (L + 1)
  nextDs : Nat
  slots : Fin (L + 1) → Option (Fin n)
  exh : Fin (L + 1) → Bool

/-- The loop of `__next__` (interleave.py:103-167) up to the next call of `next` of an input or to `StopIteration`.  `L + 1`
turns are enough. -/
def ilSeek {n L : Nat} {β : Type} : Nat → IlLoc n L → (Fin n × IlLoc n L) ⊕ (Option β × IlLoc n L)
  | 0, l => .inr (none, l)
  | k + 1, l =>
    match l.slots l.cyc with
    | some d => .inl (d, l)
    | none =>
      if h : l.nextDs < n then
        .inl (⟨l.nextDs, h⟩, { l with slots := Function.update l.slots l.cyc (some ⟨l.nextDs, h⟩)
                                      exh := Function.update l.exh l.cyc false
                                      nextDs := l.nextDs + 1 })
      else if (List.finRange (L + 1)).any (fun i => (l.slots i).isSome) then ilSeek k { l with cyc := l.cyc + 1 }
      else .inr (none, l)

/-- The slots that `get_state` fills (interleave.py:169-191). -/
def ilFill {n L : Nat} : List (Fin (L + 1)) → IlLoc n L → IlLoc n L
  | [], l => l
  | i :: is, l =>
    if (l.slots i).isSome || l.exh i then ilFill is l
    else if h : l.nextDs < n then
      ilFill is { l with slots := Function.update l.slots i (some ⟨l.nextDs, h⟩), nextDs := l.nextDs + 1 }
    else l

/-- `InterleaveDatasetIterator` (interleave.py:33-298) of `n` datasets with cycle length `L + 1 ≤ n`. -/
def ilTrans (n L : Nat) : MultiTrans n α α where
  L := IlLoc n L
  K := IlLoc n L
  l0 := { cyc := 0, nextDs := 0, slots := fun _ => none, exh := fun _ => false }
  start := ilSeek (L + 1)
  resume := fun _ l r =>
    match r with
    | some a => .inr (some a, { l with cyc := l.cyc + 1 })
    | none =>
      ilSeek (L + 1) { l with slots := Function.update l.slots l.cyc none
                              exh := Function.update l.exh l.cyc true
                              cyc := l.cyc + 1 }
  onGet := ilFill (List.finRange (L + 1))
  sets := fun l i => (List.finRange (L + 1)).any (fun j => l.slots j == some i)

/-- The iterator whose `set_state` is called on a new object each time. -/
def renewed (c : ConcIter α) : ConcIter α := { c with setCall := fun _ ck t => c.setCall c.init ck t }

/-- `InterleaveIterDataset(datasets, cycle_length=cycle)` of `n` datasets (the cycle length is reduced to `n` at
interleave.py:76); `c i` is the iterator that `_add_prefetch_and_make_iterator` (interleave.py:441-499) makes of dataset
`i`. -/
def interleaveOver (n cycle : Nat) (c : Fin n → ConcIter α) : ConcIter α :=
  renewed (multiOver (ilTrans n (min cycle n - 1)) c)

/-- `ds.mp_prefetch` with `workers` workers (process_prefetch.py:708-755): worker `i` runs `c i`, which is the dataset
sliced for it, in a process of its own; the interleave adds a thread prefetch (interleave.py:479-482). -/
def mpPrefetchOver (workers size : Nat) (c : Fin workers → ConcIter α) : ConcIter α :=
  interleaveOver workers workers (fun i => prefetchOver size (processOver size false (c i)))

/-- `multithread_prefetch` with `threads` threads (prefetch.py:775-830). -/
def multithreadPrefetchOver (threads size : Nat) (c : Fin threads → ConcIter α) : ConcIter α :=
  interleaveOver threads threads (fun i => prefetchOver size (c i))

end Grain
