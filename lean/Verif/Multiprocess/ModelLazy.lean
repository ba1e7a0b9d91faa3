import Verif.Multiprocess.ModelSlice
/-
`mp_prefetch` of an interleaved pipeline with the start states of the workers: `parallelIter` leaves out that a worker's state
before its first element is computed in the main process, where the pipeline is not sliced.
T/ = grain/_src/python/dataset/transformations/.
-/
namespace Grain

/-- `set_state` of an interleave iterator with `L` slots, T/interleave.py:254-298, for a state whose lists have `m` entries (the
loop at 256 runs over the lists of the state).  With fewer slots than entries `self._iterators_in_use[L]` raises `IndexError` (a
read at 262, a write at 260 and 289; an exhausted entry writes `_exhausted_iterator_state[L]` at 288 with the same result).  With
fewer entries than slots the slots after `m` are left alone. -/
def ilSetSized (f : IterFam α) (n L : Nat) (keep : Bool) (F : Nat) (s : ILState f.S f.C) (c : ILCk f.C) (m : Nat) :
    Option (ILState f.S f.C × Option Err) := do
  match (← ilSetLoop f n keep F c (List.range (min m L)) s) with
  | (s, some e) => some (s, some e)
  | (s, none) =>
    if L < m then some (s, some .indexError)
    else if c.nextDs > n then some ({ s with pf := c.nextDs }, some .indexError)
    else some ({ s with pf := c.nextDs, cyc := c.cyc, nextDs := c.nextDs, indices := c.indices, future := c.future }, none)

/-- `InterleaveDatasetIterator` as in `interleaveIter`; a state also has the length of its lists, `_cycle_length` of the iterator
that made it (T/interleave.py:170, 197-200). -/
def interleaveSizedIter (f : IterFam α) (n cycle : Nat) (keep : Bool) : Iter α where
  S := ILState f.S f.C
  C := ILCk f.C × Nat
  init := ilInit f.S f.C
  next := (interleaveIter f n cycle keep).next
  get s :=
    let g := ilGet f n (min cycle n) s
    (g.1, (g.2, min cycle n))
  set F s c := ilSetSized f n (min cycle n) keep F s c.1 c.2

/-- The fields of `ProcessPrefetchDatasetIterator` a reader depends on (T/process_prefetch.py:336-394): `wk` is the iterator in the
worker process, `state` is `_state`, `req` the pending entry of `_set_state_queue`, `over` is `_exhausted`. -/
structure PStart (S C : Type) where
  wk : S
  state : Option C
  req : Option C
  over : Bool

/-- The worker takes a pending request, T/process_prefetch.py:235-256. -/
def workerServe (wk : Iter α) (F : Nat) (s : PStart wk.S wk.C) : Option (wk.S × Option Err) :=
  match s.req with
  | none => some (s.wk, none)
  | some c => wk.set F s.wk c

/-- `ProcessPrefetchDatasetIterator` over a dataset whose iterator is `wk` in the worker process; `start` is the state of
`self._iter_parent.__iter__()` in the main process, T/process_prefetch.py:582-593.  `keep` is
`_keep_workers_after_stop_iteration`.  Simplified: the worker does not read ahead (C30: the reader cannot tell), no
`set_next_index`, and an exception of `set_state` in the worker reaches the reader (by F13 it may also be lost, and `next` does not
return). -/
def processStartIter (keep : Bool) (wk : Iter α) (start : wk.C) : Iter α where
  S := PStart wk.S wk.C
  C := wk.C
  init := { wk := wk.init, state := none, req := none, over := false }
  -- T/process_prefetch.py:494-545; in the worker 234-292
  next F s :=
    if s.over then some (s, .stop)
    else do
      let (w, e) ← workerServe wk F s
      match e with
      | some e => some ({ wk := wk.init, state := s.state, req := none, over := true }, .fail e)
      | none =>
        let (w, r) ← wk.next F w
        match r with
        | .item a => some ({ wk := (wk.get w).1, state := some (wk.get w).2, req := none, over := false }, .item a)
        | .stop => some ({ wk := if keep then w else wk.init, state := s.state, req := none, over := true }, .stop)
        | .fail e => some ({ wk := wk.init, state := s.state, req := none, over := true }, .fail e)
  -- 582-593
  get s := match s.state with
    | some c => (s, c)
    | none => ({ s with state := some start }, start)
  -- 595-608
  set _ s c := some ({ s with state := some c, req := some c, over := false }, none)

/-- The number of datasets of worker `w` of `k`, `len(datasets[w::k])`, T/interleave.py:573-575. -/
def sliceCount (n k w : Nat) : Nat := (listStride k w (List.range n)).length

/-- The datasets of worker `w` of `k`, `datasets[w::k]`, T/interleave.py:573-575. -/
def IterFam.slice (f : IterFam α) (k w : Nat) : IterFam α where
  S := f.S
  C := f.C
  init d := f.init (d * k + w)
  next d := f.next (d * k + w)
  get d := f.get (d * k + w)
  set d := f.set (d * k + w)

/-- The iterator of worker `w` of `k`, T/process_prefetch.py:711-747: in the worker process the interleave of its slice of the
datasets; in the main process `_LazyWorkerSliceIterDataset` (662-664) gives the interleave of all of them, whose state is the start
state. -/
def lazyWorker (f : IterFam α) (n cycle k : Nat) (keep : Bool) (w : Nat) : Iter α :=
  processStartIter keep (interleaveSizedIter (f.slice k w) (sliceCount n k w) cycle keep)
    ((interleaveSizedIter f n cycle false).get (interleaveSizedIter f n cycle false).init).2

/-- The workers as the datasets of the outer interleave, T/process_prefetch.py:748-754. -/
def lazyFam (f : IterFam α) (n cycle k : Nat) (keep : Bool) : IterFam α where
  S := PStart (ILState f.S f.C) (ILCk f.C × Nat)
  C := ILCk f.C × Nat
  init w := (lazyWorker f n cycle k keep w).init
  next w := (lazyWorker f n cycle k keep w).next
  get w := (lazyWorker f n cycle k keep w).get
  set w := (lazyWorker f n cycle k keep w).set

/-- `multiprocess_prefetch(InterleaveIterDataset(datasets, cycle_length=cycle), num_workers=k)`, T/process_prefetch.py:678-762.
`keep` says whether `repeat` follows (T/repeat.py). -/
def mpInterleaveIter (f : IterFam α) (n cycle k : Nat) (keep : Bool) : Iter α :=
  interleaveIter (lazyFam f n cycle k keep) k k keep

end Grain
