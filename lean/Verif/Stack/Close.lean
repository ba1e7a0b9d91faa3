import Verif.Stack.Anchor
import Verif.Stack.Interleave
import Verif.Stack.Process
/-
`close` of a tree of layers: what the calling thread does, one step at a time, while the threads and worker processes of
the tree run.

Simplifications: those of Verif/Stack/Model.lean; the user calls nothing else while `close` runs; a second `close`, which
returns at once (dataset.py:1548-1549), and the flag it sets are left out (C66, C67 have them).
-/
namespace Grain

/-- The thread that is in `close` of the iterator `c`: where it is (`P`), its steps, and whether it is about to return; and what
it is for `c` to have no threads and no worker processes. -/
structure Closer (c : ConcIter α) where
  P : Type
  start : P
  step : c.S → P → c.S → P → Prop
  done : P → Prop
  gone : c.S → Prop

/-- A source has no threads (file handles are C66's). -/
def sourceCloser (p : Iter α) : Closer (ofIter p) where
  P := Unit
  start := ()
  step := fun _ _ _ _ => False
  done := fun _ => True
  gone := fun _ => True

/-- `DatasetIterator.close` of a transformation of one input (dataset.py:1534-1552). -/
def transCloser (T : Trans α β) {c : ConcIter α} (k : Closer c) : Closer (transOver T c) where
  P := k.P
  start := k.start
  step := fun s q t q' => ∃ u, k.step s.cs q u q' ∧ t = { s with cs := u }
  done := k.done
  gone := fun s => k.gone s.cs

/-- The same of a transformation that keeps states of its parent (dataset.py:1534-1552; none of them has a `close` of its
own). -/
def anchorCloser (T : Anchor α β) {c : ConcIter α} (k : Closer c) : Closer (anchorOver T c) where
  P := k.P
  start := k.start
  step := fun s q t q' => ∃ u, k.step s.cs q u q' ∧ t = { s with cs := u }
  done := k.done
  gone := fun s => k.gone s.cs

/-- Where the thread is in `ThreadPrefetchDatasetIterator.close` (transformations/prefetch.py:657-662): at the test of
`_stop_prefetch` (:673), in `_clear_buffer` (:680, 664-669), at `join` (:692), in the second `_clear_buffer` (:698), in
`close` of the parent (:662). -/
inductive PrefClosePc (P : Type) where
  | stop
  | clear
  | join
  | again
  | par (q : P)

/-- One step of `ThreadPrefetchDatasetIterator.close`, prefetch.py:657-698. -/
inductive PrefCloseStep (c : ConcIter α) (k : Closer c) : PrefState c → PrefClosePc k.P → PrefState c → PrefClosePc k.P → Prop
  /-- prefetch.py:673-674 -/
  | stopNone (s) : s.thr = none → PrefCloseStep c k s .stop s (.par k.start)
  /-- :676 -/
  | stopSome (s) : s.thr.isSome → PrefCloseStep c k s .stop { s with flag := true } .clear
  /-- :664-669 -/
  | clear (s e b) : s.buf = e :: b → PrefCloseStep c k s .clear { s with buf := b } .clear
  | clearEnd (s) : s.buf = [] → PrefCloseStep c k s .clear s .join
  /-- :691-693 -/
  | join (s) : s.thr = some .exited → PrefCloseStep c k s .join { s with thr := none } .again
  /-- :695-698 -/
  | again (s e b) : s.buf = e :: b → PrefCloseStep c k s .again { s with buf := b } .again
  | againEnd (s) : s.buf = [] → PrefCloseStep c k s .again s (.par k.start)
  /-- :661-662 -/
  | par (s q t q') : k.step s.cs q t q' → PrefCloseStep c k s (.par q) { s with cs := t } (.par q')

/-- `ThreadPrefetchDatasetIterator.close`, prefetch.py:657-662. -/
def prefetchCloser (size : Nat) {c : ConcIter α} (k : Closer c) : Closer (prefetchOver size c) where
  P := PrefClosePc k.P
  start := .stop
  step := PrefCloseStep c k
  done := fun pc => ∃ q, pc = .par q ∧ k.done q
  gone := fun s => s.thr = none ∧ k.gone s.cs

/-- Where the thread is in `ProcessPrefetchDatasetIterator.close` (transformations/process_prefetch.py:546-549): before the
test of `_stop_prefetch` (:559), emptying the buffer (:566), before the request queue is emptied (:567), in `join` (:571),
emptying the buffer again (:578), leaving.  The parent is in the worker process and ends with it. -/
inductive ProcClosePc where
  | begin
  | stop1
  | stop2
  | join
  | stop3
  | fin

/-- `kill`: the worker may be taken not to end within the timeout (:571-576), at any time; it is then killed, with all the threads
in it. -/
inductive ProcCloseStep (kill : Bool) (c : ConcIter α) : ProcState c → ProcClosePc → ProcState c → ProcClosePc → Prop
  /-- process_prefetch.py:559-560 -/
  | none (s) : s.wrk = none → ProcCloseStep kill c s .begin s .fin
  /-- :565 -/
  | begin (s w) : s.wrk = some w → ProcCloseStep kill c s .begin { s with stop := true } .stop1
  /-- :566 -/
  | stop1 (s e es) : s.buf = e :: es → ProcCloseStep kill c s .stop1 { s with buf := es } .stop1
  | stop1End (s) : ProcCloseStep kill c s .stop1 s .stop2
  /-- :567, 551-555 -/
  | stop2 (s j) : j ≤ s.reqs.length →
      ProcCloseStep kill c s .stop2
        { s with reqs := s.reqs.drop j, reqCount := s.reqCount - j, setCount := s.setCount - j } .join
  /-- :571 -/
  | join (s w) : s.wrk = some w → w.pc = .exited → ProcCloseStep kill c s .join s .stop3
  /-- :571-576, 579-580; the buffer is not emptied -/
  | kill (s w) : kill = true → s.wrk = some w → ProcCloseStep kill c s .join { s with wrk := none, setCount := 0 } .fin
  /-- :578-580 -/
  | stop3 (s e es) : s.buf = e :: es → ProcCloseStep kill c s .stop3 { s with buf := es } .stop3
  | stopped (s) : s.buf = [] → ProcCloseStep kill c s .stop3 { s with wrk := none, setCount := 0 } .fin

/-- `ProcessPrefetchDatasetIterator.close`, process_prefetch.py:546-580. -/
def processCloser (size : Nat) (keep kill : Bool) (c : ConcIter α) : Closer (processOver size keep c) where
  P := ProcClosePc
  start := .begin
  step := ProcCloseStep kill c
  done := fun pc => pc = .fin
  gone := fun s => s.wrk = none

/-- One input after the other (dataset.py:1551-1552); `none` when there are no inputs. -/
inductive MtCloseStep (T : MultiTrans n α β) (c : Fin n → ConcIter α) (k : (i : Fin n) → Closer (c i)) :
    MtState T c → Option (Σ i, (k i).P) → MtState T c → Option (Σ i, (k i).P) → Prop
  | inside (s i q t q') : (k i).step (s.cs i) q t q' →
      MtCloseStep T c k s (some ⟨i, q⟩) { s with cs := Function.update s.cs i t } (some ⟨i, q'⟩)
  | onward (s) (i j : Fin n) (q) : (k i).done q → j.val = i.val + 1 →
      MtCloseStep T c k s (some ⟨i, q⟩) s (some ⟨j, (k j).start⟩)

/-- `DatasetIterator.close` of a transformation of several inputs (dataset.py:1534-1552).  Used for interleave too, whose
`close` (transformations/interleave.py:378-386) closes the iterators in use: an iterator that is used up is closed when
it is dropped (by `__del__`, dataset.py:1639-1640, in CPython at once), and one that was not made has no threads. -/
def multiCloser (T : MultiTrans n α β) {c : Fin n → ConcIter α} (k : (i : Fin n) → Closer (c i)) : Closer (multiOver T c) where
  P := Option (Σ i, (k i).P)
  start := if h : 0 < n then some ⟨⟨0, h⟩, (k ⟨0, h⟩).start⟩ else none
  step := MtCloseStep T c k
  done := fun o => ∀ i q, o = some ⟨i, q⟩ → i.val + 1 = n ∧ (k i).done q
  gone := fun s => ∀ i, (k i).gone (s.cs i)

/-- `close` of the iterator of `renewed c`. -/
def renewedCloser {c : ConcIter α} (k : Closer c) : Closer (renewed c) where
  P := k.P
  start := k.start
  step := k.step
  done := k.done
  gone := k.gone

/-- The iterator and the thread that closes it. -/
structure Closing (c : ConcIter α) (k : Closer c) where
  st : c.S
  pc : k.P

/-- One step of a thread of the tree, or of the thread that closes it. -/
inductive CloseStep (c : ConcIter α) (k : Closer c) : Closing c k → Closing c k → Prop
  | thread (s t q) : c.step s t → CloseStep c k ⟨s, q⟩ ⟨t, q⟩
  | close (s q t q') : k.step s q t q' → CloseStep c k ⟨s, q⟩ ⟨t, q'⟩

/-- Several steps. -/
inductive CloseRun (c : ConcIter α) (k : Closer c) : Closing c k → Closing c k → Prop
  | refl (s) : CloseRun c k s s
  | tail {s t u} : CloseRun c k s t → CloseStep c k t u → CloseRun c k s u

end Grain
