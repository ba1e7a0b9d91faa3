import Verif.ThreadPrefetch.Spec
/-
`ThreadPrefetchDatasetIterator` (grain/_src/python/dataset/transformations/prefetch.py:536-748) and its producer thread
`_put_iterator_elements_in_buffer` (prefetch.py:510-523) as a transition system.  One step is one operation on the shared
objects (queue, stop event, thread, parent iterator) by one of the two threads; a blocking operation is a step that is not
possible yet.  Simplifications: the parent's `__next__` followed by `get_state` in the producer is one step (nobody else
touches the parent while the thread runs; for buffer size 0 see `tp_size_zero_start_race`); a call that does not touch
shared objects is one step; statistics are left out; a `set_state` or index call of the parent that raises is not modelled (there is
no step for it); `autotune_buffer_size` is `None` in the code (prefetch.py:553), so the buffer is a `queue.Queue`.
-/
namespace Grain

/-- `BufferElementT` (prefetch.py:507): an element with the parent's state after it, or the exception that ended the loop
(`StopIteration` or another). -/
inductive TPEntry (α C : Type) where
  | elem (a : α) (c : C)
  | err (r : Res α)

/-- Where the producer thread is: before the test of `should_stop` (:518), before `iterator.__next__()` (:519-520), before
`buffer.put` (:521, :523), or finished. -/
inductive TPProducer (α C : Type) where
  | check
  | read
  | put (e : TPEntry α C)
  | exited

/-- What the consumer goes on with after `_stop_prefetch`: `raise err` (:648-649), the rest of `set_state` (:711-713),
`close` (:660), the rest of `_get_next_index` with its variable `state` (:729-731), or the rest of `_set_next_index`
(:739-741). -/
inductive TPCont (α C : Type) where
  | raise (r : Res α)
  | restore (c : C)
  | close
  | getIndex (c : C)
  | setIndex (i : Nat)

/-- Where the consumer thread is: between calls, in `self._buffer.get()` (:635), or in `_stop_prefetch`: in the first
`_clear_buffer` (:680), in `join` (:692), in the second `_clear_buffer` (:698). -/
inductive TPConsumer (α C : Type) where
  | idle
  | get
  | clear1 (k : TPCont α C)
  | join (k : TPCont α C)
  | clear2 (k : TPCont α C)

/-- The iterator object with its parent, queue and thread, the user's remaining calls (the first one may be under way),
the states saved so far and the outcomes so far.  `state` and `nextIndex` are `_state` and `_next_index` (:561-562). -/
structure TPSys (p : Iter α) where
  ps : p.S
  state : Option p.C
  nextIndex : Option Int
  buf : List (TPEntry α p.C)
  thread : Option (TPProducer α p.C)
  stop : Bool
  closed : Bool
  pc : TPConsumer α p.C
  prog : List TOp
  saved : List p.C
  outs : List (Res α ⊕ Int)

/-- `queue.Queue(maxsize=size)`: room for a `put` (a `maxsize` of 0 means no bound). -/
def tpRoom (size : Nat) (buf : List β) : Prop := size = 0 ∨ buf.length < size

/-- `ThreadPrefetchDatasetIterator.__init__` (:541-575): the parent's state is taken; then the calls `prog` are made. -/
def tpInit (p : Iter α) (prog : List TOp) : TPSys p where
  ps := (p.get p.init).1
  state := some (p.get p.init).2
  nextIndex := some 0
  buf := []
  thread := none
  stop := false
  closed := false
  pc := .idle
  prog := prog
  saved := []
  outs := []

/-- `get_state` (:700-708): `_state`, or if it is `None` the state of the parent; and the parent after that. -/
def tpState {p : Iter α} (s : TPSys p) : p.S × p.C :=
  match s.state with
  | some c => (s.ps, c)
  | none => p.get s.ps

/-- The producer's pending entry after one `__next__` of the parent with outcome `r`, leaving it in state `s`:
(element, state) or the exception; and the parent's state (prefetch.py:519-523). -/
def tpProduce (p : Iter α) (s : p.S) : Res α → p.S × TPEntry α p.C
  | .item a => ((p.get s).1, .elem a (p.get s).2)
  | .stop => (s, .err .stop)
  | .fail e => (s, .err (.fail e))

/-- Where the producer is after `buffer.put(e)`: back in the loop (:518), or finished (:523). -/
def tpAfterPut : TPEntry α C → TPProducer α C
  | .elem _ _ => .check
  | .err _ => .exited

/-- The steps.  `size` is `prefetch_buffer_size`. -/
inductive TPStep (p : Iter α) (size : Nat) : TPSys p → TPSys p → Prop where
  /- the producer thread, prefetch.py:518-523 -/
  | check_go {s} : s.thread = some .check → s.stop = false → TPStep p size s { s with thread := some .read }
  | check_stop {s} : s.thread = some .check → s.stop = true → TPStep p size s { s with thread := some .exited }
  | read {s ps' r} : s.thread = some .read → Ev (fun F => p.next F s.ps = some (ps', r)) →
      TPStep p size s { s with ps := (tpProduce p ps' r).1, thread := some (.put (tpProduce p ps' r).2) }
  | put {s e} : s.thread = some (.put e) → tpRoom size s.buf →
      TPStep p size s { s with buf := s.buf ++ [e], thread := some (tpAfterPut e) }
  /- __next__, prefetch.py:628-655; start_prefetch refuses closed iterators (:605-606) -/
  | next_closed {s ops} : s.pc = .idle → s.prog = .next :: ops → 0 < size → s.closed = true →
      TPStep p size s { s with prog := ops, outs := s.outs ++ [.inl (.fail .valueError)] }
  | next_start {s ops} : s.pc = .idle → s.prog = .next :: ops → 0 < size → s.closed = false → s.thread = none →
      TPStep p size s { s with stop := false, thread := some .check, pc := .get }
  | next_wait {s ops t} : s.pc = .idle → s.prog = .next :: ops → 0 < size → s.closed = false → s.thread = some t →
      TPStep p size s { s with pc := .get }
  | get_elem {s ops a c es} : s.pc = .get → s.prog = .next :: ops → s.buf = .elem a c :: es →
      TPStep p size s { s with buf := es, state := some c, nextIndex := s.nextIndex.map (· + 1), pc := .idle, prog := ops,
                               outs := s.outs ++ [.inl (.item a)] }
  | get_err {s r es} : s.pc = .get → s.buf = .err r :: es →
      TPStep p size s { s with buf := es, stop := true, pc := .clear1 (.raise r) }
  /- __next__ with size 0, prefetch.py:637-651: an element left in the buffer, else the parent is read -/
  | zero_elem {s ops a c es} : s.pc = .idle → s.prog = .next :: ops → size = 0 → s.buf = .elem a c :: es →
      TPStep p size s { s with buf := es, state := some c, nextIndex := s.nextIndex.map (· + 1), prog := ops,
                               outs := s.outs ++ [.inl (.item a)] }
  | zero_err {s ops r es t} : s.pc = .idle → s.prog = .next :: ops → size = 0 → s.buf = .err r :: es → s.thread = some t →
      TPStep p size s { s with buf := es, stop := true, pc := .clear1 (.raise r) }
  | zero_item {s ops a ps'} : s.pc = .idle → s.prog = .next :: ops → size = 0 → s.buf = [] →
      Ev (fun F => p.next F s.ps = some (ps', .item a)) →
      TPStep p size s { s with ps := (p.get ps').1, state := some (p.get ps').2, nextIndex := s.nextIndex.map (· + 1), prog := ops,
                               outs := s.outs ++ [.inl (.item a)] }
  | zero_raise {s ops r ps'} : s.pc = .idle → s.prog = .next :: ops → size = 0 → s.buf = [] → (∀ a, r ≠ .item a) →
      Ev (fun F => p.next F s.ps = some (ps', r)) →
      TPStep p size s { s with ps := ps', prog := ops, outs := s.outs ++ [.inl r] }
  /- get_state, prefetch.py:700-708 -/
  | save {s ops} : s.pc = .idle → s.prog = .save :: ops →
      TPStep p size s { s with ps := (tpState s).1, state := some (tpState s).2, prog := ops, saved := s.saved ++ [(tpState s).2] }
  /- set_state, prefetch.py:710-714 -/
  | restore_stop {s ops k c t} : s.pc = .idle → s.prog = .restore k :: ops → s.saved[k]? = some c → s.thread = some t →
      TPStep p size s { s with stop := true, pc := .clear1 (.restore c) }
  | restore {s ops k c ps'} : s.pc = .idle → s.prog = .restore k :: ops → s.saved[k]? = some c → s.thread = none →
      Ev (fun F => p.set F s.ps c = some (ps', none)) →
      TPStep p size s { s with ps := (p.get ps').1, state := some (p.get ps').2, nextIndex := none, prog := ops }
  /- a crash; a new object (:541-575) is created and the state is restored into it -/
  | fresh {s ops k c ps'} : s.pc = .idle → s.prog = .fresh k :: ops → s.saved[k]? = some c →
      Ev (fun F => p.set F (p.get p.init).1 c = some (ps', none)) →
      TPStep p size s { tpInit p ops with ps := (p.get ps').1, state := some (p.get ps').2, nextIndex := none, saved := s.saved,
                                           outs := s.outs }
  /- start_prefetch, prefetch.py:599-622 -/
  | start_closed {s ops} : s.pc = .idle → s.prog = .start :: ops → s.closed = true →
      TPStep p size s { s with prog := ops, outs := s.outs ++ [.inl (.fail .valueError)] }
  | start {s ops} : s.pc = .idle → s.prog = .start :: ops → s.closed = false → s.thread = none →
      TPStep p size s { s with stop := false, thread := some .check, prog := ops }
  | start_again {s ops t} : s.pc = .idle → s.prog = .start :: ops → s.closed = false → s.thread = some t →
      TPStep p size s { s with prog := ops }
  /- close, prefetch.py:657-662 -/
  | close_stop {s ops t} : s.pc = .idle → s.prog = .close :: ops → s.thread = some t →
      TPStep p size s { s with closed := true, stop := true, pc := .clear1 .close }
  | close {s ops} : s.pc = .idle → s.prog = .close :: ops → s.thread = none →
      TPStep p size s { s with closed := true, prog := ops }
  /- _get_next_index, prefetch.py:716-732 -/
  | index_known {s ops i} : s.pc = .idle → s.prog = .index :: ops → s.nextIndex = some i →
      TPStep p size s { s with prog := ops, outs := s.outs ++ [.inr i] }
  | index_stop {s ops t} : s.pc = .idle → s.prog = .index :: ops → s.nextIndex = none → s.thread = some t →
      TPStep p size s { s with ps := (tpState s).1, state := some (tpState s).2, stop := true, pc := .clear1 (.getIndex (tpState s).2) }
  | index {s ops ps' i} : s.pc = .idle → s.prog = .index :: ops → s.nextIndex = none → s.thread = none →
      Ev (fun F => p.set F (tpState s).1 (tpState s).2 = some (ps', none)) → p.getIdx ps' = .ok i →
      TPStep p size s { s with ps := ps', state := some (tpState s).2, nextIndex := some i, prog := ops, outs := s.outs ++ [.inr i] }
  /- _set_next_index, prefetch.py:734-742 -/
  | set_index_stop {s ops t} {i : Nat} : s.pc = .idle → s.prog = .setIndex i :: ops → s.thread = some t →
      TPStep p size s { s with stop := true, pc := .clear1 (.setIndex i) }
  | set_index {s ops ps'} {i : Nat} : s.pc = .idle → s.prog = .setIndex i :: ops → s.thread = none → p.setIdx s.ps i = (ps', none) →
      TPStep p size s { s with ps := ps', nextIndex := some i, state := none, prog := ops }
  /- _stop_prefetch, prefetch.py:671-698: one get_nowait of the first _clear_buffer, its end, the join, the same for the
  second _clear_buffer -/
  | clear1 {s k e es} : s.pc = .clear1 k → s.buf = e :: es → TPStep p size s { s with buf := es }
  | clear1_end {s k} : s.pc = .clear1 k → s.buf = [] → TPStep p size s { s with pc := .join k }
  | join {s k} : s.pc = .join k → s.thread = some .exited → TPStep p size s { s with thread := none, pc := .clear2 k }
  | clear2 {s k e es} : s.pc = .clear2 k → s.buf = e :: es → TPStep p size s { s with buf := es }
  | raise {s r op ops} : s.pc = .clear2 (.raise r) → s.buf = [] → s.prog = op :: ops →
      TPStep p size s { s with pc := .idle, prog := ops, outs := s.outs ++ [.inl r] }
  | restored {s c op ops ps'} : s.pc = .clear2 (.restore c) → s.buf = [] → s.prog = op :: ops →
      Ev (fun F => p.set F s.ps c = some (ps', none)) →
      TPStep p size s { s with ps := (p.get ps').1, state := some (p.get ps').2, nextIndex := none, pc := .idle, prog := ops }
  | closed {s op ops} : s.pc = .clear2 .close → s.buf = [] → s.prog = op :: ops →
      TPStep p size s { s with pc := .idle, prog := ops }
  | indexed {s c op ops ps' i} : s.pc = .clear2 (.getIndex c) → s.buf = [] → s.prog = op :: ops →
      Ev (fun F => p.set F s.ps c = some (ps', none)) → p.getIdx ps' = .ok i →
      TPStep p size s { s with ps := ps', nextIndex := some i, pc := .idle, prog := ops, outs := s.outs ++ [.inr i] }
  | index_set {s op ops ps'} {i : Nat} : s.pc = .clear2 (.setIndex i) → s.buf = [] → s.prog = op :: ops → p.setIdx s.ps i = (ps', none) →
      TPStep p size s { s with ps := ps', nextIndex := some i, state := none, pc := .idle, prog := ops }

/-- Runs: any number of steps of the two threads in any order. -/
inductive TPRun (p : Iter α) (size : Nat) (s : TPSys p) : TPSys p → Prop where
  | refl : TPRun p size s s
  | step {t u} : TPRun p size s t → TPStep p size t u → TPRun p size s u

end Grain
