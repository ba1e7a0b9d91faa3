import Verif.ProcPrefetch.Spec
/-
`ProcessPrefetchDatasetIterator` (grain/_src/python/dataset/transformations/process_prefetch.py:334-646) and its worker
process `_put_dataset_elements_in_buffer` (process_prefetch.py:194-310) as a transition system.  One step is one operation
on the shared objects (the element queue, the request queue, the request counter under its lock, the stop event) or a step
of one process between two such operations.  Waiting (with time-outs and retries, or by polling) is a step that is not
possible yet.  A multiprocessing queue is FIFO; a `get_nowait` may say "empty" although something was just put, so the
loops that empty a queue may stop early, except the one after the worker has ended.

Simplifications: the bound 5 of the request queue is left out; creation of the process, unpickling in it (StartFail.lean adds its failures) and
copying to shared memory do not fail; how many blocks an element needs is left open (`work_item`; see Shm/Model.lean); requests for states and for indices are told apart by a constructor (in the code by
`isinstance(.., int)`; states are dictionaries).
-/
namespace Grain

/-- An entry of the element queue: `_SetStateIsDone` (:243), an element with `c`, the state and the index after it (:286),
whose data are in the shared memory blocks with the numbers `ids`, or an exception (:263-271). -/
inductive PPEntry (α C : Type) where
  | marker
  | elem (a : α) (c : C) (ids : List Nat)
  | err (r : Res α)

/-- What travels with an element: the state and `next_index` (:286). -/
abbrev PPSnap (p : Iter α) := p.C × Option Int

/-- A request: `set_state` (:601) or `set_next_index` (:628). -/
inductive PPReq (C : Type) where
  | state (c : C)
  | index (i : Nat)

/-- Where the worker is: at the head of the loop (:233), before the locked part (:236-240), before putting the marker
(:242-247), before `it.set_state` or `set_next_index` (:249-253), before `parent_exhausted` is looked at (:254-260), before putting an entry
(:262, :285), emptying the queues on the way out (:309-310), or ended.  `failClear`, `failPut`: an exception outside
`next(it)`, i.e. in `set_state` or `set_next_index` (:294-307).  `dead`: ended with an exit code other than 0. -/
inductive PPPc (α C R : Type) where
  | top
  | take
  | mark (c : R)
  | apply (c : R)
  | work
  | put (e : PPEntry α C)
  | leaving
  | failClear (e : Err)
  | failPut (e : Err)
  | exited
  | dead

/-- The worker process: its iterator, `next_index`, `parent_exhausted`, where it is. -/
structure PPWorker (p : Iter α) where
  it : p.S
  nextIndex : Option Int
  exh : Bool
  pc : PPPc α (PPSnap p) (PPReq p.C)

/-- What follows `_stop_prefetch` (:557-580): raising (:532-539), or the end of `close` (:549). -/
inductive PPCont (α : Type) where
  | raise (r : Res α)
  | close

/-- Where the main process is: between calls; in the loop of `__next__` (:503-524); in `set_state` or `_set_next_index` after
clearing the request queue (:600, :627) and after putting the request (:601, :628); in `_stop_prefetch`: emptying the buffer (:566), the request
queue (:567), in `join` (:571), emptying the buffer again (:578). -/
inductive PPMain (α R : Type) where
  | idle
  | get
  | set1 (c : R)
  | set2 (c : R)
  | stop1 (k : PPCont α)
  | stop2 (k : PPCont α)
  | join (k : PPCont α)
  | stop3 (k : PPCont α)

/-- The iterator object, the shared objects, the worker, the user's remaining calls (the first may be under way), saved
states and outcomes.  For shared memory: `made` blocks have been made (their numbers are 0, 1, ...), those in `freed` have
been unlinked, those in `given` have been handed to the user as arrays that unlink on deletion. -/
structure PPSys (p : Iter α) where
  state : Option p.C
  nextIndex : Option Int
  over : Bool
  closed : Bool
  setCount : Nat
  buf : List (PPEntry α (PPSnap p))
  reqs : List (PPReq p.C)
  reqCount : Nat
  stop : Bool
  worker : Option (PPWorker p)
  pc : PPMain α (PPReq p.C)
  prog : List TOp
  saved : List p.C
  outs : List (Res α ⊕ Int)
  made : Nat
  freed : List Nat
  given : List Nat

/-- `ProcessPrefetchDatasetIterator.__init__` (:337-390). -/
def ppInit (p : Iter α) (prog : List TOp) : PPSys p where
  state := none
  nextIndex := some 0
  over := false
  closed := false
  setCount := 0
  buf := []
  reqs := []
  reqCount := 0
  stop := false
  worker := none
  pc := .idle
  prog := prog
  saved := []
  outs := []
  made := 0
  freed := []
  given := []

/-- The shared memory blocks referred to by an entry (`unlink_shm`, shared_memory_array.py:233-234). -/
def ppIds : PPEntry α C → List Nat
  | .elem _ _ ids => ids
  | _ => []

/-- Is the entry an exception put by the worker? -/
def ppIsErr : PPEntry α C → Bool
  | .err _ => true
  | _ => false

/-- Is the entry the marker of a `set_state` request? -/
def ppIsMarker : PPEntry α C → Bool
  | .marker => true
  | _ => false

/-- A new worker: `it = ds.__iter__()` etc. (:223-232). -/
def ppWorker0 (p : Iter α) : PPWorker p := { it := p.init, nextIndex := some 0, exh := false, pc := .top }

/-- The steps.  `size` is `buffer_size`, `keep` is `_keep_workers_after_stop_iteration`; `crashes`: the worker may die or be
killed. -/
inductive PPStep (p : Iter α) (size : Nat) (keep crashes : Bool) : PPSys p → PPSys p → Prop where
  /- the worker's loop, :233-292 -/
  | top_stop {s w} : s.worker = some w → w.pc = .top → s.stop = true →
      PPStep p size keep crashes s { s with worker := some { w with pc := .leaving } }
  | top_take {s w} : s.worker = some w → w.pc = .top → s.stop = false → 0 < s.reqCount →
      PPStep p size keep crashes s { s with worker := some { w with pc := .take } }
  | top_work {s w} : s.worker = some w → w.pc = .top → s.stop = false → s.reqCount = 0 → w.exh = false →
      PPStep p size keep crashes s { s with worker := some { w with pc := .work } }
  | take {s w n c cs} : s.worker = some w → w.pc = .take → s.reqCount = n + 1 → s.reqs = c :: cs →
      PPStep p size keep crashes s
        { s with reqCount := n, reqs := cs, worker := some { w with exh := false, pc := .mark c } }
  | take_none {s w} : s.worker = some w → w.pc = .take → s.reqCount = 0 →
      PPStep p size keep crashes s { s with worker := some { w with pc := .work } }
  | mark {s w c} : s.worker = some w → w.pc = .mark c → s.buf.length < size →
      PPStep p size keep crashes s { s with buf := s.buf ++ [.marker], worker := some { w with pc := .apply c } }
  | mark_stop {s w c} : s.worker = some w → w.pc = .mark c → s.stop = true →
      PPStep p size keep crashes s { s with worker := some { w with pc := .top } }
  | apply {s w c it'} : s.worker = some w → w.pc = .apply (.state c) → Ev (fun F => p.set F w.it c = some (it', none)) →
      PPStep p size keep crashes s { s with worker := some { w with it := it', nextIndex := none, pc := .work } }
  | apply_raise {s w c it' e} : s.worker = some w → w.pc = .apply (.state c) → Ev (fun F => p.set F w.it c = some (it', some e)) →
      PPStep p size keep crashes s { s with worker := some { w with it := it', pc := .failClear e } }
  | apply_index {s w it'} {i : Nat} : s.worker = some w → w.pc = .apply (.index i) → p.setIdx w.it i = (it', none) →
      PPStep p size keep crashes s { s with worker := some { w with it := it', nextIndex := some i, pc := .work } }
  | apply_index_raise {s w it' e} {i : Nat} : s.worker = some w → w.pc = .apply (.index i) → p.setIdx w.it i = (it', some e) →
      PPStep p size keep crashes s { s with worker := some { w with it := it', pc := .failClear e } }
  | work_wait {s w} : s.worker = some w → w.pc = .work → w.exh = true →
      PPStep p size keep crashes s { s with worker := some { w with pc := .top } }
  | work_item {s w it' a} {n : Nat} : s.worker = some w → w.pc = .work → w.exh = false →
      Ev (fun F => p.next F w.it = some (it', .item a)) →
      PPStep p size keep crashes s
        { s with made := s.made + n,
                 worker := some { w with it := (p.get it').1, nextIndex := w.nextIndex.map (· + 1),
                                         pc := .put (.elem a ((p.get it').2, w.nextIndex.map (· + 1)) (List.range' s.made n)) } }
  | work_err {s w it' r} : s.worker = some w → w.pc = .work → w.exh = false → (∀ a, r ≠ .item a) →
      Ev (fun F => p.next F w.it = some (it', r)) →
      PPStep p size keep crashes s { s with worker := some { w with it := it', pc := .put (.err r) } }
  | put {s w e} : s.worker = some w → w.pc = .put e → s.buf.length < size →
      PPStep p size keep crashes s
        { s with buf := s.buf ++ [e], worker := some { w with exh := ppIsErr e, pc := .top } }
  | put_stop {s w e} : s.worker = some w → w.pc = .put e → s.stop = true →
      PPStep p size keep crashes s
        { s with freed := s.freed ++ ppIds e, worker := some { w with exh := ppIsErr e, pc := .top } }
  | leave {s w e es} : s.worker = some w → w.pc = .leaving → s.buf = e :: es →
      PPStep p size keep crashes s { s with buf := es, freed := s.freed ++ ppIds e }
  | leave_end {s w} : s.worker = some w → w.pc = .leaving →
      PPStep p size keep crashes s { s with reqs := [], worker := some { w with pc := .exited } }
  /- the worker's exception handler, :294-308 -/
  | fail_clear {s w e e' es} : s.worker = some w → w.pc = .failClear e → s.buf = e' :: es →
      PPStep p size keep crashes s { s with buf := es, freed := s.freed ++ ppIds e' }
  | fail_end {s w e} : s.worker = some w → w.pc = .failClear e →
      PPStep p size keep crashes s { s with reqs := [], worker := some { w with pc := .failPut e } }
  | fail_put {s w e} : s.worker = some w → w.pc = .failPut e → s.buf.length < size →
      PPStep p size keep crashes s { s with buf := s.buf ++ [.err (.fail e)], worker := some { w with pc := .exited } }
  | fail_stop {s w e} : s.worker = some w → w.pc = .failPut e → s.stop = true →
      PPStep p size keep crashes s { s with worker := some { w with pc := .exited } }
  | crash {s w} : s.worker = some w → w.pc ≠ .exited → w.pc ≠ .dead → crashes = true →
      PPStep p size keep crashes s { s with worker := some { w with pc := .dead } }
  /- __next__, :495-544; start_prefetch, :432-477 -/
  | next_over {s ops} : s.pc = .idle → s.prog = .next :: ops → s.over = true →
      PPStep p size keep crashes s { s with prog := ops, outs := s.outs ++ [.inl .stop] }
  | next_closed {s ops} : s.pc = .idle → s.prog = .next :: ops → s.over = false → s.closed = true →
      PPStep p size keep crashes s { s with prog := ops, outs := s.outs ++ [.inl (.fail .valueError)] }
  | next_start {s ops} : s.pc = .idle → s.prog = .next :: ops → s.over = false → s.closed = false → s.worker = none →
      PPStep p size keep crashes s { s with stop := false, worker := some (ppWorker0 p), pc := .get }
  | next_wait {s ops w} : s.pc = .idle → s.prog = .next :: ops → s.over = false → s.closed = false → s.worker = some w →
      PPStep p size keep crashes s { s with pc := .get }
  | get_marker {s es} : s.pc = .get → s.buf = .marker :: es →
      PPStep p size keep crashes s { s with buf := es, setCount := s.setCount - 1 }
  | get_stale {s e es} : s.pc = .get → s.buf = e :: es → ppIsMarker e = false → s.setCount ≠ 0 →
      PPStep p size keep crashes s { s with buf := es, freed := s.freed ++ ppIds e }
  | get_elem {s ops a c ids es} : s.pc = .get → s.prog = .next :: ops → s.buf = .elem a c ids :: es → s.setCount = 0 →
      PPStep p size keep crashes s
        { s with buf := es, state := some c.1, nextIndex := c.2, given := s.given ++ ids, pc := .idle, prog := ops,
                 outs := s.outs ++ [.inl (.item a)] }
  | get_end {s ops es} : s.pc = .get → s.prog = .next :: ops → s.buf = .err .stop :: es → s.setCount = 0 → keep = true →
      PPStep p size keep crashes s { s with buf := es, over := true, pc := .idle, prog := ops, outs := s.outs ++ [.inl .stop] }
  | get_err {s r es} : s.pc = .get → s.buf = .err r :: es → s.setCount = 0 → (r ≠ .stop ∨ keep = false) →
      PPStep p size keep crashes s { s with buf := es, stop := true, pc := .stop1 (.raise r) }
  | get_dead {s w} : s.pc = .get → s.buf = [] → s.worker = some w → w.pc = .dead → s.setCount = 0 →
      PPStep p size keep crashes s { s with stop := true, pc := .stop1 (.raise (.fail .runtimeError)) }
  /- get_state, :582-595 -/
  | save {s ops c} : s.pc = .idle → s.prog = .save :: ops → s.state = some c →
      PPStep p size keep crashes s { s with prog := ops, saved := s.saved ++ [c] }
  | save_zero {s ops} : s.pc = .idle → s.prog = .save :: ops → s.state = none → s.nextIndex = some 0 →
      PPStep p size keep crashes s { s with prog := ops, state := some (p.get p.init).2, saved := s.saved ++ [(p.get p.init).2] }
  | save_index {s ops it'} {i : Int} : s.pc = .idle → s.prog = .save :: ops → s.state = none → s.nextIndex = some i → i ≠ 0 →
      p.setIdx p.init i = (it', none) →
      PPStep p size keep crashes s { s with prog := ops, state := some (p.get it').2, saved := s.saved ++ [(p.get it').2] }
  /- set_state, :597-609: _clear_set_state_queue (:551-555) removes `j` requests; then the put; then the counters.  `_next_index`
  is unset at the end; nothing looks at it before -/
  | set_clear {s ops k c j} : s.pc = .idle → s.prog = .restore k :: ops → s.saved[k]? = some c → j ≤ s.reqs.length →
      PPStep p size keep crashes s
        { s with state := some c, nextIndex := none, reqs := s.reqs.drop j, reqCount := s.reqCount - j, setCount := s.setCount - j,
                 pc := .set1 (.state c) }
  | set_put {s c} : s.pc = .set1 c → PPStep p size keep crashes s { s with reqs := s.reqs ++ [c], pc := .set2 c }
  | set_done {s c op ops} : s.pc = .set2 c → s.prog = op :: ops →
      PPStep p size keep crashes s
        { s with reqCount := s.reqCount + 1, setCount := s.setCount + 1, over := false, pc := .idle, prog := ops }
  /- a crash of the main process; a new object is created and `set_state` is called on it -/
  | fresh {s ops k c} : s.pc = .idle → s.prog = .fresh k :: ops → s.saved[k]? = some c →
      PPStep p size keep crashes s
        { ppInit p (.fresh k :: ops) with state := some c, nextIndex := none, pc := .set1 (.state c), saved := s.saved,
                                           outs := s.outs }
  /- _get_next_index, :611-620: if it is not known, a new iterator is made in the main process and restored -/
  | index_known {s ops i} : s.pc = .idle → s.prog = .index :: ops → s.nextIndex = some i →
      PPStep p size keep crashes s { s with prog := ops, outs := s.outs ++ [.inr i] }
  | index {s ops c it' i} : s.pc = .idle → s.prog = .index :: ops → s.nextIndex = none → s.state = some c →
      Ev (fun F => p.set F p.init c = some (it', none)) → p.getIdx it' = .ok i →
      PPStep p size keep crashes s { s with nextIndex := some i, prog := ops, outs := s.outs ++ [.inr i] }
  /- _set_next_index, :622-636: as set_state -/
  | jump_clear {s ops j} {i : Nat} : s.pc = .idle → s.prog = .setIndex i :: ops → j ≤ s.reqs.length →
      PPStep p size keep crashes s
        { s with state := none, nextIndex := some i, reqs := s.reqs.drop j, reqCount := s.reqCount - j,
                 setCount := s.setCount - j, pc := .set1 (.index i) }
  | start_closed {s ops} : s.pc = .idle → s.prog = .start :: ops → s.closed = true →
      PPStep p size keep crashes s { s with prog := ops, outs := s.outs ++ [.inl (.fail .valueError)] }
  | start {s ops} : s.pc = .idle → s.prog = .start :: ops → s.closed = false → s.worker = none →
      PPStep p size keep crashes s { s with stop := false, worker := some (ppWorker0 p), prog := ops }
  | start_again {s ops w} : s.pc = .idle → s.prog = .start :: ops → s.closed = false → s.worker = some w →
      PPStep p size keep crashes s { s with prog := ops }
  /- close, :546-549 -/
  | close {s ops} : s.pc = .idle → s.prog = .close :: ops → s.worker = none →
      PPStep p size keep crashes s { s with closed := true, prog := ops }
  | close_stop {s ops w} : s.pc = .idle → s.prog = .close :: ops → s.worker = some w →
      PPStep p size keep crashes s { s with closed := true, stop := true, pc := .stop1 .close }
  /- _stop_prefetch, :557-580 -/
  | stop1 {s k e es} : s.pc = .stop1 k → s.buf = e :: es →
      PPStep p size keep crashes s { s with buf := es, freed := s.freed ++ ppIds e }
  | stop1_end {s k} : s.pc = .stop1 k → PPStep p size keep crashes s { s with pc := .stop2 k }
  | stop2 {s k j} : s.pc = .stop2 k → j ≤ s.reqs.length →
      PPStep p size keep crashes s
        { s with reqs := s.reqs.drop j, reqCount := s.reqCount - j, setCount := s.setCount - j, pc := .join k }
  | join {s k w} : s.pc = .join k → s.worker = some w → (w.pc = .exited ∨ w.pc = .dead) →
      PPStep p size keep crashes s { s with pc := .stop3 k }
  | stop3 {s k e es} : s.pc = .stop3 k → s.buf = e :: es →
      PPStep p size keep crashes s { s with buf := es, freed := s.freed ++ ppIds e }
  | raise {s r op ops} : s.pc = .stop3 (.raise r) → s.buf = [] → s.prog = op :: ops →
      PPStep p size keep crashes s
        { s with worker := none, setCount := 0, over := true, pc := .idle, prog := ops, outs := s.outs ++ [.inl r] }
  | closed {s op ops} : s.pc = .stop3 .close → s.buf = [] → s.prog = op :: ops →
      PPStep p size keep crashes s { s with worker := none, setCount := 0, pc := .idle, prog := ops }
  /- the worker did not end within the time limit and is killed (:575-576); the buffer is not emptied -/
  | kill_raise {s w r op ops} : s.pc = .join (.raise r) → s.worker = some w → s.prog = op :: ops → crashes = true →
      PPStep p size keep crashes s
        { s with worker := none, setCount := 0, over := true, pc := .idle, prog := ops, outs := s.outs ++ [.inl r] }
  | kill_close {s w op ops} : s.pc = .join .close → s.worker = some w → s.prog = op :: ops → crashes = true →
      PPStep p size keep crashes s { s with worker := none, setCount := 0, pc := .idle, prog := ops }

/-- Runs: any number of steps of the two processes in any order. -/
inductive PPRun (p : Iter α) (size : Nat) (keep crashes : Bool) (s : PPSys p) : PPSys p → Prop where
  | refl : PPRun p size keep crashes s s
  | step {t u} : PPRun p size keep crashes s t → PPStep p size keep crashes t u → PPRun p size keep crashes s u

end Grain
