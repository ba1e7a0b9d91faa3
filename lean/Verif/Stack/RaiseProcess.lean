import Verif.Stack.RaiseModel
/-
Process prefetch over layers whose elements may raise: Verif/Stack/Process.lean with the exceptions of elements.

Simplifications: those of Verif/Stack/RaiseModel.lean; exceptions outside of `next(it)` (process_prefetch.py:293-307), the bound 5 of
the request queue, shared memory and index calls are left out (they are modelled for one layer in Verif/ProcPrefetch), the
worker is not killed (Close.lean adds that for `close`). A worker may itself have workers here; Python refuses that (`daemon=True`, process_prefetch.py:472).
-/
namespace Grain
namespace Raise

/-- An entry of the element queue: `_SetStateIsDone` (transformations/process_prefetch.py:243), an element with the state
after it (:286), an exception of `next(it)`, `none` for `StopIteration` (:263-271). -/
inductive ProcEntry (α C : Type) where
  | marker
  | elem (a : α) (ck : C)
  | over (e : Option Err)

/-- `parent_exhausted` after an entry was put (process_prefetch.py:274). -/
def exhAfter {α C : Type} : ProcEntry α C → Bool → Bool
  | .over _, _ => true
  | _, exh => exh

/-- Where the worker is in `_put_dataset_elements_in_buffer` (process_prefetch.py:233-310): at the head of the loop (:233),
before the locked part (:236), before putting the marker (:242), before `it.set_state` (:252) and inside it, before
`parent_exhausted` is looked at (:254), inside `next(it)` (:260), before `it.get_state()` (:286), before putting an entry,
emptying the queues on the way out (:309-310), ended. -/
inductive WorkerPc (α C : Type) where
  | top
  | take
  | mark (ck : C)
  | apply (ck : C)
  | applying
  | work
  | reading
  | got (a : α)
  | put (e : ProcEntry α C)
  | leaving
  | exited

/-- The worker process: the iterator of the layers below, `parent_exhausted`, where it is. -/
structure WorkerState (c : ConcIter (Py α)) where
  cs : c.S
  exh : Bool
  pc : WorkerPc α c.C

/-- Where the main process is: `__next__` entered (process_prefetch.py:496), in its loop (:503-524), in `_stop_prefetch`
emptying the buffer (:566), before the request queue is emptied (:567), in `join` (:571), emptying the buffer again (:578),
leaving with `r` (`_stop_prefetch` carries the exception to be raised after it); in `set_state` before the request is put (:601), before the counters are changed (:603-607), leaving. -/
inductive MainPc (α C : Type) where
  | idle
  | enter
  | get
  | stop1 (e : Option Err)
  | stop2 (e : Option Err)
  | join (e : Option Err)
  | stop3 (e : Option Err)
  | done (r : Option (Py α))
  | set1 (ck : C)
  | set2 (ck : C)
  | setDone

/-- `ProcessPrefetchDatasetIterator` (process_prefetch.py:337-390): `_state`, `_exhausted`, `_set_state_count`, `_buffer`,
`_set_state_queue`, `_set_state_request_count`, `_prefetch_should_stop`, `_prefetch_process`. -/
structure ProcState (c : ConcIter (Py α)) where
  state : Option c.C
  over : Bool
  setCount : Nat
  buf : List (ProcEntry α c.C)
  reqs : List c.C
  reqCount : Nat
  stop : Bool
  wrk : Option (WorkerState c)
  pc : MainPc α c.C

/-- One step of the main process, of the worker, or of a thread below the worker.  `size` is `buffer_size`, `keep` is
`_keep_workers_after_stop_iteration`. -/
inductive ProcStep (size : Nat) (keep : Bool) (c : ConcIter (Py α)) : ProcState c → ProcState c → Prop
  /-- any thread in the worker -/
  | below (s w t) : s.wrk = some w → c.step w.cs t → ProcStep size keep c s { s with wrk := some { w with cs := t } }
  /-- process_prefetch.py:233 -/
  | topStop (s w) : s.wrk = some w → w.pc = .top → s.stop = true →
      ProcStep size keep c s { s with wrk := some { w with pc := .leaving } }
  /-- :234 -/
  | topTake (s w) : s.wrk = some w → w.pc = .top → s.stop = false → 0 < s.reqCount →
      ProcStep size keep c s { s with wrk := some { w with pc := .take } }
  | topWork (s w) : s.wrk = some w → w.pc = .top → s.stop = false → s.reqCount = 0 → w.exh = false →
      ProcStep size keep c s { s with wrk := some { w with pc := .work } }
  /-- :236-240 -/
  | take (s w n ck cks) : s.wrk = some w → w.pc = .take → s.reqCount = n + 1 → s.reqs = ck :: cks →
      ProcStep size keep c s
        { s with reqCount := n, reqs := cks, wrk := some { w with exh := false, pc := .mark ck } }
  | takeNone (s w) : s.wrk = some w → w.pc = .take → s.reqCount = 0 →
      ProcStep size keep c s { s with wrk := some { w with pc := .work } }
  /-- :242-247 -/
  | mark (s w ck) : s.wrk = some w → w.pc = .mark ck → s.buf.length < size →
      ProcStep size keep c s { s with buf := s.buf ++ [.marker], wrk := some { w with pc := .apply ck } }
  | markStop (s w ck) : s.wrk = some w → w.pc = .mark ck → s.stop = true →
      ProcStep size keep c s { s with wrk := some { w with pc := .top } }
  /-- :252 -/
  | apply (s w ck t) : s.wrk = some w → w.pc = .apply ck → c.setCall w.cs ck t →
      ProcStep size keep c s { s with wrk := some { w with cs := t, pc := .applying } }
  | applied (s w t) : s.wrk = some w → w.pc = .applying → c.setRet w.cs t →
      ProcStep size keep c s { s with wrk := some { w with cs := t, pc := .work } }
  /-- :254-258 -/
  | workWait (s w) : s.wrk = some w → w.pc = .work → w.exh = true →
      ProcStep size keep c s { s with wrk := some { w with pc := .top } }
  /-- :260 -/
  | call (s w t) : s.wrk = some w → w.pc = .work → w.exh = false → c.call w.cs t →
      ProcStep size keep c s { s with wrk := some { w with cs := t, pc := .reading } }
  | item (s w a t) : s.wrk = some w → w.pc = .reading → c.ret w.cs (some (.ok a)) t →
      ProcStep size keep c s { s with wrk := some { w with cs := t, pc := .got a } }
  /-- :261-273: any exception -/
  | ended (s w e t) : s.wrk = some w → w.pc = .reading → c.ret w.cs (raised e) t →
      ProcStep size keep c s { s with wrk := some { w with cs := t, pc := .put (.over e) } }
  /-- :286 -/
  | getState (s w a) : s.wrk = some w → w.pc = .got a →
      ProcStep size keep c s
        { s with wrk := some { w with cs := (c.get w.cs).1, pc := .put (.elem a (c.get w.cs).2) } }
  /-- :262-274, 285-292; after an exception, `parent_exhausted` is set -/
  | put (s w e) : s.wrk = some w → w.pc = .put e → s.buf.length < size →
      ProcStep size keep c s
        { s with buf := s.buf ++ [e],
                 wrk := some { w with exh := exhAfter e w.exh, pc := .top } }
  | putStop (s w e) : s.wrk = some w → w.pc = .put e → s.stop = true →
      ProcStep size keep c s
        { s with wrk := some { w with exh := exhAfter e w.exh, pc := .top } }
  /-- :309 -/
  | leave (s w e es) : s.wrk = some w → w.pc = .leaving → s.buf = e :: es → ProcStep size keep c s { s with buf := es }
  /-- :310 -/
  | leaveEnd (s w) : s.wrk = some w → w.pc = .leaving →
      ProcStep size keep c s { s with reqs := [], wrk := some { w with pc := .exited } }
  /-- :496-497 -/
  | nextOver (s) : s.pc = .enter → s.over = true → ProcStep size keep c s { s with pc := .done none }
  /-- :432-464, 501: `start_prefetch` -/
  | start (s) : s.pc = .enter → s.over = false → s.wrk = none →
      ProcStep size keep c s { s with stop := false, wrk := some { cs := c.init, exh := false, pc := .top }, pc := .get }
  | wait (s w) : s.pc = .enter → s.over = false → s.wrk = some w → ProcStep size keep c s { s with pc := .get }
  /-- :519-520 -/
  | getMarker (s es) : s.pc = .get → s.buf = .marker :: es →
      ProcStep size keep c s { s with buf := es, setCount := s.setCount - 1 }
  /-- :523-525 -/
  | getStale (s e es) : s.pc = .get → s.buf = e :: es → e ≠ .marker → s.setCount ≠ 0 →
      ProcStep size keep c s { s with buf := es }
  /-- :521-522, 540-544 -/
  | getElem (s a ck es) : s.pc = .get → s.buf = .elem a ck :: es → s.setCount = 0 →
      ProcStep size keep c s { s with buf := es, state := some ck, pc := .done (some (.ok a)) }
  /-- :526-534: the worker is kept only after `StopIteration` -/
  | getOver (s es) : s.pc = .get → s.buf = .over none :: es → s.setCount = 0 → keep = true →
      ProcStep size keep c s { s with buf := es, over := true, pc := .done none }
  | getStop (s e es) : s.pc = .get → s.buf = .over e :: es → s.setCount = 0 → keep = false ∨ e ≠ none →
      ProcStep size keep c s { s with buf := es, stop := true, pc := .stop1 e }
  /-- :566; `get_nowait` may say "empty" too early -/
  | stop1 (s r e es) : s.pc = .stop1 r → s.buf = e :: es → ProcStep size keep c s { s with buf := es }
  | stop1End (s r) : s.pc = .stop1 r → ProcStep size keep c s { s with pc := .stop2 r }
  /-- :567, 551-555 -/
  | stop2 (s r j) : s.pc = .stop2 r → j ≤ s.reqs.length →
      ProcStep size keep c s
        { s with reqs := s.reqs.drop j, reqCount := s.reqCount - j, setCount := s.setCount - j, pc := .join r }
  /-- :571 -/
  | join (s r w) : s.pc = .join r → s.wrk = some w → w.pc = .exited → ProcStep size keep c s { s with pc := .stop3 r }
  /-- :578-580, 533-534 -/
  | stop3 (s r e es) : s.pc = .stop3 r → s.buf = e :: es → ProcStep size keep c s { s with buf := es }
  | stopped (s r) : s.pc = .stop3 r → s.buf = [] →
      ProcStep size keep c s { s with wrk := none, setCount := 0, over := true, pc := .done (raised r) }
  /-- :601 -/
  | setPut (s ck) : s.pc = .set1 ck → ProcStep size keep c s { s with reqs := s.reqs ++ [ck], pc := .set2 ck }
  /-- :603-608 -/
  | setDone (s ck) : s.pc = .set2 ck →
      ProcStep size keep c s
        { s with reqCount := s.reqCount + 1, setCount := s.setCount + 1, over := false, pc := .setDone }

/-- `ProcessPrefetchDatasetIterator` over a dataset whose iterators are `c` (process_prefetch.py:334-646).  `get_state`
before anything was read makes a new iterator in the main process (:586-588).  `set_state` begins with
`_clear_set_state_queue` (:599-600, 551-555), which removes `j` requests. -/
def processOver (size : Nat) (keep : Bool) (c : ConcIter (Py α)) : ConcIter (Py α) where
  S := ProcState c
  C := c.C
  init := { state := none, over := false, setCount := 0, buf := [], reqs := [], reqCount := 0, stop := false,
            wrk := none, pc := .idle }
  step := ProcStep size keep c
  call := fun s t => s.pc = .idle ∧ t = { s with pc := .enter }
  ret := fun s r t => s.pc = .done r ∧ t = { s with pc := .idle }
  get := fun s =>
    match s.state with
    | some ck => (s, ck)
    | none => ({ s with state := some (c.get c.init).2 }, (c.get c.init).2)
  setCall := fun s ck t => s.pc = .idle ∧ ∃ j, j ≤ s.reqs.length ∧
    t = { s with state := some ck, reqs := s.reqs.drop j, reqCount := s.reqCount - j, setCount := s.setCount - j,
                 pc := .set1 ck }
  setRet := fun s t => s.pc = .setDone ∧ t = { s with pc := .idle }

end Raise
end Grain
