import Verif.Stack.Spec
/-
Iterators that run threads of their own, stacked on each other (`device_put`, `ds.mp_prefetch`-free pipelines with several
`ThreadPrefetchIterDataset`s).  An iterator is a labelled transition system, so that the thread of one layer may be in
the middle of a `next` of the layer below while all the other threads run.

Simplifications: elements never raise (a stream of elements, then `StopIteration`); statistics, `close`, index calls and
autotuning are left out (they are modelled for one layer in Verif/ThreadPrefetch).
-/
namespace Grain

/-- An iterator object together with all the threads inside it (`DatasetIterator`,
grain/_src/python/dataset/dataset.py:1409-1640).

* `call`, `ret`: the thread of the user enters `__next__` and leaves it (`none` is `StopIteration`);
* `setCall`, `setRet`: the same for `set_state`;
* `get`: `get_state`, one step, between the other calls;
* `step`: one step of any thread inside, the user's included while it is inside a call.

One user thread at a time makes calls (grain does not allow more). -/
structure ConcIter (α : Type) where
  S : Type
  C : Type
  init : S
  step : S → S → Prop
  call : S → S → Prop
  ret : S → Option α → S → Prop
  get : S → S × C
  setCall : S → C → S → Prop
  setRet : S → S → Prop

/-! ### An iterator without threads -/

/-- Where the thread of the user is. -/
inductive CMode where
  | idle
  | next
  | set
  deriving DecidableEq, Repr

/-- A sequential iterator (the models of Verif/Iter) has no steps of its own: a call is entered, and left with the
outcome of the sequential model. -/
def ofIter (p : Iter α) : ConcIter α where
  S := p.S × Option (Option p.C)
  C := p.C
  init := (p.init, none)
  step := fun _ _ => False
  call := fun s t => s.2 = none ∧ t = (s.1, some none)
  ret := fun s r t => s.2 = some none ∧ t.2 = none ∧
    Ev (fun F => p.next F s.1 = some (t.1, match r with | some a => .item a | none => .stop))
  get := fun s => (((p.get s.1).1, s.2), (p.get s.1).2)
  setCall := fun s c t => s.2 = none ∧ t = (s.1, some (some c))
  setRet := fun s t => ∃ c, s.2 = some (some c) ∧ t.2 = none ∧ Ev (fun F => p.set F s.1 c = some (t.1, none))

/-! ### Transformations without threads of their own, over an iterator that may have some -/

/-- What `__next__` of a transformation does between its calls of `next(self._parent)`.  `L` is the part of its state
that goes into checkpoints, `K` where it is inside the call; `start` and `resume` say whether it asks its parent for
(another) element or returns. -/
structure Trans (α β : Type) where
  L : Type
  K : Type
  l0 : L
  start : L → K ⊕ (Option β × L)
  resume : K → Option α → K ⊕ (Option β × L)

/-- `_MapDatasetIterator.__next__` (transformations/map.py:307-312). -/
def mapTrans (f : α → β) : Trans α β where
  L := Unit
  K := Unit
  l0 := ()
  start := fun _ => .inl ()
  resume := fun _ r => .inr (r.map f, ())

/-- `_MapWithIndexDatasetIterator.__next__`, `get_state`, `set_state` (transformations/map.py:403-420). -/
def mapIndexTrans (f : Nat → α → β) : Trans α β where
  L := Nat
  K := Nat
  l0 := 0
  start := fun i => .inl i
  resume := fun i r =>
    match r with
    | some a => .inr (some (f i a), i + 1)
    | none => .inr (none, i)

/-- `_LimitDatasetIterator.__next__`, `get_state`, `set_state` (transformations/limit.py:39-54). -/
def limitTrans (count : Nat) : Trans α α where
  L := Nat
  K := Nat
  l0 := 0
  start := fun i => if i ≥ count then .inr (none, i) else .inl i
  resume := fun i r =>
    match r with
    | some a => .inr (some a, i + 1)
    | none => .inr (none, i)

/-- `_BatchDatasetIterator.__next__` (transformations/batch.py:300-312); the values are returned as a list (`batch_fn` is
a `map` over it).  `BatchIterDataset` requires `batch_size > 0` (batch.py:494-520). -/
def batchTrans (b : Nat) (drop : Bool) : Trans α (List α) where
  L := Unit
  K := List α
  l0 := ()
  start := fun _ => .inl []
  resume := fun values r =>
    match r with
    | some a => if values.length + 1 < b then .inl (values ++ [a]) else .inr (some (values ++ [a]), ())
    | none => if drop || values.isEmpty then .inr (none, ()) else .inr (some values, ())

/-- Where the user's thread is in a transformation. -/
inductive TrPc (β K C : Type) where
  | idle
  | ask (k : K)
  | wait (k : K)
  | done (r : Option β)
  | setPar (ck : C)
  | setting

/-- A transformation over `c`: the state below, its own, and where its `__next__` or `set_state` is. -/
structure TrState (T : Trans α β) (c : ConcIter α) where
  cs : c.S
  loc : T.L
  pc : TrPc β T.K c.C

/-- Continue with what `start` or `resume` said. -/
def TrState.goto {T : Trans α β} {c : ConcIter α} (s : TrState T c) : T.K ⊕ (Option β × T.L) → TrState T c
  | .inl k => { s with pc := .ask k }
  | .inr (r, l) => { s with pc := .done r, loc := l }

/-- One step of some thread at or below the transformation: a thread below, `next(self._parent)` entered, or left. -/
inductive TrStep (T : Trans α β) (c : ConcIter α) : TrState T c → TrState T c → Prop
  | below (s t) : c.step s.cs t → TrStep T c s { s with cs := t }
  | ask (s k t) : s.pc = .ask k → c.call s.cs t → TrStep T c s { s with cs := t, pc := .wait k }
  | got (s k r t) : s.pc = .wait k → c.ret s.cs r t → TrStep T c s ({ s with cs := t }.goto (T.resume k r))
  | setPar (s ck t) : s.pc = .setPar ck → c.setCall s.cs ck t → TrStep T c s { s with cs := t, pc := .setting }

/-- The iterator of a transformation over `c`.  A checkpoint is the parent's with the local state (map.py:314-318,
limit.py:46-54, batch.py:314-318). -/
def transOver (T : Trans α β) (c : ConcIter α) : ConcIter β where
  S := TrState T c
  C := c.C × T.L
  init := { cs := c.init, loc := T.l0, pc := .idle }
  step := TrStep T c
  call := fun s t => s.pc = .idle ∧ t = s.goto (T.start s.loc)
  ret := fun s r t => s.pc = .done r ∧ t = { s with pc := .idle }
  get := fun s => ({ s with cs := (c.get s.cs).1 }, ((c.get s.cs).2, s.loc))
  setCall := fun s ck t => s.pc = .idle ∧ t = { s with pc := .setPar ck.1, loc := ck.2 }
  setRet := fun s t => s.pc = .setting ∧ ∃ u, c.setRet s.cs u ∧ t = { s with cs := u, pc := .idle }

/-! ### Thread prefetch -/

/-- Where the prefetch thread is in `_put_iterator_elements_in_buffer` (transformations/prefetch.py:510-524): at the test
of `should_stop`, before `iterator.__next__()`, inside it, before `iterator.get_state()`, before `buffer.put` of an
element with its state (`none`: of the exception), or finished. -/
inductive PrefPc (α C : Type) where
  | check
  | call
  | reading
  | got (a : α)
  | put (e : Option (α × C))
  | exited

/-- Where the user's thread is in `__next__`, `set_state` or in `_stop_prefetch` called by them
(transformations/prefetch.py:611-702).  The argument of the `_stop_prefetch` positions is what follows: `none` – raise
`StopIteration`, `some ck` – restore `ck`.  `sync` is the call of the parent when the buffer size is 0. -/
inductive UserPc (α C : Type) where
  | idle
  | enter
  | take
  | sync
  | syncGot (a : α)
  | stop (k : Option C)
  | clear (k : Option C)
  | join (k : Option C)
  | clearAgain (k : Option C)
  | done (r : Option α)
  | setPar (ck : C)
  | setting
  | setGot
  | setDone

/-- `ThreadPrefetchDatasetIterator` (transformations/prefetch.py:538-571): the parent, `_state`, `_buffer`,
`_prefetch_thread` (with its position), `_prefetch_should_stop`. -/
structure PrefState (c : ConcIter α) where
  cs : c.S
  state : c.C
  buf : List (Option (α × c.C))
  thr : Option (PrefPc α c.C)
  flag : Bool
  pc : UserPc α c.C

/-- What follows `_stop_prefetch` (prefetch.py:644-646, 699-700). -/
def afterStop {α C : Type} : Option C → UserPc α C
  | none => .done none
  | some ck => .setPar ck

/-- One step of some thread at or below a thread prefetch of buffer size `size`. -/
inductive PrefStep (size : Nat) (c : ConcIter α) : PrefState c → PrefState c → Prop
  /-- any thread below -/
  | below (s t) : c.step s.cs t → PrefStep size c s { s with cs := t }
  /-- prefetch.py:518 -/
  | check (s) : s.thr = some .check → PrefStep size c s { s with thr := some (if s.flag then .exited else .call) }
  /-- prefetch.py:519, `iterator.__next__()` entered -/
  | call (s t) : s.thr = some .call → c.call s.cs t → PrefStep size c s { s with cs := t, thr := some .reading }
  /-- prefetch.py:519, and left with an element -/
  | item (s a t) : s.thr = some .reading → c.ret s.cs (some a) t →
      PrefStep size c s { s with cs := t, thr := some (.got a) }
  /-- prefetch.py:522-523, and left with `StopIteration` -/
  | over (s t) : s.thr = some .reading → c.ret s.cs none t →
      PrefStep size c s { s with cs := t, thr := some (.put none) }
  /-- prefetch.py:520 -/
  | getState (s a) : s.thr = some (.got a) →
      PrefStep size c s { s with cs := (c.get s.cs).1, thr := some (.put (some (a, (c.get s.cs).2))) }
  /-- prefetch.py:521, 523: `buffer.put` waits until there is room; after an exception the thread ends -/
  | put (s e) : s.thr = some (.put e) → s.buf.length < size →
      PrefStep size c s { s with buf := s.buf ++ [e], thr := some (if e.isSome then .check else .exited) }
  /-- prefetch.py:575-601, 614-615: `start_prefetch` -/
  | start (s) : s.pc = .enter → 0 < size →
      PrefStep size c s { s with
        thr := some (s.thr.getD .check), flag := if s.thr.isSome then s.flag else false, pc := .take }
  /-- prefetch.py:616: `buffer.get` waits until there is an entry; 647, `_state` is replaced -/
  | take (s a ck b) : s.pc = .take → s.buf = some (a, ck) :: b →
      PrefStep size c s { s with buf := b, state := ck, pc := .done (some a) }
  /-- prefetch.py:644-646: an exception from the buffer -/
  | takeStop (s b) : s.pc = .take → s.buf = none :: b → PrefStep size c s { s with buf := b, pc := .stop none }
  /-- prefetch.py:622-624: buffer size 0, the parent is called by the user's thread -/
  | sync (s t) : s.pc = .enter → size = 0 → s.buf = [] → c.call s.cs t →
      PrefStep size c s { s with cs := t, pc := .sync }
  | syncItem (s a t) : s.pc = .sync → c.ret s.cs (some a) t → PrefStep size c s { s with cs := t, pc := .syncGot a }
  | syncOver (s t) : s.pc = .sync → c.ret s.cs none t → PrefStep size c s { s with cs := t, pc := .done none }
  /-- prefetch.py:625, 647 -/
  | syncState (s a) : s.pc = .syncGot a →
      PrefStep size c s { s with cs := (c.get s.cs).1, state := (c.get s.cs).2, pc := .done (some a) }
  /-- prefetch.py:672-673: `_stop_prefetch` without a thread -/
  | stopNone (s k) : s.pc = .stop k → s.thr = none → PrefStep size c s { s with pc := afterStop k }
  /-- prefetch.py:675 -/
  | stopSome (s k) : s.pc = .stop k → s.thr.isSome → PrefStep size c s { s with flag := true, pc := .clear k }
  /-- prefetch.py:662-667: `_clear_buffer`, one entry at a time -/
  | clear (s k e b) : s.pc = .clear k → s.buf = e :: b → PrefStep size c s { s with buf := b }
  | clearEnd (s k) : s.pc = .clear k → s.buf = [] → PrefStep size c s { s with pc := .join k }
  /-- prefetch.py:685-692 -/
  | join (s k) : s.pc = .join k → s.thr = some .exited → PrefStep size c s { s with thr := none, pc := .clearAgain k }
  /-- prefetch.py:694-697 -/
  | again (s k e b) : s.pc = .clearAgain k → s.buf = e :: b → PrefStep size c s { s with buf := b }
  | againEnd (s k) : s.pc = .clearAgain k → s.buf = [] → PrefStep size c s { s with pc := afterStop k }
  /-- prefetch.py:711: the parent's `set_state` entered, and left -/
  | setPar (s ck t) : s.pc = .setPar ck → c.setCall s.cs ck t → PrefStep size c s { s with cs := t, pc := .setting }
  | setRet (s t) : s.pc = .setting → c.setRet s.cs t → PrefStep size c s { s with cs := t, pc := .setGot }
  /-- prefetch.py:712 -/
  | setGet (s) : s.pc = .setGot →
      PrefStep size c s { s with cs := (c.get s.cs).1, state := (c.get s.cs).2, pc := .setDone }

/-- `ThreadPrefetchDatasetIterator` with buffer size `size` over `c` (transformations/prefetch.py:538-713).
`_step_zero_state` is taken from the parent when the object is made (prefetch.py:558-559). -/
def prefetchOver (size : Nat) (c : ConcIter α) : ConcIter α where
  S := PrefState c
  C := c.C
  init := { cs := (c.get c.init).1, state := (c.get c.init).2, buf := [], thr := none, flag := false, pc := .idle }
  step := PrefStep size c
  call := fun s t => s.pc = .idle ∧ t = { s with pc := .enter }
  ret := fun s r t => s.pc = .done r ∧ t = { s with pc := .idle }
  get := fun s => (s, s.state)
  setCall := fun s ck t => s.pc = .idle ∧ t = { s with pc := .stop (some ck) }
  setRet := fun s t => s.pc = .setDone ∧ t = { s with pc := .idle }

/-- `device_put` (grain/_src/python/experimental/device_put/device_put.py:21-48): a prefetch of the elements, the
transfer `put`, a prefetch of the transferred elements. -/
def devicePut (cpuBuffer deviceBuffer : Nat) (put : α → β) (c : ConcIter α) : ConcIter β :=
  prefetchOver deviceBuffer (transOver (mapTrans put) (prefetchOver cpuBuffer c))

/-! ### A user of the whole stack -/

/-- The object, where the user is, the calls still to be made, the checkpoints saved, the outcomes of `next` so far. -/
structure UserSys (c : ConcIter α) where
  st : c.S
  mode : CMode
  prog : List Op
  saved : List c.C
  outs : List (Option α)

/-- One step of the user or of any thread of the stack.  `fresh`: the process is lost with all its threads, and a
checkpoint is restored into a new object. -/
inductive UserStep (c : ConcIter α) : UserSys c → UserSys c → Prop
  | thread (s t) : c.step s.st t → UserStep c s { s with st := t }
  | next (s ops t) : s.mode = .idle → s.prog = .next :: ops → c.call s.st t →
      UserStep c s { s with st := t, mode := .next, prog := ops }
  | ret (s r t) : s.mode = .next → c.ret s.st r t →
      UserStep c s { s with st := t, mode := .idle, outs := s.outs ++ [r] }
  | save (s ops) : s.mode = .idle → s.prog = .save :: ops →
      UserStep c s { s with st := (c.get s.st).1, prog := ops, saved := s.saved ++ [(c.get s.st).2] }
  | restore (s k ops ck t) : s.mode = .idle → s.prog = .restore k :: ops → s.saved[k]? = some ck →
      c.setCall s.st ck t → UserStep c s { s with st := t, mode := .set, prog := ops }
  | fresh (s k ops ck t) : s.mode = .idle → s.prog = .fresh k :: ops → s.saved[k]? = some ck →
      c.setCall c.init ck t → UserStep c s { s with st := t, mode := .set, prog := ops }
  | setRet (s t) : s.mode = .set → c.setRet s.st t → UserStep c s { s with st := t, mode := .idle }

/-- Finitely many steps, in any order. -/
inductive UserRun (c : ConcIter α) : UserSys c → UserSys c → Prop
  | refl (s) : UserRun c s s
  | tail {s t u} : UserRun c s t → UserStep c t u → UserRun c s u

/-- The user before the first call. -/
def userInit (c : ConcIter α) (prog : List Op) : UserSys c :=
  { st := c.init, mode := .idle, prog := prog, saved := [], outs := [] }

/-- All calls made and returned. -/
def UserSys.finished {c : ConcIter α} (s : UserSys c) : Prop := s.mode = .idle ∧ s.prog = []

end Grain
