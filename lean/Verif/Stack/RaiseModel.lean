import Verif.Stack.Model
import Verif.Stack.RaiseSpec
/-
Thread prefetches and sequential transformations whose elements may raise.  The outcome of a `next` is an element, an
exception of an element or `StopIteration`: the iterators are those of Verif/Stack/Model.lean with outcomes `Py α`.

Simplifications: as in Verif/Stack/Model.lean, apart from the exceptions.
-/
namespace Grain
namespace Raise

/-- A sequential iterator (the models of Verif/Iter), with the exceptions of its elements as outcomes. -/
def ofIter (p : Iter α) : ConcIter (Py α) where
  S := p.S × Option (Option p.C)
  C := p.C
  init := (p.init, none)
  step := fun _ _ => False
  call := fun s t => s.2 = none ∧ t = (s.1, some none)
  ret := fun s r t => s.2 = some none ∧ t.2 = none ∧
    Ev (fun F => p.next F s.1 = some (t.1, match r with | some (.ok a) => .item a | some (.error e) => .fail e | none => .stop))
  get := fun s => (((p.get s.1).1, s.2), (p.get s.1).2)
  setCall := fun s c t => s.2 = none ∧ t = (s.1, some (some c))
  setRet := fun s t => ∃ c, s.2 = some (some c) ∧ t.2 = none ∧ Ev (fun F => p.set F s.1 c = some (t.1, none))

/-- `_MapDatasetIterator.__next__` (transformations/map.py:307-312) with a function that may raise: an exception of the
parent or of `f` leaves `__next__`. -/
def mapTrans (f : α → Py β) : Trans (Py α) (Py β) where
  L := Unit
  K := Unit
  l0 := ()
  start := fun _ => .inl ()
  resume := fun _ r =>
    match r with
    | some (.ok a) => .inr (some (f a), ())
    | some (.error e) => .inr (some (.error e), ())
    | none => .inr (none, ())

/-- `_MapWithIndexDatasetIterator.__next__`, `get_state`, `set_state` (transformations/map.py:403-420): the counter goes up
after `map_fn` has returned. -/
def mapIndexTrans (f : Nat → α → Py β) : Trans (Py α) (Py β) where
  L := Nat
  K := Nat
  l0 := 0
  start := fun i => .inl i
  resume := fun i r =>
    match r with
    | some (.ok a) =>
      match f i a with
      | .ok b => .inr (some (.ok b), i + 1)
      | .error e => .inr (some (.error e), i)
    | some (.error e) => .inr (some (.error e), i)
    | none => .inr (none, i)

/-- `_RandomMapDatasetIterator.__next__`, `get_state`, `set_state` (transformations/map.py:349-374): `_index_for_rng` is a
counter like that of `map_with_index`, which goes up after `map_fn` has returned (:363).  `f a j` is the user function called
with the generator of position `j`; process `procIndex` of `procCount` uses the positions
`procIndex + counter * procCount` (:356-359).  Elements are never `None` here. -/
def randomMapTrans (f : α → Nat → Py β) (procIndex procCount : Nat) : Trans (Py α) (Py β) :=
  mapIndexTrans (fun i a => f a (procIndex + i * procCount))

/-- `_LimitDatasetIterator.__next__`, `get_state`, `set_state` (transformations/limit.py:39-54): an exception of the parent
leaves `__next__` before the count goes up. -/
def limitTrans (count : Nat) : Trans (Py α) (Py α) where
  L := Nat
  K := Nat
  l0 := 0
  start := fun i => if i ≥ count then .inr (none, i) else .inl i
  resume := fun i r =>
    match r with
    | some (.ok a) => .inr (some (.ok a), i + 1)
    | some (.error e) => .inr (some (.error e), i)
    | none => .inr (none, i)

/-- `FilterDatasetIterator.__next__` (transformations/filter.py:166-187, without the thresholds on what is filtered out) with
a predicate that may raise. -/
def filterTrans (f : α → Py Bool) : Trans (Py α) (Py α) where
  L := Unit
  K := Unit
  l0 := ()
  start := fun _ => .inl ()
  resume := fun _ r =>
    match r with
    | some (.ok a) =>
      match f a with
      | .ok true => .inr (some (.ok a), ())
      | .ok false => .inl ()
      | .error e => .inr (some (.error e), ())
    | some (.error e) => .inr (some (.error e), ())
    | none => .inr (none, ())

/-- `_BatchDatasetIterator.__next__` (transformations/batch.py:300-312): only `StopIteration` of the parent is caught; any
other exception leaves `__next__`, and the values read so far are lost. -/
def batchTrans (b : Nat) (drop : Bool) : Trans (Py α) (Py (List α)) where
  L := Unit
  K := List α
  l0 := ()
  start := fun _ => .inl []
  resume := fun values r =>
    match r with
    | some (.ok a) => if values.length + 1 < b then .inl (values ++ [a]) else .inr (some (.ok (values ++ [a])), ())
    | some (.error e) => .inr (some (.error e), ())
    | none => if drop || values.isEmpty then .inr (none, ()) else .inr (some (.ok values), ())

/-! ### Thread prefetch -/

/-- What an `Exception` in the buffer is for the user: `none` is `StopIteration`. -/
def raised {α : Type} : Option Err → Option (Py α)
  | none => none
  | some e => some (.error e)

/-- Where the prefetch thread is in `_put_iterator_elements_in_buffer` (transformations/prefetch.py:510-524): at the test
of `should_stop`, before `iterator.__next__()`, inside it, before `iterator.get_state()`, before `buffer.put` of an
element with its state or of an exception, or finished. -/
inductive PrefPc (α C : Type) where
  | check
  | call
  | reading
  | got (a : α)
  | put (e : Except (Option Err) (α × C))
  | exited

/-- Where the user's thread is in `__next__`, `set_state` or in `_stop_prefetch` called by them
(transformations/prefetch.py:611-702).  The argument of the `_stop_prefetch` positions is what follows: raise the exception,
or restore the checkpoint. -/
inductive UserPc (α C : Type) where
  | idle
  | enter
  | take
  | sync
  | syncGot (a : α)
  | stop (k : Except (Option Err) C)
  | clear (k : Except (Option Err) C)
  | join (k : Except (Option Err) C)
  | clearAgain (k : Except (Option Err) C)
  | done (r : Option (Py α))
  | setPar (ck : C)
  | setting
  | setGot
  | setDone

/-- `ThreadPrefetchDatasetIterator` (transformations/prefetch.py:538-571): the parent, `_state`, `_buffer`,
`_prefetch_thread` (with its position), `_prefetch_should_stop`. -/
structure PrefState (c : ConcIter (Py α)) where
  cs : c.S
  state : c.C
  buf : List (Except (Option Err) (α × c.C))
  thr : Option (PrefPc α c.C)
  flag : Bool
  pc : UserPc α c.C

/-- What follows `_stop_prefetch` (prefetch.py:644-646, 699-700). -/
def afterStop {α C : Type} : Except (Option Err) C → UserPc α C
  | .error e => .done (raised e)
  | .ok ck => .setPar ck

/-- One step of some thread at or below a thread prefetch of buffer size `size`. -/
inductive PrefStep (size : Nat) (c : ConcIter (Py α)) : PrefState c → PrefState c → Prop
  /-- any thread below -/
  | below (s t) : c.step s.cs t → PrefStep size c s { s with cs := t }
  /-- prefetch.py:518 -/
  | check (s) : s.thr = some .check → PrefStep size c s { s with thr := some (if s.flag then .exited else .call) }
  /-- prefetch.py:519, `iterator.__next__()` entered -/
  | call (s t) : s.thr = some .call → c.call s.cs t → PrefStep size c s { s with cs := t, thr := some .reading }
  /-- prefetch.py:519, and left with an element -/
  | item (s a t) : s.thr = some .reading → c.ret s.cs (some (.ok a)) t →
      PrefStep size c s { s with cs := t, thr := some (.got a) }
  /-- prefetch.py:522-523, and left with an exception, `StopIteration` or another -/
  | over (s e t) : s.thr = some .reading → c.ret s.cs (raised e) t →
      PrefStep size c s { s with cs := t, thr := some (.put (.error e)) }
  /-- prefetch.py:520 -/
  | getState (s a) : s.thr = some (.got a) →
      PrefStep size c s { s with cs := (c.get s.cs).1, thr := some (.put (.ok (a, (c.get s.cs).2))) }
  /-- prefetch.py:521: `buffer.put` waits until there is room -/
  | put (s a) : s.thr = some (.put (.ok a)) → s.buf.length < size →
      PrefStep size c s { s with buf := s.buf ++ [.ok a], thr := some .check }
  /-- prefetch.py:523: after an exception the thread ends -/
  | putStop (s e) : s.thr = some (.put (.error e)) → s.buf.length < size →
      PrefStep size c s { s with buf := s.buf ++ [.error e], thr := some .exited }
  /-- prefetch.py:575-601, 614-615: `start_prefetch` -/
  | start (s) : s.pc = .enter → 0 < size →
      PrefStep size c s { s with
        thr := some (s.thr.getD .check), flag := if s.thr.isSome then s.flag else false, pc := .take }
  /-- prefetch.py:616: `buffer.get` waits until there is an entry; 647, `_state` is replaced -/
  | take (s a ck b) : s.pc = .take → s.buf = .ok (a, ck) :: b →
      PrefStep size c s { s with buf := b, state := ck, pc := .done (some (.ok a)) }
  /-- prefetch.py:644-646: an exception from the buffer; `_state` is not replaced -/
  | takeStop (s e b) : s.pc = .take → s.buf = .error e :: b → PrefStep size c s { s with buf := b, pc := .stop (.error e) }
  /-- prefetch.py:622-624: buffer size 0, the parent is called by the user's thread -/
  | sync (s t) : s.pc = .enter → size = 0 → s.buf = [] → c.call s.cs t →
      PrefStep size c s { s with cs := t, pc := .sync }
  | syncItem (s a t) : s.pc = .sync → c.ret s.cs (some (.ok a)) t → PrefStep size c s { s with cs := t, pc := .syncGot a }
  | syncOver (s e t) : s.pc = .sync → c.ret s.cs (raised e) t → PrefStep size c s { s with cs := t, pc := .done (raised e) }
  /-- prefetch.py:625, 647 -/
  | syncState (s a) : s.pc = .syncGot a →
      PrefStep size c s { s with cs := (c.get s.cs).1, state := (c.get s.cs).2, pc := .done (some (.ok a)) }
  /-- prefetch.py:672-673: `_stop_prefetch` without a thread -/
  | stopNone (s k) : s.pc = .stop k → s.thr = none → PrefStep size c s { s with pc := afterStop k }
  /-- prefetch.py:675 -/
  | stopSome (s k) : s.pc = .stop k → s.thr.isSome → PrefStep size c s { s with flag := true, pc := .clear k }
  /-- prefetch.py:662-667: `_clear_buffer`, one entry at a time -/
  | clear (s k e b) : s.pc = .clear k → s.buf = e :: b → PrefStep size c s { s with buf := b }
  | clearEnd (s k) : s.pc = .clear k → s.buf = [] → PrefStep size c s { s with pc := .join k }
  /-- prefetch.py:685-692 -/
  | join (s k) : s.pc = .join k → s.thr = some .exited → PrefStep size c s { s with thr := none, pc := .clearAgain k }
  /-- prefetch.py:694-697 -/
  | again (s k e b) : s.pc = .clearAgain k → s.buf = e :: b → PrefStep size c s { s with buf := b }
  | againEnd (s k) : s.pc = .clearAgain k → s.buf = [] → PrefStep size c s { s with pc := afterStop k }
  /-- prefetch.py:711: the parent's `set_state` entered, and left -/
  | setPar (s ck t) : s.pc = .setPar ck → c.setCall s.cs ck t → PrefStep size c s { s with cs := t, pc := .setting }
  | setRet (s t) : s.pc = .setting → c.setRet s.cs t → PrefStep size c s { s with cs := t, pc := .setGot }
  /-- prefetch.py:712 -/
  | setGet (s) : s.pc = .setGot →
      PrefStep size c s { s with cs := (c.get s.cs).1, state := (c.get s.cs).2, pc := .setDone }

/-- `ThreadPrefetchDatasetIterator` with buffer size `size` over `c` (transformations/prefetch.py:538-713). -/
def prefetchOver (size : Nat) (c : ConcIter (Py α)) : ConcIter (Py α) where
  S := PrefState c
  C := c.C
  init := { cs := (c.get c.init).1, state := (c.get c.init).2, buf := [], thr := none, flag := false, pc := .idle }
  step := PrefStep size c
  call := fun s t => s.pc = .idle ∧ t = { s with pc := .enter }
  ret := fun s r t => s.pc = .done r ∧ t = { s with pc := .idle }
  get := fun s => (s, s.state)
  setCall := fun s ck t => s.pc = .idle ∧ t = { s with pc := .stop (.ok ck) }
  setRet := fun s t => s.pc = .setDone ∧ t = { s with pc := .idle }

end Raise
end Grain
