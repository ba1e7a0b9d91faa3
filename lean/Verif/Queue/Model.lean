import Verif.Py
import Verif.ListUtil
/-
Model of the variable size queues, grain/_src/python/ipc/variable_size_queue.py.

Both queues are transition systems: any number of threads, any interleaving.  A step is a part of a method that no other thread
can observe from within.
-/
namespace Grain

/-! ### VariableSizeQueue (threads) -/

/-- Where a thread is.  `trying v` and `ready v` are inside `put(v)`, before and after the test of the size; `waiting v` is in
`self._cond.wait`; `got` is inside `get`, after the item was taken and before `notify`. -/
inductive VqPc (α : Type) where
  | idle
  | trying (v : α)
  | ready (v : α)
  | waiting (v : α)
  | got
  deriving DecidableEq

/-- `VariableSizeQueue`, variable_size_queue.py:115-175.  `lock` is the thread that holds `_cond` between the test of the size and
the end of `put` (`queue.Queue` has its own lock, so items can be taken meanwhile).  `added` and `taken` record what `put` added
and `get` returned so far, `atSet` the number of items when the limit was last set; they do not influence anything. -/
structure VqState (α : Type) where
  items : List α
  limit : Nat
  lock : Option Nat
  pcs : List (VqPc α)
  added : List α
  taken : List α
  atSet : Nat

/-- A new queue, variable_size_queue.py:118-121, and `n` threads. -/
def vqInit (limit n : Nat) : VqState α :=
  { items := [], limit := limit, lock := none, pcs := List.replicate n .idle, added := [], taken := [], atSet := 0 }

/-- What threads do: variable_size_queue.py:118-175. -/
inductive VqStep (α : Type) where
  | put (i : Nat) (v : α)                   -- thread `i` calls `put(v)`
  | check (i : Nat) (giveUp : Bool)         -- the test of the size; `giveUp`: `block=False` or the deadline has passed
  | append (i : Nat)                        -- `super().put`, and `_cond` is released
  | timeout (i : Nat)                       -- `wait` returns because the time is over
  | take (i : Nat)                          -- `super().get` returns
  | notify (i : Nat) (woken : Option Nat)   -- `notify` in `get`, waking one of the waiting threads if there are any
  | setLimit (n : Nat)                      -- `set_max_size`

/-- Is the thread in `self._cond.wait`? -/
def VqPc.isWaiting : VqPc α → Bool
  | .waiting _ => true
  | _ => false

/-- `notify_all`. -/
def VqPc.wake : VqPc α → VqPc α
  | .waiting v => .trying v
  | pc => pc

/-- One step; `none`: not possible in this state.

* `put`: variable_size_queue.py:128-169.  After a `wait` the size is tested again (156-168; when `wait` timed out the test is
  the one at 165).
* `get`: variable_size_queue.py:171-175.  Taking an item is only possible when there is one; `queue.Empty` changes nothing.
* `set_max_size`: variable_size_queue.py:123-126. -/
def vqStep (s : VqState α) : VqStep α → Option (VqState α)
  | .put i v =>
    match s.pcs[i]? with
    | some .idle => some { s with pcs := s.pcs.set i (.trying v) }
    | _ => none
  | .check i giveUp =>
    match s.pcs[i]?, s.lock with
    | some (.trying v), none =>
      if s.items.length ≥ s.limit then some { s with pcs := s.pcs.set i (if giveUp then .idle else .waiting v) }
      else some { s with pcs := s.pcs.set i (.ready v), lock := some i }
    | _, _ => none
  | .append i =>
    match s.pcs[i]? with
    | some (.ready v) =>
      if s.lock = some i then
        some { s with items := s.items ++ [v], added := s.added ++ [v], pcs := s.pcs.set i .idle, lock := none }
      else none
    | _ => none
  | .timeout i =>
    match s.pcs[i]? with
    | some (.waiting v) => some { s with pcs := s.pcs.set i (.trying v) }
    | _ => none
  | .take i =>
    match s.pcs[i]?, s.items with
    | some .idle, v :: rest => some { s with items := rest, taken := s.taken ++ [v], pcs := s.pcs.set i .got }
    | _, _ => none
  | .notify i woken =>
    match s.pcs[i]?, s.lock with
    | some .got, none =>
      match woken with
      | none => if s.pcs.any VqPc.isWaiting then none else some { s with pcs := s.pcs.set i .idle }
      | some j =>
        match s.pcs[j]? with
        | some (.waiting v) => some { s with pcs := (s.pcs.set i .idle).set j (.trying v) }
        | _ => none
    | _, _ => none
  | .setLimit n =>
    match s.lock with
    | none => some { s with limit := n, pcs := s.pcs.map VqPc.wake, atSet := s.items.length }
    | some _ => none

/-- Several steps. -/
def vqRun (s : VqState α) : List (VqStep α) → Option (VqState α)
  | [] => some s
  | a :: as => (vqStep s a).bind (fun s => vqRun s as)

/-! ### VariableSizeMultiprocessingQueue (processes) -/

/-- Where a thread is: `held v` is inside `put(v)`, after the semaphore was acquired; `got` is inside `get`, after the item was
received and before the semaphore is released. -/
inductive MqPc (α : Type) where
  | idle
  | held (v : α)
  | got
  deriving DecidableEq

/-- `VariableSizeMultiprocessingQueue`, variable_size_queue.py:25-112, on top of `multiprocessing.queues.Queue`: `put` acquires the
semaphore (which bounds the size) and appends to a buffer of the process, from where a thread of the process feeds the pipe.
`resizing = some k`: `set_max_size` holds the resize lock and has `k` attempts left to lower the semaphore (77-81).  `put` and
`taken` record what was put (with the process that did) and received so far; `atSet` is the number of items when `set_max_size`
last returned. -/
structure MqState (α : Type) where
  sem : Nat
  limit : Nat
  pending : Nat
  resizing : Option Nat
  bufs : List (List α)
  pipe : List (Nat × α)
  pcs : List (MqPc α)
  put : List (Nat × α)
  taken : List (Nat × α)
  atSet : Nat

/-- A new queue, variable_size_queue.py:28-37, used by `threads` threads in `procs` processes. -/
def mqInit (limit procs threads : Nat) : MqState α :=
  { sem := limit, limit := limit, pending := 0, resizing := none, bufs := List.replicate procs [], pipe := [],
    pcs := List.replicate threads .idle, put := [], taken := [], atSet := 0 }

/-- What threads and feeder threads do: variable_size_queue.py:28-112. -/
inductive MqStep (α : Type) where
  | acquire (i : Nat) (v : α)       -- thread `i` calls `put(v)` and acquires the semaphore
  | enqueue (i : Nat)               -- the item gets into the buffer of the process
  | feed (p : Nat)                  -- the feeder thread of process `p` writes an item to the pipe
  | recv (i : Nat)                  -- `_recv_bytes` in `get`
  | release (i : Nat)               -- the end of `get`
  | setLimit (n : Nat)              -- `set_max_size`, up to the attempts to lower the semaphore
  | shrink                          -- one of these attempts

/-- Is the thread outside `put` and `get`? -/
def MqPc.isIdle : MqPc α → Bool
  | .idle => true
  | _ => false

/-- Number of items the queue holds: from acquiring the semaphore to the end of `get`. -/
def MqState.used (s : MqState α) : Nat :=
  (s.pcs.filter (fun pc => !pc.isIdle)).length + (s.bufs.map List.length).sum + s.pipe.length

/-- One step; `none`: not possible in this state.  `proc i` is the process of thread `i`.

* `put` is inherited from `multiprocessing.queues.Queue` (`queue.Full` changes nothing).
* `get`: variable_size_queue.py:83-112; the `with self._resize_lock` at 107 waits until no resize is going on.
* `set_max_size`: variable_size_queue.py:55-81.  Raising the limit is one step (the releases of the semaphore only add up). -/
def mqStep (proc : Nat → Nat) (s : MqState α) : MqStep α → Option (MqState α)
  | .acquire i v =>
    match s.pcs[i]? with
    | some .idle => if s.sem > 0 then some { s with sem := s.sem - 1, pcs := s.pcs.set i (.held v) } else none
    | _ => none
  | .enqueue i =>
    match s.pcs[i]?, s.bufs[proc i]? with
    | some (.held v), some b =>
      some { s with bufs := s.bufs.set (proc i) (b ++ [v]), put := s.put ++ [(proc i, v)], pcs := s.pcs.set i .idle }
    | _, _ => none
  | .feed p =>
    match s.bufs[p]? with
    | some (v :: b) => some { s with bufs := s.bufs.set p b, pipe := s.pipe ++ [(p, v)] }
    | _ => none
  | .recv i =>
    match s.pcs[i]?, s.pipe with
    | some .idle, v :: rest => some { s with pipe := rest, taken := s.taken ++ [v], pcs := s.pcs.set i .got }
    | _, _ => none
  | .release i =>
    match s.pcs[i]?, s.resizing with
    | some .got, none =>
      if s.pending > 0 then some { s with pending := s.pending - 1, pcs := s.pcs.set i .idle }
      else some { s with sem := s.sem + 1, pcs := s.pcs.set i .idle }
    | _, _ => none
  | .setLimit n =>
    match s.resizing with
    | some _ => none
    | none =>
      if n > s.limit then some { s with sem := s.sem + (n - s.limit), limit := n, atSet := s.used }
      else if n < s.limit then some { s with limit := n, pending := s.pending + (s.limit - n), resizing := some (s.limit - n) }
      else some { s with atSet := s.used }
  | .shrink =>
    match s.resizing with
    | none => none
    | some 0 => some { s with resizing := none, atSet := s.used }
    | some (k + 1) =>
      if s.sem > 0 then some { s with sem := s.sem - 1, pending := s.pending - 1, resizing := some k }
      else some { s with resizing := none, atSet := s.used }

/-- Several steps. -/
def mqRun (proc : Nat → Nat) (s : MqState α) : List (MqStep α) → Option (MqState α)
  | [] => some s
  | a :: as => (mqStep proc s a).bind (fun s => mqRun proc s as)

end Grain
