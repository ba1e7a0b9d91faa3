import Verif.Py
import Mathlib.Data.List.Basic
/-
`run_in_parallel`, core/parallel.py: calls of a function on a thread pool, as a transition system whose steps may be taken in
any order.
-/
namespace Grain

/-- State of one `concurrent.futures.Future`. -/
inductive Fut (β : Type) where
  | pending
  | running
  | done (r : Except Err β)
  | cancelled
  deriving DecidableEq, Repr

/-- Where the calling thread is, core/parallel.py:55-72. -/
inductive ParMain (β : Type) where
  /-- in the loop that submits the calls, lines 57-59 -/
  | submitting
  /-- in the loop over completed calls, lines 61-70; the calls already looked at -/
  | collecting (taken : List Nat)
  /-- leaving the `with` block with an exception, which waits for the running calls (`shutdown(wait=True)`) -/
  | raising (e : Err)
  /-- the function has returned or raised -/
  | finished (r : Except Err (List β))
  deriving DecidableEq, Repr

/-- The whole state; `started` is a record, for the statements, of the calls made so far, the latest first. -/
structure ParState (β : Type) where
  futs : List (Fut β)
  main : ParMain β
  started : List Nat
  deriving Repr

/-- What the call of the function number `i` does (`function(**list_of_kwargs[i])`), how many there are, how many threads, and
which exceptions are true when used as a condition (`if completed.exception()`, line 64; all but those that define `__bool__`
or `__len__`). -/
structure ParJob (β : Type) where
  n : Nat
  call : Nat → Except Err β
  workers : Nat
  truthy : Err → Bool

/-- Steps of the threads. -/
inductive ParAct where
  /-- the calling thread submits the next call or goes on to collecting -/
  | submit
  /-- an idle thread of the pool takes the first pending call from the queue -/
  | start
  /-- the call `i` returns or raises -/
  | finish (i : Nat)
  /-- `as_completed` hands out the completed call `i`; which one comes first among the completed is left open -/
  | take (i : Nat)
  /-- the `with` block is left -/
  | exit
  deriving DecidableEq, Repr

/-- The calls being run. -/
def ParState.running (s : ParState β) : Nat := (s.futs.filter (fun f => match f with | .running => true | _ => false)).length

/-- `ThreadPoolExecutor` starts pending calls in the order of submission. -/
def firstPending : List (Fut β) → Option Nat
  | [] => none
  | .pending :: _ => some 0
  | _ :: fs => (firstPending fs).map (· + 1)

/-- `future.cancel()`: only a call that has not been started can be cancelled. -/
def Fut.cancel : Fut β → Fut β
  | .pending => .cancelled
  | f => f

/-- `f.result()` of a completed call, line 72 (a call not completed would be waited for; `CancelledError` is not met). -/
def Fut.result : Fut β → Except Err β
  | .done r => r
  | _ => .error .runtimeError

/-- One step; `none`: not possible now. -/
def ParJob.step (j : ParJob β) (s : ParState β) : ParAct → Option (ParState β)
  | .submit =>
    match s.main with
    | .submitting =>
      if s.futs.length < j.n then some { s with futs := s.futs ++ [.pending] }
      else some { s with main := .collecting [] }
    | _ => none
  | .start =>
    if s.running < j.workers then
      match firstPending s.futs with
      | some i => some { s with futs := s.futs.set i .running, started := i :: s.started }
      | none => none
    else none
  | .finish i =>
    match s.futs[i]? with
    | some .running => some { s with futs := s.futs.set i (.done (j.call i)) }
    | _ => none
  | .take i =>
    match s.main, s.futs[i]? with
    | .collecting taken, some (.done r) =>
      if i ∈ taken then none
      else match r with
        | .error e => if j.truthy e then some { s with futs := s.futs.map Fut.cancel, main := .raising e }
                      else some { s with main := .collecting (i :: taken) }
        | .ok _ => some { s with main := .collecting (i :: taken) }
    | _, _ => none
  | .exit =>
    match s.main with
    | .collecting taken =>
      if taken.length = s.futs.length ∧ s.running = 0 then some { s with main := .finished (s.futs.mapM Fut.result) } else none
    | .raising e => if s.running = 0 then some { s with main := .finished (.error e) } else none
    | _ => none

/-- `run_in_parallel` is called, core/parallel.py:46-56. -/
def ParJob.init (j : ParJob β) : ParState β :=
  if j.workers < 1 then ⟨[], .finished (.error .valueError), []⟩ else ⟨[], .submitting, []⟩

/-- A run: any sequence of possible steps. -/
def ParJob.run (j : ParJob β) : ParState β → List ParAct → Option (ParState β)
  | s, [] => some s
  | s, a :: as => do let s' ← j.step s a; j.run s' as

end Grain
