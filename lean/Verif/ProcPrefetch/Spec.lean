import Verif.ThreadPrefetch.Spec
/-
What a user of a process-prefetched iterator sees.
-/
namespace Grain

/-- The user's view: the position in the stream; the position right after the last element received (or restored to, or
moved to), which is what `get_state` saves and `get_next_index` returns; whether an earlier call of `next` raised (then `next` raises `StopIteration` until a state
is restored); whether `close` was called; the positions of the saved states. -/
structure PView where
  pos : Nat
  last : Nat
  over : Bool
  closed : Bool
  saved : List Nat

def PView.start : PView := { pos := 0, last := 0, over := false, closed := false, saved := [] }

/-- One call on the ideal iterator over the stream `x`: the new view and the outcome, if the call has one; `none` if the
call makes no sense: the saved state asked for does not exist, or an index call for a position `i` without `idx i`. -/
def viewStep (x : Nat → Option (Py α)) (idx : Nat → Bool) (v : PView) : TOp → Option (PView × List (Res α ⊕ Int))
  | .next =>
    if v.over then some (v, [.inl .stop])
    else if v.closed then some (v, [.inl (.fail .valueError)])
    else match x v.pos with
      | some (.ok a) => some ({ v with pos := v.pos + 1, last := v.pos + 1 }, [.inl (.item a)])
      | some (.error e) => some ({ v with over := true }, [.inl (.fail e)])
      | none => some ({ v with over := true }, [.inl .stop])
  | .save => some ({ v with saved := v.saved ++ [v.last] }, [])
  | .restore k => (v.saved[k]?).map fun q => ({ v with pos := q, last := q, over := false }, [])
  | .fresh k => (v.saved[k]?).map fun q => ({ v with pos := q, last := q, over := false, closed := false }, [])
  | .start => if v.closed then some (v, [.inl (.fail .valueError)]) else some (v, [])
  | .close => some ({ v with closed := true }, [])
  | .index => if idx v.last then some (v, [.inr v.last]) else none
  | .setIndex i => if idx i then some ({ v with pos := i, last := i, over := false }, []) else none

/-- All outcomes of a sequence of calls. -/
def viewRun (x : Nat → Option (Py α)) (idx : Nat → Bool) : PView → List TOp → Option (List (Res α ⊕ Int))
  | _, [] => some []
  | v, op :: ops =>
    match viewStep x idx v op with
    | some (v', o) => (viewRun x idx v' ops).map (o ++ ·)
    | none => none

/-- The same as a relation, where in addition, if `crashes`, any `next` that would read may report the failure of the
worker process (`RuntimeError`) instead: `ViewRun x idx crashes v ops outs v'`. -/
inductive ViewRun (x : Nat → Option (Py α)) (idx : Nat → Bool) (crashes : Bool) (v : PView) : List TOp → List (Res α ⊕ Int) → PView → Prop where
  | nil : ViewRun x idx crashes v [] [] v
  | call {ops outs w op w' o} : ViewRun x idx crashes v ops outs w → viewStep x idx w op = some (w', o) →
      ViewRun x idx crashes v (ops ++ [op]) (outs ++ o) w'
  | crash {ops outs w} : crashes = true → ViewRun x idx crashes v ops outs w → w.over = false → w.closed = false →
      ViewRun x idx crashes v (ops ++ [.next]) (outs ++ [.inl (.fail .runtimeError)]) { w with over := true }

/-- Every call of the program makes sense, whatever the outcomes of the calls before it were. -/
def callsOk (x : Nat → Option (Py α)) (idx : Nat → Bool) (crashes : Bool) (prog : List TOp) : Prop :=
  ∀ done op rest outs v, prog = done ++ op :: rest → ViewRun x idx crashes .start done outs v → ∃ r, viewStep x idx v op = some r

/-- Sufficient for it: every restore refers to a state saved earlier (`n` states have been saved already), and there are no
index calls. -/
def restoresOk : Nat → List TOp → Prop
  | _, [] => True
  | n, .save :: ops => restoresOk (n + 1) ops
  | n, .restore k :: ops => k < n ∧ restoresOk n ops
  | n, .fresh k :: ops => k < n ∧ restoresOk n ops
  | _, .index :: _ => False
  | _, .setIndex _ :: _ => False
  | n, _ :: ops => restoresOk n ops

end Grain
