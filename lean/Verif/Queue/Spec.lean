import Verif.Queue.Model
/-
What is expected of the queues (C43).
-/
namespace Grain

/-- No thread is in the middle of an operation: every thread is outside the queue or waits in `put` for room. -/
def VqState.Settled (s : VqState α) : Prop := ∀ pc ∈ s.pcs, pc = .idle ∨ ∃ v, pc = .waiting v

/-- Some thread waits in `put` for room. -/
def VqState.Blocked (s : VqState α) : Prop := ∃ v, VqPc.waiting v ∈ s.pcs

/-- The threads that are inside an operation carry on; nobody calls `put`, `get` or `set_max_size` and no time runs out. -/
def VqStep.CarriesOn : VqStep α → Prop
  | .check _ _ => True
  | .append _ => True
  | .notify _ _ => True
  | _ => False

/-- The items process `p` put, in the order of a list of puts by all processes. -/
def fromProc (p : Nat) (l : List (Nat × α)) : List α := (l.filter (fun q => q.1 = p)).map (·.2)

/-- In the history `as` from `s`, `set_max_size` is never called with a higher limit while items that an earlier lower limit was
meant to remove are still there. -/
def GrowsWhenSettled (proc : Nat → Nat) (s : MqState α) : List (MqStep α) → Prop
  | [] => True
  | a :: as =>
    (∀ n, a = .setLimit n → s.limit < n → s.pending = 0) ∧ ∀ s', mqStep proc s a = some s' → GrowsWhenSettled proc s' as

end Grain
