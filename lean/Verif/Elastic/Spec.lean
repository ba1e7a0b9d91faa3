import Verif.Elastic.Model
import Verif.Multiprocess.Props
/-
Specification of elastic reading.
-/
namespace Grain

/-- The elements of dataset `d` among elements tagged with their datasets. -/
def ofDataset (d : Nat) (t : List (Nat × Py α)) : List (Py α) := (t.filter (fun q => q.1 = d)).map (·.2)

/-- All elements read by `hosts` hosts, `t i` by host `i`, tagged with their datasets. -/
def phaseReads (hosts : Nat) (t : Nat → List (Nat × Py α)) : List (Nat × Py α) := (List.range hosts).flatMap t

/-- What `m` calls of `next` return: the elements `t`, then `StopIteration`. -/
def asResults (m : Nat) (t : List (Nat × Py α)) : List (Res α) :=
  t.map (fun q => match q.2 with
    | .ok a => .item a
    | .error e => .fail e) ++ List.replicate (m - t.length) .stop

/-- Whether the checkpoint has dataset `d` as not used up. -/
def unfinished (dir : Nat → Option (ShardState C)) (d : Nat) : Bool :=
  match dir d with
  | some s => !s.exhausted
  | none => false

/-- The checkpoints for which restoring with `hosts` hosts is right: each used-up dataset comes before one of the datasets its host
opens first, i.e. before an unfinished dataset of that host with less than `cycle` unfinished ones before it. -/
def UsedUpFirst (cycle hosts : Nat) (dir : Nat → Option (ShardState C)) : Prop :=
  ∀ e s, dir e = some s → s.exhausted = true → ∃ a, e < a ∧ a % hosts = e % hosts ∧ unfinished dir a = true ∧
    ((List.range a).filter (fun b => b % hosts = e % hosts ∧ unfinished dir b = true)).length < cycle

/-! ### Elastic map iterators -/

/-- Global batch number `q` from the global index `g` on: the next `b` elements after `g + q * b`. -/
def globalBatchAt (el : List α) (g b q : Nat) : List α := (el.drop (g + q * b)).take b

/-- What a phase that starts at global index `g` has to give: in step `q`, shard `i` gets every `shards`-th element of global batch
number `q`, starting with number `i`; afterwards all shards have the same checkpoint. -/
def mapPhaseSpec (mk : List α → β) (el : List α) (g : Nat) (ph : MapPhase) : List (List (Res β) × Nat) :=
  (List.range ph.shards).map (fun i =>
    ((List.range ph.steps).map (fun q => .item (mk (everyNth ph.shards i (globalBatchAt el g ph.globalBatch q)))),
      g + ph.steps * ph.globalBatch))

def mapHistorySpec (mk : List α → β) (el : List α) : Nat → List MapPhase → List (List (List (Res β) × Nat))
  | _, [] => []
  | g, ph :: phases => mapPhaseSpec mk el g ph :: mapHistorySpec mk el (g + ph.steps * ph.globalBatch) phases

/-- The global batches of all phases, one after the other. -/
def allGlobalBatches (el : List α) : Nat → List MapPhase → List (List α)
  | _, [] => []
  | g, ph :: phases =>
    (List.range ph.steps).map (globalBatchAt el g ph.globalBatch) ++ allGlobalBatches el (g + ph.steps * ph.globalBatch) phases

end Grain
