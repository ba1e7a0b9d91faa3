import Verif.Float.Model
/-
The execution summary: `grain/_src/python/dataset/stats.py` and `stats_utils.py`.  Below `ST` is stats.py and `SU` is
stats_utils.py.  Not modelled: the printed table, `output_spec`, the histograms and the `int32`/`int64` limits of the fields.
-/
namespace Grain

/-- `ExecutionSummary.Node`, grain/proto/execution_summary.proto:6-43 (without `output_spec`).  Times are not negative:
`time.perf_counter_ns` never goes back. -/
structure SumNode where
  id : Nat
  name : String
  inputs : List Nat
  waitRatio : ℚ
  totalNs : Nat
  minNs : Nat
  maxNs : Nat
  produced : Nat
  isOutput : Bool
  isPrefetch : Bool
  bytesConsumed : Nat
  bytesProduced : Nat
deriving DecidableEq

/-- A message whose fields are not set. -/
def SumNode.empty : SumNode := ⟨0, "", [], 0, 0, 0, 0, 0, false, false, 0, 0⟩

/-- `ExecutionSummary`: the map field `nodes`, execution_summary.proto:45.  `keys` in the order of insertion (simplification: the
order in which a protobuf map is gone through is not specified); a key that is not there reads as an empty message
(simplification: reading it would also insert it). -/
structure Summary where
  keys : List Nat
  node : Nat → SumNode

/-- A summary without nodes. -/
def Summary.empty : Summary := ⟨[], fun _ => .empty⟩

/-- Writing to `nodes[k]`. -/
def Summary.put (s : Summary) (k : Nat) (n : SumNode) : Summary :=
  ⟨if k ∈ s.keys then s.keys else s.keys ++ [k], Function.update s.node k n⟩

/-! ### Wait time ratios -/

/-- `_get_nodes_before_prefetch`, ST:124-137.  The stack is a list with its top first. -/
def Summary.before (s : Summary) : Nat → List Nat → List Nat → Option (List Nat)
  | 0, _, _ => none
  | _ + 1, [], acc => some acc
  | n + 1, id :: stack, acc =>
    s.before n (if (s.node id).isPrefetch then stack else (s.node id).inputs.reverse ++ stack) (acc ++ [id])

/-- `_find_aggregated_processing_time`, ST:140-147. -/
def Summary.aggregated (s : Summary) (ids : List Nat) : Nat := (ids.map (fun id => (s.node id).totalNs)).sum

/-- `round(x, 4)`: the nearest decimal number with four places (ties to even; CPython rounds the exact value of the float), as
a float. -/
def round4 (x : ℚ) : ℚ := fl (roundEven (x * 10000) / 10000)

/-- The loop over the inputs, ST:173-193.  `prefetch_factor` and `aggregated_wait_time_ns` keep the values assigned in the body. -/
def ratioLoop (compute : Summary → Nat → Nat → ℚ → Option Summary) (F id : Nat) :
    List Nat → Summary → Nat → ℚ → Option Summary
  | [], s, _, _ => some s
  | i :: is, s, agg, factor =>
    if (s.node id).isPrefetch then do
      let factor := (s.node id).waitRatio
      let ids ← s.before F [i] []
      let agg := s.aggregated ids
      let s := s.put id { s.node id with waitRatio := 0 }
      let s ← compute s i agg factor
      ratioLoop compute F id is s agg factor
    else do
      let s ← compute s i agg factor
      ratioLoop compute F id is s agg factor

/-- `_compute_wait_time_ratio`, ST:150-193. -/
def computeRatio (F : Nat) : Nat → Summary → Nat → Nat → ℚ → Option Summary
  | 0, _, _, _, _ => none
  | n + 1, s, id, agg, factor =>
    if agg = 0 then some s
    else
      let s := s.put id { s.node id with waitRatio := round4 (fl (factor * fl ((s.node id).totalNs / agg))) }
      ratioLoop (computeRatio F n) F id (s.node id).inputs s agg factor

/-- `_populate_wait_time_ratio`, ST:196-204. -/
def populateRatio (F : Nat) (s : Summary) : Option Summary := do
  let ids ← s.before F [0] []
  computeRatio F F s 0 (s.aggregated ids) 1

/-! ### Summaries of workers and of interleaved datasets -/

/-- The body of the loop of `merge_execution_summaries`, SU:113-134. -/
def mergeNode (src dst : SumNode) : SumNode :=
  { dst with
    id := src.id
    name := src.name
    isOutput := src.isOutput
    inputs := src.inputs
    minNs := min dst.minNs src.minNs
    maxNs := max dst.maxNs src.maxNs
    totalNs := dst.totalNs + src.totalNs
    produced := dst.produced + src.produced
    bytesProduced := dst.bytesProduced + src.bytesProduced
    bytesConsumed := dst.bytesConsumed + src.bytesConsumed }

/-- `merge_execution_summaries`, SU:106-135. -/
def mergeSummaries (src dst : Summary) : Summary :=
  src.keys.foldl (fun s k => s.put k (mergeNode (src.node k) (s.node k))) dst

/-- The loops of `_get_merged_summary_from_workers`, ST:1036-1058, and `_get_merged_summary`, ST:1101-1120: the summaries one
after the other. -/
def mergeAllSummaries (l : List Summary) : Summary := l.foldl mergeSummaries .empty

/-- `update_node_ids_with_offset`, SU:137-146. -/
def offsetNode (k : Nat) (n : SumNode) : SumNode := { n with id := n.id + k, inputs := n.inputs.map (· + k) }

/-- `get_complete_summary`, SU:160-189. -/
def completeSummary (main workers : Summary) (numMain : Nat) : Summary :=
  let nodes := workers.keys.map (fun k => offsetNode numMain (workers.node k))
  let outputs := nodes.filter (·.isOutput)
  let root := numMain - 1
  let main := main.put root { main.node root with inputs := (main.node root).inputs ++ outputs.map (·.id)
                                                  bytesConsumed := (outputs.map (·.bytesProduced)).sum }
  nodes.foldl (fun s n => s.put n.id { n with isOutput := false }) main

/-! ### The statistics objects -/

/-- What a statistics object has recorded (`_ExecutionStats._summary`, ST:843-846) and its configuration. -/
structure NodeStats where
  name : String
  totalNs : Nat
  minNs : Nat
  maxNs : Nat
  produced : Nat
  isOutput : Bool
  isPrefetch : Bool
  bytesConsumed : Nat
  bytesProduced : Nat
deriving DecidableEq

/-- The node written by `_build_execution_summary`, ST:926-933. -/
def NodeStats.node (o : NodeStats) (id : Nat) : SumNode :=
  ⟨id, o.name, [], 0, o.totalNs, o.minNs, o.maxNs, o.produced, o.isOutput, o.isPrefetch, o.bytesConsumed, o.bytesProduced⟩

mutual
/-- Statistics objects with their parents: `_ExecutionStats`, `_MPPrefetchExecutionStats` (with the last summaries received from
the workers; its `parents` are empty, T/process_prefetch.py:417-421) and `_InterleaveExecutionStats`. -/
inductive StatsObj where
  | plain (own : NodeStats) (parents : StatsObjs)
  | workers (own : NodeStats) (received : List Summary)
  | interleave (own : NodeStats) (parents : StatsObjs)
/-- The parents of a statistics object. -/
inductive StatsObjs where
  | nil
  | cons (p : StatsObj) (ps : StatsObjs)
end

mutual
/-- `_build_execution_summary`: ST:919-941 (plain), ST:1060-1087 (workers), ST:1122-1151 (interleave; when the parents have
different numbers of nodes, the nodes before the interleave are left out). -/
def StatsObj.build (F : Nat) : StatsObj → Summary → Nat → Option (Summary × Nat)
  | .plain own ps, s, k => ps.build F k (s.put k (own.node k)) k
  | .workers own received, s, k => some (completeSummary (s.put k (own.node k)) (mergeAllSummaries received) (k + 1), k)
  | .interleave own ps, s, k => do
    let l ← ps.summaries F
    if l.all (fun t => t.keys.length = (l.head?.getD .empty).keys.length) then
      some (completeSummary (s.put k (own.node k)) (mergeAllSummaries l) (k + 1), k)
    else some (s.put k (own.node k), k)
/-- The loop over the parents, ST:935-940. -/
def StatsObjs.build (F current : Nat) : StatsObjs → Summary → Nat → Option (Summary × Nat)
  | .nil, s, k => some (s, k)
  | .cons p ps, s, k => do
    let s := s.put current { s.node current with inputs := (s.node current).inputs ++ [k + 1] }
    let (s, k) ← p.build F s (k + 1)
    ps.build F current s k
/-- `parent_stats._get_execution_summary()` of each parent, ST:1107-1109. -/
def StatsObjs.summaries (F : Nat) : StatsObjs → Option (List Summary)
  | .nil => some []
  | .cons p ps => do
    let (s, _) ← p.build F .empty 0
    let s ← populateRatio F s
    let l ← ps.summaries F
    some (s :: l)
end

/-- `_get_execution_summary`, ST:943-948; `get_execution_summary`, dataset/dataset.py:1847-1859. -/
def StatsObj.summary (F : Nat) (o : StatsObj) : Option Summary := do
  let (s, _) ← o.build F .empty 0
  populateRatio F s

/-- `sort_nodes_by_wait_time_ratio`, SU:53-62: the nodes in a stable order of their ratios, renumbered. -/
def sortByRatio (s : Summary) : Summary :=
  let nodes := (s.keys.map s.node).mergeSort (fun a b => decide (a.waitRatio ≤ b.waitRatio))
  ⟨List.range nodes.length, fun k => nodes.getD k .empty⟩

end Grain
