import Verif.Stats.Model
/-
The pipeline as a tree, what it means that a summary shows it, and which part of the waiting time each node deserves.
-/
namespace Grain

mutual
/-- A pipeline: a node with its inputs. -/
inductive STree where
  | node (own : NodeStats) (ins : STrees)
inductive STrees where
  | nil
  | cons (t : STree) (ts : STrees)
end

mutual
/-- Number of nodes. -/
def STree.size : STree → Nat
  | .node _ ins => 1 + ins.size
def STrees.size : STrees → Nat
  | .nil => 0
  | .cons t ts => t.size + ts.size
end

/-- The numbers of the inputs when nodes are numbered from `k`, a node before its inputs. -/
def STrees.ids : STrees → Nat → List Nat
  | .nil, _ => []
  | .cons t ts, k => k :: ts.ids (k + t.size)

mutual
/-- The summary shows the pipeline from number `k` on: each node is there with what was recorded for it, and its inputs are the
numbers of the nodes it reads from. -/
def STree.ShownAt (s : Summary) : STree → Nat → Prop
  | .node own ins, k => k ∈ s.keys ∧ (∃ r, s.node k = { own.node k with inputs := ins.ids (k + 1), waitRatio := r }) ∧ ins.ShownAt s (k + 1)
def STrees.ShownAt (s : Summary) : STrees → Nat → Prop
  | .nil, _ => True
  | .cons t ts, k => t.ShownAt s k ∧ ts.ShownAt s (k + t.size)
end

/-- The summary shows this pipeline and nothing else. -/
def STree.Shown (s : Summary) (t : STree) : Prop :=
  t.ShownAt s 0 ∧ s.keys.Nodup ∧ ∀ k ∈ s.keys, k < t.size

mutual
/-- The time spent in the nodes that run one after the other in the thread of this node: all nodes up to the next prefetches,
including these. -/
def STree.threadNs : STree → Nat
  | .node own ins => own.totalNs + if own.isPrefetch then 0 else ins.threadNs
def STrees.threadNs : STrees → Nat
  | .nil => 0
  | .cons t ts => t.threadNs + ts.threadNs
end

mutual
/-- The parts of the waiting time: `part` is to be divided among the nodes of a thread that has worked `thread` nanoseconds, in
proportion to the time each has taken; what a prefetch gets is divided in the same way among the nodes of the thread it waits for. -/
def STree.shares (part thread : ℚ) : STree → List ℚ
  | .node own ins =>
    if own.isPrefetch then
      match ins with
      | .nil => [part * (own.totalNs / thread)]
      | .cons _ _ => 0 :: ins.sharesPrefetch (part * (own.totalNs / thread))
    else part * (own.totalNs / thread) :: ins.shares part thread
def STrees.shares (part thread : ℚ) : STrees → List ℚ
  | .nil => []
  | .cons t ts => t.shares part thread ++ ts.shares part thread
def STrees.sharesPrefetch (part : ℚ) : STrees → List ℚ
  | .nil => []
  | .cons t ts => t.shares part t.threadNs ++ ts.sharesPrefetch part
end

mutual
/-- Every prefetch has at most one input, and time has been spent in the thread it waits for. -/
def STree.Prefetches : STree → Prop
  | .node own ins => (own.isPrefetch = true → ins = .nil ∨ ∃ t, ins = .cons t .nil ∧ 0 < t.threadNs) ∧ ins.Prefetches
def STrees.Prefetches : STrees → Prop
  | .nil => True
  | .cons t ts => t.Prefetches ∧ ts.Prefetches
end

mutual
/-- The largest number of prefetches above a node. -/
def STree.prefetchDepth : STree → Nat
  | .node own ins => (if own.isPrefetch then 1 else 0) + ins.prefetchDepth
def STrees.prefetchDepth : STrees → Nat
  | .nil => 0
  | .cons t ts => max t.prefetchDepth ts.prefetchDepth
end

/-- The ratios of the first `n` nodes of a summary. -/
def Summary.ratios (s : Summary) (k n : Nat) : List ℚ := (List.range n).map (fun i => (s.node (k + i)).waitRatio)

/-! ### Several copies of one pipeline -/

/-- What two copies of a node have recorded together. -/
def NodeStats.plus (a b : NodeStats) : NodeStats :=
  { a with totalNs := a.totalNs + b.totalNs, minNs := min a.minNs b.minNs, maxNs := max a.maxNs b.maxNs, produced := a.produced + b.produced,
           bytesConsumed := a.bytesConsumed + b.bytesConsumed, bytesProduced := a.bytesProduced + b.bytesProduced }

mutual
/-- The same pipeline, with other measurements. -/
def STree.Alike : STree → STree → Prop
  | .node a ins, .node b ins' => a.name = b.name ∧ a.isOutput = b.isOutput ∧ a.isPrefetch = b.isPrefetch ∧ ins.Alike ins'
def STrees.Alike : STrees → STrees → Prop
  | .nil, .nil => True
  | .cons t ts, .cons u us => t.Alike u ∧ ts.Alike us
  | _, _ => False
end

mutual
/-- The measurements of two copies together. -/
def STree.plus : STree → STree → STree
  | .node a ins, .node b ins' => .node (a.plus b) (ins.plus ins')
def STrees.plus : STrees → STrees → STrees
  | .cons t ts, .cons u us => .cons (t.plus u) (ts.plus us)
  | _, _ => .nil
end

mutual
/-- No node is an output. -/
def STree.NoOutput : STree → Prop
  | .node own ins => own.isOutput = false ∧ ins.NoOutput
def STrees.NoOutput : STrees → Prop
  | .nil => True
  | .cons t ts => t.NoOutput ∧ ts.NoOutput
end

/-- What was recorded for the last node. -/
def STree.own : STree → NodeStats
  | .node own _ => own

/-- The last node is the only output. -/
def STree.Output : STree → Prop
  | .node own ins => own.isOutput = true ∧ ins.NoOutput

/-- The last node is not the output any more. -/
def STree.inner : STree → STree
  | .node own ins => .node { own with isOutput := false } ins

/-- A node that reads from several copies of one pipeline: it has one input, the copies together.  It has consumed what they have
produced. -/
def Joined (own : NodeStats) (copies : List STree) (t : STree) : Prop :=
  (copies = [] ∧ t = .node { own with bytesConsumed := 0 } .nil) ∨
  ∃ u us, copies = u :: us ∧ u.Output ∧ (∀ v ∈ us, u.Alike v) ∧
    t = .node { own with bytesConsumed := (us.foldl STree.plus u).own.bytesProduced } (.cons (us.foldl STree.plus u).inner .nil)

mutual
/-- The pipeline a statistics object stands for. -/
def StatsObj.Is : StatsObj → STree → Prop
  | .plain own ps, .node own' ins => own' = own ∧ ps.Are ins
  | .workers own received, t => ∃ copies, List.Forall₂ (fun s u => STree.Shown s u) received copies ∧ Joined own copies t
  | .interleave own ps, t => ∃ copies, ps.Each copies ∧ Joined own copies t
def StatsObjs.Are : StatsObjs → STrees → Prop
  | .nil, .nil => True
  | .cons p ps, .cons t ts => p.Is t ∧ ps.Are ts
  | _, _ => False
def StatsObjs.Each : StatsObjs → List STree → Prop
  | .nil, [] => True
  | .cons p ps, t :: ts => p.Is t ∧ ps.Each ts
  | _, _ => False
end

mutual
/-- Without workers and interleaved datasets. -/
def StatsObj.Simple : StatsObj → Prop
  | .plain _ ps => ps.Simple
  | _ => False
def StatsObjs.Simple : StatsObjs → Prop
  | .nil => True
  | .cons p ps => p.Simple ∧ ps.Simple
end

mutual
/-- Where a node has several inputs (`zip`, `mix`), workers and interleaved datasets are behind the last one only. -/
def StatsObj.LastOnly : StatsObj → Prop
  | .plain _ ps => ps.LastOnly
  | .workers _ _ => True
  | .interleave _ ps => ps.EachLastOnly
def StatsObjs.LastOnly : StatsObjs → Prop
  | .nil => True
  | .cons p ps => p.LastOnly ∧ (ps = .nil ∨ p.Simple) ∧ ps.LastOnly
def StatsObjs.EachLastOnly : StatsObjs → Prop
  | .nil => True
  | .cons p ps => p.LastOnly ∧ ps.EachLastOnly
end

end Grain
