import Verif.Stats.LemmasBuild
import Verif.Stats.ModelReport
import Mathlib.Data.List.Sort
/-
C74: the wait time ratios.  C75: the summary shows the pipeline.
-/
namespace Grain

/-! ### C75 -/

/-- **C75.**  The execution summary shows the pipeline: exactly its nodes, numbered so that a node comes before its inputs, each with
what was recorded for it and with the numbers of its inputs; workers and interleaved datasets appear as one pipeline with their
measurements put together.  Missing (false, see `summary_loses_nodes`): workers or interleaved datasets behind an input of `zip` or
`mix` that is not the last. -/
theorem summary_shows_pipeline_partial {o : StatsObj} {t : STree} (h : o.Is t) (hl : o.LastOnly) :
    ∃ s, Ev (fun F => o.summary F = some s) ∧ t.Shown s := by
  obtain ⟨s, r, a1, _, a3, a4⟩ := o.build_shown t h hl .empty 0 Summary.empty_nodup (by simp [Summary.empty])
  obtain ⟨s', b1, b2⟩ := populate_only a4
  refine ⟨s', ?_, (STree.shown_of_grown a3 a4).ratios b2⟩
  refine a1.mono₂ b1 (fun F h1 h2 => ?_)
  simp only [StatsObj.summary, h1, h2, Option.bind_eq_bind, Option.bind_some]

/-- Measurements of a node: time, elements. -/
def measured (name : String) (ns n : Nat) (out pre : Bool) : NodeStats := ⟨name, ns, 1, ns, n, out, pre, 0, 8 * n⟩

/-- `source.map`, as an interleaved dataset or in a worker. -/
def mapOfSource (a b n : Nat) : StatsObj := .plain (measured "map" a n true false) (.cons (.plain (measured "source" b n false false) .nil) .nil)

def mapOfSourceTree (a b n : Nat) : STree :=
  .node (measured "map" a n true false) (.cons (.node (measured "source" b n false false) .nil) .nil)

theorem mapOfSource_is (a b n : Nat) : (mapOfSource a b n).Is (mapOfSourceTree a b n) := by
  simp [mapOfSource, mapOfSourceTree, StatsObj.Is, StatsObjs.Are]

/-- A batch of a zip of a source and two interleaved datasets. -/
def zipOfInterleave : StatsObj :=
  .plain (measured "zip" 5 4 true false)
    (.cons (.plain (measured "source" 7 4 false false) .nil)
      (.cons (.interleave (measured "interleave" 3 4 false false) (.cons (mapOfSource 10 20 3) (.cons (mapOfSource 30 40 1) .nil))) .nil))

/-- What the two interleaved datasets have measured together. -/
def zipOfInterleaveTree : STree :=
  .node (measured "zip" 5 4 true false)
    (.cons (.node (measured "source" 7 4 false false) .nil)
      (.cons (.node { measured "interleave" 3 4 false false with bytesConsumed := 32 }
        (.cons (.node ⟨"map", 40, 1, 30, 4, false, false, 0, 32⟩ (.cons (.node ⟨"source", 60, 1, 40, 4, false, false, 0, 32⟩ .nil) .nil)) .nil)) .nil))

theorem zipOfInterleave_is : zipOfInterleave.Is zipOfInterleaveTree := by
  refine ⟨rfl, ⟨rfl, trivial⟩, ⟨[mapOfSourceTree 10 20 3, mapOfSourceTree 30 40 1], ⟨mapOfSource_is _ _ _, mapOfSource_is _ _ _, trivial⟩, ?_⟩, trivial⟩
  refine Or.inr ⟨_, _, rfl, ⟨rfl, ⟨rfl, trivial⟩, trivial⟩, ?_, rfl⟩
  intro v hv
  obtain rfl := List.mem_singleton.1 hv
  exact ⟨rfl, rfl, rfl, ⟨rfl, rfl, rfl, trivial⟩, trivial⟩

example : zipOfInterleave.Is zipOfInterleaveTree ∧ zipOfInterleave.LastOnly := by
  refine ⟨zipOfInterleave_is, ?_⟩
  simp [zipOfInterleave, mapOfSource, StatsObj.LastOnly, StatsObjs.LastOnly, StatsObjs.EachLastOnly, StatsObj.Simple, StatsObjs.Simple]

/-- The same pipeline with the inputs of `zip` exchanged. -/
def zipInterleaveFirst : StatsObj :=
  .plain (measured "zip" 5 4 true false)
    (.cons (.interleave (measured "interleave" 3 4 false false) (.cons (mapOfSource 10 20 3) (.cons (mapOfSource 30 40 1) .nil)))
      (.cons (.plain (measured "range" 7 4 false false) .nil) .nil))

/-- **C75, finding.**  When interleaved datasets (or workers) are behind an input of `zip` that is not the last, the numbers of their
nodes are used again for the next input: the pipeline has five nodes and the summary has four, and the `map` is lost: what `interleave`
reads from is now said to be the source `range`. -/
theorem summary_loses_nodes : ∃ s, Ev (fun F => zipInterleaveFirst.summary F = some s) ∧ s.keys = [0, 1, 2, 3] ∧
    (s.node 0).inputs = [1, 2] ∧ (s.node 1).name = "interleave" ∧ (s.node 1).inputs = [2] ∧ (s.node 2).name = "range" ∧
    ∀ k ∈ s.keys, (s.node k).name ≠ "map" := by
  refine ⟨(zipInterleaveFirst.summary 20).getD .empty, ⟨20, fun F hF => ?_⟩, ?_⟩
  · obtain ⟨k, rfl⟩ : ∃ k, F = k + 20 := ⟨F - 20, by omega⟩
    rfl
  · refine ⟨rfl, rfl, rfl, rfl, rfl, ?_⟩
    intro k hk
    have hk : k ∈ [0, 1, 2, 3] := hk
    simp only [List.mem_cons, List.not_mem_nil, or_false] at hk
    rcases hk with rfl | rfl | rfl | rfl
    · show ("zip" : String) ≠ "map"; decide
    · show ("interleave" : String) ≠ "map"; decide
    · show ("range" : String) ≠ "map"; decide
    · show ("source" : String) ≠ "map"; decide

/-! ### C74 -/

/-- **C74.**  The ratios of the summary divide the waiting time: each is a number between 0 and 1 that differs from the part the node
deserves only by rounding to four decimal places (once more for each prefetch above it), and together they are 1 up to the rounding.
Missing (false, see `waiting_time_lost`): pipelines with a prefetch whose input has not recorded any time. -/
theorem wait_ratios_divide_waiting_time_partial {o : StatsObj} {t : STree} (h : o.Is t) (hl : o.LastOnly) (hp : t.Prefetches)
    (hpos : 0 < t.threadNs) :
    ∃ s, Ev (fun F => o.summary F = some s) ∧
      List.Forall₂ (fun a b : ℚ => 0 ≤ a ∧ a ≤ 1 ∧ |a - b| ≤ (t.prefetchDepth + 1) * (51 / 1000000)) (s.ratios 0 t.size) (t.shares 1 t.threadNs) ∧
      |(s.ratios 0 t.size).sum - 1| ≤ t.size * (51 / 1000000) := by
  obtain ⟨s, r, a1, _, a3, a4⟩ := o.build_shown t h hl .empty 0 Summary.empty_nodup (by simp [Summary.empty])
  obtain ⟨s', b1, b2, b3⟩ := populate_eq a4 hp hpos
  refine ⟨s', ?_, ?_, ?_⟩
  · refine a1.mono₂ b1 (fun F h1 h2 => ?_)
    simp only [StatsObj.summary, h1, h2, Option.bind_eq_bind, Option.bind_some]
  · rw [b3]
    have := t.computed_close t.threadNs 1 1 0 hp hpos (le_refl _) (by norm_num) (by norm_num) (by norm_num)
    simpa [ratioErr] using this
  · rw [b3]
    have := t.computed_sum t.threadNs 1 hp hpos (le_refl _) (by norm_num) (by norm_num)
    have hne : (t.threadNs : ℚ) ≠ 0 := by exact_mod_cast hpos.ne'
    rw [div_self hne, mul_one] at this
    exact this

/-- **C74.**  The parts the nodes deserve are not negative and together they are everything. -/
theorem shares_sum_to_one {t : STree} (hp : t.Prefetches) (hpos : 0 < t.threadNs) : (t.shares 1 t.threadNs).sum = 1 := by
  rw [t.shares_sum 1 t.threadNs hp]
  have hne : (t.threadNs : ℚ) ≠ 0 := by exact_mod_cast hpos.ne'
  rw [div_self hne, mul_one]

/-- `source.map.prefetch.batch`. -/
def batchOfPrefetch (pre a b : Nat) : StatsObj :=
  .plain (measured "batch" 60 4 true false) (.cons (.plain (measured "prefetch" pre 8 false true)
    (.cons (.plain (measured "map" a 8 false false) (.cons (.plain (measured "source" b 8 false false) .nil) .nil)) .nil)) .nil)

def batchOfPrefetchTree (pre a b : Nat) : STree :=
  .node (measured "batch" 60 4 true false) (.cons (.node (measured "prefetch" pre 8 false true)
    (.cons (.node (measured "map" a 8 false false) (.cons (.node (measured "source" b 8 false false) .nil) .nil)) .nil)) .nil)

theorem batchOfPrefetch_is (pre a b : Nat) : (batchOfPrefetch pre a b).Is (batchOfPrefetchTree pre a b) ∧ (batchOfPrefetch pre a b).LastOnly := by
  simp [batchOfPrefetch, batchOfPrefetchTree, StatsObj.Is, StatsObjs.Are, StatsObj.LastOnly, StatsObjs.LastOnly]

example : (batchOfPrefetchTree 20 30 10).Prefetches ∧ 0 < (batchOfPrefetchTree 20 30 10).threadNs ∧
    (batchOfPrefetchTree 20 30 10).shares 1 (batchOfPrefetchTree 20 30 10).threadNs = [3/4, 0, 3/16, 1/16] := by
  refine ⟨?_, ?_, ?_⟩
  · simp [batchOfPrefetchTree, STree.Prefetches, STrees.Prefetches, measured, STree.threadNs, STrees.threadNs]
  · simp [batchOfPrefetchTree, measured, STree.threadNs, STrees.threadNs]
  · simp [batchOfPrefetchTree, measured, STree.threadNs, STrees.threadNs, STree.shares, STrees.shares, STrees.sharesPrefetch]
    norm_num

/-- **C74, finding.**  A prefetch whose input has not recorded any time yet loses its part: the ratios are all zero although the
prefetch has been waited for all the time. -/
theorem waiting_time_lost : ∃ (o : StatsObj) (t : STree) (s : Summary), o.Is t ∧ o.LastOnly ∧ 0 < t.threadNs ∧
    Ev (fun F => o.summary F = some s) ∧ (s.ratios 0 t.size).sum = 0 := by
  refine ⟨.plain (measured "prefetch" 100 8 true true) (.cons (.plain (measured "source" 0 8 false false) .nil) .nil),
    .node (measured "prefetch" 100 8 true true) (.cons (.node (measured "source" 0 8 false false) .nil) .nil),
    (StatsObj.summary 20 (.plain (measured "prefetch" 100 8 true true)
      (.cons (.plain (measured "source" 0 8 false false) .nil) .nil))).getD .empty,
    by simp [StatsObj.Is, StatsObjs.Are], by simp [StatsObj.LastOnly, StatsObjs.LastOnly],
    by simp [measured, STree.threadNs], ⟨20, fun F hF => ?_⟩, ?_⟩
  · obtain ⟨k, rfl⟩ : ∃ k, F = k + 20 := ⟨F - 20, by omega⟩
    rfl
  · have : ∀ a b : ℚ, a = 0 → b = 0 → [a, b].sum = 0 := by rintro _ _ rfl rfl; simp
    exact this _ _ rfl rfl

/-! ### Copies -/

mutual
theorem STree.plus_comm : ∀ (t u : STree), t.Alike u → t.plus u = u.plus t
  | .node a ins, .node b ins', h => by
    obtain ⟨h1, h2, h3, h4⟩ := h
    simp only [STree.plus, ins.plus_comm ins' h4]
    congr 1
    simp only [NodeStats.plus, h1, h2, h3, Nat.add_comm, Nat.min_comm, Nat.max_comm]
theorem STrees.plus_comm : ∀ (t u : STrees), t.Alike u → t.plus u = u.plus t
  | .nil, .nil, _ => rfl
  | .cons t ts, .cons u us, h => by
    simp only [STrees.plus, t.plus_comm u h.1, ts.plus_comm us h.2]
  | .nil, .cons _ _, h => h.elim
  | .cons _ _, .nil, h => h.elim
end

/-- **C75.**  It does not matter in which order the summaries of two workers are put together. -/
theorem workers_in_any_order {s s' : Summary} {t u : STree} (h : t.Shown s) (h' : u.Shown s') (ha : t.Alike u) :
    (t.plus u).Shown (mergeSummaries s s') ∧ (t.plus u).Shown (mergeSummaries s' s) := by
  refine ⟨h.merge h' ha, ?_⟩
  rw [t.plus_comm u ha]
  exact h'.merge h ha.symm

/-! ### The order of the nodes -/

/-- **C75.**  Sorting the summary keeps its nodes and puts them in ascending order of their ratios. -/
theorem sorted_by_ratio (s : Summary) :
    ((sortByRatio s).keys.map (sortByRatio s).node).Perm (s.keys.map s.node) ∧
    ((sortByRatio s).keys.map (sortByRatio s).node).Pairwise (fun a b => a.waitRatio ≤ b.waitRatio) := by
  have e : (sortByRatio s).keys.map (sortByRatio s).node =
      (s.keys.map s.node).mergeSort (fun a b => decide (a.waitRatio ≤ b.waitRatio)) := by
    unfold sortByRatio
    apply List.ext_getElem
    · simp
    · intro i h1 h2
      simp only [List.getElem_map, List.getElem_range]
      rw [List.getD_eq_getElem?_getD, List.getElem?_eq_getElem h2]
      rfl
  rw [e]
  refine ⟨List.mergeSort_perm _ _, ?_⟩
  have := List.pairwise_mergeSort (le := fun a b : SumNode => decide (a.waitRatio ≤ b.waitRatio))
    (by intro a b c h1 h2; simp only [decide_eq_true_eq] at *; exact h1.trans h2)
    (by intro a b; simp only [Bool.or_eq_true, decide_eq_true_eq]; exact le_total _ _) (s.keys.map s.node)
  exact this.imp (by intro a b h; simpa using h)

/-! ### C77 -/

/-- An interleave of datasets that are read to their end one after the other (`cycle_length` 1), each with two elements. -/
def readOneByOne (uses : List (Nat × StatsObj)) : StatsObj :=
  .interleave (measured "interleave" 3 0 true false) ((interleaveParents 1 uses).foldr StatsObjs.cons .nil)

/-- **C77, finding.**  An interleave forgets the measurements of a dataset when its slot moves on: two elements have been produced
after the first dataset, and one after the first element of the second. -/
theorem interleave_forgets : ∃ s s',
    Ev (fun F => (readOneByOne [(0, mapOfSource 10 20 2)]).summary F = some s) ∧
    Ev (fun F => (readOneByOne [(0, mapOfSource 10 20 2), (0, mapOfSource 1 1 1)]).summary F = some s') ∧
    (s.node 1).name = "map" ∧ (s'.node 1).name = "map" ∧ (s.node 1).produced = 2 ∧ (s'.node 1).produced = 1 ∧
    (s.node 1).totalNs = 10 ∧ (s'.node 1).totalNs = 1 := by
  refine ⟨((readOneByOne [(0, mapOfSource 10 20 2)]).summary 20).getD .empty,
    ((readOneByOne [(0, mapOfSource 10 20 2), (0, mapOfSource 1 1 1)]).summary 20).getD .empty,
    ⟨20, fun F hF => ?_⟩, ⟨20, fun F hF => ?_⟩, rfl, rfl, rfl, rfl, rfl, rfl⟩ <;>
  · obtain ⟨k, rfl⟩ : ∃ k, F = k + 20 := ⟨F - 20, by omega⟩
    rfl

end Grain
