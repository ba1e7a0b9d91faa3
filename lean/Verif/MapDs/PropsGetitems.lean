import Verif.MapDs.MixCoherence
/-
C11: batched random access agrees with single access, for every pipeline.
-/
namespace Grain
open List

/-- Every random access pipeline built from the modelled transformations.  The only assumption is about
user supplied sources: a source that offers a batched read must make it agree with its single read. -/
inductive Pipeline : {α : Type} → MapDs α → Prop
  | source {α : Type} (n : Nat) (read : Int → Py (Option α)) (rm : Option (List Int → Py (List (Option α))))
      (h : ∀ f ∈ rm, ∀ is v, f is = .ok v ↔ is.mapM read = .ok v) : Pipeline (sourceDs n read rm)
  | range (r : RangeDs) : Pipeline r.toDs
  | map {α β : Type} (f : α → Py (Option β)) {p : MapDs α} : Pipeline p → Pipeline (mapDs f p)
  | mapWithIndex {α β : Type} (f : Int → α → Py (Option β)) {p : MapDs α} :
      Pipeline p → Pipeline (mapWithIndexDs f p)
  | randomMap {α β : Type} (f : α → Int → Py (Option β)) {p : MapDs α} :
      Pipeline p → Pipeline (randomMapDs f p)
  | filter {α : Type} (f : α → Py Bool) {p : MapDs α} : Pipeline p → Pipeline (filterDs f p)
  | flatMap {α β : Type} (n : Nat) (f : α → Py (List (Option β))) {p : MapDs α} :
      Pipeline p → Pipeline (flatMapDs n f p)
  | slice {α : Type} (s : SliceSpec) {p : MapDs α} : Pipeline p → Pipeline (sliceDs s p)
  | reindex {α : Type} (ix : List Int) {p : MapDs α} : Pipeline p → Pipeline (reindexDs ix p)
  | reindexBy {α : Type} (ix : MapDs Int) {p : MapDs α} : Pipeline p → Pipeline (reindexByDs ix p)
  | rep {α : Type} (n : Nat) (reseed : Bool) {p : MapDs α} : Pipeline p → Pipeline (repeatDs n reseed p)
  | shuffle {α : Type} (k : Nat → List (BitVec 32)) (seed : Nat) {p : MapDs α} :
      Pipeline p → Pipeline (shuffleDs k seed p)
  | windowShuffle {α : Type} (k : Nat → List (BitVec 32)) (seed w : Nat) {p : MapDs α} :
      Pipeline p → Pipeline (windowShuffleDs k seed w p)
  | shard {α : Type} (o : ShardOptions) {p : MapDs α} : Pipeline p → Pipeline (shardDs o p)
  | batch {α β : Type} (b : Nat) (drop pushdown : Bool) (f : List (Option α) → Py (Option β)) {p : MapDs α} :
      Pipeline p → Pipeline (batchDs b drop pushdown f p)
  | zip {α : Type} (n : Nat) (ps : List (MapDs α)) (h0 : zipLen (ps.map (·.len)) = .ok n)
      (h : ∀ p ∈ ps, Pipeline p) : Pipeline (zipDs n ps)
  | mix {α : Type} (sm : SelMap) (ps : List (MapDs α)) (h : ∀ p ∈ ps, Pipeline p) : Pipeline (mixDs sm ps)

theorem Pipeline.coherent {α : Type} {ds : MapDs α} (h : Pipeline ds) : Coherent ds := by
  induction h with
  | source n read rm h =>
    exact sourceDs_coherent n read rm (fun f hf is v => by rw [h f hf is v, mapM_ok_iff])
  | range r => exact rangeDs_coherent r
  | map f _ ih => exact mapDs_coherent f ih
  | mapWithIndex f _ ih => exact mapWithIndexDs_coherent f ih
  | randomMap f _ ih => exact randomMapDs_coherent f ih
  | filter f _ ih => exact filterDs_coherent f ih
  | flatMap n f _ _ => exact flatMapDs_coherent n f _
  | slice s _ ih => exact sliceDs_coherent s ih
  | reindex ix _ ih => exact reindexDs_coherent ix ih
  | reindexBy ix _ ih => exact reindexByDs_coherent ix ih
  | rep n r _ ih => exact repeatDs_coherent n r ih
  | shuffle k s _ ih => exact shuffleDs_coherent k s ih
  | windowShuffle k s w _ ih => exact windowShuffleDs_coherent k s w ih
  | shard o _ _ => exact shardDs_coherent o _
  | batch b d pd f _ _ => exact batchDs_coherent b d pd f _
  | zip n ps h0 _ ih =>
    refine zipDs_coherent n ps ?_ ih
    rintro rfl
    simp [zipLen] at h0
  | mix sm ps _ ih => exact mixDs_coherent sm ps ih

/-- C11: for every pipeline and every list of indices (repeated, unordered, negative or beyond the epoch),
`ds._getitems(indices)` returns a list exactly when `[ds[i] for i in indices]` does, and the same list. -/
theorem getitems_eq_map_getitem {α : Type} (ds : MapDs α) (h : Pipeline ds) (is : List Int)
    (v : List (Option α)) : ds.getitems is = .ok v ↔ is.mapM ds.getitem = .ok v := by
  rw [h.coherent is v, mapM_ok_iff]

/-- C11 (corollary): when all single reads succeed the batched read is equal to them. -/
theorem getitems_eq_of_reads_ok {α : Type} (ds : MapDs α) (h : Pipeline ds) (is : List Int)
    (x : Int → Option α) (hx : ∀ i ∈ is, ds.getitem i = .ok (x i)) :
    ds.getitems is = .ok (is.map x) := by
  rw [getitems_eq_map_getitem ds h, mapM_ok_iff, forall₂_map_right_iff, forall₂_same]
  exact hx

-- a concrete pipeline: mixing a filtered list with a batch-free slice of another, read out of order
private def exPipeline : MapDs Nat :=
  mixDs ⟨6, fun k => datasetAndKey k [1, 2]⟩
    [filterDs (fun a => .ok (a % 2 == 0)) (listSource [10, 11, 12]),
     mapDs (fun a => .ok (some (a + 100))) (listSource [20, 21, 22, 23])]

example : Pipeline exPipeline := by
  refine .mix _ _ ?_
  intro p hp
  simp only [List.mem_cons, List.not_mem_nil, or_false] at hp
  rcases hp with rfl | rfl
  · exact .filter _ (.source _ _ _ (by simp))
  · exact .map _ (.source _ _ _ (by simp))

example : exPipeline.getitems [5, 0, 3, 3, -1] = .ok [some 123, some 10, none, none, some 123] := by decide

end Grain
