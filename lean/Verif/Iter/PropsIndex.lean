import Verif.Iter.Index
import Verif.Iter.PropsCheckpoint
import Verif.Interleave.Model
/-
C49: `get_next_index` and `set_next_index`.
-/
namespace Grain

/-- `IdxPipe it vs ended atEnd`: `it` is built from a random access dataset by transformations that support the next-index calls;
`vs` are its elements; `atEnd` says whether the calls are right also at the end of the data: there must be no batch whose size does not
divide the number of elements. -/
inductive IdxPipe : {α : Type} → Iter α → List α → Bool → Bool → Prop
  | mapDataset {α : Type} {ds : MapDs α} {vs : List (Option α)} (size threads : Nat) (allow : Bool) (hlen : vs.length = ds.len)
      (hv : ∀ k (hk : k < vs.length), ds.getitem k = .ok vs[k]) (hdense : ∀ v ∈ vs, (allow || v.isSome) = true) :
      IdxPipe (prefetchIter size threads allow none ds) vs true true
  | stopKnowing {α : Type} {p : Iter α} {vs : List α} {ended atEnd : Bool} (n : Nat) : IdxPipe p vs ended atEnd →
      IdxPipe p (vs.take n) false atEnd
  | map {α β : Type} {p : Iter (Option α)} {vs : List (Option α)} {ended atEnd : Bool} (f : α → Py (Option β)) (g : α → Option β)
      (hf : ∀ a, some a ∈ vs → f a = .ok (g a)) : IdxPipe p vs ended atEnd →
      IdxPipe (mapIter f p) (vs.map (fun x => x.bind g)) ended atEnd
  | randomMap {α β : Type} {p : Iter (Option α)} {vs : List (Option α)} {ended atEnd : Bool} (f : α → Nat → Py (Option β)) (i c : Nat)
      (g : Nat → α → Option β) (hf : ∀ (n : Nat) a, vs[n]? = some (some a) → f a (i + n * c) = .ok (g n a)) :
      IdxPipe p vs ended atEnd → IdxPipe (randomMapIter f i c p) (vs.mapIdx (fun n x => x.bind (g n))) ended atEnd
  | mapWithIndex {α β : Type} {p : Iter (Option α)} {vs : List (Option α)} {ended atEnd : Bool} (f : Nat → α → Py (Option β))
      (g : Nat → α → Option β) (hf : ∀ (n : Nat) a, vs[n]? = some (some a) → f n a = .ok (g n a)) :
      IdxPipe p vs ended atEnd → IdxPipe (mapWithIndexIter f p) (vs.mapIdx (fun n x => x.bind (g n))) ended atEnd
  | limit {α : Type} {p : Iter α} {vs : List α} {ended atEnd : Bool} (k : Nat) : IdxPipe p vs ended atEnd →
      IdxPipe (limitIter k p) (vs.take k) (ended || decide (k < vs.length)) (atEnd || decide (k < vs.length))
  | batch {α β : Type} {p : Iter α} {vs : List α} {ended atEnd : Bool} (b : Nat) (hb : 0 < b) (drop : Bool) (f : List α → Py β)
      (g : List α → β) (hf : ∀ l, f l = .ok (g l)) : IdxPipe p vs ended atEnd →
      IdxPipe (batchIter b drop f p) ((List.range (batchCount vs.length b (drop || !ended))).map (fun i => g (group vs b i))) ended
        (atEnd && decide (b ∣ vs.length))

theorem IdxPipe.resumes {it : Iter α} {vs : List α} {ended atEnd : Bool} (h : IdxPipe it vs ended atEnd) : IdxResumes it vs ended atEnd := by
  induction h with
  | mapDataset size threads allow hlen hv hdense => exact prefetch_idx size threads hlen hv hdense
  | stopKnowing n _ ih => exact ih.take n
  | map f g hf _ ih => exact map_idx ih hf
  | randomMap f i c g hf _ ih => exact randomMap_idx ih hf
  | mapWithIndex f g hf _ ih => exact mapWithIndex_idx ih hf
  | limit k _ ih => exact limit_idx ih k
  | batch b hb drop f g hf _ ih => exact batch_idx ih b hb drop hf

/-- C49 for random access datasets without filtered elements under map, random_map, map_with_index, limit and batch, in any order:
whatever calls of `next`, `get_state`, `set_state`, `get_next_index` and `set_next_index` are made, `next` returns the element at the
position, `get_next_index` the position, and `set_next_index` moves to it.  (Thread prefetch above such a pipeline:
`thread_prefetch_next_index_partial`, under process prefetch by `process_prefetch_next_index_partial`.  Missing: interleave of one dataset; the counterexamples
below.) -/
theorem next_index_exact_partial {it : Iter α} {vs : List α} {ended atEnd : Bool} (h : IdxPipe it vs ended atEnd) (ops : List IdxOp)
    (outs : List (Res α ⊕ Int)) (hspec : idxSpec vs ended atEnd 0 [] ops = some outs) :
    Ev (fun F => idxRun it F it.init [] ops = some outs) := by
  obtain ⟨At, Ck, h⟩ := h.resumes
  exact idx_run h ops _ 0 [] [] outs h.sim.init rfl (fun i c p hc => by simp at hc) hspec

/-- `range(5)`. -/
def range5 : MapDs Nat where
  len := 5
  getitem i := .ok (some i.toNat)
  getitems is := is.mapM (fun i => .ok (some i.toNat))

-- numbered elements of `range(5)`, in batches of two: jump to the last batch, go back to a checkpoint, jump to the first
example : Ev (fun F => idxRun (batchIter 2 false .ok (mapWithIndexIter (fun i a => .ok (some (10 * i + a))) (prefetchIter 3 2 false none range5)))
    F (batchIter 2 false .ok (mapWithIndexIter (fun i a => .ok (some (10 * i + a))) (prefetchIter 3 2 false none range5))).init []
    [.op .next, .getIndex, .op .save, .setIndex 2, .getIndex, .op .next, .op .next, .op (.restore 0), .getIndex, .op .next, .setIndex 0, .op .next] =
    some [.inl (.item [some 0, some 11]), .inr 1, .inr 2, .inl (.item [some 44]), .inl .stop, .inr 1, .inl (.item [some 22, some 33]),
      .inl (.item [some 0, some 11])]) := by
  have h0 := IdxPipe.mapDataset (ds := range5) (vs := [some 0, some 1, some 2, some 3, some 4]) 3 2 false rfl (by decide) (by decide)
  have h1 := h0.mapWithIndex (fun i a => .ok (some (10 * i + a))) (fun i a => some (10 * i + a)) (fun _ _ _ => rfl)
  have h2 := h1.batch 2 (by decide) false .ok (fun l => l) (fun _ => rfl)
  exact next_index_exact_partial h2 _ _ (by decide)

/-! ### C49 as stated does not hold -/

/-- A dataset with a filtered element, `[0, None, 2, 3]`: the indices are those of the random access dataset.  After `0` and `2`,
`get_next_index` is 3; after `set_next_index(2)` comes `2`, although `3` is the element at position 2 of the iteration. -/
theorem next_index_sparse (F : Nat) :
    idxRun (prefetchIter 0 0 false none sparse4) (F + 9) (prefetchIter 0 0 false none sparse4).init []
      [.op .next, .op .next, .getIndex, .setIndex 2, .op .next] =
      some [.inl (.item (some 0)), .inl (.item (some 2)), .inr 3, .inl (.item (some 2))] := by
  rfl

/-- ... and numbers given by `map_with_index` above it change: element `3` has number 2 when iterating, and number 3 after
`set_next_index(3)`. -/
theorem next_index_sparse_map_with_index (F : Nat) :
    idxRun (mapWithIndexIter (fun i a => .ok (some (10 * i + a))) (prefetchIter 0 0 false none sparse4)) (F + 9)
      (mapWithIndexIter (fun i a => .ok (some (10 * i + a))) (prefetchIter 0 0 false none sparse4)).init []
      [.op .next, .op .next, .op .next, .setIndex 3, .op .next] =
      some [.inl (.item (some 0)), .inl (.item (some 12)), .inl (.item (some 23)), .inl (.item (some 33))] := by
  rfl

/-- Batches of two of `range(5)` with `drop_remainder=True`: after the two batches and `StopIteration`, `get_next_index` is 3. -/
theorem next_index_drop_remainder (F : Nat) :
    idxRun (batchIter 2 true .ok (prefetchIter 0 0 false none range5)) (F + 9) (batchIter 2 true .ok (prefetchIter 0 0 false none range5)).init []
      [.op .next, .op .next, .getIndex, .op .next, .getIndex] =
      some [.inl (.item [some 0, some 1]), .inl (.item [some 2, some 3]), .inr 2, .inl .stop, .inr 3] := by
  rfl

/-- Batches of two of `range(5)` without `drop_remainder`: there are three batches, after which `get_next_index` is 3, but
`set_next_index(3)` raises `IndexError`. -/
theorem next_index_end_of_batches (F : Nat) :
    idxRun (batchIter 2 false .ok (prefetchIter 0 0 false none range5)) (F + 9) (batchIter 2 false .ok (prefetchIter 0 0 false none range5)).init []
      [.op .next, .op .next, .op .next, .getIndex] =
      some [.inl (.item [some 0, some 1]), .inl (.item [some 2, some 3]), .inl (.item [some 4]), .inr 3] ∧
    ((batchIter 2 false .ok (prefetchIter 0 0 false none range5)).setIdx
      (batchIter 2 false (.ok (ε := Err)) (prefetchIter 0 0 false none range5)).init 3).2 = some .indexError := by
  exact ⟨rfl, rfl⟩

/-- The datasets of an interleave of one dataset. -/
def oneFam (p : Iter α) : IterFam α where
  S := p.S
  C := p.C
  init _ := p.init
  next _ := p.next
  get _ := p.get
  set _ := p.set

/-- `InterleaveDatasetIterator` over one dataset, with `_get_next_index` and `_set_next_index`,
grain/_src/python/dataset/transformations/interleave.py:345-367. -/
def interleaveOne (p : Iter α) : Iter α where
  S := ILState p.S p.C
  C := ILCk p.C
  init := (interleaveIter (oneFam p) 1 1 false).init
  next := (interleaveIter (oneFam p) 1 1 false).next
  get := (interleaveIter (oneFam p) 1 1 false).get
  set := (interleaveIter (oneFam p) 1 1 false).set
  getIdx s :=
    match s.slots 0 with
    | none => .ok 0
    | some (_, st) => p.getIdx st
  setIdx s i :=
    let s := (ilGet (oneFam p) 1 1 s).1
    match s.slots 0 with
    | none => (s, some .assertion)
    | some (d, st) =>
      let r := p.setIdx st i
      ({ s with slots := Function.update s.slots 0 (some (d, r.1)) }, r.2)

/-- The interleave of `range(5)` after it ended. -/
def runFive (F : Nat) : Option (interleaveOne (prefetchIter 0 0 false none range5)).S := do
  let it := interleaveOne (prefetchIter 0 0 false none range5)
  let r ← it.next F (it.setIdx it.init 4).1
  let r ← it.next F r.1
  some r.1

/-- Interleaving one dataset, `range(5)`: the index calls work until the end of the data; then `get_next_index` is 0 and
`set_next_index` raises `AssertionError`. -/
theorem next_index_interleave_end (F : Nat) :
    idxRun (interleaveOne (prefetchIter 0 0 false none range5)) (F + 9) (interleaveOne (prefetchIter 0 0 false none range5)).init []
      [.setIndex 3, .op .next, .getIndex, .op .next, .getIndex, .op .next, .getIndex] =
      some [.inl (.item (some 3)), .inr 4, .inl (.item (some 4)), .inr 5, .inl .stop, .inr 0] ∧
    (runFive (F + 9)).map (fun s => ((interleaveOne (prefetchIter 0 0 false none range5)).setIdx s 2).2) = some (some .assertion) := by
  exact ⟨rfl, rfl⟩

end Grain
