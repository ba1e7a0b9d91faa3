import Verif.Packing.Choose
import Verif.Iter.Example
/-
C32, C33, C34: packing loses, duplicates and overlaps nothing; first fit and best fit; checkpoints.
-/
namespace Grain

variable {τ μ : Type}

/-- C32.  First-fit packing of examples that fit into a row, over any input iterator `p` that yields the examples `es`: the
examples are cut into batches `gs` in stream order; a batch is closed only when no row has room for the next example
(`GreedyCut`).  Each example is put into the first row with room for it (`Assigned`, `IsFirstFit`).  Each output batch
consists of the rows that got examples, and each row holds exactly its examples (`RowHolds`: tokens unchanged and contiguous,
no overlap, segment ids 1, 2, ..., positions from 0, padding elsewhere).  With shuffling the rows of a batch are permuted.
C34: saving and restoring, in every history of operations, resumes exactly. -/
theorem first_fit_packing {cfg : PkCfg τ} (hne : cfg.feats ≠ []) (ha : ∀ fc ∈ cfg.feats, 0 < fc.align) (hbins : 0 < cfg.bins)
    (hm : cfg.maxSeq ≠ some 0) (mode : ShuffleBins (OutRow τ μ)) {perm : Nat → Nat → List Nat} (hperm : ∀ s n, (perm s n).Perm (List.range n))
    (seed : Nat) {p : Iter (Ex τ μ)} {es : List (Ex τ μ)} {ended : Bool} (hes : ∀ e ∈ es, FitsEmpty cfg.feats e)
    (hp : Resumes p (es.map Except.ok) ended) :
    ∃ (gs : List (List (Ex τ μ))) (rest : List (Ex τ μ)) (outs : List (List (OutRow τ μ))),
      es = gs.flatten ++ rest ∧ (ended = true → rest = []) ∧
      GreedyCut (IsFirstFit (RowFits cfg.feats cfg.maxSeq)) cfg.bins ended gs rest ∧ outs.length = gs.length ∧
      (∀ (i : Nat) g out, gs[i]? = some g → outs[i]? = some out →
        ∃ a rows, Assigned (IsFirstFit (RowFits cfg.feats cfg.maxSeq)) cfg.bins g a ∧ BatchHolds cfg.feats rows a ∧
          out.Perm rows ∧ (mode = .off → out = rows)) ∧
      ResumesExactly (packIter (firstFit cfg) (rowOrder mode perm seed) p) (outs.flatten.map Except.ok) ended := by
  obtain ⟨gs, rest, outs, h1, h2, h3, h4, h5, h6⟩ := packing_main (firstFit_chooses (μ := μ) hne) ha hbins hm (rowOrder_isOrder mode perm seed hperm)
    (fun e he => ⟨hes e he, hes e he⟩) hp
  refine ⟨gs, rest, outs, h1, h2, h3, h4, ?_, h6.exactly⟩
  intro i g out hg ho
  obtain ⟨a, rows, a1, a2, a3, a4⟩ := h5 i g out hg ho
  exact ⟨a, rows, a1, a2, a3, fun hoff => a4 (fun c rows => by rw [hoff]; rfl)⟩

/-- C33.  The same for best fit, with the row that has the most cells in use among those with room; the limit
`max_sequences_per_bin` is the loose one. -/
theorem best_fit_packing {cfg : PkCfg τ} (ha : ∀ fc ∈ cfg.feats, 0 < fc.align) (hbins : 0 < cfg.bins)
    (hm : cfg.maxSeq ≠ some 0) (mode : ShuffleBins (OutRow τ μ)) {perm : Nat → Nat → List Nat} (hperm : ∀ s n, (perm s n).Perm (List.range n))
    (seed : Nat) {p : Iter (Ex τ μ)} {es : List (Ex τ μ)} {ended : Bool} (hes : ∀ e ∈ es, FitsEmpty cfg.feats e)
    (hp : Resumes p (es.map Except.ok) ended) :
    ∃ (gs : List (List (Ex τ μ))) (rest : List (Ex τ μ)) (outs : List (List (OutRow τ μ))),
      es = gs.flatten ++ rest ∧ (ended = true → rest = []) ∧
      GreedyCut (IsBestFit (usedCells cfg.feats) (RowFitsLoose cfg.feats cfg.maxSeq)) cfg.bins ended gs rest ∧ outs.length = gs.length ∧
      (∀ (i : Nat) g out, gs[i]? = some g → outs[i]? = some out →
        ∃ a rows, Assigned (IsBestFit (usedCells cfg.feats) (RowFitsLoose cfg.feats cfg.maxSeq)) cfg.bins g a ∧ BatchHolds cfg.feats rows a ∧
          out.Perm rows ∧ (mode = .off → out = rows)) ∧
      ResumesExactly (packIter (bestFit cfg) (rowOrder mode perm seed) p) (outs.flatten.map Except.ok) ended := by
  obtain ⟨gs, rest, outs, h1, h2, h3, h4, h5, h6⟩ := packing_main
    (bestFit_chooses (μ := μ) ha (Good := FitsEmpty cfg.feats) (fits := RowFitsLoose cfg.feats cfg.maxSeq) (fun _ h => h)
      (fun _ _ _ => Iff.rfl) (fun _ _ h => h.2) (fun _ _ h => ⟨fun m hm => Or.inl (h.1 m hm), h.2⟩))
    ha hbins hm (rowOrder_isOrder mode perm seed hperm) (fun e he => ⟨hes e he, hes e he⟩) hp
  refine ⟨gs, rest, outs, h1, h2, h3, h4, ?_, h6.exactly⟩
  intro i g out hg ho
  obtain ⟨a, rows, a1, a2, a3, a4⟩ := h5 i g out hg ho
  exact ⟨a, rows, a1, a2, a3, fun hoff => a4 (fun c rows => by rw [hoff]; rfl)⟩

/-- C33, the limit `max_sequences_per_bin`, partial: it holds when every example has at least one token (missing: examples
without tokens, see `best_fit_exceeds_max_sequences`). -/
theorem best_fit_packing_partial {cfg : PkCfg τ} (ha : ∀ fc ∈ cfg.feats, 0 < fc.align) (hbins : 0 < cfg.bins)
    (hm : cfg.maxSeq ≠ some 0) (mode : ShuffleBins (OutRow τ μ)) {perm : Nat → Nat → List Nat} (hperm : ∀ s n, (perm s n).Perm (List.range n))
    (seed : Nat) {p : Iter (Ex τ μ)} {es : List (Ex τ μ)} {ended : Bool} (hes : ∀ e ∈ es, FitsEmpty cfg.feats e)
    (htok : ∀ e ∈ es, ∃ i, e.feat i ≠ []) (hp : Resumes p (es.map Except.ok) ended) :
    ∃ (gs : List (List (Ex τ μ))) (rest : List (Ex τ μ)) (outs : List (List (OutRow τ μ))),
      es = gs.flatten ++ rest ∧ (ended = true → rest = []) ∧
      GreedyCut (IsBestFit (usedCells cfg.feats) (RowFits cfg.feats cfg.maxSeq)) cfg.bins ended gs rest ∧ outs.length = gs.length ∧
      (∀ (i : Nat) g out, gs[i]? = some g → outs[i]? = some out →
        ∃ a rows, Assigned (IsBestFit (usedCells cfg.feats) (RowFits cfg.feats cfg.maxSeq)) cfg.bins g a ∧ BatchHolds cfg.feats rows a ∧
          out.Perm rows ∧ (mode = .off → out = rows)) ∧
      ResumesExactly (packIter (bestFit cfg) (rowOrder mode perm seed) p) (outs.flatten.map Except.ok) ended := by
  obtain ⟨gs, rest, outs, h1, h2, h3, h4, h5, h6⟩ := packing_main
    (bestFit_chooses (μ := μ) ha (Good := fun e => FitsEmpty cfg.feats e ∧ ∃ i, e.feat i ≠ []) (fits := RowFits cfg.feats cfg.maxSeq)
      (fun _ h => h.1) (fun _ _ h => rowFitsLoose_iff h.1.1 h.2) (fun _ _ h => h.2) (fun _ _ h => h))
    ha hbins hm (rowOrder_isOrder mode perm seed hperm) (fun e he => ⟨hes e he, hes e he, htok e he⟩) hp
  refine ⟨gs, rest, outs, h1, h2, h3, h4, ?_, h6.exactly⟩
  intro i g out hg ho
  obtain ⟨a, rows, a1, a2, a3, a4⟩ := h5 i g out hg ho
  exact ⟨a, rows, a1, a2, a3, fun hoff => a4 (fun c rows => by rw [hoff]; rfl)⟩

theorem Assigned.limit {X : Type} {ch : List (List X) → X → Option Nat → Prop} {bins m : Nat} {g : List X} {a : List (List X)}
    (hch : ∀ a e r, ch a e (some r) → ∃ es, a[r]? = some es ∧ es.length < m) (h : Assigned ch bins g a) : ∀ es ∈ a, es.length ≤ m := by
  induction h with
  | nil => intro es hes; rw [(List.mem_replicate.1 hes).2]; simp
  | @snoc g a e r h1 h2 ih =>
    intro es hes
    obtain ⟨q, hq⟩ := List.getElem?_of_mem hes
    rw [List.getElem?_modify] at hq
    by_cases hrq : r = q
    · simp only [hrq, if_true, Option.map_eq_map, Option.map_eq_some_iff] at hq
      obtain ⟨es0, h0, rfl⟩ := hq
      obtain ⟨es1, he1, hlt⟩ := hch _ _ _ h2
      rw [hrq, h0] at he1
      cases he1
      simp
      omega
    · simp only [hrq, if_false, Option.map_eq_map, id_eq, Option.map_id_fun'] at hq
      exact ih es (List.mem_of_getElem? hq)

/-- C32: the rows of a batch contain each of its examples exactly once, each row in stream order, and no row has more than
`max_sequences_per_bin` examples. -/
theorem first_fit_no_loss {cfg : List (FeatCfg τ)} {maxSeq : Option Nat} {bins : Nat} {g : List (Ex τ μ)} {a : List (List (Ex τ μ))}
    (h : Assigned (IsFirstFit (RowFits cfg maxSeq)) bins g a) :
    a.length = bins ∧ a.flatten.Perm g ∧ (∀ es ∈ a, es.Sublist g) ∧ ∀ m, maxSeq = some m → ∀ es ∈ a, es.length ≤ m := by
  refine ⟨h.length, h.perm ?_, h.sublist, fun m hm => h.limit ?_⟩
  · rintro a e r ⟨⟨es, hes, _⟩, _⟩
    exact (List.getElem?_eq_some_iff.1 hes).1
  · rintro a e r ⟨⟨es, hes, hf⟩, _⟩
    exact ⟨es, hes, hf.1 m hm⟩

/-- C33: the same for best fit, under the strict limit. -/
theorem best_fit_no_loss {cfg : List (FeatCfg τ)} {maxSeq : Option Nat} {bins : Nat} {g : List (Ex τ μ)} {a : List (List (Ex τ μ))}
    (h : Assigned (IsBestFit (usedCells cfg) (RowFits cfg maxSeq)) bins g a) :
    a.length = bins ∧ a.flatten.Perm g ∧ (∀ es ∈ a, es.Sublist g) ∧ ∀ m, maxSeq = some m → ∀ es ∈ a, es.length ≤ m := by
  refine ⟨h.length, h.perm ?_, h.sublist, fun m hm => h.limit ?_⟩
  · rintro a e r ⟨es, hes, _⟩
    exact (List.getElem?_eq_some_iff.1 hes).1
  · rintro a e r ⟨es, hes, hf, _⟩
    exact ⟨es, hes, hf.1 m hm⟩

/-- C33: and under the loose limit, without the bound on the number of examples. -/
theorem best_fit_loose_no_loss {cfg : List (FeatCfg τ)} {maxSeq : Option Nat} {bins : Nat} {g : List (Ex τ μ)} {a : List (List (Ex τ μ))}
    (h : Assigned (IsBestFit (usedCells cfg) (RowFitsLoose cfg maxSeq)) bins g a) :
    a.length = bins ∧ a.flatten.Perm g ∧ ∀ es ∈ a, es.Sublist g := by
  refine ⟨h.length, h.perm ?_, h.sublist⟩
  rintro a e r ⟨es, hes, _⟩
  exact (List.getElem?_eq_some_iff.1 hes).1

/-- C32: the cells of two examples of a row do not overlap and the row's length is never exceeded: the ranges given by
`FeatHolds` are increasing. -/
theorem featHolds_disjoint {fc : FeatCfg τ} {cells : List (Cell τ)} {vals : List (List τ)} (h : FeatHolds fc cells vals) :
    cells.length = fc.cap ∧ ∃ start : Nat → Nat, ∀ (j j' : Nat) v v', j < j' → vals[j]? = some v → vals[j']? = some v' →
      start j + v.length ≤ start j' ∧ start j' + v'.length ≤ fc.cap ∧
      (∀ (k : Nat) t, v[k]? = some t → cells[start j + k]? = some ⟨t, j + 1, k⟩) ∧
      (∀ (k : Nat) t, v'[k]? = some t → cells[start j' + k]? = some ⟨t, j' + 1, k⟩) := by
  obtain ⟨h0, start, _, h1, _⟩ := h
  refine ⟨h0, start, ?_⟩
  intro j j' v v' hlt hv hv'
  have hmono : ∀ n, j + 1 + n ≤ vals.length → start (j + 1) ≤ start (j + 1 + n) := by
    intro n
    induction n with
    | zero => intro _; exact Nat.le_refl _
    | succ n ih =>
      intro hn
      have hw : vals[j + 1 + n]? = some (vals[j + 1 + n]'(by omega)) := List.getElem?_eq_getElem _
      have h2 := (h1 _ _ hw).2.2.1
      have h3 := ih (by omega)
      rw [Nat.add_assoc (j + 1) n 1] at h2
      omega
  have hj' := (List.getElem?_eq_some_iff.1 hv').1
  have := hmono (j' - (j + 1)) (by omega)
  rw [show j + 1 + (j' - (j + 1)) = j' by omega] at this
  have h4 := h1 j v hv
  have h5 := h1 j' v' hv'
  exact ⟨by omega, h5.1, h4.2.1, h5.2.1⟩

/-- The hypotheses are met and the rows are what one expects: two features, alignment 2, two rows, four examples. -/
def packExCfg : PkCfg Nat := { feats := [⟨5, 2, 0⟩, ⟨4, 1, 9⟩], bins := 2, maxSeq := some 2 }
def packExData : List (Ex Nat String) :=
  [⟨[[1, 2, 3], [4]], "a"⟩, ⟨[[5, 6], [7, 8]], "b"⟩, ⟨[[1], [2, 3, 4]], "c"⟩, ⟨[[5, 5, 5], [1]], "d"⟩]

example : (∀ e ∈ packExData, FitsEmpty packExCfg.feats e) ∧ packExCfg.feats ≠ [] ∧ (∀ fc ∈ packExCfg.feats, 0 < fc.align) ∧
    0 < packExCfg.bins ∧ packExCfg.maxSeq ≠ some 0 ∧ (∀ e ∈ packExData, ∃ i, e.feat i ≠ []) := by
  refine ⟨?_, by decide, by decide, by decide, by decide, ?_⟩
  · intro e he
    simp only [packExData, List.mem_cons, List.not_mem_nil, or_false] at he
    rcases he with rfl | rfl | rfl | rfl <;> refine ⟨rfl, ?_⟩ <;> intro i v fc h1 h2 <;>
      (rcases i with _ | _ | i <;> simp [packExCfg] at h1 h2 <;> subst_vars <;> decide)
  · intro e he
    refine ⟨0, ?_⟩
    simp only [packExData, List.mem_cons, List.not_mem_nil, or_false] at he
    rcases he with rfl | rfl | rfl | rfl <;> decide

example : Resumes (listIter (packExData.map Except.ok)) (packExData.map Except.ok) true := listIter_resumes _

example : Ev (fun F => implRun (packIter (firstFit packExCfg) (rowOrder .off (fun _ n => List.range n) 0) (listIter (packExData.map Except.ok))) F
      (packIter (firstFit packExCfg) (rowOrder .off (fun _ n => List.range n) 0) (listIter (packExData.map Except.ok))).init [] [.next, .next, .next, .next] =
    some [.item ⟨[[⟨1, 1, 0⟩, ⟨2, 1, 1⟩, ⟨3, 1, 2⟩, ⟨0, 0, 0⟩, ⟨1, 2, 0⟩], [⟨4, 1, 0⟩, ⟨2, 2, 0⟩, ⟨3, 2, 1⟩, ⟨4, 2, 2⟩]], ["a", "c"]⟩,
      .item ⟨[[⟨5, 1, 0⟩, ⟨6, 1, 1⟩, ⟨5, 2, 0⟩, ⟨5, 2, 1⟩, ⟨5, 2, 2⟩], [⟨7, 1, 0⟩, ⟨8, 1, 1⟩, ⟨1, 2, 0⟩, ⟨9, 0, 0⟩]], ["b", "d"]⟩, .stop, .stop]) := by
  refine ⟨9, fun F hF => ?_⟩
  obtain ⟨k, rfl⟩ : ∃ k, F = k + 9 := ⟨F - 9, by omega⟩
  rfl

/-- Finding F15: best fit exceeds `max_sequences_per_bin` with examples without tokens (limit 1, two examples in a row). -/
theorem best_fit_exceeds_max_sequences :
    ∃ (cfg : PkCfg Nat) (es : List (Ex Nat String)) (row : OutRow Nat String), cfg.maxSeq = some 1 ∧ row.metas.length = 2 ∧
      (∀ e ∈ es, FitsEmpty cfg.feats e) ∧
      Ev (fun F => implRun (packIter (bestFit cfg) (rowOrder .off (fun _ n => List.range n) 0) (listIter (es.map Except.ok))) F
        (packIter (bestFit cfg) (rowOrder .off (fun _ n => List.range n) 0) (listIter (es.map Except.ok))).init [] [.next] =
        some [.item row]) := by
  refine ⟨{ feats := [⟨1, 1, 0⟩], bins := 1, maxSeq := some 1 }, [⟨[[]], "a"⟩, ⟨[[]], "b"⟩], ⟨[[⟨0, 0, 0⟩]], ["a", "b"]⟩, rfl, rfl, ?_, 9, ?_⟩
  · intro e he
    simp only [List.mem_cons, List.not_mem_nil, or_false] at he
    rcases he with rfl | rfl <;> refine ⟨rfl, ?_⟩ <;> intro i v fc h1 h2 <;>
      (rcases i with _ | i <;> simp at h1 h2 <;> subst_vars <;> decide)
  · intro F hF
    obtain ⟨k, rfl⟩ : ∃ k, F = k + 9 := ⟨F - 9, by omega⟩
    rfl

/-- Finding F22: after a too long example, which raises `ValueError`, the iterator has an empty batch; if the data ends there,
the next call raises `IndexError` instead of `StopIteration`. -/
theorem packing_index_error_after_long_example :
    ∃ (cfg : PkCfg Nat) (es : List (Ex Nat String)),
      Ev (fun F => implRun (packIter (firstFit cfg) (rowOrder .off (fun _ n => List.range n) 0) (listIter (es.map Except.ok))) F
        (packIter (firstFit cfg) (rowOrder .off (fun _ n => List.range n) 0) (listIter (es.map Except.ok))).init [] [.next, .next] =
        some [.fail .valueError, .fail .indexError]) := by
  refine ⟨{ feats := [⟨1, 1, 0⟩], bins := 1, maxSeq := none }, [⟨[[1, 2]], "a"⟩], 9, ?_⟩
  intro F hF
  obtain ⟨k, rfl⟩ : ∃ k, F = k + 9 := ⟨F - 9, by omega⟩
  rfl

/-- Shuffled bins grouped by a feature (`shuffle_bins_group_by_feature`): the rows of a packed batch come by ascending average of the
feature (`lt`, a strict weak order), and rows with the same average in the order of their positions in the random permutation. -/
theorem grouped_rows_ascending {R κ : Type} (avg : R → κ) (lt : κ → κ → Bool) (hasym : ∀ a b, lt a b = true → lt b a = false)
    (hneg : ∀ a b d, lt a b = false → lt b d = false → lt a d = false) (perm : Nat → Nat → List Nat) (seed c : Nat) (rows : List R) :
    (emitBatch (rowOrder (.grouped κ avg lt) perm seed) c rows).Pairwise (fun r r' => lt (avg r') (avg r) = false) ∧
    (rowOrder (.grouped κ avg lt) perm seed c rows).Pairwise (fun i j =>
      ∀ ri rj, rows[i]? = some ri → rows[j]? = some rj → lt (avg ri) (avg rj) = false →
        (perm (seed + c) rows.length).getD i 0 ≤ (perm (seed + c) rows.length).getD j 0) := by
  have hirr : ∀ a, lt a a = false := fun a => by
    cases h : lt a a with
    | false => rfl
    | true => have := hasym a a h; rw [h] at this; cases this
  obtain ⟨f, hf⟩ : ∃ f : Nat → Option κ × Nat × Nat, f = fun i => ((rows[i]?).map avg, (perm (seed + c) rows.length).getD i 0, i) := ⟨_, rfl⟩
  obtain ⟨s, hs⟩ : ∃ s : Option κ × Nat × Nat → Option κ × Nat × Nat → Bool, s = fun x y =>
      match x.1, y.1 with
      | some a, some b => if lt a b then true else if lt b a then false
        else decide (x.2.1 < y.2.1 ∨ (x.2.1 = y.2.1 ∧ x.2.2 ≤ y.2.2))
      | none, none => decide (x.2.1 < y.2.1 ∨ (x.2.1 = y.2.1 ∧ x.2.2 ≤ y.2.2))
      | none, some _ => true
      | some _, none => false := ⟨_, rfl⟩
  have hsort : (rowOrder (.grouped κ avg lt) perm seed c rows).map f = ((List.range rows.length).map f).mergeSort s := by
    simp only [rowOrder]
    apply List.map_mergeSort
    intro i hi j hj
    have hi := List.mem_range.1 hi
    have hj := List.mem_range.1 hj
    simp only [hs, hf, List.getElem?_eq_getElem hi, List.getElem?_eq_getElem hj, Option.map_some]
  have hpw : ((rowOrder (.grouped κ avg lt) perm seed c rows).map f).Pairwise (fun x y => s x y = true) := by
    rw [hsort]
    apply List.pairwise_mergeSort
    · rintro ⟨_ | a, n, i⟩ ⟨_ | b, m, j⟩ ⟨_ | d, k, l⟩ h1 h2 <;> simp only [hs, decide_eq_true_eq, Bool.false_eq_true] at h1 h2 ⊢ <;> try omega
      by_cases hab : lt a b = true
      · by_cases had : lt a d = true
        · rw [if_pos had]
        · exfalso
          have hda : lt d b = true := by
            cases h : lt d b with
            | true => rfl
            | false => exact absurd (hneg a d b (by simpa using had) h) (by simp [hab])
          rw [if_neg (by simp [hasym d b hda]), if_pos hda] at h2
          cases h2
      · rw [if_neg hab] at h1
        by_cases hba : lt b a = true
        · rw [if_pos hba] at h1; cases h1
        · rw [if_neg hba] at h1
          by_cases hbd : lt b d = true
          · have : lt a d = true := by
              cases h : lt a d with
              | true => rfl
              | false => exact absurd (hneg b a d (by simpa using hba) h) (by simp [hbd])
            rw [if_pos this]
          · rw [if_neg hbd] at h2
            by_cases hdb : lt d b = true
            · rw [if_pos hdb] at h2; cases h2
            · rw [if_neg hdb] at h2
              have h3 : lt a d = false := hneg a b d (by simpa using hab) (by simpa using hbd)
              have h4 : lt d a = false := hneg d b a (by simpa using hdb) (by simpa using hba)
              rw [if_neg (by simp [h3]), if_neg (by simp [h4])]
              simp only [decide_eq_true_eq] at h1 h2 ⊢
              omega
    · rintro ⟨_ | a, n, i⟩ ⟨_ | b, m, j⟩ <;> simp only [hs, Bool.or_true, Bool.true_or, Bool.or_false, Bool.false_or, Bool.or_eq_true, decide_eq_true_eq]
      · omega
      · by_cases hab : lt a b = true
        · simp [hab]
        · by_cases hba : lt b a = true
          · simp [hba]
          · simp only [hab, hba, if_false, Bool.false_eq_true, decide_eq_true_eq]
            omega
  have hpw := List.pairwise_map.1 hpw
  refine ⟨?_, hpw.imp ?_⟩
  · rw [emitBatch, List.pairwise_filterMap]
    refine hpw.imp ?_
    intro i j h r hr r' hr'
    simp only [hs, hf, hr, hr', Option.map_some] at h
    cases hlt : lt (avg r') (avg r) with
    | false => rfl
    | true => rw [if_neg (by simp [hasym _ _ hlt]), if_pos hlt] at h; cases h
  · intro i j h ri rj hri hrj hlt
    simp only [hs, hf, hri, hrj, Option.map_some] at h
    rw [if_neg (by simp [hlt])] at h
    split at h
    · cases h
    · simp only [decide_eq_true_eq] at h
      omega

example : (emitBatch (rowOrder (.grouped Nat (fun r : List Nat => r.sum) (fun a b => decide (a < b))) (fun _ n => (List.range n).reverse) 0) 0
    [[5], [1, 1], [2]]).Pairwise (fun r r' => decide (r'.sum < r.sum) = false) :=
  (grouped_rows_ascending (fun r : List Nat => r.sum) (fun a b => decide (a < b)) (fun a b h => by simp at h ⊢; omega) (fun a b d h h' => by simp at h h' ⊢; omega) _ _ _ _).1

end Grain
