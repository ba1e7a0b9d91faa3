import Verif.MapDs.SeqLemmas
import Verif.MapDs.PropsGetitems
/-
C07 concatenation, C08 slicing, C09 strided slices, C10 batching, C12 repetition, C13 zip, C14 filter, C15 flat map
(random access versions), C50 ranges and their worker slices.
The vocabulary (`epoch`, `pySlicePositions`, `roundRobin`, `group`) is in `Verif/MapDs/Spec.lean`.
-/
namespace Grain
open List

/-! ### C07 -/

/-- C07: epoch `e` of a concatenation is epoch `e` of its components, one after the other; the length is the sum
of the lengths.  The constructor rejects only components of length `sys.maxsize` or more. -/
theorem concat_epoch (ps : List (MapDs α)) (h : ∀ p ∈ ps, p.len < maxsize) (e : Int) :
    ∃ sm, selConcat (ps.map (·.len)) = .ok sm ∧ (mixDs sm ps).len = (ps.map (·.len)).sum ∧
      epoch (mixDs sm ps) e = (ps.map (fun p => epoch p e)).flatten := by
  unfold selConcat
  rw [if_neg (by simp only [List.any_map, List.any_eq_true, not_exists]; intro p hp; have := h p hp.1; simp at hp; omega)]
  refine ⟨_, rfl, ?_, ?_⟩
  · simp only [mixDs, cumulative_last]; omega
  · apply List.ext_getElem?
    intro i
    by_cases hi : i < (ps.map (·.len)).sum
    · obtain ⟨d, p, base, e1, e2, e3, e4, e5, e6⟩ := concat_locate
        (fun p (i : Nat) => p.getitem (e * (p.len : Int) + (i : Int))) ps 0 i (by omega) (by omega)
      rw [Nat.sub_zero] at e6
      unfold epoch
      rw [e6]
      have hl : i < (cumulative (ps.map (·.len)) 0).getLastD 0 := by rw [cumulative_last]; omega
      rw [List.getElem?_map, List.getElem?_range (by simpa [mixDs] using hl), Option.map_some]
      congr 1
      simp only [mixDs, pydivmod_epoch e _ i hl]
      have hd : (ps.map (·.len))[d]? = some p.len := by rw [List.getElem?_map, e2]; rfl
      simp only [bind, Except.bind, e1, Nat.add_sub_cancel, pyget, hd, e3, e2]
      congr 1
      have : ((i - base : Nat) : Int) = (i : Int) - (base : Int) := by omega
      rw [this]; ring
    · rw [List.getElem?_eq_none, List.getElem?_eq_none]
      · simp only [List.length_flatten, List.map_map]
        have : (ps.map (List.length ∘ fun p => epoch p e)) = ps.map (·.len) := by
          apply List.map_congr_left; intro p _; simp [epoch_length]
        rw [this]; omega
      · rw [epoch_length]; simp only [mixDs, cumulative_last]; omega

example : (selConcat [2, 0, 3]).toOption.map (fun sm =>
    (epoch (mixDs sm [listSource [1, 2], listSource [], listSource [3, 4, 5]]) 0)) =
    some [.ok (some 1), .ok (some 2), .ok (some 3), .ok (some 4), .ok (some 5)] := by decide

/-! ### C08 -/

/-- C08: slicing is rejected exactly for step 0. -/
theorem slice_rejects_iff (start stop step : Option Int) (n : Nat) :
    (SliceSpec.make start stop step n = .error .valueError ∧ step.getD 1 = 0) ∨
      ((∃ s, SliceSpec.make start stop step n = .ok s) ∧ step.getD 1 ≠ 0) := by
  unfold SliceSpec.make sliceIndices
  by_cases h : step.getD 1 = 0
  · left; simp [h, bind, Except.bind]
  · right; simp [h, bind, Except.bind]

/-- C08: `ds[start:stop:step]` reads exactly the positions Python's slicing selects, in the same order, in every
epoch; in particular (epoch 0) `list(ds[start:stop:step]) == list(ds)[start:stop:step]` and the lengths agree. -/
theorem slice_epoch (p : MapDs α) (start stop step : Option Int) (s : SliceSpec)
    (h : SliceSpec.make start stop step p.len = .ok s) (e : Int) :
    epoch (sliceDs s p) e =
      (pySlicePositions start stop (step.getD 1) p.len).map (fun x => p.getitem (e * (p.len : Int) + x)) := by
  obtain ⟨h1, h2⟩ := slice_positions start stop step p.len s h
  rw [h2, List.map_map]
  unfold epoch
  apply List.map_congr_left
  intro i hi
  have hi : i < s.length := by simpa [sliceDs] using hi
  simp only [sliceDs, SliceSpec.slicedIndex, pydivmod_epoch e _ i hi]
  simp only [bind, Except.bind, Function.comp, h1]
  congr 1
  ring

theorem slice_len (p : MapDs α) (start stop step : Option Int) (s : SliceSpec)
    (h : SliceSpec.make start stop step p.len = .ok s) :
    (sliceDs s p).len = (pySlicePositions start stop (step.getD 1) p.len).length := by
  rw [(slice_positions start stop step p.len s h).2]; simp [sliceDs]

/-- C08: every selected position is a position of the sliced dataset (no read outside epoch 0). -/
theorem slice_positions_in_range (start stop : Option Int) (step : Int) (n : Nat) :
    ∀ x ∈ pySlicePositions start stop step n, 0 ≤ x ∧ x < n := by
  intro x hx
  unfold pySlicePositions at hx
  split at hx <;>
  · simp only [List.mem_filter, List.mem_reverse, List.mem_map, List.mem_range] at hx
    obtain ⟨⟨y, hy, rfl⟩, _⟩ := hx
    omega

-- the specification on Python's own examples, and the constructor on them
example : pySlicePositions (some (-3)) none 2 7 = [4, 6] ∧ pySlicePositions none none (-2) 6 = [5, 3, 1] ∧
    pySlicePositions (some 10) (some (-5)) (-1) 7 = [6, 5, 4, 3] ∧ pySlicePositions (some 2) (some 100) 1 5 = [2, 3, 4] := by
  decide
example : SliceSpec.make (some 10) (some (-5)) (some (-1)) 7 = .ok ⟨7, 6, 2, -1, 4⟩ := by decide

/-- C08: `ds.slice(indices)` reads in every epoch the positions given, in the order given. -/
theorem reindex_epoch (p : MapDs α) (ix : List Int) (e : Int) :
    (reindexDs ix p).len = ix.length ∧ epoch (reindexDs ix p) e = ix.map (fun x => p.getitem (e * (p.len : Int) + x)) := by
  refine ⟨rfl, ?_⟩
  apply List.ext_getElem?
  intro i
  by_cases hi : i < ix.length
  · rw [epoch_getElem? _ e i (by exact hi), List.getElem?_map, List.getElem?_eq_getElem hi]
    simp only [reindexDs, reindexedIndex, pydivmod_epoch e _ i hi, bind, Except.bind, pyget, Int.toNat_natCast, List.getElem?_eq_getElem hi,
      Option.map_some]
    rw [Int.add_comm]
  · rw [List.getElem?_eq_none (by rw [epoch_length]; simpa [reindexDs] using hi), List.getElem?_eq_none (by simpa using hi)]

/-- C08: for positions inside the dataset these are the elements of the same epoch. -/
theorem reindex_same_epoch (p : MapDs α) (ix : List Int) (e : Int) (h : ∀ x ∈ ix, 0 ≤ x ∧ x < p.len) :
    (epoch (reindexDs ix p) e).map some = ix.map (fun x => (epoch p e)[x.toNat]?) := by
  rw [(reindex_epoch p ix e).2, List.map_map]
  apply List.map_congr_left
  intro x hx
  obtain ⟨h1, h2⟩ := h x hx
  rw [epoch_getElem? p e x.toNat (by omega), Int.toNat_of_nonneg h1]
  rfl

/-- C08: taking every position once permutes every epoch. -/
theorem reindex_permutes (p : MapDs α) (ix : List Int) (e : Int) (h : ix.Perm ((List.range p.len).map (fun (i : Nat) => (i : Int)))) :
    (epoch (reindexDs ix p) e).Perm (epoch p e) := by
  rw [(reindex_epoch p ix e).2]
  refine (h.map _).trans ?_
  rw [List.map_map]
  exact List.Perm.refl _

/-- C08: slicing is taking the positions Python's slicing selects. -/
theorem slice_is_reindex (p : MapDs α) (start stop step : Option Int) (s : SliceSpec)
    (h : SliceSpec.make start stop step p.len = .ok s) (e : Int) :
    epoch (sliceDs s p) e = epoch (reindexDs (pySlicePositions start stop (step.getD 1) p.len) p) e := by
  rw [slice_epoch p start stop step s h e, (reindex_epoch p _ e).2]

/-- C08: the indices may come from a dataset of integers without filtered entries; its first epoch is used in every epoch. -/
theorem reindex_by_dataset (p : MapDs α) (ix : MapDs Int) (xs : List Int) (h : epoch ix 0 = xs.map (fun x => .ok (some x))) (e : Int) :
    epoch (reindexByDs ix p) e = epoch (reindexDs xs p) e := by
  have hl : ix.len = xs.length := by simpa [epoch_length] using congrArg List.length h
  rw [(reindex_epoch p xs e).2]
  apply List.ext_getElem?
  intro i
  by_cases hi : i < ix.len
  · have h1 := congrArg (fun l => l[i]?) h
    simp only [epoch_getElem? ix 0 i hi, List.getElem?_map, List.getElem?_eq_getElem (hl ▸ hi), Option.map_some, Option.some.injEq,
      Int.zero_mul, Int.zero_add] at h1
    rw [epoch_getElem? _ e i (by exact hi), List.getElem?_map, List.getElem?_eq_getElem (by omega)]
    simp only [reindexByDs, pydivmod_epoch e _ i hi, bind, Except.bind, h1, Option.map_some]
    rw [Int.add_comm]
  · rw [List.getElem?_eq_none (by rw [epoch_length]; simpa [reindexByDs] using hi), List.getElem?_eq_none (by simp; omega)]

/-- Positions outside the dataset are not rejected: they are read from another epoch (here the last element of the epoch before, and the
first one of the epoch after; of a shuffled dataset these are other elements than those at the end and the beginning of the epoch). -/
theorem reindex_reads_other_epochs (p : MapDs α) (e : Int) :
    epoch (reindexDs [-1, p.len] p) e = [p.getitem (e * p.len - 1), p.getitem ((e + 1) * p.len)] := by
  rw [(reindex_epoch p _ e).2]
  simp only [List.map_cons, List.map_nil]
  congr 3
  ring

example : epoch (reindexDs [3, 1, 4, 1, 5] (listSource [0, 1, 2, 3, 4, 5])) 1 = [.ok (some 3), .ok (some 1), .ok (some 4), .ok (some 1), .ok (some 5)] ∧
    epoch (reindexByDs (listSource [0, 1, 2]) (listSource [7, 8, 9, 10])) 0 = [.ok (some 7), .ok (some 8), .ok (some 9)] := by decide

/-! ### C09 -/

theorem stride_positions (i n L : Nat) (hn : 0 < n) :
    pySlicePositions (some (i : Int)) none (n : Int) L =
      ((List.range L).filter (fun x => decide (i ≤ x) && decide ((x - i) % n = 0))).map (fun (x : Nat) => (x : Int)) := by
  unfold pySlicePositions
  rw [if_pos (by omega), List.filter_map]
  congr 1
  apply List.filter_congr
  intro x _
  have : ¬ ((i : Int) < 0) := by omega
  simp only [Option.map_some, Option.getD_some, this, if_false, Function.comp]
  have e : max (0 : Int) i = i := by omega
  rw [e]
  by_cases hx : i ≤ x
  · have : ((x : Int) - (i : Int)) % (n : Int) = 0 ↔ (x - i) % n = 0 := by
      rw [← Int.ofNat_sub hx]; norm_cast
    simp [hx, this]
  · simp [hx]

private theorem stride_length (i n L : Nat) (hn : 0 < n) (k : Nat) :
    k < rangeLen (i : Int) (L : Int) (n : Int) ↔ i + k * n < L := by
  rw [rangeLen_pos _ _ _ (by omega)]
  norm_cast

private theorem foldl_max_ge (ls : List (List β)) : ∀ m, m ≤ ls.foldl (fun m l => max m l.length) m ∧
    ∀ l ∈ ls, l.length ≤ ls.foldl (fun m l => max m l.length) m := by
  induction ls with
  | nil => intro m; simp
  | cons a ls ih =>
    intro m
    rw [List.foldl_cons]
    obtain ⟨h1, h2⟩ := ih (max m a.length)
    refine ⟨by omega, ?_⟩
    intro l hl
    rcases List.mem_cons.mp hl with rfl | hl
    · omega
    · exact h2 l hl

private theorem filterMap_range_getElem? (xs : List β) : ∀ M, xs.length ≤ M →
    (List.range M).filterMap (fun x => xs[x]?) = xs := by
  induction xs with
  | nil => intro M _; simp
  | cons x xs ih =>
    intro M hM
    obtain ⟨M, rfl⟩ : ∃ m, M = m + 1 := ⟨M - 1, by simp at hM; omega⟩
    rw [List.range_succ_eq_map, List.filterMap_cons_some (by simp; rfl), List.filterMap_map]
    congr 1
    rw [← ih M (by simpa using hM)]
    rw [ih M (by simpa using hM)]
    exact ih M (by simpa using hM)

private theorem filterMap_flatMap' (f : β → Option γ) (g : δ → List β) (l : List δ) :
    (l.flatMap g).filterMap f = l.flatMap (fun d => (g d).filterMap f) := by
  induction l with
  | nil => rfl
  | cons a l ih => simp [List.filterMap_append, ih]

/-- Element `k` of the strided slice `ds[i::n]`. -/
theorem strided_slice_get (p : MapDs α) (n : Nat) (hn : 0 < n) (i : Nat) (s : SliceSpec)
    (h : SliceSpec.make (some (i : Int)) none (some (n : Int)) p.len = .ok s) (e : Int) (k : Nat) :
    (epoch (sliceDs s p) e)[k]? = (epoch p e)[k * n + i]? := by
  rw [slice_epoch p _ _ _ s h e]
  have hL : pySlicePositions (some (i : Int)) none (n : Int) p.len =
      (List.range (rangeLen (i : Int) (p.len : Int) (n : Int))).map (fun (q : Nat) => (i : Int) + q * (n : Int)) := by
    unfold pySlicePositions
    rw [if_pos (by omega)]
    apply slice_positions_pos _ _ _ _ (by omega) (by omega) (by omega)
    intro x hx0 hx1
    have h1 : ¬ ((i : Int) < 0) := by omega
    simp only [Option.map_some, Option.getD_some, h1, if_false]
    have e : max (0 : Int) i = i := by omega
    rw [e]
    simp [hx1]
  rw [Option.getD_some, hL, List.map_map, List.getElem?_map]
  by_cases hk : k < rangeLen (i : Int) (p.len : Int) (n : Int)
  · rw [List.getElem?_range hk]
    have hk' := (stride_length i n p.len hn k).mp hk
    rw [epoch_getElem? p e _ (by omega)]
    simp only [Option.map_some, Function.comp]
    congr 2
    push_cast; ring
  · rw [List.getElem?_eq_none (by simpa using hk)]
    have hk' : ¬ (i + k * n < p.len) := fun hh => hk ((stride_length i n p.len hn k).mpr hh)
    rw [List.getElem?_eq_none (by rw [epoch_length]; omega)]
    rfl

/-- C09: reading the `n` strided slices `ds[0::n], …, ds[n-1::n]` round robin, skipping exhausted ones, gives back
the dataset in its original order (so the slices are also a partition), in every epoch. -/
theorem strided_slices_recombine (p : MapDs α) (n : Nat) (hn : 0 < n) (s : Nat → SliceSpec)
    (h : ∀ i < n, SliceSpec.make (some (i : Int)) none (some (n : Int)) p.len = .ok (s i)) (e : Int) :
    roundRobin ((List.range n).map (fun i => epoch (sliceDs (s i) p) e)) = epoch p e := by
  have hpos : ∀ i < n, ∀ k : Nat, (epoch (sliceDs (s i) p) e)[k]? = (epoch p e)[k * n + i]? :=
    fun i hi k => strided_slice_get p n hn i (s i) (h i hi) e k
  unfold roundRobin
  obtain ⟨_, hM⟩ := foldl_max_ge ((List.range n).map (fun i => epoch (sliceDs (s i) p) e)) 0
  generalize List.foldl (fun m (l : List (Py (Option α))) => max m l.length) 0
    ((List.range n).map (fun i => epoch (sliceDs (s i) p) e)) = M at hM
  have hMn : p.len ≤ M * n := by
    by_contra hc
    have h0 := hM (epoch (sliceDs (s 0) p) e) (by simp; exact ⟨0, hn, rfl⟩)
    have := hpos 0 hn M
    rw [List.getElem?_eq_none h0, epoch_getElem? p e _ (by omega)] at this
    cases this
  have h2 : ∀ k, ((List.range n).map (fun i => epoch (sliceDs (s i) p) e)).filterMap (fun l => l[k]?) =
      ((List.range n).map (fun i => k * n + i)).filterMap (fun x => (epoch p e)[x]?) := by
    intro k
    rw [List.filterMap_map, List.filterMap_map]
    apply List.filterMap_congr
    intro i hi
    exact hpos i (List.mem_range.mp hi) k
  simp only [h2]
  rw [← filterMap_flatMap', ← range_mul]
  exact filterMap_range_getElem? _ _ (by rw [epoch_length]; exact hMn)

example : (∀ i < 3, ∃ s, SliceSpec.make (some ((i : Nat) : Int)) none (some 3) 7 = .ok s) ∧
    roundRobin [[0, 3, 6], [1, 4], [2, 5]] = [0, 1, 2, 3, 4, 5, 6] := by
  refine ⟨?_, by decide⟩
  intro i hi
  rcases slice_rejects_iff (some (i : Int)) none (some 3) 7 with ⟨_, h⟩ | ⟨h, _⟩
  · simp at h
  · exact h

/-! ### C10 -/

/-- C10: batch `i` of epoch `e` is made of exactly group `i` of the parent's epoch `e` (so batches never mix
epochs): it is the batch function applied to these reads, in order. -/
theorem batch_getitem (p : MapDs α) (b : Nat) (drop : Bool) (f : List (Option α) → Py (Option β)) (e : Int) (i : Nat)
    (hb : 0 < b) (hi : i < (batchDs b drop false f p).len) :
    (batchDs b drop false f p).getitem (e * ((batchDs b drop false f p).len : Int) + (i : Int)) =
      (do let vs ← (group (epoch p e) b i).mapM id; f vs) := by
  have hlen : (batchDs b drop false f p).len = batchLen p.len b drop := rfl
  rw [hlen] at hi ⊢
  simp only [batchDs, pydivmod_epoch e _ i hi]
  simp only [bind, Except.bind]
  have hle : i * b ≤ p.len := by
    have : i < (p.len + b - 1) / b := by
      unfold batchLen at hi
      split at hi
      · exact Nat.lt_of_lt_of_le hi (Nat.div_le_div_right (by omega))
      · exact hi
    have := (Nat.le_div_iff_mul_le hb).mp (Nat.succ_le_of_lt this)
    rw [Nat.succ_mul] at this
    omega
  have hreads : (pyRange ((i : Int) * (b : Int) + e * (p.len : Int))
      (min (p.len : Int) (((i : Int) + 1) * (b : Int)) + e * (p.len : Int))).map p.getitem = group (epoch p e) b i := by
    apply List.ext_getElem?
    intro k
    unfold group pyRange
    have hc : (((i : Int) + 1) * (b : Int)) = (((i + 1) * b : Nat) : Int) := by push_cast; ring
    have hc2 : (i + 1) * b = i * b + b := by ring
    rw [List.getElem?_take, List.getElem?_drop]
    by_cases hk : k < b ∧ i * b + k < p.len
    · rw [if_pos hk.1, epoch_getElem? p e _ hk.2, List.map_map, List.getElem?_map, List.getElem?_range (by rw [hc]; omega)]
      simp only [Option.map_some, Function.comp]
      congr 2
      push_cast; ring
    · rw [List.getElem?_eq_none (by simp; rw [hc]; omega)]
      split
      · rw [List.getElem?_eq_none (by rw [epoch_length]; omega)]
      · rfl
  rw [← hreads, List.mapM_map]
  rfl

/-- C10, with the batched-read experiment on: the same batch, for every pipeline `p`. -/
theorem batch_pushdown (p : MapDs α) (hp : Pipeline p) (b : Nat) (drop : Bool) (f : List (Option α) → Py (Option β))
    (i : Int) (v : Option β) :
    (batchDs b drop true f p).getitem i = .ok v ↔ (batchDs b drop false f p).getitem i = .ok v := by
  simp only [batchDs]
  rw [bind_ok_iff, bind_ok_iff]
  apply exists_congr
  rintro ⟨ep, ix⟩
  apply and_congr_right
  intro _
  simp only [if_true, Bool.false_eq_true, if_false]
  rw [bind_ok_iff, bind_ok_iff]
  apply exists_congr
  intro vs
  rw [getitems_eq_map_getitem p hp]

/-- C10: the groups are a partition of the sequence into consecutive pieces: together they are the whole sequence
(or, dropping the remainder, the first `⌊L/b⌋ * b` elements), each has at most `b` elements, and all but the last
(all of them, when dropping the remainder) exactly `b`. -/
theorem batch_groups (xs : List α) (b : Nat) (hb : 0 < b) (drop : Bool) :
    ((List.range (batchLen xs.length b drop)).map (group xs b)).flatten =
        (if drop then xs.take (xs.length / b * b) else xs) ∧
      (∀ i < batchLen xs.length b drop, 0 < (group xs b i).length ∧ (group xs b i).length ≤ b) ∧
      (∀ i, i + 1 < batchLen xs.length b drop ∨ (drop = true ∧ i < batchLen xs.length b drop) →
        (group xs b i).length = b) := by
  have hflat : ∀ m, ((List.range m).map (group xs b)).flatten = xs.take (m * b) := by
    intro m
    induction m with
    | zero => simp
    | succ m ih =>
      rw [List.range_succ, List.map_append, List.flatten_append, ih, Nat.succ_mul]
      simp only [List.map_cons, List.map_nil, List.flatten_cons, List.flatten_nil, List.append_nil, group]
      rw [List.take_add]
  have hlt : ∀ i < batchLen xs.length b drop, i * b < xs.length := by
    intro i hi
    have h1 : i < (xs.length + b - 1) / b := by
      unfold batchLen at hi
      split at hi
      · exact Nat.lt_of_lt_of_le hi (Nat.div_le_div_right (by omega))
      · exact hi
    have := (Nat.le_div_iff_mul_le hb).mp (Nat.succ_le_of_lt h1)
    rw [Nat.succ_mul] at this
    omega
  have hgl : ∀ i, (group xs b i).length = min b (xs.length - i * b) := by intro i; simp [group]
  refine ⟨?_, ?_, ?_⟩
  · rw [hflat]
    unfold batchLen
    cases drop with
    | true => simp
    | false =>
      simp only [Bool.false_eq_true, if_false]
      apply List.take_of_length_le
      have := Nat.div_add_mod (xs.length + b - 1) b
      have := Nat.mod_lt (xs.length + b - 1) hb
      rw [Nat.mul_comm]; omega
  · intro i hi
    have := hlt i hi
    rw [hgl]; omega
  · rintro i (hi | ⟨rfl, hi⟩)
    · have := hlt (i + 1) hi
      rw [Nat.succ_mul] at this
      rw [hgl]; omega
    · unfold batchLen at hi
      simp only [if_true] at hi
      have := (Nat.le_div_iff_mul_le hb).mp (Nat.succ_le_of_lt hi)
      rw [Nat.succ_mul] at this
      rw [hgl]; omega

example : (List.range (batchLen 7 3 false)).map (group [0, 1, 2, 3, 4, 5, 6] 3) = [[0, 1, 2], [3, 4, 5], [6]] ∧
    (List.range (batchLen 7 3 true)).map (group [0, 1, 2, 3, 4, 5, 6] 3) = [[0, 1, 2], [3, 4, 5]] := by decide

/-! ### C12 -/

/-- C12: `repeat(n)` is rejected exactly for `n ≤ 0` or a parent that is already infinite, otherwise has length
`n * len`; infinite repetition has length `sys.maxsize` (0 for an empty parent). -/
theorem repeat_len (L : Nat) :
    (∀ n : Int, 0 < n → L < maxsize → repeatLen L (some n) = .ok (n.toNat * L)) ∧
    (L < maxsize → repeatLen L none = .ok (if L = 0 then 0 else maxsize)) ∧
    (∀ n : Int, n ≤ 0 → repeatLen L (some n) = .error .valueError) ∧
    (∀ n, maxsize ≤ L → repeatLen L n = .error .valueError) := by
  refine ⟨?_, ?_, ?_, ?_⟩
  · intro n hn hL; unfold repeatLen; simp [show ¬ n ≤ 0 by omega, show ¬ L ≥ maxsize by omega]
  · intro hL; unfold repeatLen; simp [show ¬ L ≥ maxsize by omega]
  · intro n hn; unfold repeatLen; simp [hn]
  · intro n hL; unfold repeatLen; split <;> simp [show L ≥ maxsize from hL]

/-- C12: element `i` of repetition `e` is the parent's element `i` of epoch `e`, or of epoch 0 when reseeding is
off. -/
theorem repeat_getitem (p : MapDs α) (n : Nat) (reseed : Bool) (e : Int) (i : Nat) (hi : i < p.len) :
    (repeatDs n reseed p).getitem (e * (p.len : Int) + (i : Int)) =
      p.getitem ((if reseed then e else 0) * (p.len : Int) + (i : Int)) := by
  cases reseed with
  | true => simp [repeatDs, bind, Except.bind]
  | false => simp [repeatDs, pymod_epoch e p.len i hi, bind, Except.bind]

/-- C12: `list(ds.repeat(n))` is the parent's epochs `0, …, n-1` one after the other (or `n` times epoch 0). -/
theorem repeat_epoch (p : MapDs α) (n : Nat) (reseed : Bool) :
    epoch (repeatDs (n * p.len) reseed p) 0 =
      (List.range n).flatMap (fun (e : Nat) => epoch p (if reseed then (e : Int) else 0)) := by
  unfold epoch
  have : (repeatDs (n * p.len) reseed p).len = n * p.len := rfl
  rw [this, range_mul, List.map_flatMap]
  congr 1
  funext e
  rw [List.map_map]
  apply List.map_congr_left
  intro i hi
  have := repeat_getitem p (n * p.len) reseed e i (List.mem_range.mp hi)
  simp only [Function.comp, Int.zero_mul, Int.zero_add]
  push_cast
  rw [this]

example : (repeatLen 3 (some 2)) = .ok 6 ∧ epoch (repeatDs 6 false (listSource [7, 8, 9])) 0 =
    [.ok (some 7), .ok (some 8), .ok (some 9), .ok (some 7), .ok (some 8), .ok (some 9)] := by decide

/-! ### C13 -/

/-- C13 (random access): zipping is possible exactly when there is a parent and all have the same length. -/
theorem zip_len_iff (ls : List Nat) (n : Nat) : zipLen ls = .ok n ↔ ls ≠ [] ∧ ∀ l ∈ ls, l = n := by
  unfold zipLen
  cases ls with
  | nil => simp
  | cons a ls =>
    simp only [List.all_eq_true, beq_iff_eq]
    constructor
    · intro h
      split at h
      · rename_i hall
        have := Except.ok.inj h
        subst this
        refine ⟨by simp, ?_⟩
        intro l hl
        rcases List.mem_cons.mp hl with rfl | hl
        · rfl
        · exact (hall l hl).symm
      · cases h
    · rintro ⟨_, h⟩
      rw [if_pos]
      · rw [h a (by simp)]
      · intro x hx; rw [h a (by simp), h x (by simp [hx])]

theorem zip_len_error (ls : List Nat) : (∀ n, zipLen ls ≠ .ok n) → zipLen ls = .error .valueError := by
  intro h
  unfold zipLen at *
  cases ls with
  | nil => rfl
  | cons a ls => simp only at h ⊢; split at h <;> simp_all

/-- C13 (random access): element `i` is the tuple of the parents' elements `i`, for every index; it is never
missing and fails only if a parent's read fails. -/
theorem zip_getitem (ps : List (MapDs α)) (n : Nat) (i : Int) (v : Option (List (Option α))) :
    (zipDs n ps).getitem i = .ok v ↔ ∃ es, v = some es ∧ Forall₂ (fun p x => p.getitem i = .ok x) ps es := by
  simp only [zipDs, bind_ok_iff, mapM_ok_iff]
  constructor
  · rintro ⟨es, h1, h2⟩; exact ⟨es, (Except.ok.inj h2).symm, h1⟩
  · rintro ⟨es, rfl, h⟩; exact ⟨es, h, rfl⟩

example : zipLen [2, 2] = .ok 2 ∧ zipLen [2, 3] = .error .valueError ∧
    epoch (zipDs 2 [listSource [1, 2], listSource [3, 4]]) 0 =
      [.ok (some [some 1, some 3]), .ok (some [some 2, some 4])] := by decide

/-! ### C14, C15 -/

/-- C14 (random access): filtering keeps the length and the indices; it returns the parent's element where the
predicate holds and nothing where it does not (or where the parent has nothing). -/
theorem filter_getitem (p : MapDs α) (pred : α → Bool) (i : Int) :
    (filterDs (fun a => .ok (pred a)) p).len = p.len ∧
    (filterDs (fun a => .ok (pred a)) p).getitem i = (p.getitem i).map (fun x => x.filter pred) := by
  refine ⟨rfl, ?_⟩
  simp only [filterDs]
  cases h : p.getitem i with
  | error e => rfl
  | ok x =>
    cases x with
    | none => rfl
    | some a => cases hp : pred a <;> simp [bind, Except.bind, Except.map, Option.filter, hp]

/-- C15 (random access): with fan-out bound `m ≥ 1`, the positions `q*m, …, q*m+m-1` hold the outputs of parent
element `q`, padded with missing elements. -/
theorem flatMap_getitem (p : MapDs α) (m : Nat) (f : α → List (Option β)) (q : Int) (j : Nat) (hj : j < m) :
    (flatMapDs m (fun a => .ok (f a)) p).getitem (q * (m : Int) + (j : Int)) =
      (do match (← p.getitem q) with
          | none => .ok none
          | some a => if (f a).length ≤ m then .ok ((f a)[j]?.getD none) else .error .valueError) := by
  simp only [flatMapDs, pydivmod_epoch q m j hj]
  cases h : p.getitem q with
  | error e => simp [bind, Except.bind, h]
  | ok x =>
    cases x with
    | none => simp [bind, Except.bind, h]
    | some a =>
      simp only [bind, Except.bind, h, Int.toNat_natCast]
      by_cases hm : (f a).length ≤ m
      · rw [if_neg (by omega), if_pos hm]
        cases (f a)[j]? <;> rfl
      · rw [if_pos (by omega), if_neg hm]

/-- C15 (random access): the length, below the `sys.maxsize` cap. -/
theorem flatMap_len (p : MapDs α) (m : Nat) (f : α → Py (List (Option β))) :
    (flatMapDs m f p).len = min maxsize (m * p.len) := by
  simp only [flatMapDs, Nat.mul_comm p.len m]
  split <;> omega

/-- C15 (random access): dropping the missing elements, a `flat_map` is the concatenation of the fan-outs. -/
theorem flatMap_epoch (p : MapDs α) (m : Nat) (f : α → List β) (x : Nat → α)
    (hx : ∀ i < p.len, p.getitem (i : Int) = .ok (some (x i))) (hm : ∀ i < p.len, (f (x i)).length ≤ m)
    (hmax : m * p.len ≤ maxsize) :
    (epoch (flatMapDs m (fun a => .ok ((f a).map some)) p) 0).filterMap (fun r => match r with
        | .ok v => v
        | .error _ => none) = (List.range p.len).flatMap (fun i => f (x i)) := by
  unfold epoch
  rw [flatMap_len, Nat.min_eq_right hmax, Nat.mul_comm m, range_mul, List.map_flatMap, filterMap_flatMap']
  apply List.flatMap_congr
  intro i hi
  have hi := List.mem_range.mp hi
  rw [List.map_map, List.filterMap_map]
  refine Eq.trans ?_ (filterMap_range_getElem? (f (x i)) m (hm i hi))
  apply List.filterMap_congr
  intro j hj
  have hj := List.mem_range.mp hj
  have := flatMap_getitem p m (fun a => (f a).map some) (i : Int) j hj
  simp only [Function.comp, Int.zero_mul, Int.zero_add]
  push_cast
  rw [this, hx i hi]
  simp only [bind, Except.bind, List.length_map, if_pos (hm i hi), List.getElem?_map]
  cases (f (x i))[j]? <;> rfl

example : epoch (flatMapDs 2 (fun a => .ok ((List.replicate a a).map some)) (listSource [1, 0, 2])) 0 =
    [.ok (some 1), .ok none, .ok none, .ok none, .ok (some 2), .ok (some 2)] := by decide

/-! ### C50 -/

/-- C50: `MapDataset.range` is rejected exactly for step 0. -/
theorem range_rejects_iff (start : Int) (stop : Option Int) (step : Int) :
    RangeDs.make start stop step = .error .valueError ↔ step = 0 := by
  unfold RangeDs.make; simp only; split <;> simp_all

/-- The sequence `range(start, stop, step)` denotes, from the Python reference: `r[i] = start + step*i` for
`i ≥ 0` as long as `r[i] < stop` (`> stop` for a negative step). -/
def IsPyRange (start stop step : Int) (l : List Int) : Prop :=
  (∀ i (h : i < l.length), l[i] = start + i * step ∧ (if step > 0 then l[i] < stop else stop < l[i])) ∧
  ¬ (if step > 0 then start + l.length * step < stop else stop < start + l.length * step)

/-- C50: `list(MapDataset.range(start, stop, step))` is Python's range, in every epoch. -/
theorem range_epoch (start : Int) (stop : Option Int) (step : Int) (r : RangeDs)
    (h : RangeDs.make start stop step = .ok r) (e : Int) :
    ∃ l, epoch r.toDs e = l.map (fun x => .ok (some x)) ∧
      (match stop with | none => IsPyRange 0 start step l | some s => IsPyRange start s step l) := by
  unfold RangeDs.make at h
  simp only at h
  split at h
  · cases h
  rename_i h0
  replace h := Except.ok.inj h
  subst h
  refine ⟨(List.range (rangeLen (match stop with | none => 0 | some _ => start)
    (match stop with | none => start | some e => e) step)).map
      (fun (i : Nat) => (match stop with | none => 0 | some _ => start) + i * step), ?_, ?_⟩
  · unfold epoch
    rw [List.map_map]
    apply List.map_congr_left
    intro i hi
    have hi := List.mem_range.mp hi
    simp only [RangeDs.toDs] at hi
    simp only [RangeDs.toDs, RangeDs.getitem, pymod_epoch e _ i hi]
    rfl
  · have key : ∀ s t : Int, IsPyRange s t step ((List.range (rangeLen s t step)).map (fun (i : Nat) => s + i * step)) := by
      intro s t
      by_cases hs : step > 0
      · refine ⟨?_, ?_⟩
        · intro i hi
          simp only [List.length_map, List.length_range] at hi
          simp only [List.getElem_map, List.getElem_range, if_pos hs, true_and]
          exact (rangeLen_pos s t step hs i).mp hi
        · simp only [List.length_map, List.length_range, if_pos hs]
          rw [← rangeLen_pos s t step hs]; omega
      · have hs' : step < 0 := by omega
        refine ⟨?_, ?_⟩
        · intro i hi
          simp only [List.length_map, List.length_range] at hi
          simp only [List.getElem_map, List.getElem_range, if_neg hs, true_and]
          exact (rangeLen_neg s t step hs' i).mp hi
        · simp only [List.length_map, List.length_range, if_neg hs]
          rw [← rangeLen_neg s t step hs']; omega
    cases stop with
    | none => exact key 0 start
    | some t => exact key start t

private theorem rangeLen_consecutive (o step : Int) (a b : Nat) (hab : a ≤ b) (h0 : step ≠ 0) :
    rangeLen (o + a * step) (o + b * step) step = b - a := by
  have key : ∀ k, k < rangeLen (o + a * step) (o + b * step) step ↔ k < b - a := by
    intro k
    rcases Int.lt_or_gt_of_ne h0 with hs | hs
    · rw [rangeLen_neg _ _ _ hs]
      have e1 : (o + a * step + k * step) = o + ((a + k : Nat) : Int) * step := by push_cast; ring
      rw [e1]
      constructor
      · intro h
        have : (b : Int) * step < ((a + k : Nat) : Int) * step := by omega
        have := lt_of_mul_lt_mul_of_nonpos_right this (by omega)
        omega
      · intro h
        have : (b : Int) * step < ((a + k : Nat) : Int) * step := mul_lt_mul_of_neg_right (by omega) hs
        omega
    · rw [rangeLen_pos _ _ _ hs]
      have e1 : (o + a * step + k * step) = o + ((a + k : Nat) : Int) * step := by push_cast; ring
      rw [e1]
      constructor
      · intro h
        have : ((a + k : Nat) : Int) * step < (b : Int) * step := by omega
        have := lt_of_mul_lt_mul_right this (by omega)
        omega
      · intro h
        have : ((a + k : Nat) : Int) * step < (b : Int) * step := mul_lt_mul_of_pos_right (by omega) hs
        omega
  apply Nat.le_antisymm
  · by_contra hc
    have := (key (b - a)).mp (by omega)
    omega
  · by_contra hc
    have := (key (rangeLen (o + a * step) (o + b * step) step)).mpr (by omega)
    omega

/-- C50: taking a slice again replaces the earlier one: it is always taken of the original range. -/
theorem range_setSlice_again (r r' : RangeDs) (w n w' n' : Int) (h : r.setSlice w n = .ok r') :
    r'.setSlice w' n' = r.setSlice w' n' := by
  unfold RangeDs.setSlice at h
  rw [bind_ok_iff] at h
  obtain ⟨o, _, h⟩ := h
  replace h := Except.ok.inj h
  subst h
  rfl

/-- C50: after giving worker `w` of `n` its slice, the workers' ranges concatenate to the original range. -/
theorem range_worker_slices (start : Int) (stop : Option Int) (step : Int) (r : RangeDs)
    (h : RangeDs.make start stop step = .ok r) (n : Nat) (hn : 0 < n) :
    ∃ s : Nat → RangeDs, (∀ w < n, r.setSlice w n = .ok (s w)) ∧
      ((List.range n).map (fun w => epoch (s w).toDs 0)).flatten = epoch r.toDs 0 := by
  have hr : r.step ≠ 0 ∧ r.originalStart = r.start ∧ r.originalLen = r.length := by
    unfold RangeDs.make at h
    simp only at h
    split at h
    · cases h
    · replace h := Except.ok.inj h; subst h; exact ⟨by assumption, rfl, rfl⟩
  obtain ⟨h0, hs0, hl0⟩ := hr
  let b : Nat → Nat := fun w => shardBound r.length n w false
  let s : Nat → RangeDs := fun w =>
    { r with start := r.start + (b w : Int) * r.step, stop := r.start + (b (w+1) : Int) * r.step,
             length := b (w + 1) - b w }
  refine ⟨s, ?_, ?_⟩
  · intro w hw
    unfold RangeDs.setSlice
    have hmk : ShardOptions.make (w : Int) (n : Int) false = .ok ⟨w, n, false⟩ := by
      unfold ShardOptions.make
      rw [if_neg (by omega), if_neg (by omega)]
      simp
    rw [hmk]
    simp only [bind, Except.bind, evenSplit_eq, hs0, hl0]
    congr 1
    simp only [s, b, RangeDs.mk.injEq, true_and, hs0, hl0]
    exact rangeLen_consecutive _ _ _ _ (shardBound_mono r.length n w false) h0
  · have hep : ∀ w, epoch (s w).toDs 0 =
        (List.range' (b w) (b (w+1) - b w)).map (fun (i : Nat) => (.ok (some (r.start + (i : Int) * r.step)) : Py (Option Int))) := by
      intro w
      unfold epoch
      rw [List.range'_eq_map_range, List.map_map]
      apply List.map_congr_left
      intro i hi
      have hi' : i < (s w).length := List.mem_range.mp hi
      have hm := pymod_epoch 0 (s w).length i hi'
      simp only [RangeDs.toDs, RangeDs.getitem, hm]
      simp only [bind, Except.bind, Function.comp, s]
      congr 2
      push_cast; ring
    have hall : epoch r.toDs 0 =
        (List.range r.length).map (fun (i : Nat) => (.ok (some (r.start + (i : Int) * r.step)) : Py (Option Int))) := by
      unfold epoch
      apply List.map_congr_left
      intro i hi
      have hi' : i < r.length := List.mem_range.mp hi
      have hm := pymod_epoch 0 r.length i hi'
      simp only [RangeDs.toDs, RangeDs.getitem, hm]
      rfl
    rw [hall]
    have hfl := flatten_ranges b (shardBound_zero _ _ _) (fun i => shardBound_mono _ _ _ _) n
    have hlast : b n = r.length := shardBound_last r.length n hn
    rw [hlast] at hfl
    rw [← hfl, List.map_flatMap, ← List.flatMap_def]
    apply List.flatMap_congr
    intro w _
    exact hep w

example : RangeDs.make 10 (some 0) (-3) = .ok ⟨10, 0, -3, 10, 4, 4⟩ ∧
    (RangeDs.make 10 (some 0) (-3) >>= fun r => r.setSlice 1 3) = .ok ⟨4, 1, -3, 10, 4, 1⟩ ∧
    IsPyRange 10 0 (-3) [10, 7, 4, 1] := by
  refine ⟨by decide, by decide, ?_, by decide⟩
  intro i hi
  simp at hi
  rcases (by omega : i = 0 ∨ i = 1 ∨ i = 2 ∨ i = 3) with rfl | rfl | rfl | rfl <;> simp

end Grain
