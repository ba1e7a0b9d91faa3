import Verif.Slices.Model
import Verif.Multiprocess.Props
import Verif.Sharding.Props
import Verif.Shuffle.Props
/-
C54: the slices `mp_prefetch` gives to its workers partition what each object of the pipeline holds.
C58: with `sequential_slice=True` the workers together process every element once.
-/
namespace Grain

/-! ### Specification -/

mutual
/-- The objects a pipeline is sliced at, in order; sequential slices are taken at the sources. -/
def Pl.targets (seq : Bool) : Pl → List Nat
  | .prefetch a p => if seq then Pl.targets seq p else [a]
  | .obj a => [a]
  | .node ps => Pls.targets seq ps
def Pls.targets (seq : Bool) : Pls → List Nat
  | .nil => []
  | .cons p ps => Pl.targets seq p ++ Pls.targets seq ps
end

mutual
/-- Every transformation has parents (so that the slicing reaches objects with `set_slice` everywhere). -/
def Pl.Rooted (seq : Bool) : Pl → Prop
  | .prefetch _ p => seq = true → Pl.Rooted seq p
  | .obj _ => True
  | .node .nil => False
  | .node (.cons p ps) => Pls.Rooted seq (.cons p ps)
def Pls.Rooted (seq : Bool) : Pls → Prop
  | .nil => True
  | .cons p ps => Pl.Rooted seq p ∧ Pls.Rooted seq ps
end

/-- An object as its constructor left it. -/
def SliceObj.Fresh : SliceObj α → Prop
  | .prefetch _ => True
  | .interleave _ => True
  | .source s => s.orig = none
  | .range _ r => ∃ start stop step, RangeDs.make start stop step = .ok r

/-- Objects that can be sliced in this way. -/
def SliceObj.Accepts (seq : Bool) : SliceObj α → Prop
  | .prefetch _ => seq = false
  | .interleave _ => True
  | .source _ => seq = true
  | .range _ _ => seq = true

/-- What is read from an object: `list(...)` of what it holds. -/
def SliceObj.supplies (o : SliceObj α) : List (Py (Option α)) := epoch o.ds 0

/-! ### Lemmas -/

theorem sliceAt_ok {h : SliceHeap α} {seq : Bool} {n w a : Nat} {o : SliceObj α} (ho : (h a).setSlice seq n w = .ok o) :
    h.sliceAt seq n w a = .ok (fun b => if b = a then o else h b) := by
  unfold SliceHeap.sliceAt; rw [ho]; rfl

mutual
theorem Pl.slice_spec (seq : Bool) (n w : Nat) : ∀ (p : Pl) (h : SliceHeap α), p.Rooted seq → (p.targets seq).Nodup →
    (∀ a ∈ p.targets seq, ∃ o, (h a).setSlice seq n w = .ok o) →
    ∃ h', p.slice seq n w h = .ok h' ∧ (∀ a ∈ p.targets seq, (h a).setSlice seq n w = .ok (h' a)) ∧
      ∀ a, a ∉ p.targets seq → h' a = h a
  | .prefetch a p, h, hr, hnd, hok => by
    cases seq with
    | false =>
      simp only [Pl.targets, Bool.false_eq_true, if_false, List.mem_singleton] at hok ⊢
      obtain ⟨o, ho⟩ := hok a rfl
      refine ⟨_, by simp only [Pl.slice, Bool.false_eq_true, if_false]; exact sliceAt_ok ho, ?_, ?_⟩
      · rintro b rfl; simpa using ho
      · intro b hb; simp [hb]
    | true =>
      simp only [Pl.targets, if_true] at hnd hok ⊢
      obtain ⟨h', h1, h2⟩ := Pl.slice_spec true n w p h (hr rfl) hnd hok
      exact ⟨h', by simp only [Pl.slice, if_true]; exact h1, h2⟩
  | .obj a, h, hr, hnd, hok => by
    simp only [Pl.targets, List.mem_singleton] at hok ⊢
    obtain ⟨o, ho⟩ := hok a rfl
    refine ⟨_, by simp only [Pl.slice]; exact sliceAt_ok ho, ?_, ?_⟩
    · rintro b rfl; simpa using ho
    · intro b hb; simp [hb]
  | .node .nil, h, hr, _, _ => absurd hr (by simp [Pl.Rooted])
  | .node (.cons p ps), h, hr, hnd, hok => by
    have := Pls.slice_spec seq n w (.cons p ps) h hr hnd hok
    simpa only [Pl.slice, Pl.targets] using this
theorem Pls.slice_spec (seq : Bool) (n w : Nat) : ∀ (p : Pls) (h : SliceHeap α), p.Rooted seq → (p.targets seq).Nodup →
    (∀ a ∈ p.targets seq, ∃ o, (h a).setSlice seq n w = .ok o) →
    ∃ h', p.slice seq n w h = .ok h' ∧ (∀ a ∈ p.targets seq, (h a).setSlice seq n w = .ok (h' a)) ∧
      ∀ a, a ∉ p.targets seq → h' a = h a
  | .nil, h, _, _, _ => ⟨h, rfl, by simp [Pls.targets], fun _ _ => rfl⟩
  | .cons p ps, h, hr, hnd, hok => by
    simp only [Pls.targets] at hnd hok ⊢
    rw [List.nodup_append] at hnd
    obtain ⟨n1, n2, n3⟩ := hnd
    obtain ⟨h', h1, h2, h3⟩ := Pl.slice_spec seq n w p h hr.1 n1 (fun a ha => hok a (by simp [ha]))
    have hne : ∀ a ∈ Pls.targets seq ps, a ∉ Pl.targets seq p := fun a ha hc => n3 a hc a ha rfl
    obtain ⟨h'', g1, g2, g3⟩ := Pls.slice_spec seq n w ps h' hr.2 n2
      (fun a ha => by rw [h3 a (hne a ha)]; exact hok a (by simp [ha]))
    refine ⟨h'', ?_, ?_, ?_⟩
    · simp only [Pls.slice, h1]; exact g1
    · intro a ha
      rcases List.mem_append.1 ha with ha | ha
      · have : a ∉ Pls.targets seq ps := fun hc => n3 a ha a hc rfl
        rw [g3 a this]; exact h2 a ha
      · rw [← h3 a (hne a ha)]; exact g2 a ha
    · intro a ha
      simp only [List.mem_append, not_or] at ha
      rw [g3 a ha.2, h3 a ha.1]
end

/-- The strided slice of a dataset. -/
theorem strided_epoch (p : MapDs α) {n w : Nat} (hn : 0 < n) (hw : w < n) :
    ∃ s, SliceSpec.make (some (w : Int)) none (some (n : Int)) p.len = .ok s ∧
      epoch (sliceDs s p) 0 = everyNth n w (epoch p 0) := by
  rcases slice_rejects_iff (some (w : Int)) none (some (n : Int)) p.len with ⟨_, h⟩ | ⟨⟨s, hs⟩, _⟩
  · simp at h; omega
  · refine ⟨s, hs, ?_⟩
    apply List.ext_getElem?
    intro k
    rw [strided_slice_get p n hn w s hs 0 k, everyNth_getElem? hn]

/-- The epoch of a source. -/
theorem source_epoch (p : MapDs α) : epoch (sourceDs p.len p.getitem none) 0 = epoch p 0 := by
  unfold epoch
  simp only [sourceDs]
  apply List.map_congr_left
  intro i hi
  have hm := pymod_epoch 0 p.len i (List.mem_range.1 hi)
  rw [hm]
  simp [bind, Except.bind]

/-- The positions of a slice `[s:e]` inside the sequence. -/
theorem consecutive_positions (s e n : Nat) (he : e ≤ n) :
    pySlicePositions (some (s : Int)) (some (e : Int)) 1 n = (List.range' s (e - s)).map (fun (i : Nat) => (i : Int)) := by
  unfold pySlicePositions
  rw [if_pos (by omega)]
  simp only [Option.map_some, Option.getD_some, Int.emod_one, decide_true, Bool.and_true]
  simp only [show ¬ ((s : Int) < 0) by omega, show ¬ ((e : Int) < 0) by omega, if_false]
  rw [List.filter_map]
  congr 1
  have hf : (List.range n).filter ((fun x : Int => decide (max 0 (s : Int) ≤ x) && decide (x < (e : Int))) ∘ fun (i : Nat) => (i : Int)) =
      (List.range n).filter (fun i => decide (s ≤ i) && decide (i < e)) := by
    apply List.filter_congr
    intro i _
    simp only [Function.comp]
    rw [Bool.eq_iff_iff]
    simp only [Bool.and_eq_true, decide_eq_true_eq]
    omega
  rw [hf]
  obtain ⟨d, rfl⟩ : ∃ d, n = e + d := ⟨n - e, by omega⟩
  rw [List.range_add, List.filter_append]
  have h2 : ((List.range d).map (fun x => e + x)).filter (fun i => decide (s ≤ i) && decide (i < e)) = [] := by
    apply List.filter_eq_nil_iff.2
    intro a ha
    obtain ⟨x, _, rfl⟩ := List.mem_map.1 ha
    simp
  rw [h2, List.append_nil]
  by_cases hse : s ≤ e
  · obtain ⟨c, rfl⟩ : ∃ c, e = s + c := ⟨e - s, by omega⟩
    rw [List.range_add, List.filter_append]
    have h3 : (List.range s).filter (fun i => decide (s ≤ i) && decide (i < s + c)) = [] := by
      apply List.filter_eq_nil_iff.2
      intro a ha
      have := List.mem_range.1 ha
      simp; omega
    have h4 : ((List.range c).map (fun x => s + x)).filter (fun i => decide (s ≤ i) && decide (i < s + c)) =
        (List.range c).map (fun x => s + x) := by
      apply List.filter_eq_self.2
      intro a ha
      obtain ⟨x, hx, rfl⟩ := List.mem_map.1 ha
      have := List.mem_range.1 hx
      simp; omega
    rw [h3, h4, List.nil_append, List.range'_eq_map_range, show s + c - s = c by omega]
  · have h3 : (List.range e).filter (fun i => decide (s ≤ i) && decide (i < e)) = [] := by
      apply List.filter_eq_nil_iff.2
      intro a ha
      have := List.mem_range.1 ha
      simp; omega
    rw [h3, show e - s = 0 by omega]; rfl

theorem shardOptions_ok {n w : Nat} (hw : w < n) : ShardOptions.make (w : Int) (n : Int) false = .ok ⟨w, n, false⟩ := by
  rw [shardOptions_make_iff]
  refine ⟨by omega, by omega, by simp⟩

/-- What worker `w` of `n` gets from a source sliced sequentially. -/
theorem source_slice (s : SrcState α) (hs : s.orig = none) {n w : Nat} (hw : w < n) :
    ∃ s', s.setSlice n w = .ok s' ∧ s'.ds.len = (interval (evenSplit s.cur.len ⟨w, n, false⟩)).length ∧
      epoch s'.ds 0 = (interval (evenSplit s.cur.len ⟨w, n, false⟩)).map (fun (i : Nat) => s.ds.getitem (i : Int)) := by
  have ho : s.original = s.ds := by unfold SrcState.original; rw [hs]
  have hlen : s.ds.len = s.cur.len := rfl
  rcases slice_rejects_iff (some ((evenSplit s.cur.len ⟨w, n, false⟩).1 : Int)) (some ((evenSplit s.cur.len ⟨w, n, false⟩).2 : Int))
      none s.ds.len with ⟨_, h⟩ | ⟨⟨sp, hsp⟩, _⟩
  · simp at h
  · have hpos := consecutive_positions (evenSplit s.cur.len ⟨w, n, false⟩).1 (evenSplit s.cur.len ⟨w, n, false⟩).2 s.ds.len
      (evenSplit_bounds s.cur.len n w false hw).2.1
    have he := slice_epoch s.ds _ _ _ sp hsp 0
    simp only [Option.getD_none] at he
    rw [hpos, List.map_map] at he
    refine ⟨{ orig := some s.ds, cur := sliceDs sp s.ds }, ?_, ?_, ?_⟩
    · unfold SrcState.setSlice
      rw [shardOptions_ok hw]
      simp only [bind, Except.bind, ho, hsp]
    · have := congrArg List.length he
      rw [epoch_length] at this
      simpa [interval, SrcState.ds, sourceDs] using this
    · show epoch (sourceDs (sliceDs sp s.ds).len (sliceDs sp s.ds).getitem none) 0 = _
      rw [source_epoch, he]
      apply List.map_congr_left
      intro i _
      simp

/-- What all workers get from a source together is the source, in order. -/
theorem source_slices (s : SrcState α) (hs : s.orig = none) {n : Nat} (hn : 0 < n) (s' : Nat → SrcState α)
    (h : ∀ w, w < n → s.setSlice n w = .ok (s' w)) :
    (List.range n).flatMap (fun w => epoch (s' w).ds 0) = epoch s.ds 0 := by
  have h1 : (List.range n).flatMap (fun w => epoch (s' w).ds 0) = (List.range n).flatMap
      (fun w => (interval (evenSplit s.cur.len ⟨w, n, false⟩)).map (fun (i : Nat) => s.ds.getitem (i : Int))) := by
    rw [List.flatMap_def, List.flatMap_def]
    congr 1
    apply List.map_congr_left
    intro w hw
    obtain ⟨q, g1, -, g2⟩ := source_slice s hs (List.mem_range.1 hw)
    have := h w (List.mem_range.1 hw)
    rw [g1] at this
    cases this
    exact g2
  rw [h1, ← List.map_flatMap, evenSplit_partition _ _ hn]
  unfold epoch
  apply List.map_congr_left
  intro i _
  simp

theorem mapDs_epoch (f : α → Py (Option β)) (p : MapDs α) (e : Int) :
    epoch (mapDs f p) e = (epoch p e).map (fun r => r.bind (fun x => match x with | none => .ok none | some a => f a)) := by
  unfold epoch
  rw [List.map_map]
  rfl

theorem filterDs_epoch (f : α → Py Bool) (p : MapDs α) (e : Int) :
    epoch (filterDs f p) e = (epoch p e).map (fun r => r.bind (fun x => match x with
      | none => .ok none
      | some a => do if (← f a) then .ok (some a) else .ok none)) := by
  unfold epoch
  rw [List.map_map]
  rfl

/-- The slices of one object. -/
theorem object_slices (seq : Bool) {n : Nat} (hn : 0 < n) (o : SliceObj α) (hf : o.Fresh) (ha : o.Accepts seq) :
    ∃ os : Nat → SliceObj α, (∀ w, w < n → o.setSlice seq n w = .ok (os w)) ∧
      ((List.range n).flatMap (fun w => (os w).supplies)).Perm o.supplies ∧
      (seq = true → (∀ d, o ≠ .interleave d) → (List.range n).flatMap (fun w => (os w).supplies) = o.supplies) := by
  have strided : ∀ (p : MapDs α), ∃ s : Nat → SliceSpec, (∀ w, w < n →
      SliceSpec.make (some (w : Int)) none (some (n : Int)) p.len = .ok (s w)) ∧
      ((List.range n).flatMap (fun w => epoch (sliceDs (s w) p) 0)).Perm (epoch p 0) := by
    intro p
    have : ∀ w, ∃ s, w < n → SliceSpec.make (some (w : Int)) none (some (n : Int)) p.len = .ok s ∧
        epoch (sliceDs s p) 0 = everyNth n w (epoch p 0) := by
      intro w
      by_cases hw : w < n
      · obtain ⟨s, h⟩ := strided_epoch p hn hw; exact ⟨s, fun _ => h⟩
      · exact ⟨⟨0, 0, 0, 0, 0⟩, fun h => absurd h hw⟩
    obtain ⟨s, hs⟩ := Classical.axiomOfChoice this
    refine ⟨s, fun w hw => (hs w hw).1, ?_⟩
    have h1 : (List.range n).flatMap (fun w => epoch (sliceDs (s w) p) 0) = (List.range n).flatMap (fun w => everyNth n w (epoch p 0)) := by
      rw [List.flatMap_def, List.flatMap_def]
      congr 1
      apply List.map_congr_left
      intro w hw
      exact (hs w (List.mem_range.1 hw)).2
    rw [h1]
    exact everyNth_perm hn _
  cases o with
  | prefetch p =>
    obtain ⟨s, h1, h2⟩ := strided p
    refine ⟨fun w => .prefetch (sliceDs (s w) p), fun w hw => ?_, h2, fun hs => ?_⟩
    · simp only [SliceObj.setSlice, h1 w hw]; rfl
    · rw [show seq = false from ha] at hs; cases hs
  | interleave d =>
    obtain ⟨s, h1, h2⟩ := strided d
    refine ⟨fun w => .interleave (sliceDs (s w) d), fun w hw => ?_, h2, fun _ h => absurd rfl (h d)⟩
    simp only [SliceObj.setSlice, h1 w hw]; rfl
  | source s =>
    have hseq : seq = true := ha
    have : ∀ w, ∃ s', w < n → s.setSlice n w = .ok s' := by
      intro w
      by_cases hw : w < n
      · obtain ⟨s', h, _⟩ := source_slice s hf hw; exact ⟨s', fun _ => h⟩
      · exact ⟨s, fun h => absurd h hw⟩
    obtain ⟨s', hs'⟩ := Classical.axiomOfChoice this
    have he := source_slices s hf hn s' hs'
    refine ⟨fun w => .source (s' w), fun w hw => ?_, ?_, fun _ _ => he⟩
    · simp only [SliceObj.setSlice, hseq, if_true, hs' w hw]; rfl
    · show ((List.range n).flatMap (fun w => epoch (s' w).ds 0)).Perm (epoch s.ds 0)
      rw [he]
  | range emb r =>
    have hseq : seq = true := ha
    obtain ⟨start, stop, step, hr⟩ := hf
    obtain ⟨s, h1, h2⟩ := range_worker_slices start stop step r hr n hn
    have he : (List.range n).flatMap (fun w => epoch (mapDs (fun i => .ok (some (emb i))) (s w).toDs) 0) =
        epoch (mapDs (fun i => .ok (some (emb i))) r.toDs) 0 := by
      simp only [mapDs_epoch]
      rw [← List.map_flatMap, List.flatMap_def, h2]
    refine ⟨fun w => .range emb (s w), fun w hw => ?_, ?_, fun _ _ => he⟩
    · simp only [SliceObj.setSlice, hseq, if_true, h1 w hw]; rfl
    · show ((List.range n).flatMap (fun w => epoch (mapDs (fun i => .ok (some (emb i))) (s w).toDs) 0)).Perm _
      rw [he]; exact List.Perm.refl _

/-! ### C54 -/

/-- C54, for pipelines that use each object once: slicing the pipeline for worker `w` of `n` succeeds for every worker, what
the workers read from an object is together what it held, each element once (for sequential slices of sources also in order),
and nothing else is changed.
Missing: pipelines that use an object several times (`shared_prefetch_loses`, `shared_source_loses`). -/
theorem worker_slices_partition_partial (seq : Bool) {n : Nat} (hn : 0 < n) (p : Pl) (h : SliceHeap α) (hr : p.Rooted seq)
    (hnd : (p.targets seq).Nodup) (hf : ∀ a ∈ p.targets seq, (h a).Fresh) (ha : ∀ a ∈ p.targets seq, (h a).Accepts seq) :
    ∃ hs : Nat → SliceHeap α, (∀ w, w < n → p.slice seq n w h = .ok (hs w)) ∧
      (∀ a ∈ p.targets seq, ((List.range n).flatMap (fun w => (hs w a).supplies)).Perm (h a).supplies ∧
        (seq = true → (∀ d, h a ≠ .interleave d) → (List.range n).flatMap (fun w => (hs w a).supplies) = (h a).supplies)) ∧
      ∀ w, w < n → ∀ a, a ∉ p.targets seq → hs w a = h a := by
  have : ∀ w, ∃ h', w < n → p.slice seq n w h = .ok h' ∧ (∀ a ∈ p.targets seq, (h a).setSlice seq n w = .ok (h' a)) ∧
      ∀ a, a ∉ p.targets seq → h' a = h a := by
    intro w
    by_cases hw : w < n
    · obtain ⟨h', g⟩ := Pl.slice_spec seq n w p h hr hnd (fun a hat => by
        obtain ⟨os, g1, -⟩ := object_slices seq hn (h a) (hf a hat) (ha a hat)
        exact ⟨_, g1 w hw⟩)
      exact ⟨h', fun _ => g⟩
    · exact ⟨h, fun hc => absurd hc hw⟩
  obtain ⟨hs, g⟩ := Classical.axiomOfChoice this
  refine ⟨hs, fun w hw => (g w hw).1, fun a hat => ?_, fun w hw => (g w hw).2.2⟩
  obtain ⟨os, g1, g2, g3⟩ := object_slices seq hn (h a) (hf a hat) (ha a hat)
  have he : (List.range n).flatMap (fun w => (hs w a).supplies) = (List.range n).flatMap (fun w => (os w).supplies) := by
    rw [List.flatMap_def, List.flatMap_def]
    congr 1
    apply List.map_congr_left
    intro w hw
    have e1 := (g w (List.mem_range.1 hw)).2.1 a hat
    rw [g1 w (List.mem_range.1 hw)] at e1
    injection e1 with e1
    rw [e1]
  rw [he]
  exact ⟨g2, g3⟩

/-- A pipeline over two prefetched lists, and the same with one object used twice. -/
def twoPl : Pl := .node (.cons (.prefetch 0 (.obj 10)) (.cons (.node (.cons (.prefetch 1 (.obj 11)) .nil)) .nil))
def sharedPl : Pl := .node (.cons (.prefetch 0 (.obj 10)) (.cons (.node (.cons (.prefetch 0 (.obj 10)) .nil)) .nil))

def twoHeap : SliceHeap Nat := fun a =>
  if a < 10 then .prefetch (listSource [10, 11, 12, 13, 14, 15, 16, 17])
  else .source ⟨none, listSource [10, 11, 12, 13, 14, 15, 16, 17]⟩

example : twoPl.Rooted false ∧ (twoPl.targets false).Nodup ∧ twoPl.Rooted true ∧ (twoPl.targets true).Nodup := by
  refine ⟨?_, by decide, ?_, by decide⟩ <;> simp [twoPl, Pl.Rooted, Pls.Rooted]
example : ∀ a ∈ twoPl.targets false, (twoHeap a).Fresh ∧ (twoHeap a).Accepts false := by
  have : twoPl.targets false = [0, 1] := rfl
  rw [this]
  simp [twoHeap, SliceObj.Fresh, SliceObj.Accepts]
example : ∀ a ∈ twoPl.targets true, (twoHeap a).Fresh ∧ (twoHeap a).Accepts true := by
  have : twoPl.targets true = [10, 11] := rfl
  rw [this]
  simp [twoHeap, SliceObj.Fresh, SliceObj.Accepts]

/-- C54 fails for an object used twice: with two workers the prefetched list `10 .. 17` is sliced twice in each worker, and only
four of its eight elements are read. -/
theorem shared_prefetch_loses :
    ∃ hs : Nat → SliceHeap Nat, (∀ w, w < 2 → sharedPl.slice false 2 w twoHeap = .ok (hs w)) ∧
      (List.range 2).flatMap (fun w => (hs w 0).supplies) = [10, 14, 13, 17].map (fun x => .ok (some x)) := by
  refine ⟨fun w => if w = 0 then
      (fun b => if b = 0 then .prefetch (sliceDs ⟨4, 0, 4, 2, 2⟩ (sliceDs ⟨8, 0, 8, 2, 4⟩ (listSource [10, 11, 12, 13, 14, 15, 16, 17]))) else
        (if b = 0 then .prefetch (sliceDs ⟨8, 0, 8, 2, 4⟩ (listSource [10, 11, 12, 13, 14, 15, 16, 17])) else twoHeap b)) else
      (fun b => if b = 0 then .prefetch (sliceDs ⟨4, 1, 4, 2, 2⟩ (sliceDs ⟨8, 1, 8, 2, 4⟩ (listSource [10, 11, 12, 13, 14, 15, 16, 17]))) else
        (if b = 0 then .prefetch (sliceDs ⟨8, 1, 8, 2, 4⟩ (listSource [10, 11, 12, 13, 14, 15, 16, 17])) else twoHeap b)), ?_, rfl⟩
  intro w hw
  match w, hw with
  | 0, _ => rfl
  | 1, _ => rfl

/-- The same with sequential slices of a source used twice: of the eight elements only the first four are read. -/
theorem shared_source_loses :
    ∃ hs : Nat → SliceHeap Nat, (∀ w, w < 2 → sharedPl.slice true 2 w twoHeap = .ok (hs w)) ∧
      (List.range 2).flatMap (fun w => (hs w 10).supplies) = [10, 11, 12, 13].map (fun x => .ok (some x)) := by
  refine ⟨fun w b => if b = 10 then .source ⟨some (SrcState.ds ⟨none, listSource [10, 11, 12, 13, 14, 15, 16, 17]⟩),
      sliceDs ⟨8, 2 * w, 2 * w + 2, 1, 2⟩ (SrcState.ds ⟨none, listSource [10, 11, 12, 13, 14, 15, 16, 17]⟩)⟩ else
      (if b = 10 then .source ⟨some (SrcState.ds ⟨none, listSource [10, 11, 12, 13, 14, 15, 16, 17]⟩),
      sliceDs ⟨8, 4 * w, 4 * w + 4, 1, 4⟩ (SrcState.ds ⟨none, listSource [10, 11, 12, 13, 14, 15, 16, 17]⟩)⟩ else twoHeap b), ?_, rfl⟩
  intro w hw
  match w, hw with
  | 0, _ => rfl
  | 1, _ => rfl

/-- C54: ranges may be used several times: slicing again gives the same slice. -/
theorem shared_range_kept (emb : Int → α) (r : RangeDs) (n w : Nat) (o : SliceObj α)
    (h : (SliceObj.range emb r).setSlice true n w = .ok o) : o.setSlice true n w = .ok o := by
  simp only [SliceObj.setSlice, if_true] at h
  cases hr : r.setSlice w n with
  | error e => rw [hr] at h; cases h
  | ok r' =>
    rw [hr] at h
    cases h
    simp only [SliceObj.setSlice, if_true, range_setSlice_again r r' w n w n hr, hr]; rfl

/-! ### C58 -/

/-- The object a pipeline of map datasets reads. -/
def MapPl.root : MapPl α → Nat
  | .obj a => a
  | .map _ p | .filter _ p | .shuffle _ p | .repeat _ p | .slice _ p => p.root

/-- Only transformations that keep no length. -/
def MapPl.Plain : MapPl α → Prop
  | .obj _ => True
  | .map _ p | .filter _ p => p.Plain
  | .shuffle _ p => p.Plain
  | .repeat _ _ | .slice _ _ => False

/-- Lengths for which shuffling works (C02). -/
def ShuffleLen (L : Nat) : Prop := L ≤ 2 ^ 64 ∧ ¬ BadLength L

theorem MapPl.targets_pl : ∀ p : MapPl α, p.pl.targets true = [p.root] ∧ p.pl.Rooted true
  | .obj a => ⟨rfl, trivial⟩
  | .map f p => by simpa [MapPl.pl, Pl.targets, Pls.targets, Pl.Rooted, Pls.Rooted, MapPl.root] using MapPl.targets_pl p
  | .filter f p => by simpa [MapPl.pl, Pl.targets, Pls.targets, Pl.Rooted, Pls.Rooted, MapPl.root] using MapPl.targets_pl p
  | .shuffle f p => by simpa [MapPl.pl, Pl.targets, Pls.targets, Pl.Rooted, Pls.Rooted, MapPl.root] using MapPl.targets_pl p
  | .repeat f p => by simpa [MapPl.pl, Pl.targets, Pls.targets, Pl.Rooted, Pls.Rooted, MapPl.root] using MapPl.targets_pl p
  | .slice f p => by simpa [MapPl.pl, Pl.targets, Pls.targets, Pl.Rooted, Pls.Rooted, MapPl.root] using MapPl.targets_pl p

theorem MapPl.len_plain (keysOf : Nat → List (BitVec 32)) (h : SliceHeap α) : ∀ p : MapPl α, p.Plain →
    (p.ds keysOf h).len = (h p.root).ds.len
  | .obj a, _ => rfl
  | .map f p, hp => by simpa [MapPl.ds, mapDs, MapPl.root] using MapPl.len_plain keysOf h p hp
  | .filter f p, hp => by simpa [MapPl.ds, filterDs, MapPl.root] using MapPl.len_plain keysOf h p hp
  | .shuffle f p, hp => by simpa [MapPl.ds, shuffleDs, MapPl.root] using MapPl.len_plain keysOf h p hp
  | .repeat f p, hp => by cases hp
  | .slice f p, hp => by cases hp

/-- An epoch of a shuffled dataset has the elements of the epoch. -/
theorem shuffleDs_epoch_perm (keysOf : Nat → List (BitVec 32)) (seed : Nat) (p : MapDs α) (h : ShuffleLen p.len) :
    (epoch (shuffleDs keysOf seed p) 0).Perm (epoch p 0) := by
  by_cases h0 : p.len = 0
  · simp [epoch, shuffleDs, h0]
  · obtain ⟨idx, h1, h2⟩ := shuffledIndex_epoch_perm_partial keysOf seed p.len 0 (by omega) h.1 h.2
    have h3 : epoch (shuffleDs keysOf seed p) 0 = idx.map p.getitem := by
      unfold epoch
      simp only [shuffleDs]
      have key : ∀ (l : List Nat) (F : Nat → Py Int) (out : List Int), l.mapM F = .ok out →
          l.map (fun i => (do let j ← F i; p.getitem j : Py (Option α))) = out.map p.getitem := by
        intro l F
        induction l with
        | nil => intro out ho; cases ho; rfl
        | cons a l ih =>
          intro out ho
          rw [List.mapM_cons] at ho
          cases hFa : F a with
          | error e => rw [hFa] at ho; cases ho
          | ok b =>
            rw [hFa] at ho
            cases hml : l.mapM F with
            | error e => rw [hml] at ho; cases ho
            | ok bs =>
              rw [hml] at ho
              cases ho
              simp only [List.map_cons, ih bs hml, hFa]
              rfl
      exact key _ _ _ h1
    rw [h3]
    have := h2.map p.getitem
    simpa [epoch, List.map_map, Function.comp_def] using this

/-- The workers' epochs of a pipeline of plain transformations. -/
theorem plain_workers (keysOf : Nat → List (BitVec 32)) (h : SliceHeap α) (n : Nat) (hs : Nat → SliceHeap α) :
    ∀ p : MapPl α, p.Plain →
    ((List.range n).flatMap (fun w => (hs w p.root).supplies)).Perm (h p.root).supplies →
    ShuffleLen (h p.root).ds.len → (∀ w, w < n → ShuffleLen (hs w p.root).ds.len) →
    ((List.range n).flatMap (fun w => epoch (p.ds keysOf (hs w)) 0)).Perm (epoch (p.ds keysOf h) 0)
  | .obj a, _, hr, _, _ => hr
  | .map f p, hp, hr, h1, h2 => by
    have := plain_workers keysOf h n hs p hp hr h1 h2
    simp only [MapPl.ds, mapDs_epoch]
    rw [← List.map_flatMap]
    exact this.map _
  | .filter f p, hp, hr, h1, h2 => by
    have := plain_workers keysOf h n hs p hp hr h1 h2
    simp only [MapPl.ds, filterDs_epoch]
    rw [← List.map_flatMap]
    exact this.map _
  | .shuffle seed p, hp, hr, h1, h2 => by
    have ih := plain_workers keysOf h n hs p hp hr h1 h2
    simp only [MapPl.ds]
    have e1 : (epoch (shuffleDs keysOf seed (p.ds keysOf h)) 0).Perm (epoch (p.ds keysOf h) 0) :=
      shuffleDs_epoch_perm keysOf seed _ (by rw [MapPl.len_plain keysOf h p hp]; exact h1)
    refine List.Perm.trans ?_ (ih.trans e1.symm)
    refine List.Perm.flatMap_left _ (fun w hw => ?_)
    exact shuffleDs_epoch_perm keysOf seed _ (by
      rw [MapPl.len_plain keysOf (hs w) p hp]; exact h2 w (List.mem_range.1 hw))
  | .repeat f p, hp, _, _, _ => by cases hp
  | .slice f p, hp, _, _, _ => by cases hp

/-- C58, for pipelines of `map`, `filter` and `shuffle` over a source or a range: with `sequential_slice=True` the workers
together process every element of the pipeline once.
Missing: transformations that keep the length of the unsliced dataset (`sequential_slice_repeat`, `sequential_slice_slice`),
and for shuffling the lengths excluded by C02. -/
theorem sequential_slice_partial (keysOf : Nat → List (BitVec 32)) {n : Nat} (hn : 0 < n) (p : MapPl α) (hp : p.Plain)
    (h : SliceHeap α) (hf : (h p.root).Fresh) (ha : (h p.root).Accepts true) (hl : ShuffleLen (h p.root).ds.len)
    (hw : ∀ w, w < n → ∀ h', p.pl.slice true n w h = .ok h' → ShuffleLen (h' p.root).ds.len) :
    ∃ hs : Nat → SliceHeap α, (∀ w, w < n → p.pl.slice true n w h = .ok (hs w)) ∧
      ((List.range n).flatMap (fun w => epoch (p.ds keysOf (hs w)) 0)).Perm (epoch (p.ds keysOf h) 0) := by
  obtain ⟨ht, hr⟩ := MapPl.targets_pl p
  obtain ⟨hs, h1, h2, -⟩ := worker_slices_partition_partial true hn p.pl h hr (by rw [ht]; simp)
    (by rw [ht]; simpa using hf) (by rw [ht]; simpa using ha)
  exact ⟨hs, h1, plain_workers keysOf h n hs p hp (h2 p.root (by rw [ht]; simp)).1 hl (fun w hw' => hw w hw' _ (h1 w hw'))⟩

/-- The hypotheses are met by a shuffled and mapped source of eight elements. -/
example : ∀ L, L ≤ 8 → ShuffleLen L := by
  intro L hL
  refine ⟨by omega, ?_⟩
  rintro ⟨j, hj, h⟩
  have : 4 ^ 8 ≤ 4 ^ j := Nat.pow_le_pow_right (by omega) hj
  omega

/-- A source of eight elements. -/
def seqHeap : SliceHeap Nat := fun _ => .source ⟨none, listSource [0, 1, 2, 3, 4, 5, 6, 7]⟩
def seqHeapSliced (w : Nat) : SliceHeap Nat := fun b => if b = 0 then .source ⟨some (SrcState.ds ⟨none, listSource [0, 1, 2, 3, 4, 5, 6, 7]⟩),
  sliceDs ⟨8, 4 * w, 4 * w + 4, 1, 4⟩ (SrcState.ds ⟨none, listSource [0, 1, 2, 3, 4, 5, 6, 7]⟩)⟩ else seqHeap b

/-- C58 fails for `source(8 elements).repeat(2)`: the repetition keeps the length 16, so each of two workers reads its four
elements four times: 32 elements instead of 16. -/
theorem sequential_slice_repeat :
    ∃ p : MapPl Nat, MapPl.mkRepeat (fun _ => []) seqHeap (some 2) (.obj 0) = .ok p ∧
      (epoch (p.ds (fun _ => []) seqHeap) 0).length = 16 ∧
      (∀ w, w < 2 → p.pl.slice true 2 w seqHeap = .ok (seqHeapSliced w)) ∧
      ((List.range 2).flatMap (fun w => epoch (p.ds (fun _ => []) (seqHeapSliced w)) 0)).length = 32 ∧
      epoch (p.ds (fun _ => []) (seqHeapSliced 1)) 0 =
        [4, 5, 6, 7, 4, 5, 6, 7, 4, 5, 6, 7, 4, 5, 6, 7].map (fun x => .ok (some x)) := by
  refine ⟨.repeat 16 (.obj 0), rfl, rfl, ?_, rfl, rfl⟩
  intro w hw
  match w, hw with
  | 0, _ => rfl
  | 1, _ => rfl

example : (MapPl.map (fun x => .ok (some (x + 1))) (.shuffle 3 (.obj 0)) : MapPl Nat).Plain ∧ (seqHeap 0).Fresh ∧
    (seqHeap 0).Accepts true := ⟨trivial, rfl, rfl⟩

/-- C58 fails for `source(8 elements)[:4]`: the second worker reads the elements `4 .. 7`, which are not in the slice. -/
theorem sequential_slice_slice :
    ∃ p : MapPl Nat, MapPl.mkSlice (fun _ => []) seqHeap none (some 4) none (.obj 0) = .ok p ∧
      epoch (p.ds (fun _ => []) seqHeap) 0 = [0, 1, 2, 3].map (fun x => .ok (some x)) ∧
      (∀ w, w < 2 → p.pl.slice true 2 w seqHeap = .ok (seqHeapSliced w)) ∧
      epoch (p.ds (fun _ => []) (seqHeapSliced 1)) 0 = [4, 5, 6, 7].map (fun x => .ok (some x)) := by
  refine ⟨.slice ⟨8, 0, 4, 1, 4⟩ (.obj 0), rfl, rfl, ?_, rfl⟩
  intro w hw
  match w, hw with
  | 0, _ => rfl
  | 1, _ => rfl

/-- C58 fails for `source(8 elements)[::2]`: the second worker reads `4` and `6` twice. -/
theorem sequential_slice_step :
    ∃ p : MapPl Nat, MapPl.mkSlice (fun _ => []) seqHeap none none (some 2) (.obj 0) = .ok p ∧
      epoch (p.ds (fun _ => []) seqHeap) 0 = [0, 2, 4, 6].map (fun x => .ok (some x)) ∧
      (∀ w, w < 2 → p.pl.slice true 2 w seqHeap = .ok (seqHeapSliced w)) ∧
      epoch (p.ds (fun _ => []) (seqHeapSliced 1)) 0 = [4, 6, 4, 6].map (fun x => .ok (some x)) := by
  refine ⟨.slice ⟨8, 0, 8, 2, 4⟩ (.obj 0), rfl, rfl, ?_, rfl⟩
  intro w hw
  match w, hw with
  | 0, _ => rfl
  | 1, _ => rfl

end Grain
