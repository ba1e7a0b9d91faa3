import Verif.Iter.Commute
import Verif.MapDs.PropsSeq
import Verif.MapDs.PropsMix
/-
C86: a transformation gives the same elements before and after `to_iter_dataset`.

`ds` is a random access dataset of which every element can be read, `vs` are the elements (`Reads`; `none` for an element that was
filtered out).  The number of reading threads and the buffer size may differ on both sides.
-/
namespace Grain

theorem reads_iff_epoch {ds : MapDs α} {vs : List (Option α)} : Reads ds vs ↔ epoch ds 0 = vs.map Except.ok := by
  constructor
  · rintro ⟨h1, h2⟩
    apply List.ext_getElem?
    intro k
    by_cases hk : k < ds.len
    · rw [epoch_getElem? ds 0 k hk, List.getElem?_map, List.getElem?_eq_getElem (by omega)]
      simp only [Int.zero_mul, Int.zero_add, Option.map_some]
      rw [h2 k (by omega)]
    · rw [List.getElem?_eq_none (by rw [epoch_length]; omega), List.getElem?_eq_none (by rw [List.length_map]; omega)]
  · intro h
    have hl := congrArg List.length h
    rw [epoch_length, List.length_map] at hl
    refine ⟨hl.symm, fun k hk => ?_⟩
    have := congrArg (fun l => l[k]?) h
    rw [epoch_getElem? ds 0 k (by omega), List.getElem?_map, List.getElem?_eq_getElem hk] at this
    simpa using this

/-! ### map -/

/-- The results of a map function without failures. -/
theorem reads_mapDs {ds : MapDs α} {vs : List (Option α)} (hr : Reads ds vs) {f : α → Py (Option β)} {g : α → Option β}
    (hf : ∀ a, some a ∈ vs → f a = .ok (g a)) : Reads (mapDs f ds) (vs.map (fun v => v.bind g)) := by
  refine ⟨by simpa [mapDs] using hr.1, fun k hk => ?_⟩
  have hk' : k < vs.length := by simpa using hk
  simp only [mapDs, hr.2 k hk', List.getElem_map]
  have hm := List.getElem_mem hk'
  cases hv : vs[k] with
  | none => rfl
  | some a =>
    rw [hv] at hm
    exact hf a hm

/-- C86, map: mapping before or after `to_iter_dataset` gives the same iteration exactly if the function never returns `None`: before,
an element mapped to `None` is skipped, after, `None` is returned. -/
theorem map_commutes_iff {ds : MapDs α} {vs : List (Option α)} (hr : Reads ds vs) {f : α → Py (Option β)} {g : α → Option β}
    (hf : ∀ a, some a ∈ vs → f a = .ok (g a)) (size threads size' threads' : Nat) :
    SameIteration (prefetchIter size threads false none (mapDs f ds)) (mapIter f (prefetchIter size' threads' false none ds)) ↔
      ∀ a, some a ∈ vs → g a ≠ none := by
  have h1 := (toIter_resumes (reads_mapDs hr hf) size threads).exactly
  have h2 := map_resumes_exactly (toIter_resumes hr size' threads') f
  have e2 : ((vs.filter Option.isSome).map (Except.ok (ε := Err))).map (mapOutcome f) = ((vs.filter Option.isSome).map (fun v => v.bind g)).map Except.ok := by
    rw [List.map_map, List.map_map]
    apply List.map_congr_left
    intro v hv
    obtain ⟨hv, hs⟩ := List.mem_filter.1 hv
    obtain ⟨a, rfl⟩ := Option.isSome_iff_exists.1 hs
    exact hf a hv
  rw [e2] at h2
  constructor
  · intro h a ha hn
    refine not_sameIteration_of_stream h1 h2 ?_ h
    intro e
    have hmem : (Except.ok (g a) : Py (Option β)) ∈ ((vs.filter Option.isSome).map (fun v => v.bind g)).map Except.ok := by
      simp only [List.map_map, List.mem_map, List.mem_filter]
      exact ⟨some a, ⟨ha, rfl⟩, rfl⟩
    rw [← e, hn] at hmem
    simp only [List.mem_map, List.mem_filter] at hmem
    obtain ⟨x, ⟨_, hx⟩, hx'⟩ := hmem
    cases hx'
    cases hx
  · intro h
    refine sameIteration_of_stream h1 ?_
    have : (vs.map (fun v => v.bind g)).filter Option.isSome = (vs.filter Option.isSome).map (fun v => v.bind g) := by
      clear h1 h2 e2 hr hf
      induction vs with
      | nil => rfl
      | cons v vs ih =>
        have ih := ih (fun a ha => h a (List.mem_cons_of_mem _ ha))
        cases v with
        | none => simpa using ih
        | some a =>
          have := h a (List.mem_cons_self ..)
          obtain ⟨b, hb⟩ := Option.ne_none_iff_exists'.1 this
          simp [hb, ih]
    rw [this]
    exact h2

/-! ### filter -/

/-- C86, filter. -/
theorem filter_commutes {ds : MapDs α} {vs : List (Option α)} (hr : Reads ds vs) {pred : α → Py Bool} {p : α → Bool}
    (hp : ∀ a, some a ∈ vs → pred a = .ok (p a)) (predIter : Option α → Py Bool) (hi : ∀ a, predIter (some a) = pred a)
    (size threads size' threads' : Nat) :
    SameIteration (prefetchIter size threads false none (filterDs pred ds))
      (filterIter predIter none (prefetchIter size' threads' false none ds)) := by
  have hrf : Reads (filterDs pred ds) (vs.map (fun v => v.filter p)) := by
    refine ⟨by simpa [filterDs] using hr.1, fun k hk => ?_⟩
    have hk' : k < vs.length := by simpa using hk
    simp only [filterDs, hr.2 k hk', List.getElem_map]
    have hm := List.getElem_mem hk'
    cases hv : vs[k] with
    | none => rfl
    | some a =>
      rw [hv] at hm
      simp only [bind, Except.bind, hp a hm, Option.filter]
      cases p a <;> rfl
  refine sameIteration_of_stream (toIter_resumes hrf size threads).exactly ?_
  have h2 := filter_resumes_exactly (toIter_resumes hr size' threads') predIter
  have : ((vs.filter Option.isSome).map (Except.ok (ε := Err))).filterMap (filterOutcome predIter) =
      ((vs.map (fun v => v.filter p)).filter Option.isSome).map Except.ok := by
    clear h2 hr hrf
    induction vs with
    | nil => rfl
    | cons v vs ih =>
      have ih := ih (fun a ha => hp a (List.mem_cons_of_mem _ ha))
      cases v with
      | none => simpa using ih
      | some a =>
        have ha := hp a (List.mem_cons_self ..)
        cases hpa : p a <;> simp [filterOutcome, hi, ha, hpa, ih, Option.filter]
  rw [this] at h2
  exact h2

/-! ### random_map and map_with_index -/

private theorem countedMap_ok (g : Nat → α → β) (f : Nat → α → Py β) : ∀ (as : List α) (k : Nat),
    (∀ i a, as[i]? = some a → f (k + i) a = .ok (g (k + i) a)) →
    countedMap f k (as.map Except.ok) = (as.mapIdx (fun i a => g (k + i) a)).map Except.ok := by
  intro as
  induction as with
  | nil => intro k _; rfl
  | cons a as ih =>
    intro k h
    have h0 := h 0 a rfl
    rw [Nat.add_zero] at h0
    rw [List.map_cons, countedMap, h0, List.mapIdx_cons, List.map_cons]
    simp only [Nat.add_zero]
    rw [ih (k + 1) (fun i b hb => by have := h (i + 1) b (by simpa using hb); rwa [show k + (i + 1) = k + 1 + i by omega] at this)]
    congr 3
    funext i b
    rw [show k + (i + 1) = k + 1 + i by omega]

private theorem filter_mapIdx_some (g : Nat → α → β) (as : List α) :
    (as.mapIdx (fun i a => some (g i a))).filter Option.isSome = as.mapIdx (fun i a => some (g i a)) := by
  rw [List.filter_eq_self]
  intro x hx
  obtain ⟨i, hi, rfl⟩ := List.mem_mapIdx.1 hx
  rfl

/-- C86, random_map, if nothing was filtered out: also the random numbers are the same.  Missing: datasets with filtered elements
(`random_map_sparse_differs`). -/
theorem random_map_commutes_partial {ds : MapDs α} {as : List α} (hr : Reads ds (as.map some)) {f : α → Int → Py (Option β)} {g : Nat → α → β}
    (hf : ∀ (i : Nat) a, as[i]? = some a → f a i = .ok (some (g i a))) (size threads size' threads' : Nat) :
    SameIteration (prefetchIter size threads false none (randomMapDs f ds))
      (randomMapIter (fun a j => f a j) 0 1 (prefetchIter size' threads' false none ds)) := by
  have hrf : Reads (randomMapDs f ds) (as.mapIdx (fun i a => some (g i a))) := by
    refine ⟨by simpa [randomMapDs] using hr.1, fun k hk => ?_⟩
    have hk' : k < as.length := by simpa using hk
    have h1 := hr.2 k (by simpa using hk')
    simp only [randomMapDs, h1, List.getElem_map, List.getElem_mapIdx]
    exact hf k _ (List.getElem?_eq_getElem hk')
  have h1 := (toIter_resumes hrf size threads).exactly
  rw [filter_mapIdx_some] at h1
  refine sameIteration_of_stream h1 ?_
  have h2 := randomMap_resumes_exactly (toIter_resumes hr size' threads') (fun a j => f a j) 0 1
  have hfs : (as.map some).filter Option.isSome = as.map some := by simp [List.filter_eq_self]
  rw [hfs, countedMap_ok (fun i (v : Option α) => v.map (g i)) _ (as.map some) 0] at h2
  · have : ((as.map some).mapIdx fun i (v : Option α) => v.map (g (0 + i))) = as.mapIdx (fun i a => some (g i a)) := by
      apply List.ext_getElem?
      intro i
      rw [List.getElem?_mapIdx, List.getElem?_mapIdx, List.getElem?_map, Nat.zero_add]
      cases as[i]? <;> rfl
    rw [this] at h2
    exact h2
  · intro i v hv
    rw [List.getElem?_map, Option.map_eq_some_iff] at hv
    obtain ⟨a, ha, rfl⟩ := hv
    simpa using hf i a ha

/-- C86, map_with_index, if nothing was filtered out.  Missing: datasets with filtered elements (`map_with_index_sparse_differs`). -/
theorem map_with_index_commutes_partial {ds : MapDs α} {as : List α} (hr : Reads ds (as.map some)) {f : Int → α → Py (Option β)} {g : Nat → α → β}
    (hf : ∀ (i : Nat) a, as[i]? = some a → f i a = .ok (some (g i a))) (size threads size' threads' : Nat) :
    SameIteration (prefetchIter size threads false none (mapWithIndexDs f ds))
      (mapWithIndexIter (fun j a => f j a) (prefetchIter size' threads' false none ds)) := by
  have hrf : Reads (mapWithIndexDs f ds) (as.mapIdx (fun i a => some (g i a))) := by
    refine ⟨by simpa [mapWithIndexDs] using hr.1, fun k hk => ?_⟩
    have hk' : k < as.length := by simpa using hk
    have h1 := hr.2 k (by simpa using hk')
    simp only [mapWithIndexDs, h1, List.getElem_map, List.getElem_mapIdx]
    exact hf k _ (List.getElem?_eq_getElem hk')
  have h1 := (toIter_resumes hrf size threads).exactly
  rw [filter_mapIdx_some] at h1
  refine sameIteration_of_stream h1 ?_
  have h2 := mapWithIndex_resumes_exactly (toIter_resumes hr size' threads') (fun j a => f j a)
  have hfs : (as.map some).filter Option.isSome = as.map some := by simp [List.filter_eq_self]
  rw [hfs, countedMap_ok (fun i (v : Option α) => v.map (g i)) _ (as.map some) 0] at h2
  · have : ((as.map some).mapIdx fun i (v : Option α) => v.map (g (0 + i))) = as.mapIdx (fun i a => some (g i a)) := by
      apply List.ext_getElem?
      intro i
      rw [List.getElem?_mapIdx, List.getElem?_mapIdx, List.getElem?_map, Nat.zero_add]
      cases as[i]? <;> rfl
    rw [this] at h2
    exact h2
  · intro i v hv
    rw [List.getElem?_map, Option.map_eq_some_iff] at hv
    obtain ⟨a, ha, rfl⟩ := hv
    simpa using hf i a ha

/-- A dataset of which the first element was filtered out. -/
def sparseDs : MapDs Nat where
  len := 2
  getitem i := if i = 0 then .ok none else .ok (some 7)
  getitems is := is.mapM (fun i => if i = 0 then .ok none else .ok (some 7))

theorem sparseDs_reads : Reads sparseDs [none, some 7] :=
  ⟨rfl, fun k hk => by rcases k with _ | _ | k <;> first | rfl | (simp at hk; omega)⟩

/-- C86 is false of random_map after a filter: before `to_iter_dataset` the positions of the filtered elements count, after it they do
not, so other random numbers are used (`f` here returns the number of its generator). -/
theorem random_map_sparse_differs (size threads size' threads' : Nat) :
    ¬ SameIteration (prefetchIter size threads false none (randomMapDs (fun _ i => .ok (some i)) sparseDs))
      (randomMapIter (fun _ j => .ok (some (j : Int))) 0 1 (prefetchIter size' threads' false none sparseDs)) := by
  refine not_sameIteration_of_stream (ys := [.ok (some 1)]) (zs := [.ok (some 0)]) ?_ ?_ (by decide)
  · have hr : Reads (randomMapDs (fun _ i => .ok (some i)) sparseDs) [none, some 1] :=
      ⟨rfl, fun k hk => by rcases k with _ | _ | k <;> first | rfl | (simp at hk; omega)⟩
    exact (toIter_resumes hr size threads).exactly
  · exact randomMap_resumes_exactly (toIter_resumes sparseDs_reads size' threads') (fun _ j => .ok (some (j : Int))) 0 1

/-- C86 is false of map_with_index after a filter: the indices before and after `to_iter_dataset` differ. -/
theorem map_with_index_sparse_differs (size threads size' threads' : Nat) :
    ¬ SameIteration (prefetchIter size threads false none (mapWithIndexDs (fun i _ => .ok (some i)) sparseDs))
      (mapWithIndexIter (fun j _ => .ok (some (j : Int))) (prefetchIter size' threads' false none sparseDs)) := by
  refine not_sameIteration_of_stream (ys := [.ok (some 1)]) (zs := [.ok (some 0)]) ?_ ?_ (by decide)
  · have hr : Reads (mapWithIndexDs (fun i _ => .ok (some i)) sparseDs) [none, some 1] :=
      ⟨rfl, fun k hk => by rcases k with _ | _ | k <;> first | rfl | (simp at hk; omega)⟩
    exact (toIter_resumes hr size threads).exactly
  · exact mapWithIndex_resumes_exactly (toIter_resumes sparseDs_reads size' threads') (fun j _ => .ok (some (j : Int)))

/-! ### batch -/

/-- Batches of a random access dataset. -/
theorem reads_batchDs {ds : MapDs α} {vs : List (Option α)} (hr : Reads ds vs) (b : Nat) (hb : 0 < b) (drop : Bool)
    {f : List (Option α) → Py (Option β)} {g : List (Option α) → Option β}
    (hf : ∀ i < batchCount vs.length b drop, f (group vs b i) = .ok (g (group vs b i))) :
    Reads (batchDs b drop false f ds) ((List.range (batchCount vs.length b drop)).map (fun i => g (group vs b i))) := by
  have hlen : (batchDs b drop false f ds).len = batchCount vs.length b drop := by
    rw [hr.1]; rfl
  refine ⟨by simp [hlen], fun k hk => ?_⟩
  have hk' : k < batchCount vs.length b drop := by simpa using hk
  have h := batch_getitem ds b drop f 0 k hb (by rw [hlen]; exact hk')
  simp only [Int.zero_mul, Int.zero_add] at h
  rw [h, (reads_iff_epoch.1 hr), List.getElem_map, List.getElem_range]
  have hg : group (vs.map (Except.ok (ε := Err))) b k = (group vs b k).map Except.ok := by
    simp [group]
  have hm : ∀ l : List (Option α), (l.map (Except.ok (ε := Err))).mapM id = .ok l := by
    intro l
    induction l with
    | nil => rfl
    | cons a l ih => rw [List.map_cons, List.mapM_cons, ih]; rfl
  rw [hg, hm]
  exact hf k hk'

/-- C86, batch, if nothing was filtered out.  Missing: datasets with filtered elements (`batch_sparse_differs`). -/
theorem batch_commutes_partial {ds : MapDs α} {as : List α} (hr : Reads ds (as.map some)) (b : Nat) (hb : 0 < b) (drop : Bool)
    {f : List (Option α) → Py (Option β)} {g : List (Option α) → β}
    (hf : ∀ i < batchCount as.length b drop, f (group (as.map some) b i) = .ok (some (g (group (as.map some) b i))))
    (size threads size' threads' : Nat) :
    SameIteration (prefetchIter size threads false none (batchDs b drop false f ds))
      (batchIter b drop f (prefetchIter size' threads' false none ds)) := by
  have hrb := reads_batchDs hr b hb drop (f := f) (g := fun l => some (g l)) (by simpa using hf)
  have h1 := (toIter_resumes hrb size threads).exactly
  have hfs : (as.map some).filter Option.isSome = as.map some := by simp [List.filter_eq_self]
  have hp := toIter_resumes hr size' threads'
  rw [hfs] at hp
  have h2 := batch_resumes_exactly hp b hb drop f
  refine sameIteration_of_stream h1 ?_
  have : batchStream b drop f (as.map some) true =
      (((List.range (batchCount (as.map some).length b drop)).map (fun i => some (g (group (as.map some) b i)))).filter Option.isSome).map Except.ok := by
    rw [List.filter_eq_self.2 (by intro x hx; obtain ⟨i, _, rfl⟩ := List.mem_map.1 hx; rfl), List.map_map, batchStream]
    simp only [Bool.not_true, Bool.or_false]
    apply List.map_congr_left
    intro i hi
    have := hf i (by simpa using List.mem_range.1 hi)
    simpa using this
  rw [← this]
  exact h2

/-- C86 is false of batch after a filter: before `to_iter_dataset` the batch function is given `None` for the filtered elements, after it
batches are made of the remaining elements (`f` here returns what it is given). -/
theorem batch_sparse_differs (size threads size' threads' : Nat) :
    ¬ SameIteration (prefetchIter size threads false none (batchDs 2 false false (fun l => .ok (some l)) sparseDs))
      (batchIter 2 false (fun l => .ok (some l)) (prefetchIter size' threads' false none sparseDs)) := by
  refine not_sameIteration_of_stream (ys := [.ok (some [none, some 7])]) (zs := [.ok (some [some 7])]) ?_ ?_ (by decide)
  · exact (toIter_resumes (reads_batchDs sparseDs_reads 2 (by decide) false (f := fun l => .ok (some l)) (g := some) (fun _ _ => rfl)) size threads).exactly
  · exact batch_resumes_exactly (as := [some 7]) (toIter_resumes sparseDs_reads size' threads') 2 (by decide) false (fun l => .ok (some l))

/-! ### repeat -/

/-- C86, repeat: if the elements of the dataset are the same in every epoch (or the epochs are not reseeded). -/
theorem repeat_commutes {ds : MapDs α} {vs : List (Option α)} (hr : Reads ds vs) (n : Nat) (hn : 0 < n) (reseed : Bool)
    (hep : reseed = true → ∀ e : Nat, e < n → epoch ds e = epoch ds 0) (size threads size' threads' : Nat) :
    SameIteration (prefetchIter size threads false none (repeatDs (n * ds.len) reseed ds))
      (repeatIter (some n) (prefetchIter size' threads' false none ds)) := by
  have he : epoch (repeatDs (n * ds.len) reseed ds) 0 = (List.replicate n vs).flatten.map Except.ok := by
    rw [repeat_epoch]
    have : ∀ m ≤ n, (List.range m).flatMap (fun (e : Nat) => epoch ds (if reseed then (e : Int) else 0)) = (List.replicate m vs).flatten.map Except.ok := by
      intro m
      induction m with
      | zero => intro _; rfl
      | succ m ih =>
        intro hm
        have hd : epoch ds (if reseed then ((m : Nat) : Int) else 0) = vs.map Except.ok := by
          rw [← reads_iff_epoch.1 hr]
          cases reseed with
          | false => rfl
          | true => exact hep rfl m (by omega)
        rw [List.range_succ, List.flatMap_append, ih (by omega), List.flatMap_singleton, hd, List.replicate_succ', List.flatten_append,
          List.map_append]
        simp
    exact this n (Nat.le_refl _)
  have h1 := (toIter_resumes (reads_iff_epoch.2 he) size threads).exactly
  have h2 := repeat_resumes_exactly (toIter_resumes hr size' threads') n hn
  refine sameIteration_of_stream h1 ?_
  have : (List.replicate n ((vs.filter Option.isSome).map (Except.ok (ε := Err)))).flatten =
      ((List.replicate n vs).flatten.filter Option.isSome).map Except.ok := by
    clear he h1 h2 hep hn
    induction n with
    | zero => rfl
    | succ n ih => rw [List.replicate_succ, List.replicate_succ, List.flatten_cons, List.flatten_cons, ih, List.filter_append, List.map_append]
  rw [← this]
  exact h2

/-! ### flat_map -/

/-- What a random access `flat_map` holds for one element: its fan-out, padded with missing elements. -/
def padded (m : Nat) (g : α → List β) : Option α → List (Option β)
  | none => List.replicate m none
  | some a => (g a).map some ++ List.replicate (m - (g a).length) none

theorem reads_flatMapDs {ds : MapDs α} {vs : List (Option α)} (hr : Reads ds vs) (m : Nat) {g : α → List β}
    (hm : ∀ a, some a ∈ vs → (g a).length ≤ m) (hmax : m * vs.length ≤ maxsize) :
    Reads (flatMapDs m (fun a => .ok ((g a).map some)) ds) (vs.flatMap (padded m g)) := by
  rw [reads_iff_epoch]
  unfold epoch
  rw [flatMap_len, ← hr.1, Nat.min_eq_right hmax, Nat.mul_comm m, range_mul, List.map_flatMap, List.map_flatMap]
  have hvs : vs = (List.range vs.length).map (fun i => vs[i]?.join) := by
    apply List.ext_getElem?
    intro i
    rw [List.getElem?_map]
    by_cases hi : i < vs.length
    · simp [hi]
    · rw [List.getElem?_eq_none (Nat.le_of_not_lt hi), List.getElem?_eq_none (by simpa using Nat.le_of_not_lt hi)]
      rfl
  conv_rhs => rw [hvs]
  rw [List.flatMap_map]
  apply List.flatMap_congr
  intro i hi
  have hi := List.mem_range.mp hi
  have hmem := List.getElem_mem hi
  have hread := hr.2 i hi
  rw [List.map_map, List.getElem?_eq_getElem hi]
  simp only [Option.join_some]
  generalize vs[i] = v at hmem hread
  have hl : (padded m g v).length = m := by
    cases v with
    | none => simp [padded]
    | some a =>
      have := hm a hmem
      simp [padded]; omega
  apply List.ext_getElem
  · simp [hl]
  intro j h1 h2
  have hj : j < m := by simpa using h1
  simp only [List.getElem_map, List.getElem_range, Function.comp, Int.zero_mul, Int.zero_add]
  have := flatMap_getitem ds m (fun a => (g a).map some) (i : Int) j hj
  push_cast
  rw [this, hread]
  cases v with
  | none => simp [padded, bind, Except.bind]
  | some a =>
    have hg := hm a hmem
    simp only [bind, Except.bind, List.length_map, if_pos hg, padded]
    congr 1
    rw [List.getElem_append]
    split
    · rename_i h
      have h' : j < (g a).length := by simpa using h
      simp [List.getElem?_eq_getElem h']
    · rename_i h
      have h' : ¬ j < (g a).length := by simpa using h
      simp [List.getElem?_eq_none (Nat.le_of_not_lt h')]

theorem padded_some (m : Nat) (g : α → List β) (vs : List (Option α)) :
    (vs.flatMap (padded m g)).filter Option.isSome = (vs.filterMap id).flatMap (fun a => (g a).map some) := by
  induction vs with
  | nil => rfl
  | cons v vs ih =>
    rw [List.flatMap_cons, List.filter_append, ih]
    cases v with
    | none => simp [padded]
    | some a =>
      have : ((g a).map some).filter Option.isSome = (g a).map some := by simp [List.filter_eq_self]
      simp [padded, this]

/-- C86, flat_map: if no fan-out is larger than `max_fan_out` and no part is `None`, both orders give the fan-outs one after another.
Partial: the iterator made by `flat_map` after `to_iter_dataset` does not resume exactly from a checkpoint taken at the end of the data
(`flatMap_end_restored_into_used`). -/
theorem flat_map_commutes_partial {ds : MapDs α} {vs : List (Option α)} (hr : Reads ds vs) (m : Nat) {g : α → List β}
    (hm : ∀ a, some a ∈ vs → (g a).length ≤ m) (hmax : m * vs.length ≤ maxsize) (fi : Option α → Py (List (Option β)))
    (hi : ∀ a, fi (some a) = .ok ((g a).map some)) (size threads size' threads' : Nat) :
    let ys := (vs.filterMap id).flatMap (fun a => (g a).map some)
    ResumesExactly (prefetchIter size threads false none (flatMapDs m (fun a => .ok ((g a).map some)) ds)) (ys.map Except.ok) true ∧
      ResumesExactlyWhen (fun k => decide (k < ys.length)) (flatMapIter fi (prefetchIter size' threads' false none ds)) (ys.map Except.ok) true := by
  have h1 := (toIter_resumes (reads_flatMapDs hr m hm hmax) size threads).exactly
  rw [padded_some] at h1
  refine ⟨h1, ?_⟩
  have h2 := flatMap_resumes_exactly_partial (f := fi) (g := fun v => match v with | none => [] | some a => (g a).map some)
    (toIter_resumes hr size' threads') (by
      intro v hv
      obtain ⟨_, hs⟩ := List.mem_filter.1 hv
      obtain ⟨a, rfl⟩ := Option.isSome_iff_exists.1 hs
      exact hi a)
  have : (vs.filter Option.isSome).flatMap (fun v => match v with | none => [] | some a => (g a).map some) =
      (vs.filterMap id).flatMap (fun a => (g a).map some) := by
    clear h1 h2 hr hm hmax
    induction vs with
    | nil => rfl
    | cons v vs ih => cases v <;> simp [ih]
  rw [this] at h2
  exact h2

/-- C86 is false of flat_map with a fan-out larger than `max_fan_out`: before `to_iter_dataset` reading the element raises, after it
`max_fan_out` is ignored. -/
theorem flat_map_fan_out_differs (size' threads' : Nat) :
    (flatMapDs 1 (fun a => .ok [some a, some a]) (listSource [5])).getitem 0 = .error .valueError ∧
      ResumesExactlyWhen (fun k => decide (k < 2)) (flatMapIter (fun a => .ok [a, a]) (prefetchIter size' threads' false none (listSource [5])))
        [.ok (some 5), .ok (some 5)] true := by
  refine ⟨by decide, ?_⟩
  have hr : Reads (listSource [5]) [some 5] := ⟨rfl, fun k hk => by rcases k with _ | k <;> first | rfl | (simp at hk)⟩
  exact flatMap_resumes_exactly_partial (as := [some 5]) (g := fun a => [a, a]) (toIter_resumes hr size' threads') (fun _ _ => rfl)

/-- C86 is false of flat_map with a part that is `None`: before `to_iter_dataset` it is skipped, after it it is returned. -/
theorem flat_map_none_differs (size threads size' threads' : Nat) :
    ResumesExactly (prefetchIter size threads false none (flatMapDs 2 (fun a => .ok [none, some a]) (listSource [5]))) [.ok (some 5)] true ∧
      ResumesExactlyWhen (fun k => decide (k < 2)) (flatMapIter (fun a => .ok [none, a]) (prefetchIter size' threads' false none (listSource [5])))
        [.ok none, .ok (some 5)] true := by
  have hr : Reads (listSource [5]) [some 5] := ⟨rfl, fun k hk => by rcases k with _ | k <;> first | rfl | (simp at hk)⟩
  have hr2 : Reads (flatMapDs 2 (fun a => .ok [none, some a]) (listSource [5])) [none, some 5] :=
    ⟨rfl, fun k hk => by rcases k with _ | _ | k <;> first | rfl | (simp at hk; omega)⟩
  exact ⟨(toIter_resumes hr2 size threads).exactly,
    flatMap_resumes_exactly_partial (as := [some 5]) (g := fun a => [none, a]) (toIter_resumes hr size' threads') (fun _ _ => rfl)⟩

/-! ### zip -/

/-- C86, zip of datasets of equal lengths in which nothing was filtered out: both orders give the rows.  Missing: datasets with filtered
elements (`zip_sparse_differs`). -/
theorem zip_commutes_partial {n : Nat} (hn : 0 < n) (strict : Bool) {ds : Fin n → MapDs α} {as : Fin n → List α} {L : Nat}
    (hr : ∀ i, Reads (ds i) ((as i).map some)) (hL : ∀ i, (as i).length = L) (size threads size' threads' : Nat) :
    let rows := zipStream (fun i => (as i).map some)
    ResumesExactly (prefetchIter size threads false none (zipDs L (List.ofFn ds))) (rows.map (fun r => .ok (some r))) true ∧
      ResumesExactly (zipIter strict (fun i => prefetchIter size' threads' false none (ds i))) (rows.map Except.ok) true := by
  intro rows
  have hml : minLen (fun i => (as i).map some) = L := by
    obtain ⟨i, hi⟩ := (minLen_spec hn (fun i => (as i).map some)).2
    rw [← hi, List.length_map, hL]
  constructor
  · have hz : Reads (zipDs L (List.ofFn ds)) (rows.map some) := by
      refine ⟨by simp [rows, zipStream, hml, zipDs], fun k hk => ?_⟩
      have hk' : k < L := by simpa [rows, zipStream, hml] using hk
      rw [zip_getitem]
      refine ⟨zipRow (fun i => (as i).map some) k, by simp [rows, zipStream], ?_⟩
      have h1 : zipRow (fun i => (as i).map some) k = (List.finRange n).map (fun i => (as i)[k]?) := by
        unfold zipRow
        rw [← List.filterMap_eq_map (f := fun i => (as i)[k]?)]
        apply List.filterMap_congr
        intro i _
        have : k < (as i).length := by rw [hL]; exact hk'
        simp [List.getElem?_eq_getElem this]
      rw [h1, List.ofFn_eq_map, List.forall₂_map_left_iff, List.forall₂_map_right_iff, List.forall₂_same]
      intro i _
      have h2 : k < (as i).length := by rw [hL]; exact hk'
      rw [(hr i).2 k (by simpa using h2), List.getElem?_eq_getElem h2]
      simp
    have := (toIter_resumes hz size threads).exactly
    rw [List.filter_eq_self.2 (by simp), List.map_map] at this
    exact this
  · refine zip_resumes_exactly hn strict (as := fun i => (as i).map some) (fun i => ?_) (fun _ _ i j => by simp [hL])
    have := toIter_resumes (hr i) size' threads'
    rwa [List.filter_eq_self.2 (by simp)] at this

/-- C86 is false of zip of datasets of which one was filtered: before `to_iter_dataset` the rows contain `None` for the missing elements,
after it elements of different positions are paired. -/
theorem zip_sparse_differs (size threads size' threads' : Nat) :
    ResumesExactly (prefetchIter size threads false none (zipDs 2 [sparseDs, listSource [1, 2]]))
        [.ok (some [none, some 1]), .ok (some [some 7, some 2])] true ∧
      ResumesExactly (zipIter false (fun i : Fin 2 => prefetchIter size' threads' false none (if i = 0 then sparseDs else listSource [1, 2])))
        [.ok [some 7, some 1]] true := by
  have hl : Reads (listSource [1, 2]) [some 1, some 2] := ⟨rfl, fun k hk => by rcases k with _ | _ | k <;> first | rfl | (simp at hk; omega)⟩
  have hz : Reads (zipDs 2 [sparseDs, listSource [1, 2]]) [some [none, some 1], some [some 7, some 2]] :=
    ⟨rfl, fun k hk => by rcases k with _ | _ | k <;> first | rfl | (simp at hk; omega)⟩
  refine ⟨(toIter_resumes hz size threads).exactly, ?_⟩
  refine zip_resumes_exactly (by decide) false (as := fun i : Fin 2 => if i = 0 then [some 7] else [some 1, some 2]) (fun i => ?_) (by simp)
  by_cases hi : i = 0
  · subst hi; exact toIter_resumes sparseDs_reads size' threads'
  · rw [if_neg hi, if_neg hi]; exact toIter_resumes hl size' threads'

/-! ### mix -/

private theorem selProportions_ok {lens ps : List Nat} {sm : SelMap} (h : selProportions lens ps = .ok sm) :
    (∀ p ∈ ps, 0 < p) ∧ lens.length = ps.length ∧ sm.sel = fun k => datasetAndKey k ps := by
  unfold selProportions at h
  split at h
  · cases h
  rename_i h0
  split at h
  · cases h
  rename_i hl
  split at h
  · cases h
  refine ⟨?_, by omega, ?_⟩
  · intro p hp
    rcases Nat.eq_zero_or_pos p with rfl | h
    · simp only [List.contains_iff_mem] at h0; exact absurd hp h0
    · exact h
  · simp only at h
    split at h
    · cases h
    · cases h; rfl

/-- A mix of finite streams ends. -/
theorem mixOutcome_ends {n : Nat} (hn : 0 < n) {ps : List Nat} (hlen : ps.length = n) (hpos : ∀ p ∈ ps, 0 < p) (xs : Fin n → List (Py α)) :
    ∃ m, mixOutcome ps xs m = none := by
  by_contra hc
  have hc : ∀ m, mixOutcome ps xs m ≠ none := fun m h => hc ⟨m, h⟩
  have hne : ps ≠ [] := by rintro rfl; simp at hlen; omega
  have hle : ∀ m (i : Fin n), drawn ps i 0 m ≤ (xs i).length := by
    intro m
    induction m with
    | zero => intro i; rw [drawn_init]; omega
    | succ m ih =>
      intro i
      obtain ⟨d, key, hd, _⟩ := mix_select_total ps hne hpos m
      rw [drawn_succ ps i m d key hd]
      split
      · rename_i hdi
        have := hc m
        subst hdi
        simp only [mixOutcome, hd, dif_pos i.isLt] at this
        have := List.getElem?_eq_none_iff.not.1 this
        change ¬ (xs i).length ≤ _ at this
        omega
      · exact ih i
  have hw := hpos ps[0] (List.getElem_mem (by omega))
  have hs : 0 < ps.sum := Nat.lt_of_lt_of_le hw (mem_le_sum ps ps[0] (List.getElem_mem _))
  have hd := (mix_bounded_drift ps hpos 0 ps[0] (((xs ⟨0, hn⟩).length + 1) * ps.sum) (List.getElem?_eq_getElem (by omega))).2
  have h1 := hle (((xs ⟨0, hn⟩).length + 1) * ps.sum) ⟨0, hn⟩
  simp only [Nat.add_zero] at hd h1
  have h2 : ((xs ⟨0, hn⟩).length + 1) * ps.sum * ps[0] ≤ (xs ⟨0, hn⟩).length * ps.sum := Nat.le_trans hd (Nat.mul_le_mul_right _ h1)
  have h3 : ((xs ⟨0, hn⟩).length + 1) * ps.sum * 1 ≤ ((xs ⟨0, hn⟩).length + 1) * ps.sum * ps[0] := Nat.mul_le_mul_left _ hw
  rw [Nat.mul_one] at h3
  have h4 := Nat.le_of_mul_le_mul_right (Nat.le_trans h3 h2) hs
  omega

/-- C86, mix, if nothing was filtered out: what the mix of random access datasets yields is the beginning of what the mix of the iterators
yields.  Partial: the mix of iterators goes on until the component it has to read is exhausted (`mix_longer_after`), and with filtered
elements the order differs as well (`mix_sparse_differs`). -/
theorem mix_commutes_partial {n : Nat} (hn : 0 < n) {ds : Fin n → MapDs α} {as : Fin n → List α} (hr : ∀ i, Reads (ds i) ((as i).map some))
    {proportions : List Nat} {sm : SelMap} (hsm : selProportions (List.ofFn (fun i => (as i).length)) proportions = .ok sm)
    (size threads size' threads' : Nat) :
    ∃ ys zs : List (Option α), ResumesExactly (prefetchIter size threads false none (mixDs sm (List.ofFn ds))) (ys.map Except.ok) true ∧
      ResumesExactly (mixIter proportions (fun i => prefetchIter size' threads' false none (ds i))) (zs.map Except.ok) true ∧
      ys.length = sm.len ∧ ys <+: zs := by
  obtain ⟨hpos, hlen, hsel⟩ := selProportions_ok hsm
  have hlen : proportions.length = n := by rw [← hlen, List.length_ofFn]
  have hne : proportions ≠ [] := by rintro rfl; simp at hlen; omega
  let xs : Fin n → List (Py (Option α)) := fun i => ((as i).map some).map Except.ok
  have hex := mixOutcome_ends hn hlen hpos xs
  let val : Nat → Option α := fun m => match mixOutcome proportions xs m with
    | some (.ok v) => v
    | _ => none
  have hval : ∀ m, mixOutcome proportions xs m ≠ none → mixOutcome proportions xs m = some (.ok (val m)) ∧ (val m).isSome = true := by
    intro m hm
    obtain ⟨r, hr'⟩ := Option.ne_none_iff_exists'.1 hm
    have hv : ∃ a, r = .ok (some a) := by
      simp only [mixOutcome] at hr'
      split at hr'
      · split at hr'
        · have := List.mem_of_getElem? hr'
          simp only [xs, List.map_map, List.mem_map] at this
          obtain ⟨a, _, rfl⟩ := this
          exact ⟨a, rfl⟩
        · cases hr'
      · cases hr'
    obtain ⟨a, rfl⟩ := hv
    simp [val, hr']
  have hfind : ∀ m < Nat.find hex, mixOutcome proportions xs m ≠ none := fun m hm => Nat.find_min hex hm
  have hsmall : ∀ k < sm.len, ∃ (d : Fin n) (key : Int) (hk : drawn proportions d 0 k < (as d).length), sm.sel k = .ok (d.val, key) ∧
      key = (drawn proportions d 0 k : Int) ∧ mixOutcome proportions xs k = some (.ok (some (as d)[drawn proportions d 0 k])) := by
    intro k hk
    obtain ⟨d, key, len, h1, h2, h3, h4⟩ := mix_no_wrap_around _ _ sm hsm k hk
    have hd : d < n := by have := getElem?_lt h2; simpa using this
    rw [List.getElem?_ofFn, dif_pos hd, Option.some.injEq] at h2
    have h1' := h1
    rw [hsel] at h1'
    have hkey := mix_keys_in_order proportions hne hpos k d key h1'
    have hlt : drawn proportions d 0 k < (as ⟨d, hd⟩).length := by omega
    refine ⟨⟨d, hd⟩, key, hlt, h1, hkey, ?_⟩
    simp only [mixOutcome, h1', dif_pos hd, xs]
    simp [List.getElem?_eq_getElem hlt]
  have hle : sm.len ≤ Nat.find hex := by
    by_contra hc
    obtain ⟨d, key, _, _, _, h⟩ := hsmall (Nat.find hex) (by omega)
    rw [Nat.find_spec hex] at h
    cases h
  refine ⟨(List.range sm.len).map val, (List.range (Nat.find hex)).map val, ?_, ?_, by simp, ?_⟩
  · have hm : Reads (mixDs sm (List.ofFn ds)) ((List.range sm.len).map val) := by
      refine ⟨by simp [mixDs], fun k hk => ?_⟩
      have hk : k < sm.len := by simpa using hk
      obtain ⟨d, key, h0, h1, h2, h3⟩ := hsmall k hk
      have hv : val k = some (as d)[drawn proportions d 0 k] := by simp only [val, h3]
      have hp : pyget (List.ofFn ds) d.val = .ok (ds d) := by
        unfold pyget
        rw [List.getElem?_ofFn, dif_pos d.isLt]
      simp only [mixDs, h1, bind, Except.bind, hp, List.getElem_map, List.getElem_range, hv, h2]
      rw [(hr d).2 _ (by simpa using h0)]
      simp
    have := (toIter_resumes hm size threads).exactly
    rwa [List.filter_eq_self.2 (by
      intro v hv
      obtain ⟨k, hk, rfl⟩ := List.mem_map.1 hv
      exact (hval k (hfind k (Nat.lt_of_lt_of_le (List.mem_range.1 hk) hle))).2)] at this
  · refine mix_resumes_exactly hn hlen hpos (xs := xs) (fun i => ?_) ?_ ?_ (Or.inr ?_)
    · have := toIter_resumes (hr i) size' threads'
      rwa [List.filter_eq_self.2 (by simp)] at this
    · intro m hm
      have hm : m < Nat.find hex := by simpa using hm
      rw [(hval m (hfind m hm)).1]
      simp [hm]
    · intro k e h
      rw [List.getElem?_map, Option.map_eq_some_iff] at h
      obtain ⟨_, _, h⟩ := h
      cases h
    · simpa using Nat.find_spec hex
  · have : (List.range sm.len).map val = ((List.range (Nat.find hex)).map val).take sm.len := by
      rw [← List.map_take, List.take_range, Nat.min_eq_left hle]
    rw [this]
    exact List.take_prefix _ _

/-- C86 is false of mix: with datasets of 2 and 1 elements and equal weights the mix of random access datasets has 2 elements, the mix of
iterators 3. -/
theorem mix_longer_after (size threads size' threads' : Nat) :
    ∃ sm, selProportions [2, 1] [1, 1] = .ok sm ∧
    ResumesExactly (prefetchIter size threads false none (mixDs sm [listSource [1, 2], listSource [3]])) [.ok (some 1), .ok (some 3)] true ∧
      ResumesExactly (mixIter [1, 1] (fun i : Fin 2 => prefetchIter size' threads' false none (if i = 0 then listSource [1, 2] else listSource [3])))
        [.ok (some 1), .ok (some 3), .ok (some 2)] true := by
  refine ⟨_, rfl, ?_, ?_⟩
  · have hz : Reads (mixDs { len := min maxsize 2, sel := fun k => datasetAndKey k [1, 1] } [listSource [1, 2], listSource [3]]) [some 1, some 3] :=
      ⟨by decide, fun k hk => by rcases k with _ | _ | k <;> first | rfl | (simp at hk; omega)⟩
    exact (toIter_resumes hz size threads).exactly
  · refine mix_resumes_exactly (n := 2) (by decide) rfl (by decide)
      (xs := fun i : Fin 2 => if i = 0 then [.ok (some 1), .ok (some 2)] else [.ok (some 3)]) (fun i => ?_) (by decide) ?_ (Or.inr (by decide))
    · have h1 : Reads (listSource [1, 2]) [some 1, some 2] := ⟨rfl, fun k hk => by rcases k with _ | _ | k <;> first | rfl | (simp at hk; omega)⟩
      have h2 : Reads (listSource [3]) [some 3] := ⟨rfl, fun k hk => by rcases k with _ | k <;> first | rfl | (simp at hk)⟩
      by_cases hi : i = 0
      · subst hi; exact toIter_resumes h1 size' threads'
      · rw [if_neg hi, if_neg hi]; exact toIter_resumes h2 size' threads'
    · intro k e h
      rcases k with _ | _ | _ | k <;> simp at h

/-- C86 is false of mix of datasets of which one was filtered: before `to_iter_dataset` the missing elements take part in the mix, after
it they do not. -/
theorem mix_sparse_differs (size threads size' threads' : Nat) :
    ∃ sm, selProportions [2, 2] [1, 1] = .ok sm ∧
    ResumesExactly (prefetchIter size threads false none (mixDs sm [sparseDs, listSource [1, 2]])) [.ok (some 1), .ok (some 7), .ok (some 2)] true ∧
      ResumesExactly (mixIter [1, 1] (fun i : Fin 2 => prefetchIter size' threads' false none (if i = 0 then sparseDs else listSource [1, 2])))
        [.ok (some 7), .ok (some 1)] true := by
  refine ⟨_, rfl, ?_, ?_⟩
  · have hz : Reads (mixDs { len := min maxsize 4, sel := fun k => datasetAndKey k [1, 1] } [sparseDs, listSource [1, 2]])
        [none, some 1, some 7, some 2] :=
      ⟨by decide, fun k hk => by rcases k with _ | _ | _ | _ | k <;> first | rfl | (simp at hk; omega)⟩
    exact (toIter_resumes hz size threads).exactly
  · refine mix_resumes_exactly (n := 2) (by decide) rfl (by decide)
      (xs := fun i : Fin 2 => if i = 0 then [.ok (some 7)] else [.ok (some 1), .ok (some 2)]) (fun i => ?_) (by decide) ?_ (Or.inr (by decide))
    · have h1 : Reads (listSource [1, 2]) [some 1, some 2] := ⟨rfl, fun k hk => by rcases k with _ | _ | k <;> first | rfl | (simp at hk; omega)⟩
      by_cases hi : i = 0
      · subst hi; exact toIter_resumes sparseDs_reads size' threads'
      · rw [if_neg hi, if_neg hi]; exact toIter_resumes h1 size' threads'
    · intro k e h
      rcases k with _ | _ | k <;> simp at h

/-! ### The hypotheses are met -/

theorem threeDs_reads : Reads (listSource [1, 2, 3]) ([1, 2, 3].map some) :=
  ⟨rfl, fun k hk => by rcases k with _ | _ | _ | k <;> first | rfl | (simp at hk; omega)⟩

-- a function that never returns `None`, on a dataset with a filtered element
example : SameIteration (prefetchIter 4 2 false none (mapDs (fun a => .ok (some (a + 1))) sparseDs))
    (mapIter (fun a => .ok (some (a + 1))) (prefetchIter 1 1 false none sparseDs)) :=
  (map_commutes_iff sparseDs_reads (g := fun a => some (a + 1)) (fun _ _ => rfl) 4 2 1 1).2 (fun _ _ => by simp)

-- a function that does
example : ¬ SameIteration (prefetchIter 4 2 false none (mapDs (fun a => .ok (if a = 2 then none else some a)) (listSource [1, 2, 3])))
    (mapIter (fun a => .ok (if a = 2 then none else some a)) (prefetchIter 1 1 false none (listSource [1, 2, 3]))) := fun h =>
  (map_commutes_iff threeDs_reads (g := fun a => if a = 2 then none else some a) (fun _ _ => rfl) 4 2 1 1).1 h 2 (by decide) rfl

example : SameIteration (prefetchIter 4 2 false none (filterDs (fun a => .ok (a % 2 == 1)) (listSource [1, 2, 3])))
    (filterIter (fun v => .ok (v.any (· % 2 == 1))) none (prefetchIter 1 1 false none (listSource [1, 2, 3]))) :=
  filter_commutes threeDs_reads (p := fun a => a % 2 == 1) (fun _ _ => rfl) (fun v => .ok (v.any (· % 2 == 1))) (fun _ => rfl) 4 2 1 1

example : SameIteration (prefetchIter 4 2 false none (batchDs 2 false false (fun l => .ok (some l)) (listSource [1, 2, 3])))
    (batchIter 2 false (fun l => .ok (some l)) (prefetchIter 1 1 false none (listSource [1, 2, 3]))) :=
  batch_commutes_partial threeDs_reads 2 (by decide) false (g := id) (fun _ _ => rfl) 4 2 1 1

example : SameIteration (prefetchIter 4 2 false none (repeatDs (2 * 2) false sparseDs)) (repeatIter (some 2) (prefetchIter 1 1 false none sparseDs)) :=
  repeat_commutes sparseDs_reads 2 (by decide) false (fun h => by cases h) 4 2 1 1

example : (flatMapDs 3 (fun a => .ok ((List.replicate a a).map some)) (listSource [1, 2, 3])).len = 9 ∧
    ResumesExactly (prefetchIter 4 2 false none (flatMapDs 3 (fun a => .ok ((List.replicate a a).map some)) (listSource [1, 2, 3])))
      ([some 1, some 2, some 2, some 3, some 3, some 3].map Except.ok) true :=
  ⟨by decide, (flat_map_commutes_partial threeDs_reads 3 (g := fun a => List.replicate a a)
    (by intro a ha; simp at ha; rw [List.length_replicate]; omega) (by decide)
    (fun v => .ok ((v.elim [] (fun a => List.replicate a a)).map some)) (fun _ => rfl) 4 2 1 1).1⟩

example : ResumesExactly (zipIter true (fun _ : Fin 2 => prefetchIter 1 1 false none (listSource [1, 2, 3])))
    [.ok [some 1, some 1], .ok [some 2, some 2], .ok [some 3, some 3]] true :=
  (zip_commutes_partial (n := 2) (by decide) true (as := fun _ => [1, 2, 3]) (L := 3) (fun _ => threeDs_reads) (fun _ => rfl) 4 2 1 1).2

example : ∃ sm, selProportions (List.ofFn (fun _ : Fin 2 => 3)) [1, 2] = .ok sm ∧ sm.len = 4 := ⟨_, rfl, by decide⟩

example : SameIteration (prefetchIter 4 2 false none (randomMapDs (fun a i => .ok (some (a, i))) (listSource [1, 2, 3])))
    (randomMapIter (fun a j => .ok (some (a, (j : Int)))) 0 1 (prefetchIter 1 1 false none (listSource [1, 2, 3]))) :=
  random_map_commutes_partial threeDs_reads (g := fun i a => (a, (i : Int))) (fun _ _ _ => rfl) 4 2 1 1

example : SameIteration (prefetchIter 4 2 false none (mapWithIndexDs (fun i a => .ok (some (a, i))) (listSource [1, 2, 3])))
    (mapWithIndexIter (fun j a => .ok (some (a, (j : Int)))) (prefetchIter 1 1 false none (listSource [1, 2, 3]))) :=
  map_with_index_commutes_partial threeDs_reads (g := fun i a => (a, (i : Int))) (fun _ _ _ => rfl) 4 2 1 1

end Grain
