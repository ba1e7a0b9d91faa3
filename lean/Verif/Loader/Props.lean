import Verif.Loader.Sim
import Verif.Loader.PropsIndexSampler
/-
Property C41: the elements of a `DataLoader` and its checkpoints.
-/
namespace Grain

theorem inTurn_eq (n : Nat) (vs : Nat → List α) (K : Nat) :
    inTurn n vs K = (List.range (K * n)).filterMap (fun q => (vs (q % n))[q / n]?) := by
  have hr : ∀ m, List.range (m * n) = (List.range m).flatMap (fun k => (List.range n).map (fun w => k * n + w)) := by
    intro m
    induction m with
    | zero => simp
    | succ m ih => rw [Nat.succ_mul, List.range_add, ih, List.range_succ, List.flatMap_append]; simp
  unfold inTurn
  rw [List.filterMap_eq_flatMap_toList, hr, List.flatMap_assoc]
  simp only [List.flatMap_map]
  congr 1
  funext k
  have hcongr : ∀ l : List Nat, (∀ w ∈ l, w < n) →
      l.flatMap (fun w => (vs w)[k]?.toList) = l.flatMap (fun w => ((vs ((k * n + w) % n))[(k * n + w) / n]?).toList) := by
    intro l
    induction l with
    | nil => intro _; rfl
    | cons w l ih =>
      intro hl
      have hw := hl w (by simp)
      rw [List.flatMap_cons, List.flatMap_cons, ih (fun v hv => hl v (by simp [hv]))]
      have e1 : (k * n + w) / n = k := by rw [Nat.mul_comm, Nat.mul_add_div (by omega), Nat.div_eq_of_lt hw, Nat.add_zero]
      have e2 : (k * n + w) % n = w := by rw [Nat.mul_comm, Nat.mul_add_mod, Nat.mod_eq_of_lt hw]
      rw [e1, e2]
  exact hcongr _ (fun w hw => List.mem_range.1 hw)

theorem inTurn_one (vs : Nat → List α) (K : Nat) (hK : (vs 0).length ≤ K) : inTurn 1 vs K = vs 0 := by
  rw [inTurn_eq, Nat.mul_one]
  simp only [Nat.mod_one, Nat.div_one]
  exact filterMap_range_get _ _ hK

theorem inTurn_everyNth {n : Nat} (hn : 0 < n) (ys : List α) (K : Nat) (hK : ys.length ≤ K) : inTurn n (fun w => everyNth n w ys) K = ys := by
  rw [inTurn_eq]
  have : (fun q => (everyNth n (q % n) ys)[q / n]?) = (fun q => ys[q]?) := by
    funext q
    rw [everyNth_getElem? hn, Nat.mul_comm, Nat.div_add_mod]
  rw [this]
  apply filterMap_range_get
  have : ys.length * 1 ≤ K * n := Nat.mul_le_mul hK hn
  omega

/-- C41.  For every shard, number of workers, buffer sizes and operations, if reading and the user functions succeed (`rs`
are the records of this shard, `ys w` what the operations make of those of worker `w`), the data loader yields what the
workers yield, one element from each worker in turn; and for every sequence of `next`, `get_state` and `set_state` calls,
into the same iterator or into a new one after a crash, any number of times, it continues exactly there.  (`K` is any bound
on the number of elements of a worker.) -/
theorem dataLoader_resumes_exactly (c : LoaderConf) (hc : 0 < c.shard.shardCount) (src : MapDs V) (s : Sampler) (size : Nat)
    (ops : List (DlOp (Option V))) (bufferSize threads : Nat) (hv : ∀ op ∈ ops, op.valid) {rs : List (Rec (Option V))}
    (hrs : readAll (samplerDs src s c.shard size) = some rs) (ys : Nat → List (Rec (Option V)))
    (hys : ∀ w, w < max c.workers 1 → runOps ops (everyNth (max c.workers 1) w rs) = some (ys w)) (K : Nat)
    (hK : ∀ w, w < max c.workers 1 → (ys w).length ≤ K) :
    ResumesExactly (dataLoader c src s size ops bufferSize threads)
      ((inTurn (max c.workers 1) (fun w => (ys w).map (·.data)) K).map Except.ok) true := by
  apply Resumes.exactly
  by_cases hw : c.workers = 0
  · have hm : max c.workers 1 = 1 := by omega
    rw [hm] at hys hK ⊢
    have hd : dataLoader c src s size ops bufferSize threads =
        loaderIter0 c (loaderFam ops (readFam bufferSize threads (samplerDs src s c.shard size) 1)) := by
      unfold dataLoader loaderIter
      rw [if_pos hw]
    rw [hd, inTurn_one _ _ (by simpa using hK 0 (by decide))]
    obtain ⟨At, Ck, hsim⟩ := worker_resumes bufferSize threads hv hrs (n := 1) (w := 0) (by decide) (by decide) (hys 0 (by decide))
    exact ⟨_, _, loader0_sim hc hw hsim⟩
  · have hm : max c.workers 1 = c.workers := by omega
    rw [hm] at hys hK ⊢
    have hd : dataLoader c src s size ops bufferSize threads =
        loaderIterN c (loaderFam ops (readFam bufferSize threads (samplerDs src s c.shard size) c.workers)) := by
      unfold dataLoader loaderIter
      rw [if_neg hw]
    rw [hd]
    have hres : ∀ w, ∃ p : _ × _, w < c.workers → SimWhen (fun _ => true)
        ((loaderFam ops (readFam bufferSize threads (samplerDs src s c.shard size) c.workers)).fam.iter w)
        (((ys w).map (·.data)).map Except.ok) true p.1 p.2 := by
      intro w
      by_cases hw' : w < c.workers
      · obtain ⟨At, Ck, hsim⟩ := worker_resumes bufferSize threads hv hrs (by omega) hw' (hys w hw')
        exact ⟨(At, Ck), fun _ => hsim.when _⟩
      · exact ⟨(fun _ _ => False, fun _ _ => False), fun h => absurd h hw'⟩
    choose P hP using hres
    have ht := trace_rows (vs := fun w => (ys w).map (·.data)) (n := c.workers) (K := K) (by omega) (fun w hw => by simpa using hK w hw)
    have hsim := loaderN_sim hc (by omega) (At := fun w => (P w).1) (Ck := fun w => (P w).2) hP ht
    have he : (((List.range (K * c.workers)).filterMap (fun q => ((ys (q % c.workers)).map (·.data))[q / c.workers]?.map
        (fun a => (q % c.workers, (Except.ok a : Py (Option V)))))).map (·.2)) = (inTurn c.workers (fun w => (ys w).map (·.data)) K).map Except.ok := by
      rw [inTurn_eq, List.map_filterMap, List.map_filterMap]
      congr 1
      funext q
      cases ((ys (q % c.workers)).map (·.data))[q / c.workers]? <;> rfl
    rw [he] at hsim
    exact ⟨_, _, hsim⟩

/-! ### Independence of the number of workers -/

theorem mapM_everyNth {f : γ → Option β} {l : List γ} {zs : List β} (h : l.mapM f = some zs) {n : Nat} (hn : 0 < n) (w : Nat) :
    (everyNth n w l).mapM f = some (everyNth n w zs) := by
  have hl := mapM_some_length' _ _ _ h
  have hlen : (everyNth n w l).length = (everyNth n w zs).length := by
    have key : ∀ k, (everyNth n w l).length ≤ k ↔ (everyNth n w zs).length ≤ k := by
      intro k
      rw [← List.getElem?_eq_none_iff, ← List.getElem?_eq_none_iff, everyNth_getElem? hn, everyNth_getElem? hn,
        List.getElem?_eq_none_iff, List.getElem?_eq_none_iff, hl]
    have a := key (everyNth n w l).length
    have b := key (everyNth n w zs).length
    omega
  have hf : ∀ i (h1 : i < (everyNth n w l).length) (h2 : i < (everyNth n w zs).length), f (everyNth n w l)[i] = some (everyNth n w zs)[i] := by
    intro i h1 h2
    have ga := List.getElem?_eq_getElem h1
    have gb := List.getElem?_eq_getElem h2
    rw [everyNth_getElem? hn] at ga gb
    obtain ⟨la, ga⟩ := List.getElem?_eq_some_iff.1 ga
    obtain ⟨lb, gb⟩ := List.getElem?_eq_some_iff.1 gb
    rw [← ga, ← gb]
    exact mapM_some_getElem _ _ h _ la lb
  generalize everyNth n w l = l' at *
  generalize everyNth n w zs = z' at *
  clear hl h
  induction l' generalizing z' with
  | nil => cases z' with | nil => rfl | cons _ _ => simp at hlen
  | cons a l' ih =>
    cases z' with
    | nil => simp at hlen
    | cons z z' =>
      have h0 := hf 0 (by simp) (by simp)
      simp only [List.getElem_cons_zero] at h0
      rw [List.mapM_cons, h0, ih z' (by simpa using hlen) (by
        intro i h1 h2
        have := hf (i + 1) (by simpa using h1) (by simpa using h2)
        simpa using this)]
      rfl

theorem runOps_everyNth {n : Nat} (hn : 0 < n) (w : Nat) : ∀ (ops : List (DlOp D)) (rs zs : List (Rec D)), (∀ op ∈ ops, op.oneToOne = true) →
    runOps ops rs = some zs → runOps ops (everyNth n w rs) = some (everyNth n w zs) := by
  intro ops
  induction ops with
  | nil => intro rs zs _ h; cases h; rfl
  | cons op ops ih =>
    intro rs zs hone h
    simp only [runOps, Option.bind_eq_some_iff] at h ⊢
    obtain ⟨ms, h1, h2⟩ := h
    refine ⟨everyNth n w ms, ?_, ih _ _ (fun o ho => hone o (by simp [ho])) h2⟩
    have := hone op (by simp)
    cases op with
    | map f => exact mapM_everyNth h1 hn w
    | randomMap f => exact mapM_everyNth h1 hn w
    | filter p => cases this
    | batch b d f => cases this

/-- C41: with operations that make one element of each record (maps and random maps) the elements and their order are the
same for every number of workers (`0` included): the operations applied to the records of the shard.  The full statement
would allow all operations; it is false for `Filter` and `Batch`: `dataLoader_filter_depends_on_workers`,
`dataLoader_batch_depends_on_workers`. -/
theorem dataLoader_worker_independent_partial (c : LoaderConf) (hc : 0 < c.shard.shardCount) (src : MapDs V) (s : Sampler) (size : Nat)
    (ops : List (DlOp (Option V))) (bufferSize threads : Nat) (hone : ∀ op ∈ ops, op.oneToOne = true) {rs zs : List (Rec (Option V))}
    (hrs : readAll (samplerDs src s c.shard size) = some rs) (hzs : runOps ops rs = some zs) :
    ResumesExactly (dataLoader c src s size ops bufferSize threads) ((zs.map (·.data)).map Except.ok) true := by
  have hn : 0 < max c.workers 1 := by omega
  have h := dataLoader_resumes_exactly c hc src s size ops bufferSize threads (by
    intro op ho
    have := hone op ho
    cases op with
    | batch b d f => cases this
    | _ => trivial) hrs (fun w => everyNth (max c.workers 1) w zs) (fun w _ => runOps_everyNth hn w ops rs zs hone hzs) zs.length (by
      intro w _
      unfold everyNth
      exact Nat.le_trans (List.length_filterMap_le _ _) (by simp))
  simp only [← everyNth_map] at h
  rwa [inTurn_everyNth hn _ _ (by simp)] at h

/-- Seven records, those of shard 1 of 2, three workers, a map: checkpoints anywhere. -/
example : ResumesExactly (dataLoader ⟨⟨1, 2, false⟩, 3, "SequentialSampler(...)", "source"⟩ (listSource [10, 11, 12, 13, 14, 15, 16])
    ((sequentialSampler 7 ⟨1, 2, false⟩ none).toOption.get rfl) 7 [.map (fun d => .ok (d.map (· * 2)))] 4 2)
    [.ok (some 22), .ok (some 26), .ok (some 30)] true :=
  dataLoader_worker_independent_partial ⟨⟨1, 2, false⟩, 3, "SequentialSampler(...)", "source"⟩ (by decide)
    (listSource [10, 11, 12, 13, 14, 15, 16]) ((sequentialSampler 7 ⟨1, 2, false⟩ none).toOption.get rfl) 7
    [.map (fun d => .ok (d.map (· * 2)))] 4 2 (by intro op h; rw [List.mem_singleton.1 h]; rfl)
    (rs := [⟨⟨1, some 1, none⟩, some 11⟩, ⟨⟨3, some 3, none⟩, some 13⟩, ⟨⟨5, some 5, none⟩, some 15⟩])
    (zs := [⟨⟨1, some 1, none⟩, some 22⟩, ⟨⟨3, some 3, none⟩, some 26⟩, ⟨⟨5, some 5, none⟩, some 30⟩]) rfl rfl

def loaderExample (workers : Nat) (ops : List (DlOp (Option Nat))) : Iter (Option Nat) :=
  dataLoader ⟨⟨0, 1, false⟩, workers, "s", "d"⟩ (listSource [10, 11, 12, 13])
    ((sequentialSampler 4 ⟨0, 1, false⟩ none).toOption.get rfl) 4 ops 1 1

/-- Each worker filters its own records: the order of the remaining ones depends on the number of workers. -/
theorem dataLoader_filter_depends_on_workers :
    ResumesExactly (loaderExample 0 [.filter (fun d => .ok (d ≠ some 10))]) [.ok (some 11), .ok (some 12), .ok (some 13)] true ∧
    ResumesExactly (loaderExample 2 [.filter (fun d => .ok (d ≠ some 10))]) [.ok (some 12), .ok (some 11), .ok (some 13)] true :=
  ⟨dataLoader_resumes_exactly _ (by decide) _ _ _ _ _ _ (by simp [DlOp.valid]) (rs := [⟨⟨0, some 0, none⟩, some 10⟩, ⟨⟨1, some 1, none⟩, some 11⟩, ⟨⟨2, some 2, none⟩, some 12⟩, ⟨⟨3, some 3, none⟩, some 13⟩]) rfl
    (fun _ => [⟨⟨1, some 1, none⟩, some 11⟩, ⟨⟨2, some 2, none⟩, some 12⟩, ⟨⟨3, some 3, none⟩, some 13⟩])
    (by intro w hw; have : w = 0 := by have : w < 1 := hw; omega
        subst this; rfl) 3 (by intro w _; simp),
   dataLoader_resumes_exactly _ (by decide) _ _ _ _ _ _ (by simp [DlOp.valid]) (rs := [⟨⟨0, some 0, none⟩, some 10⟩, ⟨⟨1, some 1, none⟩, some 11⟩, ⟨⟨2, some 2, none⟩, some 12⟩, ⟨⟨3, some 3, none⟩, some 13⟩]) rfl
    (fun w => if w = 0 then [⟨⟨2, some 2, none⟩, some 12⟩] else [⟨⟨1, some 1, none⟩, some 11⟩, ⟨⟨3, some 3, none⟩, some 13⟩])
    (by intro w hw; have : w < 2 := hw
        obtain rfl | rfl : w = 0 ∨ w = 1 := by omega
        · rfl
        · rfl) 2 (by intro w _; split <;> simp)⟩

/-- Each worker makes its own batches: their contents depend on the number of workers. -/
theorem dataLoader_batch_depends_on_workers :
    ResumesExactly (loaderExample 0 [.batch 2 false (fun ds => .ok (some (ds.map (·.getD 0)).sum))]) [.ok (some (10 + 11)), .ok (some (12 + 13))] true ∧
    ResumesExactly (loaderExample 2 [.batch 2 false (fun ds => .ok (some (ds.map (·.getD 0)).sum))]) [.ok (some (10 + 12)), .ok (some (11 + 13))] true :=
  ⟨dataLoader_resumes_exactly _ (by decide) _ _ _ _ _ _ (by simp [DlOp.valid]) (rs := [⟨⟨0, some 0, none⟩, some 10⟩, ⟨⟨1, some 1, none⟩, some 11⟩, ⟨⟨2, some 2, none⟩, some 12⟩, ⟨⟨3, some 3, none⟩, some 13⟩]) rfl
    (fun _ => [⟨⟨1, none, none⟩, some 21⟩, ⟨⟨3, none, none⟩, some 25⟩])
    (by intro w hw; have : w = 0 := by have : w < 1 := hw; omega
        subst this; rfl) 2 (by intro w _; simp),
   dataLoader_resumes_exactly _ (by decide) _ _ _ _ _ _ (by simp [DlOp.valid]) (rs := [⟨⟨0, some 0, none⟩, some 10⟩, ⟨⟨1, some 1, none⟩, some 11⟩, ⟨⟨2, some 2, none⟩, some 12⟩, ⟨⟨3, some 3, none⟩, some 13⟩]) rfl
    (fun w => if w = 0 then [⟨⟨2, none, none⟩, some 22⟩] else [⟨⟨3, none, none⟩, some 24⟩])
    (by intro w hw; have : w < 2 := hw
        obtain rfl | rfl : w = 0 ∨ w = 1 := by omega
        · rfl
        · rfl) 1 (by intro w _; split <;> simp)⟩

/-! ### States of other loaders -/

/-- C41: a state of a loader with another number of workers, another sampler or another source is rejected, and the iterator
is as before. -/
theorem dataLoader_rejects_foreign (c : LoaderConf) (f : Nat → IdxFam α) (st : LoaderState)
    (h : st.workers ≠ c.workers ∨ st.sampler ≠ c.sampler ∨ st.source ≠ c.source) (F : Nat) :
    (c.workers = 0 → ∀ s, (loaderIter0 c (f 1)).set F s st = some (s, some .valueError)) ∧
    (c.workers ≠ 0 → ∀ s, (loaderIterN c (f c.workers)).set F s st = some (s, some .valueError)) := by
  have hval : c.validate st = some .valueError := by
    unfold LoaderConf.validate
    split
    · rfl
    · split
      · rfl
      · split
        · rfl
        · simp_all
  constructor
  · intro _ s
    simp only [loaderIter0, hval]
  · intro _ s
    simp only [loaderIterN, hval]

/-! ### End to end -/

/-- C40 and C41 together: a source read by `SequentialSampler` through a data loader on each of `sc` shards, with any number
of worker processes: all shards together yield every element of the source exactly once (the remainder excepted if it is
dropped), whatever checkpoints are taken and restored on the way. -/
theorem dataLoader_sequential_exactly_once (src : MapDs V) (ds : List (Option V)) (hds : 0 < ds.length)
    (hsrc : ∀ i (h : i < ds.length), src.getitem (i : Int) = .ok ds[i]) (sc : Nat) (hsc : 0 < sc) (drop : Bool) (seed : Option Int)
    (workers bufferSize threads : Nat) (samplerRepr sourceRepr : String) :
    ∃ streams : Nat → List (Option V),
      (∀ j, j < sc → ∃ s size, sequentialSampler ds.length ⟨j, sc, drop⟩ seed = .ok s ∧ samplerSize s = .ok size ∧
        ResumesExactly (dataLoader ⟨⟨j, sc, drop⟩, workers, samplerRepr, sourceRepr⟩ src s size [] bufferSize threads)
          ((streams j).map Except.ok) true) ∧
      ((List.range sc).flatMap streams).Perm (if drop then ds.take (ds.length / sc * sc) else ds) := by
  obtain ⟨reads, h1, h2, _⟩ := sequential_exactly_once src ds hds hsrc sc hsc drop seed
  refine ⟨fun j => (reads j).map (·.data), ?_, ?_⟩
  · intro j hj
    obtain ⟨s, size, a, b, hr⟩ := h1 j hj
    exact ⟨s, size, a, b, dataLoader_worker_independent_partial ⟨⟨j, sc, drop⟩, workers, samplerRepr, sourceRepr⟩ hsc src s size [] bufferSize threads
      (by simp) hr rfl⟩
  · have := h2.map (·.2)
    rw [List.map_flatMap] at this
    simp only [List.map_map, Function.comp_def] at this
    refine this.trans (List.Perm.of_eq ?_)
    apply List.ext_getElem?
    intro i
    simp [List.getElem?_mapIdx, Option.map_map, Function.comp_def]

example : ∃ streams : Nat → List (Option Nat),
    (∀ j, j < 3 → ∃ s size, sequentialSampler 7 ⟨j, 3, true⟩ (some 1) = .ok s ∧ samplerSize s = .ok size ∧
        ResumesExactly (dataLoader ⟨⟨j, 3, true⟩, 4, "s", "d"⟩ (listSource [0, 1, 2, 3, 4, 5, 6]) s size [] 2 2) ((streams j).map Except.ok) true) ∧
    ((List.range 3).flatMap streams).Perm [some 0, some 1, some 2, some 3, some 4, some 5] :=
  dataLoader_sequential_exactly_once (listSource [0, 1, 2, 3, 4, 5, 6]) [some 0, some 1, some 2, some 3, some 4, some 5, some 6] (by decide)
    (by decide) 3 (by decide) true (some 1) 4 2 2 "s" "d"

end Grain
