import Verif.Loader.LegacyLemmas
import Verif.Loader.Props
/-
Property C41 for the other operations of a `DataLoader`: legacy operations and `FlatMap`.
-/
namespace Grain

/-! ### Legacy operations -/

/-- C41 with legacy operations.  The loader yields what `dataLoader_resumes_exactly` says, a legacy operation doing the same
as the transformation of the same name; and a state restored into a *new* iterator (of the same loader, e.g. after a
crash) continues exactly there, any number of times.  The full statement would also allow `set_state` on a used iterator;
it is false: `legacy_operation_stays_ended`. -/
theorem dataLoader_legacy_resumes_exactly_partial (c : LoaderConf) (hc : 0 < c.shard.shardCount) (src : MapDs V) (s : Sampler) (size : Nat)
    (ops : List (LdOp (Option V))) (bufferSize threads : Nat) (hv : ∀ op ∈ ops, op.valid) {rs : List (Rec (Option V))}
    (hrs : readAll (samplerDs src s c.shard size) = some rs) (ys : Nat → List (Rec (Option V)))
    (hys : ∀ w, w < max c.workers 1 → runLdOps ops (everyNth (max c.workers 1) w rs) = some (ys w)) (K : Nat)
    (hK : ∀ w, w < max c.workers 1 → (ys w).length ≤ K) :
    ResumesExactlyWhen (fun _ => false) (legacyLoader c src s size ops bufferSize threads)
      ((inTurn (max c.workers 1) (fun w => (ys w).map (·.data)) K).map Except.ok) true := by
  apply ResumesFresh.exactly
  by_cases hw : c.workers = 0
  · have hm : max c.workers 1 = 1 := by omega
    rw [hm] at hys hK ⊢
    have hd : legacyLoader c src s size ops bufferSize threads =
        loaderIter0 c (dataFam (ops.foldl (fun p op => op.apply p) (readFam bufferSize threads (samplerDs src s c.shard size) 1))) := by
      unfold legacyLoader loaderIter
      rw [if_pos hw]
    rw [hd, inTurn_one _ _ (by simpa using hK 0 (by decide))]
    obtain ⟨At, Ck, hsim⟩ := OpFam.renew_resumes (ldFam_fresh bufferSize threads hv hrs (n := 1) (w := 0) (by decide) (by decide) (hys 0 (by decide)))
    have h := loader0_sim hc hw hsim
    exact ⟨_, _, { init := h.init, bound := h.bound, next_item := h.next_item, next_stop := h.next_stop, get := h.get,
                   set := by intro _ _ _ _ _ _ _ hu; cases hu
                   set_init := fun hk hm => h.set h.init hk hm }⟩
  · have hm : max c.workers 1 = c.workers := by omega
    rw [hm] at hys hK ⊢
    have hd : legacyLoader c src s size ops bufferSize threads =
        loaderIterN c (dataFam (ops.foldl (fun p op => op.apply p) (readFam bufferSize threads (samplerDs src s c.shard size) c.workers))) := by
      unfold legacyLoader loaderIter
      rw [if_neg hw]
    rw [hd]
    have hf := fun w (hw' : w < c.workers) => ldFam_fresh bufferSize threads hv hrs (n := c.workers) (by omega) hw' (hys w hw')
    obtain ⟨At, Ck, hs⟩ := fam_sims (xs := fun w => ((ys w).map (fun r => r.data)).map Except.ok) hf
    have ht := trace_rows (vs := fun w => (ys w).map (·.data)) (n := c.workers) (K := K) (by omega) (fun w hw => by simpa using hK w hw)
    have hsim := loaderN_simWhen hc (by omega) hs ht
    have he : (((List.range (K * c.workers)).filterMap (fun q => ((ys (q % c.workers)).map (·.data))[q / c.workers]?.map
        (fun a => (q % c.workers, (Except.ok a : Py (Option V)))))).map (·.2)) = (inTurn c.workers (fun w => (ys w).map (·.data)) K).map Except.ok := by
      rw [inTurn_eq, List.map_filterMap, List.map_filterMap]
      congr 1
      funext q
      cases ((ys (q % c.workers)).map (·.data))[q / c.workers]? <;> rfl
    rw [he] at hsim
    exact ⟨_, _, hsim⟩

def legacyExample (workers : Nat) (ops : List (LdOp (Option Nat))) : Iter (Option Nat) :=
  legacyLoader ⟨⟨0, 1, false⟩, workers, "s", "d"⟩ (listSource [10, 11, 12, 13])
    ((sequentialSampler 4 ⟨0, 1, false⟩ none).toOption.get rfl) 4 ops 1 1

def fourRecords : List (Rec (Option Nat)) :=
  [⟨⟨0, some 0, none⟩, some 10⟩, ⟨⟨1, some 1, none⟩, some 11⟩, ⟨⟨2, some 2, none⟩, some 12⟩, ⟨⟨3, some 3, none⟩, some 13⟩]

/-- Filter out 10, then batches of two (the last one short), in two workers. -/
example : ResumesExactlyWhen (fun _ => false) (legacyExample 2 [.legacy (.filter (fun d => .ok (d ≠ some 10))),
    .legacy (.batch 2 false (fun ds => .ok (some (ds.map (·.getD 0)).sum)))]) [.ok (some 12), .ok (some (11 + 13))] true :=
  dataLoader_legacy_resumes_exactly_partial _ (by decide) _ _ _ _ _ _ (by simp [LdOp.valid, DlOp.valid]) (rs := fourRecords) rfl
    (fun w => if w = 0 then [⟨⟨2, none, none⟩, some 12⟩] else [⟨⟨3, none, none⟩, some 24⟩])
    (by intro w hw; have : w < 2 := hw
        obtain rfl | rfl : w = 0 ∨ w = 1 := by omega
        · rfl
        · rfl) 1 (by intro w _; split <;> simp)

/-- A legacy operation that has not ended can be restored in place as well: every history in which the elements yielded
before the end of the data (for a batch: the full batches) are read, saved and restored, into the used or a new iterator. -/
theorem legacy_operation_before_end {p : Iter (Option (Rec D))} {rs : List (Rec D)} {ended : Bool} (op : DlOp D)
    (hp : Resumes p ((rs.map some).map Except.ok) ended) :
    ResumesExactly (genIter op.gen p) ((genYields op.gen op.gen.start (rs.map some)).map Except.ok) false :=
  (genIter_before_end op.gen hp).exactly

/-- For a map these are all elements. -/
theorem legacy_map_before_end {p : Iter (Option (Rec D))} {rs ys : List (Rec D)} {ended : Bool} {f : D → Py D}
    (hp : Resumes p ((rs.map some).map Except.ok) ended) (hr : (LdOp.legacy (.map f)).run rs = some ys) :
    ResumesExactly (genIter (DlOp.map f).gen p) ((ys.map some).map Except.ok) false := by
  have h := legacy_operation_before_end (.map f) hp
  suffices hs : ∀ (rs ys : List (Rec D)), (LdOp.legacy (.map f)).run rs = some ys →
      genYields (DlOp.map f).gen (DlOp.map f).gen.start (rs.map some) = ys.map some by
    rwa [hs rs ys hr] at h
  intro rs
  induction rs with
  | nil => intro ys h; cases h; rfl
  | cons r rs ih =>
    intro ys h
    simp only [LdOp.run, DlOp.run, List.mapM_cons, Option.map_eq_some_iff] at h
    obtain ⟨zs, h, rfl⟩ := h
    cases hf : f r.data with
    | error e => rw [hf] at h; cases h
    | ok d =>
      rw [hf] at h
      cases hm : rs.mapM (fun r => (okVal (f r.data)).map (fun d => (⟨r.md, d⟩ : Rec D))) with
      | none => rw [hm] at h; cases h
      | some l =>
        rw [hm] at h
        cases h
        have := ih _ (by simp only [LdOp.run, DlOp.run, hm, Option.map_some]; rfl)
        simp only [List.map_cons, genYields, DlOp.gen, hf]
        simp only [DlOp.gen] at this
        rw [this]
        rfl

/-- The excluded case.  A legacy operation is a generator, and a generator that has ended stays ended: after reading the
loader to its end, `set_state` with any earlier state is accepted, but nothing is read again. -/
theorem legacy_operation_stays_ended :
    ¬ ResumesExactly (legacyExample 0 [.legacy (.map (fun d => .ok d))]) [.ok (some 10), .ok (some 11), .ok (some 12), .ok (some 13)] true := by
  intro h
  obtain ⟨k, hk⟩ := h [.save, .next, .next, .next, .next, .next, .restore 0, .next]
    [.item (some 10), .item (some 11), .item (some 12), .item (some 13), .stop, .item (some 10)] (by decide)
  have h1 := hk (k + 9) (by omega)
  have h2 : implRun (legacyExample 0 [.legacy (.map (fun d => .ok d))]) (k + 9) (legacyExample 0 [.legacy (.map (fun d => .ok d))]).init []
      [.save, .next, .next, .next, .next, .next, .restore 0, .next] =
      some [.item (some 10), .item (some 11), .item (some 12), .item (some 13), .stop, .stop] := rfl
  have h3 := h2.symm.trans h1
  cases h3

/-- The same with a transformation resumes exactly, so this is a property of legacy operations. -/
example : ResumesExactly (loaderExample 0 [.map (fun d => .ok d)]) [.ok (some 10), .ok (some 11), .ok (some 12), .ok (some 13)] true :=
  dataLoader_worker_independent_partial _ (by decide) _ _ _ _ _ _ (by intro op h; rw [List.mem_singleton.1 h]; rfl)
    (rs := fourRecords) (zs := fourRecords) rfl rfl

/-- An exception of the user function ends a legacy operation for good (and arrives as a `ValueError`), while a state saved
right after it, restored into a new loader, reads on with the next record. -/
theorem legacy_operation_error_ends :
    Ev (fun F => implRun (legacyExample 0 [.legacy (.map (fun d => if d = some 11 then .error .keyError else .ok d))]) F
      (legacyExample 0 [.legacy (.map (fun d => if d = some 11 then .error .keyError else .ok d))]).init []
      [.next, .next, .save, .next, .fresh 0, .next, .next, .next] =
      some [.item (some 10), .fail .valueError, .stop, .item (some 12), .item (some 13), .stop]) := by
  refine ⟨9, fun F hF => ?_⟩
  obtain ⟨k, rfl⟩ : ∃ k, F = k + 9 := ⟨F - 9, by omega⟩
  rfl

/-- So it is for every legacy operation over every parent: once `next` raised, whether in the user function or in the parent,
and whatever state is restored in place afterwards, `next` only ever says that the data has ended. -/
theorem legacy_operation_error_is_final {p : Iter (Option (Rec D))} (op : DlOp D) {F : Nat} {s s' : (genIter op.gen p).S} {e : Err}
    (h : (genIter op.gen p).next F s = some (s', .fail e)) :
    (∀ F', (genIter op.gen p).next F' s' = some (s', .stop)) ∧
    ∀ F' c s'' err, (genIter op.gen p).set F' s' c = some (s'', err) → ∀ F'', (genIter op.gen p).next F'' s'' = some (s'', .stop) := by
  have hl : ∀ n acc (ps : p.S) (t : p.S × Bool), genLoop p op.gen F n acc ps = some (t, .fail e) → t.2 = true := by
    intro n
    induction n with
    | zero => intro acc ps t h; cases h
    | succ n ih =>
      intro acc ps t h
      unfold genLoop at h
      cases hn : p.next F ps with
      | none => rw [hn] at h; cases h
      | some q =>
        obtain ⟨ps', r⟩ := q
        rw [hn] at h
        simp only [Option.bind_eq_bind, Option.bind_some] at h
        cases r with
        | stop =>
          dsimp only at h
          cases ht : op.gen.tail acc with
          | none => rw [ht] at h; cases h
          | some b => rw [ht] at h; cases b <;> cases h; rfl
        | fail e' => cases h; rfl
        | item a =>
          dsimp only at h
          cases hs : op.gen.step acc a with
          | yield b => rw [hs] at h; cases h
          | more acc' => rw [hs] at h; exact ih _ _ _ h
          | fail e' => rw [hs] at h; cases h; rfl
  have hf : s'.2 = true := by
    simp only [genIter] at h
    split at h
    · cases h
    · exact hl _ _ _ _ h
  refine ⟨fun F' => if_pos hf, fun F' c s'' err hs F'' => if_pos ?_⟩
  simp only [genIter] at hs
  cases hq : p.set F' s'.1 c with
  | none => rw [hq] at hs; cases hs
  | some q => rw [hq] at hs; cases hs; exact hf

/-- A parent that raises. -/
def raisingParent : Iter (Option (Rec Nat)) :=
  prefetchIter 1 1 true none (mapDs (fun (_ : Rec Nat) => .error .indexError) (listSource [⟨⟨0, some 5, none⟩, 10⟩]))

example : ∃ s', (genIter (DlOp.map (fun d : Nat => .ok d)).gen raisingParent).next 9
    (genIter (DlOp.map (fun d : Nat => .ok d)).gen raisingParent).init = some (s', .fail .indexError) := ⟨_, rfl⟩

/-! ### FlatMap -/

/-- C41 with `FlatMap` anywhere among the operations: the loader yields what the workers yield, one element from each in
turn, a `FlatMap` replacing every record by its fan-out; and a state restored into a new iterator continues exactly there.
The full statement would also allow `set_state` on a used iterator (false: `flatMap_end_restored_into_used`,
`interleave_save_after_restore_loses_data`) and promise that states of other loaders are rejected (false:
`dataLoader_flatMap_accepts_foreign`). -/
theorem dataLoader_flatMap_resumes_exactly_partial (shard : ShardOptions) (workers : Nat) (src : MapDs V) (s : Sampler) (size : Nat)
    (ops : List (NOp (Option V))) (bufferSize threads : Nat) (hv : ∀ op ∈ ops, op.valid) {rs : List (Rec (Option V))}
    (hrs : readAll (samplerDs src s shard size) = some rs) (ys : Nat → List (Rec (Option V)))
    (hys : ∀ w, w < max workers 1 → runNOps ops (everyNth (max workers 1) w rs) = some (ys w)) (K : Nat)
    (hK : ∀ w, w < max workers 1 → (ys w).length ≤ K) :
    ResumesExactlyWhen (fun _ => false) (nativeLoader shard workers src s size ops bufferSize threads)
      ((inTurn (max workers 1) (fun w => (ys w).map (·.data)) K).map Except.ok) true := by
  by_cases hw : workers = 0
  · subst hw
    have hm : max 0 1 = 1 := by omega
    rw [hm] at hys hK ⊢
    have hd : nativeLoader shard 0 src s size ops bufferSize threads =
        (nativeFam shard src s size ops bufferSize threads 1).iter 0 := rfl
    rw [hd, inTurn_one _ _ (by simpa using hK 0 (by decide))]
    exact (nativeFam_fresh bufferSize threads hv hrs (by decide) (by decide) (hys 0 (by decide))).exactly
  · have hm : max workers 1 = workers := by omega
    rw [hm] at hys hK ⊢
    have hd : nativeLoader shard workers src s size ops bufferSize threads =
        interleaveIter (nativeFam shard src s size ops bufferSize threads workers) workers workers false := by
      unfold nativeLoader
      rw [if_neg hw]
      rfl
    rw [hd, inTurn_eq]
    exact interleave_cycle_all (vs := fun w => (ys w).map (·.data)) false (by omega) (Nat.le_refl _) (fun w hw' => by simpa using hK w hw')
      (fun w hw' => nativeFam_fresh bufferSize threads hv hrs (by omega) hw' (hys w hw'))

def nativeExample (workers : Nat) (ops : List (NOp (Option Nat))) : Iter (Option Nat) :=
  nativeLoader ⟨0, 1, false⟩ workers (listSource [10, 11, 12, 13])
    ((sequentialSampler 4 ⟨0, 1, false⟩ none).toOption.get rfl) 4 ops 1 1

def twice : NOp (Option Nat) := .flatMap (fun d => .ok [d, d.map (· + 100)]) 2

/-- Each record twice, then batches of three, in two workers: worker 0 has 10, 110, 12, 112, worker 1 has 11, 111, 13, 113. -/
example : ResumesExactlyWhen (fun _ => false) (nativeExample 2 [twice, .keep (.transform (.batch 3 false (fun ds => .ok (some (ds.map (·.getD 0)).sum))))])
    [.ok (some (10 + 110 + 12)), .ok (some (11 + 111 + 13)), .ok (some 112), .ok (some 113)] true :=
  dataLoader_flatMap_resumes_exactly_partial _ _ _ _ _ _ _ _ (by simp [twice, NOp.valid, LdOp.valid, DlOp.valid]) (rs := fourRecords) rfl
    (fun w => if w = 0 then [⟨⟨4, none, none⟩, some 132⟩, ⟨⟨5, none, none⟩, some 112⟩] else [⟨⟨6, none, none⟩, some 135⟩, ⟨⟨7, none, none⟩, some 113⟩])
    (by intro w hw; have : w < 2 := hw
        obtain rfl | rfl : w = 0 ∨ w = 1 := by omega
        · rfl
        · rfl) 2 (by intro w _; split <;> simp)

/-- Each worker fans its own records out: the order of the elements depends on the number of workers. -/
theorem dataLoader_flatMap_depends_on_workers :
    ResumesExactlyWhen (fun _ => false) (nativeExample 0 [twice])
      [.ok (some 10), .ok (some 110), .ok (some 11), .ok (some 111), .ok (some 12), .ok (some 112), .ok (some 13), .ok (some 113)] true ∧
    ResumesExactlyWhen (fun _ => false) (nativeExample 2 [twice])
      [.ok (some 10), .ok (some 11), .ok (some 110), .ok (some 111), .ok (some 12), .ok (some 13), .ok (some 112), .ok (some 113)] true :=
  ⟨dataLoader_flatMap_resumes_exactly_partial _ _ _ _ _ _ _ _ (by simp [twice, NOp.valid]) (rs := fourRecords) rfl
    (fun _ => [⟨⟨0, none, none⟩, some 10⟩, ⟨⟨1, none, none⟩, some 110⟩, ⟨⟨2, none, none⟩, some 11⟩, ⟨⟨3, none, none⟩, some 111⟩,
      ⟨⟨4, none, none⟩, some 12⟩, ⟨⟨5, none, none⟩, some 112⟩, ⟨⟨6, none, none⟩, some 13⟩, ⟨⟨7, none, none⟩, some 113⟩])
    (by intro w hw; have : w = 0 := by have : w < 1 := hw; omega
        subst this; rfl) 8 (by intro w _; simp),
   dataLoader_flatMap_resumes_exactly_partial _ _ _ _ _ _ _ _ (by simp [twice, NOp.valid]) (rs := fourRecords) rfl
    (fun w => if w = 0 then [⟨⟨0, none, none⟩, some 10⟩, ⟨⟨1, none, none⟩, some 110⟩, ⟨⟨4, none, none⟩, some 12⟩, ⟨⟨5, none, none⟩, some 112⟩]
      else [⟨⟨2, none, none⟩, some 11⟩, ⟨⟨3, none, none⟩, some 111⟩, ⟨⟨6, none, none⟩, some 13⟩, ⟨⟨7, none, none⟩, some 113⟩])
    (by intro w hw; have : w < 2 := hw
        obtain rfl | rfl : w = 0 ∨ w = 1 := by omega
        · rfl
        · rfl) 4 (by intro w _; split <;> simp)⟩

/-- A random map after a `FlatMap` gets no random generator, whatever the seed of the sampler: it does what the plain map
that calls the user's function with `None` does. -/
theorem dataLoader_random_map_after_flatMap (f : D → Py (List D)) (m : Int) (g : D → Option Int → Py D) (rs : List (Rec D)) :
    runNOps [.flatMap f m, .keep (.transform (.randomMap g))] rs =
      runNOps [.flatMap f m, .keep (.transform (.map (fun d => g d none)))] rs := by
  simp only [runNOps]
  cases hr : (NOp.flatMap f m).run rs with
  | none => rfl
  | some ys =>
    simp only [Option.bind_some, NOp.run, LdOp.run, DlOp.run]
    have hrng : ∀ y ∈ ys, y.md.rng = none := by
      simp only [NOp.run, Option.map_eq_some_iff] at hr
      obtain ⟨ls, hls, rfl⟩ := hr
      intro y hy
      obtain ⟨l, hl, hyl⟩ := List.mem_flatten.1 hy
      obtain ⟨i, hi, rfl⟩ := List.getElem_of_mem hl
      have := mapM_some_getElem _ _ hls i (by rw [← mapM_some_length' _ _ _ hls]; exact hi) hi
      rw [Option.map_eq_some_iff] at this
      obtain ⟨ds, _, he⟩ := this
      rw [← he, List.mem_mapIdx] at hyl
      obtain ⟨j, hj, rfl⟩ := hyl
      rfl
    congr 1
    clear hr
    induction ys with
    | nil => rfl
    | cons y ys ih =>
      rw [List.mapM_cons, List.mapM_cons, hrng y (by simp), ih (fun z hz => hrng z (by simp [hz]))]

/-- Four records with the generators 7, 8, 9, 10: without `FlatMap` the random map sees its generator, after it `None`. -/
theorem dataLoader_random_map_after_flatMap_no_rng :
    runNOps [.keep (.transform (.randomMap (fun _ r => .ok (r.map Int.toNat))))] [(⟨⟨0, some 0, some 7⟩, some 10⟩ : Rec (Option Nat))] =
      some [⟨⟨0, some 0, some 7⟩, some 7⟩] ∧
    runNOps [twice, .keep (.transform (.randomMap (fun _ r => .ok (r.map Int.toNat))))] [(⟨⟨0, some 0, some 7⟩, some 10⟩ : Rec (Option Nat))] =
      some [⟨⟨0, none, none⟩, none⟩, ⟨⟨1, none, none⟩, none⟩] := ⟨rfl, rfl⟩

/-- The loader of shard `j` of two over the records 10, 11, 12, 13, each record twice. -/
def shardExample (j : Nat) : Iter (Option Nat) :=
  nativeLoader0 ⟨j, 2, false⟩ (listSource [10, 11, 12, 13]) ((sequentialSampler 4 ⟨j, 2, false⟩ none).toOption.get rfl) 4 [twice] 1 1

/-- With `FlatMap` nothing checks that a state belongs to the loader: the state of a loader of shard 0 after its first
element, restored into the loader of shard 1, is accepted, and that loader continues with its own second element, 111. -/
theorem dataLoader_flatMap_accepts_foreign :
    Ev (fun F => (do
      let (s, first) ← (shardExample 0).next F (shardExample 0).init
      let state : Int × Nat := ((shardExample 0).get s).2
      let (s, error) ← (shardExample 1).set F (shardExample 1).init state
      let (_, second) ← (shardExample 1).next F s
      some (first, error, second)) = some (.item (some 10), none, .item (some 111))) := by
  refine ⟨9, fun F hF => ?_⟩
  obtain ⟨k, rfl⟩ : ∃ k, F = k + 9 := ⟨F - 9, by omega⟩
  rfl

end Grain
