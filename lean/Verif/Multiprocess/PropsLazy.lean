import Verif.Multiprocess.LemmasWarm
import Verif.Iter.Model
/-
Property C107: states of `mp_prefetch` over an interleaved pipeline, those taken before all workers have delivered included.
`mpInterleaveIter f n cycle k keep` is `InterleaveIterDataset(datasets, cycle_length=cycle)` of `n` datasets, read by `k` worker
processes; `f.iter d` is the iterator of dataset `d`.
-/
namespace Grain

/-- Save at the start, restore into a new object, read. -/
theorem run_save_fresh_next {it : Iter α} {F : Nat} {outs : List (Res α)}
    (h : implRun it F it.init [] [.save, .fresh 0, .next] = some outs) :
    ∃ s s' r, it.set F it.init (it.get it.init).2 = some (s, none) ∧ it.next F s = some (s', r) ∧ outs = [r] := by
  simp only [implRun, List.nil_append, List.getElem?_cons_zero, Option.bind_eq_bind, Option.bind_some] at h
  cases hs : it.set F it.init (it.get it.init).2 with
  | none => rw [hs] at h; cases h
  | some q =>
    obtain ⟨s, _ | e⟩ := q
    · rw [hs] at h
      simp only [Option.bind_some] at h
      cases hn : it.next F s with
      | none => rw [hn] at h; cases h
      | some q =>
        obtain ⟨s', r⟩ := q
        rw [hn] at h
        exact ⟨s, s', r, rfl, hn, (Option.some.inj h).symm⟩
    · rw [hs] at h; cases h

/-- C107 fails whenever worker 0 has fewer datasets than the cycle length (and the whole pipeline has more than that worker): a
state saved right after creation cannot be used.  Whatever the datasets are, a new iterator that is given that state fails at its
first element. -/
theorem mp_interleave_start_state_lost (f : IterFam α) {n cycle k : Nat} (keep : Bool) (hk : 0 < k)
    (hlt : min cycle (sliceCount n k 0) < min cycle n) (F : Nat) {outs : List (Res α)}
    (h : implRun (mpInterleaveIter f n cycle k keep) F (mpInterleaveIter f n cycle k keep).init [] [.save, .fresh 0, .next] = some outs) :
    ∃ e, outs = [.fail e] := by
  have hL : min k k = k := Nat.min_self k
  obtain ⟨g1, g2, g3, g4, g5, g6⟩ := ilGet_init (f := lazyFam f n cycle k keep) (n := k) (L := k) (Nat.le_refl k)
  obtain ⟨s0, s1, r, hs0, hs1, rfl⟩ := run_save_fresh_next h
  have hs0' : ilSet (lazyFam f n cycle k keep) k (min k k) keep F (ilInit _ _)
      (ilGet (lazyFam f n cycle k keep) k (min k k) (ilInit _ _)).2 = some (s0, none) := hs0
  rw [hL] at hs0'
  generalize hc : (ilGet (lazyFam f n cycle k keep) k k (ilInit _ _)).2 = c at *
  obtain ⟨s, e1, e2, _⟩ := ilSetLoop_total (f := lazyFam f n cycle k keep) (n := k) (keep := keep) (F := F) (c := c)
    (put := fun s c => { s with state := some c, req := some c, over := false }) (fun _ _ _ => rfl) g3 g5 (List.range k)
    (ilInit _ _) List.nodup_range
    (fun i hi => ⟨List.mem_range.1 hi, rfl, by rw [g4 i (List.mem_range.1 hi)]; rfl⟩) (fun _ => rfl)
  obtain ⟨ck, hck, hslot⟩ := e2 0 (List.mem_range.2 hk)
  rw [g4 0 hk] at hck
  cases hck
  have hset : ilSet (lazyFam f n cycle k keep) k k keep F (ilInit _ _) c = some ({ s with pf := c.nextDs, cyc := c.cyc, nextDs := c.nextDs, indices := c.indices, future := c.future }, none) := by
    unfold ilSet
    simp only [e1, Option.bind_eq_bind, Option.bind_some, g2, gt_iff_lt, Nat.lt_irrefl, if_false]
  rw [hset] at hs0'
  obtain rfl := (Prod.mk.inj (Option.some.inj hs0')).1
  have hnext : ∀ s', (mpInterleaveIter f n cycle k keep).next F s' =
      ilLoop (lazyFam f n cycle k keep) k k keep F F { s' with started := true } := by
    intro s'
    simp only [mpInterleaveIter, interleaveIter, hL, if_neg (show ¬ k = 0 by omega)]
  have hs2 := (hnext _).symm.trans hs1
  obtain ⟨F', rfl⟩ : ∃ F', F = F' + 1 := by
    cases F with
    | zero => cases hs2
    | succ F => exact ⟨F, rfl⟩
  rw [ilLoop] at hs2
  simp only [g1, hslot] at hs2
  have hw := processStart_refused (wk := interleaveSizedIter (f.slice k 0) (sliceCount n k 0) cycle keep)
    (start := ((interleaveSizedIter f n cycle false).get (interleaveSizedIter f n cycle false).init).2) keep (F' + 1)
    { wk := ilInit f.S f.C,
      state := some (((lazyFam f n cycle k keep).get 0 ((lazyFam f n cycle k keep).init 0)).2),
      req := some (((lazyFam f n cycle k keep).get 0 ((lazyFam f n cycle k keep).init 0)).2), over := false } rfl rfl
    (ilSetSized_long (f := f.slice k 0) keep (F' + 1) _ _ hlt)
  rcases hw with hw | ⟨q, e, hw⟩
  · have hw' : (lazyFam f n cycle k keep).next 0 (F' + 1)
      { wk := ((lazyFam f n cycle k keep).init 0).wk,
        state := some (((lazyFam f n cycle k keep).get 0 ((lazyFam f n cycle k keep).init 0)).2),
        req := some (((lazyFam f n cycle k keep).get 0 ((lazyFam f n cycle k keep).init 0)).2), over := false } = none := hw
    rw [hw'] at hs2
    cases hs2
  · have hw' : (lazyFam f n cycle k keep).next 0 (F' + 1)
      { wk := ((lazyFam f n cycle k keep).init 0).wk,
        state := some (((lazyFam f n cycle k keep).get 0 ((lazyFam f n cycle k keep).init 0)).2),
        req := some (((lazyFam f n cycle k keep).get 0 ((lazyFam f n cycle k keep).init 0)).2), over := false } = some (q, .fail e) := hw
    rw [hw'] at hs2
    exact ⟨e, by cases hs2; rfl⟩

/-- Four datasets of one element each. -/
def fourSingles : Nat → List (Py Nat) := fun d => [.ok (10 * d)]

/-- The hypothesis is met by four datasets, a cycle length of four and two workers. -/
example : min 4 (sliceCount 4 2 0) < min 4 4 := by decide +kernel

/-- C107 on a concrete pipeline: four datasets, cycle length 4, two workers.  A state saved before the first element fails in a new
iterator, and `repeat(2)` after `mp_prefetch` yields one epoch and then fails, since the second epoch begins with the state
saved at the start.  (A state saved after each worker delivered an element is fine.) -/
theorem mp_interleave_repeat_fails :
    Ev (fun F => implRun (mpInterleaveIter (listFam fourSingles) 4 4 2 false) F (mpInterleaveIter (listFam fourSingles) 4 4 2 false).init []
      [.next, .next, .next, .next, .next] = some [.item 0, .item 10, .item 20, .item 30, .stop]) ∧
    Ev (fun F => implRun (mpInterleaveIter (listFam fourSingles) 4 4 2 false) F (mpInterleaveIter (listFam fourSingles) 4 4 2 false).init []
      [.save, .fresh 0, .next] = some [.fail .indexError]) ∧
    Ev (fun F => implRun (mpInterleaveIter (listFam fourSingles) 4 4 2 false) F (mpInterleaveIter (listFam fourSingles) 4 4 2 false).init []
      [.next, .next, .save, .fresh 0, .next, .next] = some [.item 0, .item 10, .item 20, .item 30]) ∧
    Ev (fun F => implRun (repeatIter (some 2) (mpInterleaveIter (listFam fourSingles) 4 4 2 true)) F
      (repeatIter (some 2) (mpInterleaveIter (listFam fourSingles) 4 4 2 true)).init []
      [.next, .next, .next, .next, .next] = some [.item 0, .item 10, .item 20, .item 30, .fail .indexError]) := by
  refine ⟨⟨19, fun F hF => ?_⟩, ⟨19, fun F hF => ?_⟩, ⟨19, fun F hF => ?_⟩, ⟨19, fun F hF => ?_⟩⟩ <;>
    obtain ⟨k, rfl⟩ : ∃ k, F = k + 19 := ⟨F - 19, by omega⟩ <;> rfl

/-- The interleave of the datasets of one worker can be restored, from the start state of the main process too, if the cycle length
is not above the number of its datasets and start states are interchangeable. -/
theorem lazyWorker_fresh {f : IterFam α} {n cycle k : Nat} (keep : Bool) (hk : 0 < k) (hcyc : 0 < cycle) {w : Nat} (hw : w < k)
    (hfit : cycle ≤ sliceCount n k w) {vs : Nat → List α} {At : Nat → f.S → Nat → Prop} {Ck : Nat → f.C → Nat → Prop}
    (hs : ∀ d, d < n → SimWhen (fun _ => false) (f.iter d) ((vs d).map Except.ok) true (At d) (Ck d))
    (hstart : ∀ d d', d < n → d' < n → Ck d (f.get d' (f.init d')).2 0) :
    ∃ zs : List α, zs.Perm ((everyNth k w (List.range n)).flatMap vs) ∧
      ResumesFresh ((lazyFam f n cycle k keep).iter w) (zs.map Except.ok) true := by
  have hcount := fun d => sliceCount_iff (n := n) hk w d
  have hn : cycle ≤ n := by
    have h1 := (hcount (cycle - 1)).1 (by omega)
    have h2 : cycle - 1 ≤ (cycle - 1) * k := Nat.le_mul_of_pos_right _ hk
    omega
  have hL : min cycle (sliceCount n k w) = cycle := by omega
  have hLn : min cycle n = cycle := by omega
  have hs' : ∀ d, d < sliceCount n k w → SimWhen (fun _ => false) ((f.slice k w).iter d) ((vs (d * k + w)).map Except.ok) true
      (At (d * k + w)) (Ck (d * k + w)) := fun d hd => hs _ ((hcount d).1 hd)
  obtain ⟨t, ht⟩ := aTrace_exists (xs := fun d => (vs (d * k + w)).map Except.ok) (ended := true) (n := sliceCount n k w)
    (L := min cycle (sliceCount n k w)) (by omega) _ (aStart _) (aStart_wf (by omega)) (Or.inl rfl) (Nat.le_refl _)
  have hsim := (interleave_sim (f := f.slice k w) (cycle := cycle) (keep := keep) hs' (by omega) ht).when
  obtain ⟨c1, c2, _⟩ := ht.contents (by omega) (aStart_wf (by omega)) (Nat.min_le_right _ _)
  obtain ⟨zs, z1, z2⟩ := tagged_bag (xs := fun d => vs (d * k + w)) c1 (fun d hd => by simpa using c2 d _ hd (aStart_left _))
  rw [z2] at hsim
  refine ⟨zs, z1.trans (List.Perm.of_eq ?_), ?_⟩
  · rw [everyNth_range hk, List.flatMap_map]
  · refine processStart_fresh keep (interleaveSized_sim hsim) ⟨?_, Nat.zero_le _, aStart (min cycle (sliceCount n k w)), ?_, ?_⟩
    · show min cycle n = _
      omega
    · obtain ⟨g1, g2, g3, g4, g5, g6⟩ := ilGet_init (f := f) (n := n) (L := min cycle n) (Nat.min_le_right _ _)
      show ILCkRel (f := f.slice k w) _ _ _ _ _ _ _ _ (ilGet f n (min cycle n) (ilInit f.S f.C)).2 _
      generalize (ilGet f n (min cycle n) (ilInit f.S f.C)).2 = c at *
      have hid : c.indices = fun i => i := funext g3
      refine { cyc := g1, cyc_lt := ?_, slot := ?_, nds := ?_, nds_ge := ?_, nds_le := ?_, fut := ?_, idx := ?_ }
      · show 0 < _
        omega
      · intro i hi
        have hi' : i < sliceCount n k w := by omega
        have hin : i < n := by omega
        rw [g3 i, g5 i, g4 i (by omega)]
        simp only [aStart, if_pos hi]
        exact .live _ 0 rfl (Or.inl rfl) (hstart _ _ ((hcount i).1 hi') hin) hi'
      · rw [g2]
        show _ = min cycle (sliceCount n k w)
        omega
      · exact Nat.le_refl _
      · exact Nat.min_le_right _ _
      · intro d _
        exact Or.inl ⟨g6 d, rfl⟩
      · rw [hid]
        exact ⟨fun i hi => by omega, fun i j _ _ h => h, fun _ _ _ => rfl, fun _ _ _ _ => rfl⟩
    · simpa using ht

/-- What the workers read together. -/
theorem slices_perm {n k : Nat} (hk : 0 < k) (vs : Nat → List α) {zs : Nat → List α}
    (hz : ∀ w, w < k → (zs w).Perm ((everyNth k w (List.range n)).flatMap vs)) :
    ((List.range k).flatMap zs).Perm ((List.range n).flatMap vs) := by
  have hp : ∀ m, m ≤ k → ((List.range m).flatMap zs).Perm ((List.range m).flatMap (fun w => (everyNth k w (List.range n)).flatMap vs)) := by
    intro m
    induction m with
    | zero => intro _; exact List.Perm.refl _
    | succ m ih =>
      intro hm
      rw [List.range_succ, List.flatMap_append, List.flatMap_append]
      refine (ih (by omega)).append ?_
      simp only [List.flatMap_cons, List.flatMap_nil, List.append_nil]
      exact hz m (by omega)
  refine (hp k (Nat.le_refl k)).trans ?_
  rw [← List.flatMap_assoc]
  exact (everyNth_perm hk (List.range n)).flatMap_right vs

/-- A specification without exceptions has none in its outcomes. -/
theorem specRun_no_fail (xs : List α) {ended : Bool} {used : Nat → Bool} : ∀ {ops : List Op} {pos : Nat} {saved : List Nat} {outs : List (Res α)},
    specRun (xs.map Except.ok) ended used pos saved ops = some outs → ∀ er, Res.fail er ∉ outs
  | [], pos, saved, outs, h, er => by cases h; simp
  | .next :: ops, pos, saved, outs, h, er => by
    rw [specRun] at h
    cases ho : outcome (xs.map Except.ok) ended pos with
    | none => rw [ho] at h; cases h
    | some r =>
      rw [ho] at h
      simp only [Option.bind_eq_bind, Option.bind_some] at h
      cases hrest : specRun (xs.map Except.ok) ended used (min (xs.map (Except.ok (ε := Err))).length (pos + 1)) saved ops with
      | none => rw [hrest] at h; cases h
      | some rest =>
        rw [hrest] at h
        cases h
        rw [List.mem_cons, not_or]
        refine ⟨?_, specRun_no_fail xs hrest er⟩
        rintro rfl
        unfold outcome at ho
        rw [List.getElem?_map] at ho
        cases hx : xs[pos]? with
        | none => rw [hx] at ho; simp only [Option.map_none] at ho; split at ho <;> cases ho
        | some a => rw [hx] at ho; cases ho
  | .save :: ops, pos, saved, outs, h, er => by
    rw [specRun] at h
    exact specRun_no_fail xs h er
  | .restore k :: ops, pos, saved, outs, h, er => by
    rw [specRun] at h
    cases hk : saved[k]? with
    | none => rw [hk] at h; cases h
    | some p =>
      rw [hk] at h
      simp only [Option.bind_eq_bind, Option.bind_some] at h
      split at h
      · exact specRun_no_fail xs h er
      · cases h
  | .fresh k :: ops, pos, saved, outs, h, er => by
    rw [specRun] at h
    cases hk : saved[k]? with
    | none => rw [hk] at h; cases h
    | some p =>
      rw [hk] at h
      simp only [Option.bind_eq_bind, Option.bind_some] at h
      split at h
      · exact specRun_no_fail xs h er
      · cases h

/-- C107, the part that holds.  If every worker has at least `cycle` datasets, and a start state of one dataset is as good as that
of another (as for datasets whose state is a position), then the elements are those of the datasets, each exactly once, and every
state, also one saved before some or all of the workers have delivered, resumes exactly in a new iterator.
Missing: a cycle length above the number of datasets of a worker (`mp_interleave_start_state_lost`); restoring into used objects. -/
theorem mp_interleave_resumes_partial {f : IterFam α} {n cycle k : Nat} (keep : Bool) (hk : 0 < k) (hcyc : 0 < cycle)
    (hfit : ∀ w, w < k → cycle ≤ sliceCount n k w) {vs : Nat → List α} {At : Nat → f.S → Nat → Prop} {Ck : Nat → f.C → Nat → Prop}
    (hs : ∀ d, d < n → SimWhen (fun _ => false) (f.iter d) ((vs d).map Except.ok) true (At d) (Ck d))
    (hstart : ∀ d d', d < n → d' < n → Ck d (f.get d' (f.init d')).2 0) :
    ∃ zs : List α, zs.Perm ((List.range n).flatMap vs) ∧
      ResumesExactlyWhen (fun _ => false) (mpInterleaveIter f n cycle k keep) (zs.map Except.ok) true := by
  have hworker : ∀ w, ∃ zs : List α, w < k → zs.Perm ((everyNth k w (List.range n)).flatMap vs) ∧
      ResumesFresh ((lazyFam f n cycle k keep).iter w) (zs.map Except.ok) true := by
    intro w
    by_cases hw : w < k
    · obtain ⟨zs, h1, h2⟩ := lazyWorker_fresh keep hk hcyc hw (hfit w hw) hs hstart
      exact ⟨zs, fun _ => ⟨h1, h2⟩⟩
    · exact ⟨[], fun hw' => absurd hw' hw⟩
  obtain ⟨zs, hz⟩ := Classical.axiomOfChoice hworker
  obtain ⟨ys, h1, h2⟩ := interleave_bag (f := lazyFam f n cycle k keep) (cycle := k) keep hk hk (fun w hw => (hz w hw).2)
  exact ⟨ys, h1.trans (slices_perm hk vs (fun w hw => (hz w hw).1)), h2.exactly⟩

/-- The interleave of the datasets of one worker, in that worker. -/
theorem sliceInterleave_sim {f : IterFam α} {n cycle k : Nat} (keep : Bool) (hk : 0 < k) (hcyc : 0 < cycle) {w : Nat} (hw : w < n)
    {vs : Nat → List α} {At : Nat → f.S → Nat → Prop} {Ck : Nat → f.C → Nat → Prop}
    (hs : ∀ d, d < n → SimWhen (fun _ => false) (f.iter d) ((vs d).map Except.ok) true (At d) (Ck d)) :
    ∃ zs : List α, zs.Perm ((everyNth k w (List.range n)).flatMap vs) ∧ ∃ At' Ck',
      SimWhen (fun _ => false) (interleaveSizedIter (f.slice k w) (sliceCount n k w) cycle keep) (zs.map Except.ok) true At' Ck' := by
  have hcount := fun d => sliceCount_iff (n := n) hk w d
  have hpos : 0 < sliceCount n k w := (hcount 0).2 (by omega)
  have hs' : ∀ d, d < sliceCount n k w → SimWhen (fun _ => false) ((f.slice k w).iter d) ((vs (d * k + w)).map Except.ok) true
      (At (d * k + w)) (Ck (d * k + w)) := fun d hd => hs _ ((hcount d).1 hd)
  obtain ⟨t, ht⟩ := aTrace_exists (xs := fun d => (vs (d * k + w)).map Except.ok) (ended := true) (n := sliceCount n k w)
    (L := min cycle (sliceCount n k w)) (by omega) _ (aStart _) (aStart_wf (by omega)) (Or.inl rfl) (Nat.le_refl _)
  have hsim := (interleave_sim (f := f.slice k w) (cycle := cycle) (keep := keep) hs' (by omega) ht).when
  obtain ⟨c1, c2, _⟩ := ht.contents (by omega) (aStart_wf (by omega)) (Nat.min_le_right _ _)
  obtain ⟨zs, z1, z2⟩ := tagged_bag (xs := fun d => vs (d * k + w)) c1 (fun d hd => by simpa using c2 d _ hd (aStart_left _))
  rw [z2] at hsim
  refine ⟨zs, z1.trans (List.Perm.of_eq ?_), _, _, interleaveSized_sim hsim⟩
  rw [everyNth_range hk, List.flatMap_map]

/-- `get_state` of the workers, if a worker that has not delivered anything had its own start state. -/
def ownStart (f : IterFam α) (n cycle k : Nat) (w : Nat) (s : PStart (ILState f.S f.C) (ILCk f.C × Nat)) :
    PStart (ILState f.S f.C) (ILCk f.C × Nat) × (ILCk f.C × Nat) :=
  (processStartIter false (interleaveSizedIter (f.slice k w) (sliceCount n k w) cycle false)
    ((interleaveSizedIter (f.slice k w) (sliceCount n k w) cycle false).get (ilInit f.S f.C)).2).get s

/-- A worker that has delivered an element or was restored has a state of its own. -/
theorem lazyFam_warms (f : IterFam α) (n cycle k : Nat) :
    Warms (lazyFam f n cycle k false) (ownStart f n cycle k) (fun s => s.state.isSome) := by
  refine { next := ?_, get := ?_, set := ?_, first := ?_ }
  · intro d F s s' r hs h
    rcases processStart_next_state (wk := interleaveSizedIter (f.slice k d) (sliceCount n k d) cycle false)
      (start := ((interleaveSizedIter f n cycle false).get (interleaveSizedIter f n cycle false).init).2) false h with h | ⟨h, _⟩
    · exact h
    · rw [h]; exact hs
  · intro d s hs
    obtain ⟨c, hc⟩ := Option.isSome_iff_exists.1 hs
    simp only [ownStart, lazyFam, lazyWorker, processStartIter, hc]
    exact ⟨rfl, by rfl⟩
  · intro d F s c s' h
    simp only [lazyFam, lazyWorker, processStartIter] at h
    cases h
    rfl
  · intro d F s' a h
    rcases processStart_next_state (wk := interleaveSizedIter (f.slice k d) (sliceCount n k d) cycle false) (s := (lazyFam f n cycle k false).init d)
      (start := ((interleaveSizedIter f n cycle false).get (interleaveSizedIter f n cycle false).init).2) false h with h | ⟨_, h⟩
    · exact h
    · exact absurd rfl (h a)

/-- C107, the other part that holds, with no condition on the cycle length or on the states of the datasets: a state saved when at
least as many elements as there are workers have been read (so that every worker has delivered an element or is exhausted), and every
state saved after that one was restored into a new iterator, resumes exactly.
Missing: states saved earlier (`mp_interleave_start_state_lost`); restoring into used objects; `repeat`. -/
theorem mp_interleave_warm_resumes_partial {f : IterFam α} {n cycle k : Nat} (hk : 0 < k) (hkn : k ≤ n) (hcyc : 0 < cycle)
    {vs : Nat → List α} {At : Nat → f.S → Nat → Prop} {Ck : Nat → f.C → Nat → Prop}
    (hs : ∀ d, d < n → SimWhen (fun _ => false) (f.iter d) ((vs d).map Except.ok) true (At d) (Ck d)) :
    ∃ zs : List α, zs.Perm ((List.range n).flatMap vs) ∧
      ∀ (m : Nat) (ops : List Op) (outs : List (Res α)), k ≤ m →
        specRun (zs.map Except.ok) true (fun _ => false) 0 [] (List.replicate m .next ++ ops) = some outs →
        Ev (fun F => implRun (mpInterleaveIter f n cycle k false) F (mpInterleaveIter f n cycle k false).init []
          (List.replicate m .next ++ ops) = some outs) := by
  have hworker : ∀ w, ∃ zs : List α, w < k → zs.Perm ((everyNth k w (List.range n)).flatMap vs) ∧
      ResumesFresh (((lazyFam f n cycle k false).withGet (ownStart f n cycle k)).iter w) (zs.map Except.ok) true := by
    intro w
    by_cases hw : w < k
    · obtain ⟨zs, h1, At', Ck', h2⟩ := sliceInterleave_sim false hk hcyc (show w < n by omega) hs
      exact ⟨zs, fun _ => ⟨h1, processStart_fresh false h2 (h2.get h2.init).2⟩⟩
    · exact ⟨[], fun hw' => absurd hw' hw⟩
  obtain ⟨zs, hz⟩ := Classical.axiomOfChoice hworker
  obtain ⟨ys, h1, h2⟩ := interleave_bag (f := (lazyFam f n cycle k false).withGet (ownStart f n cycle k)) (cycle := k) false hk hk
    (fun w hw => (hz w hw).2)
  refine ⟨ys, h1.trans (slices_perm hk vs (fun w hw => (hz w hw).1)), ?_⟩
  intro m ops outs hm hspec
  refine (h2.exactly _ _ hspec).mono (fun F hF => ?_)
  exact run_after_first_round (lazyFam_warms f n cycle k) hk m 0 (ilInit _ _) (fun _ => none) outs (by omega) (fun _ => rfl)
    (Or.inr ⟨hk, rfl, rfl, rfl, fun i hi => by omega, fun _ _ => rfl, fun _ => rfl⟩) (specRun_no_fail ys hspec) hF

/-- A position stands for the start of every list. -/
theorem listFam_at (xs : Nat → List (Py α)) (d : Nat) :
    SimWhen (fun _ => false) ((listFam xs).iter d) (xs d) true (fun s p => s = p ∧ p ≤ (xs d).length) (fun c p => c = p ∧ p ≤ (xs d).length) := by
  refine { init := ⟨rfl, by omega⟩, bound := fun h => h.2, next_item := ?_, next_stop := ?_,
           get := fun h => ⟨h, h⟩, set := (fun _ _ _ hu => by cases hu),
           set_init := fun h _ => ⟨_, Ev.of_forall (fun _ => rfl), h⟩ }
  · rintro s n r ⟨rfl, _⟩ hr
    refine ⟨Nat.succ s, Ev.of_forall (fun F => ?_), rfl, getElem?_lt hr⟩
    simp only [IterFam.iter, listFam, listIter]
    cases r <;> simp [hr, toRes]
  · rintro s ⟨rfl, _⟩ _
    refine ⟨((xs d).length : Nat), Ev.of_forall (fun F => ?_), rfl, by omega⟩
    simp [IterFam.iter, listFam, listIter]

/-- The four datasets above, with the cycle length of four that loses start states. -/
example : ∃ zs : List Nat, zs.Perm [0, 10, 20, 30] ∧
    ∀ (m : Nat) (ops : List Op) (outs : List (Res Nat)), 2 ≤ m →
      specRun (zs.map Except.ok) true (fun _ => false) 0 [] (List.replicate m .next ++ ops) = some outs →
      Ev (fun F => implRun (mpInterleaveIter (listFam fourSingles) 4 4 2 false) F (mpInterleaveIter (listFam fourSingles) 4 4 2 false).init []
        (List.replicate m .next ++ ops) = some outs) :=
  mp_interleave_warm_resumes_partial (f := listFam fourSingles) (n := 4) (vs := fun d => [10 * d]) (At := fun _ s p => s = p ∧ p ≤ 1)
    (Ck := fun _ c p => c = p ∧ p ≤ 1) (by decide) (by decide) (by decide) (fun d _ => listFam_at fourSingles d)

/-- Four datasets of one element, two workers, a cycle length of two. -/
example : ∃ zs : List Nat, zs.Perm [0, 10, 20, 30] ∧
    ResumesExactlyWhen (fun _ => false) (mpInterleaveIter (listFam fourSingles) 4 2 2 false) (zs.map Except.ok) true := by
  refine mp_interleave_resumes_partial (f := listFam fourSingles) (n := 4) (vs := fun d => [10 * d]) (At := fun _ s p => s = p ∧ p ≤ 1)
    (Ck := fun _ c p => c = p ∧ p ≤ 1) false (by decide) (by decide) ?_ ?_ ?_
  · decide +kernel
  · intro d _
    exact listFam_at fourSingles d
  · intro _ _ _ _
    exact ⟨rfl, Nat.zero_le _⟩

end Grain
