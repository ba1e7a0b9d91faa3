import Verif.Loader.Sampler
import Verif.Iter.FilterBatch
import Verif.Iter.OneToOne
/-
What the workers of a data loader yield.
-/
namespace Grain

theorem mapM_some_getElem {f : γ → Option β} : ∀ (l : List γ) (ys : List β), l.mapM f = some ys →
    ∀ i (h1 : i < l.length) (h2 : i < ys.length), f l[i] = some ys[i] := by
  intro l
  induction l with
  | nil => intro ys _ i h1; simp at h1
  | cons a l ih =>
    intro ys hm i h1 h2
    rw [List.mapM_cons] at hm
    cases hFa : f a with
    | none => rw [hFa] at hm; cases hm
    | some b =>
      rw [hFa] at hm
      cases hml : l.mapM f with
      | none => rw [hml] at hm; cases hm
      | some bs =>
        rw [hml] at hm
        cases hm
        cases i with
        | zero => simpa using hFa
        | succ i => simpa using ih bs hml i (by simpa using h1) (by simpa using h2)

theorem mapM_some_length' : ∀ (l : List γ) (f : γ → Option β) (ys : List β), l.mapM f = some ys → ys.length = l.length := by
  intro l
  induction l with
  | nil => intro f ys h; cases h; rfl
  | cons a l ih =>
    intro f ys h
    rw [List.mapM_cons] at h
    cases hf : f a with
    | none => rw [hf] at h; cases h
    | some b =>
      rw [hf] at h
      cases hl : l.mapM f with
      | none => rw [hl] at h; cases h
      | some bs => rw [hl] at h; cases h; simp [ih f bs hl]

theorem map_stream {g : Rec D → Py (Option (Rec D))} {f : Rec D → Option (Rec D)} (hg : ∀ r y, f r = some y → g r = .ok (some y))
    {rs ys : List (Rec D)} (h : rs.mapM f = some ys) :
    ((rs.map some).map Except.ok).map (mapOutcome g) = (ys.map some).map Except.ok := by
  have hl := mapM_some_length' _ _ _ h
  apply List.ext_getElem
  · simp [hl]
  · intro i h1 h2
    simp only [List.getElem_map, mapOutcome]
    exact hg _ _ (mapM_some_getElem _ _ h i (by simpa using h1) (by simpa using h2))

theorem withData_ok {r : Rec D} {d : Py D} {y : Rec D} (h : (okVal d).map (fun d => (⟨r.md, d⟩ : Rec D)) = some y) :
    r.withData d = .ok (some y) := by
  cases d with
  | error e => simp [okVal] at h
  | ok d =>
    simp only [okVal, Option.map_some, Option.some.injEq] at h
    subst h
    rfl

theorem filter_stream {pred : D → Py Bool} : ∀ {rs ys : List (Rec D)}, (DlOp.filter pred).run rs = some ys →
    ((rs.map some).map Except.ok).filterMap (filterOutcome (fun r : Option (Rec D) => match r with | some r => pred r.data | none => .error .attributeError))
      = (ys.map some).map Except.ok := by
  intro rs
  induction rs with
  | nil =>
    intro ys h
    cases h
    rfl
  | cons r rs ih =>
    intro ys h
    simp only [DlOp.run, List.mapM_cons, Option.map_eq_some_iff] at h
    obtain ⟨l, hl, rfl⟩ := h
    cases hp : pred r.data with
    | error e => rw [hp] at hl; cases hl
    | ok b =>
      rw [hp] at hl
      cases hm : rs.mapM (fun r => (okVal (pred r.data)).map (fun b => (r, b))) with
      | none => rw [hm] at hl; cases hl
      | some l' =>
        rw [hm] at hl
        cases hl
        have := ih (ys := (l'.filter (·.2)).map (·.1)) (by simp only [DlOp.run, hm, Option.map_some])
        rw [List.map_cons, List.map_cons, List.filterMap_cons]
        cases b with
        | true => simp only [filterOutcome, hp, List.filter_cons_of_pos, List.map_cons, this]
        | false => simp only [filterOutcome, hp]; rw [List.filter_cons_of_neg (by simp)]; exact this

theorem group_map_some (rs : List γ) (b i : Nat) : group (rs.map some) b i = (group rs b i).map some := by
  unfold group
  rw [List.map_take, List.map_drop]

theorem batch_stream {b : Nat} {drop : Bool} {fn : List D → Py D} {rs ys : List (Rec D)} (h : (DlOp.batch b drop fn).run rs = some ys) :
    batchStream b drop (batchRecords fn) (rs.map some) true = (ys.map some).map Except.ok := by
  simp only [DlOp.run] at h
  have hl := mapM_some_length' _ _ _ h
  unfold batchStream
  simp only [Bool.not_true, Bool.or_false, List.length_map]
  apply List.ext_getElem
  · simp only [List.length_map, List.length_range] at hl ⊢; omega
  · intro i h1 h2
    have hi := mapM_some_getElem _ _ h i (by simpa using h1) (by simpa using h2)
    simp only [List.getElem_map, List.getElem_range] at hi ⊢
    have hf : (group (rs.map some) b i).filterMap id = group rs b i := by
      rw [group_map_some, List.filterMap_map]
      simp
    unfold batchRecords
    rw [hf]
    cases hg : (group rs b i).getLast? with
    | none => rw [hg] at hi; cases hi
    | some l =>
      rw [hg] at hi
      dsimp only at hi ⊢
      cases hfn : fn ((group rs b i).map (·.data)) with
      | error e => rw [hfn] at hi; cases hi
      | ok d =>
        rw [hfn] at hi
        simp only [okVal, Option.map_some, Option.some.injEq] at hi
        rw [← hi]
        rfl

/-- One operation on one worker. -/
theorem op_resumes {op : DlOp D} {p : OpFam C (Option (Rec D))} {w : Nat} {rs ys : List (Rec D)} (hv : op.valid)
    (hr : op.run rs = some ys) (h : Resumes (p.fam.iter w) ((rs.map some).map Except.ok) true) :
    Resumes ((op.apply p).fam.iter w) ((ys.map some).map Except.ok) true := by
  cases op with
  | map f =>
    obtain ⟨At, Ck, h⟩ := h
    have h := mapIter_sim (f := fun r => r.withData (f r.data)) h
    rw [map_stream (fun r y => withData_ok) hr] at h
    exact ⟨At, Ck, ⟨h.init, h.bound, h.next_item, h.next_stop, h.get, h.set, h.ck_bound⟩⟩
  | randomMap f =>
    obtain ⟨At, Ck, h⟩ := h
    have h := mapIter_sim (f := fun r => r.withData (f r.data r.md.rng)) h
    rw [map_stream (fun r y => withData_ok) hr] at h
    exact ⟨At, Ck, ⟨h.init, h.bound, h.next_item, h.next_stop, h.get, h.set, h.ck_bound⟩⟩
  | filter pred =>
    have h := filterIter_resumes (pred := fun r : Option (Rec D) => match r with | some r => pred r.data | none => .error .attributeError) h
    rw [filter_stream hr] at h
    obtain ⟨At, Ck, h⟩ := h
    exact ⟨At, Ck, ⟨h.init, h.bound, h.next_item, h.next_stop, h.get, h.set, h.ck_bound⟩⟩
  | batch b drop fn =>
    have h := batchIter_resumes h b hv drop (batchRecords fn)
    rw [batch_stream hr] at h
    obtain ⟨At, Ck, h⟩ := h
    exact ⟨At, Ck, ⟨h.init, h.bound, h.next_item, h.next_stop, h.get, h.set, h.ck_bound⟩⟩

theorem ops_resumes {w : Nat} : ∀ (ops : List (DlOp D)) (p : IdxFam (Option (Rec D))) (rs ys : List (Rec D)), (∀ op ∈ ops, op.valid) →
    runOps ops rs = some ys → Resumes (p.fam.iter w) ((rs.map some).map Except.ok) true →
    Resumes ((ops.foldl (fun p op => op.apply p) p).fam.iter w) ((ys.map some).map Except.ok) true := by
  intro ops
  induction ops with
  | nil => intro p rs ys _ h; cases h; exact id
  | cons op ops ih =>
    intro p rs ys hv h hp
    simp only [runOps, Option.bind_eq_some_iff] at h
    obtain ⟨zs, h1, h2⟩ := h
    rw [List.foldl_cons]
    exact ih _ _ _ (fun o ho => hv o (by simp [ho])) h2 (op_resumes (hv op (by simp)) h1 hp)

theorem loaderFam_resumes {ops : List (DlOp (Option V))} {p : IdxFam (Option (Rec (Option V)))} {w : Nat} {rs ys : List (Rec (Option V))}
    (hv : ∀ op ∈ ops, op.valid) (hr : runOps ops rs = some ys) (h : Resumes (p.fam.iter w) ((rs.map some).map Except.ok) true) :
    Resumes ((loaderFam ops p).fam.iter w) ((ys.map (·.data)).map Except.ok) true := by
  obtain ⟨At, Ck, h⟩ := ops_resumes ops p rs ys hv hr h
  have h := mapIter_sim (f := fun (r : Rec (Option V)) => .ok r.data) h
  have he : ((ys.map some).map Except.ok).map (mapOutcome (fun (r : Rec (Option V)) => .ok r.data)) = (ys.map (·.data)).map Except.ok := by
    rw [List.map_map, List.map_map, List.map_map]
    rfl
  rw [he] at h
  exact ⟨At, Ck, ⟨h.init, h.bound, h.next_item, h.next_stop, h.get, h.set, h.ck_bound⟩⟩

theorem readFam_resumes {ds : MapDs α} {rs : List α} (size threads : Nat) (hlen : rs.length = ds.len)
    (hv : ∀ k (hk : k < rs.length), ds.getitem (k : Int) = .ok (some rs[k])) {n w : Nat} (hn : 0 < n) (hw : w < n) :
    Resumes ((readFam size threads ds n).fam.iter w) (((everyNth n w rs).map some).map Except.ok) true := by
  obtain ⟨h1, h2⟩ := workerDs_reads (vs := rs.map some) hn hw ds (by simpa using hlen) (by
    intro k hk
    rw [hv k (by simpa using hk)]
    simp)
  have sim := prefetchIter_sim (allow := false) size threads true [] (by simp) (by omega) h2 (fun _ => ⟨h1, rfl⟩) (by simp)
  rw [everyNth_map, keepElems_all (Or.inr (by
    intro v hv
    obtain ⟨a, _, rfl⟩ := List.mem_map.1 hv
    rfl))] at sim
  simp only [List.map_nil, List.append_nil] at sim
  exact ⟨_, _, ⟨sim.init, sim.bound, sim.next_item, sim.next_stop, sim.get, sim.set, sim.ck_bound⟩⟩

/-- Records read: every read of the loader's dataset succeeds. -/
theorem readAll_reads {ds : MapDs α} {rs : List α} (h : readAll ds = some rs) :
    rs.length = ds.len ∧ ∀ k (hk : k < rs.length), ds.getitem (k : Int) = .ok (some rs[k]) := by
  unfold readAll at h
  have hl := mapM_some_length' _ _ _ h
  rw [List.length_range] at hl
  refine ⟨hl, ?_⟩
  intro k hk
  have := mapM_some_getElem _ _ h k (by simpa [hl] using hk) hk
  rw [List.getElem_range] at this
  split at this
  · rename_i a ha
    cases this
    exact ha
  · cases this

/-- What worker `w` of `n` yields. -/
theorem worker_resumes {ops : List (DlOp (Option V))} {ds : MapDs (Rec (Option V))} {rs ys : List (Rec (Option V))} (size threads : Nat)
    (hv : ∀ op ∈ ops, op.valid) (hrd : readAll ds = some rs) {n w : Nat} (hn : 0 < n) (hw : w < n)
    (hr : runOps ops (everyNth n w rs) = some ys) :
    Resumes ((loaderFam ops (readFam size threads ds n)).fam.iter w) ((ys.map (·.data)).map Except.ok) true := by
  obtain ⟨h1, h2⟩ := readAll_reads hrd
  exact loaderFam_resumes hv hr (readFam_resumes size threads h1 h2 hn hw)

end Grain
