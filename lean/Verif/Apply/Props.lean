import Verif.Apply.LemmasLoader
/-
C88: lists of transformations, in `ds.apply` and in data loaders.
-/
namespace Grain

/-- Applying a list is applying its parts one after the other (whatever the dataset type). -/
theorem apply_append {Ds : Type u} (step : Nat → Call V → Ds → Ds) : ∀ (ts us : List (TObj V)) (k : Nat) (ds : Ds),
    applyFrom step k ds (ts ++ us) = (applyFrom step k ds ts).bind (fun ds' => applyFrom step (k + ts.length) ds' us) := by
  intro ts
  induction ts with
  | nil => intro us k ds; rfl
  | cons t ts ih =>
    intro us k ds
    simp only [List.cons_append, applyFrom]
    cases t.dispatch with
    | error e => rfl
    | ok c =>
      dsimp only
      rw [ih, List.length_cons, Nat.add_assoc, Nat.add_comm 1]

/-- Every object of one class calls the dataset method of that class, with its own arguments, once, in the order of the list. -/
theorem apply_calls {Ds : Type u} (step : Nat → Call V → Ds → Ds) : ∀ (cs : List (Call V)) (k : Nat) (ds : Ds),
    applyFrom step k ds (cs.map Call.obj) = .ok ((cs.zipIdx k).foldl (fun ds x => step x.2 x.1 ds) ds) := by
  intro cs
  induction cs with
  | nil => intro k ds; rfl
  | cons c cs ih =>
    intro k ds
    rw [List.map_cons, applyFrom, dispatch_obj, List.zipIdx_cons, List.foldl_cons]
    exact ih (k + 1) _

/-- C88 for `IterDataset.apply`: the dataset yields what the transformations make of the elements, one after the other, and resumes exactly
in new iterators, provided that no function raises or returns `None`. -/
theorem apply_resumes_exactly {rng : Nat → Nat → Option Int} {cs : List (Call V)} {p : Iter (Option V)} {xs ys : List V} (hv : ∀ c ∈ cs, c.valid)
    (hpure : p.PureGet) (hr : runCalls rng 0 cs xs = some ys) (hp : ResumesFresh p ((xs.map some).map Except.ok) true) :
    ∃ it, applyIter rng p (.many (cs.map Call.obj)) = .ok it ∧ ResumesExactlyWhen (fun _ => false) it ((ys.map some).map Except.ok) true := by
  obtain ⟨it, h1, h2⟩ := apply_fresh cs 0 p xs ys hv hpure hr hp
  exact ⟨it, h1, h2.exactly⟩

/-- One transformation is a list of one. -/
theorem apply_single (rng : Nat → Nat → Option Int) (p : Iter (Option V)) (c : Call V) : applyIter rng p (.one c.obj) = .ok (iterStep rng 0 c p) := by
  simp only [applyIter, TArg.list, applyFrom, dispatch_obj]

/-- Objects of other classes are refused, wherever they are in the list, unless an earlier object is refused. -/
theorem apply_refuses {Ds : Type u} (step : Nat → Call V → Ds → Ds) {t : TObj V} (hb : t.batch = none) (hm : t.map = none) (hr : t.randomMap = none)
    (hi : t.mapWithIndex = none) (hf : t.flatMap = none) (hl : t.filter = none) (us : List (TObj V)) : ∀ (ts : List (TObj V)) (k : Nat) (ds : Ds),
    applyFrom step k ds (ts ++ t :: us) = .error .notImplemented := by
  have ht : t.dispatch = .error .notImplemented := by simp only [TObj.dispatch, hb, hm, hr, hi, hf, hl]
  have hd : ∀ u : TObj V, ∀ e, u.dispatch = .error e → e = .notImplemented := by
    intro u e he
    unfold TObj.dispatch at he
    repeat' split at he
    all_goals cases he
    rfl
  intro ts
  induction ts with
  | nil => intro k ds; rw [List.nil_append, applyFrom, ht]
  | cons u ts ih =>
    intro k ds
    rw [List.cons_append, applyFrom]
    cases hu : u.dispatch with
    | error e => rw [hd u e hu]
    | ok c => exact ih _ _

/-- C88, data loaders: a data loader with at most one worker gives what `apply` with the same list gives on a dataset of the same records, and
resumes exactly in new iterators, whether its states are those of the loader or of the dataset; for objects of one of the
classes `Map`, `Filter`, `FlatMap` and `Batch`. -/
theorem dataLoader_as_apply {rng : Nat → Nat → Option Int} {cs : List (Call V)} {p : Iter (Option V)} {xs ys : List V} (hplain : ∀ c ∈ cs, c.plain = true)
    (hv : ∀ c ∈ cs, c.valid) (hpure : p.PureGet) (hr : runCalls rng 0 cs xs = some ys) (hp : ResumesFresh p ((xs.map some).map Except.ok) true)
    {c : LoaderConf} (hc : 0 < c.shard.shardCount) (hw : c.workers ≤ 1) {src : MapDs V} {s : Sampler} {size : Nat} (bufferSize threads : Nat)
    {rs : List (Rec (Option V))} (hrs : readAll (samplerDs src s c.shard size) = some rs) (hd : rs.map (·.data) = xs.map some) :
    ∃ it it', applyIter rng p (.many (cs.map Call.obj)) = .ok it ∧ loaderOf c src s size (cs.map Call.obj) bufferSize threads = .ok it' ∧
      ResumesExactlyWhen (fun _ => false) it ((ys.map some).map Except.ok) true ∧
      ResumesExactlyWhen (fun _ => false) it' ((ys.map some).map Except.ok) true := by
  obtain ⟨it, h1, h2⟩ := apply_resumes_exactly hv hpure hr hp
  obtain ⟨ops, g1, g2, g3, g4⟩ := loader_runs (rng := rng) cs 0 hplain hv
  obtain ⟨rs', e1, e2⟩ := g4 hd hr
  have hm : max c.workers 1 = 1 := by omega
  have hev : everyNth 1 0 rs = rs := everyNth_one rs
  have hin : inTurn 1 (fun _ : Nat => rs'.map (·.data)) rs'.length = ys.map some := by rw [inTurn_one _ _ (by simp), e2]
  by_cases hn : usesNative (cs.map Call.obj) = true
  · refine ⟨it, nativeLoader c.shard c.workers src s size ops bufferSize threads, h1, ?_, h2, ?_⟩
    · simp only [loaderOf, g1, hn, if_true]
    · have := dataLoader_flatMap_resumes_exactly_partial c.shard c.workers src s size ops bufferSize threads g2 hrs (fun _ => rs') (by
        intro w hw'
        rw [hm] at hw' ⊢
        have : w = 0 := by omega
        rw [this, hev, e1]) rs'.length (fun _ _ => Nat.le_refl _)
      rw [hm, hin] at this
      exact this
  · have hn' : usesNative (cs.map Call.obj) = false := by simpa using hn
    have hk := g3 hn'
    refine ⟨it, legacyLoader c src s size (ops.filterMap NOp.kept) bufferSize threads, h1, ?_, h2, ?_⟩
    · simp only [loaderOf, g1, hn', Bool.false_eq_true, if_false]
    · rw [hk, runNOps_keep] at e1
      have := dataLoader_legacy_resumes_exactly_partial c hc src s size (ops.filterMap NOp.kept) bufferSize threads (by
        intro op ho
        have : NOp.keep op ∈ ops := by rw [hk]; exact List.mem_map_of_mem ho
        exact g2 _ this) hrs (fun _ => rs') (by
        intro w hw'
        rw [hm] at hw' ⊢
        have : w = 0 := by omega
        rw [this, hev, e1]) rs'.length (fun _ _ => Nat.le_refl _)
      rw [hm, hin] at this
      exact this

/-- The hypotheses are met: 10, 11, 12, 13 without 10, each twice, in batches of four. -/
example : ∃ it it', applyIter (fun _ _ => none) (prefetchIter 1 1 false none (listSource [10, 11, 12, 13])) (.many [({ filter := some (fun d => .ok (d ≠ some 10)) } : TObj Nat),
        { flatMap := some (fun d => .ok [d, d.map (· + 100)], 2) }, { batch := some (4, false, fun ds => .ok (some (ds.map (·.getD 0)).sum)) }]) = .ok it ∧
    loaderOf ⟨⟨0, 1, false⟩, 0, "s", "d"⟩ (listSource [10, 11, 12, 13]) ((sequentialSampler 4 ⟨0, 1, false⟩ none).toOption.get rfl) 4
      [({ filter := some (fun d => .ok (d ≠ some 10)) } : TObj Nat), { flatMap := some (fun d => .ok [d, d.map (· + 100)], 2) },
        { batch := some (4, false, fun ds => .ok (some (ds.map (·.getD 0)).sum)) }] 1 1 = .ok it' ∧
    ResumesExactlyWhen (fun _ => false) it [.ok (some (11 + 111 + 12 + 112)), .ok (some (13 + 113))] true ∧
    ResumesExactlyWhen (fun _ => false) it' [.ok (some (11 + 111 + 12 + 112)), .ok (some (13 + 113))] true :=
  dataLoader_as_apply (cs := [.filter (fun d => .ok (d ≠ some 10)), .flatMap (fun d => .ok [d, d.map (· + 100)]) 2,
      .batch 4 false (fun ds => .ok (some (ds.map (·.getD 0)).sum))]) (xs := [10, 11, 12, 13]) (ys := [246, 126])
    (by simp [Call.plain]) (by simp [Call.valid]) (fun _ => rfl) rfl
    (Resumes.fresh (Pipe.resumes (Pipe.mapDataset (ds := listSource [10, 11, 12, 13]) (vs := [some 10, some 11, some 12, some 13]) 1 1 false rfl (by decide))))
    (by decide) (by decide) 1 1 (rs := fourRecords) rfl rfl

/-- C88 is false of objects of several classes: an object that is a `Map` and a `Filter` filters nothing, in datasets and data loaders. -/
theorem apply_two_classes (f : Option V → Py (Option V)) (pred : Option V → Py Bool) :
    ({ map := some f, filter := some pred } : TObj V).dispatch = .ok (.map f) ∧
    ({ map := some f, filter := some pred } : TObj V).loaderOp = .ok (.keep (.transform (.map f))) := ⟨rfl, rfl⟩

/-- Datasets and data loaders differ on which class counts: for an object that is a `MapWithIndex` and a `Filter`, and one that is a
`Batch` and a `Map`. -/
theorem apply_differs_from_loader (g : Nat → Option V → Py (Option V)) (f : Option V → Py (Option V)) (pred : Option V → Py Bool) (b : Nat) (drop : Bool)
    (fn : List (Option V) → Py (Option V)) :
    (({ mapWithIndex := some g, filter := some pred } : TObj V).dispatch = .ok (.mapWithIndex g) ∧
      ({ mapWithIndex := some g, filter := some pred } : TObj V).loaderOp = .ok (.keep (.transform (.filter pred)))) ∧
    (({ batch := some (b, drop, fn), map := some f } : TObj V).dispatch = .ok (.batch b drop fn) ∧
      ({ batch := some (b, drop, fn), map := some f } : TObj V).loaderOp = .ok (.keep (.transform (.map f)))) := ⟨⟨rfl, rfl⟩, rfl, rfl⟩

/-- Each of the two refuses a class that the other accepts. -/
theorem apply_other_classes (g : Nat → Option V → Py (Option V)) (f : Option V → Option Int → Py (Option V)) :
    (({ tfRandomMap := some f } : TObj V).dispatch = .error .notImplemented ∧ ({ tfRandomMap := some f } : TObj V).loaderOp = .ok (.keep (.transform (.randomMap f)))) ∧
    (({ mapWithIndex := some g } : TObj V).dispatch = .ok (.mapWithIndex g) ∧ ({ mapWithIndex := some g } : TObj V).loaderOp = .error .typeError) := ⟨⟨rfl, rfl⟩, rfl, rfl⟩

/-- The proviso on `None` is needed: where a function returns `None`, a dataset passes `None` on without calling the next function, a data
loader calls it. -/
theorem none_differs : ∃ (it it' : Iter (Option Nat)),
    applyIter (fun _ _ => none) (prefetchIter 1 1 false none (listSource [10])) (.many [{ map := some (fun _ => .ok none) }, { map := some (fun d => .ok (some (d.getD 7))) }]) = .ok it ∧
    loaderOf ⟨⟨0, 1, false⟩, 0, "s", "d"⟩ (listSource [10]) ((sequentialSampler 1 ⟨0, 1, false⟩ none).toOption.get rfl) 1
      [{ map := some (fun _ => .ok none) }, { map := some (fun d => .ok (some (d.getD 7))) }] 1 1 = .ok it' ∧
    Ev (fun F => implRun it F it.init [] [.next] = some [.item none]) ∧
    Ev (fun F => implRun it' F it'.init [] [.next] = some [.item (some 7)]) := by
  refine ⟨_, _, rfl, rfl, ⟨5, fun F hF => ?_⟩, ⟨5, fun F hF => ?_⟩⟩
  · obtain ⟨k, rfl⟩ : ∃ k, F = k + 5 := ⟨F - 5, by omega⟩
    rfl
  · obtain ⟨k, rfl⟩ : ∃ k, F = k + 5 := ⟨F - 5, by omega⟩
    rfl

end Grain
