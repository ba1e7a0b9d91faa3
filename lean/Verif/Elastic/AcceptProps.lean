import Verif.Elastic.AcceptLemmas
import Verif.Iter.Example
/-
C99: which pipelines `ElasticIterator` accepts.
-/
namespace Grain

/-- C99: a `zip`, a `mix`, a `to_iter_dataset` or a filter of a `MapDataset` anywhere in the graph of an `IterDataset` is
rejected with `ValueError`, on every host and for every batch size. -/
theorem elastic_rejects (g : DsGraph) {m : DsGraph} (hm : g.Contains m)
    (hc : m.cls = .zip ∨ m.cls = .mix ∨ m.cls = .toIter ∨ m.cls = .filterMap) (globalBatch : Int) (host hosts : Nat) :
    elasticAccepts g globalBatch host hosts = .error .valueError := by
  unfold elasticAccepts elasticInit
  by_cases h1 : checkLoop (· == .filterMap) [g] = true
  · rw [if_pos h1]
  · rw [if_neg h1]
    have : checkLoop unsupported [g] = true := by
      refine (checkLoop_iff _ _).2 ⟨g, List.mem_singleton.2 rfl, m, hm, ?_⟩
      rcases hc with hc | hc | hc | hc
      · rw [hc]; rfl
      · rw [hc]; rfl
      · rw [hc]; rfl
      · refine absurd ((checkLoop_iff _ _).2 ⟨g, List.mem_singleton.2 rfl, m, hm, ?_⟩) h1
        rw [hc]
        rfl
    rw [if_pos this]

/-- C99: a `MapDataset` is accepted iff there is no filter in it. -/
theorem elastic_map_accepts_iff (g : DsGraph) :
    (∃ g', elasticInitMap g = .ok g') ↔ ∀ m, g.Contains m → m.cls ≠ .filterMap := by
  unfold elasticInitMap
  by_cases h1 : checkLoop (· == .filterMap) [g] = true
  · rw [if_pos h1]
    obtain ⟨g', hg, m, h2, h3⟩ := (checkLoop_iff _ _).1 h1
    have := List.mem_singleton.1 hg
    subst this
    constructor
    · rintro ⟨_, h⟩
      cases h
    · intro h
      exact absurd (by simpa using h3) (h m h2)
  · rw [if_neg h1]
    refine ⟨fun _ m hm hc => h1 ?_, fun _ => ⟨g, rfl⟩⟩
    exact (checkLoop_iff _ _).2 ⟨g, List.mem_singleton.2 rfl, m, hm, by rw [hc]; rfl⟩

/-- C99: a chain of transformations with one parent over an interleave (or over Parquet files) is accepted on a host iff
none of them is a `to_iter_dataset`, a process prefetch, … (only thread prefetches and transformations without threads
are left), the number of hosts divides the global batch size (if there is one), and the host does not read exactly one
Parquet file. -/
theorem elastic_accepts_iff (layers : List DsClass) (hl : ∀ c ∈ layers, c ≠ .map ∧ ∀ n, c ≠ .interleave n ∧ c ≠ .parquet n)
    (base : DsGraph) (hb : ∃ n, base = .node (.interleave n) [] ∨ base = .node (.parquet n) []) (globalBatch : Int)
    {host hosts : Nat} :
    elasticAccepts (DsGraph.chain layers base) globalBatch host hosts = .ok () ↔
      (∀ c ∈ layers, c = .threadPrefetch ∨ c = .iter) ∧ (globalBatch ≤ 0 ∨ (hosts : Int) ∣ globalBatch) ∧
      ∀ n, base = .node (.parquet n) [] → hostLen n hosts host ≠ 1 := by
  by_cases hbad : ∃ c ∈ layers, c = .zip ∨ c = .mix ∨ c = .toIter ∨ c = .filterMap
  · obtain ⟨c, hc, hcc⟩ := hbad
    obtain ⟨m, h1, h2⟩ := contains_chain (base := base) hc
    rw [elastic_rejects _ h1 (by rw [h2]; exact hcc)]
    constructor
    · intro h
      cases h
    · rintro ⟨h, -⟩
      rcases h c hc with rfl | rfl <;> simp at hcc
  · have hl' : ∀ c ∈ layers, c = .threadPrefetch ∨ c = .processPrefetch ∨ c = .iter := by
      intro c hc
      have h1 := hl c hc
      have h2 : ¬ (c = .zip ∨ c = .mix ∨ c = .toIter ∨ c = .filterMap) := fun h => hbad ⟨c, hc, h⟩
      cases c <;> simp at h1 h2 ⊢
    obtain ⟨n, hb⟩ := hb
    have hinit : ∃ base', base.slice host hosts = .ok base' ∧ base'.findDs = true ∧ base'.cls.isMap = false ∧
        (base'.findIt = true ↔ ∀ n, base = .node (.parquet n) [] → hostLen n hosts host ≠ 1) := by
      rcases hb with rfl | rfl
      · exact ⟨.node (.interleave (hostLen n hosts host)) [], by simp [DsGraph.slice], by simp [DsGraph.findDs, DsClass.sliceable], rfl,
          by simp [DsGraph.findIt]⟩
      · exact ⟨.node (.parquet (hostLen n hosts host)) [], by simp [DsGraph.slice], by simp [DsGraph.findDs, DsClass.sliceable], rfl,
          by simp [DsGraph.findIt]⟩
    obtain ⟨base', hs, hd, hm, hit⟩ := hinit
    have hno : ∀ bad : DsClass → Bool, (∀ c ∈ layers, bad c = false) → (∀ n, bad (.interleave n) = false) →
        (∀ n, bad (.parquet n) = false) → checkLoop bad [DsGraph.chain layers base] = false := by
      intro bad h1 h2 h3
      by_contra hne
      obtain ⟨g, hg, m, h4, h5⟩ := (checkLoop_iff _ _).1 (Bool.not_eq_false _ ▸ hne)
      have := List.mem_singleton.1 hg
      subst this
      rcases chain_contains h4 with h | h
      · rw [h1 _ h] at h5
        cases h5
      · rcases hb with rfl | rfl
        all_goals
          cases h with
          | self => simp [DsGraph.cls, h2, h3] at h5
          | parent hp _ => cases hp
    have e1 : checkLoop (· == .filterMap) [DsGraph.chain layers base] = false :=
      hno _ (fun c hc => by rcases hl' c hc with rfl | rfl | rfl <;> rfl) (fun _ => rfl) (fun _ => rfl)
    have e2 : checkLoop unsupported [DsGraph.chain layers base] = false :=
      hno _ (fun c hc => by rcases hl' c hc with rfl | rfl | rfl <;> rfl) (fun _ => rfl) (fun _ => rfl)
    unfold elasticAccepts elasticInit
    rw [e1, e2]
    simp only [Bool.false_eq_true, if_false]
    rw [chain_slice hl' hs]
    dsimp only
    unfold elasticBase
    rw [(chain_findDs hl' hd hm).1]
    simp only [Bool.not_true, Bool.false_eq_true, if_false]
    have hdiv : (globalBatch ≤ 0 ∨ (hosts : Int) ∣ globalBatch) ↔ ¬ (0 < globalBatch ∧ globalBatch % hosts ≠ 0) := by
      rw [Int.dvd_iff_emod_eq_zero]
      constructor
      · rintro (h | h) ⟨h1, h2⟩
        · omega
        · exact h2 h
      · intro h
        by_cases h0 : globalBatch ≤ 0
        · exact Or.inl h0
        · exact Or.inr (by by_contra h1; exact h ⟨by omega, h1⟩)
    have hlay : (∀ c ∈ layers, c = .threadPrefetch ∨ c = .iter) ↔ ∀ c ∈ layers, c ≠ .processPrefetch := by
      refine ⟨fun h c hc => ?_, fun h c hc => ?_⟩
      · rcases h c hc with rfl | rfl <;> simp
      · rcases hl' c hc with h1 | h1 | h1
        · exact Or.inl h1
        · exact absurd h1 (h c hc)
        · exact Or.inr h1
    rw [hdiv, hlay, ← hit]
    have hfi := chain_findIt (base := base') hl'
    by_cases h3 : 0 < globalBatch ∧ globalBatch % hosts ≠ 0
    · rw [if_pos h3]
      constructor
      · intro h
        cases h
      · rintro ⟨-, h4, -⟩
        exact absurd h3 h4
    · rw [if_neg h3]
      cases hf : (DsGraph.chain layers base').findIt with
      | true =>
        have h5 := hfi.1 hf
        simp only [Bool.not_true, Bool.false_eq_true, if_false]
        exact ⟨fun _ => ⟨h5.1, h3, h5.2⟩, fun _ => trivial⟩
      | false =>
        simp only [Bool.not_false, if_true]
        constructor
        · intro h
          cases h
        · rintro ⟨h4, -, h5⟩
          have := hfi.2 ⟨h4, h5⟩
          rw [hf] at this
          cases this

/-- Finding: prefetching is meant to be rejected ("does not support zip, mix or prefetch transformation yet"), but a thread
prefetch (`ThreadPrefetchIterDataset`, also inside `device_put`) over an interleave is accepted on every host. -/
theorem elastic_accepts_thread_prefetch (n : Nat) {globalBatch : Int} {host hosts : Nat} (hd : (hosts : Int) ∣ globalBatch) :
    elasticAccepts (.node .threadPrefetch [.node (.interleave n) []]) globalBatch host hosts = .ok () :=
  (elastic_accepts_iff [.threadPrefetch] (by simp) (.node (.interleave n) []) ⟨n, Or.inl rfl⟩ globalBatch).2
    ⟨by simp, Or.inr hd, by simp⟩

/-- Finding: the elastic state of such a pipeline is taken from the iterator below the prefetch (EI:199-224), while its thread
reads ahead.  For every buffer size there is a schedule in which the user has got one element, `x 0`, and the state that
is saved then continues with element `size + 2`: the elements `x 1`, …, `x (size + 1)` are lost. -/
theorem elastic_prefetch_loses {α : Type} {p : Iter α} {x : Nat → Option α} (h : ResumesStream p (fun n => (x n).map .ok))
    {size : Nat} (hsize : 0 < size) (hx : ∀ n, n ≤ size + 1 → (x n).isSome) :
    ∃ s : UserSys (prefetchOver size (ofIter p)), UserRun (prefetchOver size (ofIter p)) (userInit _ [.next]) s ∧ s.finished ∧
      s.outs = [x 0] ∧
      ∃ t t', Ev (fun F => p.set F p.init (p.get (PrefState.cs s.st).1).2 = some (t, none)) ∧
        Ev (fun F => p.next F t = some (t', match x (size + 2) with | some a => .item a | none => .stop)) := by
  obtain ⟨At, Ck, h⟩ := h
  obtain ⟨s, h1, h2, h3, h4⟩ := prefetch_runs_ahead h hsize hx
  obtain ⟨t, h5, h6⟩ := h.set h.init (h.get h4).2
  obtain ⟨t', h7, -⟩ := h.next h6
  refine ⟨s, h1, h2, h3, t, t', h5, ?_⟩
  have : streamRes (fun n => (x n).map (Except.ok (ε := Err))) (size + 2) = (match x (size + 2) with | some a => Res.item a | none => .stop) := by
    unfold streamRes
    dsimp only
    cases x (size + 2) <;> rfl
  rw [← this]
  exact h7

/-- Finding: with Parquet files the answer depends on the host: three files on two hosts, the host with two files works, the
host with one file raises `ValueError`. -/
theorem elastic_parquet_host_dependent :
    elasticAccepts (.node (.parquet 3) []) 4 0 2 = .ok () ∧ elasticAccepts (.node (.parquet 3) []) 4 1 2 = .error .valueError := by
  constructor
  · exact (elastic_accepts_iff [] (by simp) (.node (.parquet 3) []) ⟨3, Or.inr rfl⟩ 4).2
      ⟨by simp, Or.inr ⟨2, rfl⟩, by rintro n h; cases h; decide⟩
  · simp [elasticAccepts, elasticInit, checkLoop, DsGraph.slice, elasticBase, DsGraph.findDs, DsGraph.findIt, DsClass.sliceable, unsupported, hostLen]

/-! ### The hypotheses are met -/

/-- A batch over a map over an interleave of ten datasets on four hosts. -/
example : elasticAccepts (DsGraph.chain [.iter, .iter] (.node (.interleave 10) [])) 8 3 4 = .ok () :=
  (elastic_accepts_iff _ (by simp) _ ⟨10, Or.inl rfl⟩ 8).2 ⟨by simp, Or.inr ⟨2, rfl⟩, by simp⟩

/-- A batch size that four hosts cannot share. -/
example : elasticAccepts (DsGraph.chain [.iter, .iter] (.node (.interleave 10) [])) 9 3 4 ≠ .ok () := by
  intro h
  rcases ((elastic_accepts_iff _ (by simp) _ ⟨10, Or.inl rfl⟩ 9).1 h).2.1 with h | h <;> omega

/-- A zip of two mixtures, deep in the graph. -/
example : elasticAccepts (.node .iter [.node .iter [.node .zip [.node (.interleave 2) [], .node (.interleave 3) []]]]) 0 0 1 =
    .error .valueError :=
  elastic_rejects _ (.parent (List.mem_singleton.2 rfl) (.parent (List.mem_singleton.2 rfl) (.self _))) (Or.inl rfl) 0 0 1

/-- Five elements and a buffer of two: after one element the saved state continues with the fifth. -/
example : ∃ s : UserSys (prefetchOver 2 (ofIter (listIter [Except.ok 1, .ok 2, .ok 3, .ok 4, .ok 5]))),
    UserRun _ (userInit _ [.next]) s ∧ s.finished ∧ s.outs = [some 1] ∧
      ∃ t t', Ev (fun F => (listIter [Except.ok 1, .ok 2, .ok 3, .ok 4, .ok 5]).set F
          (listIter [Except.ok 1, .ok 2, .ok 3, .ok 4, .ok 5]).init
          ((listIter [Except.ok 1, .ok 2, .ok 3, .ok 4, .ok 5]).get (PrefState.cs s.st).1).2 = some (t, none)) ∧
        Ev (fun F => (listIter [Except.ok 1, .ok 2, .ok 3, .ok 4, .ok 5]).next F t = some (t', .item 5)) := by
  have hr : ResumesStream (listIter [Except.ok 1, .ok 2, .ok 3, .ok 4, .ok 5]) (fun n => (([1, 2, 3, 4, 5] : List Nat)[n]?).map .ok) := by
    have := (listIter_resumes [Except.ok 1, .ok 2, .ok 3, .ok 4, .ok (5 : Nat)]).stream
    have he : (fun n : Nat => ([1, 2, 3, 4, 5] : List Nat)[n]?.map (Except.ok : Nat → Py Nat)) =
        (fun n : Nat => [Except.ok 1, .ok 2, .ok 3, .ok 4, .ok (5 : Nat)][n]?) := by
      funext n
      rw [← List.getElem?_map]
      rfl
    rw [he]
    exact this
  obtain ⟨s, h1, h2, h3, t, t', h4, h5⟩ := elastic_prefetch_loses hr (size := 2) (by omega) (by
    intro n hn
    rw [List.getElem?_eq_getElem (by simp; omega)]
    rfl)
  exact ⟨s, h1, h2, h3, t, t', h4, h5⟩

end Grain
