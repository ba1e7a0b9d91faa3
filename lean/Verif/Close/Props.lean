import Verif.Close.InterleaveLemmas
/-
C66.  `close` closes everything below an iterator, and `next` raises `ValueError` afterwards.
-/
namespace Grain

theorem releasingPipe_law : ∀ {α : Type} {c : Closable α}, ReleasingPipe c → CloseReleases c := by
  intro α c hp
  induction hp with
  | mapDataset size threads allow thr ds =>
    exact ⟨_, _, mapDataset_law size threads allow thr ds, fun s h b hb => by
      rw [List.mem_singleton.1 hb]; exact h.2⟩
  | map f _ ih =>
    obtain ⟨ok, dead, hl, hs⟩ := ih
    exact derived_releases (ok := ok) (dead := dead) hl.init (mapIter_preserves hl.preservesOk f) (mapIter_preserves hl.preservesDead f)
      (fun _ h => hl.close h) (fun _ h => hl.weaken h) hs
  | randomMap f i n _ ih =>
    obtain ⟨ok, dead, hl, hs⟩ := ih
    exact derived_releases (ok := fun s => ok s.1) (dead := fun s => dead s.1) hl.init (randomMapIter_preserves hl.preservesOk f i n)
      (randomMapIter_preserves hl.preservesDead f i n) (fun _ h => hl.close h) (fun _ h => hl.weaken h) (fun s h => hs _ h)
  | mapWithIndex f _ ih =>
    obtain ⟨ok, dead, hl, hs⟩ := ih
    exact derived_releases (ok := fun s => ok s.1) (dead := fun s => dead s.1) hl.init (mapWithIndexIter_preserves hl.preservesOk f)
      (mapWithIndexIter_preserves hl.preservesDead f) (fun _ h => hl.close h) (fun _ h => hl.weaken h) (fun s h => hs _ h)
  | limit n _ ih =>
    obtain ⟨ok, dead, hl, hs⟩ := ih
    exact derived_releases (ok := fun s => ok s.1) (dead := fun s => dead s.1) hl.init (limitIter_preserves hl.preservesOk n)
      (limitIter_preserves hl.preservesDead n) (fun _ h => hl.close h) (fun _ h => hl.weaken h) (fun s h => hs _ h)
  | filter pred thr _ ih =>
    obtain ⟨ok, dead, hl, hs⟩ := ih
    exact derived_releases (ok := fun s => ok s.1) (dead := fun s => dead s.1) hl.init (filterIter_preserves hl.preservesOk pred thr)
      (filterIter_preserves hl.preservesDead pred thr) (fun _ h => hl.close h) (fun _ h => hl.weaken h) (fun s h => hs _ h)
  | batch b drop f _ ih =>
    obtain ⟨ok, dead, hl, hs⟩ := ih
    exact derived_releases (ok := ok) (dead := dead) hl.init (batchIter_preserves hl.preservesOk b drop f)
      (batchIter_preserves hl.preservesDead b drop f) (fun _ h => hl.close h) (fun _ h => hl.weaken h) hs
  | rebatch b drop _ ih =>
    obtain ⟨ok, dead, hl, hs⟩ := ih
    exact derived_releases (it := rebatchIter b drop _) (ok := fun s => ok (RebatchState.ps s)) (dead := fun s => dead (RebatchState.ps s))
      (hl.preservesOk.get hl.init) (rebatchIter_preserves hl.preservesOk b drop)
      (rebatchIter_preserves hl.preservesDead b drop) (fun _ h => hl.close h) (fun _ h => hl.weaken h) (fun s h => hs _ h)
  | flatMap f _ ih =>
    obtain ⟨ok, dead, hl, hs⟩ := ih
    exact derived_releases (it := flatMapIter f _) (ok := fun s => ok (FlatMapState.ps s)) (dead := fun s => dead (FlatMapState.ps s))
      (hl.preservesOk.get hl.init) (flatMapIter_preserves hl.preservesOk f)
      (flatMapIter_preserves hl.preservesDead f) (fun _ h => hl.close h) (fun _ h => hl.weaken h) (fun s h => hs _ h)
  | «repeat» n _ ih =>
    obtain ⟨ok, dead, hl, hs⟩ := ih
    exact derived_releases (it := repeatIter n _) (ok := fun s => ok (RepeatState.ps s)) (dead := fun s => dead (RepeatState.ps s))
      (hl.preservesOk.get hl.init) (repeatIter_preserves hl.preservesOk n)
      (repeatIter_preserves hl.preservesDead n) (fun _ h => hl.close h) (fun _ h => hl.weaken h) (fun s h => hs _ h)
  | cache _ ih =>
    obtain ⟨ok, dead, hl, hs⟩ := ih
    exact derived_releases (it := cacheIter _) (ok := fun s => ok (CacheState.ps s)) (dead := fun s => dead (CacheState.ps s))
      (hl.preservesOk.get hl.init) (cacheIter_preserves hl.preservesOk)
      (cacheIter_preserves hl.preservesDead) (fun _ h => hl.close h) (fun _ h => hl.weaken h) (fun s h => hs _ h)
  | windowShuffle shuffle w _ ih =>
    obtain ⟨ok, dead, hl, hs⟩ := ih
    exact derived_releases (it := windowShuffleIter shuffle w _) (ok := fun s => ok (WinState.ps s)) (dead := fun s => dead (WinState.ps s))
      (hl.preservesOk.get hl.init) (windowShuffleIter_preserves hl.preservesOk shuffle w)
      (windowShuffleIter_preserves hl.preservesDead shuffle w) (fun _ h => hl.close h) (fun _ h => hl.weaken h) (fun s h => hs _ h)
  | pack pk order _ ih =>
    obtain ⟨ok, dead, hl, hs⟩ := ih
    exact derived_releases (it := packIter pk order _) (ok := fun s => ok (PackState.parent s)) (dead := fun s => dead (PackState.parent s))
      (hl.preservesOk.get hl.init) (packIter_preserves hl.preservesOk pk order)
      (packIter_preserves hl.preservesDead pk order) (fun _ h => hl.close h) (fun _ h => hl.weaken h) (fun s h => hs _ h)
  | concatThenSplit cfg _ ih =>
    obtain ⟨ok, dead, hl, hs⟩ := ih
    exact derived_releases (it := ctsIter cfg _) (ok := fun s => ok (CtsState.parent s)) (dead := fun s => dead (CtsState.parent s))
      (hl.preservesOk.get hl.init) (ctsIter_preserves hl.preservesOk cfg)
      (ctsIter_preserves hl.preservesDead cfg) (fun _ h => hl.close h) (fun _ h => hl.weaken h) (fun s h => hs _ h)
  | threadPrefetch size _ ih => exact threadPrefetch_releases ih size
  | zip strict _ ih =>
    choose ok dead hl hs using ih
    exact derived_releases (it := zipIter strict _) (ok := fun s => ∀ i, ok i (s i)) (dead := fun s => ∀ i, dead i (s i))
      (fun i => (hl i).init) (zipIter_preserves (fun i => (hl i).preservesOk) strict) (zipIter_preserves (fun i => (hl i).preservesDead) strict)
      (fun _ h i => (hl i).close (h i)) (fun _ h i => (hl i).weaken (h i)) (fun s h b hb => by
        obtain ⟨i, -, hb⟩ := List.mem_flatMap.1 hb
        exact hs i _ (h i) _ hb)
  | mix proportions _ ih =>
    choose ok dead hl hs using ih
    exact derived_releases (it := mixIter proportions _) (ok := fun s => ∀ i, ok i (MixState.parents s i))
      (dead := fun s => ∀ i, dead i (MixState.parents s i))
      (fun i => (hl i).init) (mixIter_preserves (fun i => (hl i).preservesOk) proportions)
      (mixIter_preserves (fun i => (hl i).preservesDead) proportions)
      (fun _ h i => (hl i).close (h i)) (fun _ h i => (hl i).weaken (h i)) (fun s h b hb => by
        obtain ⟨i, -, hb⟩ := List.mem_flatMap.1 hb
        exact hs i _ (h i) _ hb)

theorem raisingPipe_law : ∀ {α : Type} {c : Closable α}, RaisingPipe c → CloseRaises c := by
  intro α c hp
  induction hp with
  | mapDataset size threads allow thr ds =>
    exact ⟨_, _, mapDataset_law size threads allow thr ds, flagged_raises (P := fun _ => True)⟩
  | interleave f n cycle keep => exact interleave_raises f n cycle keep
  | threadPrefetch c size h => exact threadPrefetch_raises c size h
  | noPrefetch _ ih => exact threadPrefetch_zero_raises ih
  | map f _ ih =>
    obtain ⟨ok, dead, hl, hn⟩ := ih
    exact derived_raises (ok := ok) (dead := dead) hl.init (mapIter_preserves hl.preservesOk f) (mapIter_preserves hl.preservesDead f)
      (fun _ h => hl.close h) (fun _ h => hl.weaken h) (mapIter_raises hn f)
  | randomMap f i n _ ih =>
    obtain ⟨ok, dead, hl, hn⟩ := ih
    exact derived_raises (ok := fun s => ok s.1) (dead := fun s => dead s.1) hl.init (randomMapIter_preserves hl.preservesOk f i n)
      (randomMapIter_preserves hl.preservesDead f i n) (fun _ h => hl.close h) (fun _ h => hl.weaken h) (randomMapIter_raises hn f i n)
  | mapWithIndex f _ ih =>
    obtain ⟨ok, dead, hl, hn⟩ := ih
    exact derived_raises (ok := fun s => ok s.1) (dead := fun s => dead s.1) hl.init (mapWithIndexIter_preserves hl.preservesOk f)
      (mapWithIndexIter_preserves hl.preservesDead f) (fun _ h => hl.close h) (fun _ h => hl.weaken h) (mapWithIndexIter_raises hn f)
  | filter pred thr _ ih =>
    obtain ⟨ok, dead, hl, hn⟩ := ih
    exact derived_raises (ok := fun s => ok s.1) (dead := fun s => dead s.1) hl.init (filterIter_preserves hl.preservesOk pred thr)
      (filterIter_preserves hl.preservesDead pred thr) (fun _ h => hl.close h) (fun _ h => hl.weaken h) (filterIter_raises hn pred thr)
  | batch b drop f hb _ ih =>
    obtain ⟨ok, dead, hl, hn⟩ := ih
    exact derived_raises (ok := ok) (dead := dead) hl.init (batchIter_preserves hl.preservesOk b drop f)
      (batchIter_preserves hl.preservesDead b drop f) (fun _ h => hl.close h) (fun _ h => hl.weaken h) (batchIter_raises hn b hb drop f)
  | zip strict h0 _ ih =>
    choose ok dead hl hn using ih
    exact derived_raises (it := zipIter strict _) (ok := fun s => ∀ i, ok i (s i)) (dead := fun s => ∀ i, dead i (s i))
      (fun i => (hl i).init) (zipIter_preserves (fun i => (hl i).preservesOk) strict) (zipIter_preserves (fun i => (hl i).preservesDead) strict)
      (fun _ h i => (hl i).close (h i)) (fun _ h i => (hl i).weaken (h i)) (zipIter_raises h0 hn strict)

/-- C66: after `close`, nothing below the iterator is open, whatever was done before and whatever is tried afterwards. -/
theorem close_releases {α : Type} {c : Closable α} (h : ReleasingPipe c) : c.Releases := (releasingPipe_law h).releases

/-- C66: after `close`, every `next` raises `ValueError`. -/
theorem next_raises_when_closed {α : Type} {c : Closable α} (h : RaisingPipe c) : c.RaisesWhenClosed := (raisingPipe_law h).raises

/-- C66: a second `close` changes nothing. -/
theorem close_idempotent {α : Type} {c : Closable α} (h : ReleasingPipe c) : ∀ s, c.close (c.close s) = c.close s := by
  have derived : ∀ {β : Type} (it : Iter β) (cl : it.S → it.S) (sr : it.S → List Bool) s,
      (Closable.derived it cl sr).close ((Closable.derived it cl sr).close s) = (Closable.derived it cl sr).close s := by
    intro β it cl sr s
    obtain ⟨t, b⟩ := s
    cases b <;> rfl
  induction h with
  | mapDataset size threads allow thr ds =>
    intro s
    obtain ⟨t, b⟩ := s
    cases b <;> rfl
  | threadPrefetch size _ ih => intro s; exact congrArg (fun t => (t, true)) (ih s.1)
  | map f _ _ => exact derived _ _ _
  | randomMap f i n _ _ => exact derived _ _ _
  | mapWithIndex f _ _ => exact derived _ _ _
  | limit n _ _ => exact derived _ _ _
  | filter pred thr _ _ => exact derived _ _ _
  | batch b drop f _ _ => exact derived _ _ _
  | rebatch b drop _ _ => exact derived _ _ _
  | flatMap f _ _ => exact derived _ _ _
  | «repeat» n _ _ => exact derived _ _ _
  | cache _ _ => exact derived _ _ _
  | windowShuffle shuffle w _ _ => exact derived _ _ _
  | pack pk order _ _ => exact derived _ _ _
  | concatThenSplit cfg _ _ => exact derived _ _ _
  | zip strict _ _ => exact derived _ _ _
  | mix proportions _ _ => exact derived _ _ _

/-- C66 for `interleave`, as far as it goes: when no used up iterators are kept and nothing but `next` and `close` is called
after the first `close`, nothing is open.  Missing, because the code violates it: `get_state` or `set_state` after `close`
(`interleave_save_after_close_opens`), and kept iterators (`interleave_kept_iterators_stay_open`). -/
theorem interleave_close_releases_partial {α : Type} (f : CloseFam α) (n cycle : Nat) (hf : ∀ d, ReleasingPipe (f.closable d)) :
    ∀ F before after s saved rs, .close ∉ before → (∀ o ∈ after, o = .next ∨ o = .close) →
      (Closable.interleave f n cycle false).run F (Closable.interleave f n cycle false).it.init [] (before ++ .close :: after) =
        some (s, saved, rs) →
      ∀ closed ∈ (Closable.interleave f n cycle false).sources s, closed = true := by
  intro F before after s saved rs hb ha hr
  choose ok dead hl hs using fun d => releasingPipe_law (hf d)
  obtain ⟨hp, hc⟩ := interleave_close_closed hl hs n cycle
  obtain ⟨t, sv, r1, r2, h1, h2, -, -⟩ := run_append F _ _ _ _ hr
  have hP := run_preserves_unclosed (hp.and ((Preserves.true _).flagged true (· = false))) F _ hb _ _
    ⟨⟨⟨⟨fun i d st hi => (by cases hi), fun i k d st hi => (by cases hi)⟩, rfl⟩, trivial⟩, trivial, rfl⟩ h1
  have hrun : ∀ ops, (∀ o ∈ ops, o = CloseOp.next ∨ o = .close) → ∀ (q : (Closable.interleave f n cycle false).it.S) sv {s' saved' rs},
      q.2 = true → (Closable.interleave f n cycle false).run F q sv ops = some (s', saved', rs) → s' = q := by
    intro ops
    induction ops with
    | nil => intro _ q sv s' saved' rs _ hr; cases hr; rfl
    | cons o ops ih =>
      intro ho q sv s' saved' rs hq' hr
      have ih := ih (fun o h => ho o (List.mem_cons_of_mem _ h))
      obtain ⟨q, b⟩ := q
      cases hq'
      cases ho o (List.mem_cons_self ..) with
      | inl h =>
        subst h
        simp only [Closable.run] at hr
        change ((Closable.interleave f n cycle false).run F (q, true) sv ops).bind _ = _ at hr
        cases hq : (Closable.interleave f n cycle false).run F (q, true) sv ops with
        | none => rw [hq] at hr; cases hr
        | some w =>
          obtain ⟨w1, w2, w3⟩ := w
          rw [hq] at hr
          cases hr
          exact ih _ sv rfl hq
      | inr h =>
        subst h
        exact ih _ sv rfl hr
  unfold Closable.run at h2
  obtain ⟨q, b⟩ := t
  cases hP.2.2
  have h3 := hrun after ha _ _ rfl h2
  have hcl := hc q hP.1.1
  subst h3
  intro b hb
  obtain ⟨i, -, hb⟩ := List.mem_flatMap.1 hb
  rw [List.mem_append] at hb
  cases hb with
  | inl hb =>
    obtain ⟨⟨d, st⟩, ho, hb⟩ := List.mem_flatMap.1 hb
    exact hcl.1 i d st (Option.mem_toList.1 ho) b hb
  | inr hb =>
    obtain ⟨k, ho, -⟩ := List.mem_flatMap.1 hb
    have h4 := hcl.2 i
    have h5 : ILState.kept _ i = some k := Option.mem_toList.1 ho
    cases h4.symm.trans h5

end Grain
