import Verif.Close.Spec
import Verif.Close.Lemmas
/-
Invariants of closed iterators, for `Verif/Close/Props.lean`.
-/
namespace Grain

/-- `ok` holds of every state of the iterator, `dead` of every state after `close`. -/
structure CloseLaw (c : Closable α) (ok dead : c.it.S → Prop) : Prop where
  init : ok c.it.init
  preservesOk : Preserves c.it ok
  preservesDead : Preserves c.it dead
  close : ∀ {s}, ok s → dead (c.close s)
  weaken : ∀ {s}, dead s → ok s

/-- The outcomes of `next` on a closed iterator. -/
def NextRaises (it : Iter α) (dead : it.S → Prop) : Prop :=
  (∀ {F s s' r}, it.next F s = some (s', r) → dead s → r = .fail .valueError) ∧
  ∀ F {s}, dead s → ∃ s', it.next (F + 1) s = some (s', .fail .valueError)

def CloseReleases (c : Closable α) : Prop :=
  ∃ ok dead, CloseLaw c ok dead ∧ ∀ s, dead s → ∀ b ∈ c.sources s, b = true

def CloseRaises (c : Closable α) : Prop :=
  ∃ ok dead, CloseLaw c ok dead ∧ NextRaises c.it dead

theorem run_preserves {c : Closable α} {P : c.it.S → Prop} (h : Preserves c.it P) (hc : ∀ s, P s → P (c.close s)) (F : Nat) :
    ∀ ops s saved {s' saved' rs}, P s → c.run F s saved ops = some (s', saved', rs) → P s' := by
  intro ops
  induction ops with
  | nil => intro s saved s' saved' rs hs hr; cases hr; exact hs
  | cons o ops ih =>
    intro s saved s' saved' rs hs hr
    cases o with
    | next =>
      unfold Closable.run at hr
      cases hq : c.it.next F s with
      | none => rw [hq] at hr; cases hr
      | some q =>
        obtain ⟨t, r⟩ := q
        rw [hq] at hr
        simp only [Option.bind_eq_bind, Option.bind_some] at hr
        cases hq' : c.run F t saved ops with
        | none => rw [hq'] at hr; cases hr
        | some q' =>
          obtain ⟨t', saved'', rs'⟩ := q'
          rw [hq'] at hr
          cases hr
          exact ih _ _ (h.next hq hs) hq'
    | save =>
      unfold Closable.run at hr
      exact ih _ _ (h.get hs) hr
    | restore k =>
      unfold Closable.run at hr
      split at hr
      · exact ih _ _ hs hr
      · rename_i ck _
        cases hq : c.it.set F s ck with
        | none => rw [hq] at hr; cases hr
        | some q =>
          obtain ⟨t, e⟩ := q
          rw [hq] at hr
          exact ih _ _ (h.set hq hs) hr
    | close =>
      unfold Closable.run at hr
      exact ih _ _ (hc _ hs) hr

theorem run_preserves_unclosed {c : Closable α} {P : c.it.S → Prop} (h : Preserves c.it P) (F : Nat) :
    ∀ ops, CloseOp.close ∉ ops → ∀ s saved {s' saved' rs}, P s → c.run F s saved ops = some (s', saved', rs) → P s' := by
  intro ops
  induction ops with
  | nil => intro _ s saved s' saved' rs hs hr; cases hr; exact hs
  | cons o ops ih =>
    intro ho s saved s' saved' rs hs hr
    have ih := ih (fun h => ho (List.mem_cons_of_mem _ h))
    cases o with
    | next =>
      unfold Closable.run at hr
      cases hq : c.it.next F s with
      | none => rw [hq] at hr; cases hr
      | some q =>
        obtain ⟨t, r⟩ := q
        rw [hq] at hr
        simp only [Option.bind_eq_bind, Option.bind_some] at hr
        cases hq' : c.run F t saved ops with
        | none => rw [hq'] at hr; cases hr
        | some q' =>
          obtain ⟨t', saved'', rs'⟩ := q'
          rw [hq'] at hr
          cases hr
          exact ih _ _ (h.next hq hs) hq'
    | save =>
      unfold Closable.run at hr
      exact ih _ _ (h.get hs) hr
    | restore k =>
      unfold Closable.run at hr
      split at hr
      · exact ih _ _ hs hr
      · rename_i ck _
        cases hq : c.it.set F s ck with
        | none => rw [hq] at hr; cases hr
        | some q =>
          obtain ⟨t, e⟩ := q
          rw [hq] at hr
          exact ih _ _ (h.set hq hs) hr
    | close => exact absurd (List.mem_cons_self ..) ho

theorem run_append {c : Closable α} (F : Nat) :
    ∀ ops ops' s saved {s' saved' rs}, c.run F s saved (ops ++ ops') = some (s', saved', rs) →
      ∃ t sv r1 r2, c.run F s saved ops = some (t, sv, r1) ∧ c.run F t sv ops' = some (s', saved', r2) ∧ rs = r1 ++ r2 ∧
        r1.length = ops.count .next := by
  intro ops ops'
  induction ops with
  | nil => intro s saved s' saved' rs hr; exact ⟨s, saved, [], rs, rfl, hr, rfl, rfl⟩
  | cons o ops ih =>
    intro s saved s' saved' rs hr
    cases o with
    | next =>
      rw [List.cons_append] at hr
      unfold Closable.run at hr
      cases hq : c.it.next F s with
      | none => rw [hq] at hr; cases hr
      | some q =>
        obtain ⟨t, r⟩ := q
        rw [hq] at hr
        simp only [Option.bind_eq_bind, Option.bind_some] at hr
        cases hq' : c.run F t saved (ops ++ ops') with
        | none => rw [hq'] at hr; cases hr
        | some q' =>
          obtain ⟨t', sv, rs'⟩ := q'
          rw [hq'] at hr
          cases hr
          obtain ⟨t1, sv1, r1, r2, h1, h2, h3, h4⟩ := ih _ _ hq'
          refine ⟨t1, sv1, r :: r1, r2, by unfold Closable.run; rw [hq]; simp only [Option.bind_eq_bind, Option.bind_some]; rw [h1]; rfl, h2, by rw [h3]; rfl, ?_⟩
          rw [List.count_cons_self, List.length_cons, h4]
    | save =>
      rw [List.cons_append] at hr
      unfold Closable.run at hr
      obtain ⟨t1, sv1, r1, r2, h1, h2, h3, h4⟩ := ih _ _ hr
      exact ⟨t1, sv1, r1, r2, by unfold Closable.run; exact h1, h2, h3, by rw [h4, List.count_cons_of_ne (by decide)]⟩
    | restore k =>
      rw [List.cons_append] at hr
      unfold Closable.run at hr
      cases hk : saved[k]? with
      | none =>
        rw [hk] at hr
        obtain ⟨t1, sv1, r1, r2, h1, h2, h3, h4⟩ := ih _ _ hr
        exact ⟨t1, sv1, r1, r2, by unfold Closable.run; rw [hk]; exact h1, h2, h3, by rw [h4, List.count_cons_of_ne (by intro h; cases h)]⟩
      | some ck =>
        rw [hk] at hr
        simp only at hr
        cases hq : c.it.set F s ck with
        | none => rw [hq] at hr; cases hr
        | some q =>
          obtain ⟨t, e⟩ := q
          rw [hq] at hr
          obtain ⟨t1, sv1, r1, r2, h1, h2, h3, h4⟩ := ih _ _ hr
          exact ⟨t1, sv1, r1, r2, by unfold Closable.run; rw [hk]; simp only; rw [hq]; exact h1, h2, h3, by rw [h4, List.count_cons_of_ne (by intro h; cases h)]⟩
    | close =>
      rw [List.cons_append] at hr
      unfold Closable.run at hr
      obtain ⟨t1, sv1, r1, r2, h1, h2, h3, h4⟩ := ih _ _ hr
      exact ⟨t1, sv1, r1, r2, by unfold Closable.run; exact h1, h2, h3, by rw [h4, List.count_cons_of_ne (by decide)]⟩

/-- After `close` the iterator is dead, whatever came before and after. -/
theorem CloseLaw.dead {c : Closable α} {ok dead : c.it.S → Prop} (h : CloseLaw c ok dead) {F before after s saved rs}
    (hr : c.run F c.it.init [] (before ++ .close :: after) = some (s, saved, rs)) : dead s := by
  obtain ⟨t, sv, r1, r2, h1, h2, -, -⟩ := run_append F _ _ _ _ hr
  have hok := run_preserves h.preservesOk (fun s hs => h.weaken (h.close hs)) F _ _ _ h.init h1
  unfold Closable.run at h2
  exact run_preserves h.preservesDead (fun s hs => h.close (h.weaken hs)) F _ _ _ (h.close hok) h2

theorem CloseReleases.releases {c : Closable α} (h : CloseReleases c) : c.Releases := by
  obtain ⟨ok, dead, hl, hc⟩ := h
  intro F before after s saved rs hr
  exact hc _ (hl.dead hr)

theorem run_raises {c : Closable α} {ok dead : c.it.S → Prop} (h : CloseLaw c ok dead) (hn : NextRaises c.it dead) (F : Nat) :
    ∀ ops s saved {s' saved' rs}, dead s → c.run F s saved ops = some (s', saved', rs) →
      rs = List.replicate (ops.count .next) (.fail .valueError) := by
  intro ops
  induction ops with
  | nil => intro s saved s' saved' rs hs hr; cases hr; rfl
  | cons o ops ih =>
    intro s saved s' saved' rs hs hr
    cases o with
    | next =>
      unfold Closable.run at hr
      cases hq : c.it.next F s with
      | none => rw [hq] at hr; cases hr
      | some q =>
        obtain ⟨t, r⟩ := q
        rw [hq] at hr
        simp only [Option.bind_eq_bind, Option.bind_some] at hr
        cases hq' : c.run F t saved ops with
        | none => rw [hq'] at hr; cases hr
        | some q' =>
          obtain ⟨t', saved'', rs'⟩ := q'
          rw [hq'] at hr
          cases hr
          rw [ih _ _ (h.preservesDead.next hq hs) hq', hn.1 hq hs, List.count_cons_self]
          rfl
    | save =>
      unfold Closable.run at hr
      rw [ih _ _ (h.preservesDead.get hs) hr, List.count_cons_of_ne (by decide)]
    | restore k =>
      unfold Closable.run at hr
      rw [List.count_cons_of_ne (by intro h; cases h)]
      split at hr
      · exact ih _ _ hs hr
      · rename_i ck _
        cases hq : c.it.set F s ck with
        | none => rw [hq] at hr; cases hr
        | some q =>
          obtain ⟨t, e⟩ := q
          rw [hq] at hr
          exact ih _ _ (h.preservesDead.set hq hs) hr
    | close =>
      unfold Closable.run at hr
      rw [ih _ _ (h.close (h.weaken hs)) hr, List.count_cons_of_ne (by decide)]

theorem CloseRaises.raises {c : Closable α} (h : CloseRaises c) : c.RaisesWhenClosed := by
  obtain ⟨ok, dead, hl, hn⟩ := h
  constructor
  · intro F before after s saved rs hr
    obtain ⟨t, sv, r1, r2, h1, h2, h3, h4⟩ := run_append F _ _ _ _ hr
    have hok := run_preserves hl.preservesOk (fun s hs => hl.weaken (hl.close hs)) F _ _ _ hl.init h1
    unfold Closable.run at h2
    rw [h3, ← h4, List.drop_left]
    exact run_raises hl hn F _ _ _ (hl.close hok) h2
  · intro F before after s saved rs hr
    exact hn.2 F (hl.dead hr)

/-! ### The laws -/

theorem Preserves.or {it : Iter α} {P Q : it.S → Prop} (h : Preserves it P) (h' : Preserves it Q) : Preserves it (fun s => P s ∨ Q s) where
  next := fun hn hs => hs.imp (h.next hn) (h'.next hn)
  get := fun hs => hs.imp h.get h'.get
  set := fun hn hs => hs.imp (h.set hn) (h'.set hn)

theorem Preserves.true (it : Iter α) : Preserves it (fun _ => True) := ⟨fun _ _ => trivial, fun _ => trivial, fun _ _ => trivial⟩

theorem derived_law {it : Iter α} {closeParents : it.S → it.S} {sources : it.S → List Bool} {ok dead : it.S → Prop}
    (hi : ok it.init) (ho : Preserves it ok) (hd : Preserves it dead) (hc : ∀ s, ok s → dead (closeParents s)) (hw : ∀ s, dead s → ok s) :
    CloseLaw (.derived it closeParents sources) (fun s => (ok s.1 ∧ s.2 = false) ∨ (dead s.1 ∧ s.2 = true))
      (fun s => dead s.1 ∧ s.2 = true) where
  init := .inl ⟨hi, rfl⟩
  preservesOk := (ho.flagged false (· = false)).or (hd.flagged false (· = true))
  preservesDead := hd.flagged false (· = true)
  close := by
    intro s hs
    obtain ⟨t, b⟩ := s
    cases b with
    | false =>
      refine ⟨hc _ ?_, rfl⟩
      cases hs with
      | inl h => exact h.1
      | inr h => cases h.2
    | true =>
      cases hs with
      | inl h => cases h.2
      | inr h => exact h
  weaken := .inr

theorem derived_releases {it : Iter α} {closeParents : it.S → it.S} {sources : it.S → List Bool} {ok dead : it.S → Prop}
    (hi : ok it.init) (ho : Preserves it ok) (hd : Preserves it dead) (hc : ∀ s, ok s → dead (closeParents s)) (hw : ∀ s, dead s → ok s)
    (hs : ∀ s, dead s → ∀ b ∈ sources s, b = true) : CloseReleases (.derived it closeParents sources) :=
  ⟨_, _, derived_law hi ho hd hc hw, fun s h => hs _ h.1⟩

theorem derived_raises {it : Iter α} {closeParents : it.S → it.S} {sources : it.S → List Bool} {ok dead : it.S → Prop}
    (hi : ok it.init) (ho : Preserves it ok) (hd : Preserves it dead) (hc : ∀ s, ok s → dead (closeParents s)) (hw : ∀ s, dead s → ok s)
    (hn : NextRaises it dead) : CloseRaises (.derived it closeParents sources) := by
  refine ⟨_, _, derived_law hi ho hd hc hw, ?_, ?_⟩
  · intro F s s' r hr hs
    simp only [Closable.derived, Iter.flagged, Bool.false_and, Bool.false_eq_true, if_false] at hr
    cases hq : it.next F s.1 with
    | none => rw [hq] at hr; cases hr
    | some q =>
      rw [hq] at hr
      cases hr
      exact hn.1 hq hs.1
  · intro F s hs
    obtain ⟨t, ht⟩ := hn.2 F hs.1
    refine ⟨(t, s.2), ?_⟩
    simp only [Closable.derived, Iter.flagged, Bool.false_and, Bool.false_eq_true, if_false]
    rw [ht]
    rfl

theorem mapDataset_law (size threads : Nat) (allow : Bool) (thr : Option Threshold) (ds : MapDs α) :
    CloseLaw (.mapDataset size threads allow thr ds) (fun _ => True) (fun s => True ∧ s.2 = true) where
  init := trivial
  preservesOk := Preserves.true _
  preservesDead := (Preserves.true _).flagged true (· = true)
  close := by
    intro s _
    obtain ⟨t, b⟩ := s
    cases b <;> exact ⟨trivial, rfl⟩
  weaken := fun _ => trivial

theorem flagged_raises {it : Iter α} {P : it.S → Prop} : NextRaises (it.flagged true) (fun s => P s.1 ∧ s.2 = true) := by
  refine ⟨?_, ?_⟩
  · intro F s s' r hr hs
    simp only [Iter.flagged] at hr
    rw [hs.2] at hr
    cases hr
    rfl
  · intro F s hs
    refine ⟨s, ?_⟩
    simp only [Iter.flagged]
    rw [hs.2]
    rfl

theorem threadPrefetch_law {c : Closable α} {ok dead : c.it.S → Prop} (h : CloseLaw c ok dead) (size : Nat) :
    CloseLaw (.threadPrefetch size c) (fun s => ok s.1 ∧ True) (fun s => dead s.1 ∧ s.2 = true) where
  init := ⟨h.init, trivial⟩
  preservesOk := h.preservesOk.flagged _ (fun _ => True)
  preservesDead := h.preservesDead.flagged _ (· = true)
  close := fun hs => ⟨h.close hs.1, rfl⟩
  weaken := fun hs => ⟨h.weaken hs.1, trivial⟩

theorem threadPrefetch_releases {c : Closable α} (h : CloseReleases c) (size : Nat) : CloseReleases (.threadPrefetch size c) := by
  obtain ⟨ok, dead, hl, hs⟩ := h
  exact ⟨_, _, threadPrefetch_law hl size, fun s h => hs _ h.1⟩

theorem threadPrefetch_raises (c : Closable α) (size : Nat) (hs : 0 < size) : CloseRaises (.threadPrefetch size c) := by
  refine ⟨fun _ => True, fun s => True ∧ s.2 = true, ⟨trivial, Preserves.true _, (Preserves.true _).flagged _ (· = true), ?_, fun _ => trivial⟩, ?_⟩
  · intro s _; exact ⟨trivial, rfl⟩
  · simp only [Closable.threadPrefetch]
    rw [show decide (0 < size) = true by simp [hs]]
    exact flagged_raises (P := fun _ => True)

theorem threadPrefetch_zero_raises {c : Closable α} (h : CloseRaises c) : CloseRaises (.threadPrefetch 0 c) := by
  obtain ⟨ok, dead, hl, hn⟩ := h
  refine ⟨_, _, threadPrefetch_law hl 0, ?_, ?_⟩
  · intro F s s' r hr hs
    simp only [Closable.threadPrefetch, Iter.flagged] at hr
    cases hq : c.it.next F s.1 with
    | none => simp [hq] at hr
    | some q =>
      simp only [Nat.lt_irrefl, decide_false, Bool.false_and, Bool.false_eq_true, if_false] at hr
      rw [hq] at hr
      cases hr
      exact hn.1 hq hs.1
  · intro F s hs
    obtain ⟨t, ht⟩ := hn.2 F hs.1
    refine ⟨(t, s.2), ?_⟩
    simp only [Closable.threadPrefetch, Iter.flagged, Nat.lt_irrefl, decide_false, Bool.false_and, Bool.false_eq_true, if_false]
    rw [ht]
    rfl

theorem interleave_raises (f : CloseFam α) (n cycle : Nat) (keep : Bool) : CloseRaises (.interleave f n cycle keep) := by
  refine ⟨fun _ => True, fun s => True ∧ s.2 = true, ⟨trivial, Preserves.true _, (Preserves.true _).flagged _ (· = true), ?_, fun _ => trivial⟩, flagged_raises (P := fun _ => True)⟩
  intro s _
  obtain ⟨t, b⟩ := s
  cases b <;> exact ⟨trivial, rfl⟩

/-! ### `next` of a transformation of a closed parent -/

theorem mapIter_raises {p : Iter (Option α)} {dead : p.S → Prop} (h : NextRaises p dead) (f : α → Py (Option β)) :
    NextRaises (mapIter f p) dead := by
  refine ⟨?_, ?_⟩
  · intro F s s' r hr hs
    simp only [mapIter] at hr
    cases hq : p.next F s with
    | none => rw [hq] at hr; cases hr
    | some q =>
      obtain ⟨t, r'⟩ := q
      rw [hq] at hr
      cases h.1 hq hs
      cases hr; rfl
  · intro F s hs
    obtain ⟨t, ht⟩ := h.2 F hs
    exact ⟨t, by simp only [mapIter]; rw [ht]; rfl⟩

theorem randomMapIter_raises {p : Iter (Option α)} {dead : p.S → Prop} (h : NextRaises p dead) (f : α → Nat → Py (Option β)) (i n : Nat) :
    NextRaises (randomMapIter f i n p) (fun s => dead s.1) := by
  refine ⟨?_, ?_⟩
  · intro F s s' r hr hs
    simp only [randomMapIter] at hr
    cases hq : p.next F s.1 with
    | none => rw [hq] at hr; cases hr
    | some q =>
      obtain ⟨t, r'⟩ := q
      rw [hq] at hr
      cases h.1 hq hs
      cases hr; rfl
  · intro F s hs
    obtain ⟨t, ht⟩ := h.2 F hs
    exact ⟨(t, s.2), by simp only [randomMapIter]; rw [ht]; rfl⟩

theorem mapWithIndexIter_raises {p : Iter (Option α)} {dead : p.S → Prop} (h : NextRaises p dead) (f : Nat → α → Py (Option β)) :
    NextRaises (mapWithIndexIter f p) (fun s => dead s.1) := by
  refine ⟨?_, ?_⟩
  · intro F s s' r hr hs
    simp only [mapWithIndexIter] at hr
    cases hq : p.next F s.1 with
    | none => rw [hq] at hr; cases hr
    | some q =>
      obtain ⟨t, r'⟩ := q
      rw [hq] at hr
      cases h.1 hq hs
      cases hr; rfl
  · intro F s hs
    obtain ⟨t, ht⟩ := h.2 F hs
    exact ⟨(t, s.2), by simp only [mapWithIndexIter]; rw [ht]; rfl⟩

theorem filterIter_raises {p : Iter α} {dead : p.S → Prop} (h : NextRaises p dead) (pred : α → Py Bool) (thr : Option Threshold) :
    NextRaises (filterIter pred thr p) (fun s => dead s.1) := by
  refine ⟨?_, ?_⟩
  · intro F s s' r hr hs
    obtain ⟨ps, ck⟩ := s
    cases F with
    | zero => cases hr
    | succ F =>
      obtain ⟨t, ht⟩ := h.2 F hs
      simp only [filterIter, filterLoop] at hr
      rw [ht] at hr
      cases hr; rfl
  · intro F s hs
    obtain ⟨t, ht⟩ := h.2 F hs
    refine ⟨(t, s.2), ?_⟩
    simp only [filterIter, filterLoop]
    rw [ht]
    rfl

theorem batchIter_raises {p : Iter α} {dead : p.S → Prop} (h : NextRaises p dead) (b : Nat) (hb : 0 < b) (drop : Bool) (f : List α → Py β) :
    NextRaises (batchIter b drop f p) dead := by
  obtain ⟨b, rfl⟩ : ∃ k, b = k + 1 := ⟨b - 1, by omega⟩
  refine ⟨?_, ?_⟩
  · intro F s s' r hr hs
    simp only [batchIter, batchLoop] at hr
    cases hq : p.next F s with
    | none => rw [hq] at hr; cases hr
    | some q =>
      obtain ⟨t, r'⟩ := q
      rw [hq] at hr
      cases h.1 hq hs
      cases hr; rfl
  · intro F s hs
    obtain ⟨t, ht⟩ := h.2 F hs
    exact ⟨t, by simp only [batchIter, batchLoop]; rw [ht]; rfl⟩

theorem zipIter_raises {n : Nat} {ps : Fin n → Iter α} {dead : ∀ i, (ps i).S → Prop} (hn : 0 < n) (h : ∀ i, NextRaises (ps i) (dead i))
    (strict : Bool) : NextRaises (zipIter strict ps) (fun (s : ∀ i, (ps i).S) => ∀ i, dead i (s i)) := by
  obtain ⟨n, rfl⟩ : ∃ k, n = k + 1 := ⟨n - 1, by omega⟩
  refine ⟨?_, ?_⟩
  · intro F s s' r hr hs
    simp only [zipIter, List.finRange_succ, nextAll] at hr
    cases hq : (ps 0).next F (s 0) with
    | none => rw [hq] at hr; cases hr
    | some q =>
      obtain ⟨t, r'⟩ := q
      rw [hq] at hr
      cases (h 0).1 hq (hs 0)
      cases hr; rfl
  · intro F s hs
    obtain ⟨t, ht⟩ := (h 0).2 F (hs 0)
    refine ⟨Function.update s 0 t, ?_⟩
    simp only [zipIter, List.finRange_succ, nextAll]
    rw [ht]
    rfl

end Grain
