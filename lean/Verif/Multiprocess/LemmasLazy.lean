import Verif.Multiprocess.ModelLazy
import Verif.Multiprocess.LemmasSlice
/-
Lemmas for C107.
-/
namespace Grain

section start
variable {f : IterFam α} {n : Nat}

/-- `get_state` of a new interleave iterator asks a new iterator of each of the first datasets. -/
theorem ilGetLoop_init : ∀ (k i : Nat) (s : ILState f.S f.C) (states : Nat → Option f.C), i + k ≤ n →
    s.started = false → s.nextDs = i → (∀ j, i ≤ j → s.slots j = none) → (∀ j, s.exState j = none) → (∀ j, s.indices j = j) →
    s.cyc = 0 → (∀ j, s.future j = none) →
    let r := ilGetLoop f n (List.range' i k) s states
    r.1.started = false ∧ r.1.nextDs = i + k ∧ (∀ j, r.1.exState j = none) ∧ (∀ j, r.1.indices j = j) ∧ r.1.cyc = 0 ∧
    (∀ j, r.1.future j = none) ∧
    (∀ j, r.2 j = if i ≤ j ∧ j < i + k then some (f.get j (f.init j)).2 else states j)
  | 0, i, s, states, hk, h1, h2, h3, h4, h5, h6, h7 => by
    refine ⟨h1, h2, h4, h5, h6, h7, ?_⟩
    intro j
    rw [if_neg (by omega)]
    rfl
  | k + 1, i, s, states, hk, h1, h2, h3, h4, h5, h6, h7 => by
    intro r
    have hr : r = ilGetLoop f n (i :: List.range' (i + 1) k) s states := rfl
    rw [ilGetLoop] at hr
    simp only [h3 i (Nat.le_refl _), h4 i, h1, if_neg (show ¬ s.nextDs ≥ n by omega)] at hr
    have ih := ilGetLoop_init k (i + 1)
      { s with pf := s.pf
               slots := Function.update s.slots i (some (s.nextDs, (f.get s.nextDs (f.init s.nextDs)).1))
               indices := Function.update s.indices i s.nextDs
               nextDs := s.nextDs + 1 }
      (Function.update states i (some (f.get s.nextDs (f.init s.nextDs)).2)) (by omega) h1 (by simp [h2])
      (by intro j hj; dsimp only; rw [Function.update_of_ne (by omega)]; exact h3 j (by omega)) h4
      (by
        intro j
        dsimp only
        by_cases hj : j = i
        · subst hj; rw [Function.update_self]; exact h2
        · rw [Function.update_of_ne hj]; exact h5 j) h6 h7
    dsimp only at ih
    simp only [Bool.false_eq_true, if_false] at hr
    rw [h1] at ih
    rw [← hr] at ih
    obtain ⟨g1, g2, g3, g4, g5, g6, g7⟩ := ih
    refine ⟨g1, by omega, g3, g4, g5, g6, ?_⟩
    intro j
    rw [g7 j]
    by_cases hj : j = i
    · subst hj
      rw [if_neg (by omega), if_pos (by omega), Function.update_self, h2]
    · rw [Function.update_of_ne hj]
      by_cases hjj : i + 1 ≤ j ∧ j < i + 1 + k
      · rw [if_pos hjj, if_pos (by omega)]
      · rw [if_neg hjj, if_neg (by omega)]

/-- The state of a new interleave iterator. -/
theorem ilGet_init {L : Nat} (hL : L ≤ n) :
    let c := (ilGet f n L (ilInit f.S f.C)).2
    c.cyc = 0 ∧ c.nextDs = L ∧ (∀ i, c.indices i = i) ∧ (∀ i, i < L → c.states i = some (f.get i (f.init i)).2) ∧
    (∀ i, c.exhausted i = false) ∧ (∀ i, c.future i = none) := by
  intro c
  obtain ⟨g1, g2, g3, g4, g5, g6, g7⟩ := ilGetLoop_init (f := f) (n := n) L 0 (ilInit f.S f.C) (fun _ => none) (by omega) rfl rfl
    (fun _ _ => rfl) (fun _ => rfl) (fun _ => rfl) rfl (fun _ => rfl)
  have hc : c = (ilGet f n L (ilInit f.S f.C)).2 := rfl
  unfold ilGet at hc
  rw [List.range_eq_range'] at hc
  generalize ilGetLoop f n (List.range' 0 L) (ilInit f.S f.C) (fun _ => none) = r at *
  obtain ⟨s, st⟩ := r
  dsimp only at g1 g2 g3 g4 g5 g6 g7
  simp only [g1, Bool.false_eq_true, if_false] at hc
  rw [hc]
  refine ⟨g5, by simpa using g2, g4, ?_, ?_, g6⟩
  · intro i hi
    show st i = _
    rw [g7 i, if_pos (by omega)]
  · intro i
    show (s.exState i).isSome = false
    rw [g3 i]
    rfl

/-- A restore whose inner restores cannot fail: the slots of the list get their iterators, the others stay. -/
theorem ilSetLoop_total {keep : Bool} {F : Nat} {c : ILCk f.C} {put : f.S → f.C → f.S}
    (hset : ∀ d s c, f.set d F s c = some (put s c, none)) (hidx : ∀ i, c.indices i = i) (hex : ∀ i, c.exhausted i = false) :
    ∀ (is : List Nat) (s : ILState f.S f.C), is.Nodup → (∀ i ∈ is, i < n ∧ s.slots i = none ∧ (c.states i).isSome) →
      (∀ i, s.kept i = none) →
      ∃ s', ilSetLoop f n keep F c is s = some (s', none) ∧
        (∀ i ∈ is, ∃ ck, c.states i = some ck ∧ s'.slots i = some (i, put (f.init i) ck)) ∧ (∀ i, i ∉ is → s'.slots i = s.slots i)
  | [], s, _, _, _ => ⟨s, rfl, by simp, fun _ _ => rfl⟩
  | i :: is, s, hnd, hs, hk => by
    obtain ⟨hin, hsl, hst⟩ := hs i (by simp)
    obtain ⟨ck, hck⟩ := Option.isSome_iff_exists.1 hst
    rw [List.nodup_cons] at hnd
    have hp : ilPick f n keep s i (c.indices i) = (s.kept, some (i, f.init i)) := by
      unfold ilPick
      simp only [hidx i, hsl, ite_self, hk i, if_pos hin]
    obtain ⟨s', g1, g2, g3⟩ := ilSetLoop_total hset hidx hex is
      { s with kept := s.kept, slots := Function.update s.slots i (some (i, put (f.init i) ck)) } hnd.2
      (by
        intro j hj
        obtain ⟨a, b, d⟩ := hs j (by simp [hj])
        refine ⟨a, ?_, d⟩
        dsimp only
        rw [Function.update_of_ne (by rintro rfl; exact hnd.1 hj)]
        exact b) hk
    refine ⟨s', ?_, ?_, ?_⟩
    · rw [ilSetLoop]
      simp only [hck, hex i, Bool.false_eq_true, if_false, hp, hset]
      exact g1
    · intro j hj
      rcases List.mem_cons.1 hj with rfl | hj
      · refine ⟨ck, hck, ?_⟩
        rw [g3 j hnd.1]
        dsimp only
        rw [Function.update_self]
      · exact g2 j hj
    · intro j hj
      rw [List.mem_cons, not_or] at hj
      rw [g3 j hj.2]
      dsimp only
      rw [Function.update_of_ne hj.1]

end start

/-- The datasets of worker `w`. -/
theorem sliceCount_iff {n k : Nat} (hk : 0 < k) (w d : Nat) : d < sliceCount n k w ↔ d * k + w < n := by
  unfold sliceCount
  rw [listStride_eq]
  have h1 := everyNth_getElem? hk w (List.range n) d
  constructor
  · intro h
    rw [List.getElem?_eq_getElem h] at h1
    have := (List.getElem?_eq_some_iff.1 h1.symm).1
    rwa [List.length_range] at this
  · intro h
    apply Nat.lt_of_not_le
    intro hle
    rw [List.getElem?_eq_none hle] at h1
    have := List.getElem?_eq_none_iff.1 h1.symm
    rw [List.length_range] at this
    omega

theorem everyNth_range {n k : Nat} (hk : 0 < k) {w : Nat} :
    everyNth k w (List.range n) = (List.range (sliceCount n k w)).map (fun i => i * k + w) := by
  apply List.ext_getElem?
  intro i
  rw [everyNth_getElem? hk, List.getElem?_map]
  by_cases hi : i < sliceCount n k w
  · rw [List.getElem?_range ((sliceCount_iff hk w i).1 hi), List.getElem?_range hi]
    rfl
  · have := mt (sliceCount_iff hk w i).2 hi
    rw [List.getElem?_eq_none (by rw [List.length_range]; omega), List.getElem?_eq_none (by rw [List.length_range]; omega)]
    rfl

/-- A process prefetch over an iterator that can be restored, with a start state that stands for the beginning. -/
theorem processStart_fresh {wk : Iter α} {vs : List α} {At : wk.S → Nat → Prop} {Ck : wk.C → Nat → Prop} (keep : Bool)
    (h : SimWhen (fun _ => false) wk (vs.map Except.ok) true At Ck) {start : wk.C} (hst : Ck start 0) :
    ResumesFresh (processStartIter keep wk start) (vs.map Except.ok) true := by
  refine ⟨fun s p => p ≤ (vs.map (Except.ok (ε := Err))).length ∧ ((s.state = none ∧ p = 0) ∨ ∃ c, s.state = some c ∧ Ck c p) ∧
    ((s.over = true ∧ p = (vs.map (Except.ok (ε := Err))).length) ∨
     (s.over = false ∧ s.req = none ∧ At s.wk p) ∨
     (s.over = false ∧ ∃ c, s.req = some c ∧ Ck c p ∧ s.wk = wk.init)), Ck, ?_⟩
  -- the worker, after a pending restore, is where the reader is
  have hready : ∀ {s : PStart wk.S wk.C} {p : Nat}, ((s.over = false ∧ s.req = none ∧ At s.wk p) ∨
      (s.over = false ∧ ∃ c, s.req = some c ∧ Ck c p ∧ s.wk = wk.init)) →
      s.over = false ∧ ∃ w, At w p ∧ Ev (fun F => workerServe wk F s = some (w, none)) := by
    rintro s p (⟨h1, h2, h3⟩ | ⟨h1, c, h2, h3, h4⟩)
    · exact ⟨h1, s.wk, h3, Ev.of_forall (fun F => by simp only [workerServe, h2])⟩
    · obtain ⟨w, e, hw⟩ := h.set_init h3 (Or.inr rfl)
      refine ⟨h1, w, hw, e.mono (fun F hF => ?_)⟩
      simp only [workerServe, h2, h4]
      exact hF
  refine { init := ?_, bound := ?_, next_item := ?_, next_stop := ?_, get := ?_, set := ?_, set_init := ?_ }
  · exact ⟨Nat.zero_le _, Or.inl ⟨rfl, rfl⟩, Or.inr (Or.inl ⟨rfl, rfl, h.init⟩)⟩
  · rintro s p ⟨hp, _⟩
    exact hp
  · rintro s p r ⟨hp, hs, ho⟩ hr
    have hlt : p < (vs.map (Except.ok (ε := Err))).length := (List.getElem?_eq_some_iff.1 hr).1
    obtain ⟨ho, w, hw, e⟩ := hready (ho.resolve_left (by omega))
    obtain ⟨w', e', hw'⟩ := h.next_item hw hr
    obtain ⟨a, rfl⟩ : ∃ a, r = Except.ok a := by
      rw [List.getElem?_map] at hr
      cases hv : vs[p]? with
      | none => rw [hv] at hr; cases hr
      | some a => rw [hv] at hr; exact ⟨a, (Option.some.inj hr).symm⟩
    obtain ⟨g1, g2⟩ := h.get hw'
    refine ⟨{ wk := (wk.get w').1, state := some (wk.get w').2, req := none, over := false }, (e.and e').mono ?_,
      by omega, Or.inr ⟨_, rfl, g2⟩, Or.inr (Or.inl ⟨rfl, rfl, g1⟩)⟩
    rintro F ⟨h1, h2⟩
    simp only [processStartIter, ho, Bool.false_eq_true, if_false, h1, Option.bind_eq_bind, Option.bind_some, h2, toRes]
  · rintro s ⟨hp, hs, ho⟩ _
    rcases ho with ⟨ho, _⟩ | ho
    · refine ⟨s, Ev.of_forall (fun F => ?_), hp, hs, Or.inl ⟨ho, rfl⟩⟩
      simp only [processStartIter, ho, if_true]
    · obtain ⟨ho, w, hw, e⟩ := hready ho
      obtain ⟨w', e', hw'⟩ := h.next_stop hw rfl
      refine ⟨{ wk := if keep then w' else wk.init, state := s.state, req := none, over := true }, (e.and e').mono ?_,
        hp, hs, Or.inl ⟨rfl, rfl⟩⟩
      rintro F ⟨h1, h2⟩
      simp only [processStartIter, ho, Bool.false_eq_true, if_false, h1, Option.bind_eq_bind, Option.bind_some, h2]
  · rintro s p ⟨hp, hs, ho⟩
    rcases hs with ⟨hs, rfl⟩ | ⟨c, hs, hc⟩
    · simp only [processStartIter, hs]
      exact ⟨⟨hp, Or.inr ⟨_, rfl, hst⟩, ho⟩, hst⟩
    · simp only [processStartIter, hs]
      exact ⟨⟨hp, Or.inr ⟨c, rfl, hc⟩, ho⟩, hc⟩
  · intro _ _ _ _ _ _ _ hu
    cases hu
  · intro c m hc hm
    obtain ⟨w, _, hw⟩ := h.set_init hc hm
    exact ⟨_, Ev.of_forall (fun _ => rfl), h.bound hw, Or.inr ⟨c, rfl, hc⟩, Or.inr (Or.inr ⟨rfl, c, rfl, hc, rfl⟩)⟩

/-- An element brings a state; without one the state stays. -/
theorem processStart_next_state {wk : Iter α} {start : wk.C} (keep : Bool) {F : Nat} {s s' : PStart wk.S wk.C} {r : Res α}
    (h : (processStartIter keep wk start).next F s = some (s', r)) :
    s'.state.isSome ∨ (s'.state = s.state ∧ ∀ a, r ≠ .item a) := by
  simp only [processStartIter] at h
  split at h
  · cases h
    exact Or.inr ⟨rfl, fun a => nofun⟩
  · cases hv : workerServe wk F s with
    | none => rw [hv] at h; cases h
    | some q =>
      obtain ⟨w, _ | e⟩ := q
      · rw [hv] at h
        simp only [Option.bind_eq_bind, Option.bind_some] at h
        cases hn : wk.next F w with
        | none => rw [hn] at h; cases h
        | some q =>
          obtain ⟨w', r'⟩ := q
          rw [hn] at h
          cases r' with
          | item a => cases h; exact Or.inl rfl
          | stop => cases h; exact Or.inr ⟨rfl, fun a => nofun⟩
          | fail e => cases h; exact Or.inr ⟨rfl, fun a => nofun⟩
      · rw [hv] at h
        cases h
        exact Or.inr ⟨rfl, fun a => nofun⟩

/-- A worker's interleave: for states of its own the length of the lists makes no difference. -/
theorem interleaveSized_sim {f : IterFam α} {n cycle : Nat} {keep : Bool} {xs : List (Py α)}
    {At : ILState f.S f.C → Nat → Prop} {Ck : ILCk f.C → Nat → Prop}
    (h : SimWhen (fun _ => false) (interleaveIter f n cycle keep) xs true At Ck) :
    SimWhen (fun _ => false) (interleaveSizedIter f n cycle keep) xs true At (fun c p => c.2 = min cycle n ∧ Ck c.1 p) := by
  have hset : ∀ (F : Nat) s (c : ILCk f.C), ilSetSized f n (min cycle n) keep F s c (min cycle n) = ilSet f n (min cycle n) keep F s c := by
    intro F s c
    unfold ilSetSized ilSet
    rw [Nat.min_self]
    cases ilSetLoop f n keep F c (List.range (min cycle n)) s with
    | none => rfl
    | some r =>
      obtain ⟨s, _ | e⟩ := r
      · simp only [Option.bind_eq_bind, Option.bind_some, Nat.lt_irrefl, if_false]
      · rfl
  refine { init := h.init, bound := h.bound, next_item := h.next_item, next_stop := h.next_stop, get := ?_, set := ?_, set_init := ?_ }
  · intro s p hp
    obtain ⟨g1, g2⟩ := h.get hp
    exact ⟨g1, rfl, g2⟩
  · intro _ _ _ _ _ _ _ hu
    cases hu
  · rintro ⟨c, m⟩ p ⟨rfl, hc⟩ hp
    obtain ⟨s', e, hs'⟩ := h.set_init hc hp
    refine ⟨s', e.mono (fun F hF => ?_), hs'⟩
    exact (hset F _ c).trans hF

/-- A state with more entries than there are slots is refused. -/
theorem ilSetSized_long {f : IterFam α} {n L m : Nat} (keep : Bool) (F : Nat) (s : ILState f.S f.C) (c : ILCk f.C) (h : L < m) :
    ilSetSized f n L keep F s c m = none ∨ ∃ s' e, ilSetSized f n L keep F s c m = some (s', some e) := by
  unfold ilSetSized
  cases ilSetLoop f n keep F c (List.range (min m L)) s with
  | none => exact Or.inl rfl
  | some r =>
    obtain ⟨s, _ | e⟩ := r
    · right
      refine ⟨s, .indexError, ?_⟩
      simp only [Option.bind_eq_bind, Option.bind_some, if_pos h]
    · exact Or.inr ⟨s, e, rfl⟩

/-- A worker that refuses the state it was given delivers the exception. -/
theorem processStart_refused {wk : Iter α} {start : wk.C} (keep : Bool) (F : Nat) (s : PStart wk.S wk.C) {c : wk.C}
    (ho : s.over = false) (hr : s.req = some c) (h : wk.set F s.wk c = none ∨ ∃ s' e, wk.set F s.wk c = some (s', some e)) :
    (processStartIter keep wk start).next F s = none ∨
      ∃ q e, (processStartIter keep wk start).next F s = some (q, .fail e) := by
  have hs : workerServe wk F s = wk.set F s.wk c := by simp only [workerServe, hr]
  rcases h with h | ⟨s', e, h⟩
  · left
    rw [h] at hs
    simp only [processStartIter, ho, Bool.false_eq_true, if_false, hs, Option.bind_eq_bind, Option.bind_none]
  · right
    rw [h] at hs
    refine ⟨{ wk := wk.init, state := s.state, req := none, over := true }, e, ?_⟩
    simp only [processStartIter, ho, Bool.false_eq_true, if_false, hs, Option.bind_eq_bind, Option.bind_some]

end Grain
