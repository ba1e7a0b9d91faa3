import Verif.Iter.Cache
/-
Simulation for the window shuffle iterator.
-/
namespace Grain

/-- Indexing into the concatenation of groups that are all of size `w` except possibly the last. -/
theorem flatten_groups (h : Nat → List β) (w L : Nat) : ∀ k, (∀ i, i < k → (h i).length = min w (L - i * w)) →
    (0 < k → (k - 1) * w < L) →
    (((List.range k).map h).flatten).length = min (k * w) L ∧
    ∀ i j, i < k → j < (h i).length → (((List.range k).map h).flatten)[i * w + j]? = (h i)[j]? := by
  intro k
  induction k with
  | zero => intro _ _; simp
  | succ k ih =>
    intro hl hk
    have hkL : k * w < L := hk (by omega)
    have hprev : (0 < k → (k - 1) * w < L) := by
      intro h0
      have : (k - 1) * w ≤ k * w := Nat.mul_le_mul_right _ (by omega)
      omega
    obtain ⟨h1, h2⟩ := ih (fun i hi => hl i (by omega)) hprev
    have hlen : (((List.range k).map h).flatten).length = k * w := by omega
    rw [List.range_succ, List.map_append, List.flatten_append]
    simp only [List.map_cons, List.map_nil, List.flatten_cons, List.flatten_nil, List.append_nil]
    have hlk := hl k (by omega)
    constructor
    · rw [List.length_append, hlen, hlk, Nat.add_mul, Nat.one_mul]; omega
    · intro i j hi hj
      by_cases hik : i < k
      · have hij : i * w + j < k * w := by
          have h3 := hl i (by omega)
          have : i * w + w ≤ k * w := by rw [← Nat.succ_mul]; exact Nat.mul_le_mul_right _ hik
          omega
        rw [List.getElem?_append_left (by omega)]
        exact h2 i j hik hj
      · have : i = k := by omega
        subst this
        rw [List.getElem?_append_right (by omega), hlen, Nat.add_sub_cancel_left]

theorem flatten_groups_group (h : Nat → List β) (w L k : Nat) (hl : ∀ i, i < k → (h i).length = min w (L - i * w))
    (hk : 0 < k → (k - 1) * w < L) (i : Nat) (hi : i < k) : group ((List.range k).map h).flatten w i = h i := by
  obtain ⟨h1, h2⟩ := flatten_groups h w L k hl hk
  apply List.ext_getElem?
  intro j
  unfold group
  rw [List.getElem?_take, List.getElem?_drop]
  have hli := hl i hi
  by_cases hj : j < (h i).length
  · rw [if_pos (by omega), h2 i j hi hj]
  · rw [List.getElem?_eq_none (l := h i) (by omega)]
    split
    · apply List.getElem?_eq_none
      omega
    · rfl

section
variable {p : Iter α} {as : List α} {ended : Bool} {At : p.S → Nat → Prop} {Ck : p.C → Nat → Prop}

theorem winFill_ok (h : Sim p (as.map Except.ok) ended At Ck) :
    ∀ (n q : Nat) (s : p.S) (acc : List α), At s q → q + n ≤ as.length ∨ ended = true →
    ∃ s', Ev (fun F => winFill p F n s acc =
      some (s', acc ++ (as.drop q).take n, decide (as.length < q + n), none)) ∧ At s' (min (q + n) as.length) := by
  intro n
  induction n with
  | zero =>
    intro q s acc hs _
    have hb : q ≤ as.length := by simpa using h.bound hs
    refine ⟨s, Ev.of_forall (fun F => ?_), by rw [Nat.add_zero, Nat.min_eq_left hb]; exact hs⟩
    simp only [winFill, List.take_zero, List.append_nil, Nat.add_zero]
    rw [decide_eq_false (by omega)]
  | succ n ih =>
    intro q s acc hs hq
    have hb : q ≤ as.length := by simpa using h.bound hs
    by_cases hlt : q < as.length
    · obtain ⟨s1, h1, h2⟩ := h.next_item (r := .ok as[q]) hs (by simp [hlt])
      obtain ⟨s2, h3, h4⟩ := ih (q + 1) s1 (acc ++ [as[q]]) h2 (hq.imp (fun hq => by omega) id)
      refine ⟨s2, h1.mono₂ h3 ?_, by rw [show q + (n + 1) = q + 1 + n by omega]; exact h4⟩
      intro F e1 e2
      simp only [winFill, e1, Option.bind_eq_bind, Option.bind_some, toRes, e2]
      rw [drop_cons_of_lt hlt, List.take_succ_cons, List.append_assoc, List.singleton_append,
        show q + (n + 1) = q + 1 + n by omega]
    · have hqe : q = as.length := by omega
      have he : ended = true := by
        rcases hq with hq | hq
        · omega
        · exact hq
      subst hqe
      have hl : (as.map (Except.ok (ε := Err))).length = as.length := by simp
      obtain ⟨s1, h1, h2⟩ := h.next_stop (hl.symm ▸ hs) he
      refine ⟨s1, h1.mono ?_, by rw [Nat.min_eq_right (by omega)]; exact hl ▸ h2⟩
      intro F e1
      simp only [winFill, e1, Option.bind_eq_bind, Option.bind_some]
      rw [List.drop_length, List.take_nil, List.append_nil, decide_eq_true (by omega)]

theorem winFillShuffle_ok (h : Sim p (as.map Except.ok) ended At Ck) {shuffle : Nat → List α → Py (List α)}
    {σ : Nat → List α → List α} {w : Nat} (s : WinState p.S p.C α) (i : Nat)
    (hσ : shuffle s.windowIndex (group as w i) = .ok (σ s.windowIndex (group as w i)))
    (hs : At s.ps (i * w)) (hi : i * w + w ≤ as.length ∨ ended = true) :
    ∃ ps, Ev (fun F => winFillShuffle shuffle w p F s =
      some ({ s with ps := ps, window := (σ s.windowIndex (group as w i)).reverse,
                     exhausted := s.exhausted || decide (as.length < i * w + w) }, none)) ∧
      At ps (min (i * w + w) as.length) := by
  obtain ⟨ps, h1, h2⟩ := winFill_ok h w (i * w) s.ps [] hs hi
  refine ⟨ps, h1.mono ?_, h2⟩
  intro F e
  simp only [winFillShuffle, e, Option.bind_eq_bind, Option.bind_some, List.nil_append]
  rw [show List.take w (List.drop (i * w) as) = group as w i from rfl, hσ]

end

/-- The window shuffle iterator resumes exactly, for a parent that returns `as`. -/
theorem windowShuffleIter_resumes {p : Iter α} {as : List α} {ended : Bool} {shuffle : Nat → List α → Py (List α)}
    {σ : Nat → List α → List α} {w : Nat} (hw : 0 < w) (hp : Resumes p (as.map Except.ok) ended)
    (hσ₀ : ∀ i, i ≤ batchCount as.length w (!ended) → ∀ l, l.length ≤ w →
      shuffle i l = .ok (σ i l) ∧ (σ i l).length = l.length) :
    Resumes (windowShuffleIter shuffle w p)
      ((windowStream w (fun i l => (σ i l).reverse) as ended).map Except.ok) ended := by
  obtain ⟨At, Ck, h⟩ := hp
  generalize hK : batchCount as.length w (!ended) = K at hσ₀
  have hσ : ∀ i, i ≤ K → ∀ j, shuffle i (group as w j) = .ok (σ i (group as w j)) ∧
      (σ i (group as w j)).length = (group as w j).length :=
    fun i hi j => hσ₀ i hi _ (by simp [group])
  generalize hys : windowStream w (fun i l => (σ i l).reverse) as ended = ys
  have hspec := batchCount_spec as.length w hw (!ended)
  simp only [hK] at hspec
  have hgl : ∀ i, (group as w i).length = min w (as.length - i * w) := by intro i; simp [group]
  have hlast : ∀ i, i < K → i * w < as.length ∧ (i * w + w ≤ as.length ∨ ended = true) := by
    intro i hi
    have h1 : i * w + w ≤ K * w := by rw [← Nat.succ_mul]; exact Nat.mul_le_mul_right _ hi
    cases ended with
    | true =>
      refine ⟨?_, Or.inr rfl⟩
      have h2 : i * w ≤ (K - 1) * w := Nat.mul_le_mul_right _ (by omega)
      have := (hspec.2 rfl).2 (by omega)
      omega
    | false =>
      have := (hspec.1 rfl).1
      omega
  have hfl := flatten_groups (fun i => (σ i (group as w i)).reverse) w as.length K
    (by intro i hi
        simp only [List.length_reverse]
        rw [(hσ i (by omega) _).2]
        exact hgl i)
    (by intro h0; exact (hlast (K - 1) (by omega)).1)
  have hflat : ((List.range K).map (fun i => (σ i (group as w i)).reverse)).flatten = ys := by
    rw [← hys, ← hK]; rfl
  rw [hflat] at hfl
  obtain ⟨hlen, hget⟩ := hfl
  simp only [List.length_reverse] at hget
  have hσl : ∀ i, i < K → (σ i (group as w i)).length = (group as w i).length := fun i hi => (hσ i (by omega) _).2
  have hend : ended = true → ys.length = as.length := by
    intro he
    subst he
    have := (hspec.2 rfl).1
    omega
  have hgpos : ∀ i, i < K → 0 < (group as w i).length ∧ i * w + (group as w i).length = min (i * w + w) as.length ∧
      i * w + w ≤ K * w := by
    intro i hi
    have h1 := hlast i hi
    have h2 := hgl i
    have h3 : i * w + w ≤ K * w := by rw [← Nat.succ_mul]; exact Nat.mul_le_mul_right _ hi
    omega
  let CkW : p.C × Nat × Nat → Nat → Prop := fun c m =>
    (∃ i, Ck c.1 (i * w) ∧ c.2.1 = i ∧ m = i * w + c.2.2 ∧
      ((i < K ∧ c.2.2 < (group as w i).length) ∨ (i = K ∧ c.2.2 = 0 ∧ K * w = ys.length))) ∨
    (∃ i, i < K ∧ Ck c.1 (i * w) ∧ c.2.1 = i + 1 ∧ c.2.2 = (group as w i).length ∧ m = i * w + (group as w i).length)
  let Loaded : WinState p.S p.C α → Nat → Prop := fun s m => ∃ i j, i < K ∧ j < (group as w i).length ∧ m = i * w + j ∧
    s.window = (σ i (group as w i)).reverse.drop j ∧ s.windowIndex = i ∧ s.pos = j ∧ Ck s.start (i * w) ∧
    At s.ps (min (i * w + w) as.length) ∧ s.exhausted = decide (as.length < i * w + w)
  let Empty : WinState p.S p.C α → Nat → Prop := fun s m => s.window = [] ∧ CkW (s.start, s.windowIndex, s.pos) m ∧
    At s.ps m ∧ ((s.exhausted = false ∧ m = s.windowIndex * w ∧ s.windowIndex ≤ K) ∨
      (s.exhausted = true ∧ m = ys.length ∧ ended = true))
  have ckb : ∀ c m, CkW c m → m ≤ ys.length := by
    rintro c m (⟨i, h1, h2, h3, h4 | h4⟩ | ⟨i, h1, h2, h3, h4, h5⟩)
    · have := hgpos i h4.1
      omega
    · obtain ⟨rfl, h5, h6⟩ := h4
      omega
    · have := hgpos i h1
      omega
  have pop : ∀ s m, Loaded s m → ∃ s' a, winPop s = (s', .item a) ∧ ys[m]? = some a ∧
      (Loaded s' (m + 1) ∨ Empty s' (m + 1)) := by
    rintro s m ⟨i, j, hi, hj, rfl, h1, h2, h3, h4, h5, h6⟩
    have hj' : j < (σ i (group as w i)).reverse.length := by rw [List.length_reverse, hσl i hi]; exact hj
    rw [drop_cons_of_lt hj'] at h1
    refine ⟨_, (σ i (group as w i)).reverse[j], by unfold winPop; rw [h1], ?_, ?_⟩
    · rw [hget i j hi (by rw [hσl i hi]; exact hj), List.getElem?_eq_getElem hj']
    · have hg := hgpos i hi
      have hL := hlast i hi
      by_cases hj1 : j + 1 < (group as w i).length
      · left
        refine ⟨i, j + 1, hi, hj1, by omega, rfl, ?_, by simp only [h3], h4, h5, h6⟩
        have : ((σ i (group as w i)).reverse.drop (j + 1)).isEmpty = false := by
          rw [List.isEmpty_eq_false_iff_exists_mem]
          have hlt : j + 1 < (σ i (group as w i)).reverse.length := by rw [List.length_reverse, hσl i hi]; exact hj1
          rw [drop_cons_of_lt hlt]
          exact ⟨_, List.mem_cons_self⟩
        simp only [this, Bool.false_eq_true, if_false, h2]
      · right
        have hnil : (σ i (group as w i)).reverse.drop (j + 1) = [] := by
          apply List.drop_eq_nil_of_le
          rw [List.length_reverse, hσl i hi]; omega
        refine ⟨hnil, ?_, ?_, ?_⟩
        · right
          refine ⟨i, hi, h4, ?_, ?_, by omega⟩
          · simp only [hnil, List.isEmpty_nil, if_true, h2]
          · simp only [h3]; omega
        · show At s.ps _
          rw [show i * w + j + 1 = min (i * w + w) as.length by omega]; exact h5
        · simp only [hnil, List.isEmpty_nil, if_true, h2, h6]
          by_cases hx : as.length < i * w + w
          · right
            have he : ended = true := by
              rcases hL.2 with hc | hc
              · omega
              · exact hc
            refine ⟨by rw [decide_eq_true hx], ?_, he⟩
            rw [hend he]; omega
          · left
            refine ⟨by rw [decide_eq_false hx], ?_, hi⟩
            rw [Nat.add_mul, Nat.one_mul]; omega
  refine ⟨fun s m => Loaded s m ∨ Empty s m, fun c m => CkW c m, ?_⟩
  have atps : ∀ {s m}, (Loaded s m ∨ Empty s m) → ∃ q, At s.ps q := by
    rintro s m (⟨i, j, hi, hj, rfl, h1, h2, h3, h4, h5, h6⟩ | ⟨h1, h2, h3, h4⟩)
    · exact ⟨_, h5⟩
    · exact ⟨_, h3⟩
  have hz : ∀ l : List α, l.length = 0 → l = [] := fun l hl => List.eq_nil_of_length_eq_zero hl
  refine { init := ?_, bound := ?_, next_item := ?_, next_stop := ?_, get := ?_, set := ?_, ck_bound := ?_ }
  · right
    refine ⟨rfl, Or.inl ⟨0, by rw [Nat.zero_mul]; exact (h.get h.init).2, rfl, by simp [windowShuffleIter], ?_⟩,
      (h.get h.init).1, Or.inl ⟨rfl, by simp [windowShuffleIter], by simp [windowShuffleIter]⟩⟩
    rcases Nat.eq_zero_or_pos K with h0 | h0
    · right; exact ⟨h0.symm, rfl, by rw [h0] at hlen ⊢; omega⟩
    · left; exact ⟨h0, (hgpos 0 h0).1⟩
  · rintro s m (⟨i, j, hi, hj, rfl, _⟩ | ⟨_, h2, _⟩)
    · have := hgpos i hi
      rw [List.length_map]; omega
    · rw [List.length_map]; exact ckb _ _ h2
  · rintro s m r hs hr
    have hm : m < ys.length := by simpa using getElem?_lt hr
    have hr' : ∀ a, ys[m]? = some a → r = .ok a := by
      intro a ha
      rw [List.getElem?_map, ha] at hr
      simpa using hr.symm
    rcases hs with hs | hs
    · obtain ⟨s', a, e1, e2, e3⟩ := pop s m hs
      refine ⟨s', Ev.of_forall (fun F => ?_), e3⟩
      rw [hr' a e2]
      have hne : s.window.isEmpty = false := by
        cases hww : s.window with
        | nil => exact absurd (congrArg Prod.snd e1) (by unfold winPop; rw [hww]; intro hc; cases hc)
        | cons => rfl
      simp only [windowShuffleIter, hne, Bool.false_eq_true, if_false, e1, toRes]
    · obtain ⟨h1, h2, h3, h4⟩ := hs
      rcases h4 with ⟨h4, h5, h6⟩ | ⟨_, h5, _⟩
      swap
      · omega
      have hi : s.windowIndex < K := by
        by_contra hc
        have : s.windowIndex = K := by omega
        rw [this] at h5
        omega
      have hat := (h.get h3).1
      rw [h5] at hat
      obtain ⟨ps, e1, e2⟩ := winFillShuffle_ok h (shuffle := shuffle) (σ := σ) (w := w)
        { s with ps := (p.get s.ps).1, start := (p.get s.ps).2 } s.windowIndex (hσ _ (by omega) _).1 hat (hlast _ hi).2
      obtain ⟨s', a, e3, e4, e5⟩ := pop { s with ps := ps, start := (p.get s.ps).2, pos := 0, window := (σ s.windowIndex (group as w s.windowIndex)).reverse, exhausted := decide (as.length < s.windowIndex * w + w) } m ⟨s.windowIndex, 0, hi, (hgpos _ hi).1, by omega, rfl, rfl, rfl, by rw [← h5]; exact (h.get h3).2, e2, rfl⟩
      refine ⟨s', e1.mono ?_, e5⟩
      intro F e
      rw [hr' a e4]
      simp only [h1, h4, Bool.false_or] at e
      simp only [windowShuffleIter, h1, List.isEmpty_nil, if_true, h4, Bool.false_eq_true, if_false, e,
        Option.bind_eq_bind, Option.bind_some, toRes]
      rw [e3]
  · rintro s hs he
    rw [List.length_map] at hs
    have hyl := hend he
    rcases hs with ⟨i, j, hi, hj, hm, _⟩ | hs
    · have := hgpos i hi
      omega
    · obtain ⟨h1, h2, h3, h4⟩ := hs
      rcases h4 with ⟨h4, h5, h6⟩ | ⟨h4, h5, h6⟩
      swap
      · refine ⟨s, Ev.of_forall (fun F => ?_), Or.inr ⟨h1, by rw [List.length_map]; exact h2, by rw [List.length_map]; exact h3,
          Or.inr ⟨h4, by rw [List.length_map], he⟩⟩⟩
        simp only [windowShuffleIter, h1, List.isEmpty_nil, if_true, h4]
      have hi : s.windowIndex = K := by
        by_contra hc
        have := hlast s.windowIndex (by omega)
        omega
      have hat := (h.get h3).1
      rw [h5] at hat
      have hgn : group as w s.windowIndex = [] := hz _ (by rw [hgl]; omega)
      have hσn : σ s.windowIndex (group as w s.windowIndex) = [] := hz _ (by rw [(hσ _ (by omega) _).2, hgn]; rfl)
      obtain ⟨ps, e1, e2⟩ := winFillShuffle_ok h (shuffle := shuffle) (σ := σ) (w := w)
        { s with ps := (p.get s.ps).1, start := (p.get s.ps).2 } s.windowIndex (hσ _ (by omega) _).1 hat (Or.inr he)
      refine ⟨{ s with ps := ps, start := (p.get s.ps).2, window := [], exhausted := true, pos := 0 }, e1.mono ?_,
        Or.inr ⟨rfl, Or.inl ⟨K, ?_, hi, ?_, Or.inr ⟨rfl, rfl, ?_⟩⟩, ?_, Or.inr ⟨rfl, by simp, he⟩⟩⟩
      · intro F e
        simp only [hσn, List.reverse_nil] at e
        rw [decide_eq_true (by omega)] at e
        simp only [windowShuffleIter, h1, List.isEmpty_nil, if_true, h4, Bool.false_eq_true, if_false]
        simp only [h1, h4] at e
        rw [e]
        simp [winPop]
      · rw [← hi, ← h5]; exact (h.get h3).2
      · rw [List.length_map, h5, hi]; rfl
      · rw [← hi, ← h5]
      · rw [List.length_map, hyl]
        rw [Nat.min_eq_right (by omega)] at e2
        exact e2
  · rintro s m hs
    refine ⟨hs, ?_⟩
    rcases hs with ⟨i, j, hi, hj, rfl, h1, h2, h3, h4, h5, h6⟩ | ⟨h1, h2, h3, h4⟩
    · left
      exact ⟨i, h4, h2, by simp only [windowShuffleIter, h3], Or.inl ⟨hi, by simp only [windowShuffleIter, h3]; exact hj⟩⟩
    · exact h2
  · rintro s n c m hs hc hk
    rw [List.length_map] at hk
    obtain ⟨q, hq⟩ := atps hs
    rcases hc with ⟨i, h1, h2, h3, h4 | h4⟩ | ⟨i, h1, h2, h3, h4, h5⟩
    · have hL := hlast i h4.1
      obtain ⟨ps, e1, e2⟩ := h.set hq h1 (Or.inl (by simpa using hL.1))
      obtain ⟨ps', e3, e4⟩ := winFillShuffle_ok h (shuffle := shuffle) (σ := σ) (w := w)
        { s with start := c.1, ps := ps, windowIndex := c.2.1, pos := c.2.2, exhausted := false } i
        (hσ _ (by simp only [h2]; omega) _).1 e2 hL.2
      refine ⟨{ s with start := c.1, ps := ps', windowIndex := c.2.1, pos := c.2.2,
                       exhausted := decide (as.length < i * w + w),
                       window := (σ i (group as w i)).reverse.drop c.2.2 },
        e1.mono₂ e3 ?_, Or.inl ⟨i, c.2.2, h4.1, h4.2, h3, rfl, h2, rfl, h1, e4, rfl⟩⟩
      · intro F e e'
        simp only [windowShuffleIter, e, Option.bind_eq_bind, Option.bind_some, e']
        simp only [h2, List.length_reverse, hσl i h4.1, Bool.false_or]
        rw [Nat.min_eq_left (by omega)]
    · obtain ⟨rfl, h5, h6⟩ := h4
      have he : ended = true := by
        rcases hk with hk | hk
        · omega
        · exact hk
      have hyl := hend he
      obtain ⟨ps, e1, e2⟩ := h.set hq h1 (Or.inr he)
      have hgn : group as w i = [] := hz _ (by rw [hgl]; omega)
      have hσn : σ i (group as w i) = [] := hz _ (by rw [(hσ _ (by omega) _).2, hgn]; rfl)
      obtain ⟨ps', e3, e4⟩ := winFillShuffle_ok h (shuffle := shuffle) (σ := σ) (w := w)
        { s with start := c.1, ps := ps, windowIndex := c.2.1, pos := c.2.2, exhausted := false } i
        (hσ _ (by simp only [h2]; omega) _).1 e2 (Or.inr he)
      refine ⟨{ s with start := c.1, ps := ps', windowIndex := c.2.1, pos := c.2.2, window := [], exhausted := true },
        e1.mono₂ e3 ?_, Or.inr ⟨rfl, Or.inl ⟨i, h1, h2, h3, Or.inr ⟨rfl, h5, h6⟩⟩, ?_, Or.inr ⟨rfl, by omega, he⟩⟩⟩
      · intro F e e'
        simp only [h2, hσn, List.reverse_nil] at e'
        rw [decide_eq_true (by omega)] at e'
        simp only [windowShuffleIter, e, Option.bind_eq_bind, Option.bind_some, h2, e']
        simp
      · rw [Nat.min_eq_right (by omega)] at e4
        rw [show m = as.length by omega]
        exact e4
    · have hL := hlast i h1
      have hg := hgpos i h1
      obtain ⟨ps, e1, e2⟩ := h.set hq h2 (Or.inl (by simpa using hL.1))
      obtain ⟨ps', e3, e4⟩ := winFillShuffle_ok h (shuffle := shuffle) (σ := σ) (w := w)
        { s with start := c.1, ps := ps, windowIndex := c.2.1, pos := c.2.2, exhausted := false } i
        (hσ _ (by simp only [h3]; omega) _).1 e2 hL.2
      refine ⟨{ s with start := c.1, ps := ps', windowIndex := c.2.1, pos := c.2.2, window := [],
                       exhausted := decide (as.length < i * w + w) },
        e1.mono₂ e3 ?_, Or.inr ⟨rfl, Or.inr ⟨i, h1, h2, h3, h4, h5⟩, ?_, ?_⟩⟩
      · intro F e e'
        have hl : (σ c.2.1 (group as w i)).reverse.length = (group as w i).length := by
          rw [List.length_reverse, (hσ _ (by omega) _).2]
        simp only [windowShuffleIter, e, Option.bind_eq_bind, Option.bind_some, e', hl]
        rw [h4, Nat.min_self, List.drop_eq_nil_of_le (by omega)]
        simp
      · show At ps' m
        rw [h5, hg.2.1]; exact e4
      · by_cases hx : as.length < i * w + w
        · right
          have he : ended = true := by
            rcases hL.2 with hc | hc
            · omega
            · exact hc
          refine ⟨by simp only [decide_eq_true hx], ?_, he⟩
          rw [hend he]; omega
        · left
          refine ⟨by simp only [decide_eq_false hx], ?_, by simp only [h3]; omega⟩
          simp only [h3]
          rw [Nat.add_mul, Nat.one_mul]; omega
  · intro c m hc
    rw [List.length_map]
    exact ckb c m hc
end Grain
