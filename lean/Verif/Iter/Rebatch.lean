import Verif.Iter.FilterBatch
/-
Simulation for rebatch.
-/
namespace Grain

section
variable {p : Iter (List α)} {bs : List (List α)} {ended : Bool} {At : p.S → Nat → Prop} {Ck : p.C → Nat → Prop}

/-- The next fetch reads batch `j` of the parent, and skips `off` rows of it. -/
def RbNeed (bs : List (List α)) (At : p.S → Nat → Prop) (s : RebatchState p.S p.C α) (j off : Nat) : Prop :=
  At s.ps j ∧
  ((∃ cur, s.current = some cur ∧ cur.length ≤ s.idx ∧ off = 0) ∨ (s.current = none ∧ off = s.idx)) ∧
  (∀ cur, bs[j]? = some cur → off ≤ cur.length)

/-- In the middle of batch `j`. -/
def RbMid (bs : List (List α)) (At : p.S → Nat → Prop) (s : RebatchState p.S p.C α) (j : Nat) (cur : List α) : Prop :=
  bs[j]? = some cur ∧ s.current = some cur ∧ s.idx < cur.length ∧ At s.ps (j + 1)

/-- The checkpoint `c` stands for "rows `R` remain", with the parent at batch `j`. -/
def RbCk (bs : List (List α)) (Ck : p.C → Nat → Prop) (c : p.C × Nat) (j : Nat) (R : List α) : Prop :=
  Ck c.1 j ∧ (∀ cur, bs[j]? = some cur → c.2 ≤ cur.length) ∧ R = (bs.drop j).flatten.drop c.2

theorem flatten_drop_of_get {bs : List (List α)} {j : Nat} {cur : List α} (h : bs[j]? = some cur) {i : Nat}
    (hi : i ≤ cur.length) : (bs.drop j).flatten.drop i = cur.drop i ++ (bs.drop (j + 1)).flatten := by
  have hlt := getElem?_lt h
  rw [drop_cons_of_lt hlt, List.flatten_cons]
  rw [List.getElem?_eq_getElem hlt] at h
  rw [Option.some.inj h, List.drop_append_of_le_length hi]

theorem rebatchFetch_item (h : Sim p (bs.map Except.ok) ended At Ck) {s : RebatchState p.S p.C α} {j off : Nat}
    {cur : List α} (hs : RbNeed bs At s j off) (hj : bs[j]? = some cur) :
    ∃ ps, Ev (fun F => rebatchFetch p F s =
      some ({ ps := ps, current := some cur, idx := off, last := (p.get s.ps).2 }, none)) ∧
      At ps (j + 1) ∧ Ck (p.get s.ps).2 j := by
  obtain ⟨h1, h2, h3⟩ := hs
  obtain ⟨g1, g2⟩ := h.get h1
  obtain ⟨ps, e1, e2⟩ := h.next_item (r := .ok cur) g1 (by simp [hj])
  refine ⟨ps, e1.mono ?_, e2, g2⟩
  intro F e
  rcases h2 with ⟨c, hc, hl, rfl⟩ | ⟨hc, rfl⟩
  · simp only [rebatchFetch, hc, Option.isNone_some, Option.getD_some, hl, decide_true, Bool.or_true,
      if_true, e, Option.bind_eq_bind, Option.bind_some, toRes, Bool.false_eq_true, if_false]
  · simp only [rebatchFetch, hc, Option.isNone_none, Bool.true_or, if_true, e, Option.bind_eq_bind, Option.bind_some,
      toRes]

theorem rebatchFetch_stop (h : Sim p (bs.map Except.ok) true At Ck) {s : RebatchState p.S p.C α} {off : Nat}
    (hs : RbNeed bs At s bs.length off) :
    ∃ ps, Ev (fun F => rebatchFetch p F s =
      some ({ s with ps := ps, last := (p.get s.ps).2 }, some .stop)) ∧
      At ps bs.length ∧ Ck (p.get s.ps).2 bs.length := by
  obtain ⟨h1, h2, h3⟩ := hs
  obtain ⟨g1, g2⟩ := h.get h1
  have hl : (bs.map (Except.ok (ε := Err))).length = bs.length := by simp
  obtain ⟨ps, e1, e2⟩ := h.next_stop (hl.symm ▸ g1) rfl
  refine ⟨ps, e1.mono ?_, hl ▸ e2, g2⟩
  intro F e
  rcases h2 with ⟨c, hc, hl, rfl⟩ | ⟨hc, rfl⟩
  · simp only [rebatchFetch, hc, Option.isNone_some, Option.getD_some, hl, decide_true, Bool.or_true,
      if_true, e, Option.bind_eq_bind, Option.bind_some]
  · simp only [rebatchFetch, hc, Option.isNone_none, Bool.true_or, if_true, e, Option.bind_eq_bind, Option.bind_some]

/-- The states between calls: rows `R` remain, and the checkpoint refers to batch `j0`. -/
def RbSt (bs : List (List α)) (At : p.S → Nat → Prop) (Ck : p.C → Nat → Prop) (s : RebatchState p.S p.C α) (j0 : Nat)
    (R : List α) : Prop :=
  (∃ cur, RbMid bs At s j0 cur ∧ Ck s.last j0 ∧ R = cur.drop s.idx ++ (bs.drop (j0 + 1)).flatten) ∨
  (RbCk bs Ck (s.last, s.idx) j0 R ∧ j0 ≤ bs.length ∧
    ∃ j off, RbNeed bs At s j off ∧ j ≤ bs.length ∧ R = (bs.drop j).flatten.drop off ∧ (j0 = bs.length → j = bs.length))

theorem RbSt.ck {s : RebatchState p.S p.C α} {j0 : Nat} {R : List α} (h : RbSt bs At Ck s j0 R) :
    RbCk bs Ck (s.last, s.idx) j0 R ∧ j0 ≤ bs.length := by
  rcases h with ⟨cur, ⟨h1, h2, h3, h4⟩, h5, rfl⟩ | h
  · refine ⟨⟨h5, ?_, ?_⟩, by have := getElem?_lt h1; omega⟩
    · intro c hc
      rw [h1] at hc
      cases hc
      exact Nat.le_of_lt h3
    · rw [flatten_drop_of_get h1 (by simp only []; omega)]
  · exact ⟨h.1, h.2.1⟩

/-- One turn of the loop after the fetch. -/
theorem rebatchLoop_take (drop : Bool) {cur : List α} (hcur : 0 < cur.length)
    (ps : p.S) (last : p.C) (idx : Nat) (hidx : idx ≤ cur.length)
    (needed : Nat) (hn : 0 < needed) (acc : Option (List α)) (F n : Nat) (s : RebatchState p.S p.C α)
    (hf : rebatchFetch p F s = some ({ ps := ps, current := some cur, idx := idx, last := last }, none)) :
    rebatchLoop p drop F (n + 1) needed acc s =
      rebatchLoop p drop F n (needed - (cur.length - idx)) (some (acc.getD [] ++ (cur.drop idx).take needed))
        { ps := ps, current := some cur, idx := min (idx + needed) cur.length, last := last } := by
  have hne : needed ≠ 0 := by omega
  have hc0 : ¬ cur.length = 0 := by omega
  simp only [rebatchLoop, hne, if_false, hf, Option.bind_eq_bind, Option.bind_some, Option.getD_some, hc0, rebatchTake]
  split
  · rename_i hle
    rw [Nat.min_eq_left hle, show needed - (cur.length - idx) = 0 by omega]
  · rename_i hle
    rw [Nat.min_eq_right (by omega), show needed + idx - cur.length = needed - (cur.length - idx) by omega]
    rw [List.take_of_length_le (by simp; omega)]

/-- What the loop does from a state where the rows `R` remain. -/
def RbLoop (p : Iter (List α)) (bs : List (List α)) (ended : Bool) (At : p.S → Nat → Prop) (Ck : p.C → Nat → Prop)
    (drop : Bool) (k : Nat) (done : Prop) [Decidable done] (R : List α) (needed : Nat) (acc : Option (List α))
    (s : RebatchState p.S p.C α) : Prop :=
  (needed ≤ R.length →
    ∃ s' j0, Ev (fun F => ∀ n, k + 2 ≤ n → rebatchLoop p drop F n needed acc s =
      some (s', .item (acc.getD [] ++ R.take needed))) ∧ RbSt bs At Ck s' j0 (R.drop needed)) ∧
  (R.length < needed → ended = true →
    ∃ s', Ev (fun F => ∀ n, k + 2 ≤ n → rebatchLoop p drop F n needed acc s =
      some (s', if drop then .stop else rebatchFinish (if done then acc else some (acc.getD [] ++ R)))) ∧
      RbSt bs At Ck s' bs.length [])

/-- The loop, given what the fetch returns and what the loop does from the following batch on. -/
theorem rebatchLoop_fetched (drop : Bool) (k j : Nat) (cur : List α) (s : RebatchState p.S p.C α) (ps : p.S) (last : p.C)
    (off needed : Nat) (acc : Option (List α)) (hget : bs[j]? = some cur) (hcne : 0 < cur.length)
    (hoff : off ≤ cur.length) (hn : 0 < needed)
    (ih : ∀ (s : RebatchState p.S p.C α) (needed : Nat) (acc : Option (List α)), RbNeed bs At s (j + 1) 0 → 0 < needed →
      RbLoop p bs ended At Ck drop k (j + 1 = bs.length) (bs.drop (j + 1)).flatten needed acc s)
    (e1 : Ev (fun F => rebatchFetch p F s =
      some ({ ps := ps, current := some cur, idx := off, last := last }, none)))
    (e2 : At ps (j + 1)) (e3 : Ck last j) :
    RbLoop p bs ended At Ck drop (k + 1) (j = bs.length) (cur.drop off ++ (bs.drop (j + 1)).flatten) needed acc s := by
  have hlt := getElem?_lt hget
  by_cases hfull : needed ≤ cur.length - off
  · constructor
    · intro _
      refine ⟨{ ps := ps, current := some cur, idx := off + needed, last := last }, j, e1.mono ?_, ?_⟩
      · intro F e n hn2
        obtain ⟨n, rfl⟩ : ∃ m, n = m + 2 := ⟨n - 2, by omega⟩
        rw [rebatchLoop_take drop hcne ps _ off hoff needed hn acc F (n + 1) s e]
        rw [show needed - (cur.length - off) = 0 by omega, Nat.min_eq_left (by omega)]
        simp only [rebatchLoop, if_true, rebatchFinish]
        rw [List.take_append_of_le_length (by simp; omega)]
      · have hR : (cur.drop off ++ (bs.drop (j + 1)).flatten).drop needed =
            cur.drop (off + needed) ++ (bs.drop (j + 1)).flatten := by
          rw [List.drop_append_of_le_length (by simp; omega), List.drop_drop]
        rw [hR]
        by_cases hex : off + needed < cur.length
        · exact Or.inl ⟨cur, ⟨hget, rfl, hex, e2⟩, e3, rfl⟩
        · right
          refine ⟨⟨e3, ?_, ?_⟩, by omega, j + 1, 0, ⟨e2, Or.inl ⟨cur, rfl, by simp only []; omega, rfl⟩, ?_⟩, by omega, ?_, ?_⟩
          · intro c hc
            rw [hget] at hc
            cases hc
            simp only []
            omega
          · rw [flatten_drop_of_get hget (by simp only []; omega)]
          · intro c _; omega
          · rw [List.drop_zero, List.drop_eq_nil_of_le (by omega), List.nil_append]
          · intro hj0; omega
    · intro hlen
      simp at hlen
      omega
  · have hs' : RbNeed bs At ({ ps := ps, current := some cur, idx := cur.length, last := last } :
        RebatchState p.S p.C α) (j + 1) 0 :=
      ⟨e2, Or.inl ⟨cur, rfl, by simp, rfl⟩, by intro c _; omega⟩
    obtain ⟨i1, i2⟩ := ih _ (needed - (cur.length - off))
      (some (acc.getD [] ++ (cur.drop off).take needed)) hs' (by omega)
    have htake : (cur.drop off).take needed = cur.drop off := List.take_of_length_le (by simp; omega)
    rw [htake] at i1 i2
    simp only [Option.getD_some] at i1 i2
    constructor
    · intro hle
      rw [List.length_append, List.length_drop] at hle
      obtain ⟨s', j0, e4, e5⟩ := i1 (by omega)
      refine ⟨s', j0, e1.mono₂ e4 ?_, ?_⟩
      · intro F e e' n hn2
        obtain ⟨n, rfl⟩ : ∃ m, n = m + 1 := ⟨n - 1, by omega⟩
        rw [rebatchLoop_take drop hcne ps _ off hoff needed hn acc F n s e]
        rw [Nat.min_eq_right (by omega), htake, e' n (by omega)]
        rw [List.take_append, List.append_assoc, htake, List.length_drop]
      · rw [List.drop_append, List.length_drop, List.drop_eq_nil_of_le (by simp; omega), List.nil_append]
        exact e5
    · intro hl he
      rw [List.length_append, List.length_drop] at hl
      obtain ⟨s', e4, e5⟩ := i2 (by omega) he
      refine ⟨s', e1.mono₂ e4 ?_, e5⟩
      intro F e e' n hn2
      obtain ⟨n, rfl⟩ : ∃ m, n = m + 1 := ⟨n - 1, by omega⟩
      rw [rebatchLoop_take drop hcne ps _ off hoff needed hn acc F n s e]
      rw [Nat.min_eq_right (by omega), htake, e' n (by omega)]
      have hjl : ¬ j = bs.length := by omega
      cases drop with
      | true => simp
      | false =>
        simp only [hjl, if_false, Bool.false_eq_true]
        split
        · rename_i hjj
          rw [hjj]
          simp
        · simp

theorem length_pos_of_get (hne : ∀ b ∈ bs, b ≠ []) {j : Nat} {cur : List α} (h : bs[j]? = some cur) :
    0 < cur.length := by
  have := hne cur (List.mem_of_getElem? h)
  cases cur with
  | nil => exact absurd rfl this
  | cons _ _ => simp

theorem rebatchLoop_need (h : Sim p (bs.map Except.ok) ended At Ck) (hne : ∀ b ∈ bs, b ≠ []) (drop : Bool) :
    ∀ (k j : Nat) (s : RebatchState p.S p.C α) (off needed : Nat) (acc : Option (List α)), k = bs.length - j →
    j ≤ bs.length → RbNeed bs At s j off → 0 < needed →
    RbLoop p bs ended At Ck drop k (j = bs.length) ((bs.drop j).flatten.drop off) needed acc s := by
  intro k
  induction k with
  | zero =>
    intro j s off needed acc hk hj hs hn
    have hj' : j = bs.length := by omega
    subst hj'
    constructor
    · intro hle
      simp at hle
      omega
    · intro _ he
      subst he
      obtain ⟨ps, e1, e2, e3⟩ := rebatchFetch_stop h hs
      refine ⟨{ s with ps := ps, last := (p.get s.ps).2 }, e1.mono ?_, ?_⟩
      · intro F e n hn2
        obtain ⟨n, rfl⟩ : ∃ m, n = m + 1 := ⟨n - 1, by omega⟩
        have : needed ≠ 0 := by omega
        simp only [rebatchLoop, this, if_false, e, Option.bind_eq_bind, Option.bind_some, if_true]
        cases drop <;> simp
      · refine Or.inr ⟨⟨e3, by intro cur hc; simp at hc, by simp⟩, by omega, bs.length, off, ⟨e2, ?_, ?_⟩, by omega,
          by simp, by simp⟩
        · exact hs.2.1
        · intro cur hc; simp at hc
  | succ k ih =>
    intro j s off needed acc hk hj hs hn
    have hlt : j < bs.length := by omega
    have hget : bs[j]? = some bs[j] := List.getElem?_eq_getElem hlt
    have hoff := hs.2.2 _ hget
    obtain ⟨ps, e1, e2, e3⟩ := rebatchFetch_item h hs hget
    rw [flatten_drop_of_get hget hoff]
    refine rebatchLoop_fetched drop k j bs[j] s ps _ off needed acc hget (length_pos_of_get hne hget) hoff hn ?_ e1 e2 e3
    intro s' needed' acc' hs' hn'
    simpa using ih (j + 1) s' 0 needed' acc' (by omega) (by omega) hs' hn'

/-- `next` from any state. -/
theorem rebatchLoop_st (h : Sim p (bs.map Except.ok) ended At Ck) (hne : ∀ b ∈ bs, b ≠ []) (drop : Bool) (b : Nat)
    (hb : 0 < b) (s : RebatchState p.S p.C α) (j0 : Nat) (R : List α) (hs : RbSt bs At Ck s j0 R) :
    (b ≤ R.length → ∃ s' j0', Ev (fun F => rebatchLoop p drop F F b none s = some (s', .item (R.take b))) ∧
        RbSt bs At Ck s' j0' (R.drop b)) ∧
    (R.length < b → ended = true → drop = true ∨ R ≠ [] ∨ j0 = bs.length →
      ∃ s', Ev (fun F => rebatchLoop p drop F F b none s =
        some (s', if drop || R.isEmpty then .stop else .item R)) ∧
        RbSt bs At Ck s' bs.length []) := by
  have key : ∃ k, ∃ done : Prop, ∃ _ : Decidable done, RbLoop p bs ended At Ck drop k done R b none s ∧
      (done → R = []) ∧ (j0 = bs.length → done) := by
    rcases hs with ⟨cur, ⟨h1, h2, h3, h4⟩, h5, rfl⟩ | ⟨h1, h2, j, off, h3, h4, rfl, h6⟩
    · have hlt := getElem?_lt h1
      refine ⟨bs.length - (j0 + 1) + 1, j0 = bs.length, inferInstance, ?_, by omega, by omega⟩
      refine rebatchLoop_fetched drop _ j0 cur s s.ps s.last s.idx b none h1 (by omega) (by omega) hb ?_ ?_ h4 h5
      · intro s' needed' acc' hs' hn'
        simpa using rebatchLoop_need h hne drop _ (j0 + 1) s' 0 needed' acc' rfl (by omega) hs' hn'
      · refine Ev.of_forall (fun F => ?_)
        have : ¬ (s.idx ≥ cur.length) := by omega
        simp only [rebatchFetch, h2, Option.isNone_some, Option.getD_some, this, decide_false, Bool.or_self,
          Bool.false_eq_true, if_false]
        rw [← h2]
    · refine ⟨_, j = bs.length, inferInstance, rebatchLoop_need h hne drop _ j s off b none rfl h4 h3 hb, ?_, h6⟩
      rintro rfl
      simp
  obtain ⟨k, done, _, ⟨k1, k2⟩, k3, k4⟩ := key
  constructor
  · intro hle
    obtain ⟨s', j0', e1, e2⟩ := k1 hle
    refine ⟨s', j0', (e1.ge (k + 2)).mono ?_, e2⟩
    intro F e
    simpa using e.2 F e.1
  · intro hl he hd
    obtain ⟨s', e1, e2⟩ := k2 hl he
    refine ⟨s', (e1.ge (k + 2)).mono ?_, e2⟩
    intro F e
    rw [e.2 F e.1]
    cases drop with
    | true => simp
    | false =>
      simp only [Bool.false_eq_true, if_false, Bool.false_or, false_or, Option.getD_none, List.nil_append] at hd ⊢
      by_cases hR : R = []
      · have : done := by
          rcases hd with hd | hd
          · exact absurd hR hd
          · exact k4 hd
        simp [this, hR, rebatchFinish]
      · have : ¬ done := fun hdn => hR (k3 hdn)
        simp [this, hR, rebatchFinish]

theorem rebatchIter_resumes {p : Iter (List α)} {bs : List (List α)} {ended : Bool}
    (hp : Resumes p (bs.map Except.ok) ended) (hne : ∀ b ∈ bs, b ≠ []) (b : Nat) (hb : 0 < b) (drop : Bool)
    (hend : ended = true → drop = false → b ∣ bs.flatten.length → bs = []) :
    Resumes (rebatchIter b drop p) (batchStream b drop Except.ok bs.flatten ended) ended := by
  obtain ⟨At, Ck, h⟩ := hp
  generalize hrows : bs.flatten = rows at *
  let K := batchCount rows.length b (drop || !ended)
  have hK : (batchStream b drop (Except.ok (ε := Err)) rows ended).length = K := batchStream_length _ _ _ _ _
  have hspec := batchCount_spec rows.length b hb (drop || !ended)
  change (_ → K * b ≤ rows.length ∧ rows.length < (K + 1) * b) ∧
    (_ → rows.length ≤ K * b ∧ (0 < K → (K - 1) * b < rows.length)) at hspec
  let Rel : List α → Nat → Prop := fun R m => m ≤ K ∧ (R = rows.drop (m * b) ∨ (m = K ∧ ended = true ∧ R = []))
  let Fin : Nat → Nat → Prop := fun j0 m => m = K → ended = true → drop = false → j0 = bs.length
  have hlast : ∀ {R m}, Rel R m → m < K → R = rows.drop (m * b) ∧ m * b < rows.length := by
    rintro R m ⟨_, hr⟩ hm
    have hmb : m * b < rows.length := by
      cases hd : (drop || !ended) with
      | true =>
        have h1 := (hspec.1 hd).1
        have : m * b < K * b := Nat.mul_lt_mul_of_pos_right hm hb
        omega
      | false =>
        have h1 := (hspec.2 hd).2 (by omega)
        have : m * b ≤ (K - 1) * b := Nat.mul_le_mul_right b (by omega)
        omega
    rcases hr with hr | hr
    · exact ⟨hr, hmb⟩
    · omega
  refine ⟨fun s m => ∃ j0 R, RbSt bs At Ck s j0 R ∧ Rel R m ∧ Fin j0 m,
    fun c m => ∃ j0 R, RbCk bs Ck c j0 R ∧ j0 ≤ bs.length ∧ Rel R m ∧ Fin j0 m, ?_⟩
  refine { init := ?_, bound := fun ⟨_, _, _, hm, _⟩ => hK ▸ hm.1, next_item := ?_, next_stop := ?_, get := ?_,
           set := ?_, ck_bound := fun ⟨_, _, _, _, hm, _⟩ => hK ▸ hm.1 }
  · obtain ⟨g1, g2⟩ := h.get h.init
    refine ⟨0, rows, Or.inr ⟨⟨g2, by intro c _; exact Nat.zero_le _, by simp [rebatchIter, hrows]⟩, by omega, 0, 0,
      ⟨g1, Or.inr ⟨rfl, rfl⟩, by intro c _; omega⟩, by omega, by simp [hrows], fun hh => hh⟩,
      ⟨by omega, Or.inl (by simp)⟩, ?_⟩
    intro hm he hd
    have h1 := (hspec.2 (by simp [he, hd])).1
    rw [← hm] at h1
    have h2 : rows.length = 0 := by omega
    have h3 : bs = [] := hend he hd (by rw [h2]; exact Nat.dvd_zero b)
    simp [h3]
  · rintro s m r ⟨j0, R, hs, hR, hF⟩ hr
    have hm : m < K := by have := getElem?_lt hr; omega
    obtain ⟨hRm, hlt⟩ := hlast hR hm
    have hr' : r = .ok (group rows b m) := by
      simp only [batchStream] at hr
      rw [List.getElem?_map, List.getElem?_range (by exact hm)] at hr
      simpa using hr.symm
    subst hr'
    obtain ⟨n1, n2⟩ := rebatchLoop_st h hne drop b hb s j0 R hs
    have hRl : R.length = rows.length - m * b := by rw [hRm]; simp
    have hsucc : (m + 1) * b = m * b + b := by rw [Nat.add_mul, Nat.one_mul]
    by_cases hfull : b ≤ R.length
    · obtain ⟨s', j0', e1, e2⟩ := n1 hfull
      refine ⟨s', ?_, j0', R.drop b, e2, ⟨by omega, Or.inl ?_⟩, ?_⟩
      · rw [hRm] at e1
        exact e1
      · rw [hRm, List.drop_drop, hsucc]
      · intro hmK he hd
        exfalso
        have h1 := (hspec.2 (by simp [he, hd])).1
        rw [← hmK, hsucc] at h1
        have h2 : rows.length = (m + 1) * b := by omega
        have h3 : bs = [] := hend he hd ⟨m + 1, by rw [h2]; exact Nat.mul_comm _ _⟩
        have hl : rows.length = 0 := by rw [← hrows, h3]; rfl
        omega
    · have hd : (drop || !ended) = false := by
        cases hd : (drop || !ended) with
        | false => rfl
        | true =>
          have h1 := (hspec.1 hd).1
          have : (m + 1) * b ≤ K * b := Nat.mul_le_mul_right b hm
          omega
      have hd' := hd
      simp only [Bool.or_eq_false_iff, Bool.not_eq_false'] at hd
      obtain ⟨hd1, hd2⟩ := hd
      have hRne : R ≠ [] := by
        intro hc
        rw [hc] at hRl
        simp at hRl
        omega
      obtain ⟨s', e1, e2⟩ := n2 (by omega) hd2 (Or.inr (Or.inl hRne))
      refine ⟨s', e1.mono ?_, bs.length, [], e2, ⟨by omega, Or.inl ?_⟩, fun _ _ _ => rfl⟩
      · intro F e
        change rebatchLoop p drop F F b none s = _
        rw [e]
        have : R.isEmpty = false := by cases R <;> simp_all
        rw [hd1, this]
        simp only [Bool.or_self, Bool.false_eq_true, if_false, toRes]
        rw [hRm, group, List.take_of_length_le (by simp; omega)]
        rfl
      · rw [List.drop_eq_nil_of_le (by omega)]
  · rintro s ⟨j0, R, hs, hR, hF⟩ he
    rw [hK] at hR hF ⊢
    obtain ⟨n1, n2⟩ := rebatchLoop_st h hne drop b hb s j0 R hs
    have hRl : R.length < b ∧ (drop = false → R = []) := by
      rcases hR.2 with h1 | ⟨_, _, h1⟩
      · cases hd : drop with
        | true =>
          have h2 := (hspec.1 (by simp [hd])).2
          rw [Nat.add_mul, Nat.one_mul] at h2
          refine ⟨?_, by simp⟩
          rw [h1]
          simp
          omega
        | false =>
          have h2 := (hspec.2 (by simp [hd, he])).1
          have : R = [] := by rw [h1]; exact List.drop_eq_nil_of_le h2
          exact ⟨by rw [this]; simpa using hb, fun _ => this⟩
      · exact ⟨by rw [h1]; simpa using hb, fun _ => h1⟩
    obtain ⟨s', e1, e2⟩ := n2 hRl.1 he (by
      cases hd : drop with
      | true => exact Or.inl rfl
      | false => exact Or.inr (Or.inr (hF rfl he hd)))
    refine ⟨s', e1.mono ?_, bs.length, [], e2, ⟨by omega, Or.inr ⟨rfl, he, rfl⟩⟩, fun _ _ _ => rfl⟩
    intro F e
    change rebatchLoop p drop F F b none s = _
    rw [e]
    cases hd : drop with
    | true => simp; rfl
    | false => simp [hRl.2 hd]; rfl
  · rintro s m ⟨j0, R, hs, hR, hF⟩
    exact ⟨⟨j0, R, hs, hR, hF⟩, j0, R, hs.ck.1, hs.ck.2, hR, hF⟩
  · rintro s n c m ⟨j1, R1, hs, hR1, hF1⟩ ⟨j0, R, ⟨c1, c2, c3⟩, hj, hR, hF⟩ hk
    have hk' : j0 < (bs.map (Except.ok (ε := Err))).length ∨ ended = true := by
      rw [List.length_map]
      rcases hk with hk | hk
      · left
        obtain ⟨h1, h2⟩ := hlast hR (by omega)
        by_contra hcon
        rw [show bs.drop j0 = [] from List.drop_eq_nil_of_le (by omega)] at c3
        rw [h1] at c3
        have := congrArg List.length c3
        simp at this
        omega
      · exact Or.inr hk
    have hps : ∃ n', At s.ps n' := by
      rcases hs with ⟨cur, ⟨_, _, _, h4⟩, _⟩ | ⟨_, _, j, off, ⟨h3, _⟩, _⟩
      · exact ⟨_, h4⟩
      · exact ⟨_, h3⟩
    obtain ⟨n', hps⟩ := hps
    obtain ⟨s', h1, h2⟩ := h.set hps c1 hk'
    obtain ⟨g1, g2⟩ := h.get h2
    refine ⟨{ ps := (p.get s').1, current := none, idx := c.2, last := (p.get s').2 }, h1.mono ?_, j0, R, ?_, hR, hF⟩
    · intro F e
      simp only [rebatchIter, e, Option.bind_eq_bind, Option.bind_some]
    · exact Or.inr ⟨⟨g2, c2, c3⟩, hj, j0, c.2, ⟨g1, Or.inr ⟨rfl, rfl⟩, c2⟩, hj, c3, fun hh => hh⟩
end
end Grain
