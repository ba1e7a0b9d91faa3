import Verif.Iter.OneToOne
/-
Simulations for filter and batch.
-/
namespace Grain

/-! ### filter -/

theorem Checker.check_none (c : Checker) (b : Bool) : ∃ c', c.check none b = (c', none) := by
  unfold Checker.check
  simp only []
  split <;> split <;> exact ⟨_, rfl⟩

theorem drop_cons_of_lt {l : List α} {q : Nat} (h : q < l.length) : l.drop q = l[q] :: l.drop (q + 1) :=
  List.drop_eq_getElem_cons h

theorem filterLoop_item {p : Iter α} {pred : α → Py Bool} {xs : List (Py α)} {ended : Bool} {At : p.S → Nat → Prop}
    {Ck : p.C → Nat → Prop} (h : Sim p xs ended At Ck) (r : Py α) (rest : List (Py α)) :
    ∀ (k q : Nat) (s : p.S × Checker), k = xs.length - q → At s.1 q →
    (xs.drop q).filterMap (filterOutcome pred) = r :: rest →
    ∃ s', Ev (fun F => ∀ n, k ≤ n → filterLoop p pred none F n s = some (s', toRes r)) ∧
      ∃ q', At s'.1 q' ∧ (xs.drop q').filterMap (filterOutcome pred) = rest := by
  intro k
  induction k with
  | zero =>
    intro q s hk hs hf
    rw [List.drop_eq_nil_of_le (by omega)] at hf
    simp at hf
  | succ k ih =>
    intro q s hk hs hf
    have hq : q < xs.length := by omega
    obtain ⟨s1, h1, h2⟩ := h.next_item hs (List.getElem?_eq_getElem hq)
    rw [drop_cons_of_lt hq, List.filterMap_cons] at hf
    cases hx : xs[q] with
    | error e =>
      rw [hx] at hf h1
      simp only [filterOutcome, List.cons.injEq] at hf
      refine ⟨(s1, s.2), h1.mono ?_, q + 1, h2, hf.2⟩
      intro F e1 n hn
      obtain ⟨n, rfl⟩ : ∃ m, n = m + 1 := ⟨n - 1, by omega⟩
      rw [← hf.1]
      simp only [filterLoop, e1, Option.bind_eq_bind, Option.bind_some, toRes]
    | ok a =>
      rw [hx] at hf h1
      cases hp : pred a with
      | error e =>
        simp only [filterOutcome, hp, List.cons.injEq] at hf
        refine ⟨(s1, s.2), h1.mono ?_, q + 1, h2, hf.2⟩
        intro F e1 n hn
        obtain ⟨n, rfl⟩ : ∃ m, n = m + 1 := ⟨n - 1, by omega⟩
        rw [← hf.1]
        simp only [filterLoop, e1, Option.bind_eq_bind, Option.bind_some, toRes, hp]
      | ok b =>
        obtain ⟨c', hc⟩ := Checker.check_none s.2 b
        cases b with
        | true =>
          simp only [filterOutcome, hp, List.cons.injEq] at hf
          refine ⟨(s1, c'), h1.mono ?_, q + 1, h2, hf.2⟩
          intro F e1 n hn
          obtain ⟨n, rfl⟩ : ∃ m, n = m + 1 := ⟨n - 1, by omega⟩
          rw [← hf.1]
          simp only [filterLoop, e1, Option.bind_eq_bind, Option.bind_some, toRes, hp, hc, if_true]
        | false =>
          simp only [filterOutcome, hp] at hf
          obtain ⟨s', h3, h4⟩ := ih (q + 1) (s1, c') (by omega) h2 hf
          refine ⟨s', h1.mono₂ h3 ?_, h4⟩
          intro F e1 e2 n hn
          obtain ⟨n, rfl⟩ : ∃ m, n = m + 1 := ⟨n - 1, by omega⟩
          simp only [filterLoop, e1, Option.bind_eq_bind, Option.bind_some, toRes, hp, hc]
          exact e2 n (by omega)

theorem filterLoop_stop {p : Iter α} {pred : α → Py Bool} {xs : List (Py α)} {At : p.S → Nat → Prop}
    {Ck : p.C → Nat → Prop} (h : Sim p xs true At Ck) :
    ∀ (k q : Nat) (s : p.S × Checker), k = xs.length - q → At s.1 q →
    (xs.drop q).filterMap (filterOutcome pred) = [] →
    ∃ s', Ev (fun F => ∀ n, k + 1 ≤ n → filterLoop p pred none F n s = some (s', .stop)) ∧ At s'.1 xs.length := by
  intro k
  induction k with
  | zero =>
    intro q s hk hs hf
    have hq : q = xs.length := by have := h.bound hs; omega
    subst hq
    obtain ⟨s1, h1, h2⟩ := h.next_stop hs rfl
    refine ⟨(s1, s.2), h1.mono ?_, h2⟩
    intro F e1 n hn
    obtain ⟨n, rfl⟩ : ∃ m, n = m + 1 := ⟨n - 1, by omega⟩
    simp only [filterLoop, e1, Option.bind_eq_bind, Option.bind_some]
  | succ k ih =>
    intro q s hk hs hf
    have hq : q < xs.length := by omega
    obtain ⟨s1, h1, h2⟩ := h.next_item hs (List.getElem?_eq_getElem hq)
    rw [drop_cons_of_lt hq, List.filterMap_cons] at hf
    cases hx : xs[q] with
    | error e => rw [hx] at hf; simp [filterOutcome] at hf
    | ok a =>
      rw [hx] at hf h1
      cases hp : pred a with
      | error e => simp [filterOutcome, hp] at hf
      | ok b =>
        cases b with
        | true => simp [filterOutcome, hp] at hf
        | false =>
          obtain ⟨c', hc⟩ := Checker.check_none s.2 false
          simp only [filterOutcome, hp] at hf
          obtain ⟨s', h3, h4⟩ := ih (q + 1) (s1, c') (by omega) h2 hf
          refine ⟨s', h1.mono₂ h3 ?_, h4⟩
          intro F e1 e2 n hn
          obtain ⟨n, rfl⟩ : ∃ m, n = m + 1 := ⟨n - 1, by omega⟩
          simp only [filterLoop, e1, Option.bind_eq_bind, Option.bind_some, toRes, hp, hc]
          exact e2 n (by omega)

/-- Having read `q` elements of the input, `m` elements of the filtered stream are over. -/
def filterPos (pred : α → Py Bool) (xs : List (Py α)) (q m : Nat) : Prop :=
  m ≤ (xs.filterMap (filterOutcome pred)).length ∧
    (xs.drop q).filterMap (filterOutcome pred) = (xs.filterMap (filterOutcome pred)).drop m

theorem filterIter_sim {p : Iter α} {pred : α → Py Bool} {xs : List (Py α)} {ended : Bool} {At : p.S → Nat → Prop} {Ck : p.C → Nat → Prop}
    (h : Sim p xs ended At Ck) : Sim (filterIter pred none p) (xs.filterMap (filterOutcome pred)) ended
      (fun s m => ∃ q, At s.1 q ∧ filterPos pred xs q m) (fun c m => ∃ q, Ck c q ∧ filterPos pred xs q m) := by
  let ys := xs.filterMap (filterOutcome pred)
  refine { init := ⟨0, h.init, by omega, by simp⟩, bound := fun ⟨q, _, hm, _⟩ => hm, next_item := ?_,
           next_stop := ?_, get := ?_, set := ?_, ck_bound := fun ⟨q, _, hm, _⟩ => hm }
  · rintro s m r ⟨q, hs, hm, hq⟩ hr
    have hlt : m < ys.length := getElem?_lt hr
    have hd : ys.drop m = r :: ys.drop (m + 1) := by
      rw [drop_cons_of_lt hlt]
      rw [List.getElem?_eq_getElem hlt] at hr
      rw [Option.some.inj hr]
    rw [hd] at hq
    obtain ⟨s', h1, q', h2, h3⟩ := filterLoop_item h r _ _ q s rfl hs hq
    refine ⟨s', (h1.ge (xs.length - q)).mono ?_, q', h2, Nat.succ_le_of_lt hlt, h3⟩
    intro F e
    exact e.2 F e.1
  · rintro s ⟨q, hs, hm, hq⟩ he
    subst he
    rw [show ys.drop (xs.filterMap (filterOutcome pred)).length = [] from List.drop_eq_nil_of_le (by simp [ys])] at hq
    obtain ⟨s', h1, h2⟩ := filterLoop_stop h _ q s rfl hs hq
    refine ⟨s', (h1.ge (xs.length - q + 1)).mono (fun F e => e.2 F e.1), xs.length, h2, by simp, ?_⟩
    simp
  · rintro s m ⟨q, hs, hm⟩
    exact ⟨⟨q, (h.get hs).1, hm⟩, q, (h.get hs).2, hm⟩
  · rintro s n c m ⟨q, hs, hn⟩ ⟨q', hc, hm⟩ hk
    have hk' : q' < xs.length ∨ ended = true := by
      rcases hk with hk | hk
      · left
        by_contra hcon
        have := hm.2
        rw [List.drop_eq_nil_of_le (by omega), show ys.drop m = _ from drop_cons_of_lt hk] at this
        cases this
      · exact Or.inr hk
    obtain ⟨s', h1, h2⟩ := h.set hs hc hk'
    refine ⟨(s', s.2), h1.mono ?_, q', h2, hm⟩
    intro F e
    simp only [filterIter, e, Option.bind_eq_bind, Option.bind_some]

theorem filterIter_resumes {p : Iter α} {pred : α → Py Bool} {xs : List (Py α)} {ended : Bool}
    (hp : Resumes p xs ended) : Resumes (filterIter pred none p) (xs.filterMap (filterOutcome pred)) ended := by
  obtain ⟨At, Ck, h⟩ := hp
  exact ⟨_, _, filterIter_sim h⟩

/-! ### batch -/

theorem batchLoop_full {p : Iter α} {as : List α} {ended : Bool} {At : p.S → Nat → Prop} {Ck : p.C → Nat → Prop}
    (h : Sim p (as.map Except.ok) ended At Ck) (drop : Bool) :
    ∀ (n q : Nat) (s : p.S) (acc : List α), At s q → q + n ≤ as.length →
    ∃ s', Ev (fun F => batchLoop p drop F n s acc = some (s', .inl (acc ++ (as.drop q).take n))) ∧ At s' (q + n) := by
  intro n
  induction n with
  | zero => intro q s acc hs _; exact ⟨s, Ev.of_forall (fun F => by simp [batchLoop]), hs⟩
  | succ n ih =>
    intro q s acc hs hq
    have hlt : q < as.length := by omega
    obtain ⟨s1, h1, h2⟩ := h.next_item (r := .ok as[q]) hs (by simp [hlt])
    obtain ⟨s2, h3, h4⟩ := ih (q + 1) s1 (acc ++ [as[q]]) h2 (by omega)
    refine ⟨s2, h1.mono₂ h3 ?_, by rw [show q + (n + 1) = q + 1 + n by omega]; exact h4⟩
    intro F e1 e2
    simp only [batchLoop, e1, Option.bind_eq_bind, Option.bind_some, toRes, e2]
    rw [drop_cons_of_lt hlt, List.take_succ_cons, List.append_assoc, List.singleton_append]

theorem batchLoop_short {p : Iter α} {as : List α} {At : p.S → Nat → Prop} {Ck : p.C → Nat → Prop}
    (h : Sim p (as.map Except.ok) true At Ck) (drop : Bool) :
    ∀ (n q : Nat) (s : p.S) (acc : List α), At s q → as.length < q + n →
    ∃ s', Ev (fun F => batchLoop p drop F n s acc =
      some (s', if drop then .inr .stop else .inl (acc ++ as.drop q))) ∧ At s' as.length := by
  intro n
  induction n with
  | zero =>
    intro q s acc hs hq
    have := h.bound hs
    simp at this
    omega
  | succ n ih =>
    intro q s acc hs hq
    by_cases hlt : q < as.length
    · obtain ⟨s1, h1, h2⟩ := h.next_item (r := .ok as[q]) hs (by simp [hlt])
      obtain ⟨s2, h3, h4⟩ := ih (q + 1) s1 (acc ++ [as[q]]) h2 (by omega)
      refine ⟨s2, h1.mono₂ h3 ?_, h4⟩
      intro F e1 e2
      simp only [batchLoop, e1, Option.bind_eq_bind, Option.bind_some, toRes, e2]
      rw [drop_cons_of_lt hlt, List.append_assoc, List.singleton_append]
    · have hb := h.bound hs
      rw [List.length_map] at hb
      have hq' : q = (as.map (Except.ok (ε := Err))).length := by simp; omega
      subst hq'
      obtain ⟨s1, h1, h2⟩ := h.next_stop hs rfl
      refine ⟨s1, h1.mono ?_, by simpa using h2⟩
      intro F e1
      simp only [batchLoop, e1, Option.bind_eq_bind, Option.bind_some]
      cases drop <;> simp

theorem batchStream_length (b : Nat) (drop : Bool) (f : List α → Py β) (as : List α) (ended : Bool) :
    (batchStream b drop f as ended).length = batchCount as.length b (drop || !ended) := by
  simp [batchStream]

/-- Facts about the number of batches, in the form `omega` can use. -/
theorem batchCount_spec (n b : Nat) (hb : 0 < b) (drop : Bool) :
    let k := batchCount n b drop
    (drop = true → k * b ≤ n ∧ n < (k + 1) * b) ∧
    (drop = false → (n ≤ k * b ∧ (0 < k → (k - 1) * b < n))) := by
  simp only [batchCount]
  constructor
  · rintro rfl
    simp only [if_true]
    exact ⟨Nat.div_mul_le_self n b, by rw [Nat.add_mul, Nat.one_mul]; exact Nat.lt_div_mul_add hb⟩
  · rintro rfl
    simp only [if_false, Bool.false_eq_true]
    have h1 := Nat.div_mul_le_self (n + b - 1) b
    have h2 := Nat.lt_div_mul_add (a := n + b - 1) hb
    refine ⟨by omega, fun hk => ?_⟩
    rw [Nat.sub_mul, Nat.one_mul]
    have h3 := Nat.le_mul_of_pos_left b hk
    omega

/-- The parent's position `q` when `m` of `K` batches were returned; after `StopIteration` the parent is at its end. -/
def BatchRel (b len K : Nat) (ended : Bool) (q m : Nat) : Prop :=
  m ≤ K ∧ (q = min (m * b) len ∨ (m = K ∧ ended = true ∧ q = len))

theorem batchIter_sim {p : Iter α} {as : List α} {ended : Bool} {At : p.S → Nat → Prop} {Ck : p.C → Nat → Prop}
    (h : Sim p (as.map Except.ok) ended At Ck) (b : Nat)
    (hb : 0 < b) (drop : Bool) (f : List α → Py β) :
    Sim (batchIter b drop f p) (batchStream b drop f as ended) ended
      (fun s m => ∃ q, At s q ∧ BatchRel b as.length (batchCount as.length b (drop || !ended)) ended q m)
      (fun c m => ∃ q, Ck c q ∧ BatchRel b as.length (batchCount as.length b (drop || !ended)) ended q m) := by
  let K := batchCount as.length b (drop || !ended)
  have hK : (batchStream b drop f as ended).length = K := batchStream_length _ _ _ _ _
  have hspec := batchCount_spec as.length b hb (drop || !ended)
  simp only [] at hspec
  let Rel : Nat → Nat → Prop := BatchRel b as.length K ended
  have hlast : ∀ {q m}, Rel q m → m < K → q = m * b ∧ m * b < as.length := by
    rintro q m ⟨_, hr⟩ hm
    have hmb : m * b < as.length := by
      cases hd : (drop || !ended) with
      | true =>
        have h1 : K * b ≤ as.length := (hspec.1 hd).1
        have : m * b < K * b := Nat.mul_lt_mul_of_pos_right hm hb
        show m * b < as.length
        omega
      | false =>
        have h1 := (hspec.2 hd).2 (by show 0 < K; omega)
        have : m * b ≤ (K - 1) * b := Nat.mul_le_mul_right b (by omega)
        show m * b < as.length
        have : (K - 1) * b < as.length := h1
        omega
    rcases hr with hr | hr
    · exact ⟨by omega, hmb⟩
    · omega
  refine { init := ⟨0, h.init, by omega, Or.inl (by omega)⟩, bound := fun ⟨q, _, hm, _⟩ => hK ▸ hm,
           next_item := ?_, next_stop := ?_, get := ?_, set := ?_, ck_bound := fun ⟨q, _, hm, _⟩ => hK ▸ hm }
  · rintro s m r ⟨q, hs, hq⟩ hr
    have hm : m < K := by have := getElem?_lt hr; omega
    obtain ⟨hqm, hlt⟩ := hlast hq hm
    subst hqm
    have hr' : f (group as b m) = r := by
      simp only [batchStream] at hr
      rw [List.getElem?_map, List.getElem?_range (by exact hm)] at hr
      simpa using hr
    have hne : ∃ a l, group as b m = a :: l := by
      unfold group
      rw [drop_cons_of_lt hlt]
      obtain ⟨b', rfl⟩ : ∃ b', b = b' + 1 := ⟨b - 1, by omega⟩
      exact ⟨_, _, List.take_succ_cons⟩
    obtain ⟨a, l, hg⟩ := hne
    by_cases hfull : m * b + b ≤ as.length
    · obtain ⟨s', h1, h2⟩ := batchLoop_full h drop b (m * b) s [] hs hfull
      refine ⟨s', h1.mono ?_, m * b + b, h2, by omega, Or.inl ?_⟩
      · intro F e
        have e' : batchLoop p drop F b s [] = some (s', .inl (a :: l)) := by
          rw [e, ← hg]; simp [group]
        simp only [batchIter, e', Option.bind_eq_bind, Option.bind_some]
        rw [← hg, hr']
        cases r <;> rfl
      · rw [Nat.add_mul, Nat.one_mul]; omega
    · have hd : (drop || !ended) = false := by
        cases hd : (drop || !ended) with
        | false => rfl
        | true =>
          have h1 := (hspec.1 hd).1
          have : (m + 1) * b ≤ K * b := Nat.mul_le_mul_right b hm
          rw [Nat.add_mul, Nat.one_mul] at this
          have : K * b ≤ as.length := h1
          omega
      simp only [Bool.or_eq_false_iff, Bool.not_eq_false'] at hd
      obtain ⟨hd1, hd2⟩ := hd
      subst hd1 hd2
      obtain ⟨s', h1, h2⟩ := batchLoop_short h false b (m * b) s [] hs (by omega)
      refine ⟨s', h1.mono ?_, as.length, h2, by omega, Or.inl ?_⟩
      · intro F e
        have e' : batchLoop p false F b s [] = some (s', .inl (a :: l)) := by
          rw [e, ← hg]
          simp only [group, Bool.false_eq_true, if_false, List.nil_append]
          rw [List.take_of_length_le (by simp; omega)]
        simp only [batchIter, e', Option.bind_eq_bind, Option.bind_some]
        rw [← hg, hr']
        cases r <;> rfl
      · rw [Nat.add_mul, Nat.one_mul]; omega
  · rintro s ⟨q, hs, hq⟩ he
    subst he
    rw [hK] at hq ⊢
    have hlt : as.length < q + b := by
      rcases hq.2 with h1 | h1
      · cases hd : (drop || !true) with
        | true =>
          have h2 := (hspec.1 hd).2
          have h3 := (hspec.1 hd).1
          change as.length < (K + 1) * b at h2
          change K * b ≤ as.length at h3
          rw [Nat.add_mul, Nat.one_mul] at h2
          omega
        | false =>
          have h2 := (hspec.2 hd).1
          change as.length ≤ K * b at h2
          omega
      · omega
    obtain ⟨s', h1, h2⟩ := batchLoop_short h drop b q s [] hs hlt
    refine ⟨s', h1.mono ?_, as.length, h2, by omega, Or.inr ⟨rfl, rfl, rfl⟩⟩
    intro F e
    simp only [batchIter, e, Option.bind_eq_bind, Option.bind_some]
    cases hdr : drop with
    | true => simp
    | false =>
      have : as.drop q = [] := by
        apply List.drop_eq_nil_of_le
        rcases hq.2 with h3 | h3
        · have h4 := (hspec.2 (by simp [hdr])).1
          change as.length ≤ K * b at h4
          omega
        · omega
      simp [this]
  · rintro s m ⟨q, hs, hm⟩
    exact ⟨⟨q, (h.get hs).1, hm⟩, q, (h.get hs).2, hm⟩
  · rintro s n c m ⟨q, hs, hn⟩ ⟨q', hc, hm⟩ hk
    have hk' : q' < (as.map (Except.ok (ε := Err))).length ∨ ended = true := by
      rw [List.length_map]
      rcases hk with hk | hk
      · left
        have := hlast hm (by omega)
        omega
      · exact Or.inr hk
    obtain ⟨s', h1, h2⟩ := h.set hs hc hk'
    exact ⟨s', h1, q', h2, hm⟩

theorem batchIter_resumes {p : Iter α} {as : List α} {ended : Bool} (hp : Resumes p (as.map Except.ok) ended) (b : Nat)
    (hb : 0 < b) (drop : Bool) (f : List α → Py β) :
    Resumes (batchIter b drop f p) (batchStream b drop f as ended) ended := by
  obtain ⟨At, Ck, h⟩ := hp
  exact ⟨_, _, batchIter_sim h b hb drop f⟩

end Grain
