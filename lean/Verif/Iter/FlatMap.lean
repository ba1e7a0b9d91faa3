import Verif.Iter.Rebatch
/-
Simulation for flat_map.
-/
namespace Grain

theorem drop_map_nil (g : α → β) (as : List α) {j : Nat} (h : as.length ≤ j) : (as.map g).drop j = [] :=
  List.drop_eq_nil_of_le (by simpa using h)

section
variable {p : Iter α} {as : List α} {g : α → List β} {f : α → Py (List β)} {ended : Bool}
  {At : p.S → Nat → Prop} {Ck : p.C → Nat → Prop}

/-- The checkpoint `c` stands for "outputs `R` remain", with the parent at element `j`. -/
def FmCk (bs : List (List β)) (Ck : p.C → Nat → Prop) (c : p.C × Nat) (j : Nat) (R : List β) : Prop :=
  Ck c.1 j ∧ (∀ b, bs[j]? = some b → c.2 ≤ b.length) ∧ j ≤ bs.length ∧ R = (bs.drop j).flatten.drop c.2

/-- Outputs `R` remain: in the middle of the buffer, or with the buffer used up. -/
def FmSt (bs : List (List β)) (At : p.S → Nat → Prop) (Ck : p.C → Nat → Prop) (s : FlatMapState p.S p.C β)
    (R : List β) : Prop :=
  (∃ j, bs[j]? = some s.buf ∧ s.idx < s.buf.length ∧ At s.ps (j + 1) ∧ Ck s.last j ∧
    R = s.buf.drop s.idx ++ (bs.drop (j + 1)).flatten) ∨
  (s.buf.length ≤ s.idx ∧ (∃ j, At s.ps j ∧ j ≤ bs.length ∧ R = (bs.drop j).flatten) ∧
    ∃ j0, FmCk bs Ck (s.last, s.idx) j0 R)

theorem FmSt.ck {bs : List (List β)} {s : FlatMapState p.S p.C β} {R : List β} (h : FmSt bs At Ck s R) :
    ∃ j0, FmCk bs Ck (s.last, s.idx) j0 R := by
  rcases h with ⟨j, h1, h2, h3, h4, rfl⟩ | h
  · refine ⟨j, h4, ?_, by have := getElem?_lt h1; omega, ?_⟩
    · intro b hb
      rw [h1] at hb
      cases hb
      exact Nat.le_of_lt h2
    · rw [flatten_drop_of_get h1 (by simp only []; omega)]
  · exact h.2.2

theorem FmSt.at {bs : List (List β)} {s : FlatMapState p.S p.C β} {R : List β} (h : FmSt bs At Ck s R) :
    ∃ j, At s.ps j := by
  rcases h with ⟨j, h1, h2, h3, h4, rfl⟩ | ⟨_, ⟨j, h, _⟩, _⟩
  · exact ⟨_, h3⟩
  · exact ⟨_, h⟩

/-- Buffer just loaded with the outputs of element `j`, `i` of them already consumed. -/
theorem FmSt.loaded {bs : List (List β)} (ps : p.S) (last : p.C) (i j : Nat) (buf : List β) (hj : bs[j]? = some buf)
    (hi : i ≤ buf.length) (hps : At ps (j + 1)) (hl : Ck last j) :
    FmSt bs At Ck { ps := ps, idx := i, buf := buf, last := last } (buf.drop i ++ (bs.drop (j + 1)).flatten) := by
  have hlt := getElem?_lt hj
  by_cases hlt' : i < buf.length
  · exact Or.inl ⟨j, hj, hlt', hps, hl, rfl⟩
  · right
    have hb : buf.length ≤ i := by omega
    refine ⟨hb, ⟨j + 1, hps, by omega, by rw [List.drop_eq_nil_of_le hb, List.nil_append]⟩, j, hl, ?_, by omega, ?_⟩
    · intro b' hb'
      rw [hj] at hb'
      cases hb'
      exact hi
    · rw [flatten_drop_of_get hj (by simpa using hi)]

theorem flatMapLoop_need (h : Sim p (as.map Except.ok) ended At Ck) (hf : ∀ a ∈ as, f a = .ok (g a)) (b : β)
    (R : List β) : ∀ (k j : Nat) (s : FlatMapState p.S p.C β), k = as.length - j → At s.ps j → j ≤ as.length →
    s.buf.length ≤ s.idx → ((as.map g).drop j).flatten = b :: R →
    ∃ s', Ev (fun F => ∀ n, k + 1 ≤ n → flatMapLoop p f F n s = some (s', .item b)) ∧ FmSt (as.map g) At Ck s' R := by
  intro k
  induction k with
  | zero =>
    intro j s hk hs hj hbuf hR
    rw [List.drop_eq_nil_of_le (by simp; omega)] at hR
    simp at hR
  | succ k ih =>
    intro j s hk hs hj hbuf hR
    have hlt : j < as.length := by omega
    obtain ⟨g1, g2⟩ := h.get hs
    obtain ⟨ps, e1, e2⟩ := h.next_item (r := .ok as[j]) g1 (by simp [hlt])
    have hfa := hf as[j] (List.getElem_mem _)
    have hnone : s.buf[s.idx]? = none := List.getElem?_eq_none hbuf
    have hgj : (as.map g)[j]? = some (g as[j]) := by simp [hlt]
    have hgl : (as.map g).length = as.length := by simp
    rw [drop_cons_of_lt (by simpa using hlt), List.flatten_cons, List.getElem_map] at hR
    cases hga : g as[j] with
    | nil =>
      rw [hga] at hR
      simp only [List.nil_append] at hR
      obtain ⟨s', e3, e4⟩ := ih (j + 1) { ps := ps, idx := 0, buf := [], last := (p.get s.ps).2 } (by omega) e2
        (by omega) (by simp) hR
      refine ⟨s', e1.mono₂ e3 ?_, e4⟩
      intro F e e' n hn
      obtain ⟨n, rfl⟩ : ∃ m, n = m + 1 := ⟨n - 1, by omega⟩
      simp only [flatMapLoop, hnone, e, Option.bind_eq_bind, Option.bind_some, toRes, hfa, hga]
      exact e' n (by omega)
    | cons b' bs' =>
      rw [hga] at hR
      simp only [List.cons_append, List.cons.injEq] at hR
      obtain ⟨rfl, rfl⟩ := hR
      refine ⟨{ ps := ps, idx := 1, buf := b' :: bs', last := (p.get s.ps).2 }, e1.mono ?_, ?_⟩
      · intro F e n hn
        obtain ⟨n, rfl⟩ : ∃ m, n = m + 2 := ⟨n - 2, by omega⟩
        simp only [flatMapLoop, hnone, e, Option.bind_eq_bind, Option.bind_some, toRes, hfa, hga,
          List.getElem?_cons_zero, Nat.zero_add]
      · have := FmSt.loaded (p := p) (bs := as.map g) (At := At) (Ck := Ck) ps (p.get s.ps).2 1 j (b' :: bs')
          (by rw [hgj, hga]) (by simp) e2 g2
        simpa using this

theorem flatMapLoop_stop (h : Sim p (as.map Except.ok) true At Ck) (hf : ∀ a ∈ as, f a = .ok (g a)) :
    ∀ (k j : Nat) (s : FlatMapState p.S p.C β), k = as.length - j → At s.ps j → j ≤ as.length →
    s.buf.length ≤ s.idx → ((as.map g).drop j).flatten = [] →
    ∃ s', Ev (fun F => ∀ n, k + 1 ≤ n → flatMapLoop p f F n s = some (s', .stop)) ∧ FmSt (as.map g) At Ck s' [] := by
  intro k
  induction k with
  | zero =>
    intro j s hk hs hj hbuf hR
    have hj' : j = (as.map (Except.ok (ε := Err))).length := by simp; omega
    subst hj'
    obtain ⟨g1, g2⟩ := h.get hs
    obtain ⟨ps, e1, e2⟩ := h.next_stop g1 rfl
    have hnone : s.buf[s.idx]? = none := List.getElem?_eq_none hbuf
    refine ⟨{ s with ps := ps, last := (p.get s.ps).2 }, e1.mono ?_, Or.inr ⟨hbuf,
      ⟨_, e2, by simp, by rw [drop_map_nil g as (by simp)]; rfl⟩, _, g2, ?_, by simp,
      by rw [drop_map_nil g as (by simp)]; simp⟩⟩
    · intro F e n hn
      obtain ⟨n, rfl⟩ : ∃ m, n = m + 1 := ⟨n - 1, by omega⟩
      simp only [flatMapLoop, hnone, e, Option.bind_eq_bind, Option.bind_some]
    · intro b hb
      simp at hb
  | succ k ih =>
    intro j s hk hs hj hbuf hR
    have hlt : j < as.length := by omega
    obtain ⟨g1, g2⟩ := h.get hs
    obtain ⟨ps, e1, e2⟩ := h.next_item (r := .ok as[j]) g1 (by simp [hlt])
    have hfa := hf as[j] (List.getElem_mem _)
    have hnone : s.buf[s.idx]? = none := List.getElem?_eq_none hbuf
    rw [drop_cons_of_lt (by simpa using hlt), List.flatten_cons, List.getElem_map, List.append_eq_nil_iff] at hR
    obtain ⟨s', e3, e4⟩ := ih (j + 1) { ps := ps, idx := 0, buf := [], last := (p.get s.ps).2 } (by omega) e2
      (by omega) (by simp) hR.2
    refine ⟨s', e1.mono₂ e3 ?_, e4⟩
    intro F e e' n hn
    obtain ⟨n, rfl⟩ : ∃ m, n = m + 1 := ⟨n - 1, by omega⟩
    simp only [flatMapLoop, hnone, e, Option.bind_eq_bind, Option.bind_some, toRes, hfa, hR.1]
    exact e' n (by omega)

/-- Everything is exact except restoring a checkpoint taken at the end of the data into a used iterator. -/
theorem flatMapIter_sim {p : Iter α} {as : List α} {g : α → List β} {f : α → Py (List β)} {ended : Bool}
    (hp : Resumes p (as.map Except.ok) ended) (hf : ∀ a ∈ as, f a = .ok (g a)) :
    ∃ At Ck, SimWhen (fun m => decide (m < (as.flatMap g).length)) (flatMapIter f p) ((as.flatMap g).map Except.ok) ended
      At Ck ∧ ∀ {c m}, Ck c m → m ≤ (as.flatMap g).length := by
  obtain ⟨At, Ck, h⟩ := hp
  rw [List.flatMap_def]
  generalize hrows : (as.map g).flatten = rows
  let Rel : List β → Nat → Prop := fun R m => m ≤ rows.length ∧ R = rows.drop m
  refine ⟨fun s m => ∃ R, FmSt (as.map g) At Ck s R ∧ Rel R m,
    fun c m => ∃ j R, FmCk (as.map g) Ck c j R ∧ Rel R m, ?_, fun ⟨_, _, _, hm⟩ => hm.1⟩
  have hset : ∀ {s : FlatMapState p.S p.C β} {n : Nat} {c : p.C × Nat} {m : Nat} {n' : Nat} , At s.ps n' →
      (∃ j R, FmCk (as.map g) Ck c j R ∧ Rel R m) → m < rows.length ∨ (ended = true ∧ s.buf = []) →
      ∃ s', Ev (fun F => (flatMapIter f p).set F s c = some (s', none)) ∧ ∃ R, FmSt (as.map g) At Ck s' R ∧ Rel R m := by
    rintro s n c m n' hs ⟨j, R, ⟨c1, c2, c3, c4⟩, hm1, rfl⟩ hk
    by_cases hj : j < as.length
    · obtain ⟨s1, e1, e2⟩ := h.set hs c1 (Or.inl (by simpa using hj))
      obtain ⟨s2, e3, e4⟩ := h.next_item (r := .ok as[j]) e2 (by simp [hj])
      have hfa := hf as[j] (List.getElem_mem _)
      have hgj : (as.map g)[j]? = some (g as[j]) := by simp [hj]
      refine ⟨{ ps := s2, idx := c.2, buf := g as[j], last := c.1 }, e1.mono₂ e3 ?_, rows.drop m, ?_, hm1, rfl⟩
      · intro F e e'
        simp only [flatMapIter, e, e', Option.bind_eq_bind, Option.bind_some, toRes, hfa]
      · rw [c4, flatten_drop_of_get hgj (c2 _ hgj)]
        exact FmSt.loaded s2 c.1 c.2 j (g as[j]) hgj (c2 _ hgj) e4 c1
    · have hj' : j = (as.map (Except.ok (ε := Err))).length := by simp at c3 ⊢; omega
      have hnil : rows.drop m = [] := by
        rw [c4, drop_map_nil g as (by omega)]; simp
      have hml : rows.length ≤ m := List.drop_eq_nil_iff.mp hnil
      obtain ⟨he, hbuf⟩ : ended = true ∧ s.buf = [] := by
        rcases hk with hk | hk
        · omega
        · exact hk
      subst he
      obtain ⟨s1, e1, e2⟩ := h.set hs c1 (Or.inr rfl)
      rw [hj'] at e2
      obtain ⟨s2, e3, e4⟩ := h.next_stop e2 rfl
      refine ⟨{ ps := s2, idx := 0, buf := s.buf, last := c.1 }, e1.mono₂ e3 ?_, rows.drop m, ?_, hm1, rfl⟩
      · intro F e e'
        simp only [flatMapIter, e, e', Option.bind_eq_bind, Option.bind_some]
      · rw [hnil]
        refine Or.inr ⟨by simp [hbuf],
          ⟨_, e4, by simp, by rw [drop_map_nil g as (by simp)]; rfl⟩, j, c1, ?_, c3, ?_⟩
        · intro b hb
          simp only []
          omega
        · rw [drop_map_nil g as (by omega)]; simp
  refine { init := ?_, bound := fun ⟨_, _, hm, _⟩ => by simpa using hm, next_item := ?_, next_stop := ?_, get := ?_,
           set := ?_, set_init := ?_ }
  · obtain ⟨g1, g2⟩ := h.get h.init
    refine ⟨rows, Or.inr ⟨by simp [flatMapIter], ⟨0, g1, by omega, by simp [hrows]⟩, 0, g2, by intro b _; exact Nat.zero_le _,
      by omega, by simp [flatMapIter, hrows]⟩, by omega, by simp⟩
  · rintro s m r ⟨R, hs, hm1, rfl⟩ hr
    have hm : m < rows.length := by simpa using getElem?_lt hr
    have hr' : r = .ok rows[m] := by
      rw [List.getElem?_map, List.getElem?_eq_getElem hm] at hr
      simpa using hr.symm
    subst hr'
    rcases hs with ⟨j, h1, h2, h3, h4, h5⟩ | ⟨h1, ⟨j, h2, h3, h4⟩, _⟩
    · have hb : s.buf[s.idx]? = some rows[m] := by
        rw [List.getElem?_eq_getElem h2]
        rw [drop_cons_of_lt hm, drop_cons_of_lt h2, List.cons_append, List.cons.injEq] at h5
        rw [h5.1]
      refine ⟨{ s with idx := s.idx + 1 }, ⟨1, fun F hF => ?_⟩, rows.drop (m + 1), ?_, by omega, rfl⟩
      · obtain ⟨n, rfl⟩ : ∃ m, F = m + 1 := ⟨F - 1, by omega⟩
        simp only [flatMapIter, flatMapLoop, hb, toRes]
      · have := FmSt.loaded (p := p) (bs := as.map g) (At := At) (Ck := Ck) s.ps s.last (s.idx + 1) j s.buf h1 h2 h3 h4
        rw [drop_cons_of_lt hm, drop_cons_of_lt h2, List.cons_append, List.cons.injEq] at h5
        rw [h5.2]
        exact this
    · rw [drop_cons_of_lt hm] at h4
      obtain ⟨s', e1, e2⟩ := flatMapLoop_need h hf _ _ _ j s rfl h2 (by simpa using h3) h1 h4.symm
      refine ⟨s', (e1.ge (as.length - j + 1)).mono (fun F e => e.2 F e.1), _, e2, by omega, rfl⟩
  · rintro s ⟨R, hs, hm1, hR⟩ he
    subst he
    have hR' : R = [] := by rw [hR]; simp
    subst hR'
    rcases hs with ⟨j, h1, h2, h3, h4, h5⟩ | ⟨h1, ⟨j, h2, h3, h4⟩, _⟩
    · rw [drop_cons_of_lt h2] at h5
      cases h5
    · obtain ⟨s', e1, e2⟩ := flatMapLoop_stop h hf _ j s rfl h2 (by simpa using h3) h1 h4.symm
      refine ⟨s', (e1.ge (as.length - j + 1)).mono (fun F e => e.2 F e.1), _, e2, by simp, by simp⟩
  · rintro s m ⟨R, hs, hm⟩
    obtain ⟨j, hc⟩ := hs.ck
    exact ⟨⟨R, hs, hm⟩, j, R, hc, hm⟩
  · rintro s n c m ⟨R, hs, _⟩ hc hk hu
    obtain ⟨n', hat⟩ := hs.at
    exact hset (n := 0) hat hc (Or.inl (by simpa using hu))
  · rintro c m hc hk
    refine hset (n := 0) (h.get h.init).1 hc ?_
    rcases hk with hk | hk
    · exact Or.inl (by simpa using hk)
    · exact Or.inr ⟨hk, rfl⟩

/-- On a stream whose end is not reached flat_map resumes exactly. -/
theorem flatMapIter_resumes_prefix {p : Iter α} {as : List α} {g : α → List β} {f : α → Py (List β)}
    (hp : Resumes p (as.map Except.ok) false) (hf : ∀ a ∈ as, f a = .ok (g a)) :
    Resumes (flatMapIter f p) ((as.flatMap g).map Except.ok) false := by
  obtain ⟨At, Ck, h, hb⟩ := flatMapIter_sim hp hf
  refine ⟨At, Ck, ?_⟩
  refine { init := h.init, bound := h.bound, next_item := h.next_item, next_stop := h.next_stop, get := h.get,
           set := ?_, ck_bound := fun hc => by simpa using hb hc }
  intro s n c m hs hc hm
  exact h.set hs hc hm (by simpa using hm)
end
end Grain
