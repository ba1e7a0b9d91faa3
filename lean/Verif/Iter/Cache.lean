import Verif.Iter.Repeat
/-
Simulations for the in-memory cache.
-/
namespace Grain

section
variable {p : Iter α} {as : List α} {ended : Bool} {At : p.S → Nat → Prop} {Ck : p.C → Nat → Prop}

theorem cacheRefill_ok (h : Sim p (as.map Except.ok) ended At Ck) :
    ∀ (n q : Nat) (s : p.S) (acc : List α), At s q → q + n ≤ as.length →
    ∃ s', Ev (fun F => cacheRefill p F n s acc = some (s', acc ++ (as.drop q).take n, none)) ∧ At s' (q + n) := by
  intro n
  induction n with
  | zero => intro q s acc hs _; exact ⟨s, Ev.of_forall (fun F => by simp [cacheRefill]), hs⟩
  | succ n ih =>
    intro q s acc hs hq
    have hlt : q < as.length := by omega
    obtain ⟨s1, h1, h2⟩ := h.next_item (r := .ok as[q]) hs (by simp [hlt])
    obtain ⟨s2, h3, h4⟩ := ih (q + 1) s1 (acc ++ [as[q]]) h2 (by omega)
    refine ⟨s2, h1.mono₂ h3 ?_, by rw [show q + (n + 1) = q + 1 + n by omega]; exact h4⟩
    intro F e1 e2
    simp only [cacheRefill, e1, Option.bind_eq_bind, Option.bind_some, toRes, e2]
    rw [drop_cons_of_lt hlt, List.take_succ_cons, List.append_assoc, List.singleton_append]

/-- Reading through with nothing to rebuild. -/
def CaOpen (as : List α) (At : p.S → Nat → Prop) (s : CacheState p.S p.C α) (m : Nat) : Prop :=
  s.filled = false ∧ s.rebuild = false ∧ At s.ps m ∧ s.position = m ∧ m ≤ s.cache.length ∧
    s.cache = as.take s.cache.length

/-- The cache is to be rebuilt on the next call. -/
def CaRebuild (At : p.S → Nat → Prop) (s : CacheState p.S p.C α) (q m : Nat) : Prop :=
  s.filled = false ∧ s.rebuild = true ∧ At s.ps q ∧ s.position = m

theorem cacheRead_item (h : Sim p (as.map Except.ok) ended At Ck) (s : CacheState p.S p.C α) (m : Nat)
    (hs : CaOpen as At s m) (hm : m < as.length) :
    ∃ s', Ev (fun F => cacheRead p F s = some (s', .item as[m])) ∧ CaOpen as At s' (m + 1) ∧ s'.start = s.start := by
  obtain ⟨h1, h2, h3, h4, h5, h6⟩ := hs
  obtain ⟨ps, e1, e2⟩ := h.next_item (r := .ok as[m]) h3 (by simp [hm])
  by_cases hl : s.cache.length = m
  · refine ⟨{ s with ps := ps, cache := s.cache ++ [as[m]], position := m + 1 }, e1.mono ?_, ⟨h1, h2, e2, rfl, ?_, ?_⟩,
      rfl⟩
    · intro F e
      simp only [cacheRead, e, Option.bind_eq_bind, Option.bind_some, toRes, h4, if_pos hl]
    · simp [hl]
    · simp only [List.length_append, List.length_singleton, hl]
      rw [List.take_add_one, List.getElem?_eq_getElem hm]
      rw [hl] at h6
      rw [h6]
      simp
  · refine ⟨{ s with ps := ps, position := m + 1 }, e1.mono ?_, ⟨h1, h2, e2, rfl, ?_, h6⟩, rfl⟩
    · intro F e
      simp only [cacheRead, e, Option.bind_eq_bind, Option.bind_some, toRes, h4, if_neg hl]
    · simp only []; omega

/-- Rebuilding leads to the open state, then the call reads on. -/
theorem cacheNext_rebuild (h : Sim p (as.map Except.ok) ended At Ck) (s : CacheState p.S p.C α) (q m : Nat)
    (hs : CaRebuild At s q m) (hst : Ck s.start 0) (hm : m ≤ as.length) (hk : 0 < as.length ∨ ended = true) :
    ∃ s', Ev (fun F => cacheNext p F s = cacheRead p F s') ∧ CaOpen as At s' m ∧ s'.start = s.start := by
  obtain ⟨h1, h2, h3, h4⟩ := hs
  obtain ⟨ps, e1, e2⟩ := h.set h3 hst (by simpa using hk)
  obtain ⟨ps', e3, e4⟩ := cacheRefill_ok h m 0 ps [] e2 (by omega)
  refine ⟨{ s with ps := ps', cache := as.take m, rebuild := false }, e1.mono₂ e3 ?_, ⟨h1, rfl, ?_, h4, ?_, ?_⟩, rfl⟩
  · intro F e e'
    simp only [cacheNext, h1, h2, Bool.false_eq_true, if_false, if_true, e, Option.bind_eq_bind, Option.bind_some, h4, e',
      List.drop_zero, List.nil_append]
  · simpa using e4
  · simp [hm]
  · simp

theorem cacheNext_open (s : CacheState p.S p.C α) (m : Nat) (hs : CaOpen as At s m) (F : Nat) :
    cacheNext p F s = cacheRead p F s := by
  simp only [cacheNext, hs.1, hs.2.1, Bool.false_eq_true, if_false]

/-- As long as the end is not reached, the cache resumes exactly. -/
theorem cacheIter_resumes_prefix {p : Iter α} {as : List α} (hp : Resumes p (as.map Except.ok) false) :
    Resumes (cacheIter p) (as.map Except.ok) false := by
  obtain ⟨At, Ck, h⟩ := hp
  refine ⟨fun s m => (CaOpen as At s m ∨ CaRebuild At s m m) ∧ Ck s.start 0 ∧ m ≤ as.length,
    fun c m => Ck c.1 m ∧ c.2.1 = m ∧ c.2.2 = false ∧ m ≤ as.length, ?_⟩
  refine { init := ⟨Or.inl ⟨rfl, rfl, (h.get h.init).1, rfl, by simp [cacheIter], by simp [cacheIter]⟩,
             (h.get h.init).2, by omega⟩,
           bound := fun hs => (by simpa using hs.2.2), next_item := ?_,
           next_stop := fun _ hc => (by cases hc), get := ?_,
           set := ?_, ck_bound := fun hc => (by simpa using hc.2.2.2) }
  · rintro s m r ⟨hs, hst, _⟩ hr
    have hm : m < as.length := by simpa using getElem?_lt hr
    have hr' : r = .ok as[m] := by
      rw [List.getElem?_map, List.getElem?_eq_getElem hm] at hr
      simpa using hr.symm
    subst hr'
    rcases hs with hs | hs
    · obtain ⟨s', e1, e2, e3⟩ := cacheRead_item h s m hs hm
      refine ⟨s', e1.mono ?_, Or.inl e2, by rw [e3]; exact hst, hm⟩
      intro F e
      show cacheNext p F s = _
      rw [cacheNext_open s m hs, e]; rfl
    · obtain ⟨s1, e1, e2, e3⟩ := cacheNext_rebuild h s m m hs hst (by omega) (by omega)
      obtain ⟨s', e4, e5, e6⟩ := cacheRead_item h s1 m e2 hm
      refine ⟨s', e1.mono₂ e4 ?_, Or.inl e5, by rw [e6, e3]; exact hst, hm⟩
      intro F e e'
      show cacheNext p F s = _
      rw [e, e']; rfl
  · rintro s m ⟨hs, hst, hm⟩
    rcases hs with ⟨h1, h2, h3, h4, h5, h6⟩ | ⟨h1, h2, h3, h4⟩
    · exact ⟨⟨Or.inl ⟨h1, h2, (h.get h3).1, h4, h5, h6⟩, hst, hm⟩, (h.get h3).2, h4, h1, hm⟩
    · exact ⟨⟨Or.inr ⟨h1, h2, (h.get h3).1, h4⟩, hst, hm⟩, (h.get h3).2, h4, h1, hm⟩
  · rintro s n c m ⟨hs, hst, _⟩ ⟨hc1, hc2, hc3, hc4⟩ hk
    have hat : ∃ n', At s.ps n' ∧ s.filled = false ∧ (s.rebuild = false → s.cache = as.take s.cache.length) := by
      rcases hs with ⟨h1, h2, h3, h4, h5, h6⟩ | ⟨h1, h2, h3, h4⟩
      · exact ⟨_, h3, h1, fun _ => h6⟩
      · exact ⟨_, h3, h1, fun hc => by rw [h2] at hc; cases hc⟩
    obtain ⟨n', hat, hf, hca⟩ := hat
    obtain ⟨ps, e1, e2⟩ := h.set hat hc1 hk
    by_cases hm : m > s.cache.length
    · refine ⟨{ s with ps := ps, position := m, rebuild := true }, e1.mono ?_, Or.inr ⟨hf, rfl, e2, rfl⟩, hst, hc4⟩
      intro F e
      simp [cacheIter, hc3, e, hc2, hf, hm]
    · refine ⟨{ s with ps := ps, position := m }, e1.mono ?_, ?_, hst, hc4⟩
      · intro F e
        simp [cacheIter, hc3, e, hc2, hm]
      · cases hrb : s.rebuild with
        | true => exact Or.inr ⟨hf, rfl, e2, rfl⟩
        | false => exact Or.inl ⟨hf, rfl, e2, rfl, by simp only []; omega, hca hrb⟩

/-- To the end of the data, the cache resumes exactly into fresh iterators. -/
theorem cacheIter_sim_fresh {p : Iter α} {as : List α} (hp : Resumes p (as.map Except.ok) true) :
    ∃ At Ck, SimWhen (fun _ => false) (cacheIter p) (as.map Except.ok) true At Ck := by
  obtain ⟨At, Ck, h⟩ := hp
  let Full : (cacheIter p).S → Nat → Prop := fun s m =>
    s.filled = true ∧ s.cache = as ∧ s.position = m ∧ ∃ q, q ≤ m ∧ At s.ps q
  refine ⟨fun s m => (CaOpen as At s m ∨ (∃ q, q ≤ m ∧ CaRebuild At s q m) ∨ Full s m) ∧ Ck s.start 0 ∧ m ≤ as.length,
    fun c m => (∃ q, q ≤ m ∧ Ck c.1 q) ∧ c.2.1 = m ∧ m ≤ as.length, ?_⟩
  refine { init := ⟨Or.inl ⟨rfl, rfl, (h.get h.init).1, rfl, by simp [cacheIter], by simp [cacheIter]⟩,
             (h.get h.init).2, by omega⟩,
           bound := fun hs => (by simpa using hs.2.2), next_item := ?_,
           next_stop := ?_, get := ?_,
           set := fun _ _ _ hu => (by cases hu), set_init := ?_ }
  · rintro s m r ⟨hs, hst, _⟩ hr
    have hm : m < as.length := by simpa using getElem?_lt hr
    have hr' : r = .ok as[m] := by
      rw [List.getElem?_map, List.getElem?_eq_getElem hm] at hr
      simpa using hr.symm
    subst hr'
    rcases hs with hs | ⟨q, hq, hs⟩ | hs
    · obtain ⟨s', e1, e2, e3⟩ := cacheRead_item h s m hs hm
      refine ⟨s', e1.mono ?_, Or.inl e2, by rw [e3]; exact hst, hm⟩
      intro F e
      show cacheNext p F s = _
      rw [cacheNext_open s m hs, e]; rfl
    · obtain ⟨s1, e1, e2, e3⟩ := cacheNext_rebuild h s q m hs hst (by omega) (by omega)
      obtain ⟨s', e4, e5, e6⟩ := cacheRead_item h s1 m e2 hm
      refine ⟨s', e1.mono₂ e4 ?_, Or.inl e5, by rw [e6, e3]; exact hst, hm⟩
      intro F e e'
      show cacheNext p F s = _
      rw [e, e']; rfl
    · obtain ⟨h1, h2, h3, q, h4, h5⟩ := hs
      refine ⟨{ s with position := s.position + 1 }, Ev.of_forall (fun F => ?_), Or.inr (Or.inr ⟨h1, h2, ?_, q, ?_, h5⟩),
        hst, hm⟩
      · show cacheNext p F s = _
        have : s.cache[s.position]? = some as[m] := by rw [h2, h3]; exact List.getElem?_eq_getElem hm
        simp only [cacheNext, h1, if_true, this]; rfl
      · simp only [h3]
      · omega
  · have stop_open : ∀ s : CacheState p.S p.C α, CaOpen as At s as.length →
        ∃ s', Ev (fun F => cacheRead p F s = some (s', .stop)) ∧ Full s' as.length ∧ s'.start = s.start := by
      rintro s ⟨h1, h2, h3, h4, h5, h6⟩
      have hl : (as.map (Except.ok (ε := Err))).length = as.length := by simp
      obtain ⟨ps, e1, e2⟩ := h.next_stop (hl.symm ▸ h3) rfl
      refine ⟨{ s with ps := ps, filled := true }, e1.mono ?_, ⟨rfl, ?_, h4, _, Nat.le_refl _, hl ▸ e2⟩, rfl⟩
      · intro F e
        simp only [cacheRead, e, Option.bind_eq_bind, Option.bind_some]
      · show s.cache = as
        rw [h6, List.take_of_length_le h5]
    rintro s ⟨hs, hst, _⟩ _
    rw [List.length_map] at hs ⊢
    rcases hs with hs | ⟨q, hq, hs⟩ | hs
    · obtain ⟨s', e1, e2, e3⟩ := stop_open s hs
      refine ⟨s', e1.mono ?_, Or.inr (Or.inr e2), by rw [e3]; exact hst, Nat.le_refl _⟩
      intro F e
      show cacheNext p F s = _
      rw [cacheNext_open s _ hs, e]
      rfl
    · obtain ⟨s1, e1, e2, e3⟩ := cacheNext_rebuild h s q _ hs hst (Nat.le_refl _) (Or.inr rfl)
      obtain ⟨s', e4, e5, e6⟩ := stop_open s1 e2
      refine ⟨s', e1.mono₂ e4 ?_, Or.inr (Or.inr e5), by rw [e6, e3]; exact hst, Nat.le_refl _⟩
      intro F e e'
      show cacheNext p F s = _
      rw [e, e']
      rfl
    · refine ⟨s, Ev.of_forall (fun F => ?_), Or.inr (Or.inr hs), hst, Nat.le_refl _⟩
      show cacheNext p F s = _
      have : s.cache[s.position]? = none := by rw [hs.2.1, hs.2.2.1]; simp
      simp only [cacheNext, hs.1, if_true, this]
      rfl
  · rintro s m ⟨hs, hst, hm⟩
    rcases hs with ⟨h1, h2, h3, h4, h5, h6⟩ | ⟨q, hq, h1, h2, h3, h4⟩ | ⟨h1, h2, h3, q, hq, h5⟩
    · exact ⟨⟨Or.inl ⟨h1, h2, (h.get h3).1, h4, h5, h6⟩, hst, hm⟩, ⟨m, Nat.le_refl _, (h.get h3).2⟩, h4, hm⟩
    · exact ⟨⟨Or.inr (Or.inl ⟨q, hq, h1, h2, (h.get h3).1, h4⟩), hst, hm⟩, ⟨q, hq, (h.get h3).2⟩, h4, hm⟩
    · exact ⟨⟨Or.inr (Or.inr ⟨h1, h2, h3, q, hq, (h.get h5).1⟩), hst, hm⟩, ⟨q, hq, (h.get h5).2⟩, h3, hm⟩
  · rintro c m ⟨⟨q, hq, hc1⟩, hc2, hc3⟩ _
    obtain ⟨ps, e1, e2⟩ := h.set (h.get h.init).1 hc1 (Or.inr rfl)
    by_cases hrb : c.2.2 = true ∨ 0 < m
    · refine ⟨{ (cacheIter p).init with ps := ps, position := m, rebuild := true }, e1.mono ?_,
        Or.inr (Or.inl ⟨q, hq, rfl, rfl, e2, rfl⟩), (h.get h.init).2, hc3⟩
      intro F e
      rcases hrb with hrb | hrb
      · simp [cacheIter, hrb, e, hc2]
      · cases hcf : c.2.2 <;> simp [cacheIter, hcf, e, hc2, hrb]
    · have hcf : c.2.2 = false := by cases hh : c.2.2 <;> simp_all
      have hm0 : m = 0 := by omega
      subst hm0
      have hq0 : q = 0 := by omega
      subst hq0
      refine ⟨{ (cacheIter p).init with ps := ps }, e1.mono ?_,
        Or.inl ⟨rfl, rfl, e2, rfl, by simp [cacheIter], by simp [cacheIter]⟩, (h.get h.init).2, hc3⟩
      intro F e
      simp [cacheIter, hcf, e, hc2]
end
end Grain
