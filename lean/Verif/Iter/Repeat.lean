import Verif.Iter.FlatMap
/-
Simulation for repeat.
-/
namespace Grain

theorem replicate_flatten_get (xs : List α) (k e j : Nat) (he : e < k) (hj : j < xs.length) :
    ((List.replicate k xs).flatten)[e * xs.length + j]? = xs[j]? := by
  induction k generalizing e with
  | zero => omega
  | succ k ih =>
    rw [List.replicate_succ, List.flatten_cons]
    cases e with
    | zero => rw [Nat.zero_mul, Nat.zero_add, List.getElem?_append_left hj]
    | succ e =>
      rw [Nat.add_mul, Nat.one_mul, List.getElem?_append_right (by omega)]
      rw [show e * xs.length + xs.length + j - xs.length = e * xs.length + j by omega]
      exact ih e (by omega)

theorem replicate_flatten_length (xs : List α) (k : Nat) : ((List.replicate k xs).flatten).length = k * xs.length := by
  simp [List.length_flatten]

section
variable {p : Iter α} {xs : List (Py α)} {At : p.S → Nat → Prop} {Ck : p.C → Nat → Prop}

theorem repeatLoop_stop (h : Sim p xs true At Ck) (k : Nat) : ∀ (d : Nat) (s : RepeatState p.S p.C) (j : Nat),
    s.epoch + d + 1 = k → At s.ps j → Ck s.start 0 → j = xs.length → (0 < d → xs.length = 0) →
    ∃ s', Ev (fun F => ∀ n, d + 1 ≤ n → repeatLoop p (some k) F n s = some (s', .stop)) ∧
      At s'.ps xs.length ∧ Ck s'.start 0 ∧ s'.epoch = k := by
  intro d
  induction d with
  | zero =>
    intro s j hk hs hst hj _
    subst hj
    obtain ⟨ps, e1, e2⟩ := h.next_stop hs rfl
    refine ⟨{ s with ps := ps, epoch := s.epoch + 1 }, e1.mono ?_, e2, hst, by simpa using hk⟩
    intro F e n hn
    obtain ⟨n, rfl⟩ : ∃ m, n = m + 1 := ⟨n - 1, by omega⟩
    have : (some k = some (s.epoch + 1)) := by rw [← hk]
    simp only [repeatLoop, e, Option.bind_eq_bind, Option.bind_some, if_pos this]
  | succ d ih =>
    intro s j hk hs hst hj hl
    subst hj
    have hl0 := hl (by omega)
    obtain ⟨ps, e1, e2⟩ := h.next_stop hs rfl
    obtain ⟨ps', e3, e4⟩ := h.set e2 hst (Or.inr rfl)
    obtain ⟨s', e5, e6⟩ := ih { s with ps := ps', epoch := s.epoch + 1 } 0 (by simp only []; omega) e4 hst
      (by omega) (fun _ => hl0)
    refine ⟨s', (e1.mono₂ e3 (fun F a b => And.intro a b)).mono₂ e5 ?_, e6⟩
    intro F e e' n hn
    obtain ⟨n, rfl⟩ : ∃ m, n = m + 1 := ⟨n - 1, by omega⟩
    have : ¬ (some k = some (s.epoch + 1)) := by intro hc; injection hc; omega
    simp only [repeatLoop, e.1, e.2, Option.bind_eq_bind, Option.bind_some, if_neg this]
    exact e' n (by omega)

theorem repeatLoop_item (h : Sim p xs true At Ck) (E : Option Nat) (s : RepeatState p.S p.C) (j : Nat)
    (hs : At s.ps j) (hst : Ck s.start 0) (r : Py α) :
    (xs[j]? = some r → ∃ ps, Ev (fun F => ∀ n, 1 ≤ n → repeatLoop p E F n s = some ({ s with ps := ps }, toRes r)) ∧
      At ps (j + 1)) ∧
    (j = xs.length → E ≠ some (s.epoch + 1) → xs[0]? = some r →
      ∃ ps, Ev (fun F => ∀ n, 2 ≤ n → repeatLoop p E F n s =
        some ({ s with ps := ps, epoch := s.epoch + 1 }, toRes r)) ∧ At ps 1) := by
  have one : ∀ (s : RepeatState p.S p.C) (j : Nat), At s.ps j → xs[j]? = some r →
      ∃ ps, Ev (fun F => ∀ n, 1 ≤ n → repeatLoop p E F n s = some ({ s with ps := ps }, toRes r)) ∧ At ps (j + 1) := by
    intro s j hs hr
    obtain ⟨ps, e1, e2⟩ := h.next_item hs hr
    refine ⟨ps, e1.mono ?_, e2⟩
    intro F e n hn
    obtain ⟨n, rfl⟩ : ∃ m, n = m + 1 := ⟨n - 1, by omega⟩
    cases r <;> simp only [repeatLoop, e, Option.bind_eq_bind, Option.bind_some, toRes]
  refine ⟨one s j hs, ?_⟩
  rintro rfl hE hr
  obtain ⟨ps, e1, e2⟩ := h.next_stop hs rfl
  obtain ⟨ps', e3, e4⟩ := h.set e2 hst (Or.inr rfl)
  obtain ⟨ps'', e5, e6⟩ := one { s with ps := ps', epoch := s.epoch + 1 } 0 e4 hr
  refine ⟨ps'', (e1.mono₂ e3 (fun F a b => And.intro a b)).mono₂ e5 ?_, e6⟩
  intro F e e' n hn
  obtain ⟨n, rfl⟩ : ∃ m, n = m + 1 := ⟨n - 1, by omega⟩
  simp only [repeatLoop, e.1, e.2, Option.bind_eq_bind, Option.bind_some, if_neg hE]
  exact e' n (by omega)

theorem repeatIter_resumes {p : Iter α} {xs : List (Py α)} (hp : Resumes p xs true) (E : Option Nat) (k : Nat)
    (hk : 0 < k) (ended : Bool) (hE : (E = some k ∧ ended = true) ∨ (E = none ∧ ended = false)) :
    Resumes (repeatIter E p) (List.replicate k xs).flatten ended := by
  obtain ⟨At, Ck, h⟩ := hp
  let L := xs.length
  have hlen : ((List.replicate k xs).flatten).length = k * L := replicate_flatten_length xs k
  let Rel : Nat → Nat → Nat → Prop := fun e j m =>
    j ≤ L ∧ ((e < k ∧ m = e * L + j) ∨ (E = some k ∧ e = k ∧ m = k * L))
  have hRel : ∀ {e j m}, Rel e j m → m ≤ k * L := by
    rintro e j m ⟨h1, ⟨h2, rfl⟩ | ⟨_, _, rfl⟩⟩
    · have : (e + 1) * L ≤ k * L := Nat.mul_le_mul_right L h2
      rw [Nat.add_mul, Nat.one_mul] at this
      omega
    · exact Nat.le_refl _
  refine ⟨fun s m => ∃ j, At s.ps j ∧ Ck s.start 0 ∧ Rel s.epoch j m, fun c m => ∃ j, Ck c.1 j ∧ Rel c.2 j m, ?_⟩
  refine { init := ?_, bound := ?_, next_item := ?_, next_stop := ?_, get := ?_, set := ?_, ck_bound := ?_ }
  · obtain ⟨g1, g2⟩ := h.get h.init
    exact ⟨0, g1, g2, by omega, Or.inl ⟨hk, by simp [repeatIter]⟩⟩
  · rintro s m ⟨j, _, _, hm⟩
    rw [hlen]
    exact hRel hm
  · rintro s m r ⟨j, hs, hst, hjL, hm⟩ hr
    have hmlt : m < k * L := by have := getElem?_lt hr; omega
    rcases hm with ⟨he, rfl⟩ | ⟨_, _, rfl⟩
    swap
    · omega
    have hne : ¬ (E = some s.epoch) := by
      rcases hE with ⟨hE, _⟩ | ⟨hE, _⟩
      · rw [hE]; intro hc; injection hc; omega
      · rw [hE]; simp
    obtain ⟨l1, l2⟩ := repeatLoop_item h E s j hs hst r
    by_cases hj : j < L
    · rw [replicate_flatten_get xs k _ j he hj] at hr
      obtain ⟨ps, e1, e2⟩ := l1 hr
      refine ⟨{ s with ps := ps }, (e1.ge 1).mono ?_, j + 1, e2, hst, hj, Or.inl ⟨he, ?_⟩⟩
      · intro F e
        simp only [repeatIter, if_neg hne]
        exact e.2 F e.1
      · simp only []; omega
    · have hj' : j = L := by omega
      subst hj'
      have hL : 0 < L := by
        rcases Nat.eq_zero_or_pos L with h0 | h0
        · rw [h0] at hmlt; omega
        · exact h0
      have he' : s.epoch + 1 < k := by
        by_contra hc
        have : k * L ≤ (s.epoch + 1) * L := Nat.mul_le_mul_right L (by omega)
        rw [Nat.add_mul, Nat.one_mul] at this
        omega
      have hr' : xs[0]? = some r := by
        rw [show s.epoch * L + L = (s.epoch + 1) * xs.length + 0 by
          rw [Nat.add_mul, Nat.one_mul]; rfl, replicate_flatten_get xs k _ 0 he' hL] at hr
        exact hr
      obtain ⟨ps, e1, e2⟩ := l2 rfl (by
        rcases hE with ⟨hE, _⟩ | ⟨hE, _⟩
        · rw [hE]; intro hc; injection hc; omega
        · rw [hE]; simp) hr'
      refine ⟨{ s with ps := ps, epoch := s.epoch + 1 }, (e1.ge 2).mono ?_, 1, e2, hst, hL, Or.inl ⟨he', ?_⟩⟩
      · intro F e
        simp only [repeatIter, if_neg hne]
        exact e.2 F e.1
      · simp only []; rw [Nat.add_mul, Nat.one_mul]
  · rintro s ⟨j, hs, hst, hjL, hm⟩ hend
    rw [hlen] at hm ⊢
    obtain ⟨hE', _⟩ | ⟨_, hc⟩ := hE
    swap
    · rw [hend] at hc; cases hc
    rcases hm with ⟨he, hm⟩ | ⟨_, he, _⟩
    · have hne : ¬ (E = some s.epoch) := by
        rw [hE']; intro hc; injection hc; omega
      have hjl : j = L := by
        have : (s.epoch + 1) * L ≤ k * L := Nat.mul_le_mul_right L he
        rw [Nat.add_mul, Nat.one_mul] at this
        omega
      have hd : 0 < k - s.epoch - 1 → L = 0 := by
        intro hd
        have : (s.epoch + 2) * L ≤ k * L := Nat.mul_le_mul_right L (by omega)
        rw [Nat.add_mul] at this
        omega
      obtain ⟨s', e1, e2, e3, e4⟩ := repeatLoop_stop h k (k - s.epoch - 1) s j (by omega) hs hst hjl hd
      refine ⟨s', (e1.ge (k - s.epoch - 1 + 1)).mono ?_, xs.length, e2, e3, Nat.le_refl _,
        Or.inr ⟨hE', e4, rfl⟩⟩
      intro F e
      simp only [repeatIter, if_neg hne]
      rw [hE']
      exact e.2 F e.1
    · have hne : E = some s.epoch := by rw [hE', he]
      refine ⟨s, Ev.of_forall (fun F => ?_), j, hs, hst, hjL, Or.inr ⟨hE', he, rfl⟩⟩
      simp only [repeatIter, if_pos hne]
  · rintro s m ⟨j, hs, hst, hm⟩
    obtain ⟨g1, g2⟩ := h.get hs
    exact ⟨⟨j, g1, hst, hm⟩, j, g2, hm⟩
  · rintro s n c m ⟨j, hs, hst, _⟩ ⟨j', hc, hm⟩ _
    obtain ⟨ps, e1, e2⟩ := h.set hs hc (Or.inr rfl)
    refine ⟨{ s with ps := ps, epoch := c.2 }, e1.mono ?_, j', e2, hst, hm⟩
    intro F e
    simp only [repeatIter, e, Option.bind_eq_bind, Option.bind_some]
  · rintro c m ⟨j, _, hm⟩
    rw [hlen]
    exact hRel hm

/-- Within the first epoch nothing needs to be known about the end of the parent. -/
theorem repeatIter_resumes_prefix {p : Iter α} {xs : List (Py α)} (hp : Resumes p xs false) (E : Option Nat)
    (hE : E ≠ some 0) : Resumes (repeatIter E p) xs false := by
  obtain ⟨At, Ck, h⟩ := hp
  refine ⟨fun s m => At s.ps m ∧ s.epoch = 0, fun c m => Ck c.1 m ∧ c.2 = 0, ?_⟩
  refine { init := ⟨(h.get h.init).1, rfl⟩, bound := fun hs => h.bound hs.1, next_item := ?_,
           next_stop := fun _ hc => (by cases hc), get := fun hs => ⟨⟨(h.get hs.1).1, hs.2⟩, (h.get hs.1).2, hs.2⟩,
           set := ?_, ck_bound := fun hc => h.ck_bound hc.1 }
  · rintro s m r ⟨hs, he⟩ hr
    obtain ⟨ps, e1, e2⟩ := h.next_item hs hr
    refine ⟨{ s with ps := ps }, (e1.ge 1).mono ?_, e2, he⟩
    intro F e
    obtain ⟨n, rfl⟩ : ∃ m, F = m + 1 := ⟨F - 1, by omega⟩
    have hne : ¬ (E = some s.epoch) := by rw [he]; exact hE
    simp only [repeatIter, if_neg hne]
    cases r <;> simp only [repeatLoop, e.2, Option.bind_eq_bind, Option.bind_some, toRes]
  · rintro s n c m ⟨hs, he⟩ ⟨hc, hc0⟩ hm
    obtain ⟨ps, e1, e2⟩ := h.set hs hc hm
    refine ⟨{ s with ps := ps, epoch := c.2 }, e1.mono ?_, e2, hc0⟩
    intro F e
    simp only [repeatIter, e, Option.bind_eq_bind, Option.bind_some]
end
end Grain
