import Verif.Loader.Spec
/-
Property C42: the size of a sampler without `__len__` is found by bisection.
-/
namespace Grain

theorem samplerSearch_found {probe : Nat → Py RecMeta} {n : Nat} (hok : ∀ i, i < n → ∃ m, probe i = .ok m)
    (hend : ∀ i, n ≤ i → probe i = .error .indexError) :
    ∀ lo hi, lo ≤ min n hi → samplerSearch probe lo hi = .ok (min n hi) := by
  intro lo hi
  induction lo, hi using samplerSearch.induct probe with
  | case1 lo hi h m hm ih =>
    intro hle
    rw [samplerSearch, dif_pos h, hm]
    dsimp only
    have : (lo + hi) / 2 < n := by
      rcases Nat.lt_or_ge ((lo + hi) / 2) n with h' | h'
      · exact h'
      · rw [hend _ h'] at hm; cases hm
    exact ih (by omega)
  | case2 lo hi h hm ih =>
    intro hle
    rw [samplerSearch, dif_pos h, hm]
    dsimp only
    have : n ≤ (lo + hi) / 2 := by
      rcases Nat.lt_or_ge ((lo + hi) / 2) n with h' | h'
      · obtain ⟨m, h2⟩ := hok _ h'
        rw [hm] at h2; cases h2
      · exact h'
    rw [ih (by omega)]
    congr 1
    omega
  | case3 lo hi h e he hm =>
    intro _
    rcases Nat.lt_or_ge ((lo + hi) / 2) n with h' | h'
    · obtain ⟨m, h2⟩ := hok _ h'
      rw [hm] at h2; cases h2
    · rw [hend _ h'] at hm
      cases hm
      exact absurd rfl he
  | case4 lo hi h =>
    intro hle
    rw [samplerSearch, dif_neg h]
    congr 1
    omega

theorem samplerSearch_raises {probe : Nat → Py RecMeta} {e : Err} (he : e ≠ .indexError) :
    ∀ lo hi, (∀ i, probe i = .error e) → lo < hi → samplerSearch probe lo hi = .error e := by
  intro lo hi h hlt
  rw [samplerSearch, dif_pos hlt, h]
  cases e <;> first | rfl | exact absurd rfl he

end Grain
