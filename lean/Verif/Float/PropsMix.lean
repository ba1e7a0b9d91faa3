import Verif.Float.LemmasMix
/-
C06 for the length the program computes, and C70: how far a mix follows the weights it was given.
-/
namespace Grain

/-- C06 for the computed length: as long as `len * (sum of proportions)` stays below `2^52` for every component, the length
computed in floating point is the exact one or one less.  The exact one is the largest length at which no component is read
past its end (`selProportions`, `mix_no_wrap_around`). -/
theorem mix_length_close {lens ps : List ℕ} (hl : lens.length = ps.length) (hne : ps ≠ []) (hpos : ∀ p ∈ ps, 0 < p)
    (hlens : ∀ l ∈ lens, 0 < l) (hsmall : ∀ l ∈ lens, l * ps.sum < 2 ^ 52) :
    ∃ sm L, selProportions lens ps = .ok sm ∧ mixLenFloat lens (ps.map (fun p : ℕ => (p : ℤ))) = .ok ((L : ℕ) : ℤ) ∧
      L ≤ sm.len ∧ sm.len ≤ L + 1 :=
  mixLenFloat_close hl hne hpos hlens hsmall

/-- C06 for the computed length: below it no component is read past its end, so no element appears twice.  Missing for the
full claim: longer datasets, for which it is false (`mix_length_repeats_element`). -/
theorem mix_computed_length_no_wrap_around_partial {lens ps : List ℕ} (hl : lens.length = ps.length) (hne : ps ≠ [])
    (hpos : ∀ p ∈ ps, 0 < p) (hlens : ∀ l ∈ lens, 0 < l) (hsmall : ∀ l ∈ lens, l * ps.sum < 2 ^ 52) {L : ℕ}
    (hL : mixLenFloat lens (ps.map (fun p : ℕ => (p : ℤ))) = .ok ((L : ℕ) : ℤ)) {k : ℕ} (hk : k < L) :
    ∃ d key len, datasetAndKey k ps = .ok (d, key) ∧ lens[d]? = some len ∧ 0 ≤ key ∧ key < (len : Int) := by
  obtain ⟨sm, L', h1, h2, h3, h4⟩ := mixLenFloat_close hl hne hpos hlens hsmall
  rw [hL] at h2
  have hLL : L = L' := by
    have := Except.ok.inj h2
    exact_mod_cast this
  obtain ⟨d, key, len, a, b⟩ := mix_no_wrap_around lens ps sm h1 k (by omega)
  refine ⟨d, key, len, ?_, b⟩
  rw [← a]
  unfold selProportions at h1
  split at h1
  · cases h1
  split at h1
  · cases h1
  split at h1
  · cases h1
  simp only at h1
  split at h1
  · cases h1
  · cases h1; rfl

example : mixLenFloat [10, 4, 7] [3, 1, 2] = .ok 20 ∧ (∀ l ∈ [10, 4, 7], l * [3, 1, 2].sum < 2 ^ 52) := by
  decide +kernel

/-- Against C06 (the epoch is as long as it can be): mixing a dataset of 9 elements and one of 5 with the weights 9 and 5,
the length is 13 although 14 positions need no element twice: the last element of the second dataset is never delivered. -/
theorem mix_length_loses_element :
    mixInit [9, 5] (some [9, 5]) = .ok ([180, 100], 13) ∧
    (selProportions [9, 5] [180, 100]).map (·.len) = .ok 14 ∧
    datasetAndKey 13 [180, 100] = .ok (1, 4) := by
  decide +kernel

/-- Against C06 without the limit: a mix of `22540611191234` and twice as many elements with the weights 50 and 34 is one
element too long: its last position reads the first component at the index that is its length, which is its first element
again. -/
theorem mix_length_repeats_element :
    mixInit [22540611191234, 45081222382468] (some [50, 34]) = .ok ([147, 100], 37874360300917) ∧
    datasetAndKey 37874360300916 [147, 100] = .ok (0, 22540611191234) := by
  decide +kernel

/-- The share of the scaled weight is close to the share of the weight. -/
theorem scaled_share {m : ℚ} {values : List ℚ} (hm : m ∈ values) (hmin : ∀ v ∈ values, m ≤ v) (hv : ∀ v ∈ values, Weight v)
    {v : ℚ} (hmem : v ∈ values) :
    (scaled (fl (100 / m)) v : ℚ) * values.sum * 98 ≤ 99 * v * ((values.map (scaled (fl (100 / m)))).sum : ℚ) ∧
      97 * v * ((values.map (scaled (fl (100 / m)))).sum : ℚ) ≤ (scaled (fl (100 / m)) v : ℚ) * values.sum * 98 := by
  have hmw := hv m hm
  have hmp : 0 < m := lt_of_lt_of_le (two_zpow_pos _) hmw.2.1
  have hvp : 0 < v := lt_of_lt_of_le hmp (hmin v hmem)
  obtain ⟨_, _, _, _, b5, b6⟩ := scaled_bounds hmw (hv v hmem) (hmin v hmem)
  obtain ⟨s1, s2, s3⟩ := scaled_sum hmw values hv hmin
  have hlen : (1 : ℚ) ≤ values.length := by
    exact_mod_cast List.length_pos_iff.2 (List.ne_nil_of_mem hm)
  generalize ((values.map (scaled (fl (100 / m)))).sum : ℚ) = P at *
  generalize (scaled (fl (100 / m)) v : ℚ) = g at *
  generalize (values.length : ℚ) = n at *
  have hV : 0 < values.sum := lt_of_lt_of_le (mul_pos (by linarith) hmp) s3
  generalize values.sum = V at *
  have hn : n ≤ V / m := by rw [le_div_iff₀ hmp]; exact s3
  have h1 : 1 ≤ v / m := by rw [le_div_iff₀ hmp, one_mul]; exact hmin v hmem
  have ev : 100 * v / m = 100 * (v / m) := by ring
  have eV : 100 * V / m = 100 * (V / m) := by ring
  rw [ev] at b5 b6
  rw [eV] at s1 s2
  have hvm : v = v / m * m := by field_simp
  have hVm : V = V / m * m := by field_simp
  generalize v / m = x at *
  generalize V / m = X at *
  have hX : 0 < X := by
    have : 0 < X * m := by rw [← hVm]; exact hV
    exact (mul_pos_iff_of_pos_right hmp).1 this
  have hx : 0 < x := by linarith
  -- in units of the smallest weight
  have g1 : g ≤ x * (100 + 1 / 10000) := by
    have : (100 : ℚ) * (1 + 1 / 2 ^ 53) ^ 2 ≤ 100 + 1 / 10000 := by norm_num
    have := mul_le_mul_of_nonneg_left this (le_of_lt hx)
    linarith
  have g2 : x * (99 - 1 / 10000) ≤ g := by
    have : (100 : ℚ) - 1 / 10000 ≤ 100 * (1 - 1 / 2 ^ 53) ^ 2 := by norm_num
    have := mul_le_mul_of_nonneg_left this (le_of_lt hx)
    linarith
  have P1 : P ≤ X * (100 + 1 / 10000) := by
    have : (100 : ℚ) * (1 + 1 / 2 ^ 53) ^ 2 ≤ 100 + 1 / 10000 := by norm_num
    have := mul_le_mul_of_nonneg_left this (le_of_lt hX)
    linarith
  have P2 : X * (99 - 1 / 10000) ≤ P := by
    have : (100 : ℚ) - 1 / 10000 ≤ 100 * (1 - 1 / 2 ^ 53) ^ 2 := by norm_num
    have := mul_le_mul_of_nonneg_left this (le_of_lt hX)
    linarith
  have key1 : g * X * 98 ≤ 99 * x * P := by
    have a1 : g * X * 98 ≤ x * (100 + 1 / 10000) * X * 98 :=
      mul_le_mul_of_nonneg_right (mul_le_mul_of_nonneg_right g1 (le_of_lt hX)) (by norm_num)
    have a2 : 99 * x * (X * (99 - 1 / 10000)) ≤ 99 * x * P := mul_le_mul_of_nonneg_left P2 (by positivity)
    have a3 : x * X * ((100 + 1 / 10000) * 98) ≤ x * X * (99 * (99 - 1 / 10000)) :=
      mul_le_mul_of_nonneg_left (by norm_num) (by positivity)
    linarith
  have key2 : 97 * x * P ≤ g * X * 98 := by
    have a1 : 97 * x * P ≤ 97 * x * (X * (100 + 1 / 10000)) := mul_le_mul_of_nonneg_left P1 (by positivity)
    have a2 : x * (99 - 1 / 10000) * X * 98 ≤ g * X * 98 :=
      mul_le_mul_of_nonneg_right (mul_le_mul_of_nonneg_right g2 (le_of_lt hX)) (by norm_num)
    have a3 : x * X * (97 * (100 + 1 / 10000)) ≤ x * X * ((99 - 1 / 10000) * 98) :=
      mul_le_mul_of_nonneg_left (by norm_num) (by positivity)
    linarith
  rw [hvm, hVm]
  constructor
  · have := mul_le_mul_of_nonneg_right key1 (le_of_lt hmp)
    linarith
  · have := mul_le_mul_of_nonneg_right key2 (le_of_lt hmp)
    linarith

/-- C70 in part: whatever positive weights `values` are given, the integer proportions used for mixing are positive, and at every
position `k` the number of elements drawn so far from component `d` is its share of `k` by the given weights, up to one part
in 98 of that share and one element per preceding component.  The part that grows with `k` cannot be avoided
(`mix_drifts_from_weights`). -/
theorem mix_follows_weights_partial {values : List ℚ} (hne : values ≠ []) (hv : ∀ v ∈ values, Weight v) :
    ∃ ps : List ℕ, floatToIntProportions values = .ok (ps.map (fun p : ℕ => (p : ℤ))) ∧ ps.length = values.length ∧
      (∀ p ∈ ps, 0 < p) ∧
      ∀ (d : ℕ) (v : ℚ), values[d]? = some v → ∀ k : ℕ,
        |(drawn ps d 0 k : ℚ) - k * (v / values.sum)| ≤ k * (v / values.sum) / 98 + (d + 1) := by
  obtain ⟨m, hm, hmin, hok⟩ := floatToIntProportions_ok hne hv
  have hmw := hv m hm
  have hmp : 0 < m := lt_of_lt_of_le (two_zpow_pos _) hmw.2.1
  have hps : ∀ p ∈ values.map (scaled (fl (100 / m))), 0 < p := by
    intro p hp
    obtain ⟨v, hvm, rfl⟩ := List.mem_map.1 hp
    obtain ⟨_, _, _, _, b5, _⟩ := scaled_bounds hmw (hv v hvm) (hmin v hvm)
    have h100 : (100 : ℚ) ≤ 100 * v / m := by
      rw [le_div_iff₀ hmp]; exact mul_le_mul_of_nonneg_left (hmin v hvm) (by norm_num)
    have h1 := mul_le_mul_of_nonneg_right h100 (by norm_num : (0 : ℚ) ≤ (1 - 1 / 2 ^ 53) ^ 2)
    have h2 : (1 : ℚ) < 100 * (1 - 1 / 2 ^ 53) ^ 2 := by norm_num
    have : (0 : ℚ) < (scaled (fl (100 / m)) v : ℚ) := by linarith
    exact_mod_cast this
  refine ⟨_, hok, by simp, hps, ?_⟩
  intro d v hd k
  have hmem : v ∈ values := List.mem_of_getElem? hd
  have hdw : (values.map (scaled (fl (100 / m))))[d]? = some (scaled (fl (100 / m)) v) := by
    rw [List.getElem?_map, hd]; rfl
  obtain ⟨d1, d2⟩ := mix_bounded_drift _ hps d _ k hdw
  obtain ⟨c1, c2⟩ := scaled_share hm hmin hv hmem
  have hvp : 0 < v := lt_of_lt_of_le hmp (hmin v hmem)
  have hV : 0 < values.sum := by
    obtain ⟨_, _, s3⟩ := scaled_sum hmw values hv hmin
    have hlen : (1 : ℚ) ≤ values.length := by
      exact_mod_cast List.length_pos_iff.2 hne
    exact lt_of_lt_of_le (mul_pos (by linarith) hmp) s3
  have hPN : 0 < (values.map (scaled (fl (100 / m)))).sum := by
    have := mem_le_sum' (List.mem_of_getElem? hdw)
    have := hps _ (List.mem_of_getElem? hdw)
    omega
  generalize drawn (values.map (scaled (fl (100 / m)))) d 0 k = D at *
  generalize (values.map (scaled (fl (100 / m)))).sum = P at *
  generalize scaled (fl (100 / m)) v = g at *
  generalize values.sum = V at *
  have hPq : (0 : ℚ) < P := by exact_mod_cast hPN
  have D1 : (D : ℚ) * P < k * g + P := by exact_mod_cast d1
  have D2 : (k : ℚ) * g ≤ (D + d) * P := by exact_mod_cast d2
  have hk : (0 : ℚ) ≤ k := by exact_mod_cast Nat.zero_le k
  -- the share by the integer proportions
  have s1 : (g : ℚ) / P ≤ v / V * (99 / 98) := by
    rw [div_le_iff₀ hPq, div_mul_eq_mul_div, div_mul_eq_mul_div, le_div_iff₀ hV]
    linarith
  have s2 : v / V * (97 / 98) ≤ (g : ℚ) / P := by
    rw [le_div_iff₀ hPq, div_mul_eq_mul_div, div_mul_eq_mul_div, div_le_iff₀ hV]
    linarith
  have D1' : (D : ℚ) ≤ k * (g / P) + 1 := by
    have h : (D : ℚ) < (k * g + P) / P := by rw [lt_div_iff₀ hPq]; exact D1
    have e : ((k : ℚ) * g + P) / P = k * (g / P) + 1 := by field_simp
    linarith
  have D2' : (k : ℚ) * (g / P) ≤ D + d := by
    have h : (k : ℚ) * g / P ≤ D + d := by rw [div_le_iff₀ hPq]; exact D2
    have e : (k : ℚ) * g / P = k * (g / P) := by ring
    linarith
  have t1 := mul_le_mul_of_nonneg_left s1 hk
  have t2 := mul_le_mul_of_nonneg_left s2 hk
  have hd0 : (0 : ℚ) ≤ d := by exact_mod_cast Nat.zero_le d
  rw [abs_le]
  constructor
  · linarith
  · linarith

-- weights as users write them are floats of ordinary size: 3, 7 and the float nearest to 0.1
example : Weight 3 ∧ Weight 7 ∧ Weight (fl (1 / 10)) := by
  unfold Weight
  decide +kernel

-- the weights 0.1, 0.2, 0.7
example : floatToIntProportions [fl (1 / 10), fl (1 / 5), fl (7 / 10)] = .ok [100, 200, 700] := by decide +kernel

/-- C70: weights that are all equal are followed exactly, as are proportions left out: each component gets the same integer
proportion, so every round of the mix takes one element from each. -/
theorem mix_equal_weights {v : ℚ} (hv : Weight v) (n : ℕ) (hn : 0 < n) :
    ∃ p : ℕ, 0 < p ∧ floatToIntProportions (List.replicate n v) = .ok (List.replicate n (p : ℤ)) := by
  have hall : ∀ w ∈ List.replicate n v, w = v := fun w h => List.eq_of_mem_replicate h
  obtain ⟨ps, h1, h2, h3, _⟩ := mix_follows_weights_partial (values := List.replicate n v)
    (by intro h; rw [List.replicate_eq_nil_iff] at h; omega) (fun w h => by rw [hall w h]; exact hv)
  obtain ⟨m, hm, _, hok⟩ := floatToIntProportions_ok (values := List.replicate n v)
    (by intro h; rw [List.replicate_eq_nil_iff] at h; omega) (fun w h => by rw [hall w h]; exact hv)
  refine ⟨scaled (fl (100 / m)) v, ?_, by rw [hok]; simp⟩
  rw [hok] at h1
  have hinj : Function.Injective (fun p : ℕ => (p : ℤ)) := fun a b h => by simpa using h
  have h4 := List.map_injective_iff.2 hinj (Except.ok.inj h1)
  apply h3
  rw [← h4, List.map_replicate]
  exact List.mem_replicate.2 ⟨by omega, rfl⟩

/-- Against C70 (exact shares): with the weights 3 and 7 the proportions are 100 and 233, and the number of elements drawn
from the first component exceeds three tenths of the position by any amount, given enough elements. -/
theorem mix_drifts_from_weights :
    floatToIntProportions [3, 7] = .ok [100, 233] ∧
    ∀ B : ℕ, ∃ k : ℕ, (B : ℚ) < (drawn [100, 233] 0 0 k : ℚ) - k * (3 / 10) := by
  refine ⟨by decide +kernel, fun B => ?_⟩
  obtain ⟨_, h⟩ := mix_bounded_drift [100, 233] (by decide) 0 100 ((B + 1) * 3330) rfl
  refine ⟨(B + 1) * 3330, ?_⟩
  generalize drawn [100, 233] 0 0 ((B + 1) * 3330) = D at *
  have h2 : (B + 1) * 1000 ≤ D := by
    simp only [List.sum_cons, List.sum_nil] at h
    omega
  have h3 : ((B : ℚ) + 1) * 1000 ≤ D := by exact_mod_cast h2
  push_cast
  linarith

end Grain
