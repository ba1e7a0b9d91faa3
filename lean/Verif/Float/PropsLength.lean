import Verif.Float.Lemmas
import Verif.Float.Spec
import Verif.Iter.Model
/-
C69: lengths and thresholds computed in floating point are the exact ones, as long as the numbers have at most 53 binary
digits; beyond that they are not.
-/
namespace Grain

theorem intTrueDiv_ok {a b : ℤ} (hb : b ≠ 0) (ha : |a| ≤ 2 ^ 1023) : intTrueDiv a b = .ok (fl ((a : ℚ) / b)) := by
  unfold intTrueDiv
  rw [if_neg hb]
  refine float_ok ?_
  have hbq : (1 : ℚ) ≤ |(b : ℚ)| := by rw [← Int.cast_abs]; exact_mod_cast Int.one_le_abs hb
  rw [abs_div]
  refine le_trans (div_le_self (abs_nonneg _) hbq) ?_
  rw [← Int.cast_abs]; exact_mod_cast ha

theorem pow53_le : ((2 : ℤ) ^ 53) ≤ 2 ^ 1023 :=
  pow_le_pow_right₀ (by norm_num) (by norm_num)

/-- C69: `RangeDataSource(start, stop, step)` has the elements of `range(start, stop, step)`, in order, when the range runs
in the direction of `step` (or is empty because `start = stop`) and spans at most `2^53`.  Missing for the full claim:
longer ranges and ranges against the direction of `step`, for which it is false (`range_source_too_short`,
`range_source_rejects_empty`). -/
theorem range_source_is_range_partial {start stop step : ℤ} (h0 : step ≠ 0) (hs : |step| ≤ 2 ^ 1022)
    (hd : |stop - start| ≤ 2 ^ 53) (hdir : start = stop ∨ Before step start stop) :
    ∃ s, rangeSource start stop step = .ok s ∧ 0 ≤ s.len ∧
      (∀ i : ℕ, (i : ℤ) < s.len ↔ Before step (start + i * step) stop) ∧
      ∀ i : ℤ, s.getitem i = if 0 ≤ i ∧ i < s.len then .ok (start + i * step) else .error .indexError := by
  have hceil := ceil_fl_div h0 hs hd
  have hstep : (step : ℚ) ≠ 0 := by exact_mod_cast h0
  have hlt : ∀ i : ℕ, (i : ℤ) < ⌈((stop - start : ℤ) : ℚ) / step⌉ ↔ Before step (start + i * step) stop := by
    intro i
    rw [Int.lt_ceil]
    unfold Before
    by_cases hp : 0 < step
    · have hpq : (0 : ℚ) < step := by exact_mod_cast hp
      rw [if_pos hp, lt_div_iff₀ hpq]
      have : ((i : ℤ) : ℚ) * step = ((i * step : ℤ) : ℚ) := by push_cast; rfl
      rw [this, Int.cast_lt]
      omega
    · have hn : step < 0 := by omega
      have hnq : (step : ℚ) < 0 := by exact_mod_cast hn
      rw [if_neg hp, lt_div_iff_of_neg hnq]
      have : ((i : ℤ) : ℚ) * step = ((i * step : ℤ) : ℚ) := by push_cast; rfl
      rw [this, Int.cast_lt]
      omega
  have hnn : 0 ≤ ⌈((stop - start : ℤ) : ℚ) / step⌉ := by
    rcases hdir with rfl | hdir
    · simp
    · have := (hlt 0).2 (by simpa using hdir)
      omega
  refine ⟨⟨⌈((stop - start : ℤ) : ℚ) / step⌉, fun key =>
    if key < 0 ∨ ⌈((stop - start : ℤ) : ℚ) / step⌉ ≤ key then .error .indexError else .ok (start + key * step)⟩,
    ?_, hnn, hlt, ?_⟩
  · unfold rangeSource
    rw [if_neg h0, intTrueDiv_ok h0 (le_trans hd pow53_le)]
    simp only [bind, Except.bind, hceil]
    rw [if_neg (by omega)]
  · intro i
    dsimp only
    by_cases h : i < 0 ∨ ⌈((stop - start : ℤ) : ℚ) / step⌉ ≤ i
    · rw [if_pos h, if_neg (by omega)]
    · rw [if_neg h, if_pos (by omega)]

-- 3, 8, 13, 18 and, counting down, 10, 7, 4, 1
example : (rangeSource 3 20 5).map (fun s => (s.len, s.getitem 0, s.getitem 3, s.getitem 4)) =
      .ok (4, .ok 3, .ok 18, .error .indexError) ∧
    (rangeSource 10 0 (-3)).map (fun s => (s.len, s.getitem 3, s.getitem (-1))) = .ok (4, .ok 1, .error .indexError) := by
  constructor <;> decide +kernel
example : (5 : ℤ) ≠ 0 ∧ |(20 - 3 : ℤ)| ≤ 2 ^ 53 ∧ Before 5 3 20 := by
  refine ⟨by decide, by decide, ?_⟩
  unfold Before; decide

/-- Against C69: a range against the direction of its step is empty in Python; the data source refuses it. -/
theorem range_source_rejects_empty :
    (∀ i : ℕ, ¬ Before 1 (5 + i * 1) 0) ∧ (rangeSource 5 0 1).map (·.len) = .error .assertion := by
  constructor
  · intro i
    unfold Before
    rw [if_pos (by decide)]
    omega
  · decide +kernel

/-- Against C69: a range of `2^53 + 1` numbers loses its last one, and one of `2^53 + 3` has one too many. -/
theorem range_source_too_short :
    (rangeSource 0 (2 ^ 53 + 1) 1).map (·.len) = .ok (2 ^ 53) ∧
    (rangeSource 0 (2 ^ 53 + 3) 1).map (·.len) = .ok (2 ^ 53 + 4) := by
  constructor <;> decide +kernel

/-- C69: the number of batches of `MapDataset.batch` is the exact one for parents of up to `2^53` elements: just enough
batches to hold all elements, or with `drop_remainder` as many as can be filled. -/
theorem batch_length_exact {n b : Nat} (hb : 0 < b) (hb' : b ≤ 2 ^ 1022) (hn : n ≤ 2 ^ 53) (drop : Bool) :
    ∃ m : Nat, batchLenFloat n b drop = .ok (m : ℤ) ∧ m = batchLen n b drop ∧
      (drop = false → EnoughBatches n b m) ∧ (drop = true → m * b ≤ n ∧ n < (m + 1) * b) := by
  cases drop with
  | true =>
    refine ⟨n / b, rfl, rfl, fun h => (by cases h), fun _ => ⟨Nat.div_mul_le_self _ _, ?_⟩⟩
    exact Nat.lt_mul_of_div_lt (by omega) hb
  | false =>
    have hbz : (b : ℤ) ≠ 0 := by omega
    have habs : |(n : ℤ)| ≤ 2 ^ 53 := by rw [abs_of_nonneg (by omega)]; exact_mod_cast hn
    have hbabs : |(b : ℤ)| ≤ 2 ^ 1022 := by rw [abs_of_nonneg (by omega)]; exact_mod_cast hb'
    have hceil := ceil_fl_div hbz hbabs habs
    have hbq : (0 : ℚ) < b := by exact_mod_cast hb
    have hm : ∀ m' : ℕ, ⌈((n : ℤ) : ℚ) / ((b : ℤ) : ℚ)⌉ ≤ (m' : ℤ) ↔ n ≤ m' * b := by
      intro m'
      rw [Int.ceil_le, div_le_iff₀ (by exact_mod_cast hbq)]
      exact_mod_cast Iff.rfl
    have hnn : 0 ≤ ⌈((n : ℤ) : ℚ) / ((b : ℤ) : ℚ)⌉ := by
      refine Int.ceil_nonneg ?_
      exact div_nonneg (by exact_mod_cast Nat.zero_le n) (le_of_lt (by exact_mod_cast hbq))
    obtain ⟨m, hmeq⟩ := Int.eq_ofNat_of_zero_le hnn
    rw [hmeq] at hm
    have henough : EnoughBatches n b m :=
      ⟨(hm m).1 (le_refl _), fun m' h => by have := (hm m').2 h; omega⟩
    refine ⟨m, ?_, ?_, fun _ => henough, fun h => by cases h⟩
    · unfold batchLenFloat
      rw [if_neg (by decide), intTrueDiv_ok hbz (le_trans habs pow53_le)]
      simp only [bind, Except.bind, hceil, hmeq]
    · unfold batchLen
      rw [if_neg (by decide)]
      refine Nat.le_antisymm (henough.2 _ ?_) ?_
      · have h1 := Nat.div_add_mod (n + b - 1) b
        have h2 := Nat.mod_lt (n + b - 1) hb
        rw [Nat.mul_comm] at h1
        omega
      · have h1 := henough.1
        have : (n + b - 1) / b < m + 1 := by
          rw [Nat.div_lt_iff_lt_mul hb, Nat.add_mul]
          omega
        omega

example : batchLenFloat 10 3 false = .ok 4 ∧ batchLenFloat 10 3 true = .ok 3 := by decide +kernel
example : EnoughBatches 10 3 4 := ⟨by decide, fun m' h => by omega⟩

/-- Against C69: `ds.repeat().batch(1)` has one batch more than Python's `len` can report, so `len()` of it, and with it
iterating over it, raises `OverflowError`. -/
theorem batch_of_endless_raises {n : Nat} (h0 : 0 < n) (hmax : n < maxsize) :
    (do
      let parentLen ← repeatLen n none
      let len ← batchLenFloat parentLen 1 false
      pyLen len) = .error .overflowError := by
  have h : repeatLen n none = .ok maxsize := by
    unfold repeatLen
    rw [if_neg (by decide), if_neg (by omega)]
    simp only
    rw [if_neg (by omega)]
  rw [h]
  change (batchLenFloat maxsize 1 false >>= pyLen) = _
  decide +kernel

/-- Against C69: one element of `2^53 + 1` is in no batch. -/
theorem batch_length_too_short :
    batchLenFloat (2 ^ 53 + 1) 1 false = .ok (2 ^ 53) ∧ ¬ EnoughBatches (2 ^ 53 + 1) 1 (2 ^ 53) := by
  refine ⟨by decide +kernel, fun h => ?_⟩
  have := h.1
  omega

/-- C69: the length of a random access `flat_map` is the exact product up to `2^62`. -/
theorem flat_map_length_exact {n f : Nat} (hf : 0 < f) (hf' : f ≤ 2 ^ 1022) (h : n * f < 2 ^ 62) :
    flatMapLenFloat n f = .ok ((f * n : Nat) : ℤ) := by
  have hfq : (0 : ℚ) < f := by exact_mod_cast hf
  have hfz : (f : ℤ) ≠ 0 := by omega
  have hmax : ((maxsize : ℤ) : ℚ) = 2 ^ 63 - 1 := by norm_num [maxsize]
  have hnorm : 2 ^ (-1022 : ℤ) ≤ ((maxsize : ℤ) : ℚ) / ((f : ℤ) : ℚ) := by
    rw [le_div_iff₀ (by exact_mod_cast hfq)]
    have hfu : ((f : ℤ) : ℚ) ≤ 2 ^ (1022 : ℤ) := by exact_mod_cast hf'
    calc (2 : ℚ) ^ (-1022 : ℤ) * ((f : ℤ) : ℚ) ≤ 2 ^ (-1022 : ℤ) * 2 ^ (1022 : ℤ) :=
          mul_le_mul_of_nonneg_left hfu (le_of_lt (two_zpow_pos _))
      _ = 1 := by rw [← zpow_add₀ (by norm_num)]; simp
      _ ≤ _ := by rw [hmax]; norm_num
  have hlow := (fl_err_pos hnorm).1
  have hn : (n : ℚ) < 2 ^ 62 / f := by
    rw [lt_div_iff₀ hfq]; exact_mod_cast h
  have hcmp : (2 : ℚ) ^ 62 / f ≤ ((maxsize : ℤ) : ℚ) / ((f : ℤ) : ℚ) * (1 - 1 / 2 ^ 53) := by
    rw [hmax, div_mul_eq_mul_div, Int.cast_natCast]
    refine div_le_div_of_nonneg_right ?_ (le_of_lt hfq)
    norm_num
  unfold flatMapLenFloat
  rw [intTrueDiv_ok hfz (by rw [abs_of_nonneg (by decide)]; exact le_trans (by decide : (maxsize : ℤ) ≤ 2 ^ 63) (pow_le_pow_right₀ (by norm_num) (by norm_num)))]
  simp only [bind, Except.bind]
  rw [if_neg]
  rw [not_le]
  linarith

example : flatMapLenFloat 7 3 = .ok 21 ∧ flatMapLenFloat maxsize 3 = .ok maxsize ∧ flatMapLenFloat maxsize 1 = .ok maxsize := by
  decide +kernel

/-- Against C69: close to the largest length the product is reported although it is too large for `len`. -/
theorem flat_map_length_overflows :
    flatMapLenFloat 1844674407370955162 5 = .ok (maxsize + 3) ∧
    (flatMapLenFloat 1844674407370955162 5).bind pyLen = .error .overflowError := by
  constructor <;> decide +kernel

theorem pyLen_ok {n : Nat} (h : n ≤ maxsize) : pyLen (n : ℤ) = .ok n := by
  unfold pyLen
  rw [if_neg (by omega), if_neg (by omega)]
  rfl

/-- C69: `len` of a batched dataset is the exact number of batches, and `len` of a random access `flat_map` the exact product, at those
sizes (also when it is 0). -/
theorem len_exact {n b : Nat} (hb : 0 < b) (hb' : b ≤ 2 ^ 1022) :
    (n ≤ 2 ^ 53 → ∀ drop, (batchLenFloat n b drop).bind pyLen = .ok (batchLen n b drop)) ∧
    (n * b < 2 ^ 62 → (flatMapLenFloat n b).bind pyLen = .ok (b * n)) := by
  constructor
  · intro hn drop
    obtain ⟨m, h1, h2, h3, h4⟩ := batch_length_exact hb hb' hn drop
    rw [h1, ← h2]
    refine pyLen_ok (le_trans (?_ : m ≤ n) (le_trans hn (by norm_num [maxsize])))
    cases drop with
    | true => exact le_trans (Nat.le_mul_of_pos_right _ hb) (h4 rfl).1
    | false =>
      rcases Nat.eq_zero_or_pos m with h0 | h0
      · omega
      · by_contra hc
        have := (h3 rfl).2 n (Nat.le_mul_of_pos_right _ hb)
        omega
  · intro h
    rw [flat_map_length_exact hb hb' h]
    exact pyLen_ok (by rw [Nat.mul_comm]; unfold maxsize; omega)

example : (batchLenFloat 0 4 false).bind pyLen = .ok 0 := (len_exact (by decide) (le_trans (by norm_num : 4 ≤ 2 ^ 2) (Nat.pow_le_pow_right (by norm_num) (by norm_num)))).1 (by norm_num) false

theorem fl_unit_err {a b : ℕ} (ha : 0 < a) (hab : a ≤ b) (hb : b ≤ 2 ^ 52) :
    |fl ((a : ℚ) / b) - (a : ℚ) / b| < 1 / 2 ^ 53 := by
  have hbq : (0 : ℚ) < b := by exact_mod_cast (by omega : 0 < b)
  have haq : (1 : ℚ) ≤ a := by exact_mod_cast ha
  have h1 : (a : ℚ) / b ≤ 1 := by
    rw [div_le_one hbq]; exact_mod_cast hab
  have h2 : (0 : ℚ) < (a : ℚ) / b := div_pos (by linarith) hbq
  have h3 : (2 : ℚ) ^ (-1022 : ℤ) ≤ (a : ℚ) / b := by
    have e1 : (2 : ℚ) ^ (-1022 : ℤ) ≤ 2 ^ (-52 : ℤ) := zpow_le_zpow_right₀ (by norm_num) (by norm_num)
    have e2 : (2 : ℚ) ^ (-52 : ℤ) ≤ (a : ℚ) / b := by
      rw [le_div_iff₀ hbq]
      have : (b : ℚ) ≤ 2 ^ 52 := by exact_mod_cast hb
      calc (2 : ℚ) ^ (-52 : ℤ) * b ≤ 2 ^ (-52 : ℤ) * 2 ^ 52 := mul_le_mul_of_nonneg_left this (le_of_lt (two_zpow_pos _))
        _ = 1 := by norm_num
        _ ≤ a := haq
    exact le_trans e1 e2
  have h4 := fl_err (ne_of_gt h2) (by rw [abs_of_pos h2]; exact h3)
  rw [abs_of_pos h2] at h4
  refine lt_of_lt_of_le h4 ?_
  exact div_le_div_of_nonneg_right h1 (by norm_num)

/-- C69: the filter compares the ratio of dropped elements with the configured threshold as if both were exact: a threshold
written as the fraction `p / d` (say a decimal `0.95`) is reached exactly when `skipped / (passed + skipped) ≥ p / d`. -/
theorem filter_ratio_exact {passed skipped p d : Nat} (hn : 0 < passed + skipped) (hd : 0 < d) (hp : p ≤ d)
    (hsmall : (passed + skipped) * d ≤ 2 ^ 52) :
    overThresholdFloat passed skipped (fl ((p : ℚ) / d)) = .ok (decide (p * (passed + skipped) ≤ skipped * d)) := by
  generalize hN : passed + skipped = n at *
  have hs : skipped ≤ n := by omega
  have hn52 : n ≤ 2 ^ 52 := le_trans (Nat.le_mul_of_pos_right _ hd) hsmall
  have hd52 : d ≤ 2 ^ 52 := le_trans (Nat.le_mul_of_pos_left _ hn) hsmall
  have hnq : (0 : ℚ) < n := by exact_mod_cast hn
  have hdq : (0 : ℚ) < d := by exact_mod_cast hd
  have hdiv : intTrueDiv (skipped : ℤ) (n : ℤ) = .ok (fl ((skipped : ℚ) / n)) := by
    have := intTrueDiv_ok (a := (skipped : ℤ)) (b := (n : ℤ)) (by omega) (by
      rw [abs_of_nonneg (by omega)]
      have : (skipped : ℤ) ≤ 2 ^ 53 := by omega
      exact le_trans this pow53_le)
    rw [this]; simp
  unfold overThresholdFloat
  rw [hN, hdiv]
  simp only [bind, Except.bind]
  congr 1
  rw [decide_eq_decide]
  have hexact : (p : ℚ) / d ≤ (skipped : ℚ) / n ↔ p * n ≤ skipped * d := by
    rw [div_le_div_iff₀ hdq hnq]
    exact_mod_cast Iff.rfl
  rw [← hexact]
  constructor
  · intro h
    by_contra hc
    rw [not_le] at hc
    have hp0 : 0 < p := by
      rcases Nat.eq_zero_or_pos p with rfl | h'
      · exfalso
        have : (0 : ℚ) ≤ (skipped : ℚ) / n := div_nonneg (by exact_mod_cast Nat.zero_le _) (le_of_lt hnq)
        simp at hc; linarith
      · exact h'
    have hgap : 1 / ((n : ℚ) * d) ≤ (p : ℚ) / d - (skipped : ℚ) / n := by
      have e : (p : ℚ) / d - (skipped : ℚ) / n = ((p * n - skipped * d : ℤ) : ℚ) / (n * d) := by
        push_cast; field_simp
      rw [e]
      refine div_le_div_of_nonneg_right ?_ (by positivity)
      have : ¬ (p * n ≤ skipped * d) := fun hh => not_lt.2 (hexact.2 hh) hc
      have : (1 : ℤ) ≤ (p : ℤ) * n - skipped * d := by
        have h3 : skipped * d < p * n := by omega
        have h4 : ((skipped * d : ℕ) : ℤ) < ((p * n : ℕ) : ℤ) := by exact_mod_cast h3
        push_cast at h4
        omega
      exact_mod_cast this
    have hgap2 : (1 : ℚ) / 2 ^ 52 ≤ 1 / ((n : ℚ) * d) := by
      refine one_div_le_one_div_of_le (by positivity) ?_
      exact_mod_cast hsmall
    have e1 := (abs_lt.1 (fl_unit_err hp0 hp hd52)).1
    have e2 : fl ((skipped : ℚ) / n) < (skipped : ℚ) / n + 1 / 2 ^ 53 := by
      rcases Nat.eq_zero_or_pos skipped with rfl | h'
      · simp [fl_zero]
      · have := (abs_lt.1 (fl_unit_err h' hs hn52)).2
        linarith
    have : (1 : ℚ) / 2 ^ 52 = 1 / 2 ^ 53 + 1 / 2 ^ 53 := by norm_num
    linarith
  · intro h
    exact fl_mono h

/-- With the window of the code the comparison is that of the exact checker (`Checker.over`, C45), for thresholds with up to
twelve decimal digits. -/
theorem filter_ratio_is_checked {c : Checker} (hc : c.passed + c.skipped = checkInterval) {t : Threshold}
    (ht : 0 < t.num) (htd : t.num ≤ t.den) (hden : t.den ≤ 10 ^ 12) :
    overThresholdFloat c.passed c.skipped (fl ((t.num : ℚ) / t.den)) = .ok (c.over (some t)) := by
  rw [filter_ratio_exact (by rw [hc]; decide) (by omega) htd (by rw [hc]; unfold checkInterval; omega)]
  unfold Checker.over
  congr 1
  rw [decide_eq_decide]
  constructor
  · intro h; exact ⟨h, by omega⟩
  · intro h; exact h.1

-- the default thresholds of grain: 0.9 for the warning; 900 of 1000 elements reach it, 899 do not
example : overThresholdFloat 100 900 (fl (9 / 10)) = .ok true ∧ overThresholdFloat 101 899 (fl (9 / 10)) = .ok false := by
  decide +kernel

end Grain
