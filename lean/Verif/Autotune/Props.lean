import Verif.Autotune.Lemmas
/-
C73: what `pick_performance_config` chooses, with floating point rounding.
Sizes are in bytes, the budget in MiB (`2^20` bytes).
-/
namespace Grain

/-- The elements looked at: of each dataset the first `samples / number of datasets`, rounded up. -/
def sampledSizes (dss : List (List Nat)) (samples : Nat) : List Nat :=
  (dss.map (fun ds => ds.take ⌈(samples : ℚ) / dss.length⌉.toNat)).flatten

/-- Average size in bytes. -/
def meanSize (l : List Nat) : ℚ := l.sum / l.length

theorem sampledSizes_one (ds : List Nat) (samples : Nat) : sampledSizes [ds] samples = ds.take samples := by
  simp [sampledSizes]

private theorem mid_of_bounds {x : ℚ} (h1 : 1 / 2 ^ 53 ≤ x) (h2 : x ≤ 2 ^ 53) : 1 / 2 ^ 190 ≤ x ∧ x ≤ 2 ^ 190 :=
  ⟨le_trans (by norm_num) h1, le_trans h2 (by norm_num)⟩

theorem mean_bounds {l : List Nat} (h0 : 0 < l.sum) (h1 : l.sum ≤ 2 ^ 53) (h2 : l.length ≤ 2 ^ 53) :
    1 / 2 ^ 53 ≤ meanSize l ∧ meanSize l ≤ 2 ^ 53 := by
  have hl : l ≠ [] := by rintro rfl; simp at h0
  have hlen : 0 < l.length := List.length_pos_iff.2 hl
  have hlq : (0 : ℚ) < l.length := by exact_mod_cast hlen
  have h0q : (1 : ℚ) ≤ l.sum := by exact_mod_cast h0
  have h1q : (l.sum : ℚ) ≤ 2 ^ 53 := by exact_mod_cast h1
  have h2q : (l.length : ℚ) ≤ 2 ^ 53 := by exact_mod_cast h2
  have hl1 : (1 : ℚ) ≤ l.length := by exact_mod_cast hlen
  unfold meanSize
  constructor
  · rw [div_le_div_iff₀ (by positivity) hlq]; nlinarith
  · rw [div_le_iff₀ hlq]; nlinarith

/-- The average in MiB as computed: two roundings. -/
theorem avgSizeMb_near {dss : List (List Nat)} {samples : Nat} (hd : dss ≠ []) (hd' : dss.length ≤ 2 ^ 53)
    (hs : samples ≤ 2 ^ 53) (henough : samples ≤ (sampledSizes dss samples).length)
    (h0 : 0 < (sampledSizes dss samples).sum) (h1 : (sampledSizes dss samples).sum ≤ 2 ^ 53)
    (h2 : (sampledSizes dss samples).length ≤ 2 ^ 53) :
    ∃ avg, avgSizeMb dss samples = .ok avg ∧ Near 2 avg (meanSize (sampledSizes dss samples) / 2 ^ 20) := by
  have hlen : 0 < dss.length := List.length_pos_iff.2 hd
  have hlq : (0 : ℚ) < dss.length := by exact_mod_cast hlen
  obtain ⟨m1, m2⟩ := mean_bounds h0 h1 h2
  have hk : float (samples : ℚ) = .ok (samples : ℚ) := by
    rw [float_ok, fl_nat hs]
    rw [abs_of_nonneg (by positivity)]
    exact le_trans (by exact_mod_cast hs) (pow_le_pow_right₀ (by norm_num) (by norm_num : 53 ≤ 1023))
  have hq : floatDiv (samples : ℚ) dss.length = .ok (fl ((samples : ℚ) / dss.length)) := by
    unfold floatDiv
    rw [if_neg (ne_of_gt hlq), float_ok]
    rw [abs_of_nonneg (by positivity), div_le_iff₀ hlq]
    have a1 : (samples : ℚ) ≤ 2 ^ 53 := by exact_mod_cast hs
    have a2 : (1 : ℚ) ≤ dss.length := by exact_mod_cast hlen
    have a3 : (2 : ℚ) ^ 53 ≤ 2 ^ 1023 := pow_le_pow_right₀ (by norm_num) (by norm_num)
    calc (samples : ℚ) ≤ 2 ^ 53 := a1
      _ ≤ 2 ^ 1023 := a3
      _ = 2 ^ 1023 * 1 := (mul_one _).symm
      _ ≤ 2 ^ 1023 * dss.length := mul_le_mul_of_nonneg_left a2 (by positivity)
  have hceil : ⌈fl ((samples : ℚ) / dss.length)⌉ = ⌈(samples : ℚ) / dss.length⌉ := by
    have := ceil_fl_div (a := (samples : ℤ)) (b := (dss.length : ℤ)) (by omega)
      (by
        rw [abs_of_nonneg (by omega)]
        have : (dss.length : ℤ) ≤ 2 ^ 53 := by exact_mod_cast hd'
        exact le_trans this (pow_le_pow_right₀ (by norm_num) (by norm_num)))
      (by rw [abs_of_nonneg (by omega)]; exact_mod_cast hs)
    simp only [Int.cast_natCast] at this
    exact this
  have hne : sampledSizes dss samples ≠ [] := by intro hc; rw [hc] at h0; simp at h0
  have hslen : (0 : ℚ) < (sampledSizes dss samples).length := by exact_mod_cast List.length_pos_iff.2 hne
  have hsum : float ((sampledSizes dss samples).sum : ℚ) = .ok ((sampledSizes dss samples).sum : ℚ) := by
    rw [float_ok, fl_nat h1]
    rw [abs_of_nonneg (by positivity)]
    exact le_trans (by exact_mod_cast h1) (pow_le_pow_right₀ (by norm_num) (by norm_num : 53 ≤ 1023))
  have mb := mid_of_bounds m1 m2
  have hmid : Mid (meanSize (sampledSizes dss samples)) :=
    ⟨le_trans (by norm_num) mb.1, le_trans mb.2 (by norm_num)⟩
  have hmean : npMean (sampledSizes dss samples) = .ok (fl (meanSize (sampledSizes dss samples))) := by
    unfold npMean
    rw [if_neg hne, hsum]
    exact Mid.floatDiv hslen hmid
  have n1 : Near 1 (fl (meanSize (sampledSizes dss samples))) (meanSize (sampledSizes dss samples)) := Near.fl hmid.normal
  have n2 : Near 1 (fl (meanSize (sampledSizes dss samples)) / (1024 * 1024)) (meanSize (sampledSizes dss samples) / 2 ^ 20) := by
    have := n1.div (Near.refl (x := (1024 * 1024 : ℚ)) (by norm_num))
    rw [show (2 : ℚ) ^ 20 = 1024 * 1024 by norm_num]
    exact this
  have hmid2 : Mid (fl (meanSize (sampledSizes dss samples)) / (1024 * 1024)) :=
    n2.mid (by norm_num)
      (by rw [le_div_iff₀ (by norm_num)]; exact le_trans (by norm_num) m1)
      (by rw [div_le_iff₀ (by norm_num)]; exact le_trans m2 (by norm_num))
  refine ⟨fl (fl (meanSize (sampledSizes dss samples)) / (1024 * 1024)), ?_, (Near.fl hmid2.normal).trans n2⟩
  unfold avgSizeMb
  rw [if_neg hd, hk]
  change (do
    let q ← floatDiv (samples : ℚ) dss.length
    if (List.flatten (dss.map (fun ds : List Nat => ds.take ⌈q⌉.toNat))).length < samples then Except.ok (0 : ℚ)
    else do
      let mean ← npMean (List.flatten (dss.map (fun ds : List Nat => ds.take ⌈q⌉.toNat)))
      floatDiv mean (1024 * 1024)) = _
  rw [hq]
  change (if (List.flatten (dss.map (fun ds : List Nat => ds.take ⌈fl ((samples : ℚ) / dss.length)⌉.toNat))).length < samples
    then Except.ok (0 : ℚ)
    else do
      let mean ← npMean (List.flatten (dss.map (fun ds : List Nat => ds.take ⌈fl ((samples : ℚ) / dss.length)⌉.toNat)))
      floatDiv mean (1024 * 1024)) = _
  rw [hceil]
  change (if (sampledSizes dss samples).length < samples then Except.ok (0 : ℚ)
    else do
      let mean ← npMean (sampledSizes dss samples)
      floatDiv mean (1024 * 1024)) = _
  rw [if_neg (by omega), hmean]
  exact Mid.floatDiv (by norm_num) hmid2

/-- The budget divided by what one worker or buffered element takes (`Y` MiB, computed as `y`). -/
theorem quotient_fits {k : Nat} {y Y : ℚ} (hk : k ≤ 6) (hn : Near k y Y) (hlo : 1 / 2 ^ 120 ≤ Y) (hhi : Y ≤ 2 ^ 120)
    {budget : Nat} (hb : budget ≤ 2 ^ 53) :
    ∃ (z : Nat) (q : ℚ), float (budget : ℚ) = .ok (budget : ℚ) ∧ floatDiv (budget : ℚ) y = .ok q ∧ pyInt64 q = z ∧
      (z : ℚ) * Y * (1 - 1 / 2 ^ 50) ≤ budget ∧ (budget : ℚ) * (1 - 1 / 2 ^ 50) ≤ (z + 1) * Y := by
  have hbf : float (budget : ℚ) = .ok (budget : ℚ) := by
    rw [float_ok, fl_nat hb]
    rw [abs_of_nonneg (by positivity)]
    exact le_trans (by exact_mod_cast hb) (pow_le_pow_right₀ (by norm_num) (by norm_num : 53 ≤ 1023))
  by_cases hb0 : budget = 0
  · subst hb0
    refine ⟨0, 0, hbf, ?_, by simp [pyInt64], by simp, ?_⟩
    · unfold floatDiv
      rw [if_neg (ne_of_gt hn.px)]
      simp only [Nat.cast_zero, zero_div]
      rw [float_ok (by rw [abs_zero]; positivity), fl_zero]
    · simp; exact hn.py.le
  · have hb1 : (1 : ℚ) ≤ budget := by exact_mod_cast Nat.pos_of_ne_zero hb0
    have hbq : (budget : ℚ) ≤ 2 ^ 53 := by exact_mod_cast hb
    have nq : Near k ((budget : ℚ) / y) (budget / Y) := by
      have := (Near.refl (x := (budget : ℚ)) (by linarith)).div hn
      rwa [Nat.zero_add] at this
    have hmid : Mid ((budget : ℚ) / y) := by
      refine nq.mid (by omega) ?_ ?_
      · rw [le_div_iff₀ hn.py]
        have : (1 : ℚ) / 2 ^ 190 * Y ≤ 1 / 2 ^ 190 * 2 ^ 120 := mul_le_mul_of_nonneg_left hhi (by positivity)
        exact le_trans this (le_trans (by norm_num) hb1)
      · rw [div_le_iff₀ hn.py]
        have : (2 : ℚ) ^ 190 * (1 / 2 ^ 120) ≤ 2 ^ 190 * Y := mul_le_mul_of_nonneg_left hlo (by positivity)
        exact le_trans hbq (le_trans (by norm_num) this)
    have n3 : Near (1 + k) (fl ((budget : ℚ) / y)) (budget / Y) := (Near.fl hmid.normal).trans nq
    obtain ⟨i0, i1, i2⟩ := pyInt64_near (by omega) n3
    obtain ⟨z, hz⟩ := Int.eq_ofNat_of_zero_le i0
    refine ⟨z, _, hbf, Mid.floatDiv hn.px hmid, hz, ?_, ?_⟩
    · rw [hz, le_div_iff₀ hn.py] at i1
      have i1' : (z : ℚ) * (1 - 1 / 2 ^ 50) * Y ≤ budget := by exact_mod_cast i1
      linarith
    · rw [hz] at i2
      have i2' : (budget : ℚ) / Y * (1 - 1 / 2 ^ 50) ≤ z + 1 := by exact_mod_cast i2
      have := mul_le_mul_of_nonneg_right i2' hn.py.le
      have hYne : Y ≠ 0 := ne_of_gt hn.py
      calc _ = (budget : ℚ) / Y * (1 - 1 / 2 ^ 50) * Y := by field_simp
        _ ≤ _ := this

/-- C73: with enough elements sampled, the workers chosen are at most the maximum, one element each fits into the budget (up to
rounding), and one more would not fit unless the maximum is reached.
Partial: datasets with fewer elements than sampled (`workers_ignore_budget`) and the memory of all workers' buffers together
(`config_exceeds_budget`) are not within the budget. -/
theorem workers_fit_budget_partial (ds : List Nat) (budget : Nat) (maxWorkers : Option Nat) (cpus samples : Nat)
    (hb : budget ≤ 2 ^ 53) (hs : samples ≤ 2 ^ 53) (henough : samples ≤ ds.length)
    (h0 : 0 < (ds.take samples).sum) (h1 : (ds.take samples).sum ≤ 2 ^ 53) :
    ∃ w : Nat, numWorkersFor ds budget maxWorkers cpus samples = .ok (w : ℤ) ∧ w ≤ maxWorkers.getD cpus ∧
      (w : ℚ) * meanSize (ds.take samples) * (1 - 1 / 2 ^ 50) ≤ budget * 2 ^ 20 ∧
      (w = maxWorkers.getD cpus ∨
        (budget : ℚ) * 2 ^ 20 * (1 - 1 / 2 ^ 50) ≤ (w + 1) * meanSize (ds.take samples)) := by
  have hlen : (ds.take samples).length = samples := by simp [henough]
  have hone := sampledSizes_one ds samples
  obtain ⟨avg, ha, hn⟩ := avgSizeMb_near (dss := [ds]) (samples := samples) (by simp) (by norm_num) hs
    (by rw [hone, hlen]) (by rwa [hone]) (by rwa [hone]) (by rw [hone, hlen]; exact hs)
  rw [hone] at hn
  obtain ⟨m1, m2⟩ := mean_bounds h0 h1 (by rw [hlen]; exact hs)
  generalize meanSize (ds.take samples) = M at *
  obtain ⟨z, q, hbf, hq, hz, hfit, hmore⟩ := quotient_fits (by norm_num) hn
    (by rw [le_div_iff₀ (by norm_num)]; exact le_trans (by norm_num) m1)
    (by rw [div_le_iff₀ (by norm_num)]; exact le_trans m2 (by norm_num)) hb
  have hmpos : 0 < M := lt_of_lt_of_le (by positivity) m1
  refine ⟨min z (maxWorkers.getD cpus), ?_, by omega, ?_, ?_⟩
  · unfold numWorkersFor
    rw [ha]
    change (if avg ≤ 0 then _ else _) = _
    rw [if_neg (not_le.2 hn.px), hbf]
    change (do
      let q ← floatDiv (budget : ℚ) avg
      .ok (min (pyInt64 q) (maxWorkers.getD cpus : ℤ))) = _
    rw [hq]
    change Except.ok (min (pyInt64 q) _) = _
    rw [hz]
    push_cast
    rfl
  · have hmin : ((min z (maxWorkers.getD cpus) : ℕ) : ℚ) ≤ z := by exact_mod_cast Nat.min_le_left _ _
    have hc : (0 : ℚ) ≤ M * (1 - 1 / 2 ^ 50) := mul_nonneg hmpos.le (by norm_num)
    have h3 := mul_le_mul_of_nonneg_right hmin hc
    have h4 : (z : ℚ) * (M * (1 - 1 / 2 ^ 50)) ≤ budget * 2 ^ 20 := by
      have : (z : ℚ) * (M / 2 ^ 20) * (1 - 1 / 2 ^ 50) = z * (M * (1 - 1 / 2 ^ 50)) / 2 ^ 20 := by ring
      rw [this, div_le_iff₀ (by norm_num)] at hfit
      exact hfit
    rw [mul_assoc]
    exact le_trans h3 h4
  · rcases Nat.lt_or_ge z (maxWorkers.getD cpus) with hlt | hge
    · right
      rw [Nat.min_eq_left hlt.le]
      have : ((z : ℚ) + 1) * (M / 2 ^ 20) = (z + 1) * M / 2 ^ 20 := by ring
      rw [this, le_div_iff₀ (by norm_num)] at hmore
      linarith
    · left; exact Nat.min_eq_right hge

/-- C73: the buffer size chosen is at most the maximum, one buffer for each of the pipeline's prefetchers fits into the budget
(up to rounding), and one more element would not unless the maximum is reached. -/
theorem buffers_fit_budget_partial (dss : List (List Nat)) (budget : Nat) (maxBuffer : Option Nat) (samples : Nat)
    (hd : dss ≠ []) (hd' : dss.length ≤ 2 ^ 53) (hb : budget ≤ 2 ^ 53) (hs : samples ≤ 2 ^ 53)
    (henough : samples ≤ (sampledSizes dss samples).length) (h2 : (sampledSizes dss samples).length ≤ 2 ^ 53)
    (h0 : 0 < (sampledSizes dss samples).sum) (h1 : (sampledSizes dss samples).sum ≤ 2 ^ 53) :
    ∃ b : Nat, bufferSizeFor dss budget maxBuffer samples = .ok (b : ℤ) ∧ b ≤ maxBuffer.getD 1000 ∧
      (b : ℚ) * dss.length * meanSize (sampledSizes dss samples) * (1 - 1 / 2 ^ 50) ≤ budget * 2 ^ 20 ∧
      (b = maxBuffer.getD 1000 ∨
        (budget : ℚ) * 2 ^ 20 * (1 - 1 / 2 ^ 50) ≤ (b + 1) * dss.length * meanSize (sampledSizes dss samples)) := by
  obtain ⟨avg, ha, hn⟩ := avgSizeMb_near hd hd' hs henough h0 h1 h2
  obtain ⟨m1, m2⟩ := mean_bounds h0 h1 h2
  generalize meanSize (sampledSizes dss samples) = M at *
  have hL1 : (1 : ℚ) ≤ dss.length := by exact_mod_cast List.length_pos_iff.2 hd
  have hL2 : (dss.length : ℚ) ≤ 2 ^ 53 := by exact_mod_cast hd'
  generalize hL : (dss.length : ℚ) = L at *
  have hmpos : 0 < M := lt_of_lt_of_le (by positivity) m1
  have nl : Near 2 (avg * L) (M / 2 ^ 20 * L) := hn.mul (Near.refl (x := L) (by linarith))
  have e1 : 1 / 2 ^ 120 ≤ M / 2 ^ 20 * L := by
    have : (1 : ℚ) / 2 ^ 120 ≤ M / 2 ^ 20 := by
      rw [le_div_iff₀ (by norm_num)]; exact le_trans (by norm_num) m1
    calc (1 : ℚ) / 2 ^ 120 ≤ M / 2 ^ 20 := this
      _ = M / 2 ^ 20 * 1 := (mul_one _).symm
      _ ≤ M / 2 ^ 20 * L := mul_le_mul_of_nonneg_left hL1 (by positivity)
  have e2 : M / 2 ^ 20 * L ≤ 2 ^ 120 := by
    calc M / 2 ^ 20 * L ≤ M / 2 ^ 20 * 2 ^ 53 := mul_le_mul_of_nonneg_left hL2 (by positivity)
      _ = M * 2 ^ 33 := by ring
      _ ≤ 2 ^ 53 * 2 ^ 33 := mul_le_mul_of_nonneg_right m2 (by positivity)
      _ ≤ 2 ^ 120 := by norm_num
  have hmid : Mid (avg * L) :=
    nl.mid (by norm_num) (le_trans (by norm_num) e1) (le_trans e2 (by norm_num))
  have nf : Near 3 (fl (avg * L)) (M / 2 ^ 20 * L) := (Near.fl hmid.normal).trans nl
  obtain ⟨z, q, hbf, hq, hz, hfit, hmore⟩ := quotient_fits (by norm_num) nf e1 e2 hb
  refine ⟨min z (maxBuffer.getD 1000), ?_, by omega, ?_, ?_⟩
  · unfold bufferSizeFor
    rw [ha]
    change (if avg ≤ 0 then _ else _) = _
    rw [if_neg (not_le.2 hn.px), hbf]
    change (do
      let y ← float (avg * (dss.length : ℚ))
      let q ← floatDiv (budget : ℚ) y
      .ok (min (pyInt64 q) (maxBuffer.getD 1000 : ℤ))) = _
    rw [hL, hmid.float]
    change (do
      let q ← floatDiv (budget : ℚ) (fl (avg * L))
      .ok (min (pyInt64 q) (maxBuffer.getD 1000 : ℤ))) = _
    rw [hq]
    change Except.ok (min (pyInt64 q) _) = _
    rw [hz]
    push_cast
    rfl
  · have hmin : ((min z (maxBuffer.getD 1000) : ℕ) : ℚ) ≤ z := by exact_mod_cast Nat.min_le_left _ _
    have hc : (0 : ℚ) ≤ L * M * (1 - 1 / 2 ^ 50) :=
      mul_nonneg (mul_nonneg (by linarith) hmpos.le) (by norm_num)
    have h3 := mul_le_mul_of_nonneg_right hmin hc
    have h4 : (z : ℚ) * (L * M * (1 - 1 / 2 ^ 50)) ≤ budget * 2 ^ 20 := by
      have : (z : ℚ) * (M / 2 ^ 20 * L) * (1 - 1 / 2 ^ 50) = z * (L * M * (1 - 1 / 2 ^ 50)) / 2 ^ 20 := by ring
      rw [this, div_le_iff₀ (by norm_num)] at hfit
      exact hfit
    calc _ = ((min z (maxBuffer.getD 1000) : ℕ) : ℚ) * (L * M * (1 - 1 / 2 ^ 50)) := by ring
      _ ≤ _ := le_trans h3 h4
  · rcases Nat.lt_or_ge z (maxBuffer.getD 1000) with hlt | hge
    · right
      rw [Nat.min_eq_left hlt.le]
      have : ((z : ℚ) + 1) * (M / 2 ^ 20 * L) = (z + 1) * L * M / 2 ^ 20 := by ring
      rw [this, le_div_iff₀ (by norm_num)] at hmore
      linarith
    · left; exact Nat.min_eq_right hge

/-- Elements of 100 MiB, a budget of 1024 MiB: 10 workers and, for one prefetcher, a buffer of 10 elements. -/
example : performanceConfig (List.replicate 10 (100 * 2 ^ 20)) [List.replicate 10 (100 * 2 ^ 20)] 1024 none none 16 5 =
    .ok (10, 10) := by decide +kernel

/-- The hypotheses of `workers_fit_budget_partial` and `buffers_fit_budget_partial` are met, with two prefetchers and elements of different
sizes. -/
example : let ds := [3000000, 1000000, 2000000, 500000, 100]
    5 ≤ ds.length ∧ 0 < (ds.take 5).sum ∧ (ds.take 5).sum ≤ 2 ^ 53 ∧
      numWorkersFor ds 10 (some 64) 8 5 = .ok 8 ∧ numWorkersFor ds 10 (some 4) 8 5 = .ok 4 := by decide +kernel

example : let dss := [[3000000, 1000000, 2000000, 500000], [100, 200, 300]]
    sampledSizes dss 5 = [3000000, 1000000, 2000000, 100, 200, 300] ∧ bufferSizeFor dss 100 none 5 = .ok 52 := by
  decide +kernel

/-- The size of an element is that of all arrays and other objects in it. -/
example : (SizedObj.dict [("a", .array 40), ("b", .seq [.array 6, .other 28])]).bytes = 74 := by decide +kernel

/-- With fewer elements than `samples` the budget is ignored and the maximum is chosen (F65). -/
theorem workers_ignore_budget (ds : List Nat) (budget : Nat) (maxWorkers : Option Nat) (cpus samples : Nat)
    (hs : samples ≤ 2 ^ 53) (hfew : ds.length < samples) :
    numWorkersFor ds budget maxWorkers cpus samples = .ok ((maxWorkers.getD cpus : ℕ) : ℤ) := by
  have hk : float (samples : ℚ) = .ok (samples : ℚ) := by
    rw [float_ok, fl_nat hs]
    rw [abs_of_nonneg (by positivity)]
    exact le_trans (by exact_mod_cast hs) (pow_le_pow_right₀ (by norm_num) (by norm_num : 53 ≤ 1023))
  have ha : avgSizeMb [ds] samples = .ok 0 := by
    unfold avgSizeMb
    rw [if_neg (by simp), hk]
    have hq : floatDiv (samples : ℚ) ([ds].length : ℕ) = .ok (samples : ℚ) := by
      unfold floatDiv
      simp only [List.length_cons, List.length_nil, Nat.zero_add, Nat.cast_one, div_one]
      rw [if_neg (by norm_num)]
      exact hk
    change (do
      let q ← floatDiv (samples : ℚ) ([ds].length : ℕ)
      if (List.flatten ([ds].map (fun ds : List Nat => ds.take ⌈q⌉.toNat))).length < samples then Except.ok (0 : ℚ)
      else do
        let mean ← npMean (List.flatten ([ds].map (fun ds : List Nat => ds.take ⌈q⌉.toNat)))
        floatDiv mean (1024 * 1024)) = _
    rw [hq]
    change (if (List.flatten ([ds].map (fun ds : List Nat => ds.take ⌈(samples : ℚ)⌉.toNat))).length < samples then _ else _) = _
    rw [if_pos (by simp; omega)]
  unfold numWorkersFor
  rw [ha]
  rfl

/-- Four elements of 1 GiB, a budget of 1 MiB: 64 workers. -/
example : performanceConfig (List.replicate 4 (2 ^ 30)) [List.replicate 4 (2 ^ 30)] 1 (some 64) none 8 5 = .ok (64, 1000) := by
  decide +kernel

/-- The budget is given out twice (F65): every worker process has its own prefetch buffer of the size chosen, so with elements
of 1 MiB and a budget of 100 MiB the configuration holds 100 elements in each of 100 workers, 100 times the budget. -/
theorem config_exceeds_budget :
    ∃ (ds : List Nat) (budget : Nat) (w b : ℤ), performanceConfig ds [ds] budget (some 128) none 8 5 = .ok (w, b) ∧
      ds.length = 5 ∧ (∀ x ∈ ds, x = 2 ^ 20) ∧ 100 * ((budget : ℤ) * 2 ^ 20) ≤ w * b * 2 ^ 20 :=
  ⟨List.replicate 5 (2 ^ 20), 100, 100, 100, by decide +kernel, by decide, by decide, by decide⟩

end Grain
