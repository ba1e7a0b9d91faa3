import Verif.Float.Model
import Mathlib.Tactic.Linarith
import Mathlib.Tactic.NormNum
import Mathlib.Tactic.Ring
import Mathlib.Tactic.FieldSimp
import Mathlib.Tactic.Positivity
import Mathlib.Algebra.Order.Floor.Ring
/-
Rounding to the nearest float: it is exact on small integers, monotone, and off by less than one part in `2^53`.
-/
namespace Grain

theorem roundEven_int (n : ℤ) : roundEven (n : ℚ) = n := by
  unfold roundEven
  simp [Int.floor_intCast]

theorem roundEven_bounds (q : ℚ) : (roundEven q : ℚ) ≤ q + 1 / 2 ∧ q - 1 / 2 ≤ roundEven q := by
  have h1 := Int.floor_le q
  have h2 := Int.lt_floor_add_one q
  unfold roundEven
  dsimp only
  split
  · constructor <;> linarith
  split
  · push_cast; constructor <;> linarith
  split
  · constructor <;> linarith
  · push_cast; constructor <;> linarith

theorem roundEven_err (q : ℚ) : |(roundEven q : ℚ) - q| ≤ 1 / 2 := by
  obtain ⟨h1, h2⟩ := roundEven_bounds q
  rw [abs_le]; constructor <;> linarith

/-- The rounded value is the floor or the one above. -/
theorem roundEven_floor (q : ℚ) : ⌊q⌋ ≤ roundEven q ∧ roundEven q ≤ ⌊q⌋ + 1 := by
  unfold roundEven
  dsimp only
  split
  · omega
  split
  · omega
  split <;> omega

theorem roundEven_mono {q r : ℚ} (h : q ≤ r) : roundEven q ≤ roundEven r := by
  have hf : ⌊q⌋ ≤ ⌊r⌋ := Int.floor_le_floor h
  rcases lt_or_eq_of_le hf with hlt | heq
  · have := (roundEven_floor q).2
    have := (roundEven_floor r).1
    omega
  · unfold roundEven
    dsimp only
    rw [heq]
    have hqr : q - (⌊r⌋ : ℚ) ≤ r - ⌊r⌋ := by linarith
    generalize q - (⌊r⌋ : ℚ) = x at hqr
    generalize r - (⌊r⌋ : ℚ) = y at hqr
    by_cases a : x < 1 / 2
    · rw [if_pos a]
      split
      · exact le_refl _
      · split
        · omega
        · split <;> omega
    · have a' : ¬ y < 1 / 2 := by linarith
      rw [if_neg a, if_neg a']
      by_cases b : 1 / 2 < x
      · rw [if_pos b, if_pos (lt_of_lt_of_le b hqr)]
      · rw [if_neg b]
        split
        · split <;> omega
        · split <;> omega

theorem roundEven_neg (q : ℚ) : roundEven (-q) = -roundEven q := by
  by_cases hi : q = ⌊q⌋
  · rw [hi, roundEven_int, ← Int.cast_neg, roundEven_int]
  · have h1 : ⌊-q⌋ = -⌊q⌋ - 1 := by
      rw [Int.floor_eq_iff]
      have a := Int.floor_le q
      have b := Int.lt_floor_add_one q
      have c : (⌊q⌋ : ℚ) < q := lt_of_le_of_ne a (fun h => hi h.symm)
      push_cast
      constructor <;> linarith
    unfold roundEven
    dsimp only
    rw [h1]
    push_cast
    have e : -q - (-(⌊q⌋ : ℚ) - 1) = 1 - (q - ⌊q⌋) := by ring
    rw [e]
    generalize q - (⌊q⌋ : ℚ) = r
    by_cases c1 : r < 1 / 2
    · have : ¬ (1 - r < 1 / 2) := by linarith
      have h2 : 1 / 2 < 1 - r := by linarith
      rw [if_neg this, if_pos h2, if_pos c1]; omega
    · by_cases c2 : 1 / 2 < r
      · have : 1 - r < 1 / 2 := by linarith
        rw [if_pos this, if_neg c1, if_pos c2]; omega
      · have a : ¬ (1 - r < 1 / 2) := by linarith
        have b : ¬ (1 / 2 < 1 - r) := by linarith
        rw [if_neg a, if_neg b, if_neg c1, if_neg c2]
        split <;> split <;> omega

theorem two_zpow_pos (e : ℤ) : (0 : ℚ) < 2 ^ e := zpow_pos (by norm_num) e

theorem fl_zero : fl 0 = 0 := by
  unfold fl
  have : roundEven (0 / 2 ^ ulpExp 0) = 0 := by
    rw [zero_div]; exact roundEven_int 0
  rw [this]; simp

theorem fl_neg (q : ℚ) : fl (-q) = -fl q := by
  unfold fl ulpExp
  rw [abs_neg, neg_div, roundEven_neg]
  push_cast; ring

/-- A number with at most 53 significant digits, and not too small, is a float. -/
theorem fl_exact_of {q : ℚ} (m : ℤ) (e : ℤ) (hq : q = m * 2 ^ e) (he : ulpExp q ≤ e) : fl q = q := by
  unfold fl
  have h1 : q / 2 ^ ulpExp q = ((m * 2 ^ (e - ulpExp q).toNat : ℤ) : ℚ) := by
    rw [hq]
    push_cast
    rw [mul_div_assoc, ← zpow_sub₀ (by norm_num : (2 : ℚ) ≠ 0)]
    congr 1
    rw [← hq, ← zpow_natCast, Int.toNat_of_nonneg (by omega)]
  rw [h1, roundEven_int, ← h1]
  rw [div_mul_cancel₀ _ (ne_of_gt (two_zpow_pos _))]

theorem log_lt_of_abs_lt {q : ℚ} {k : ℤ} (hq : q ≠ 0) (h : |q| < 2 ^ k) : Int.log 2 |q| < k := by
  have := (Int.lt_zpow_iff_log_lt (R := ℚ) (b := 2) (by norm_num) (x := k) (abs_pos.2 hq)).1 (by exact_mod_cast h)
  exact this

/-- Integers up to `2^53` are floats. -/
theorem fl_int {n : ℤ} (h : |n| ≤ 2 ^ 53) : fl (n : ℚ) = n := by
  by_cases h0 : n = 0
  · subst h0; exact_mod_cast fl_zero
  have hne : (n : ℚ) ≠ 0 := by exact_mod_cast h0
  rcases lt_or_eq_of_le h with hlt | heq
  · refine fl_exact_of n 0 (by simp) ?_
    have : Int.log 2 |(n : ℚ)| < 53 := by
      refine log_lt_of_abs_lt hne ?_
      have : ((|n| : ℤ) : ℚ) < ((2 ^ 53 : ℤ) : ℚ) := by exact_mod_cast hlt
      rw [Int.cast_abs] at this
      refine lt_of_lt_of_eq this ?_
      norm_num
    unfold ulpExp; omega
  · have hl : Int.log 2 |(n : ℚ)| = 53 := by
      have : |(n : ℚ)| = ((2 : ℕ) : ℚ) ^ (53 : ℤ) := by
        rw [← Int.cast_abs, heq]; norm_num
      rw [this, Int.log_zpow (by norm_num)]
    have hu : ulpExp (n : ℚ) = 1 := by unfold ulpExp; omega
    have hd : n = 2 ^ 53 ∨ n = -2 ^ 53 := by
      rcases abs_choice n with h | h <;> omega
    rcases hd with rfl | rfl
    · refine fl_exact_of (2 ^ 52) 1 (by norm_num) (by omega)
    · refine fl_exact_of (-2 ^ 52) 1 (by norm_num) (by omega)

theorem fl_nat {n : ℕ} (h : n ≤ 2 ^ 53) : fl (n : ℚ) = n := by
  have := fl_int (n := (n : ℤ)) (by rw [abs_of_nonneg (by omega)]; exact_mod_cast h)
  exact_mod_cast this

theorem fl_pow (k : ℤ) (hk : -1074 ≤ k) : fl (2 ^ k) = 2 ^ k := by
  refine fl_exact_of 1 k (by simp) ?_
  have : Int.log 2 |(2 : ℚ) ^ k| = k := by
    rw [abs_of_pos (two_zpow_pos k)]
    exact_mod_cast Int.log_zpow (R := ℚ) (b := 2) (by norm_num) k
  unfold ulpExp; omega

/-- Same exponent: rounding is monotone. -/
theorem fl_mono_same {q r : ℚ} (h : q ≤ r) (he : ulpExp q = ulpExp r) : fl q ≤ fl r := by
  unfold fl
  rw [he]
  have hp := two_zpow_pos (ulpExp r)
  have : roundEven (q / 2 ^ ulpExp r) ≤ roundEven (r / 2 ^ ulpExp r) :=
    roundEven_mono (div_le_div_of_nonneg_right h (le_of_lt hp))
  exact mul_le_mul_of_nonneg_right (by exact_mod_cast this) (le_of_lt hp)

/-- A power of two above `q` is not passed by rounding. -/
theorem fl_le_pow {q : ℚ} {k : ℤ} (h : q ≤ 2 ^ k) (hk : ulpExp q ≤ k) : fl q ≤ 2 ^ k := by
  unfold fl
  have hp := two_zpow_pos (ulpExp q)
  have h1 : q / 2 ^ ulpExp q ≤ ((2 ^ (k - ulpExp q).toNat : ℤ) : ℚ) := by
    rw [div_le_iff₀ hp]
    push_cast
    rw [← zpow_natCast, Int.toNat_of_nonneg (by omega), ← zpow_add₀ (by norm_num)]
    simpa using h
  have h2 := roundEven_mono h1
  rw [roundEven_int] at h2
  have h3 : (roundEven (q / 2 ^ ulpExp q) : ℚ) ≤ ((2 ^ (k - ulpExp q).toNat : ℤ) : ℚ) := by exact_mod_cast h2
  have h4 := mul_le_mul_of_nonneg_right h3 (le_of_lt hp)
  refine le_trans h4 (le_of_eq ?_)
  push_cast
  rw [← zpow_natCast, Int.toNat_of_nonneg (by omega), ← zpow_add₀ (by norm_num)]
  simp

theorem pow_le_fl {q : ℚ} {k : ℤ} (h : 2 ^ k ≤ q) (hk : ulpExp q ≤ k) : 2 ^ k ≤ fl q := by
  unfold fl
  have hp := two_zpow_pos (ulpExp q)
  have h1 : ((2 ^ (k - ulpExp q).toNat : ℤ) : ℚ) ≤ q / 2 ^ ulpExp q := by
    rw [le_div_iff₀ hp]
    push_cast
    rw [← zpow_natCast, Int.toNat_of_nonneg (by omega), ← zpow_add₀ (by norm_num)]
    simpa using h
  have h2 := roundEven_mono h1
  rw [roundEven_int] at h2
  have h3 : ((2 ^ (k - ulpExp q).toNat : ℤ) : ℚ) ≤ (roundEven (q / 2 ^ ulpExp q) : ℚ) := by exact_mod_cast h2
  have h4 := mul_le_mul_of_nonneg_right h3 (le_of_lt hp)
  refine le_trans (le_of_eq ?_) h4
  push_cast
  rw [← zpow_natCast, Int.toNat_of_nonneg (by omega), ← zpow_add₀ (by norm_num)]
  simp

theorem fl_nonneg {q : ℚ} (h : 0 ≤ q) : 0 ≤ fl q := by
  unfold fl
  have hp := two_zpow_pos (ulpExp q)
  have h1 : ((0 : ℤ) : ℚ) ≤ q / 2 ^ ulpExp q := by simpa using div_nonneg h (le_of_lt hp)
  have h2 := roundEven_mono h1
  rw [roundEven_int] at h2
  exact mul_nonneg (by exact_mod_cast h2) (le_of_lt hp)

theorem fl_mono_pos {q r : ℚ} (hq : 0 < q) (h : q ≤ r) : fl q ≤ fl r := by
  have hr : 0 < r := lt_of_lt_of_le hq h
  have hlog : Int.log 2 q ≤ Int.log 2 r := Int.log_mono_right hq h
  have aq : |q| = q := abs_of_pos hq
  have ar : |r| = r := abs_of_pos hr
  by_cases he : ulpExp q = ulpExp r
  · exact fl_mono_same h he
  · have hlt : Int.log 2 q < Int.log 2 r ∧ ulpExp r = Int.log 2 r - 52 ∧ ulpExp q ≤ Int.log 2 r - 53 := by
      unfold ulpExp at he ⊢
      rw [aq, ar] at *
      omega
    obtain ⟨h1, h2, h3⟩ := hlt
    have hu : q < 2 ^ (Int.log 2 q + 1) := by
      exact_mod_cast Int.lt_zpow_succ_log_self (b := 2) (by norm_num) q
    have hl : 2 ^ Int.log 2 r ≤ r := by
      exact_mod_cast Int.zpow_log_le_self (b := 2) (by norm_num) hr
    have hm : (2 : ℚ) ^ (Int.log 2 q + 1) ≤ 2 ^ Int.log 2 r := zpow_le_zpow_right₀ (by norm_num) (by omega)
    exact le_trans (fl_le_pow (k := Int.log 2 r) (by linarith) (by omega)) (pow_le_fl hl (by omega))

/-- Rounding is monotone. -/
theorem fl_mono {q r : ℚ} (h : q ≤ r) : fl q ≤ fl r := by
  rcases lt_trichotomy q 0 with hq | rfl | hq
  · rcases lt_or_ge r 0 with hr | hr
    · have := fl_mono_pos (q := -r) (r := -q) (by linarith) (by linarith)
      rw [fl_neg, fl_neg] at this
      linarith
    · have a := fl_nonneg (q := -q) (by linarith)
      rw [fl_neg] at a
      have b := fl_nonneg hr
      linarith
  · rw [fl_zero]; exact fl_nonneg h
  · exact fl_mono_pos hq h

/-- The relative rounding error is below `2^-53`, for numbers not extremely close to zero. -/
theorem fl_err {q : ℚ} (hq : q ≠ 0) (hn : 2 ^ (-1022 : ℤ) ≤ |q|) : |fl q - q| < |q| / 2 ^ 53 := by
  have hpos : 0 < |q| := abs_pos.2 hq
  have hlog : -1022 ≤ Int.log 2 |q| := by
    exact (Int.zpow_le_iff_le_log (R := ℚ) (b := 2) (by norm_num) hpos).1 (by exact_mod_cast hn)
  have hu : ulpExp q = Int.log 2 |q| - 52 := by unfold ulpExp; omega
  have hl : (2 : ℚ) ^ Int.log 2 |q| ≤ |q| := by
    exact_mod_cast Int.zpow_log_le_self (R := ℚ) (b := 2) (by norm_num) hpos
  have hp := two_zpow_pos (ulpExp q)
  have herr : |fl q - q| ≤ 2 ^ Int.log 2 |q| / 2 ^ 53 := by
    have h1 := roundEven_err (q / 2 ^ ulpExp q)
    have h2 : fl q - q = ((roundEven (q / 2 ^ ulpExp q) : ℚ) - q / 2 ^ ulpExp q) * 2 ^ ulpExp q := by
      unfold fl
      rw [sub_mul, div_mul_cancel₀ _ (ne_of_gt hp)]
    rw [h2, abs_mul, abs_of_pos hp]
    have h3 := mul_le_mul_of_nonneg_right h1 (le_of_lt hp)
    refine le_trans h3 (le_of_eq ?_)
    rw [hu, zpow_sub₀ (by norm_num)]
    norm_num
    ring
  rcases lt_or_eq_of_le hl with hlt | heq
  · refine lt_of_le_of_lt herr ?_
    exact div_lt_div_of_pos_right hlt (by norm_num)
  · have hz : fl q = q := by
      rcases abs_choice q with h | h
      · have h' : q = 2 ^ Int.log 2 |q| := by rw [heq, h]
        rw [h']; exact fl_pow _ (by omega)
      · have h' : q = -2 ^ Int.log 2 |q| := by rw [heq, h]; ring
        rw [h', fl_neg, fl_pow _ (by omega)]
    rw [hz, sub_self, abs_zero]
    exact div_pos hpos (by norm_num)

theorem fl_err_pos {q : ℚ} (hn : 2 ^ (-1022 : ℤ) ≤ q) :
    q * (1 - 1 / 2 ^ 53) < fl q ∧ fl q < q * (1 + 1 / 2 ^ 53) := by
  have hq : 0 < q := lt_of_lt_of_le (two_zpow_pos _) hn
  have h := fl_err (ne_of_gt hq) (by rwa [abs_of_pos hq])
  rw [abs_of_pos hq, abs_lt] at h
  obtain ⟨h1, h2⟩ := h
  constructor
  · have : q * (1 - 1 / 2 ^ 53) = q - q / 2 ^ 53 := by ring
    linarith
  · have : q * (1 + 1 / 2 ^ 53) = q + q / 2 ^ 53 := by ring
    linarith

/-- Results below `2^1023` do not overflow. -/
theorem float_ok {q : ℚ} (h : |q| ≤ 2 ^ 1023) : float q = .ok (fl q) := by
  have hk : |fl q| ≤ 2 ^ (1023 : ℤ) := by
    have h1 : fl q ≤ 2 ^ (1023 : ℤ) := by
      rw [← fl_pow 1023 (by norm_num)]
      exact fl_mono (le_trans (le_abs_self q) (by exact_mod_cast h))
    have h2 : -(2 ^ (1023 : ℤ)) ≤ fl q := by
      rw [← fl_pow 1023 (by norm_num), ← fl_neg]
      refine fl_mono ?_
      have := neg_abs_le q
      have h' : |q| ≤ 2 ^ (1023 : ℤ) := by exact_mod_cast h
      exact le_trans (neg_le_neg h') this
    exact abs_le.2 ⟨h2, h1⟩
  unfold float
  rw [if_neg]
  rw [not_le]
  refine lt_of_le_of_lt hk ?_
  have : (2 : ℚ) ^ (1023 : ℤ) < 2 ^ (1024 : ℤ) := zpow_lt_zpow_right₀ (by norm_num) (by norm_num)
  exact_mod_cast this

/-- The ceiling of a quotient of integers survives rounding as long as the dividend has at most 53 binary digits (and the
quotient does not underflow). -/
theorem ceil_fl_div {a b : ℤ} (hb : b ≠ 0) (hb' : |b| ≤ 2 ^ 1022) (ha : |a| ≤ 2 ^ 53) :
    ⌈fl ((a : ℚ) / b)⌉ = ⌈(a : ℚ) / b⌉ := by
  by_cases ha0 : a = 0
  · subst ha0; simp [fl_zero]
  have hbq : (b : ℚ) ≠ 0 := by exact_mod_cast hb
  have hbp : (0 : ℚ) < |(b : ℚ)| := abs_pos.2 hbq
  have hb1 : (1 : ℚ) ≤ |(b : ℚ)| := by
    rw [← Int.cast_abs]; exact_mod_cast Int.one_le_abs hb
  have haq : (a : ℚ) ≠ 0 := by exact_mod_cast ha0
  have ha1 : (1 : ℚ) ≤ |(a : ℚ)| := by
    rw [← Int.cast_abs]; exact_mod_cast Int.one_le_abs ha0
  have hau : |(a : ℚ)| ≤ 2 ^ 53 := by
    rw [← Int.cast_abs]; exact_mod_cast ha
  have hbu : |(b : ℚ)| ≤ 2 ^ (1022 : ℤ) := by
    rw [← Int.cast_abs]; exact_mod_cast hb'
  have hqa : |(a : ℚ) / b| = |(a : ℚ)| / |(b : ℚ)| := abs_div _ _
  have hqle : |(a : ℚ) / b| ≤ |(a : ℚ)| := by
    rw [hqa]; exact div_le_self (abs_nonneg _) hb1
  have hqge : 2 ^ (-1022 : ℤ) ≤ |(a : ℚ) / b| := by
    rw [hqa, le_div_iff₀ hbp]
    calc (2 : ℚ) ^ (-1022 : ℤ) * |(b : ℚ)| ≤ 2 ^ (-1022 : ℤ) * 2 ^ (1022 : ℤ) :=
          mul_le_mul_of_nonneg_left hbu (le_of_lt (two_zpow_pos _))
      _ = 1 := by rw [← zpow_add₀ (by norm_num)]; simp
      _ ≤ _ := ha1
  have hq0 : (a : ℚ) / b ≠ 0 := div_ne_zero haq hbq
  have herr := fl_err hq0 hqge
  generalize hc : ⌈(a : ℚ) / b⌉ = c
  obtain ⟨c1, c2⟩ := Int.ceil_eq_iff.1 hc
  have hcle : |c| ≤ 2 ^ 53 := by
    obtain ⟨h1, h2⟩ := abs_le.1 hqle
    have u : c ≤ |a| := by
      rw [← hc]
      refine Int.ceil_le.2 ?_
      rw [Int.cast_abs]; exact h2
    have l : -|a| ≤ c := by
      have : ((-|a| : ℤ) : ℚ) ≤ (c : ℚ) := by
        push_cast; exact le_trans h1 c2
      exact_mod_cast this
    rw [abs_le]; omega
  rw [Int.ceil_eq_iff]
  constructor
  · have hgap : 1 / |(b : ℚ)| ≤ (a : ℚ) / b - (c - 1) := by
      have e : (a : ℚ) / b - (c - 1) = ((a - b * (c - 1) : ℤ) : ℚ) / b := by
        push_cast; field_simp
      have hp : 0 < (a : ℚ) / b - (c - 1) := by linarith
      rw [e] at hp ⊢
      have hn : a - b * (c - 1) ≠ 0 := by
        intro h; rw [h] at hp; simp at hp
      rw [← abs_of_pos hp, abs_div]
      refine div_le_div_of_nonneg_right ?_ (le_of_lt hbp)
      rw [← Int.cast_abs]; exact_mod_cast Int.one_le_abs hn
    have hsmall : |(a : ℚ) / b| / 2 ^ 53 ≤ 1 / |(b : ℚ)| := by
      rw [hqa, div_div, div_le_div_iff₀ (by positivity) hbp]
      calc |(a : ℚ)| * |(b : ℚ)| ≤ 2 ^ 53 * |(b : ℚ)| := mul_le_mul_of_nonneg_right hau (le_of_lt hbp)
        _ = 1 * (|(b : ℚ)| * 2 ^ 53) := by ring
    have := (abs_lt.1 herr).1
    linarith
  · have := fl_mono c2
    rw [fl_int hcle] at this
    exact this

end Grain
