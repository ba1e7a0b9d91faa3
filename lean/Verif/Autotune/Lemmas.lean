import Verif.Autotune.Model
import Verif.Float.Lemmas
import Mathlib.Tactic.FieldSimp
import Mathlib.Tactic.Positivity
/-
Relative errors of chains of floating point operations.
-/
namespace Grain

/-- `1 - 2^-53`. -/
def flShrink : ℚ := 1 - 1 / 2 ^ 53

/-- `x` and `y` are positive and differ by at most `k` roundings. -/
structure Near (k : Nat) (x y : ℚ) : Prop where
  px : 0 < x
  py : 0 < y
  lo : y * flShrink ^ k ≤ x
  hi : x * flShrink ^ k ≤ y

theorem flShrink_pos : 0 < flShrink := by unfold flShrink; norm_num
theorem flShrink_le : flShrink ≤ 1 := by unfold flShrink; norm_num

theorem Near.refl {x : ℚ} (h : 0 < x) : Near 0 x x := ⟨h, h, by simp, by simp⟩

theorem Near.trans {k l : Nat} {x y z : ℚ} (h1 : Near k x y) (h2 : Near l y z) : Near (k + l) x z := by
  have p := pow_pos flShrink_pos k
  have q := pow_pos flShrink_pos l
  refine ⟨h1.px, h2.py, ?_, ?_⟩
  · calc z * flShrink ^ (k + l) = (z * flShrink ^ l) * flShrink ^ k := by rw [pow_add]; ring
      _ ≤ y * flShrink ^ k := mul_le_mul_of_nonneg_right h2.lo p.le
      _ ≤ x := h1.lo
  · calc x * flShrink ^ (k + l) = (x * flShrink ^ k) * flShrink ^ l := by rw [pow_add]; ring
      _ ≤ y * flShrink ^ l := mul_le_mul_of_nonneg_right h1.hi q.le
      _ ≤ z := h2.hi

theorem Near.mul {k l : Nat} {x y z w : ℚ} (h1 : Near k x y) (h2 : Near l z w) : Near (k + l) (x * z) (y * w) := by
  have p := pow_pos flShrink_pos k
  have q := pow_pos flShrink_pos l
  refine ⟨mul_pos h1.px h2.px, mul_pos h1.py h2.py, ?_, ?_⟩
  · calc y * w * flShrink ^ (k + l) = (y * flShrink ^ k) * (w * flShrink ^ l) := by rw [pow_add]; ring
      _ ≤ x * z := mul_le_mul h1.lo h2.lo (mul_pos h2.py q).le h1.px.le
  · calc x * z * flShrink ^ (k + l) = (x * flShrink ^ k) * (z * flShrink ^ l) := by rw [pow_add]; ring
      _ ≤ y * w := mul_le_mul h1.hi h2.hi (mul_pos h2.px q).le h1.py.le

theorem Near.inv {k : Nat} {x y : ℚ} (h : Near k x y) : Near k x⁻¹ y⁻¹ := by
  have p := pow_pos flShrink_pos k
  refine ⟨inv_pos.2 h.px, inv_pos.2 h.py, ?_, ?_⟩
  · rw [inv_mul_le_iff₀ h.py, ← div_eq_mul_inv, le_div_iff₀ h.px, mul_comm]; exact h.hi
  · rw [inv_mul_le_iff₀ h.px, ← div_eq_mul_inv, le_div_iff₀ h.py, mul_comm]; exact h.lo

theorem Near.div {k l : Nat} {x y z w : ℚ} (h1 : Near k x y) (h2 : Near l z w) : Near (k + l) (x / z) (y / w) := by
  rw [div_eq_mul_inv, div_eq_mul_inv]; exact h1.mul h2.inv

theorem Near.fl {x : ℚ} (h : 2 ^ (-1022 : ℤ) ≤ x) : Near 1 (fl x) x := by
  have hx : 0 < x := lt_of_lt_of_le (two_zpow_pos _) h
  obtain ⟨h1, h2⟩ := fl_err_pos h
  have h3 : x * flShrink < Grain.fl x := h1
  refine ⟨lt_trans (mul_pos hx flShrink_pos) h3, hx, by rw [pow_one]; exact h3.le, ?_⟩
  rw [pow_one]
  calc Grain.fl x * flShrink ≤ (x * (1 + 1 / 2 ^ 53)) * flShrink := mul_le_mul_of_nonneg_right h2.le flShrink_pos.le
    _ = x * ((1 + 1 / 2 ^ 53) * flShrink) := by ring
    _ ≤ x * 1 := mul_le_mul_of_nonneg_left (by unfold flShrink; norm_num) hx.le
    _ = x := mul_one x

/-- Between `2^-200` and `2^200`: far from the limits of the exponent. -/
def Mid (x : ℚ) : Prop := 1 / 2 ^ 200 ≤ x ∧ x ≤ 2 ^ 200

theorem Mid.normal {x : ℚ} (h : Mid x) : 2 ^ (-1022 : ℤ) ≤ x := by
  refine le_trans ?_ h.1
  rw [show (1 : ℚ) / 2 ^ 200 = 2 ^ (-200 : ℤ) by rw [zpow_neg]; norm_num]
  exact zpow_le_zpow_right₀ (by norm_num) (by norm_num)

theorem Mid.float {x : ℚ} (h : Mid x) : float x = .ok (fl x) := by
  have hx : 0 < x := lt_of_lt_of_le (by positivity) h.1
  apply float_ok
  rw [abs_of_pos hx]
  exact le_trans h.2 (pow_le_pow_right₀ (by norm_num) (by norm_num))

theorem Mid.floatDiv {x y : ℚ} (hy : 0 < y) (h : Mid (x / y)) : floatDiv x y = .ok (Grain.fl (x / y)) := by
  unfold Grain.floatDiv
  rw [if_neg (ne_of_gt hy)]
  exact h.float

theorem shrink4 : (1 : ℚ) - 1 / 2 ^ 50 ≤ flShrink ^ 8 := by unfold flShrink; norm_num

theorem shrink_le {k : Nat} (h : k ≤ 8) : (1 : ℚ) - 1 / 2 ^ 50 ≤ flShrink ^ k :=
  le_trans shrink4 (pow_le_pow_of_le_one flShrink_pos.le flShrink_le h)

theorem pyInt64_near {k : Nat} {q x : ℚ} (hk : k ≤ 8) (h : Near k q x) :
    0 ≤ pyInt64 q ∧ (pyInt64 q : ℚ) * (1 - 1 / 2 ^ 50) ≤ x ∧ x * (1 - 1 / 2 ^ 50) ≤ pyInt64 q + 1 := by
  have hq := h.px
  unfold pyInt64
  rw [if_pos hq.le]
  have h0 : 0 ≤ ⌊q⌋ := Int.floor_nonneg.2 hq.le
  have h0' : (0 : ℚ) ≤ ⌊q⌋ := by exact_mod_cast h0
  refine ⟨h0, ?_, ?_⟩
  · calc (⌊q⌋ : ℚ) * (1 - 1 / 2 ^ 50) ≤ ⌊q⌋ * flShrink ^ k := mul_le_mul_of_nonneg_left (shrink_le hk) h0'
      _ ≤ q * flShrink ^ k := mul_le_mul_of_nonneg_right (Int.floor_le q) (pow_pos flShrink_pos k).le
      _ ≤ x := h.hi
  · calc x * (1 - 1 / 2 ^ 50) ≤ x * flShrink ^ k := mul_le_mul_of_nonneg_left (shrink_le hk) h.py.le
      _ ≤ q := h.lo
      _ ≤ ⌊q⌋ + 1 := (Int.lt_floor_add_one q).le

/-- Products of a number between `2^-a` and `2^a` and a number near it stay in the middle range. -/
theorem Near.mid {k : Nat} {x y : ℚ} (hk : k ≤ 8) (h : Near k x y) (hlo : 1 / 2 ^ 190 ≤ y) (hhi : y ≤ 2 ^ 190) : Mid x := by
  have hs := shrink_le hk
  have hhalf : (1 : ℚ) / 2 ≤ flShrink ^ k := le_trans (by norm_num) hs
  constructor
  · have h1 : y * (1 / 2) ≤ x := le_trans (mul_le_mul_of_nonneg_left hhalf h.py.le) h.lo
    have : (1 : ℚ) / 2 ^ 200 ≤ 1 / 2 ^ 190 * (1 / 2) := by norm_num
    exact le_trans this (le_trans (mul_le_mul_of_nonneg_right hlo (by norm_num)) h1)
  · have h1 : x * (1 / 2) ≤ y := le_trans (mul_le_mul_of_nonneg_left hhalf h.px.le) h.hi
    have h2 : x ≤ 2 * y := by linarith
    have : (2 : ℚ) * 2 ^ 190 ≤ 2 ^ 200 := by norm_num
    exact le_trans h2 (le_trans (mul_le_mul_of_nonneg_left hhi (by norm_num)) this)

end Grain
