import Verif.Float.PropsLength
import Verif.Float.Spec
import Verif.MapDs.PropsMix
/-
The floating point part of a mix: the length and the proportions.
-/
namespace Grain

theorem fl_share {w W : ℕ} (hw : 0 < w) (hwW : w ≤ W) (hW : W ≤ 2 ^ 52) :
    (w : ℚ) / W * (1 - 1 / 2 ^ 53) < fl ((w : ℚ) / W) ∧ fl ((w : ℚ) / W) < (w : ℚ) / W * (1 + 1 / 2 ^ 53) := by
  refine fl_err_pos ?_
  have hWq : (0 : ℚ) < W := by exact_mod_cast (by omega : 0 < W)
  have e1 : (2 : ℚ) ^ (-1022 : ℤ) ≤ 2 ^ (-52 : ℤ) := zpow_le_zpow_right₀ (by norm_num) (by norm_num)
  refine le_trans e1 ?_
  rw [le_div_iff₀ hWq]
  have h1 : (W : ℚ) ≤ 2 ^ 52 := by exact_mod_cast hW
  have h2 : (1 : ℚ) ≤ w := by exact_mod_cast hw
  calc (2 : ℚ) ^ (-52 : ℤ) * W ≤ 2 ^ (-52 : ℤ) * 2 ^ 52 := mul_le_mul_of_nonneg_left h1 (le_of_lt (two_zpow_pos _))
    _ = 1 := by norm_num
    _ ≤ w := h2

/-- What `len / (weight / weight_sum)` comes to: at most the exact number (rounded down), and at most one less. -/
theorem mixLengthOf_bounds {w W len : ℕ} (hw : 0 < w) (hwW : w ≤ W) (hlen : 0 < len) (hsmall : len * W < 2 ^ 52) :
    ∃ y : ℚ, mixLengthOf W len w = .ok y ∧ 0 < y ∧ ⌊y⌋ ≤ (len * W / w : ℕ) ∧ ((len * W / w : ℕ) : ℤ) ≤ ⌊y⌋ + 1 ∧
      (¬ w ∣ len * W → ⌊y⌋ = (len * W / w : ℕ)) := by
  have hWpos : 0 < W := by omega
  have hW52 : W ≤ 2 ^ 52 := le_of_lt (lt_of_le_of_lt (Nat.le_mul_of_pos_left _ hlen) hsmall)
  have hl52 : len ≤ 2 ^ 52 := le_of_lt (lt_of_le_of_lt (Nat.le_mul_of_pos_right _ hWpos) hsmall)
  have hWq : (0 : ℚ) < W := by exact_mod_cast hWpos
  have hwq : (0 : ℚ) < w := by exact_mod_cast hw
  have hlq : (0 : ℚ) < len := by exact_mod_cast hlen
  have hwWq : (w : ℚ) ≤ W := by exact_mod_cast hwW
  obtain ⟨x1, x2⟩ := fl_share hw hwW hW52
  have hshare : intTrueDiv (w : ℤ) (W : ℤ) = .ok (fl ((w : ℚ) / W)) := by
    have := intTrueDiv_ok (a := (w : ℤ)) (b := (W : ℤ)) (by omega) (by
      rw [abs_of_nonneg (by omega)]
      exact le_trans (by omega : (w : ℤ) ≤ 2 ^ 53) pow53_le)
    rw [this]; simp
  generalize hx : fl ((w : ℚ) / W) = x at *
  have hxpos : 0 < x := lt_trans (by positivity) x1
  have hflen : float (len : ℚ) = .ok (len : ℚ) := by
    rw [float_ok, fl_nat (by omega)]
    rw [abs_of_pos hlq]
    have h1 : (len : ℚ) ≤ 2 ^ 52 := by exact_mod_cast hl52
    exact le_trans h1 (pow_le_pow_right₀ (by norm_num) (by norm_num))
  -- the exact quotient
  have hq : (len : ℚ) / x < (len * W : ℕ) / w / (1 - 1 / 2 ^ 53) ∧ (len * W : ℕ) / w / (1 + 1 / 2 ^ 53) < (len : ℚ) / x := by
    push_cast
    constructor
    · rw [div_div, div_lt_div_iff₀ hxpos (by positivity)]
      have : (w : ℚ) * (1 - 1 / 2 ^ 53) < x * W := by
        have := mul_lt_mul_of_pos_right x1 hWq
        have e : (w : ℚ) / W * (1 - 1 / 2 ^ 53) * W = w * (1 - 1 / 2 ^ 53) := by field_simp
        linarith
      calc (len : ℚ) * (w * (1 - 1 / 2 ^ 53)) < len * (x * W) := mul_lt_mul_of_pos_left this hlq
        _ = _ := by ring
    · rw [div_div, div_lt_div_iff₀ (by positivity) hxpos]
      have : x * W < (w : ℚ) * (1 + 1 / 2 ^ 53) := by
        have := mul_lt_mul_of_pos_right x2 hWq
        have e : (w : ℚ) / W * (1 + 1 / 2 ^ 53) * W = w * (1 + 1 / 2 ^ 53) := by field_simp
        linarith
      calc (len : ℚ) * W * x = len * (x * W) := by ring
        _ < len * (w * (1 + 1 / 2 ^ 53)) := mul_lt_mul_of_pos_left this hlq
  obtain ⟨q1, q2⟩ := hq
  generalize hN : len * W = N at *
  have hNpos : 0 < N := by rw [← hN]; exact Nat.mul_pos hlen hWpos
  have hNq : (0 : ℚ) < N := by exact_mod_cast hNpos
  have hNu : (N : ℚ) + 1 ≤ 2 ^ 52 := by exact_mod_cast hsmall
  have hq0 : (0 : ℚ) < (N : ℚ) / w := by positivity
  have hNw : (1 : ℚ) ≤ (N : ℚ) / w := by
    rw [le_div_iff₀ hwq, one_mul]
    have : w ≤ N := by
      rw [← hN]; exact le_trans hwW (Nat.le_mul_of_pos_left _ hlen)
    exact_mod_cast this
  have hrange : (1 : ℚ) / 2 < (len : ℚ) / x := by
    refine lt_of_le_of_lt ?_ q2
    rw [le_div_iff₀ (by norm_num)]
    have : (1 : ℚ) / 2 * (1 + 1 / 2 ^ 53) ≤ 1 := by norm_num
    linarith
  have hnorm : (2 : ℚ) ^ (-1022 : ℤ) ≤ (len : ℚ) / x := by
    have e1 : (2 : ℚ) ^ (-1022 : ℤ) ≤ 2 ^ (-1 : ℤ) := zpow_le_zpow_right₀ (by norm_num) (by norm_num)
    refine le_trans e1 (le_of_lt (lt_of_eq_of_lt ?_ hrange))
    norm_num
  obtain ⟨y1, y2⟩ := fl_err_pos hnorm
  have hyfl : floatDiv (len : ℚ) x = .ok (fl ((len : ℚ) / x)) := by
    unfold floatDiv
    rw [if_neg (ne_of_gt hxpos), float_ok]
    rw [abs_of_pos (by linarith)]
    have h1 : (N : ℚ) / w ≤ N := div_le_self (le_of_lt hNq) (by exact_mod_cast hw)
    have h2 : (N : ℚ) / w / (1 - 1 / 2 ^ 53) ≤ N * 2 := by
      rw [div_le_iff₀ (by norm_num)]
      have : (1 : ℚ) ≤ 2 * (1 - 1 / 2 ^ 53) := by norm_num
      have := mul_le_mul_of_nonneg_left this (le_of_lt hNq)
      linarith
    have h3 : (N : ℚ) * 2 ≤ 2 ^ 53 := by
      have : (2 : ℚ) ^ 53 = 2 ^ 52 * 2 := by norm_num
      linarith
    have h4 : (2 : ℚ) ^ 53 ≤ 2 ^ 1023 := pow_le_pow_right₀ (by norm_num) (by norm_num)
    exact le_trans (le_trans (le_of_lt q1) h2) (le_trans h3 h4)
  generalize hy : fl ((len : ℚ) / x) = y at *
  have hypos : 0 < y := lt_trans (mul_pos (by linarith) (by norm_num)) y1
  -- error of the result against the exact quotient
  have hup : y < (N : ℚ) / w + 1 / w := by
    have h1 : y < (N : ℚ) / w / (1 - 1 / 2 ^ 53) * (1 + 1 / 2 ^ 53) :=
      lt_trans y2 (mul_lt_mul_of_pos_right q1 (by norm_num))
    refine lt_of_lt_of_le h1 ?_
    rw [← add_div, div_mul_eq_mul_div, div_le_iff₀ (by norm_num), div_mul_eq_mul_div, div_mul_eq_mul_div]
    refine div_le_div_of_nonneg_right ?_ (le_of_lt hwq)
    have : ((N : ℚ) + 1) * (1 - 1 / 2 ^ 53) - N * (1 + 1 / 2 ^ 53) = 1 - (2 * N + 1) / 2 ^ 53 := by ring
    have h5 : (2 * (N : ℚ) + 1) / 2 ^ 53 ≤ 1 := by
      rw [div_le_one (by norm_num)]
      have : (2 : ℚ) ^ 53 = 2 ^ 52 * 2 := by norm_num
      linarith
    linarith
  have hdown : (N : ℚ) / w - 1 / w < y := by
    have h1 : (N : ℚ) / w / (1 + 1 / 2 ^ 53) * (1 - 1 / 2 ^ 53) < y :=
      lt_trans (mul_lt_mul_of_pos_right q2 (by norm_num)) y1
    refine lt_of_le_of_lt ?_ h1
    rw [← sub_div, div_mul_eq_mul_div, le_div_iff₀ (by norm_num), div_mul_eq_mul_div, div_mul_eq_mul_div]
    refine div_le_div_of_nonneg_right ?_ (le_of_lt hwq)
    have : (N : ℚ) * (1 - 1 / 2 ^ 53) - ((N : ℚ) - 1) * (1 + 1 / 2 ^ 53) = 1 + 1 / 2 ^ 53 - 2 * N / 2 ^ 53 := by ring
    have h5 : (2 * (N : ℚ)) / 2 ^ 53 ≤ 1 := by
      rw [div_le_one (by norm_num)]
      have : (2 : ℚ) ^ 53 = 2 ^ 52 * 2 := by norm_num
      linarith
    have h6 : (0 : ℚ) < 1 / 2 ^ 53 := by norm_num
    linarith
  have hfloor : (N : ℚ) / w ≤ ((N / w : ℕ) : ℚ) + 1 - 1 / w := by
    rw [div_le_iff₀ hwq, sub_mul, one_div, inv_mul_cancel₀ (ne_of_gt hwq)]
    have h1 := Nat.div_add_mod N w
    have h2 := Nat.mod_lt N hw
    have h3 : N + 1 ≤ (N / w + 1) * w := by
      rw [Nat.add_mul, Nat.mul_comm (N / w) w]; omega
    have h4 : ((N : ℚ)) + 1 ≤ ((N / w : ℕ) + 1) * w := by exact_mod_cast h3
    linarith
  have hfloor' : ((N / w : ℕ) : ℚ) ≤ (N : ℚ) / w := by
    rw [le_div_iff₀ hwq]; exact_mod_cast Nat.div_mul_le_self N w
  have hnodvd : ¬ w ∣ N → ((N / w : ℕ) : ℚ) + 1 / w ≤ (N : ℚ) / w := by
    intro hnd
    rw [le_div_iff₀ hwq, add_mul, one_div, inv_mul_cancel₀ (ne_of_gt hwq)]
    have h1 := Nat.div_add_mod N w
    have h2 : N % w ≠ 0 := fun h => hnd (Nat.dvd_of_mod_eq_zero h)
    have h3 : (N / w) * w + 1 ≤ N := by
      rw [Nat.mul_comm (N / w) w]; omega
    exact_mod_cast h3
  have hw1 : (1 : ℚ) / w ≤ 1 := by rw [div_le_one hwq]; exact_mod_cast hw
  generalize N / w = t at *
  have hA : ⌊y⌋ ≤ (t : ℤ) := by
    have : ⌊y⌋ < (t : ℤ) + 1 := by
      rw [Int.floor_lt]
      push_cast
      linarith
    omega
  refine ⟨y, ?_, hypos, hA, ?_, ?_⟩
  · unfold mixLengthOf
    rw [hshare]
    simp only [bind, Except.bind]
    rw [hflen]
    exact hyfl
  · have : (t : ℤ) - 1 ≤ ⌊y⌋ := by
      rw [Int.le_floor]
      push_cast
      linarith
    omega
  · intro hnd
    refine le_antisymm hA ?_
    rw [Int.le_floor]
    have := hnodvd hnd
    push_cast
    linarith

/-- How a computed length `y` relates to the exact one. -/
def LengthClose (y : ℚ) (n : ℕ) : Prop := 0 < y ∧ ⌊y⌋ ≤ (n : ℤ) ∧ (n : ℤ) ≤ ⌊y⌋ + 1

theorem LengthClose.min {y y' : ℚ} {n n' : ℕ} (h : LengthClose y n) (h' : LengthClose y' n') :
    LengthClose (min y y') (min n n') := by
  obtain ⟨a, b, c⟩ := h
  obtain ⟨a', b', c'⟩ := h'
  have hf : ⌊Min.min y y'⌋ = Min.min ⌊y⌋ ⌊y'⌋ := by
    rcases le_total y y' with h | h
    · rw [min_eq_left h, min_eq_left (Int.floor_le_floor h)]
    · rw [min_eq_right h, min_eq_right (Int.floor_le_floor h)]
  refine ⟨lt_min a a', ?_, ?_⟩ <;> rw [hf] <;> omega

theorem lengthClose_foldl {ys : List ℚ} {ns : List ℕ} (h : List.Forall₂ LengthClose ys ns) :
    ∀ {y : ℚ} {n : ℕ}, LengthClose y n → LengthClose (ys.foldl min y) (ns.foldl min n) := by
  induction h with
  | nil => intro y n h; exact h
  | cons h _ ih => intro y n hyn; exact ih (hyn.min h)

theorem mixLengths_close (W : ℕ) (zs : List (ℕ × ℕ))
    (h : ∀ z ∈ zs, 0 < z.2 ∧ z.2 ≤ W ∧ 0 < z.1 ∧ z.1 * W < 2 ^ 52) :
    ∃ ys, (zs.map (fun z => (z.1, (z.2 : ℤ)))).mapM (fun q => mixLengthOf W q.1 q.2) = .ok ys ∧
      List.Forall₂ LengthClose ys (zs.map (fun q => q.1 * W / q.2)) := by
  induction zs with
  | nil => exact ⟨[], rfl, .nil⟩
  | cons z zs ih =>
    obtain ⟨ys, h1, h2⟩ := ih (fun z' hz => h z' (List.mem_cons_of_mem _ hz))
    obtain ⟨a, b, c, d⟩ := h z (List.mem_cons_self ..)
    obtain ⟨y, e1, e2, e3, e4, _⟩ := mixLengthOf_bounds a b c d
    refine ⟨y :: ys, ?_, .cons ⟨e2, e3, e4⟩ h2⟩
    rw [List.map_cons, List.mapM_cons, h1]
    simp only [e1, bind, Except.bind, pure, Except.pure]

theorem pyInt64_floor {y : ℚ} (h : 0 < y) : pyInt64 y = ⌊y⌋ := by
  unfold pyInt64; rw [if_pos (le_of_lt h)]

theorem mem_le_sum' {ps : List ℕ} {p : ℕ} (h : p ∈ ps) : p ≤ ps.sum := List.single_le_sum (by simp) _ h

theorem cast_sum_int (ps : List ℕ) : (ps.map (fun p : ℕ => (p : ℤ))).sum = (ps.sum : ℤ) := by
  induction ps with
  | nil => rfl
  | cons p ps ih => simp [ih]

theorem mixLenFloat_close {lens ps : List ℕ} (hl : lens.length = ps.length) (hne : ps ≠ []) (hpos : ∀ p ∈ ps, 0 < p)
    (hlens : ∀ l ∈ lens, 0 < l) (hsmall : ∀ l ∈ lens, l * ps.sum < 2 ^ 52) :
    ∃ sm L, selProportions lens ps = .ok sm ∧ mixLenFloat lens (ps.map (fun p : ℕ => (p : ℤ))) = .ok ((L : ℕ) : ℤ) ∧
      L ≤ sm.len ∧ sm.len ≤ L + 1 := by
  have hz : ∀ z ∈ lens.zip ps, 0 < z.2 ∧ z.2 ≤ ps.sum ∧ 0 < z.1 ∧ z.1 * ps.sum < 2 ^ 52 := by
    intro z hz
    have h1 := (List.of_mem_zip (a := z.1) (b := z.2) hz).1
    have h2 := (List.of_mem_zip (a := z.1) (b := z.2) hz).2
    exact ⟨hpos _ h2, mem_le_sum' h2, hlens _ h1, hsmall _ h1⟩
  obtain ⟨ys, hys, hclose⟩ := mixLengths_close ps.sum (lens.zip ps) hz
  have hzip : lens.zip (ps.map (fun p : ℕ => (p : ℤ))) = (lens.zip ps).map (fun z => (z.1, (z.2 : ℤ))) := by
    rw [List.zip_map_right]; rfl
  obtain ⟨l, lens', rfl⟩ : ∃ l lens', lens = l :: lens' := by
    cases lens with
    | nil => exact absurd (List.length_eq_zero_iff.1 hl.symm) hne
    | cons l lens' => exact ⟨l, lens', rfl⟩
  obtain ⟨p, ps', rfl⟩ : ∃ p ps', ps = p :: ps' := by
    cases ps with
    | nil => exact absurd rfl hne
    | cons p ps' => exact ⟨p, ps', rfl⟩
  rw [List.zip_cons_cons, List.map_cons] at hclose
  cases hclose with
  | cons h0 hrest =>
  rename_i y ys'
  have hfold := lengthClose_foldl hrest h0
  obtain ⟨f1, f2, f3⟩ := hfold
  dsimp only at f2 f3
  have hfnn : 0 ≤ ⌊ys'.foldl min y⌋ := Int.floor_nonneg.2 (le_of_lt f1)
  refine ⟨⟨min maxsize (((lens'.zip ps').map (fun q => q.1 * (p :: ps').sum / q.2)).foldl min (l * (p :: ps').sum / p)),
      fun k => datasetAndKey k (p :: ps')⟩, (min (maxsize : ℤ) ⌊ys'.foldl min y⌋).toNat, ?_, ?_, ?_, ?_⟩
  · unfold selProportions
    rw [if_neg, if_neg (by simpa using hl), if_neg]
    · rfl
    · intro h
      have := hlens 0 (List.contains_iff_mem.1 h)
      omega
    · intro h
      have := hpos 0 (List.contains_iff_mem.1 h)
      omega
  · unfold mixLenFloat
    rw [if_neg (by simpa using hl), hzip, cast_sum_int]
    simp only [bind, Except.bind, pure, Except.pure]
    have hys' := hys
    rw [List.zip_cons_cons] at hys' ⊢
    rw [hys']
    have hnz : (y :: ys').contains 0 = false := by
      rw [Bool.eq_false_iff]
      intro h
      have hmem := List.contains_iff_mem.1 h
      have hall : ∀ x ∈ y :: ys', 0 < x := by
        have hcl : List.Forall₂ LengthClose (y :: ys') _ := .cons h0 hrest
        intro x hx
        obtain ⟨i, hi, rfl⟩ := List.getElem_of_mem hx
        exact ((List.forall₂_iff_get.1 hcl).2 i hi (by rw [← hcl.length_eq]; exact hi)).1
      exact lt_irrefl _ (hall 0 hmem)
    simp only [hnz, pyMin]
    rw [pyInt64_floor f1, Int.toNat_of_nonneg (by unfold maxsize; omega)]
    rfl
  · simp only
    omega
  · simp only
    omega

/-! ### Proportions -/

theorem foldl_min_rat (vs : List ℚ) : ∀ v, vs.foldl min v ∈ v :: vs ∧ ∀ x ∈ v :: vs, vs.foldl min v ≤ x := by
  induction vs with
  | nil => intro v; simp
  | cons a vs ih =>
    intro v
    rw [List.foldl_cons]
    obtain ⟨h1, h2⟩ := ih (min v a)
    constructor
    · rcases List.mem_cons.1 h1 with h | h
      · rcases min_choice v a with h' | h'
        · rw [h, h']; exact List.mem_cons_self ..
        · rw [h, h']; exact List.mem_cons_of_mem _ (List.mem_cons_self ..)
      · exact List.mem_cons_of_mem _ (List.mem_cons_of_mem _ h)
    · intro x hx
      have hm := h2 _ (List.mem_cons_self ..)
      rcases List.mem_cons.1 hx with rfl | hx
      · exact le_trans hm (min_le_left _ _)
      · rcases List.mem_cons.1 hx with rfl | hx
        · exact le_trans hm (min_le_right _ _)
        · exact h2 x (List.mem_cons_of_mem _ hx)

/-- The scaled and truncated proportion. -/
def scaled (scale v : ℚ) : ℕ := ⌊fl (v * scale)⌋.toNat

theorem pow_bound {v : ℚ} {a b : ℤ} (h : v ≤ 2 ^ a) (hab : a ≤ b) : v ≤ 2 ^ b :=
  le_trans h (zpow_le_zpow_right₀ (by norm_num) hab)

theorem bound_pow {v : ℚ} {a b : ℤ} (h : 2 ^ b ≤ v) (hab : a ≤ b) : 2 ^ a ≤ v :=
  le_trans (zpow_le_zpow_right₀ (by norm_num) hab) h

/-- What scaling does to one weight `v`, `m` being the smallest weight. -/
theorem scaled_bounds {m v : ℚ} (hm : Weight m) (hv : Weight v) (hmv : m ≤ v) :
    float (100 / m) = .ok (fl (100 / m)) ∧ float v = .ok v ∧ float (v * fl (100 / m)) = .ok (fl (v * fl (100 / m))) ∧
      0 < fl (v * fl (100 / m)) ∧
      100 * v / m * (1 - 1 / 2 ^ 53) ^ 2 - 1 ≤ (scaled (fl (100 / m)) v : ℚ) ∧
      (scaled (fl (100 / m)) v : ℚ) ≤ 100 * v / m * (1 + 1 / 2 ^ 53) ^ 2 := by
  obtain ⟨_, m1, m2⟩ := hm
  obtain ⟨v0, v1, v2⟩ := hv
  have hmp : 0 < m := lt_of_lt_of_le (two_zpow_pos _) m1
  have hvp : 0 < v := lt_of_lt_of_le (two_zpow_pos _) v1
  have hs1 : (2 : ℚ) ^ (-500 : ℤ) ≤ 100 / m := by
    rw [le_div_iff₀ hmp]
    calc (2 : ℚ) ^ (-500 : ℤ) * m ≤ 2 ^ (-500 : ℤ) * 2 ^ (500 : ℤ) := mul_le_mul_of_nonneg_left m2 (le_of_lt (two_zpow_pos _))
      _ = 1 := by rw [← zpow_add₀ (by norm_num)]; simp
      _ ≤ 100 := by norm_num
  have hs2 : 100 / m ≤ 2 ^ (507 : ℤ) := by
    rw [div_le_iff₀ hmp]
    calc (100 : ℚ) ≤ 2 ^ (7 : ℤ) := by norm_num
      _ = 2 ^ (507 : ℤ) * 2 ^ (-500 : ℤ) := by rw [← zpow_add₀ (by norm_num)]; norm_num
      _ ≤ 2 ^ (507 : ℤ) * m := mul_le_mul_of_nonneg_left m1 (le_of_lt (two_zpow_pos _))
  have hsp : 0 < 100 / m := by positivity
  obtain ⟨e1, e2⟩ := fl_err_pos (bound_pow hs1 (by norm_num) : (2 : ℚ) ^ (-1022 : ℤ) ≤ 100 / m)
  have hup : fl (100 / m) ≤ 2 ^ (507 : ℤ) := by
    rw [← fl_pow 507 (by norm_num)]; exact fl_mono hs2
  generalize hs : fl (100 / m) = s at *
  have hspos : 0 < s := lt_trans (mul_pos hsp (by norm_num)) e1
  have hr : 100 / m * v = 100 * v / m := by ring
  have hvm : (100 : ℚ) ≤ 100 * v / m := by
    rw [le_div_iff₀ hmp]; exact mul_le_mul_of_nonneg_left hmv (by norm_num)
  have hprod1 : 100 * v / m * (1 - 1 / 2 ^ 53) < v * s := by
    have := mul_lt_mul_of_pos_right e1 hvp
    rw [← hr]
    linarith
  have hprod2 : v * s < 100 * v / m * (1 + 1 / 2 ^ 53) := by
    have := mul_lt_mul_of_pos_right e2 hvp
    rw [← hr]
    linarith
  have hbig : 50 < v * s := by
    refine lt_of_le_of_lt ?_ hprod1
    have : (100 : ℚ) * (1 - 1 / 2 ^ 53) ≤ 100 * v / m * (1 - 1 / 2 ^ 53) := mul_le_mul_of_nonneg_right hvm (by norm_num)
    refine le_trans ?_ this
    norm_num
  have hvs : v * s ≤ 2 ^ (1007 : ℤ) := by
    calc v * s ≤ 2 ^ (500 : ℤ) * 2 ^ (507 : ℤ) := mul_le_mul v2 hup (le_of_lt hspos) (le_of_lt (two_zpow_pos _))
      _ = _ := by rw [← zpow_add₀ (by norm_num)]; norm_num
  have hnorm : (2 : ℚ) ^ (-1022 : ℤ) ≤ v * s := by
    have h1 : (2 : ℚ) ^ (0 : ℤ) ≤ v * s := by
      rw [zpow_zero]; exact le_trans (by norm_num) (le_of_lt hbig)
    exact bound_pow h1 (by norm_num)
  obtain ⟨y1, y2⟩ := fl_err_pos hnorm
  generalize hy : fl (v * s) = y at *
  have hypos : 0 < y := lt_trans (mul_pos (lt_trans (by norm_num) hbig) (by norm_num)) y1
  have hfl : ((⌊y⌋.toNat : ℕ) : ℚ) = (⌊y⌋ : ℤ) := by
    have : ((⌊y⌋.toNat : ℕ) : ℤ) = ⌊y⌋ := Int.toNat_of_nonneg (Int.floor_nonneg.2 (le_of_lt hypos))
    exact_mod_cast congrArg (fun z : ℤ => (z : ℚ)) this
  refine ⟨?_, ?_, ?_, hypos, ?_, ?_⟩
  · rw [float_ok, hs]
    rw [abs_of_pos hsp]
    exact_mod_cast pow_bound hs2 (by norm_num : (507 : ℤ) ≤ (1023 : ℕ))
  · rw [float_ok, v0]
    rw [abs_of_pos hvp]
    exact_mod_cast pow_bound v2 (by norm_num : (500 : ℤ) ≤ (1023 : ℕ))
  · rw [float_ok, hy]
    rw [abs_of_pos (mul_pos hvp hspos)]
    exact_mod_cast pow_bound hvs (by norm_num : (1007 : ℤ) ≤ (1023 : ℕ))
  · unfold scaled
    rw [hy, hfl]
    have h1 := Int.lt_floor_add_one y
    have h2 : 100 * v / m * (1 - 1 / 2 ^ 53) * (1 - 1 / 2 ^ 53) < y :=
      lt_trans (mul_lt_mul_of_pos_right hprod1 (by norm_num)) y1
    have h3 : 100 * v / m * (1 - 1 / 2 ^ 53) ^ 2 = 100 * v / m * (1 - 1 / 2 ^ 53) * (1 - 1 / 2 ^ 53) := by ring
    linarith
  · unfold scaled
    rw [hy, hfl]
    have h1 := Int.floor_le y
    have h2 : y < 100 * v / m * (1 + 1 / 2 ^ 53) * (1 + 1 / 2 ^ 53) :=
      lt_trans y2 (mul_lt_mul_of_pos_right hprod2 (by norm_num))
    have h3 : 100 * v / m * (1 + 1 / 2 ^ 53) ^ 2 = 100 * v / m * (1 + 1 / 2 ^ 53) * (1 + 1 / 2 ^ 53) := by ring
    linarith

/-- All weights scaled. -/
theorem floatToIntProportions_ok {values : List ℚ} (hne : values ≠ []) (hv : ∀ v ∈ values, Weight v) :
    ∃ m ∈ values, (∀ v ∈ values, m ≤ v) ∧
      floatToIntProportions values = .ok ((values.map (scaled (fl (100 / m)))).map (fun p : ℕ => (p : ℤ))) := by
  obtain ⟨v0, vs, rfl⟩ : ∃ v0 vs, values = v0 :: vs := by
    cases values with
    | nil => exact absurd rfl hne
    | cons v0 vs => exact ⟨v0, vs, rfl⟩
  obtain ⟨hmem, hmin⟩ := foldl_min_rat vs v0
  generalize hm : vs.foldl min v0 = m at *
  refine ⟨m, hmem, hmin, ?_⟩
  have hmpos : 0 < m := lt_of_lt_of_le (two_zpow_pos _) (hv m hmem).2.1
  have hall : ∀ l : List ℚ, (∀ v ∈ l, v ∈ v0 :: vs) →
      l.mapM (fun p => (do
        let p ← float p
        let x ← float (p * fl (100 / m))
        .ok (pyInt64 x) : Py ℤ)) = .ok ((l.map (scaled (fl (100 / m)))).map (fun p : ℕ => (p : ℤ))) := by
    intro l hl
    induction l with
    | nil => rfl
    | cons v l ih =>
      have hmv := hl v (List.mem_cons_self ..)
      obtain ⟨_, b2, b3, b4, _⟩ := scaled_bounds (hv m hmem) (hv v hmv) (hmin v hmv)
      rw [List.mapM_cons, ih (fun v' h => hl v' (List.mem_cons_of_mem _ h))]
      simp only [b2, b3, bind, Except.bind, pure, Except.pure]
      rw [pyInt64_floor b4]
      simp only [List.map_cons]
      congr 2
      unfold scaled
      exact (Int.toNat_of_nonneg (Int.floor_nonneg.2 (le_of_lt b4))).symm
  have h100 := (scaled_bounds (hv m hmem) (hv m hmem) (le_refl m)).1
  unfold floatToIntProportions pyMin
  simp only [bind, Except.bind, hm]
  rw [if_neg (ne_of_gt hmpos), h100]
  simp only
  exact hall _ (fun _ h => h)

theorem scaled_sum {m : ℚ} (hm : Weight m) : ∀ (l : List ℚ), (∀ v ∈ l, Weight v) → (∀ v ∈ l, m ≤ v) →
    100 * l.sum / m * (1 - 1 / 2 ^ 53) ^ 2 - l.length ≤ ((l.map (scaled (fl (100 / m)))).sum : ℚ) ∧
      ((l.map (scaled (fl (100 / m)))).sum : ℚ) ≤ 100 * l.sum / m * (1 + 1 / 2 ^ 53) ^ 2 ∧ (l.length : ℚ) * m ≤ l.sum := by
  intro l hv hmin
  induction l with
  | nil => simp
  | cons v l ih =>
    obtain ⟨h1, h2, h3⟩ := ih (fun v' h => hv v' (List.mem_cons_of_mem _ h)) (fun v' h => hmin v' (List.mem_cons_of_mem _ h))
    have hmv := hmin v (List.mem_cons_self ..)
    obtain ⟨_, _, _, _, b5, b6⟩ := scaled_bounds hm (hv v (List.mem_cons_self ..)) hmv
    simp only [List.map_cons, List.sum_cons, List.length_cons]
    push_cast
    have e1 : 100 * (v + l.sum) / m = 100 * v / m + 100 * l.sum / m := by ring
    rw [e1, add_mul, add_mul]
    refine ⟨by linarith, by linarith, ?_⟩
    rw [add_mul]; linarith

end Grain
