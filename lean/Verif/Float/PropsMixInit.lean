import Verif.Float.PropsMix
/-
C70 and C06: which mixes `MapDataset.mix` accepts.
-/
namespace Grain

theorem mixLengthOf_zero {w W : ℕ} (hw : 0 < w) (hwW : w ≤ W) (hW : W ≤ 2 ^ 52) : mixLengthOf W 0 w = .ok 0 := by
  have hWq : (0 : ℚ) < W := by exact_mod_cast (by omega : 0 < W)
  have hwq : (0 : ℚ) < w := by exact_mod_cast hw
  obtain ⟨x1, _⟩ := fl_share hw hwW hW
  have hshare : intTrueDiv (w : ℤ) (W : ℤ) = .ok (fl ((w : ℚ) / W)) := by
    have := intTrueDiv_ok (a := (w : ℤ)) (b := (W : ℤ)) (by omega) (by
      rw [abs_of_nonneg (by omega)]
      exact le_trans (by omega : (w : ℤ) ≤ 2 ^ 53) pow53_le)
    rw [this]; simp
  have hxpos : fl ((w : ℚ) / W) ≠ 0 := ne_of_gt (lt_trans (by positivity) x1)
  have h0 : float 0 = .ok 0 := by rw [float_ok (by simp), fl_zero]
  unfold mixLengthOf
  rw [hshare]
  simp only [bind, Except.bind, Nat.cast_zero]
  rw [h0]
  simp only [floatDiv, if_neg hxpos, zero_div]
  exact h0

theorem mixLengths_zero (W : ℕ) (hW : W ≤ 2 ^ 52) (zs : List (ℕ × ℕ)) (h : ∀ z ∈ zs, 0 < z.2 ∧ z.2 ≤ W ∧ z.1 * W < 2 ^ 52) :
    ∃ ys, (zs.map (fun z => (z.1, (z.2 : ℤ)))).mapM (fun q => mixLengthOf W q.1 q.2) = .ok ys ∧
      ((∃ z ∈ zs, z.1 = 0) → 0 ∈ ys) := by
  induction zs with
  | nil => exact ⟨[], rfl, fun ⟨_, h, _⟩ => by cases h⟩
  | cons z zs ih =>
    obtain ⟨ys, h1, h2⟩ := ih (fun z' hz => h z' (List.mem_cons_of_mem _ hz))
    obtain ⟨a, b, c⟩ := h z (List.mem_cons_self ..)
    have hy : ∃ y, mixLengthOf W z.1 z.2 = .ok y ∧ (z.1 = 0 → y = 0) := by
      rcases Nat.eq_zero_or_pos z.1 with h0 | h0
      · exact ⟨0, by rw [h0]; exact mixLengthOf_zero a b hW, fun _ => rfl⟩
      · obtain ⟨y, e1, _⟩ := mixLengthOf_bounds a b h0 c
        exact ⟨y, e1, fun h => by omega⟩
    obtain ⟨y, e1, e2⟩ := hy
    refine ⟨y :: ys, ?_, ?_⟩
    · rw [List.map_cons, List.mapM_cons, h1]
      simp only [e1, bind, Except.bind, pure, Except.pure]
    · rintro ⟨z', hz, hz0⟩
      rcases List.mem_cons.1 hz with rfl | hz
      · rw [e2 hz0]; exact List.mem_cons_self ..
      · exact List.mem_cons_of_mem _ (h2 ⟨z', hz, hz0⟩)

theorem mixLenFloat_empty {lens ps : List ℕ} (hl : lens.length = ps.length) (hpos : ∀ p ∈ ps, 0 < p) (hW : ps.sum ≤ 2 ^ 52)
    (hsmall : ∀ l ∈ lens, l * ps.sum < 2 ^ 52) (h0 : 0 ∈ lens) :
    mixLenFloat lens (ps.map (fun p : ℕ => (p : ℤ))) = .error .valueError := by
  have hz : ∀ z ∈ lens.zip ps, 0 < z.2 ∧ z.2 ≤ ps.sum ∧ z.1 * ps.sum < 2 ^ 52 := by
    intro z hz
    have h1 := (List.of_mem_zip (a := z.1) (b := z.2) hz).1
    have h2 := (List.of_mem_zip (a := z.1) (b := z.2) hz).2
    exact ⟨hpos _ h2, mem_le_sum' h2, hsmall _ h1⟩
  obtain ⟨ys, hys, hin⟩ := mixLengths_zero ps.sum hW (lens.zip ps) hz
  have hzip : lens.zip (ps.map (fun p : ℕ => (p : ℤ))) = (lens.zip ps).map (fun z => (z.1, (z.2 : ℤ))) := by
    rw [List.zip_map_right]; rfl
  have hmem : 0 ∈ ys := by
    apply hin
    obtain ⟨i, hi, hi0⟩ := List.getElem_of_mem h0
    have hi' : i < (lens.zip ps).length := by rw [List.length_zip]; omega
    refine ⟨(lens.zip ps)[i], List.getElem_mem hi', ?_⟩
    rw [List.getElem_zip]
    exact hi0
  unfold mixLenFloat
  rw [if_neg (by simp [hl]), cast_sum_int, hzip]
  simp only [bind, Except.bind, pure, Except.pure, hys]
  rw [if_pos (by simpa using hmem)]

/-- C70: a weight of zero is refused, whatever the other weights and the datasets. -/
theorem mix_zero_weight_refused (lens : List ℕ) {values : List ℚ} (h : 0 ∈ values) :
    mixInit lens (some values) = .error .valueError := by
  unfold mixInit mixProportions
  dsimp only
  rw [if_pos (by simpa using h)]
  rfl

/-- C70 and C06: which mixes are accepted.  With one positive weight per dataset (or no weights at all), the mix is refused with
a `ValueError` when one of the datasets is empty, and is accepted otherwise; then it follows the weights as said in
`mix_follows_weights_partial` (exactly without weights), and its length is the largest one that reads no dataset past its end,
or one less.  Sizes are limited as in `mix_length_close`. -/
theorem mix_acceptance {lens : List ℕ} {values : Option (List ℚ)} (hne : lens ≠ [])
    (hv : ∀ vs, values = some vs → vs.length = lens.length ∧ ∀ v ∈ vs, Weight v) :
    ∃ ps : List ℕ, ps.length = lens.length ∧ (∀ p ∈ ps, 0 < p) ∧
      (values = none → ∀ p ∈ ps, p = 1) ∧
      (∀ vs, values = some vs → ∀ (d : ℕ) (v : ℚ), vs[d]? = some v → ∀ k : ℕ,
        |(drawn ps d 0 k : ℚ) - k * (v / vs.sum)| ≤ k * (v / vs.sum) / 98 + (d + 1)) ∧
      (ps.sum ≤ 2 ^ 52 → (∀ l ∈ lens, l * ps.sum < 2 ^ 52) →
        (0 ∈ lens → mixInit lens values = .error .valueError) ∧
        (0 ∉ lens → ∃ sm L, selProportions lens ps = .ok sm ∧ L ≤ sm.len ∧ sm.len ≤ L + 1 ∧
          mixInit lens values = .ok (ps.map (fun p : ℕ => (p : ℤ)), ((L : ℕ) : ℤ)))) := by
  have hlen0 : lens.length ≠ 0 := fun h => hne (List.length_eq_zero_iff.1 h)
  have hps : ∃ ps : List ℕ, mixProportions lens.length values = .ok (ps.map (fun p : ℕ => (p : ℤ))) ∧ ps.length = lens.length ∧
      (∀ p ∈ ps, 0 < p) ∧ (values = none → ∀ p ∈ ps, p = 1) ∧
      (∀ vs, values = some vs → ∀ (d : ℕ) (v : ℚ), vs[d]? = some v → ∀ k : ℕ,
        |(drawn ps d 0 k : ℚ) - k * (v / vs.sum)| ≤ k * (v / vs.sum) / 98 + (d + 1)) := by
    cases values with
    | none =>
      refine ⟨List.replicate lens.length 1, by simp [mixProportions], by simp, ?_, ?_, fun vs h => by cases h⟩
      · intro p hp; rw [List.eq_of_mem_replicate hp]; exact Nat.one_pos
      · intro _ p hp; exact List.eq_of_mem_replicate hp
    | some vs =>
      obtain ⟨hl, hw⟩ := hv vs rfl
      obtain ⟨ps, h1, h2, h3, h4⟩ := mix_follows_weights_partial (values := vs) (by rintro rfl; exact hlen0 hl.symm) hw
      have h0 : 0 ∉ vs := fun h => absurd (hw 0 h).2.1 (not_le.2 (two_zpow_pos _))
      refine ⟨ps, ?_, by rw [h2, hl], h3, fun h => (by cases h), fun vs' h => by cases h; exact h4⟩
      unfold mixProportions
      dsimp only
      rw [if_neg (by simpa using h0)]
      exact h1
  obtain ⟨ps, h1, h2, h3, h4, h5⟩ := hps
  have hpsne : ps ≠ [] := by rintro rfl; exact hlen0 h2.symm
  refine ⟨ps, h2, h3, h4, h5, fun hW hsmall => ⟨fun h0 => ?_, fun h0 => ?_⟩⟩
  · unfold mixInit
    rw [h1]
    simp only [bind, Except.bind]
    rw [mixLenFloat_empty h2.symm h3 hW hsmall h0]
  · obtain ⟨sm, L, a, b, c, d⟩ := mixLenFloat_close h2.symm hpsne h3
      (fun l hl => Nat.pos_of_ne_zero (fun h => h0 (h ▸ hl))) hsmall
    refine ⟨sm, L, a, c, d, ?_⟩
    unfold mixInit
    rw [h1]
    simp only [bind, Except.bind]
    rw [b]

example : mixInit [10, 4] (some [3, 0]) = .error .valueError ∧ mixInit [10, 0] (some [3, 7]) = .error .valueError ∧
    mixInit [10, 4] none = .ok ([1, 1], 8) ∧ mixInit [10, 5] (some [1, 2]) = .ok ([100, 200], 7) := by decide +kernel

/-- Against C70 (weights that make no sense are refused): negative weights are accepted.  Two of them are used by their sizes:
-1 and -3 are 33 to 100.  With one negative weight the mix is made with a negative length; it fails when the length is asked
for. -/
theorem mix_negative_weights_accepted :
    mixInit [10, 10] (some [-1, -3]) = .ok ([33, 100], 13) ∧
    mixInit [10, 10] (some [-1, 3]) = .ok ([100, -300], -20) ∧
    mixInit [10, 10] (some [-1, 1]) = .error .zeroDivision := by
  decide +kernel

end Grain
