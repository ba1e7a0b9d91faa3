import Verif.MapDs.Spec
import Verif.MapDs.Coherence
import Verif.ListUtil
import Verif.Sharding.Lemmas
import Mathlib.Data.List.Sort
import Mathlib.Tactic.Ring
import Mathlib.Tactic.Linarith
namespace Grain
open List

theorem pydivmod_epoch (e : Int) (L i : Nat) (hi : i < L) :
    pydivmod (e * (L : Int) + (i : Int)) L = .ok (e, (i : Int)) := by
  unfold pydivmod
  rw [if_neg (by omega), ediv_mul_add e L i hi, emod_mul_add e L i hi]

theorem pymod_epoch (e : Int) (L i : Nat) (hi : i < L) :
    pymod (e * (L : Int) + (i : Int)) L = .ok (i : Int) := by
  unfold pymod
  rw [if_neg (by omega), emod_mul_add e L i hi]

theorem epoch_length (ds : MapDs α) (e : Int) : (epoch ds e).length = ds.len := by simp [epoch]

theorem epoch_getElem? (ds : MapDs α) (e : Int) (i : Nat) (h : i < ds.len) :
    (epoch ds e)[i]? = some (ds.getitem (e * (ds.len : Int) + (i : Int))) := by
  simp [epoch, h]

/-! concatenation -/

theorem cumulative_ne_nil (l : List Nat) (acc : Nat) : cumulative l acc ≠ [] := by
  cases l <;> simp [cumulative]

theorem cumulative_last (l : List Nat) : ∀ acc, (cumulative l acc).getLastD 0 = acc + l.sum := by
  induction l with
  | nil => intro acc; simp [cumulative]
  | cons a l ih =>
    intro acc
    rw [cumulative]
    have h := ih (acc + a)
    obtain ⟨b, bs, hb⟩ := List.exists_cons_of_ne_nil (cumulative_ne_nil l (acc + a))
    rw [hb] at h ⊢
    simp only [List.getLastD_cons, List.sum_cons] at h ⊢
    omega

theorem cumulative_head (l : List Nat) (acc : Nat) : ∃ t, cumulative l acc = acc :: t := by
  cases l <;> simp [cumulative]

theorem concat_locate (g : MapDs α → Nat → β) : ∀ (ps : List (MapDs α)) (acc j : Nat), acc ≤ j →
    j < acc + (ps.map (·.len)).sum →
    ∃ d p base, bisectRight (cumulative (ps.map (·.len)) acc) (j : Int) = d + 1 ∧ ps[d]? = some p ∧
      (cumulative (ps.map (·.len)) acc)[d]? = some base ∧ base ≤ j ∧ j < base + p.len ∧
      ((ps.map (fun p => (List.range p.len).map (g p))).flatten)[j - acc]? = some (g p (j - base)) := by
  intro ps
  induction ps with
  | nil => intro acc j h1 h2; simp at h2; omega
  | cons p ps ih =>
    intro acc j h1 h2
    simp only [List.map_cons, List.sum_cons] at h2
    simp only [List.map_cons, cumulative, List.flatten_cons]
    by_cases hj : j < acc + p.len
    · refine ⟨0, p, acc, ?_, rfl, rfl, h1, hj, ?_⟩
      · obtain ⟨t, ht⟩ := cumulative_head (ps.map (·.len)) (acc + p.len)
        unfold bisectRight
        rw [ht, List.takeWhile_cons_of_pos (by simp; omega), List.takeWhile_cons_of_neg (by simp; omega)]
        rfl
      · rw [List.getElem?_append_left (by simp; omega)]
        simp [show j - acc < p.len by omega]
    · obtain ⟨d, q, base, e1, e2, e3, e4, e5, e6⟩ := ih (acc + p.len) j (by omega) (by omega)
      refine ⟨d + 1, q, base, ?_, by simpa using e2, by simpa using e3, e4, e5, ?_⟩
      · unfold bisectRight at e1 ⊢
        rw [List.takeWhile_cons_of_pos (by simp; omega), List.length_cons, e1]
      · rw [List.getElem?_append_right (by simp; omega)]
        rw [← e6]
        congr 1
        simp; omega

/-! slices -/

theorem rangeLen_pos (s e k : Int) (hk : 0 < k) (i : Nat) :
    i < rangeLen s e k ↔ s + i * k < e := by
  unfold rangeLen
  rw [if_pos (by omega)]
  split
  · rename_i h
    have hnn : 0 ≤ (e - s - 1) / k := Int.ediv_nonneg (by omega) (by omega)
    rw [Int.lt_toNat]
    constructor
    · intro hi
      have : (i : Int) ≤ (e - s - 1) / k := by omega
      have := (Int.le_ediv_iff_mul_le hk).mp this
      omega
    · intro hi
      have : (i : Int) * k ≤ e - s - 1 := by omega
      have := (Int.le_ediv_iff_mul_le hk).mpr this
      omega
  · rename_i h
    have : 0 ≤ (i : Int) * k := Int.mul_nonneg (by omega) (by omega)
    constructor
    · intro h; omega
    · intro h; omega

theorem rangeLen_neg (s e k : Int) (hk : k < 0) (i : Nat) :
    i < rangeLen s e k ↔ e < s + i * k := by
  have h := rangeLen_pos (-s) (-e) (-k) (by omega) i
  have e1 : rangeLen (-s) (-e) (-k) = rangeLen s e k := by
    unfold rangeLen
    rw [if_pos (by omega), if_neg (show ¬ k > 0 by omega), if_pos hk]
    have : (-s < -e) ↔ s > e := by omega
    simp only [this]
    split
    · congr 3; omega
    · rfl
  rw [e1] at h
  rw [h]
  have : (i : Int) * -k = -(i * k) := by ring
  rw [this]
  omega

/-- The positions of an increasing slice, listed by the constructor's fields. -/
theorem slice_positions_pos (lo hi k : Int) (n : Nat) (hk : 0 < k) (hlo : 0 ≤ lo) (hhi : hi ≤ n)
    (P : Int → Bool) (hP : ∀ x : Int, 0 ≤ x → x < n → (P x = true ↔ (lo ≤ x ∧ (x - lo) % k = 0 ∧ x < hi))) :
    ((List.range n).map (fun (i : Nat) => (i : Int))).filter P =
      (List.range (rangeLen lo hi k)).map (fun (i : Nat) => lo + i * k) := by
  apply List.Pairwise.eq_of_mem_iff (r := (· < ·))
  · apply List.Pairwise.filter
    rw [List.pairwise_map]
    exact List.Pairwise.imp (by intro a b h; simpa using h) List.pairwise_lt_range
  · rw [List.pairwise_map]
    refine List.Pairwise.imp ?_ List.pairwise_lt_range
    intro a b h
    have : (a : Int) * k < b * k := Int.mul_lt_mul_of_pos_right (by omega) hk
    omega
  · intro x
    simp only [List.mem_filter, List.mem_map, List.mem_range, rangeLen_pos lo hi k hk]
    constructor
    · rintro ⟨⟨i, hi', rfl⟩, hp⟩
      obtain ⟨h1, h2, h3⟩ := (hP _ (by omega) (by omega)).mp hp
      have hd := Int.ediv_mul_add_emod ((i : Int) - lo) k
      have hq : 0 ≤ ((i : Int) - lo) / k := Int.ediv_nonneg (by omega) (by omega)
      refine ⟨(((i : Int) - lo) / k).toNat, ?_, ?_⟩ <;> rw [Int.toNat_of_nonneg hq] <;> omega
    · rintro ⟨q, hq, rfl⟩
      have h0 : 0 ≤ (q : Int) * k := Int.mul_nonneg (by omega) (by omega)
      refine ⟨⟨(lo + q * k).toNat, by omega, by omega⟩, ?_⟩
      rw [hP _ (by omega) (by omega)]
      refine ⟨by omega, ?_, hq⟩
      rw [show lo + (q : Int) * k - lo = q * k by ring]
      exact Int.mul_emod_left _ _

theorem slice_positions_neg (hi lo k : Int) (n : Nat) (hk : k < 0) (hhi : hi < n) (hlo : -1 ≤ lo)
    (P : Int → Bool) (hP : ∀ x : Int, 0 ≤ x → x < n → (P x = true ↔ (x ≤ hi ∧ (hi - x) % (-k) = 0 ∧ lo < x))) :
    ((List.range n).map (fun (i : Nat) => (i : Int))).reverse.filter P =
      (List.range (rangeLen hi lo k)).map (fun (i : Nat) => hi + i * k) := by
  apply List.Pairwise.eq_of_mem_iff (r := (· > ·))
  · apply List.Pairwise.filter
    rw [List.pairwise_reverse, List.pairwise_map]
    exact List.Pairwise.imp (by intro a b h; simpa using h) List.pairwise_lt_range
  · rw [List.pairwise_map]
    refine List.Pairwise.imp ?_ List.pairwise_lt_range
    intro a b h
    have : (a : Int) * (-k) < b * (-k) := Int.mul_lt_mul_of_pos_right (by omega) (by omega)
    rw [Int.mul_neg, Int.mul_neg] at this
    omega
  · intro x
    simp only [List.mem_filter, List.mem_reverse, List.mem_map, List.mem_range, rangeLen_neg hi lo k hk]
    constructor
    · rintro ⟨⟨i, hi', rfl⟩, hp⟩
      obtain ⟨h1, h2, h3⟩ := (hP _ (by omega) (by omega)).mp hp
      have hd := Int.ediv_mul_add_emod (hi - (i : Int)) (-k)
      have hq : 0 ≤ (hi - (i : Int)) / (-k) := Int.ediv_nonneg (by omega) (by omega)
      rw [Int.mul_neg] at hd
      refine ⟨((hi - (i : Int)) / (-k)).toNat, ?_, ?_⟩ <;> rw [Int.toNat_of_nonneg hq] <;> omega
    · rintro ⟨q, hq, rfl⟩
      have h0 : 0 ≤ (q : Int) * (-k) := Int.mul_nonneg (by omega) (by omega)
      rw [Int.mul_neg] at h0
      refine ⟨⟨(hi + q * k).toNat, by omega, by omega⟩, ?_⟩
      rw [hP _ (by omega) (by omega)]
      refine ⟨by omega, ?_, hq⟩
      rw [show hi - (hi + (q : Int) * k) = q * (-k) by ring]
      exact Int.mul_emod_left _ _

theorem slice_positions (start stop step : Option Int) (n : Nat) (s : SliceSpec)
    (h : SliceSpec.make start stop step n = .ok s) :
    s.parentLength = n ∧ pySlicePositions start stop (step.getD 1) n =
      (List.range s.length).map (fun (i : Nat) => s.start + i * s.step) := by
  unfold SliceSpec.make at h
  rw [bind_ok_iff] at h
  obtain ⟨⟨a, b, c⟩, h1, h2⟩ := h
  cases h2
  unfold sliceIndices at h1
  simp only at h1
  split at h1
  · cases h1
  rename_i hk0
  replace h1 := Except.ok.inj h1
  simp only [Prod.mk.injEq] at h1
  obtain ⟨ha, hb, hc⟩ := h1
  simp only [true_and]
  rw [hc] at hk0 ha hb ⊢
  unfold pySlicePositions
  by_cases hk : c > 0
  · rw [if_pos hk]
    have hn : ¬ c < 0 := by omega
    simp only [hn, decide_false, Bool.false_eq_true, if_false] at ha hb
    cases start <;> cases stop <;> simp only [Option.map_none, Option.map_some, Option.getD_none, Option.getD_some] at ha hb ⊢
    all_goals
      by_cases hemp : a < n
      · have hlo : 0 ≤ a := by omega
        have hhi : b ≤ n := by omega
        refine Eq.trans ?_ (slice_positions_pos a b c n hk hlo hhi
          (fun x => decide (a ≤ x) && decide ((x - a) % c = 0) && decide (x < b)) (by intro x _ _; simp [and_assoc]))
        apply List.filter_congr
        intro x hx
        simp only [List.mem_map, List.mem_range] at hx
        obtain ⟨y, hy, rfl⟩ := hx
        congr 1
        · congr 1
          · congr 1; apply propext; omega
          · congr 3; omega
        · first
          | (simp; omega)
      · have : rangeLen a b c = 0 := by
          by_contra hne
          have := (rangeLen_pos a b c hk 0).mp (by omega)
          simp at this; omega
        rw [this, List.range_zero, List.map_nil, List.filter_eq_nil_iff]
        intro x hx
        simp only [List.mem_map, List.mem_range] at hx
        obtain ⟨y, hy, rfl⟩ := hx
        simp
        intros
        omega
  · rw [if_neg hk]
    have hn : c < 0 := by omega
    simp only [hn, decide_true, if_true] at ha hb
    cases start <;> cases stop <;> simp only [Option.map_none, Option.map_some, Option.getD_none, Option.getD_some] at ha hb ⊢
    all_goals
      by_cases hemp : 0 ≤ a
      · have hlo : a < n := by omega
        have hhi : -1 ≤ b := by omega
        refine Eq.trans ?_ (slice_positions_neg a b c n hn hlo hhi
          (fun x => decide (x ≤ a) && decide ((a - x) % (-c) = 0) && decide (b < x)) (by intro x _ _; simp [and_assoc]))
        apply List.filter_congr
        intro x hx
        simp only [List.mem_reverse, List.mem_map, List.mem_range] at hx
        obtain ⟨y, hy, rfl⟩ := hx
        congr 1
        · congr 1
          · congr 1; apply propext; omega
          · congr 3; omega
        · first
          | (simp; omega)
      · have : rangeLen a b c = 0 := by
          by_contra hne
          have := (rangeLen_neg a b c hn 0).mp (by omega)
          simp at this; omega
        rw [this, List.range_zero, List.map_nil, List.filter_eq_nil_iff]
        intro x hx
        simp only [List.mem_reverse, List.mem_map, List.mem_range] at hx
        obtain ⟨y, hy, rfl⟩ := hx
        simp
        intros
        omega

end Grain
