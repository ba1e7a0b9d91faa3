import Verif.MapDs.MixCoherence
import Mathlib.Tactic.Linarith
import Mathlib.Tactic.Ring
/- Helper lemmas for C04-C06: arithmetic of `_dataset_and_key_of_next_element`. -/
namespace Grain
open List

/-- Number of elements component `i` contributes to the first `k` (derived from the loop of the code). -/
def mixCnt : List Nat → Nat → Int → Int
  | [], _, _ => 0
  | p :: ps, 0, k => k - k * (ps.sum : Int) / ((p + ps.sum : Nat) : Int)
  | p :: ps, i + 1, k => mixCnt ps i (k * (ps.sum : Int) / ((p + ps.sum : Nat) : Int))

theorem floor_step (k : Int) (q r : Nat) (hr : 0 < r) (hqr : q ≤ r) :
    (k + 1) * (q : Int) / (r : Int) = k * q / r ∨ (k + 1) * (q : Int) / (r : Int) = k * q / r + 1 := by
  have hr' : (0 : Int) < r := by omega
  have h1 : k * (q : Int) / r * r ≤ k * q := Int.ediv_mul_le _ (by omega)
  have h2 : k * (q : Int) < (k * q / r + 1) * r := Int.lt_ediv_add_one_mul_self _ hr'
  have hq : (q : Int) ≤ r := by omega
  have e : (k + 1) * (q : Int) = k * q + q := by ring
  have lo : k * (q : Int) / r ≤ (k + 1) * q / r := Int.ediv_le_ediv hr' (by rw [e]; omega)
  have hi : (k + 1) * (q : Int) / r < k * q / r + 2 := by
    rw [Int.ediv_lt_iff_lt_mul hr', e]
    have : (k * (q : Int) / r + 2) * r = (k * q / r + 1) * r + r := by ring
    omega
  omega

theorem mixLoop_spec : ∀ (ps : List Nat) (i0 : Nat) (k : Int), ps ≠ [] → (∀ p ∈ ps, 0 < p) →
    ∃ j, j < ps.length ∧ mixLoop i0 ps ps.sum k (k + 1) = .ok (i0 + j, mixCnt ps j k) ∧
      mixCnt ps j (k + 1) = mixCnt ps j k + 1 ∧ ∀ j', j' ≠ j → mixCnt ps j' (k + 1) = mixCnt ps j' k
  | [], _, _, h, _ => absurd rfl h
  | p :: ps, i0, k, _, hpos => by
    have hp : 0 < p := hpos p (by simp)
    have hs : (p :: ps).sum = p + ps.sum := by simp
    have hsub : (((p + ps.sum : Nat) : Int) - p) = (ps.sum : Int) := by push_cast; omega
    rw [mixLoop, hs]
    simp only [hsub]
    have hfs := floor_step k ps.sum (p + ps.sum) (by omega) (by omega)
    rcases hfs with heq | heq
    · refine ⟨0, by simp, ?_, ?_, ?_⟩
      · rw [if_pos (by omega)]
        simp only [mixCnt, Nat.add_zero]
        congr 2; omega
      · simp only [mixCnt]; omega
      · intro j' hj'
        obtain ⟨j'', rfl⟩ := Nat.exists_eq_succ_of_ne_zero hj'
        simp only [mixCnt, heq]
    · have hne : ps ≠ [] := by
        rintro rfl
        simp at heq
      obtain ⟨j, hj, hl, hinc, hoth⟩ := mixLoop_spec ps (i0 + 1)
        (k * (ps.sum : Int) / ((p + ps.sum : Nat) : Int)) hne (fun q hq => hpos q (by simp [hq]))
      refine ⟨j + 1, by simp; exact hj, ?_, ?_, ?_⟩
      · rw [if_neg (by omega)]
        rw [show p + ps.sum - p = ps.sum by omega, heq, hl]
        simp only [mixCnt]
        congr 2; omega
      · simp only [mixCnt, heq]; exact hinc
      · intro j' hj'
        cases j' with
        | zero => simp only [mixCnt]; omega
        | succ j'' => simp only [mixCnt, heq]; exact hoth j'' (by omega)

theorem mixCnt_zero : ∀ (ps : List Nat) (i : Nat), mixCnt ps i 0 = 0
  | [], _ => rfl
  | p :: ps, 0 => by simp [mixCnt]
  | p :: ps, i + 1 => by simp [mixCnt, mixCnt_zero ps i]

/-- `datasetAndKey` never raises and its key is the running count of its component. -/
theorem datasetAndKey_spec (ps : List Nat) (k : Int) (hne : ps ≠ []) (hpos : ∀ p ∈ ps, 0 < p) :
    ∃ j, j < ps.length ∧ datasetAndKey k ps = .ok (j, mixCnt ps j k) ∧
      mixCnt ps j (k + 1) = mixCnt ps j k + 1 ∧ ∀ j', j' ≠ j → mixCnt ps j' (k + 1) = mixCnt ps j' k := by
  obtain ⟨j, h1, h2, h3⟩ := mixLoop_spec ps 0 k hne hpos
  exact ⟨j, h1, by rw [datasetAndKey, h2, Nat.zero_add], h3⟩

theorem mem_le_sum : ∀ (l : List Nat) (w : Nat), w ∈ l → w ≤ l.sum
  | [], _, h => by simp at h
  | a :: l, w, h => by
    rcases List.mem_cons.mp h with rfl | h
    · simp
    · have := mem_le_sum l w h
      simp; omega

theorem mixCnt_upper : ∀ (ps : List Nat) (i : Nat) (k : Int) (w : Nat), (∀ p ∈ ps, 0 < p) → 0 ≤ k →
    ps[i]? = some w → (ps.sum : Int) * mixCnt ps i k < k * w + ps.sum
  | [], _, _, _, _, _, h => by simp at h
  | p :: ps, 0, k, w, hpos, hk, h => by
    simp at h; subst h
    have hp : 0 < p := hpos p (by simp)
    simp only [mixCnt, List.sum_cons]
    have hr' : (0 : Int) < ((p + ps.sum : Nat) : Int) := by omega
    have h2 : k * (ps.sum : Int) < (k * ps.sum / ((p + ps.sum : Nat) : Int) + 1) * ((p + ps.sum : Nat) : Int) :=
      Int.lt_ediv_add_one_mul_self _ hr'
    generalize k * (ps.sum : Int) / ((p + ps.sum : Nat) : Int) = f at *
    push_cast at *
    nlinarith
  | p :: ps, i + 1, k, w, hpos, hk, h => by
    have h : ps[i]? = some w := by simpa using h
    have hp : 0 < p := hpos p (by simp)
    have hw : 0 < w := hpos w (by simp [List.mem_of_getElem? h])
    have hQ : 0 < ps.sum := by
      have := mem_le_sum ps w (List.mem_of_getElem? h)
      omega
    have hr' : (0 : Int) < ((p + ps.sum : Nat) : Int) := by omega
    have h1 : k * (ps.sum : Int) / ((p + ps.sum : Nat) : Int) * ((p + ps.sum : Nat) : Int) ≤ k * ps.sum :=
      Int.ediv_mul_le _ (by omega)
    have hk' : 0 ≤ k * (ps.sum : Int) / ((p + ps.sum : Nat) : Int) :=
      Int.ediv_nonneg (Int.mul_nonneg hk (by omega)) (by omega)
    have ih := mixCnt_upper ps i _ w (fun q hq => hpos q (by simp [hq])) hk' h
    simp only [mixCnt, List.sum_cons]
    generalize k * (ps.sum : Int) / ((p + ps.sum : Nat) : Int) = f at *
    generalize mixCnt ps i f = c at *
    have hQ' : (0 : Int) < (ps.sum : Int) := by omega
    have hp' : (0 : Int) < (p : Int) := by omega
    have hw' : (0 : Int) < (w : Int) := by omega
    generalize hQe : (ps.sum : Int) = Q at *
    have hR : (((p + ps.sum : Nat)) : Int) = p + Q := by push_cast; omega
    rw [hR] at h1
    rw [hR]
    -- Q * ((p+Q) * c) ≤ Q * (k*w + (p+Q)) - (p+Q)
    have a1 : (p + Q) * (Q * c) ≤ (p + Q) * (f * w + Q - 1) := by
      apply Int.mul_le_mul_of_nonneg_left _ (by omega); omega
    have a2 : f * (p + Q) * w ≤ k * Q * w := Int.mul_le_mul_of_nonneg_right h1 (by omega)
    have a3 : Q * ((p + Q) * c) < Q * (k * w + (p + Q)) := by nlinarith
    exact Int.lt_of_mul_lt_mul_left a3 (by omega)

theorem mixCnt_lower : ∀ (ps : List Nat) (i : Nat) (k : Int) (w : Nat), (∀ p ∈ ps, 0 < p) →
    ps[i]? = some w → k * w ≤ (ps.sum : Int) * (mixCnt ps i k + i)
  | [], _, _, _, _, h => by simp at h
  | p :: ps, 0, k, w, hpos, h => by
    simp at h; subst h
    have hp : 0 < p := hpos p (by simp)
    simp only [mixCnt, List.sum_cons]
    have hr' : (0 : Int) < ((p + ps.sum : Nat) : Int) := by omega
    have h1 : k * (ps.sum : Int) / ((p + ps.sum : Nat) : Int) * ((p + ps.sum : Nat) : Int) ≤ k * ps.sum :=
      Int.ediv_mul_le _ (by omega)
    generalize k * (ps.sum : Int) / ((p + ps.sum : Nat) : Int) = f at *
    push_cast at *
    nlinarith
  | p :: ps, i + 1, k, w, hpos, h => by
    have h : ps[i]? = some w := by simpa using h
    have hp : 0 < p := hpos p (by simp)
    have hw : 0 < w := hpos w (by simp [List.mem_of_getElem? h])
    have hwQ : w ≤ ps.sum := mem_le_sum ps w (List.mem_of_getElem? h)
    have hr' : (0 : Int) < ((p + ps.sum : Nat) : Int) := by omega
    have h2 : k * (ps.sum : Int) < (k * ps.sum / ((p + ps.sum : Nat) : Int) + 1) * ((p + ps.sum : Nat) : Int) :=
      Int.lt_ediv_add_one_mul_self _ hr'
    have ih := mixCnt_lower ps i (k * (ps.sum : Int) / ((p + ps.sum : Nat) : Int)) w
      (fun q hq => hpos q (by simp [hq])) h
    simp only [mixCnt, List.sum_cons]
    generalize k * (ps.sum : Int) / ((p + ps.sum : Nat) : Int) = f at *
    generalize mixCnt ps i f = c at *
    have hwQ' : (w : Int) ≤ (ps.sum : Int) := by omega
    have hw' : (0 : Int) < (w : Int) := by omega
    have hp' : (0 : Int) < (p : Int) := by omega
    generalize hQe : (ps.sum : Int) = Q at *
    have hR : (((p + ps.sum : Nat)) : Int) = p + Q := by push_cast; omega
    rw [hR] at h2
    rw [hR]
    have a1 : (p + Q) * (f * w) ≤ (p + Q) * (Q * (c + i)) := Int.mul_le_mul_of_nonneg_left ih (by omega)
    have a2 : k * Q * w ≤ (f + 1) * (p + Q) * w := Int.mul_le_mul_of_nonneg_right (by omega) (by omega)
    have a3 : (p + Q) * w ≤ (p + Q) * Q := Int.mul_le_mul_of_nonneg_left hwQ' (by omega)
    have a4 : Q * (k * w) ≤ Q * ((p + Q) * (c + (i + 1))) := by nlinarith
    have := Int.le_of_mul_le_mul_left a4 (by omega)
    push_cast
    exact this

theorem mixCnt_period : ∀ (ps : List Nat) (i : Nat) (m : Int) (w : Nat), (∀ p ∈ ps, 0 < p) →
    ps[i]? = some w → mixCnt ps i (m * (ps.sum : Int)) = m * w
  | [], _, _, _, _, h => by simp at h
  | p :: ps, i, m, w, hpos, h => by
    have hp : 0 < p := hpos p (by simp)
    have key : m * (((p :: ps).sum : Nat) : Int) * (ps.sum : Int) / ((p + ps.sum : Nat) : Int) = m * ps.sum := by
      rw [List.sum_cons, Int.mul_assoc, Int.mul_comm ((p + ps.sum : Nat) : Int), ← Int.mul_assoc]
      exact Int.mul_ediv_cancel _ (by omega)
    cases i with
    | zero =>
      simp at h; subst h
      rw [mixCnt, key, List.sum_cons]
      push_cast; ring
    | succ i =>
      rw [mixCnt, key]
      exact mixCnt_period ps i m w (fun q hq => hpos q (by simp [hq])) (by simpa using h)

/-- Which component provides output position `k`. -/
def mixSrc (ps : List Nat) (k : Nat) : Option Nat :=
  match datasetAndKey (k : Int) ps with
  | .ok (d, _) => some d
  | .error _ => none

theorem count_eq_mixCnt (ps : List Nat) (hne : ps ≠ []) (hpos : ∀ p ∈ ps, 0 < p) (i : Nat) :
    ∀ k : Nat, (((List.range k).filter (fun j => mixSrc ps j == some i)).length : Int) = mixCnt ps i k
  | 0 => by simp [mixCnt_zero]
  | k + 1 => by
    rw [List.range_succ, List.filter_append, List.length_append]
    obtain ⟨j, _, hj, hinc, hoth⟩ := datasetAndKey_spec ps (k : Int) hne hpos
    have hsrc : mixSrc ps k = some j := by simp [mixSrc, hj]
    have ih := count_eq_mixCnt ps hne hpos i k
    by_cases hij : i = j
    · subst hij
      simp [hsrc, ih, hinc]
    · have h1 := hoth i hij
      have : (some j == some i) = false := by simp; omega
      simp [hsrc, this, ih, h1]

end Grain
