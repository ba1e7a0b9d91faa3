import Verif.MapDs.MixLemmas
/-
C04 (order and exact proportions), C05 (bounded drift), C06 (no repetition within the mixed length).
-/
namespace Grain
open List

/-- Specification vocabulary: among output positions `a, …, b-1` of a mix with integer proportions `ps`, how
many are served by component `d`. -/
def drawn (ps : List Nat) (d a b : Nat) : Nat :=
  ((List.range' a (b - a)).filter (fun (j : Nat) =>
    match datasetAndKey (j : Int) ps with
    | .ok (d', _) => d' == d
    | .error _ => false)).length

private theorem drawn_zero (ps : List Nat) (d k : Nat) :
    drawn ps d 0 k = ((List.range k).filter (fun j => mixSrc ps j == some d)).length := by
  unfold drawn
  rw [Nat.sub_zero, ← List.range_eq_range']
  congr 1
  apply List.filter_congr
  intro j _
  unfold mixSrc
  split <;> simp_all

private theorem drawn_split (ps : List Nat) (d a b : Nat) (h : a ≤ b) :
    drawn ps d 0 b = drawn ps d 0 a + drawn ps d a b := by
  unfold drawn
  rw [Nat.sub_zero, Nat.sub_zero, ← List.length_append, ← List.filter_append]
  have h1 := List.range'_append (s := 0) (m := a) (n := b - a) (step := 1)
  rw [Nat.one_mul, Nat.zero_add, show a + (b - a) = b by omega] at h1
  rw [h1]

/-- C04: for positive proportions the selection never fails and always names an existing component. -/
theorem mix_select_total (ps : List Nat) (hne : ps ≠ []) (hpos : ∀ p ∈ ps, 0 < p) (k : Int) :
    ∃ d key, datasetAndKey k ps = .ok (d, key) ∧ d < ps.length := by
  obtain ⟨j, h1, h2, _⟩ := datasetAndKey_spec ps k hne hpos
  exact ⟨j, _, h2, h1⟩

/-- C04: the element at output position `k` is the next unused element of its component: its key is the number
of earlier positions served by the same component.  So each component is read `0, 1, 2, …` without gap or
repetition. -/
theorem mix_keys_in_order (ps : List Nat) (hne : ps ≠ []) (hpos : ∀ p ∈ ps, 0 < p) (k d : Nat) (key : Int)
    (h : datasetAndKey (k : Int) ps = .ok (d, key)) : key = drawn ps d 0 k := by
  obtain ⟨j, _, h2, _⟩ := datasetAndKey_spec ps k hne hpos
  rw [h] at h2
  have h3 := Except.ok.inj h2
  have e1 : d = j := congrArg Prod.fst h3
  have e2 : key = mixCnt ps j k := congrArg Prod.snd h3
  rw [drawn_zero, count_eq_mixCnt ps hne hpos, e2, e1]

/-- C04: every period of `W = sum ps` output positions starting at a multiple of `W` contains exactly `w`
elements of the component with proportion `w`. -/
theorem mix_exact_per_period (ps : List Nat) (hpos : ∀ p ∈ ps, 0 < p) (d w m : Nat)
    (hw : ps[d]? = some w) : drawn ps d (m * ps.sum) ((m + 1) * ps.sum) = w := by
  have hne : ps ≠ [] := by rintro rfl; simp at hw
  have h1 := drawn_split ps d (m * ps.sum) ((m + 1) * ps.sum) (Nat.mul_le_mul_right _ (by omega))
  have a := count_eq_mixCnt ps hne hpos d (m * ps.sum)
  have b := count_eq_mixCnt ps hne hpos d ((m + 1) * ps.sum)
  rw [← drawn_zero] at a b
  have pa := mixCnt_period ps d (m : Int) w hpos hw
  have pb := mixCnt_period ps d ((m + 1 : Nat) : Int) w hpos hw
  push_cast at a b pa pb
  rw [pa] at a
  rw [pb] at b
  have : (((m : Int) + 1) * w) = m * w + w := by ring
  omega

/-- C05: after `k` outputs component `d` (proportion `w` of `W`) has contributed at most `ceil(k*w/W)` elements
and at least `k*w/W - d`. -/
theorem mix_bounded_drift (ps : List Nat) (hpos : ∀ p ∈ ps, 0 < p) (d w k : Nat) (hw : ps[d]? = some w) :
    drawn ps d 0 k * ps.sum < k * w + ps.sum ∧ k * w ≤ (drawn ps d 0 k + d) * ps.sum := by
  have hne : ps ≠ [] := by rintro rfl; simp at hw
  have a := count_eq_mixCnt ps hne hpos d k
  rw [← drawn_zero] at a
  have u := mixCnt_upper ps d (k : Int) w hpos (by omega) hw
  have l := mixCnt_lower ps d (k : Int) w hpos hw
  rw [← a] at u l
  constructor
  · have : ((drawn ps d 0 k * ps.sum : Nat) : Int) < ((k * w + ps.sum : Nat) : Int) := by
      push_cast; rw [Int.mul_comm]; exact u
    exact_mod_cast this
  · have : ((k * w : Nat) : Int) ≤ (((drawn ps d 0 k + d) * ps.sum : Nat) : Int) := by
      push_cast; rw [Int.mul_comm _ (ps.sum : Int)]; exact l
    exact_mod_cast this

private theorem foldl_min_le (l : List Nat) : ∀ (m : Nat), l.foldl min m ≤ m ∧ ∀ x ∈ l, l.foldl min m ≤ x := by
  induction l with
  | nil => intro m; simp
  | cons a l ih =>
    intro m
    rw [List.foldl_cons]
    obtain ⟨h1, h2⟩ := ih (min m a)
    refine ⟨by omega, ?_⟩
    intro x hx
    rcases List.mem_cons.mp hx with rfl | hx
    · omega
    · exact h2 x hx

/-- C06: below the mixed length no component is asked for an element at or beyond its own length (and never
for a negative one), so no component element appears twice in an epoch of the mix. -/
theorem mix_no_wrap_around (lens ps : List Nat) (sm : SelMap) (h : selProportions lens ps = .ok sm)
    (k : Nat) (hk : k < sm.len) :
    ∃ d key len, sm.sel k = .ok (d, key) ∧ lens[d]? = some len ∧ 0 ≤ key ∧ key < (len : Int) := by
  unfold selProportions at h
  split at h
  · cases h
  rename_i h0
  split at h
  · cases h
  rename_i hl
  split at h
  · cases h
  rename_i hz
  have hlen : lens.length = ps.length := by omega
  have hpos : ∀ p ∈ ps, 0 < p := by
    intro p hp
    rcases Nat.eq_zero_or_pos p with rfl | h
    · simp only [List.contains_iff_mem] at h0; exact absurd hp h0
    · exact h
  simp only at h
  split at h
  · cases h
  rename_i l ls heq
  cases h
  simp only at hk ⊢
  have hne : ps ≠ [] := by
    rintro rfl; simp at heq
  obtain ⟨d, hd, hsel, hinc, _⟩ := datasetAndKey_spec ps (k : Int) hne hpos
  have hdl : d < lens.length := by omega
  refine ⟨d, _, lens[d], hsel, List.getElem?_eq_getElem hdl, ?_, ?_⟩
  · rw [← count_eq_mixCnt ps hne hpos]; omega
  · have hmem : lens[d] * ps.sum / ps[d] ∈ l :: ls := by
      rw [← heq]
      refine List.mem_map.mpr ⟨(lens[d], ps[d]), ?_, rfl⟩
      rw [List.mem_iff_getElem]
      exact ⟨d, by simp; omega, by simp⟩
    have hmin : ls.foldl min l ≤ lens[d] * ps.sum / ps[d] := by
      obtain ⟨h1, h2⟩ := foldl_min_le ls l
      rcases List.mem_cons.mp hmem with h | h
      · omega
      · exact h2 _ h
    have hk1 : k + 1 ≤ lens[d] * ps.sum / ps[d] := by omega
    have hw : 0 < ps[d] := hpos _ (List.getElem_mem ..)
    have hk2 : (k + 1) * ps[d] ≤ lens[d] * ps.sum := by
      have := Nat.mul_le_mul_right ps[d] hk1
      exact Nat.le_trans this (Nat.div_mul_le_self _ _)
    have u := mixCnt_upper ps d ((k : Int) + 1) ps[d] hpos (by omega) (List.getElem?_eq_getElem hd)
    rw [hinc] at u
    have hk3 : ((k : Int) + 1) * (ps[d] : Int) ≤ (lens[d] : Int) * (ps.sum : Int) := by exact_mod_cast hk2
    have hW : (0 : Int) < (ps.sum : Int) := by
      have := mem_le_sum ps ps[d] (List.getElem_mem ..)
      omega
    have : (ps.sum : Int) * (mixCnt ps d k + 1) < (ps.sum : Int) * ((lens[d] : Int) + 1) := by
      calc (ps.sum : Int) * (mixCnt ps d k + 1) < _ := u
        _ ≤ (lens[d] : Int) * (ps.sum : Int) + ps.sum := by omega
        _ = (ps.sum : Int) * ((lens[d] : Int) + 1) := by ring
    have := Int.lt_of_mul_lt_mul_left this (by omega)
    omega

-- concrete instances meeting the hypotheses
example : (∀ p ∈ [3, 1, 2], 0 < p) ∧
    (List.range 6).map (fun (k : Nat) => datasetAndKey (k : Int) [3, 1, 2]) =
      [.ok (0, 0), .ok (1, 0), .ok (0, 1), .ok (2, 0), .ok (0, 2), .ok (2, 1)] := by decide
example : (selProportions [10, 4, 7] [3, 1, 2]).map (·.len) = .ok 20 := by decide
example : (selProportions [10, 0, 7] [3, 1, 2]).map (·.len) = .error .valueError := by decide

end Grain
