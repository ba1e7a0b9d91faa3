import Verif.Stats.Spec
import Verif.Float.Lemmas
import Verif.Iter.Basic
import Mathlib.Tactic.Linarith
import Mathlib.Tactic.Positivity
import Mathlib.Tactic.FieldSimp
/-
Lemmas about execution summaries.
-/
namespace Grain

/-! ### Two summaries that differ in ratios only -/

/-- `s'` differs from `s` in the ratios of the nodes `k`, ..., `k + n - 1` only. -/
def RatiosOnly (s s' : Summary) (k n : Nat) : Prop :=
  s'.keys = s.keys ∧ (∀ i, s'.node i = { s.node i with waitRatio := (s'.node i).waitRatio }) ∧
    ∀ i, i < k ∨ k + n ≤ i → s'.node i = s.node i

theorem RatiosOnly.refl (s : Summary) (k n : Nat) : RatiosOnly s s k n := ⟨rfl, fun _ => rfl, fun _ _ => rfl⟩

theorem RatiosOnly.trans {s s' s'' : Summary} {k n k' n' k'' n'' : Nat} (h : RatiosOnly s s' k n) (h' : RatiosOnly s' s'' k' n')
    (h1 : k'' ≤ k) (h2 : k'' ≤ k') (h3 : k + n ≤ k'' + n'') (h4 : k' + n' ≤ k'' + n'') : RatiosOnly s s'' k'' n'' := by
  refine ⟨h'.1.trans h.1, fun i => ?_, fun i hi => ?_⟩
  · have e1 := h'.2.1 i
    have e2 := h.2.1 i
    rw [e1, e2]
  · rw [h'.2.2 i (by omega), h.2.2 i (by omega)]

theorem RatiosOnly.put {s : Summary} {k : Nat} (hk : k ∈ s.keys) (r : ℚ) :
    RatiosOnly s (s.put k { s.node k with waitRatio := r }) k 1 := by
  refine ⟨if_pos hk, fun i => ?_, fun i hi => ?_⟩
  · by_cases h : i = k
    · subst h
      simp [Summary.put]
    · simp [Summary.put, Function.update_of_ne h]
  · have h : i ≠ k := by omega
    simp [Summary.put, Function.update_of_ne h]

mutual
theorem STree.shownAt_ratios {s s' : Summary} {j n : Nat} (h : RatiosOnly s s' j n) : ∀ (t : STree) (k : Nat), t.ShownAt s k → t.ShownAt s' k
  | .node own ins, k, ⟨h1, ⟨r, h2⟩, h3⟩ => by
    refine ⟨by rw [h.1]; exact h1, ⟨(s'.node k).waitRatio, ?_⟩, ins.shownAt_ratios h (k + 1) h3⟩
    rw [h.2.1 k, h2]
theorem STrees.shownAt_ratios {s s' : Summary} {j n : Nat} (h : RatiosOnly s s' j n) : ∀ (ts : STrees) (k : Nat), ts.ShownAt s k → ts.ShownAt s' k
  | .nil, _, _ => trivial
  | .cons t ts, k, h' => ⟨t.shownAt_ratios h k h'.1, ts.shownAt_ratios h _ h'.2⟩
end

/-! ### The nodes of a thread -/

mutual
theorem STree.before_eq {s : Summary} : ∀ (t : STree) (k : Nat), t.ShownAt s k → ∃ (m : Nat) (ids : List Nat),
    (∀ n stack acc, s.before (n + m) (k :: stack) acc = s.before n stack (acc ++ ids)) ∧ s.aggregated ids = t.threadNs
  | .node own ins, k, ⟨_, ⟨r, h2⟩, h3⟩ => by
    obtain ⟨m, ids, e1, e2⟩ := ins.before_eq (k + 1) h3
    cases hp : own.isPrefetch with
    | true =>
      refine ⟨1, [k], fun n stack acc => ?_, ?_⟩
      · show s.before n (if (s.node k).isPrefetch then stack else _) (acc ++ [k]) = _
        rw [if_pos (by rw [h2]; exact hp)]
      · simp [Summary.aggregated, STree.threadNs, h2, hp, NodeStats.node]
    | false =>
      refine ⟨m + 1, k :: ids, fun n stack acc => ?_, ?_⟩
      · show s.before (n + m) (if (s.node k).isPrefetch then stack else (s.node k).inputs.reverse ++ stack) (acc ++ [k]) = _
        rw [if_neg (by rw [h2]; simp [NodeStats.node, hp])]
        have : (s.node k).inputs = ins.ids (k + 1) := by rw [h2]
        rw [this, e1, List.append_assoc]
        rfl
      · have e3 : s.aggregated (k :: ids) = (s.node k).totalNs + s.aggregated ids := by simp [Summary.aggregated]
        rw [e3, e2, h2]
        simp [STree.threadNs, hp, NodeStats.node]
theorem STrees.before_eq {s : Summary} : ∀ (ts : STrees) (k : Nat), ts.ShownAt s k → ∃ (m : Nat) (ids : List Nat),
    (∀ n stack acc, s.before (n + m) ((ts.ids k).reverse ++ stack) acc = s.before n stack (acc ++ ids)) ∧ s.aggregated ids = ts.threadNs
  | .nil, k, _ => ⟨0, [], fun n stack acc => by simp [STrees.ids], rfl⟩
  | .cons t ts, k, h => by
    obtain ⟨m, ids, e1, e2⟩ := t.before_eq k h.1
    obtain ⟨m', ids', e1', e2'⟩ := ts.before_eq (k + t.size) h.2
    refine ⟨m + m', ids' ++ ids, fun n stack acc => ?_, ?_⟩
    · have : ((STrees.cons t ts).ids k).reverse ++ stack = (ts.ids (k + t.size)).reverse ++ (k :: stack) := by
        simp [STrees.ids]
      rw [this, ← Nat.add_assoc, e1', e1, List.append_assoc]
    · have : s.aggregated (ids' ++ ids) = s.aggregated ids' + s.aggregated ids := by simp [Summary.aggregated]
      rw [this, e2, e2', STrees.threadNs, Nat.add_comm]
end

theorem STree.before_ev {s : Summary} {t : STree} {k : Nat} (h : t.ShownAt s k) :
    ∃ ids, (∃ N, ∀ F, N ≤ F → s.before F [k] [] = some ids) ∧ s.aggregated ids = t.threadNs := by
  obtain ⟨m, ids, e1, e2⟩ := t.before_eq k h
  refine ⟨ids, ⟨m + 1, fun F hF => ?_⟩, e2⟩
  obtain ⟨n, rfl⟩ : ∃ n, F = (n + 1) + m := ⟨F - (m + 1), by omega⟩
  rw [e1]
  rfl

/-! ### The ratios as computed -/

/-- The ratio of one node. -/
def ratioOf (factor thread : ℚ) (own : NodeStats) : ℚ := round4 (fl (factor * fl (own.totalNs / thread)))

mutual
def STree.computed (factor : ℚ) (thread : Nat) : STree → List ℚ
  | .node own ins =>
    if own.isPrefetch then
      match ins with
      | .nil => [ratioOf factor thread own]
      | .cons _ _ => 0 :: ins.computedPrefetch (ratioOf factor thread own)
    else ratioOf factor thread own :: ins.computed factor thread
def STrees.computed (factor : ℚ) (thread : Nat) : STrees → List ℚ
  | .nil => []
  | .cons t ts => t.computed factor thread ++ ts.computed factor thread
def STrees.computedPrefetch (factor : ℚ) : STrees → List ℚ
  | .nil => []
  | .cons t ts => t.computed factor t.threadNs ++ ts.computedPrefetch factor
end

theorem Summary.ratios_append (s : Summary) (k m n : Nat) : s.ratios k (m + n) = s.ratios k m ++ s.ratios (k + m) n := by
  unfold Summary.ratios
  rw [List.range_add, List.map_append, List.map_map]
  congr 1
  apply List.map_congr_left
  intro i _
  simp [Nat.add_assoc]

theorem Summary.ratios_congr {s s' : Summary} {k n : Nat} (h : ∀ i, k ≤ i → i < k + n → s'.node i = s.node i) : s'.ratios k n = s.ratios k n := by
  unfold Summary.ratios
  apply List.map_congr_left
  intro i hi
  rw [h _ (by omega) (by have := List.mem_range.1 hi; omega)]

theorem Summary.ratios_one (s : Summary) (k : Nat) : s.ratios k 1 = [(s.node k).waitRatio] := rfl

theorem Summary.put_node (s : Summary) (k : Nat) (n : SumNode) : (s.put k n).node k = n := by simp [Summary.put]

mutual
theorem STree.computeRatio_eq : ∀ (t : STree) (s : Summary) (k agg : Nat) (f : ℚ), t.ShownAt s k → t.Prefetches → 0 < agg →
    ∃ s' N, (∀ F n, N ≤ F → N ≤ n → computeRatio F n s k agg f = some s') ∧ RatiosOnly s s' k t.size ∧ s'.ratios k t.size = t.computed f agg
  | .node own ins, s, k, agg, f, ⟨h1, ⟨r, h2⟩, h3⟩, hp, hagg => by
    have hro := RatiosOnly.put h1 (ratioOf f agg own)
    have hin := ins.shownAt_ratios hro (k + 1) h3
    have hput : ∀ F n, computeRatio F (n + 1) s k agg f =
        ratioLoop (computeRatio F n) F k (ins.ids (k + 1)) (s.put k { s.node k with waitRatio := ratioOf f agg own }) agg f := by
      intro F n
      show (if agg = 0 then _ else _) = _
      rw [if_neg (by omega)]
      have e1 : ratioOf f agg own = round4 (fl (f * fl ((s.node k).totalNs / agg))) := by rw [h2]; rfl
      rw [← e1]
      simp only
      congr 1
      simp [Summary.put, h2]
    have hk1 : k ∈ (s.put k { s.node k with waitRatio := ratioOf f agg own }).keys := by rw [hro.1]; exact h1
    have hnode := Summary.put_node s k { s.node k with waitRatio := ratioOf f agg own }
    generalize s.put k { s.node k with waitRatio := ratioOf f agg own } = s1 at hro hin hput hk1 hnode
    cases hpre : own.isPrefetch with
    | false =>
      have hpre' : (s1.node k).isPrefetch = false := by rw [hnode, h2]; exact hpre
      obtain ⟨s', N, g1, g2, g3⟩ := ins.computeRatio_eq s1 k (k + 1) agg f hin hp.2 hagg hpre' (by omega)
      refine ⟨s', N + 1, fun F n hF hn => ?_, hro.trans g2 (by omega) (by omega) (by simp only [STree.size]; omega) (by simp only [STree.size]; omega), ?_⟩
      · obtain ⟨m, rfl⟩ : ∃ m, n = m + 1 := ⟨n - 1, by omega⟩
        rw [hput]
        exact g1 F m (by omega) (by omega)
      · rw [STree.size, Summary.ratios_append, g3, Summary.ratios_one, g2.2.2 k (by omega), hnode]
        rw [STree.computed.eq_def]
        simp [hpre]
    | true =>
      have hpre' : (s1.node k).isPrefetch = true := by rw [hnode, h2]; exact hpre
      rcases hp.1 hpre with rfl | ⟨t, rfl, hpos⟩
      · refine ⟨s1, 1, fun F n hF hn => ?_, hro, ?_⟩
        · obtain ⟨m, rfl⟩ : ∃ m, n = m + 1 := ⟨n - 1, by omega⟩
          rw [hput]
          rfl
        · rw [STree.size, STrees.size, Summary.ratios_one, hnode, STree.computed, hpre]
          simp
      · obtain ⟨ids, ⟨N1, hids⟩, hsum⟩ := STree.before_ev hin.1
        have hro2 := RatiosOnly.put hk1 0
        have hin2 := t.shownAt_ratios hro2 (k + 1) hin.1
        have hnode2 := Summary.put_node s1 k { s1.node k with waitRatio := 0 }
        obtain ⟨s', N, g1, g2, g3⟩ := t.computeRatio_eq (s1.put k { s1.node k with waitRatio := 0 }) (k + 1) t.threadNs
          (ratioOf f agg own) hin2 hp.2.1 hpos
        refine ⟨s', N1 + N + 1, fun F n hF hn => ?_, ?_, ?_⟩
        · obtain ⟨m, rfl⟩ : ∃ m, n = m + 1 := ⟨n - 1, by omega⟩
          rw [hput]
          simp only [STrees.ids, ratioLoop]
          rw [if_pos hpre', hids F (by omega)]
          simp only [Option.bind_eq_bind, Option.bind_some, hsum]
          rw [show (s1.node k).waitRatio = ratioOf f agg own by rw [hnode], g1 F m (by omega) (by omega)]
          rfl
        · refine (hro.trans hro2 (Nat.le_refl k) (Nat.le_refl k) (Nat.le_refl _) (Nat.le_refl _)).trans g2 (by omega) (by omega) ?_ ?_ <;>
            simp only [STree.size, STrees.size] <;> omega
        · have e : (STree.node own (.cons t .nil)).size = 1 + t.size := by simp [STree.size, STrees.size]
          rw [e, Summary.ratios_append, g3, Summary.ratios_one, g2.2.2 k (by omega), hnode2, STree.computed, hpre]
          simp [STrees.computedPrefetch]
theorem STrees.computeRatio_eq : ∀ (ts : STrees) (s : Summary) (id k agg : Nat) (f : ℚ), ts.ShownAt s k → ts.Prefetches → 0 < agg →
    (s.node id).isPrefetch = false → id < k →
    ∃ s' N, (∀ F n, N ≤ F → N ≤ n → ratioLoop (computeRatio F n) F id (ts.ids k) s agg f = some s') ∧ RatiosOnly s s' k ts.size ∧
      s'.ratios k ts.size = ts.computed f agg
  | .nil, s, id, k, agg, f, _, _, _, _, _ => ⟨s, 0, fun _ _ _ _ => rfl, RatiosOnly.refl _ _ _, rfl⟩
  | .cons t ts, s, id, k, agg, f, h, hp, hagg, hid, hlt => by
    obtain ⟨s1, N1, g1, g2, g3⟩ := t.computeRatio_eq s k agg f h.1 hp.1 hagg
    obtain ⟨s2, N2, g1', g2', g3'⟩ := ts.computeRatio_eq s1 id (k + t.size) agg f (ts.shownAt_ratios g2 _ h.2) hp.2 hagg
      (by rw [g2.2.2 id (by omega)]; exact hid) (by omega)
    refine ⟨s2, N1 + N2, fun F n hF hn => ?_, ?_, ?_⟩
    · simp only [STrees.ids, ratioLoop]
      rw [if_neg (by rw [hid]; simp), g1 F n (by omega) (by omega)]
      exact g1' F n (by omega) (by omega)
    · refine g2.trans g2' (by omega) (by omega) ?_ ?_ <;> simp only [STrees.size] <;> omega
    · rw [STrees.size, Summary.ratios_append, g3', Summary.ratios_congr (s := s1) (fun i _ hi => g2'.2.2 i (by omega)), g3]
      rfl
end

theorem populate_eq {s : Summary} {t : STree} (h : t.ShownAt s 0) (hp : t.Prefetches) (hpos : 0 < t.threadNs) :
    ∃ s', Ev (fun F => populateRatio F s = some s') ∧ RatiosOnly s s' 0 t.size ∧ s'.ratios 0 t.size = t.computed 1 t.threadNs := by
  obtain ⟨ids, ⟨N1, hids⟩, hsum⟩ := STree.before_ev h
  obtain ⟨s', N, g1, g2, g3⟩ := t.computeRatio_eq s 0 t.threadNs 1 h hp hpos
  refine ⟨s', ⟨N1 + N, fun F hF => ?_⟩, g2, g3⟩
  simp only [populateRatio]
  rw [hids F (by omega)]
  simp only [Option.bind_eq_bind, Option.bind_some, hsum]
  exact g1 F F (by omega) (by omega)

/-! ### Rounding -/

theorem fl_abs_err {q : ℚ} (h : |q| ≤ 2) : |fl q - q| ≤ 1 / 2 ^ 50 := by
  have he : ulpExp q ≤ -51 := by
    unfold ulpExp
    refine max_le ?_ (by norm_num)
    by_cases hq : q = 0
    · subst hq; simp
    · have : Int.log 2 |q| < 2 := log_lt_of_abs_lt hq (by norm_num; linarith)
      omega
  have hpos := two_zpow_pos (ulpExp q)
  have h1 := roundEven_err (q / 2 ^ ulpExp q)
  have h2 : fl q - q = (roundEven (q / 2 ^ ulpExp q) - q / 2 ^ ulpExp q) * 2 ^ ulpExp q := by
    unfold fl
    field_simp
  rw [h2, abs_mul, abs_of_pos hpos]
  have h3 : (2 : ℚ) ^ ulpExp q ≤ 2 ^ (-51 : ℤ) := zpow_le_zpow_right₀ (by norm_num) he
  calc |(roundEven (q / 2 ^ ulpExp q) : ℚ) - q / 2 ^ ulpExp q| * 2 ^ ulpExp q ≤ 1 / 2 * 2 ^ (-51 : ℤ) :=
        mul_le_mul h1 h3 hpos.le (by norm_num)
    _ ≤ 1 / 2 ^ 50 := by norm_num

theorem fl_unit {q : ℚ} (h0 : 0 ≤ q) (h1 : q ≤ 1) : 0 ≤ fl q ∧ fl q ≤ 1 ∧ |fl q - q| ≤ 1 / 2 ^ 50 := by
  refine ⟨fl_nonneg h0, ?_, fl_abs_err (by rw [abs_of_nonneg h0]; linarith)⟩
  have := fl_mono h1
  have e : fl 1 = 1 := by have := fl_nat (n := 1) (by norm_num); simpa using this
  rwa [e] at this

theorem round4_unit {x : ℚ} (h0 : 0 ≤ x) (h1 : x ≤ 1) : 0 ≤ round4 x ∧ round4 x ≤ 1 ∧ |round4 x - x| ≤ 1 / 20000 + 1 / 2 ^ 50 := by
  have g0 : (0 : ℤ) ≤ roundEven (x * 10000) := by
    have := roundEven_mono (q := (0 : ℤ)) (r := x * 10000) (by push_cast; positivity)
    rwa [roundEven_int] at this
  have g1 : roundEven (x * 10000) ≤ 10000 := by
    have := roundEven_mono (q := x * 10000) (r := (10000 : ℤ)) (by push_cast; linarith)
    rwa [roundEven_int] at this
  have g0' : (0 : ℚ) ≤ roundEven (x * 10000) := by exact_mod_cast g0
  have g1' : (roundEven (x * 10000) : ℚ) ≤ 10000 := by exact_mod_cast g1
  have hu := fl_unit (q := roundEven (x * 10000) / 10000) (by positivity) (by rw [div_le_one (by norm_num)]; exact g1')
  refine ⟨hu.1, hu.2.1, ?_⟩
  have e1 := abs_le.1 (roundEven_err (x * 10000))
  have e2 := abs_le.1 hu.2.2
  unfold round4
  rw [abs_le]
  constructor <;> linarith [e1.1, e1.2, e2.1, e2.2]

/-- The largest error of one ratio. -/
def ratioErr : ℚ := 51 / 1000000

theorem ratioOf_close {f : ℚ} {own : NodeStats} {thread : Nat} (h0 : 0 ≤ f) (h1 : f ≤ 1) (hT : 0 < thread) (hle : own.totalNs ≤ thread) :
    0 ≤ ratioOf f thread own ∧ ratioOf f thread own ≤ 1 ∧ |ratioOf f thread own - f * (own.totalNs / thread)| ≤ ratioErr := by
  have hT' : (0 : ℚ) < thread := by exact_mod_cast hT
  have hq0 : (0 : ℚ) ≤ own.totalNs / thread := by positivity
  have hq1 : (own.totalNs : ℚ) / thread ≤ 1 := by rw [div_le_one hT']; exact_mod_cast hle
  obtain ⟨a0, a1, a2⟩ := fl_unit hq0 hq1
  have b0 : 0 ≤ f * fl (own.totalNs / thread) := mul_nonneg h0 a0
  have b1 : f * fl (own.totalNs / thread) ≤ 1 := mul_le_one₀ h1 a0 a1
  obtain ⟨c0, c1, c2⟩ := fl_unit b0 b1
  obtain ⟨d0, d1, d2⟩ := round4_unit c0 c1
  refine ⟨d0, d1, ?_⟩
  have e : |f * fl (own.totalNs / thread) - f * (own.totalNs / thread)| ≤ 1 / 2 ^ 50 := by
    rw [← mul_sub, abs_mul, abs_of_nonneg h0]
    calc f * |fl (own.totalNs / thread) - own.totalNs / thread| ≤ 1 * (1 / 2 ^ 50) := mul_le_mul h1 a2 (abs_nonneg _) (by norm_num)
      _ = 1 / 2 ^ 50 := one_mul _
  have d2' := abs_le.1 d2
  have c2' := abs_le.1 c2
  have e' := abs_le.1 e
  unfold ratioOf ratioErr
  rw [abs_le]
  constructor <;> norm_num at * <;> linarith [d2'.1, d2'.2, c2'.1, c2'.2, e'.1, e'.2]

/-! ### The computed ratios are close to the parts -/

theorem STree.shares_eq (part thread : ℚ) (own : NodeStats) (ins : STrees) : (STree.node own ins).shares part thread =
    if own.isPrefetch then
      match ins with
      | .nil => [part * (own.totalNs / thread)]
      | .cons _ _ => 0 :: ins.sharesPrefetch (part * (own.totalNs / thread))
    else part * (own.totalNs / thread) :: ins.shares part thread := by
  rw [STree.shares.eq_def]
  rfl

theorem STree.computed_eq (factor : ℚ) (thread : Nat) (own : NodeStats) (ins : STrees) : (STree.node own ins).computed factor thread =
    if own.isPrefetch then
      match ins with
      | .nil => [ratioOf factor thread own]
      | .cons _ _ => 0 :: ins.computedPrefetch (ratioOf factor thread own)
    else ratioOf factor thread own :: ins.computed factor thread := by
  rw [STree.computed.eq_def]

theorem STree.own_le {own : NodeStats} {ins : STrees} {agg : Nat} (h : (STree.node own ins).threadNs ≤ agg) : own.totalNs ≤ agg := by
  rw [STree.threadNs] at h
  omega

theorem shift_close {r f g q e : ℚ} (h : |r - f * q| ≤ ratioErr) (hfg : |f - g| ≤ e) (h0 : 0 ≤ q) (h1 : q ≤ 1) :
    |r - g * q| ≤ e + ratioErr := by
  have h2 : |f * q - g * q| ≤ e := by
    rw [← sub_mul, abs_mul, abs_of_nonneg h0]
    calc |f - g| * q ≤ e * 1 := mul_le_mul hfg h1 h0 ((abs_nonneg _).trans hfg)
      _ = e := mul_one e
  have a := abs_le.1 h
  have b := abs_le.1 h2
  rw [abs_le]
  constructor <;> linarith [a.1, a.2, b.1, b.2]

theorem ratioErr_pos : 0 < ratioErr := by norm_num [ratioErr]

mutual
theorem STree.computed_close : ∀ (t : STree) (agg : Nat) (f g e : ℚ), t.Prefetches → 0 < agg → t.threadNs ≤ agg → 0 ≤ f → f ≤ 1 → |f - g| ≤ e →
    List.Forall₂ (fun a b : ℚ => 0 ≤ a ∧ a ≤ 1 ∧ |a - b| ≤ e + (t.prefetchDepth + 1) * ratioErr) (t.computed f agg) (t.shares g agg)
  | .node own ins, agg, f, g, e, hp, hagg, hle, h0, h1, hfg => by
    obtain ⟨r0, r1, r2⟩ := ratioOf_close (own := own) h0 h1 hagg (STree.own_le hle)
    have hagg' : (0 : ℚ) < agg := by exact_mod_cast hagg
    have hq0 : (0 : ℚ) ≤ own.totalNs / agg := by positivity
    have hq1 : (own.totalNs : ℚ) / agg ≤ 1 := by rw [div_le_one hagg']; exact_mod_cast STree.own_le hle
    have r3 := shift_close r2 hfg hq0 hq1
    have he := ratioErr_pos
    have hd : (0 : ℚ) ≤ ((STree.node own ins).prefetchDepth : ℚ) := Nat.cast_nonneg _
    have hee : 0 ≤ e := (abs_nonneg _).trans hfg
    have hself : |ratioOf f agg own - g * (own.totalNs / agg)| ≤ e + ((STree.node own ins).prefetchDepth + 1) * ratioErr := by
      refine r3.trans ?_
      nlinarith
    rw [STree.computed_eq, STree.shares_eq]
    cases hpre : own.isPrefetch with
    | false =>
      rw [if_neg (by simp), if_neg (by simp)]
      refine List.Forall₂.cons ⟨r0, r1, hself⟩ ?_
      have hle' : ins.threadNs ≤ agg := by rw [STree.threadNs, hpre] at hle; simp at hle; omega
      refine (ins.computed_close agg f g e hp.2 hagg hle' h0 h1 hfg).imp ?_
      rintro a b ⟨k0, k1, k2⟩
      refine ⟨k0, k1, k2.trans (le_of_eq ?_)⟩
      simp [STree.prefetchDepth, hpre]
    | true =>
      rw [if_pos rfl, if_pos rfl]
      rcases hp.1 hpre with rfl | ⟨t, rfl, hpos⟩
      · exact List.Forall₂.cons ⟨r0, r1, hself⟩ List.Forall₂.nil
      · refine List.Forall₂.cons ⟨le_refl _, by norm_num, ?_⟩ ?_
        · rw [sub_zero, abs_zero]
          positivity
        · simp only [STrees.computedPrefetch, STrees.sharesPrefetch, List.append_nil]
          refine (t.computed_close t.threadNs _ (g * (own.totalNs / agg)) (e + ratioErr) hp.2.1 hpos (Nat.le_refl _) r0 r1 r3).imp ?_
          rintro a b ⟨k0, k1, k2⟩
          refine ⟨k0, k1, k2.trans (le_of_eq ?_)⟩
          simp only [STree.prefetchDepth, STrees.prefetchDepth, hpre, if_true, Nat.max_zero]
          push_cast
          ring
theorem STrees.computed_close : ∀ (ts : STrees) (agg : Nat) (f g e : ℚ), ts.Prefetches → 0 < agg → ts.threadNs ≤ agg → 0 ≤ f → f ≤ 1 → |f - g| ≤ e →
    List.Forall₂ (fun a b : ℚ => 0 ≤ a ∧ a ≤ 1 ∧ |a - b| ≤ e + (ts.prefetchDepth + 1) * ratioErr) (ts.computed f agg) (ts.shares g agg)
  | .nil, _, _, _, _, _, _, _, _, _, _ => List.Forall₂.nil
  | .cons t ts, agg, f, g, e, hp, hagg, hle, h0, h1, hfg => by
    rw [STrees.threadNs] at hle
    have he := ratioErr_pos
    rw [STrees.computed, STrees.shares]
    refine List.rel_append ((t.computed_close agg f g e hp.1 hagg (by omega) h0 h1 hfg).imp ?_)
      ((ts.computed_close agg f g e hp.2 hagg (by omega) h0 h1 hfg).imp ?_)
    · rintro a b ⟨k0, k1, k2⟩
      refine ⟨k0, k1, k2.trans ?_⟩
      have : (t.prefetchDepth : ℚ) ≤ ((STrees.cons t ts).prefetchDepth : ℚ) := by
        rw [STrees.prefetchDepth]; exact_mod_cast le_max_left _ _
      nlinarith
    · rintro a b ⟨k0, k1, k2⟩
      refine ⟨k0, k1, k2.trans ?_⟩
      have : (ts.prefetchDepth : ℚ) ≤ ((STrees.cons t ts).prefetchDepth : ℚ) := by
        rw [STrees.prefetchDepth]; exact_mod_cast le_max_right _ _
      nlinarith
end

mutual
theorem STree.shares_sum : ∀ (t : STree) (part thread : ℚ), t.Prefetches → (t.shares part thread).sum = part * (t.threadNs / thread)
  | .node own ins, part, thread, hp => by
    rw [STree.shares_eq, STree.threadNs]
    cases hpre : own.isPrefetch with
    | false =>
      rw [if_neg (by simp), if_neg (by simp), List.sum_cons, ins.shares_sum part thread hp.2]
      push_cast
      ring
    | true =>
      rw [if_pos rfl, if_pos rfl, Nat.add_zero]
      rcases hp.1 hpre with rfl | ⟨t, rfl, hpos⟩
      · simp
      · have hpos' : (0 : ℚ) < t.threadNs := by exact_mod_cast hpos
        simp only [STrees.sharesPrefetch, List.append_nil, List.sum_cons, zero_add]
        rw [t.shares_sum _ _ hp.2.1, div_self hpos'.ne', mul_one]
theorem STrees.shares_sum : ∀ (ts : STrees) (part thread : ℚ), ts.Prefetches → (ts.shares part thread).sum = part * (ts.threadNs / thread)
  | .nil, part, thread, _ => by simp [STrees.shares, STrees.threadNs]
  | .cons t ts, part, thread, hp => by
    rw [STrees.shares, List.sum_append, t.shares_sum part thread hp.1, ts.shares_sum part thread hp.2, STrees.threadNs]
    push_cast
    ring
end

mutual
theorem STree.computed_sum : ∀ (t : STree) (agg : Nat) (f : ℚ), t.Prefetches → 0 < agg → t.threadNs ≤ agg → 0 ≤ f → f ≤ 1 →
    |(t.computed f agg).sum - f * (t.threadNs / agg)| ≤ t.size * ratioErr
  | .node own ins, agg, f, hp, hagg, hle, h0, h1 => by
    obtain ⟨r0, r1, r2⟩ := ratioOf_close (own := own) h0 h1 hagg (STree.own_le hle)
    have r2' := abs_le.1 r2
    have he := ratioErr_pos
    rw [STree.computed_eq]
    cases hpre : own.isPrefetch with
    | false =>
      have hle' : ins.threadNs ≤ agg := by rw [STree.threadNs, hpre] at hle; simp at hle; omega
      have ih := abs_le.1 (ins.computed_sum agg f hp.2 hagg hle' h0 h1)
      have e : f * (((STree.node own ins).threadNs : ℚ) / agg) = f * (own.totalNs / agg) + f * (ins.threadNs / agg) := by
        rw [STree.threadNs, hpre]
        simp only [Bool.false_eq_true, if_false]
        push_cast
        ring
      rw [if_neg (by simp), List.sum_cons, e, STree.size, abs_le]
      push_cast
      constructor <;> linarith [r2'.1, r2'.2, ih.1, ih.2]
    | true =>
      rw [if_pos rfl]
      have e : f * (((STree.node own ins).threadNs : ℚ) / agg) = f * (own.totalNs / agg) := by
        rw [STree.threadNs, hpre]
        simp
      rw [e]
      rcases hp.1 hpre with rfl | ⟨t, rfl, hpos⟩
      · simpa [STree.size, STrees.size] using r2
      · have hpos' : (0 : ℚ) < t.threadNs := by exact_mod_cast hpos
        have ih := t.computed_sum t.threadNs (ratioOf f agg own) hp.2.1 hpos (Nat.le_refl _) r0 r1
        rw [div_self hpos'.ne', mul_one] at ih
        have ih := abs_le.1 ih
        simp only [STrees.computedPrefetch, List.append_nil, List.sum_cons, zero_add, STree.size, STrees.size, Nat.add_zero]
        rw [abs_le]
        push_cast
        constructor <;> linarith [r2'.1, r2'.2, ih.1, ih.2]
theorem STrees.computed_sum : ∀ (ts : STrees) (agg : Nat) (f : ℚ), ts.Prefetches → 0 < agg → ts.threadNs ≤ agg → 0 ≤ f → f ≤ 1 →
    |(ts.computed f agg).sum - f * (ts.threadNs / agg)| ≤ ts.size * ratioErr
  | .nil, _, _, _, _, _, _, _ => by simp [STrees.computed, STrees.threadNs, STrees.size]
  | .cons t ts, agg, f, hp, hagg, hle, h0, h1 => by
    rw [STrees.threadNs] at hle
    have a := abs_le.1 (t.computed_sum agg f hp.1 hagg (by omega) h0 h1)
    have b := abs_le.1 (ts.computed_sum agg f hp.2 hagg (by omega) h0 h1)
    rw [STrees.computed, List.sum_append, STrees.threadNs, STrees.size, abs_le]
    have e : f * (((t.threadNs + ts.threadNs : ℕ) : ℚ) / agg) = f * (t.threadNs / agg) + f * (ts.threadNs / agg) := by
      push_cast
      ring
    rw [e]
    push_cast
    constructor <;> linarith [a.1, a.2, b.1, b.2]
end

end Grain
