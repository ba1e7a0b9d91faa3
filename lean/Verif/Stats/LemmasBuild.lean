import Verif.Stats.Lemmas
import Mathlib.Data.List.Range
import Mathlib.Data.List.Nodup
/-
Lemmas about building, merging and completing summaries.
-/
namespace Grain

/-! ### The ratios never fail -/

mutual
theorem STree.computeRatio_only : ∀ (t : STree) (s : Summary) (k agg : Nat) (f : ℚ), t.ShownAt s k →
    ∃ s' N, (∀ F n, N ≤ F → N ≤ n → computeRatio F n s k agg f = some s') ∧ RatiosOnly s s' k t.size
  | .node own ins, s, k, agg, f, ⟨h1, ⟨r, h2⟩, h3⟩ => by
    by_cases hagg : agg = 0
    · refine ⟨s, 1, fun F n _ hn => ?_, RatiosOnly.refl _ _ _⟩
      obtain ⟨m, rfl⟩ : ∃ m, n = m + 1 := ⟨n - 1, by omega⟩
      show (if agg = 0 then _ else _) = _
      rw [if_pos hagg]
    · have hro := RatiosOnly.put h1 (round4 (fl (f * fl ((s.node k).totalNs / agg))))
      have hin := ins.shownAt_ratios hro (k + 1) h3
      have hk1 : k ∈ (s.put k { s.node k with waitRatio := round4 (fl (f * fl ((s.node k).totalNs / agg))) }).keys := by rw [hro.1]; exact h1
      obtain ⟨s', N, g1, g2⟩ := ins.computeRatio_only _ k (k + 1) agg f hin hk1 (by omega)
      refine ⟨s', N + 1, fun F n hF hn => ?_, ?_⟩
      · obtain ⟨m, rfl⟩ : ∃ m, n = m + 1 := ⟨n - 1, by omega⟩
        show (if agg = 0 then _ else _) = _
        rw [if_neg hagg]
        have : ((s.put k { s.node k with waitRatio := round4 (fl (f * fl ((s.node k).totalNs / agg))) }).node k).inputs = ins.ids (k + 1) := by
          simp [Summary.put, h2]
        simp only [this]
        exact g1 F m (by omega) (by omega)
      · refine hro.trans g2 (by omega) (by omega) ?_ ?_ <;> simp only [STree.size] <;> omega
theorem STrees.computeRatio_only : ∀ (ts : STrees) (s : Summary) (id k agg : Nat) (f : ℚ), ts.ShownAt s k → id ∈ s.keys → id < k →
    ∃ s' N, (∀ F n, N ≤ F → N ≤ n → ratioLoop (computeRatio F n) F id (ts.ids k) s agg f = some s') ∧ RatiosOnly s s' id (k + ts.size - id)
  | .nil, s, id, k, agg, f, _, _, _ => ⟨s, 0, fun _ _ _ _ => rfl, RatiosOnly.refl _ _ _⟩
  | .cons t ts, s, id, k, agg, f, h, hid, hlt => by
    cases hp : (s.node id).isPrefetch with
    | false =>
      obtain ⟨s1, N1, g1, g2⟩ := t.computeRatio_only s k agg f h.1
      obtain ⟨s2, N2, g1', g2'⟩ := ts.computeRatio_only s1 id (k + t.size) agg f (ts.shownAt_ratios g2 _ h.2) (by rw [g2.1]; exact hid) (by omega)
      refine ⟨s2, N1 + N2, fun F n hF hn => ?_, ?_⟩
      · simp only [STrees.ids, ratioLoop]
        rw [if_neg (by rw [hp]; simp), g1 F n (by omega) (by omega)]
        exact g1' F n (by omega) (by omega)
      · refine g2.trans g2' (by omega) (by omega) ?_ ?_ <;> simp only [STrees.size] <;> omega
    | true =>
      obtain ⟨ids, ⟨N0, hids⟩, _⟩ := STree.before_ev h.1
      have hro := RatiosOnly.put hid 0
      obtain ⟨s1, N1, g1, g2⟩ := t.computeRatio_only _ k (s.aggregated ids) (s.node id).waitRatio (t.shownAt_ratios hro _ h.1)
      obtain ⟨s2, N2, g1', g2'⟩ := ts.computeRatio_only s1 id (k + t.size) (s.aggregated ids) (s.node id).waitRatio
        (ts.shownAt_ratios g2 _ (ts.shownAt_ratios hro _ h.2)) (by rw [g2.1, hro.1]; exact hid) (by omega)
      refine ⟨s2, N0 + N1 + N2, fun F n hF hn => ?_, ?_⟩
      · simp only [STrees.ids, ratioLoop]
        rw [if_pos hp, hids F (by omega)]
        simp only [Option.bind_eq_bind, Option.bind_some]
        rw [g1 F n (by omega) (by omega)]
        exact g1' F n (by omega) (by omega)
      · refine (hro.trans g2 (k'' := id) (n'' := k + (STrees.cons t ts).size - id) (by omega) (by omega) ?_ ?_).trans g2' (by omega) (by omega) ?_ ?_ <;>
          simp only [STrees.size] <;> omega
end

theorem populate_only {s : Summary} {t : STree} (h : t.ShownAt s 0) :
    ∃ s', Ev (fun F => populateRatio F s = some s') ∧ RatiosOnly s s' 0 t.size := by
  obtain ⟨ids, ⟨N1, hids⟩, _⟩ := STree.before_ev h
  obtain ⟨s', N, g1, g2⟩ := t.computeRatio_only s 0 (s.aggregated ids) 1 h
  refine ⟨s', ⟨N1 + N, fun F hF => ?_⟩, g2⟩
  simp only [populateRatio]
  rw [hids F (by omega)]
  exact g1 F F (by omega) (by omega)

theorem STree.Shown.ratios {s s' : Summary} {t : STree} {j n : Nat} (h : t.Shown s) (hr : RatiosOnly s s' j n) : t.Shown s' :=
  ⟨t.shownAt_ratios hr 0 h.1, by rw [hr.1]; exact h.2.1, by rw [hr.1]; exact h.2.2⟩

/-! ### Keys -/

mutual
theorem STree.ShownAt.mem {s : Summary} : ∀ {t : STree} {k : Nat}, t.ShownAt s k → ∀ j, k ≤ j → j < k + t.size → j ∈ s.keys
  | .node own ins, k, ⟨h1, _, h3⟩, j, hj, hj' => by
    by_cases h : j = k
    · subst h; exact h1
    · rw [STree.size] at hj'
      exact STrees.ShownAt.mem h3 j (by omega) (by omega)
theorem STrees.ShownAt.mem {s : Summary} : ∀ {ts : STrees} {k : Nat}, ts.ShownAt s k → ∀ j, k ≤ j → j < k + ts.size → j ∈ s.keys
  | .nil, k, _, j, hj, hj' => by simp [STrees.size] at hj'; omega
  | .cons t ts, k, h, j, hj, hj' => by
    rw [STrees.size] at hj'
    by_cases hlt : j < k + t.size
    · exact STree.ShownAt.mem h.1 j hj hlt
    · exact STrees.ShownAt.mem h.2 j (by omega) (by omega)
end

mutual
theorem STree.ShownAt.id {s : Summary} : ∀ {t : STree} {k : Nat}, t.ShownAt s k → ∀ j, k ≤ j → j < k + t.size → (s.node j).id = j
  | .node own ins, k, ⟨_, ⟨r, h2⟩, h3⟩, j, hj, hj' => by
    by_cases h : j = k
    · subst h; rw [h2]; rfl
    · rw [STree.size] at hj'
      exact STrees.ShownAt.id h3 j (by omega) (by omega)
theorem STrees.ShownAt.id {s : Summary} : ∀ {ts : STrees} {k : Nat}, ts.ShownAt s k → ∀ j, k ≤ j → j < k + ts.size → (s.node j).id = j
  | .nil, k, _, j, hj, hj' => by simp [STrees.size] at hj'; omega
  | .cons t ts, k, h, j, hj, hj' => by
    rw [STrees.size] at hj'
    by_cases hlt : j < k + t.size
    · exact STree.ShownAt.id h.1 j hj hlt
    · exact STrees.ShownAt.id h.2 j (by omega) (by omega)
end

mutual
theorem STree.ShownAt.quiet {s : Summary} : ∀ {t : STree} {k : Nat}, t.ShownAt s k → t.NoOutput → ∀ j, k ≤ j → j < k + t.size → (s.node j).isOutput = false
  | .node own ins, k, ⟨_, ⟨r, h2⟩, h3⟩, hq, j, hj, hj' => by
    by_cases h : j = k
    · subst h; rw [h2]; exact hq.1
    · rw [STree.size] at hj'
      exact STrees.ShownAt.quiet h3 hq.2 j (by omega) (by omega)
theorem STrees.ShownAt.quiet {s : Summary} : ∀ {ts : STrees} {k : Nat}, ts.ShownAt s k → ts.NoOutput → ∀ j, k ≤ j → j < k + ts.size → (s.node j).isOutput = false
  | .nil, k, _, _, j, hj, hj' => by simp [STrees.size] at hj'; omega
  | .cons t ts, k, h, hq, j, hj, hj' => by
    rw [STrees.size] at hj'
    by_cases hlt : j < k + t.size
    · exact STree.ShownAt.quiet h.1 hq.1 j hj hlt
    · exact STrees.ShownAt.quiet h.2 hq.2 j (by omega) (by omega)
end

theorem STree.size_pos : ∀ (t : STree), 0 < t.size
  | .node own ins => by rw [STree.size]; omega

theorem STree.Shown.mem_iff {s : Summary} {t : STree} (h : t.Shown s) (j : Nat) : j ∈ s.keys ↔ j < t.size :=
  ⟨h.2.2 j, fun hj => h.1.mem j (by omega) (by omega)⟩

theorem STree.Shown.perm {s : Summary} {t : STree} (h : t.Shown s) : s.keys.Perm (List.range t.size) :=
  (List.perm_ext_iff_of_nodup h.2.1 List.nodup_range).2 (fun j => by rw [h.mem_iff, List.mem_range])

/-! ### Only the nodes shown matter -/

mutual
theorem STree.shownAt_congr {s s' : Summary} : ∀ (t : STree) (k : Nat), (∀ j, k ≤ j → j < k + t.size → j ∈ s'.keys ∧ s'.node j = s.node j) →
    t.ShownAt s k → t.ShownAt s' k
  | .node own ins, k, h, ⟨_, ⟨r, h2⟩, h3⟩ => by
    rw [STree.size] at h
    obtain ⟨a, b⟩ := h k (Nat.le_refl k) (by omega)
    exact ⟨a, ⟨r, b.trans h2⟩, ins.shownAt_congr (k + 1) (fun j hj hj' => h j (by omega) (by omega)) h3⟩
theorem STrees.shownAt_congr {s s' : Summary} : ∀ (ts : STrees) (k : Nat), (∀ j, k ≤ j → j < k + ts.size → j ∈ s'.keys ∧ s'.node j = s.node j) →
    ts.ShownAt s k → ts.ShownAt s' k
  | .nil, _, _, _ => trivial
  | .cons t ts, k, h, h' => by
    rw [STrees.size] at h
    exact ⟨t.shownAt_congr k (fun j hj hj' => h j hj (by omega)) h'.1, ts.shownAt_congr _ (fun j hj hj' => h j (by omega) (by omega)) h'.2⟩
end

/-! ### Merging -/

mutual
theorem STree.Alike.size : ∀ {t u : STree}, t.Alike u → u.size = t.size
  | .node _ _, .node _ _, h => by rw [STree.size, STree.size, STrees.Alike.size h.2.2.2]
theorem STrees.Alike.size : ∀ {ts us : STrees}, ts.Alike us → us.size = ts.size
  | .nil, .nil, _ => rfl
  | .cons _ _, .cons _ _, h => by rw [STrees.size, STrees.size, STree.Alike.size h.1, STrees.Alike.size h.2]
end

theorem STrees.Alike.ids : ∀ {ts us : STrees}, ts.Alike us → ∀ k, us.ids k = ts.ids k
  | .nil, .nil, _, _ => rfl
  | .cons _ _, .cons _ _, h, k => by rw [STrees.ids, STrees.ids, h.1.size, STrees.Alike.ids h.2]

mutual
theorem STree.Alike.plus : ∀ {t u : STree}, t.Alike u → t.Alike (t.plus u)
  | .node _ _, .node _ _, h => ⟨rfl, rfl, rfl, STrees.Alike.plus h.2.2.2⟩
theorem STrees.Alike.plus : ∀ {ts us : STrees}, ts.Alike us → ts.Alike (ts.plus us)
  | .nil, .nil, _ => trivial
  | .cons _ _, .cons _ _, h => ⟨STree.Alike.plus h.1, STrees.Alike.plus h.2⟩
end

mutual
theorem STree.Alike.symm : ∀ {t u : STree}, t.Alike u → u.Alike t
  | .node _ _, .node _ _, h => ⟨h.1.symm, h.2.1.symm, h.2.2.1.symm, STrees.Alike.symm h.2.2.2⟩
theorem STrees.Alike.symm : ∀ {ts us : STrees}, ts.Alike us → us.Alike ts
  | .nil, .nil, _ => trivial
  | .cons _ _, .cons _ _, h => ⟨STree.Alike.symm h.1, STrees.Alike.symm h.2⟩
end

mutual
theorem STree.Alike.trans : ∀ {t u v : STree}, t.Alike u → u.Alike v → t.Alike v
  | .node _ _, .node _ _, .node _ _, h, h' =>
    ⟨h.1.trans h'.1, h.2.1.trans h'.2.1, h.2.2.1.trans h'.2.2.1, STrees.Alike.trans h.2.2.2 h'.2.2.2⟩
theorem STrees.Alike.trans : ∀ {ts us vs : STrees}, ts.Alike us → us.Alike vs → ts.Alike vs
  | .nil, .nil, .nil, _, _ => trivial
  | .cons _ _, .cons _ _, .cons _ _, h, h' => ⟨STree.Alike.trans h.1 h'.1, STrees.Alike.trans h.2 h'.2⟩
end

mutual
theorem STree.Alike.noOutput : ∀ {t u : STree}, t.Alike u → t.NoOutput → u.NoOutput
  | .node _ _, .node _ _, h, h' => ⟨h.2.1.symm.trans h'.1, STrees.Alike.noOutput h.2.2.2 h'.2⟩
theorem STrees.Alike.noOutput : ∀ {ts us : STrees}, ts.Alike us → ts.NoOutput → us.NoOutput
  | .nil, .nil, _, _ => trivial
  | .cons _ _, .cons _ _, h, h' => ⟨STree.Alike.noOutput h.1 h'.1, STrees.Alike.noOutput h.2 h'.2⟩
end

theorem STree.Alike.output : ∀ {t u : STree}, t.Alike u → t.Output → u.Output
  | .node _ _, .node _ _, h, h' => ⟨h.2.1.symm.trans h'.1, h.2.2.2.noOutput h'.2⟩

theorem put_mem {s : Summary} {k : Nat} (h : k ∈ s.keys) (n : SumNode) : (s.put k n).keys = s.keys := if_pos h

theorem merge_fold (src : Summary) : ∀ (l : List Nat) (s : Summary), l.Nodup → (∀ k ∈ l, k ∈ s.keys) →
    (l.foldl (fun s k => s.put k (mergeNode (src.node k) (s.node k))) s).keys = s.keys ∧
    ∀ j, (l.foldl (fun s k => s.put k (mergeNode (src.node k) (s.node k))) s).node j =
      if j ∈ l then mergeNode (src.node j) (s.node j) else s.node j
  | [], s, _, _ => ⟨rfl, fun j => by simp⟩
  | k :: l, s, hn, hm => by
    have hk := put_mem (hm k (by simp)) (mergeNode (src.node k) (s.node k))
    have hn' := List.nodup_cons.1 hn
    obtain ⟨g1, g2⟩ := merge_fold src l (s.put k (mergeNode (src.node k) (s.node k))) hn'.2 (fun j hj => by rw [hk]; exact hm j (by simp [hj]))
    refine ⟨g1.trans hk, fun j => ?_⟩
    rw [List.foldl_cons, g2 j]
    by_cases hj : j = k
    · subst hj
      rw [if_neg hn'.1, if_pos (by simp), Summary.put_node]
    · have : (s.put k (mergeNode (src.node k) (s.node k))).node j = s.node j := by simp [Summary.put, Function.update_of_ne hj]
      rw [this]
      simp [hj]

mutual
theorem STree.merged {s s' s'' : Summary} : ∀ (t u : STree) (k : Nat), t.Alike u → t.ShownAt s k → u.ShownAt s' k →
    (∀ j, k ≤ j → j < k + t.size → j ∈ s''.keys ∧ s''.node j = mergeNode (s.node j) (s'.node j)) → (t.plus u).ShownAt s'' k
  | .node a ins, .node b ins', k, ha, ⟨_, ⟨r, h2⟩, h3⟩, ⟨_, ⟨r', h2'⟩, h3'⟩, hs => by
    rw [STree.size] at hs
    obtain ⟨m1, m2⟩ := hs k (Nat.le_refl k) (by omega)
    refine ⟨m1, ⟨r', ?_⟩, ins.merged ins' (k + 1) ha.2.2.2 h3 h3' (fun j hj hj' => hs j (by omega) (by omega))⟩
    rw [m2, h2, h2']
    have := ha.2.2.2.plus.ids (k + 1)
    rw [this]
    simp only [mergeNode, NodeStats.node, NodeStats.plus, ha.2.2.1, Nat.add_comm, Nat.min_comm, Nat.max_comm]
theorem STrees.merged {s s' s'' : Summary} : ∀ (ts us : STrees) (k : Nat), ts.Alike us → ts.ShownAt s k → us.ShownAt s' k →
    (∀ j, k ≤ j → j < k + ts.size → j ∈ s''.keys ∧ s''.node j = mergeNode (s.node j) (s'.node j)) → (ts.plus us).ShownAt s'' k
  | .nil, .nil, _, _, _, _, _ => trivial
  | .cons t ts, .cons u us, k, ha, h, h', hs => by
    rw [STrees.size] at hs
    refine ⟨t.merged u k ha.1 h.1 h'.1 (fun j hj hj' => hs j hj (by omega)), ?_⟩
    have e1 := ha.1.plus.size
    have e2 := ha.1.size
    rw [e1]
    exact ts.merged us _ ha.2 h.2 (by have := h'.2; rwa [e2] at this) (fun j hj hj' => hs j (by omega) (by omega))
end

theorem STree.Shown.merge {s s' : Summary} {t u : STree} (h : t.Shown s) (h' : u.Shown s') (ha : t.Alike u) : (t.plus u).Shown (mergeSummaries s s') := by
  obtain ⟨g1, g2⟩ := merge_fold s s.keys s' h.2.1 (fun k hk => by rw [h'.mem_iff, ha.size]; exact h.2.2 k hk)
  refine ⟨t.merged u 0 ha h.1 h'.1 (fun j hj hj' => ?_), ?_, ?_⟩
  · have hj1 : j < t.size := by omega
    refine ⟨?_, ?_⟩
    · show j ∈ (mergeSummaries s s').keys
      unfold mergeSummaries
      rw [g1, h'.mem_iff, ha.size]
      exact hj1
    · show (mergeSummaries s s').node j = _
      unfold mergeSummaries
      rw [g2, if_pos ((h.mem_iff j).2 hj1)]
  · unfold mergeSummaries
    rw [g1]
    exact h'.2.1
  · unfold mergeSummaries
    rw [g1, ha.plus.size, ← ha.size]
    exact h'.2.2

theorem mergeSummaries_empty (s : Summary) : mergeSummaries .empty s = s := rfl

theorem merge_all_shown : ∀ (l : List Summary) (us : List STree) (s : Summary) (u : STree), u.Shown s →
    List.Forall₂ (fun s u => STree.Shown s u) l us → (∀ v ∈ us, u.Alike v) →
    (us.foldl STree.plus u).Shown (l.foldl mergeSummaries s) ∧ u.Alike (us.foldl STree.plus u)
  | _, _, s, u, h, .nil, _ => ⟨h, by
      clear h
      exact (alike_refl u)⟩
  | _, _, s, u, h, .cons (a := s1) (b := v) (l₁ := l) (l₂ := us) h1 h2, ha => by
    have hv := ha v (by simp)
    obtain ⟨g1, g2⟩ := merge_all_shown l us (mergeSummaries s s1) (u.plus v) (h.merge h1 hv) h2
      (fun w hw => hv.plus.symm.trans (ha w (by simp [hw])))
    exact ⟨g1, hv.plus.trans g2⟩
where
  alike_refl : ∀ (u : STree), u.Alike u
    | .node _ ins => ⟨rfl, rfl, rfl, alikes_refl ins⟩
  alikes_refl : ∀ (us : STrees), us.Alike us
    | .nil => trivial
    | .cons u us => ⟨alike_refl u, alikes_refl us⟩

/-! ### Completing -/

/-- `s'` has the nodes of `s` below `k` and `n` more from `k` on. -/
def Grown (s s' : Summary) (k n : Nat) : Prop :=
  s'.keys.Nodup ∧ (∀ j, j ∈ s'.keys ↔ j ∈ s.keys ∨ (k ≤ j ∧ j < k + n)) ∧ ∀ j, j < k → s'.node j = s.node j

theorem put_keys (s : Summary) (k : Nat) (n : SumNode) (j : Nat) : j ∈ (s.put k n).keys ↔ j ∈ s.keys ∨ j = k := by
  unfold Summary.put
  by_cases h : k ∈ s.keys
  · simp only [if_pos h]
    constructor
    · exact Or.inl
    · rintro (h' | rfl)
      · exact h'
      · exact h
  · simp only [if_neg h, List.mem_append, List.mem_singleton]

theorem put_nodup {s : Summary} (h : s.keys.Nodup) (k : Nat) (n : SumNode) : (s.put k n).keys.Nodup := by
  unfold Summary.put
  by_cases hk : k ∈ s.keys
  · simp only [if_pos hk]
    exact h
  · simp only [if_neg hk]
    rw [List.nodup_append]
    exact ⟨h, List.nodup_singleton k, by intro a ha b hb; rw [List.mem_singleton] at hb; subst hb; exact fun e => hk (e ▸ ha)⟩

theorem put_other (s : Summary) {k j : Nat} (n : SumNode) (h : j ≠ k) : (s.put k n).node j = s.node j := by
  simp [Summary.put, Function.update_of_ne h]

/-- Writing nodes at their own numbers. -/
theorem put_fold : ∀ (l : List SumNode) (s : Summary), s.keys.Nodup → (l.map (·.id)).Nodup →
    (l.foldl (fun s n => s.put n.id { n with isOutput := false }) s).keys.Nodup ∧
    (∀ j, j ∈ (l.foldl (fun s n => s.put n.id { n with isOutput := false }) s).keys ↔ j ∈ s.keys ∨ j ∈ l.map (·.id)) ∧
    (∀ j, j ∉ l.map (·.id) → (l.foldl (fun s n => s.put n.id { n with isOutput := false }) s).node j = s.node j) ∧
    (∀ n ∈ l, (l.foldl (fun s n => s.put n.id { n with isOutput := false }) s).node n.id = { n with isOutput := false })
  | [], s, h, _ => ⟨h, fun j => by simp, fun _ _ => rfl, fun _ h => by simp at h⟩
  | n :: l, s, h, hn => by
    rw [List.map_cons, List.nodup_cons] at hn
    obtain ⟨g1, g2, g3, g4⟩ := put_fold l (s.put n.id { n with isOutput := false }) (put_nodup h _ _) hn.2
    refine ⟨g1, fun j => ?_, fun j hj => ?_, fun m hm => ?_⟩
    · rw [List.foldl_cons, g2, put_keys, List.map_cons, List.mem_cons, or_assoc]
    · rw [List.map_cons, List.mem_cons, not_or] at hj
      rw [List.foldl_cons, g3 j hj.2, put_other _ _ hj.1]
    · rcases List.mem_cons.1 hm with rfl | hm
      · rw [List.foldl_cons, g3 _ hn.1, Summary.put_node]
      · exact g4 m hm

mutual
theorem STree.moved {s s' : Summary} (d : Nat) : ∀ (t : STree) (k : Nat), t.ShownAt s k →
    (∀ j, k ≤ j → j < k + t.size → j + d ∈ s'.keys ∧ s'.node (j + d) = offsetNode d (s.node j)) → t.ShownAt s' (k + d)
  | .node own ins, k, ⟨_, ⟨r, h2⟩, h3⟩, hs => by
    rw [STree.size] at hs
    obtain ⟨m1, m2⟩ := hs k (Nat.le_refl k) (by omega)
    refine ⟨m1, ⟨r, ?_⟩, ?_⟩
    · rw [m2, h2]
      simp only [offsetNode, NodeStats.node]
      congr 1
      rw [ins.ids_moved d (k + 1)]
      congr 1
      omega
    · have := ins.moved d (k + 1) h3 (fun j hj hj' => hs j (by omega) (by omega))
      rwa [show k + 1 + d = k + d + 1 by omega] at this
theorem STrees.moved {s s' : Summary} (d : Nat) : ∀ (ts : STrees) (k : Nat), ts.ShownAt s k →
    (∀ j, k ≤ j → j < k + ts.size → j + d ∈ s'.keys ∧ s'.node (j + d) = offsetNode d (s.node j)) → ts.ShownAt s' (k + d)
  | .nil, _, _, _ => trivial
  | .cons t ts, k, h, hs => by
    rw [STrees.size] at hs
    refine ⟨t.moved d k h.1 (fun j hj hj' => hs j hj (by omega)), ?_⟩
    have := ts.moved d _ h.2 (fun j hj hj' => hs j (by omega) (by omega))
    rwa [show k + t.size + d = k + d + t.size by omega] at this
theorem STrees.ids_moved (d : Nat) : ∀ (ts : STrees) (k : Nat), (ts.ids k).map (· + d) = ts.ids (k + d)
  | .nil, _ => rfl
  | .cons t ts, k => by
    rw [STrees.ids, STrees.ids, List.map_cons, ts.ids_moved d, show k + t.size + d = k + d + t.size by omega]
end

theorem complete_empty {main : Summary} {k : Nat} (own : NodeStats) (hn : main.keys.Nodup) (hk : ∀ j ∈ main.keys, j < k) :
    Grown main (completeSummary (main.put k (own.node k)) .empty (k + 1)) k 1 ∧
    (STree.node { own with bytesConsumed := 0 } .nil).ShownAt (completeSummary (main.put k (own.node k)) .empty (k + 1)) k := by
  have e : completeSummary (main.put k (own.node k)) .empty (k + 1) =
      (main.put k (own.node k)).put k { own.node k with bytesConsumed := 0 } := by
    simp [completeSummary, Summary.empty, Summary.put_node, NodeStats.node]
  rw [e]
  refine ⟨⟨put_nodup (put_nodup hn _ _) _ _, fun j => ?_, fun j hj => ?_⟩, ?_, ⟨0, ?_⟩, trivial⟩
  · rw [put_keys, put_keys]
    constructor
    · rintro ((h | h) | h)
      · exact Or.inl h
      · exact Or.inr (by omega)
      · exact Or.inr (by omega)
    · rintro (h | h)
      · exact Or.inl (Or.inl h)
      · exact Or.inr (by omega)
  · rw [put_other _ _ (by omega), put_other _ _ (by omega)]
  · rw [put_keys]; exact Or.inr rfl
  · rw [Summary.put_node]
    rfl

theorem complete_shown {main w : Summary} {k : Nat} {u : STree} (own : NodeStats) (hn : main.keys.Nodup) (hk : ∀ j ∈ main.keys, j < k)
    (hw : u.Shown w) (ho : u.Output) :
    Grown main (completeSummary (main.put k (own.node k)) w (k + 1)) k (1 + u.size) ∧
    (STree.node { own with bytesConsumed := u.own.bytesProduced } (.cons u.inner .nil)).ShownAt
      (completeSummary (main.put k (own.node k)) w (k + 1)) k := by
  obtain ⟨uown, uins⟩ := u
  obtain ⟨hk0, ⟨r, h2⟩, h3⟩ := hw.1
  have hsz := (STree.node uown uins).size_pos
  -- the output
  have hout : (w.keys.map (fun j => offsetNode (k + 1) (w.node j))).filter (·.isOutput) = [offsetNode (k + 1) (w.node 0)] := by
    rw [List.filter_map]
    have e1 : w.keys.filter ((fun n : SumNode => n.isOutput) ∘ fun j => offsetNode (k + 1) (w.node j)) = w.keys.filter (· == 0) := by
      apply List.filter_congr
      intro j hj
      by_cases h0 : j = 0
      · subst h0
        simp only [Function.comp, offsetNode, h2, beq_self_eq_true]
        exact ho.1
      · have hlt := hw.2.2 j hj
        rw [STree.size] at hlt
        have := STrees.ShownAt.quiet h3 ho.2 j (by omega) (by omega)
        simp only [Function.comp, offsetNode, this]
        simp [h0]
    rw [e1, List.filter_beq, List.count_eq_one_of_mem hw.2.1 hk0]
    rfl
  have hids : (w.keys.map (fun j => offsetNode (k + 1) (w.node j))).map (·.id) = w.keys.map (· + (k + 1)) := by
    rw [List.map_map]
    apply List.map_congr_left
    intro j hj
    show (w.node j).id + (k + 1) = j + (k + 1)
    rw [hw.1.id j (by omega) (by have := hw.2.2 j hj; omega)]
  have hnod : ((w.keys.map (fun j => offsetNode (k + 1) (w.node j))).map (·.id)).Nodup := by
    rw [hids]
    exact hw.2.1.map (fun a b h => by simpa using h)
  have hmain : completeSummary (main.put k (own.node k)) w (k + 1) =
      (w.keys.map (fun j => offsetNode (k + 1) (w.node j))).foldl (fun s n => s.put n.id { n with isOutput := false })
        ((main.put k (own.node k)).put k { own.node k with inputs := [k + 1], bytesConsumed := uown.bytesProduced }) := by
    simp only [completeSummary]
    rw [hout]
    simp only [Nat.add_sub_cancel, Summary.put_node, List.map_cons, List.map_nil, List.sum_cons, List.sum_nil, Nat.add_zero]
    have e1 : (offsetNode (k + 1) (w.node 0)).id = k + 1 := by rw [h2]; simp [offsetNode, NodeStats.node]
    have e2 : (offsetNode (k + 1) (w.node 0)).bytesProduced = uown.bytesProduced := by rw [h2]; rfl
    rw [e1, e2]
    rfl
  obtain ⟨g1, g2, g3, g4⟩ := put_fold (w.keys.map (fun j => offsetNode (k + 1) (w.node j)))
    ((main.put k (own.node k)).put k { own.node k with inputs := [k + 1], bytesConsumed := uown.bytesProduced })
    (put_nodup (put_nodup hn _ _) _ _) hnod
  rw [← hmain] at g1 g2 g3 g4
  generalize completeSummary (main.put k (own.node k)) w (k + 1) = res at g1 g2 g3 g4 ⊢
  have hidmem : ∀ j, j ∈ (w.keys.map (fun j => offsetNode (k + 1) (w.node j))).map (·.id) ↔ k + 1 ≤ j ∧ j < k + 1 + (STree.node uown uins).size := by
    intro j
    rw [hids, List.mem_map]
    constructor
    · rintro ⟨i, hi, rfl⟩
      have := hw.2.2 i hi
      omega
    · rintro ⟨a, b⟩
      exact ⟨j - (k + 1), (hw.mem_iff _).2 (by omega), by omega⟩
  have hkeys : ∀ j, j ∈ res.keys ↔ j ∈ main.keys ∨ (k ≤ j ∧ j < k + (1 + (STree.node uown uins).size)) := by
    intro j
    rw [g2, put_keys, put_keys, hidmem]
    constructor
    · rintro (((h | h) | h) | h)
      · exact Or.inl h
      · exact Or.inr (by omega)
      · exact Or.inr (by omega)
      · exact Or.inr (by omega)
    · rintro (h | h)
      · exact Or.inl (Or.inl (Or.inl h))
      · by_cases hjk : j = k
        · exact Or.inl (Or.inr hjk)
        · exact Or.inr (by omega)
  have hnode : ∀ j, j < (STree.node uown uins).size → res.node (j + (k + 1)) = { offsetNode (k + 1) (w.node j) with isOutput := false } := by
    intro j hj
    have := g4 (offsetNode (k + 1) (w.node j)) (List.mem_map.2 ⟨j, (hw.mem_iff j).2 hj, rfl⟩)
    have hid : (offsetNode (k + 1) (w.node j)).id = j + (k + 1) := by
      show (w.node j).id + (k + 1) = _
      rw [hw.1.id j (by omega) (by omega)]
    rw [← this, hid]
  refine ⟨⟨g1, hkeys, fun j hj => ?_⟩, ?_, ⟨0, ?_⟩, ?_, trivial⟩
  · rw [g3 j (by rw [hidmem]; omega), put_other _ _ (by omega), put_other _ _ (by omega)]
  · rw [hkeys]; exact Or.inr (by omega)
  · rw [g3 k (by rw [hidmem]; omega), Summary.put_node]
    simp [STrees.ids, NodeStats.node, STree.own]
  · refine ⟨by rw [hkeys]; exact Or.inr (by omega), ⟨r, ?_⟩, ?_⟩
    · have := hnode 0 hsz
      rw [Nat.zero_add] at this
      rw [this, h2]
      simp only [offsetNode, NodeStats.node]
      congr 1
      · omega
      · rw [uins.ids_moved (k + 1) (0 + 1)]
        congr 1
        omega
    · have := uins.moved (k + 1) (0 + 1) h3 (s' := res) (fun j hj hj' => by
        have hj2 : j < (STree.node uown uins).size := by rw [STree.size]; omega
        refine ⟨by rw [hkeys]; exact Or.inr (by omega), ?_⟩
        rw [hnode j hj2]
        have := STrees.ShownAt.quiet h3 ho.2 j (by omega) (by omega)
        simp only [offsetNode, this])
      rwa [show 0 + 1 + (k + 1) = k + 1 + 1 by omega] at this

/-! ### Building -/

theorem Summary.empty_nodup : Summary.empty.keys.Nodup := List.nodup_nil

theorem STree.shown_of_grown {s : Summary} {t : STree} (h : Grown .empty s 0 t.size) (ht : t.ShownAt s 0) : t.Shown s :=
  ⟨ht, h.1, fun k hk => by
    have := (h.2.1 k).1 hk
    simp [Summary.empty] at this
    exact this⟩

theorem Grown.bound {s s' : Summary} {k n : Nat} (h : Grown s s' k n) (hk : ∀ j ∈ s.keys, j < k) : ∀ j ∈ s'.keys, j < k + n := by
  intro j hj
  rcases (h.2.1 j).1 hj with h | h
  · have := hk j h; omega
  · exact h.2

theorem joined_shown {received : List Summary} {copies : List STree} {own : NodeStats} {t : STree} {s : Summary} {k : Nat}
    (hsh : List.Forall₂ (fun s u => STree.Shown s u) received copies) (hj : Joined own copies t) (hn : s.keys.Nodup) (hk : ∀ j ∈ s.keys, j < k) :
    Grown s (completeSummary (s.put k (own.node k)) (mergeAllSummaries received) (k + 1)) k t.size ∧
    t.ShownAt (completeSummary (s.put k (own.node k)) (mergeAllSummaries received) (k + 1)) k := by
  rcases hj with ⟨rfl, rfl⟩ | ⟨u, us, rfl, ho, ha, rfl⟩
  · cases hsh
    exact complete_empty own hn hk
  · cases hsh with
    | cons h1 h2 =>
      obtain ⟨g1, g2⟩ := merge_all_shown _ us _ u h1 h2 ha
      have := complete_shown own hn hk g1 (g2.output ho)
      have e : ∀ (v : STree), v.inner.size = v.size := fun v => by cases v; rfl
      simp only [STree.size, STrees.size, e, Nat.add_zero]
      exact this

theorem joined_lengths {l : List Summary} {copies : List STree} {own : NodeStats} {t : STree}
    (hsh : List.Forall₂ (fun s u => STree.Shown s u) l copies) (hj : Joined own copies t) :
    l.all (fun t => decide (t.keys.length = (l.head?.getD .empty).keys.length)) = true := by
  rcases hj with ⟨rfl, hj⟩ | ⟨u, us, rfl, _, ha, hj⟩ <;> clear hj
  · cases hsh
    rfl
  · cases hsh with
    | @cons s _ l _ h1 h2 =>
      have hlen : ∀ {s : Summary} {u : STree}, u.Shown s → s.keys.length = u.size := fun h => by
        rw [h.perm.length_eq, List.length_range]
      rw [List.all_cons, Bool.and_eq_true]
      refine ⟨by simp, List.all_eq_true.2 (fun x hx => ?_)⟩
      apply decide_eq_true
      show x.keys.length = s.keys.length
      obtain ⟨v, hv, hxv⟩ : ∃ v ∈ us, STree.Shown x v := by
        clear ha h1
        induction h2 with
        | nil => simp at hx
        | @cons a b _ _ hab _ ih =>
          rcases List.mem_cons.1 hx with rfl | hx
          · exact ⟨b, by simp, hab⟩
          · obtain ⟨v, hv, h⟩ := ih hx
            exact ⟨v, by simp [hv], h⟩
      rw [hlen hxv, hlen h1, (ha v hv).size]

mutual
theorem StatsObj.build_shown : ∀ (o : StatsObj) (t : STree), o.Is t → o.LastOnly → ∀ (s : Summary) (k : Nat), s.keys.Nodup → (∀ j ∈ s.keys, j < k) →
    ∃ s' r, Ev (fun F => o.build F s k = some (s', r)) ∧ (o.Simple → r = k + t.size - 1) ∧ Grown s s' k t.size ∧ t.ShownAt s' k
  | .plain own ps, .node own' ins, hi, hl, s, k, hn, hk => by
    obtain ⟨rfl, hi⟩ := hi
    have hk1 : ∀ j ∈ (s.put k (own'.node k)).keys, j < k + 1 := by
      intro j hj
      rcases (put_keys _ _ _ _).1 hj with h | h
      · have := hk j h; omega
      · omega
    obtain ⟨s', r, g1, g2, g3, g4, g5⟩ := ps.build_shown ins hi hl (s.put k (own'.node k)) k k (put_nodup hn _ _) hk1 (Nat.le_refl k)
      (by rw [put_keys]; exact Or.inr rfl)
    refine ⟨s', r, g1, fun hs => ?_, ⟨g3.1, fun j => ?_, fun j hj => ?_⟩, ?_, ⟨0, ?_⟩, g4⟩
    · rw [g2 hs, STree.size]; omega
    · rw [g3.2, put_keys, STree.size]
      constructor
      · rintro ((h | h) | h)
        · exact Or.inl h
        · exact Or.inr (by omega)
        · exact Or.inr (by omega)
      · rintro (h | h)
        · exact Or.inl (Or.inl h)
        · by_cases hjk : j = k
          · exact Or.inl (Or.inr hjk)
          · exact Or.inr (by omega)
    · rw [g5.1 j (by omega) (by omega), put_other _ _ (by omega)]
    · rw [g3.2, put_keys]; exact Or.inl (Or.inr rfl)
    · rw [g5.2, Summary.put_node]
      simp [NodeStats.node]
  | .workers own received, t, hi, _, s, k, hn, hk => by
    obtain ⟨copies, hsh, hj⟩ := hi
    obtain ⟨g1, g2⟩ := joined_shown hsh hj hn hk
    exact ⟨_, _, Ev.of_forall (fun F => rfl), (fun h => h.elim), g1, g2⟩
  | .interleave own ps, t, hi, hl, s, k, hn, hk => by
    obtain ⟨copies, he, hj⟩ := hi
    obtain ⟨l, hev, hsh⟩ := ps.summaries_shown copies he hl
    obtain ⟨g1, g2⟩ := joined_shown hsh hj hn hk
    refine ⟨_, k, hev.mono (fun F e => ?_), (fun h => h.elim), g1, g2⟩
    have hlen : l.all (fun t => decide (t.keys.length = (l.head?.getD .empty).keys.length)) = true := joined_lengths hsh hj
    simp only [StatsObj.build, e, Option.bind_eq_bind, Option.bind_some]
    rw [if_pos hlen]
theorem StatsObjs.build_shown : ∀ (ps : StatsObjs) (ts : STrees), ps.Are ts → ps.LastOnly → ∀ (s : Summary) (c k : Nat), s.keys.Nodup →
    (∀ j ∈ s.keys, j < k + 1) → c ≤ k → c ∈ s.keys →
    ∃ s' r, Ev (fun F => ps.build F c s k = some (s', r)) ∧ (ps.Simple → r = k + ts.size) ∧
      (s'.keys.Nodup ∧ ∀ j, j ∈ s'.keys ↔ j ∈ s.keys ∨ (k + 1 ≤ j ∧ j < k + 1 + ts.size)) ∧ ts.ShownAt s' (k + 1) ∧
      (∀ j, j < k + 1 → j ≠ c → s'.node j = s.node j) ∧
      s'.node c = { s.node c with inputs := (s.node c).inputs ++ ts.ids (k + 1) }
  | .nil, .nil, _, _, s, c, k, hn, _, _, _ => by
    refine ⟨s, k, Ev.of_forall (fun F => rfl), fun _ => rfl, ⟨hn, fun j => ?_⟩, trivial, fun _ _ _ => rfl, by simp [STrees.ids]⟩
    simp only [STrees.size]
    constructor
    · exact Or.inl
    · rintro (h | h)
      · exact h
      · omega
  | .cons p ps, .cons t ts, hi, hl, s, c, k, hn, hk, hck, hc => by
    have hput : ∀ n, (s.put c n).keys = s.keys := fun n => put_mem hc n
    obtain ⟨s1, r1, a1, a2, a3, a4⟩ := p.build_shown t hi.1 hl.1 (s.put c { s.node c with inputs := (s.node c).inputs ++ [k + 1] }) (k + 1)
      (by rw [hput]; exact hn) (by rw [hput]; exact hk)
    rcases hl.2.1 with rfl | hs
    · obtain rfl : ts = .nil := by
        cases ts with
        | nil => rfl
        | cons _ _ => exact absurd hi.2 (by simp [StatsObjs.Are])
      refine ⟨s1, r1, a1.mono (fun F e => ?_), fun hs => ?_, ⟨a3.1, fun j => ?_⟩, ⟨a4, trivial⟩, fun j hj hjc => ?_, ?_⟩
      · simp only [StatsObjs.build, e, Option.bind_eq_bind, Option.bind_some]
      · rw [a2 hs.1]
        have := t.size_pos
        simp only [STrees.size]
        omega
      · rw [a3.2.1, hput]
        simp [STrees.size]
      · rw [a3.2.2 j hj, put_other _ _ hjc]
      · rw [a3.2.2 c (by omega), Summary.put_node]
        simp [STrees.ids]
    · have hr : r1 = k + t.size := by rw [a2 hs]; have := t.size_pos; omega
      have hk2 : ∀ j ∈ s1.keys, j < r1 + 1 := by
        intro j hj
        have := a3.bound (by rw [hput]; exact hk) j hj
        omega
      obtain ⟨s2, r2, b1, b2, b3, b4, b5, b6⟩ := ps.build_shown ts hi.2 hl.2.2 s1 c r1 a3.1 hk2 (by omega)
        (by rw [a3.2.1, hput]; exact Or.inl hc)
      refine ⟨s2, r2, (a1.and b1).mono (fun F e => ?_), fun hs => ?_, ⟨b3.1, fun j => ?_⟩, ⟨?_, ?_⟩, fun j hj hjc => ?_, ?_⟩
      · simp only [StatsObjs.build, e.1, Option.bind_eq_bind, Option.bind_some]
        exact e.2
      · rw [b2 hs.2, hr, STrees.size]; omega
      · rw [b3.2, a3.2.1, hput, hr, STrees.size]
        constructor
        · rintro ((h | h) | h)
          · exact Or.inl h
          · exact Or.inr (by omega)
          · exact Or.inr (by omega)
        · rintro (h | h)
          · exact Or.inl (Or.inl h)
          · by_cases hj : j < k + 1 + t.size
            · exact Or.inl (Or.inr (by omega))
            · exact Or.inr (by omega)
      · refine t.shownAt_congr (k + 1) (fun j hj hj' => ⟨?_, ?_⟩) a4
        · rw [b3.2, a3.2.1]; exact Or.inl (Or.inr ⟨hj, hj'⟩)
        · exact b5 j (by omega) (by omega)
      · rw [hr] at b4
        rwa [show k + t.size + 1 = k + 1 + t.size by omega] at b4
      · rw [b5 j (by omega) hjc, a3.2.2 j hj, put_other _ _ hjc]
      · rw [b6, a3.2.2 c (by omega), Summary.put_node, hr]
        simp only [STrees.ids, List.append_assoc, List.singleton_append]
        rw [show k + t.size + 1 = k + 1 + t.size by omega]
theorem StatsObjs.summaries_shown : ∀ (ps : StatsObjs) (ts : List STree), ps.Each ts → ps.EachLastOnly →
    ∃ l, Ev (fun F => ps.summaries F = some l) ∧ List.Forall₂ (fun s u => STree.Shown s u) l ts
  | .nil, [], _, _ => ⟨[], Ev.of_forall (fun F => rfl), .nil⟩
  | .cons p ps, t :: ts, hi, hl => by
    obtain ⟨s, r, a1, _, a3, a4⟩ := p.build_shown t hi.1 hl.1 .empty 0 Summary.empty_nodup (by simp [Summary.empty])
    have hs := STree.shown_of_grown a3 a4
    obtain ⟨s', b1, b2⟩ := populate_only a4
    obtain ⟨l, c1, c2⟩ := ps.summaries_shown ts hi.2 hl.2
    refine ⟨s' :: l, ((a1.and b1).and c1).mono (fun F e => ?_), .cons (hs.ratios b2) c2⟩
    simp only [StatsObjs.summaries, e.1.1, e.1.2, e.2, Option.bind_eq_bind, Option.bind_some]
end

end Grain
