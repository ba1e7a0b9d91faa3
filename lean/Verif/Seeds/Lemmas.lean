import Verif.Seeds.Spec
import Mathlib.Algebra.BigOperators.Group.List.Basic
import Mathlib.Data.Nat.Digits.Lemmas
namespace Grain

/-- Seeds at one depth as the traversal lists them. -/
def entsAt (k : Nat) (ss : List Int) : List Int := ss.flatMap (fun s => [s, (k : Int)])

theorem entsAt_append (k : Nat) (a b : List Int) : entsAt k (a ++ b) = entsAt k a ++ entsAt k b := by
  simp [entsAt]

theorem seedLoop_levels : ∀ (N : Nat) (q1 q2 : List DsNode) (k : Nat) (acc : List Int) (H : Nat),
    2 * (DsNode.sizes q1 + DsNode.sizes q2) + (if q1 = [] then 1 else 0) ≤ N →
    (∀ t ∈ q1, ∀ j, H ≤ j → seedsAt (j + 1) t = []) → (∀ t ∈ q2, ∀ j, H ≤ j → seedsAt j t = []) →
    seedLoop (q1.map (·, k) ++ q2.map (·, k + 1)) acc =
      acc ++ entsAt k (q1.flatMap (seedsAt 0)) ++
        (List.range H).flatMap (fun j => entsAt (k + 1 + j)
          (q2.flatMap (seedsAt j) ++ q1.flatMap (seedsAt (j + 1)))) := by
  intro N
  induction N with
  | zero =>
    intro q1 q2 k acc H hN
    cases q1 with
    | nil => simp at hN
    | cons t q1 => cases t; simp [DsNode.sizes, DsNode.size] at hN
  | succ N ih =>
    intro q1 q2 k acc H hN h1 h2
    cases q1 with
    | nil =>
      cases q2 with
      | nil => simp [seedLoop, entsAt]
      | cons t q2 =>
        have hs := ih (t :: q2) [] (k + 1) acc (H - 1) (by simp [DsNode.sizes] at hN ⊢; omega)
          (fun u hu j hj => h2 u hu (j + 1) (by omega)) (by simp)
        simp only [List.map_nil, List.append_nil, List.nil_append, List.flatMap_nil] at hs ⊢
        rw [hs]
        cases H with
        | zero =>
          have h0 : (t :: q2).flatMap (seedsAt 0) = [] := by
            rw [List.flatMap_eq_nil_iff]; exact fun u hu => h2 u hu 0 (Nat.le_refl _)
          simp [h0, entsAt]
        | succ H =>
          rw [List.range_succ_eq_map]
          simp only [List.flatMap_cons, List.flatMap_map, Nat.add_sub_cancel, Nat.add_zero, List.append_assoc]
          simp only [entsAt, List.flatMap_nil, List.nil_append, List.append_cancel_left_eq]
          congr 1
          funext j
          have : k + 1 + 1 + j = k + 1 + j.succ := by omega
          rw [this]
    | cons t q1 =>
      obtain ⟨o, ps⟩ := t
      simp only [List.map_cons, List.cons_append]
      rw [seedLoop]
      cases o with
      | some s =>
        simp only [DsNode.seedOf]
        rw [ih q1 q2 k _ H (by
          simp [DsNode.sizes, DsNode.size] at hN; split <;> omega)
          (fun u hu => h1 u (List.mem_cons_of_mem _ hu)) h2]
        simp [entsAt, seedsAt]
      | none =>
        simp only [DsNode.seedOf, DsNode.parents]
        have hm : q1.map (·, k) ++ q2.map (·, k + 1) ++ ps.map (fun p => (p, k + 1))
            = q1.map (·, k) ++ (q2 ++ ps).map (·, k + 1) := by simp
        rw [hm, ih q1 (q2 ++ ps) k _ H (by
          simp [DsNode.sizes, DsNode.size, DsNode.sizes_append] at hN ⊢; split <;> omega)
          (fun u hu => h1 u (List.mem_cons_of_mem _ hu)) (by
            intro u hu j hj
            rcases List.mem_append.1 hu with hu | hu
            · exact h2 u hu j hj
            · have := h1 (.node none ps) (List.mem_cons_self) j hj
              simp only [seedsAt, List.flatMap_eq_nil_iff] at this
              exact this u hu)]
        simp [seedsAt]

theorem mem_sizes {p : DsNode} : ∀ {ps : List DsNode}, p ∈ ps → p.size ≤ DsNode.sizes ps := by
  intro ps
  induction ps with
  | nil => simp
  | cons q ps ih =>
    intro h
    simp only [DsNode.sizes]
    rcases List.mem_cons.1 h with h | h
    · subst h; omega
    · have := ih h; omega

theorem seedsAt_size : ∀ (k : Nat) (t : DsNode), t.size ≤ k → seedsAt k t = [] := by
  intro k
  induction k with
  | zero => intro t h; cases t; simp [DsNode.size] at h
  | succ k ih =>
    intro t h
    obtain ⟨o, ps⟩ := t
    cases o with
    | some s => simp [seedsAt]
    | none =>
      simp only [seedsAt, List.flatMap_eq_nil_iff]
      intro p hp
      have := mem_sizes hp
      simp only [DsNode.size] at h
      exact ih p (by omega)

theorem aggregatedSeed_levels (t : DsNode) (H : Nat) (hH : ∀ j, H ≤ j → seedsAt j t = []) :
    aggregatedSeed t = (List.range H).flatMap (fun k => entsAt k (seedsAt k t)) := by
  have h := seedLoop_levels _ [t] [] 0 [] (H - 1) (Nat.le_refl _) (by
    intro u hu j hj; simp at hu; subst hu; exact hH _ (by omega)) (by simp)
  simp only [List.map_cons, List.map_nil, List.append_nil, List.flatMap_cons, List.flatMap_nil, List.nil_append] at h
  rw [aggregatedSeed, h]
  cases H with
  | zero => simp [hH 0 (Nat.le_refl _), entsAt]
  | succ H =>
    rw [List.range_succ_eq_map]
    simp only [List.flatMap_cons, List.flatMap_map, Nat.add_sub_cancel]
    congr 1
    congr 1
    funext j
    have : 0 + 1 + j = j.succ := by omega
    rw [this]

theorem aggregatedSeed_congr {a b : DsNode} (h : ∀ k, seedsAt k a = seedsAt k b) :
    aggregatedSeed a = aggregatedSeed b := by
  rw [aggregatedSeed_levels a (max a.size b.size) (fun j hj => seedsAt_size j a (by omega)),
    aggregatedSeed_levels b (max a.size b.size) (fun j hj => seedsAt_size j b (by omega))]
  simp [h]

theorem trims_eq (ps : List DsNode) : DsNode.trims ps = ps.map DsNode.trim := by
  induction ps with
  | nil => rfl
  | cons p ps ih => simp [DsNode.trims, ih]

theorem seedsAt_trim : ∀ (k : Nat) (t : DsNode), seedsAt k t.trim = seedsAt k t := by
  intro k
  induction k with
  | zero => intro t; obtain ⟨o, ps⟩ := t; cases o <;> simp [DsNode.trim, seedsAt]
  | succ k ih =>
    intro t; obtain ⟨o, ps⟩ := t
    cases o with
    | some s => simp [DsNode.trim, seedsAt]
    | none =>
      simp only [DsNode.trim, seedsAt, trims_eq, List.flatMap_map]
      congr 1; funext p; exact ih p

theorem seedsAt_chain (k j : Nat) (t : DsNode) :
    seedsAt j (DsNode.chain k t) = if j < k then [] else seedsAt (j - k) t := by
  induction k generalizing j with
  | zero => simp [DsNode.chain]
  | succ k ih =>
    cases j with
    | zero => simp [DsNode.chain, DsNode.over, seedsAt]
    | succ j => simp [DsNode.chain, DsNode.over, seedsAt, ih]

theorem range_flatMap_single (f : Nat → List Int) (H k : Nat) (hk : k < H) (h : ∀ j, j ≠ k → f j = []) :
    (List.range H).flatMap f = f k := by
  induction H with
  | zero => omega
  | succ H ih =>
    rw [List.range_succ, List.flatMap_append]
    simp only [List.flatMap_cons, List.flatMap_nil, List.append_nil]
    by_cases e : k = H
    · subst e
      have : (List.range k).flatMap f = [] := by
        rw [List.flatMap_eq_nil_iff]; intro j hj; exact h j (by simp at hj; omega)
      simp [this]
    · rw [ih (by omega), h H (by omega), List.append_nil]

theorem aggregatedSeed_chain (k : Nat) (s : Int) (t : DsNode) :
    aggregatedSeed (DsNode.chain k (t.withSeed s)) = [s, (k : Int)] := by
  have hs : ∀ j, seedsAt j (DsNode.chain k (t.withSeed s)) = if j = k then [s] else [] := by
    intro j
    rw [seedsAt_chain]
    split
    · rw [if_neg (by omega)]
    · rcases Nat.eq_zero_or_pos (j - k) with h | h
      · rw [h, if_pos (by omega)]; simp [DsNode.withSeed, seedsAt]
      · obtain ⟨i, hi⟩ : ∃ i, j - k = i + 1 := ⟨j - k - 1, by omega⟩
        rw [hi, if_neg (by omega)]; simp [DsNode.withSeed, seedsAt]
  rw [aggregatedSeed_levels _ (k + 1) (fun j hj => by rw [hs, if_neg (by omega)]),
    range_flatMap_single _ _ k (by omega) (fun j hj => by rw [hs, if_neg hj]; rfl), hs, if_pos rfl]
  rfl

/-! Sums of the entropy words. -/

/-- Sum of the words of a list of integers. -/
def wordSum (xs : List Int) : Nat := (xs.flatMap (fun x => wordsOf x.toNat)).sum

theorem wordSum_append (a b : List Int) : wordSum (a ++ b) = wordSum a + wordSum b := by simp [wordSum]

mutual
/-- Words contributed by the seeds below a dataset at depth `d`. -/
def DsNode.weight (d : Nat) : DsNode → Nat
  | .node (some s) _ => wordSum [s] + d
  | .node none ps => DsNode.weights (d + 1) ps
/-- `weight` of several datasets. -/
def DsNode.weights (d : Nat) : List DsNode → Nat
  | [] => 0
  | t :: ts => t.weight d + DsNode.weights d ts
end

mutual
/-- Number of nearest seeds. -/
def DsNode.count : DsNode → Nat
  | .node (some _) _ => 1
  | .node none ps => DsNode.counts ps
/-- `count` of several datasets. -/
def DsNode.counts : List DsNode → Nat
  | [] => 0
  | t :: ts => t.count + DsNode.counts ts
end

mutual
theorem DsNode.weight_eq (d : Nat) : ∀ t : DsNode, t.weight d = t.weight 0 + d * t.count
  | .node (some s) _ => by simp [DsNode.weight, DsNode.count]
  | .node none ps => by
      simp only [DsNode.weight, DsNode.count]
      rw [DsNode.weights_eq (d + 1) ps, DsNode.weights_eq (0 + 1) ps]; ring
theorem DsNode.weights_eq (d : Nat) : ∀ ts : List DsNode, DsNode.weights d ts = DsNode.weights 0 ts + d * DsNode.counts ts
  | [] => by simp [DsNode.weights, DsNode.counts]
  | t :: ts => by
      simp only [DsNode.weights, DsNode.counts]
      rw [DsNode.weight_eq d t, DsNode.weights_eq d ts]; ring
end

theorem mem_weights {p : DsNode} (d : Nat) : ∀ {ps : List DsNode}, p ∈ ps → p.weight d ≤ DsNode.weights d ps := by
  intro ps
  induction ps with
  | nil => simp
  | cons q ps ih =>
    intro h
    simp only [DsNode.weights]
    rcases List.mem_cons.1 h with h | h
    · subst h; omega
    · have := ih h; omega

theorem mem_counts {p : DsNode} : ∀ {ps : List DsNode}, p ∈ ps → p.count ≤ DsNode.counts ps := by
  intro ps
  induction ps with
  | nil => simp
  | cons q ps ih =>
    intro h
    simp only [DsNode.counts]
    rcases List.mem_cons.1 h with h | h
    · subst h; omega
    · have := ih h; omega

theorem wordsOf_small {d : Nat} (h : d < 2 ^ 32) : wordsOf d = [d] := by
  unfold wordsOf
  split
  · next h0 => rw [h0]
  · next h0 => exact Nat.digits_of_lt _ _ h0 h

theorem DsNode.weights_append (d : Nat) (a b : List DsNode) :
    DsNode.weights d (a ++ b) = DsNode.weights d a + DsNode.weights d b := by
  induction a with
  | nil => simp [DsNode.weights]
  | cons x a ih => simp [DsNode.weights, ih]; omega

/-- Words of a queue of the traversal. -/
def queueWeight (q : List (DsNode × Nat)) : Nat := (q.map (fun e => e.1.weight e.2)).sum

theorem queueWeight_parents (d : Nat) (ps : List DsNode) :
    queueWeight (ps.map (fun p => (p, d))) = DsNode.weights d ps := by
  induction ps with
  | nil => rfl
  | cons p ps ih => simp only [queueWeight, List.map_cons, List.sum_cons, DsNode.weights] at ih ⊢; rw [ih]

theorem wordSum_seedLoop : ∀ (N : Nat) (q : List (DsNode × Nat)) (acc : List Int),
    DsNode.sizes (q.map Prod.fst) ≤ N → (∀ e ∈ q, e.2 + e.1.size ≤ 2 ^ 32) →
    wordSum (seedLoop q acc) = wordSum acc + queueWeight q := by
  intro N
  induction N with
  | zero =>
    intro q acc hN _
    cases q with
    | nil => simp [seedLoop, queueWeight]
    | cons e q => obtain ⟨⟨o, ps⟩, d⟩ := e; simp [DsNode.sizes, DsNode.size] at hN
  | succ N ih =>
    intro q acc hN hd
    cases q with
    | nil => simp [seedLoop, queueWeight]
    | cons e q =>
      obtain ⟨⟨o, ps⟩, d⟩ := e
      have hd0 := hd _ List.mem_cons_self
      simp only [DsNode.size] at hd0
      simp only [List.map_cons, DsNode.sizes, DsNode.size] at hN
      rw [seedLoop]
      cases o with
      | some s =>
        simp only [DsNode.seedOf]
        rw [ih q _ (by omega) (fun e he => hd e (List.mem_cons_of_mem _ he)), wordSum_append]
        have : wordSum [s, (d : Int)] = wordSum [s] + d := by
          simp [wordSum, wordsOf_small (show d < 2 ^ 32 by omega)]
        rw [this]; simp [queueWeight, DsNode.weight]; omega
      | none =>
        simp only [DsNode.seedOf, DsNode.parents]
        rw [ih _ _ (by
          simp [DsNode.sizes_append, Function.comp_def]; omega) (by
            intro e he
            rcases List.mem_append.1 he with he | he
            · exact hd e (List.mem_cons_of_mem _ he)
            · obtain ⟨p, hp, rfl⟩ := List.mem_map.1 he
              have := mem_sizes hp
              simp only; omega)]
        have := queueWeight_parents (d + 1) ps
        simp only [queueWeight, List.map_append, List.sum_append, List.map_cons, List.sum_cons, DsNode.weight] at this ⊢
        rw [this]; omega

theorem wordSum_aggregated {t : DsNode} (h : t.size ≤ 2 ^ 32) : wordSum (aggregatedSeed t) = t.weight 0 := by
  rw [aggregatedSeed, wordSum_seedLoop _ _ _ (Nat.le_refl _) (by intro e he; simp at he; subst he; simpa using h)]
  simp [wordSum, queueWeight]

theorem Seeded.count_pos {t : DsNode} (h : Seeded t) : 0 < t.count := by
  induction h with
  | here s ps => simp [DsNode.count]
  | there o ps p hp _ ih =>
    cases o with
    | some s => simp [DsNode.count]
    | none => have := mem_counts hp; simp only [DsNode.count]; omega

theorem Feeds.weight_lt {a b : DsNode} (h : Feeds b a) (hb : Seeded b) : b.weight 0 < a.weight 0 := by
  have hp := hb.count_pos
  induction h with
  | parent ps b hmem =>
    simp only [DsNode.weight]
    have := mem_weights (0 + 1) hmem
    rw [DsNode.weight_eq] at this; omega
  | trans ps p b hmem _ ih =>
    have ih := ih hb hp
    simp only [DsNode.weight]
    have := mem_weights (0 + 1) hmem
    rw [DsNode.weight_eq] at this; omega

theorem Seeded.seedsAt {t : DsNode} (h : Seeded t) : ∃ k, seedsAt k t ≠ [] := by
  induction h with
  | here s ps => exact ⟨0, by simp [Grain.seedsAt]⟩
  | there o ps p hp _ ih =>
    cases o with
    | some s => exact ⟨0, by simp [Grain.seedsAt]⟩
    | none =>
      obtain ⟨k, hk⟩ := ih
      refine ⟨k + 1, fun e => hk ?_⟩
      simp only [Grain.seedsAt, List.flatMap_eq_nil_iff] at e
      exact e p hp

theorem seeded_of_seedsAt : ∀ (k : Nat) (t : DsNode), seedsAt k t ≠ [] → Seeded t := by
  intro k
  induction k with
  | zero =>
    intro t h; obtain ⟨o, ps⟩ := t
    cases o with
    | some s => exact .here _ _
    | none => simp [seedsAt] at h
  | succ k ih =>
    intro t h; obtain ⟨o, ps⟩ := t
    cases o with
    | some s => exact .here _ _
    | none =>
      have : ∃ p ∈ ps, seedsAt k p ≠ [] := by
        by_contra hc
        push Not at hc
        exact h (by simp only [seedsAt, List.flatMap_eq_nil_iff]; exact hc)
      obtain ⟨p, hp, hk⟩ := this
      exact .there _ _ p hp (ih p hk)

theorem mem_aggregatedSeed {t : DsNode} {x : Int} (h : x ∈ aggregatedSeed t) :
    (∃ k, x ∈ seedsAt k t) ∨ ∃ k : Nat, x = k := by
  rw [aggregatedSeed_levels t t.size (fun j hj => seedsAt_size j t hj)] at h
  obtain ⟨k, _, hk⟩ := List.mem_flatMap.1 h
  obtain ⟨s, hs, hx⟩ := List.mem_flatMap.1 hk
  simp at hx
  rcases hx with hx | hx
  · exact .inl ⟨k, hx ▸ hs⟩
  · exact .inr ⟨k, hx⟩

theorem aggregatedSeed_nil {t : DsNode} : aggregatedSeed t = [] ↔ ¬ Seeded t := by
  constructor
  · intro h hs
    obtain ⟨k, hk⟩ := hs.seedsAt
    rw [aggregatedSeed_levels t (max (k + 1) t.size) (fun j hj => seedsAt_size j t (by omega)),
      List.flatMap_eq_nil_iff] at h
    have := h k (by simp)
    simp only [entsAt, List.flatMap_eq_nil_iff] at this
    obtain ⟨x, hx⟩ := List.exists_mem_of_ne_nil _ hk
    have := this x hx
    simp at this
  · intro h
    rw [aggregatedSeed_levels t t.size (fun j hj => seedsAt_size j t hj), List.flatMap_eq_nil_iff]
    intro k _
    have : seedsAt k t = [] := by
      by_contra hc; exact h (seeded_of_seedsAt k t hc)
    simp [this, entsAt]

theorem defaultSeed_seeded (mix : List Nat → UInt32) {t : DsNode} (h : Seeded t) :
    defaultSeed mix t = (entropyOf (aggregatedSeed t)).map (fun ws => some ((mix ws).toNat : Int)) := by
  have hn : aggregatedSeed t ≠ [] := fun e => aggregatedSeed_nil.1 e h
  unfold defaultSeed
  split
  · next e => exact absurd e hn
  · rfl

/-- Words followed by a last word that is not zero and padding determine those words. -/
theorem padded_inj {a b : List Nat} {x y m n : Nat} (hx : x ≠ 0) (hy : y ≠ 0)
    (h : a ++ [x] ++ List.replicate m 0 = b ++ [y] ++ List.replicate n 0) : a = b ∧ x = y := by
  induction m generalizing n with
  | zero =>
    cases n with
    | zero => simpa using h
    | succ n =>
      rw [List.replicate_succ', ← List.append_assoc] at h
      simp only [List.replicate_zero, List.append_nil] at h
      have := List.append_inj_right' h rfl
      simp at this; exact absurd this hx
  | succ m ih =>
    cases n with
    | zero =>
      rw [List.replicate_succ', ← List.append_assoc] at h
      simp only [List.replicate_zero, List.append_nil] at h
      have := List.append_inj_right' h rfl
      simp at this; exact absurd this.symm hy
    | succ n =>
      rw [List.replicate_succ', List.replicate_succ', ← List.append_assoc, ← List.append_assoc] at h
      exact ih (List.append_inj_left' h rfl)

theorem wordsOf_inj {a b : Nat} (h : wordsOf a = wordsOf b) : a = b := by
  have hv : ∀ n, Nat.ofDigits (2 ^ 32) (wordsOf n) = n := by
    intro n
    unfold wordsOf
    split
    · next e => simp [e]
    · exact Nat.ofDigits_digits _ _
  rw [← hv a, ← hv b, h]

theorem entropyOf_sum {xs : List Int} {ws : List Nat} (h : entropyOf xs = .ok ws) : ws.sum = wordSum xs := by
  unfold entropyOf at h
  split at h
  · cases h
  · injection h with h; subst h; simp [wordSum]

end Grain
