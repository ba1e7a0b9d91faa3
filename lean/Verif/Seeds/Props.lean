import Verif.Seeds.Lemmas
/-
Default seeds of random transformations: what they depend on and when two of them are derived from different values.
-/
namespace Grain

/-- The default seed of a dataset is derived from the seeds given by `ds.seed` nearest upstream on every path and their
distances: nearest first, and among equal distances from the first input to the last. -/
theorem default_seed_nearest (t : DsNode) (H : Nat) (hH : t.size ≤ H) :
    aggregatedSeed t =
      (List.range H).flatMap (fun k => (seedsAt k t).flatMap (fun s => [s, (k : Int)])) :=
  aggregatedSeed_levels t H (fun j hj => seedsAt_size j t (by omega))

/-- What is upstream of the `ds.seed` calls has no influence on the seed of any random transformation. -/
theorem default_seed_upstream_irrelevant (mix : List Nat → UInt32) (explicit : Option Int) (a b : DsNode)
    (h : a.trim = b.trim) :
    randomMapSeed mix explicit a = randomMapSeed mix explicit b ∧ shuffleSeed mix explicit a = shuffleSeed mix explicit b := by
  have : aggregatedSeed a = aggregatedSeed b :=
    aggregatedSeed_congr (fun k => by rw [← seedsAt_trim k a, ← seedsAt_trim k b, h])
  simp [shuffleSeed, randomMapSeed, defaultSeed, this]

example : (DsNode.source.withSeed 3).over.trim = ((DsNode.source.withSeed 1).over.over.withSeed 3).over.trim := by
  simp [DsNode.trim, DsNode.trims, DsNode.withSeed, DsNode.over, DsNode.source]

/-- In a chain, the `k`-th transformation after the last `ds.seed(s)` derives its seed from `s` and `k` alone, whatever
seeds were given before. -/
theorem default_seed_last_seed_wins (mix : List Nat → UInt32) (s k : Nat) (t : DsNode) (hk : k < 2 ^ 32) :
    randomMapSeed mix none (DsNode.chain k (t.withSeed s)) =
      .ok ((mix (wordsOf s ++ [k] ++ List.replicate (4 - ((wordsOf s).length + 1)) 0)).toNat : Int) := by
  have hp : ([(s : Int), (k : Int)].any (· < 0)) = false := by simp
  simp only [randomMapSeed, defaultSeed, aggregatedSeed_chain, entropyOf, hp]
  simp [wordsOf_small hk, Except.map]

/-- A random transformation and one upstream of it, with no `ds.seed` in between, never derive their seeds from the same
value, however the pipeline branches. -/
theorem default_seed_distinct_downstream (a b : DsNode) (wa wb : List Nat) (hf : Feeds b a) (hs : Seeded b)
    (hsize : a.size ≤ 2 ^ 32) (ha : entropyOf (aggregatedSeed a) = .ok wa)
    (hb : entropyOf (aggregatedSeed b) = .ok wb) : wa ≠ wb := by
  have hlt := hf.weight_lt hs
  have hsb : b.size ≤ a.size := by
    clear hlt ha hb hs
    induction hf with
    | parent ps b hm => have := mem_sizes hm; simp only [DsNode.size]; omega
    | trans ps p b hm _ ih =>
      have := mem_sizes hm
      simp only [DsNode.size] at hsize ⊢
      have := ih (by omega)
      omega
  rw [← wordSum_aggregated hsize, ← wordSum_aggregated (show b.size ≤ 2 ^ 32 by omega), ← entropyOf_sum ha,
    ← entropyOf_sum hb] at hlt
  intro h
  rw [h] at hlt
  exact Nat.lt_irrefl _ hlt

example : Feeds (DsNode.source.withSeed 1).over
    (DsNode.overAll [(DsNode.source.withSeed 1).over, (DsNode.source.withSeed 2).over.over]).over ∧
    Seeded (DsNode.source.withSeed 1).over ∧
    entropyOf (aggregatedSeed (DsNode.overAll
      [(DsNode.source.withSeed 1).over, (DsNode.source.withSeed 2).over.over]).over) = .ok [1, 3, 2, 4] ∧
    entropyOf (aggregatedSeed (DsNode.source.withSeed 1).over) = .ok [1, 1, 0, 0] := by
  refine ⟨.trans _ _ _ List.mem_cons_self (.parent _ _ List.mem_cons_self),
    .there _ _ _ List.mem_cons_self (.here _ _), ?_, ?_⟩
  · rw [default_seed_nearest _ 10 (by simp [DsNode.size, DsNode.sizes, DsNode.over, DsNode.overAll, DsNode.withSeed,
      DsNode.source])]
    simp [List.range_succ, seedsAt, DsNode.over, DsNode.overAll, DsNode.withSeed, entropyOf, wordsOf]
  · rw [default_seed_nearest _ 10 (by simp [DsNode.size, DsNode.sizes, DsNode.over, DsNode.withSeed, DsNode.source])]
    simp [List.range_succ, seedsAt, DsNode.over, DsNode.withSeed, entropyOf, wordsOf]

/-- A random transformation without a seed of its own is refused exactly when no `ds.seed` is upstream of it, provided
the seeds are not negative. -/
theorem default_seed_refused_iff (mix : List Nat → UInt32) (t : DsNode)
    (hpos : ∀ k, ∀ s ∈ seedsAt k t, 0 ≤ s) :
    (¬ Seeded t → randomMapSeed mix none t = .error .valueError ∧ shuffleSeed mix none t = .error .valueError) ∧
    (Seeded t → ∃ s : Int, 0 ≤ s ∧ s < 2 ^ 32 ∧ randomMapSeed mix none t = .ok s ∧ shuffleSeed mix none t = .ok s) := by
  constructor
  · intro h
    have := aggregatedSeed_nil.2 h
    simp [shuffleSeed, randomMapSeed, defaultSeed, this]
  · intro h
    have he : ∃ ws, entropyOf (aggregatedSeed t) = .ok ws := by
      unfold entropyOf
      rw [if_neg]
      · exact ⟨_, rfl⟩
      · simp only [List.any_eq_true, not_exists, not_and, decide_eq_true_eq, Int.not_lt]
        intro x hx
        rcases mem_aggregatedSeed hx with ⟨k, hk⟩ | ⟨k, rfl⟩
        · exact hpos k x hk
        · omega
    obtain ⟨ws, hws⟩ := he
    have hlt : (mix ws).toNat < 2 ^ 32 := (mix ws).toNat_lt
    refine ⟨((mix ws).toNat : Int), by omega, by omega, ?_⟩
    have hr : randomMapSeed mix none t = .ok ((mix ws).toNat : Int) := by
      simp [randomMapSeed, defaultSeed_seeded mix h, hws, Except.map]
    refine ⟨hr, ?_⟩
    simp only [shuffleSeed, hr]
    rw [if_neg (by omega)]

example : Seeded (DsNode.source.withSeed 0).over ∧ ¬ Seeded DsNode.source.over := by
  refine ⟨.there _ _ _ List.mem_cons_self (.here _ _), ?_⟩
  rw [← aggregatedSeed_nil, default_seed_nearest _ 2 (by simp [DsNode.size, DsNode.sizes, DsNode.over, DsNode.source])]
  simp [List.range_succ, seedsAt, DsNode.over, DsNode.source]

/-- Seeds given to a transformation directly are used as they are, whatever `ds.seed` was called upstream. -/
theorem explicit_seed_unaffected (mix : List Nat → UInt32) (t : DsNode) (s : Int) :
    randomMapSeed mix (some s) t = .ok s ∧
    (0 ≤ s → s < 2 ^ 32 → shuffleSeed mix (some s) t = .ok s) ∧
    (s < 0 ∨ 2 ^ 32 ≤ s → shuffleSeed mix (some s) t = .error .valueError) := by
  refine ⟨rfl, fun h0 h1 => ?_, fun h => ?_⟩
  · simp only [shuffleSeed, randomMapSeed]; rw [if_neg (by omega)]
  · simp only [shuffleSeed, randomMapSeed]; rw [if_pos (by omega)]

/-- C52: a seed derived from `ds.seed` is a 32-bit number, so a `shuffle` never refuses it, and the seed a `shuffle` ends up with is
one in any case. -/
theorem transformation_seed_range (mix : List Nat → UInt32) (t : DsNode) :
    (∀ s, randomMapSeed mix none t = .ok s → 0 ≤ s ∧ s < 2 ^ 32) ∧ shuffleSeed mix none t = randomMapSeed mix none t ∧
    ∀ explicit s, shuffleSeed mix explicit t = .ok s → 0 ≤ s ∧ s < 2 ^ 32 := by
  have h1 : ∀ s, randomMapSeed mix none t = .ok s → 0 ≤ s ∧ s < 2 ^ 32 := by
    intro s h
    simp only [randomMapSeed, defaultSeed] at h
    split at h
    · cases h
    · cases h
    · rename_i s' hs
      cases h
      split at hs
      · cases hs
      · cases he : entropyOf (aggregatedSeed t) with
        | error e => rw [he] at hs; cases hs
        | ok ws =>
          rw [he] at hs
          simp only [Except.map, Except.ok.injEq, Option.some.injEq] at hs
          subst hs
          have := (mix ws).toNat_lt
          omega
  refine ⟨h1, ?_, ?_⟩
  · unfold shuffleSeed
    cases h : randomMapSeed mix none t with
    | error e => rfl
    | ok s => exact if_neg (by have := h1 s h; omega)
  · intro explicit s h
    unfold shuffleSeed at h
    split at h
    · cases h
    · split at h
      · cases h
      · cases h
        omega

/-- Different seeds, or different positions after the same seed, are different values to derive from. -/
theorem default_seed_chain_injective (s s' k k' : Nat) (t t' : DsNode) (hk : 0 < k ∧ k < 2 ^ 32)
    (hk' : 0 < k' ∧ k' < 2 ^ 32)
    (h : entropyOf (aggregatedSeed (DsNode.chain k (t.withSeed s))) =
      entropyOf (aggregatedSeed (DsNode.chain k' (t'.withSeed s')))) : s = s' ∧ k = k' := by
  rw [aggregatedSeed_chain, aggregatedSeed_chain] at h
  have hp : ∀ a b : Nat, ([(a : Int), (b : Int)].any (· < 0)) = false := by
    intro a b; simp
  simp only [entropyOf, hp, Bool.false_eq_true, if_false, List.flatMap_cons, List.flatMap_nil, List.append_nil,
    Int.toNat_natCast, wordsOf_small hk.2, wordsOf_small hk'.2] at h
  injection h with h
  obtain ⟨h1, h2⟩ := padded_inj (by omega) (by omega) h
  exact ⟨wordsOf_inj h1, h2⟩

example : (0 < 1 ∧ 1 < 2 ^ 32) ∧ entropyOf (aggregatedSeed (DsNode.chain 1 (DsNode.source.withSeed (7 : Nat)))) =
    .ok [7, 1, 0, 0] := by
  rw [aggregatedSeed_chain]; simp [entropyOf, wordsOf]

/-- Finding: `ds.seed` does not give every downstream random transformation a seed of its own.  Two transformations at
the same distance from one `ds.seed` get the same seed, as in `zip([s.random_map(f), s.random_map(g)])` and in
`zip([x.seed(1).shuffle(), y.map(f).seed(1).shuffle()])`. -/
theorem default_seed_unique_false (s : Nat) (x y : DsNode) (mix : List Nat → UInt32) :
    ∃ a b t : DsNode, a = (x.withSeed s).over ∧ b = (y.withSeed s).over ∧ Feeds a t ∧ Feeds b t ∧ t.parents = [a, b] ∧
      randomMapSeed mix none a = randomMapSeed mix none b ∧ ∃ v, randomMapSeed mix none a = .ok v := by
  have e : ∀ z : DsNode, (z.withSeed s).over = DsNode.chain 1 (z.withSeed s) := fun _ => rfl
  refine ⟨_, _, DsNode.overAll [(x.withSeed s).over, (y.withSeed s).over], rfl, rfl, .parent _ _ (by simp),
    .parent _ _ (by simp), rfl, ?_, ?_⟩
  · rw [e, e, default_seed_last_seed_wins mix s 1 x (by omega), default_seed_last_seed_wins mix s 1 y (by omega)]
  · rw [e, default_seed_last_seed_wins mix s 1 x (by omega)]; exact ⟨_, rfl⟩

/-- Finding: the seeds of interleaved datasets do not reach the transformations after the interleave. -/
theorem default_seed_interleave_false (mix : List Nat → UInt32) (ts : List DsNode) :
    randomMapSeed mix none (DsNode.interleave ts).over = .error .valueError := by
  have : ¬ Seeded (DsNode.interleave ts).over := by
    rw [← aggregatedSeed_nil,
      default_seed_nearest _ 2 (by simp [DsNode.size, DsNode.sizes, DsNode.over, DsNode.interleave])]
    simp [List.range_succ, seedsAt, DsNode.over, DsNode.interleave]
  have := aggregatedSeed_nil.2 this
  simp [randomMapSeed, defaultSeed, this]

end Grain
