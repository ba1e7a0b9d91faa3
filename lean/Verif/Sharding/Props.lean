import Verif.Sharding.Lemmas
/-
C01: `even_split` partitions the records.
-/
namespace Grain

/-- Specification vocabulary: the record numbers of a half open interval `[s, e)`. -/
def interval (p : Nat × Nat) : List Nat := List.range' p.1 (p.2 - p.1)

/-- C01 (validation): options are accepted exactly for `0 ≤ index < count`, with these values. -/
theorem shardOptions_make_iff (i c : Int) (d : Bool) (o : ShardOptions) :
    ShardOptions.make i c d = .ok o ↔
      0 ≤ i ∧ i < c ∧ o = ⟨i.toNat, c.toNat, d⟩ := by
  unfold ShardOptions.make
  split
  · simp; omega
  · split
    · simp; omega
    · simp only [Except.ok.injEq]
      constructor
      · rintro rfl; exact ⟨by omega, by omega, rfl⟩
      · rintro ⟨_, _, rfl⟩; rfl

example : ShardOptions.make 2 4 true = .ok ⟨2, 4, true⟩ := by decide
example : ShardOptions.make 4 4 true = .error .valueError := by decide

/-- C01: without sharding every record is read. -/
theorem noSharding_reads_all (n : Nat) : interval (evenSplit n noSharding) = List.range n ∧
    ShardOptions.make 0 1 false = .ok noSharding := by
  refine ⟨?_, rfl⟩
  simp [evenSplit, noSharding, interval, Nat.mod_one, List.range_eq_range']

/-- C01 (keep remainder): reading the shards one after the other reads every record exactly once,
in order. -/
theorem evenSplit_partition (n c : Nat) (hc : 0 < c) :
    (List.range c).flatMap (fun i => interval (evenSplit n ⟨i, c, false⟩)) = List.range n := by
  simp only [evenSplit_eq, interval]
  rw [flatten_ranges (fun i => shardBound n c i false) (shardBound_zero ..) (fun i => shardBound_mono ..),
    shardBound_last _ _ hc]

/-- C01 (drop remainder): the shards together are the first `n / c * c` records, in order. -/
theorem evenSplit_partition_drop (n c : Nat) :
    (List.range c).flatMap (fun i => interval (evenSplit n ⟨i, c, true⟩)) = List.range (n / c * c) := by
  simp only [evenSplit_eq, interval]
  rw [flatten_ranges (fun i => shardBound n c i true) (shardBound_zero ..) (fun i => shardBound_mono ..),
    shardBound_last_drop]

/-- C01: with `drop_remainder=True` every shard has exactly `n / c` records, so fewer than `c` records are
dropped overall. -/
theorem evenSplit_size_drop (n c i : Nat) (hc : 0 < c) :
    (interval (evenSplit n ⟨i, c, true⟩)).length = n / c ∧ n - n / c * c < c := by
  refine ⟨?_, ?_⟩
  · simp only [evenSplit_eq, interval, List.length_range', shardBound, if_true]
    rw [Nat.mul_add]; omega
  · have h2 := Nat.div_add_mod n c
    rw [Nat.mul_comm] at h2
    have h1 : n % c < c := Nat.mod_lt _ hc
    omega

/-- C01: with `drop_remainder=False` exactly the first `n % c` shards have one record more than the others. -/
theorem evenSplit_size (n c i : Nat) (_hi : i < c) :
    (interval (evenSplit n ⟨i, c, false⟩)).length = n / c + (if i < n % c then 1 else 0) := by
  simp only [evenSplit_eq, interval, List.length_range', shardBound, Bool.false_eq_true, if_false]
  rw [Nat.mul_add]; split <;> omega

/-- C01: every interval is inside `[0, n]` and intervals of consecutive shards are adjacent. -/
theorem evenSplit_bounds (n c i : Nat) (d : Bool) (hi : i < c) :
    (evenSplit n ⟨i, c, d⟩).1 ≤ (evenSplit n ⟨i, c, d⟩).2 ∧ (evenSplit n ⟨i, c, d⟩).2 ≤ n ∧
    (evenSplit n ⟨i+1, c, d⟩).1 = (evenSplit n ⟨i, c, d⟩).2 := by
  simp only [evenSplit_eq]
  refine ⟨shardBound_mono .., ?_, trivial⟩
  have key : ∀ k, shardBound n c (i+1) d ≤ shardBound n c (i+1+k) d := by
    intro k
    induction k with
    | zero => exact Nat.le_refl _
    | succ k ih => exact Nat.le_trans ih (shardBound_mono ..)
  have := key (c - (i+1))
  rw [show i + 1 + (c - (i+1)) = c by omega] at this
  refine Nat.le_trans this ?_
  cases d
  · rw [shardBound_last _ _ (by omega)]; exact Nat.le_refl _
  · rw [shardBound_last_drop]; exact Nat.div_mul_le_self n c

-- a concrete uneven split
example : (List.range 4).map (fun i => evenSplit 10 ⟨i, 4, false⟩) = [(0,3),(3,6),(6,8),(8,10)] := by decide
example : (List.range 4).map (fun i => evenSplit 10 ⟨i, 4, true⟩) = [(0,2),(2,4),(4,6),(6,8)] := by decide

end Grain
