import Verif.Sharding.Model
namespace Grain

/-- Start of shard `i`, extended to `i = count` (end of the last shard). -/
def shardBound (n c i : Nat) (drop : Bool) : Nat :=
  if drop then n / c * i else n / c * i + min i (n % c)

theorem evenSplit_eq (n : Nat) (o : ShardOptions) :
    evenSplit n o = (shardBound n o.shardCount o.shardIndex o.dropRemainder,
                     shardBound n o.shardCount (o.shardIndex + 1) o.dropRemainder) := by
  unfold evenSplit shardBound
  by_cases h : n % o.shardCount > 0
  · cases hd : o.dropRemainder <;> simp [h]
  · have h0 : n % o.shardCount = 0 := by omega
    cases hd : o.dropRemainder <;> simp [h0]

theorem shardBound_mono (n c i : Nat) (drop : Bool) :
    shardBound n c i drop ≤ shardBound n c (i+1) drop := by
  unfold shardBound
  split
  · exact Nat.mul_le_mul_left _ (Nat.le_succ i)
  · rw [Nat.mul_add]; omega

theorem shardBound_zero (n c : Nat) (drop : Bool) : shardBound n c 0 drop = 0 := by
  unfold shardBound; split <;> simp

theorem shardBound_last (n c : Nat) (hc : 0 < c) : shardBound n c c false = n := by
  unfold shardBound
  have h1 : n % c < c := Nat.mod_lt _ hc
  have h2 := Nat.div_add_mod n c
  rw [Nat.mul_comm] at h2
  simp only [Bool.false_eq_true, if_false]
  omega

theorem shardBound_last_drop (n c : Nat) : shardBound n c c true = n / c * c := by
  simp [shardBound]

theorem flatten_ranges (b : Nat → Nat) (hb0 : b 0 = 0) (hb : ∀ i, b i ≤ b (i+1)) (c : Nat) :
    (List.range c).flatMap (fun i => List.range' (b i) (b (i+1) - b i)) = List.range (b c) := by
  induction c with
  | zero => simp [hb0]
  | succ c ih =>
    rw [List.range_succ, List.flatMap_append, ih]
    simp only [List.flatMap_cons, List.flatMap_nil, List.append_nil]
    rw [List.range_eq_range', List.range_eq_range']
    have := hb c
    rw [show b (c+1) = b c + (b (c+1) - b c) by omega, ← List.range'_append_1]
    simp

end Grain
