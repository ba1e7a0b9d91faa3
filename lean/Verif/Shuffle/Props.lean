import Verif.Shuffle.Lemmas
import Verif.ListUtil
import Mathlib.Tactic.Ring
/-
C02 (global shuffle), C03 (window shuffle), C52 (per-epoch seeds).

Finding: `index_shuffle` picks `ceil(log2(max_index))` bits, which cannot represent `max_index` itself when
`max_index` is a power of two.  Rounding up to an even number of bits and to at least 16 bits hides this
except for `max_index = 4^j`, `j ≥ 8`, i.e. for datasets of length `65537, 262145, 1048577, ...`.
-/
namespace Grain

/-- The lengths for which the block chosen by `index_shuffle` is one value too small. -/
def BadLength (length : Nat) : Prop := ∃ j, 8 ≤ j ∧ length = 4 ^ j + 1

private theorem ceilLog2_two_pow (k : Nat) : ceilLog2 (2 ^ k) = k := by
  unfold ceilLog2
  rcases k with _ | k
  · simp
  · have h1 : ¬ 2 ^ (k+1) ≤ 1 := by
      have : 2 ^ 1 ≤ 2 ^ (k+1) := Nat.pow_le_pow_right (by omega) (by omega)
      omega
    simp only [h1, if_false]
    have : Nat.log2 (2 ^ (k+1) - 1) = k := by
      have h2 : 2 ^ (k+1) = 2 * 2 ^ k := by rw [Nat.pow_succ]; omega
      have h3 : 0 < 2 ^ k := Nat.two_pow_pos k
      rw [Nat.log2_eq_iff (by omega)]
      omega
    omega

private theorem lt_block_of_not_bad {L : Nat} (hL : 0 < L) (h64 : L ≤ 2 ^ 64) (hb : ¬ BadLength L) :
    L - 1 < 2 ^ blockSize (L - 1) := by
  rcases Nat.lt_or_ge (L - 1) (2 ^ blockSize (L-1)) with h | h
  · exact h
  · exfalso
    have h' := le_two_pow_blockSize (L-1) (by omega)
    have heq : L - 1 = 2 ^ blockSize (L-1) := by omega
    have heven := blockSize_even (L-1)
    have h16 : 16 ≤ blockSize (L - 1) := by
      unfold blockSize; simp only; split <;> omega
    apply hb
    refine ⟨blockSize (L-1) / 2, by omega, ?_⟩
    have : (4 : Nat) ^ (blockSize (L-1) / 2) = 2 ^ blockSize (L-1) := by
      rw [show (4:Nat) = 2 ^ 2 by rfl, ← Nat.pow_mul, heven]
    omega

/-- C02: the C++ loop always terminates (within `2^block_size` iterations) on valid arguments. -/
theorem indexShuffle_terminates (i L : Nat) (keys : List (BitVec 32)) (hi : i < L) (h64 : L ≤ 2 ^ 64) :
    ∃ y, y < L ∧ indexShuffleFuel (2 ^ blockSize (L - 1)) i (L - 1) keys = some y ∧
      indexShuffle i (L - 1) keys = y := by
  unfold indexShuffle indexShuffleFuel
  by_cases h0 : L - 1 = 0
  · exact ⟨0, by omega, by simp [h0], by simp [h0]⟩
  · simp only [h0, if_false]
    have hlt : ∀ x, simonEncrypt (blockSize (L-1) / 2) x keys < 2 ^ blockSize (L-1) := by
      intro x
      have := simonEncrypt_lt (blockSize (L-1) / 2) x keys
      rwa [blockSize_even] at this
    rcases Nat.lt_or_ge (L - 1) (2 ^ blockSize (L-1)) with hlt' | hge
    · obtain ⟨y, hy⟩ := cycleWalk_terminates
        (fun v => simonEncrypt (blockSize (L-1) / 2) v keys) (L-1) (2 ^ blockSize (L-1))
        (fun x y hx hy h => simonEncrypt_inj _ keys (by rwa [blockSize_even]) (by rwa [blockSize_even]) h)
        hlt (x := i) (by omega) (by omega)
      refine ⟨y, ?_, hy, by rw [hy]; rfl⟩
      rw [cycleWalk_spec] at hy
      obtain ⟨_, _, _, h, _⟩ := hy
      omega
    · -- the block is not larger than the range: the first iterate is accepted
      have h1 := hlt i
      obtain ⟨n, hn⟩ : ∃ n, 2 ^ blockSize (L-1) = n + 1 :=
        ⟨2 ^ blockSize (L-1) - 1, by have := Nat.two_pow_pos (blockSize (L-1)); omega⟩
      have h2 : simonEncrypt (blockSize (L-1) / 2) i keys ≤ L - 1 := by omega
      refine ⟨simonEncrypt (blockSize (L-1) / 2) i keys, by omega, ?_, ?_⟩
      · rw [hn]; simp [cycleWalk, h2]
      · rw [hn]; simp [cycleWalk, h2]

/-- C02 at the C++ level: `i ↦ index_shuffle(i, max_index = L-1, …)` is a permutation of `0..L-1`,
for all round keys, hence for every seed and every even number of rounds; all lengths up to `2^64` except
`4^j + 1`, `j ≥ 8`.
Full statement: the same without `hb`; it is false, see `indexShuffle_bad_collision`. -/
theorem indexShuffle_perm_partial (L : Nat) (keys : List (BitVec 32)) (hL : 0 < L) (h64 : L ≤ 2 ^ 64)
    (hb : ¬ BadLength L) :
    ((List.range L).map (fun i => indexShuffle i (L - 1) keys)).Perm (List.range L) := by
  apply perm_of_inj_maps
  · intro i hi
    obtain ⟨y, hy, _, h⟩ := indexShuffle_terminates i L keys hi h64
    omega
  · intro i j hi hj h
    obtain ⟨y, _, hyi, hy⟩ := indexShuffle_terminates i L keys hi h64
    obtain ⟨z, _, hzj, hz⟩ := indexShuffle_terminates j L keys hj h64
    have hyz : y = z := by omega
    subst hyz
    unfold indexShuffleFuel at hyi hzj
    by_cases h0 : L - 1 = 0
    · omega
    · simp only [h0, if_false] at hyi hzj
      have hlt' := lt_block_of_not_bad hL h64 hb
      refine cycleWalk_inj (fun v => simonEncrypt (blockSize (L-1) / 2) v keys) (L-1) (2 ^ blockSize (L-1))
        (fun x y hx hy h => simonEncrypt_inj _ keys (by rwa [blockSize_even]) (by rwa [blockSize_even]) h)
        ?_ (by omega) (by omega) (by omega) (by omega) hyi hzj
      intro x
      have := simonEncrypt_lt (blockSize (L-1) / 2) x keys
      rwa [blockSize_even] at this

-- the hypotheses are met by lengths around the bad one
example : ¬ BadLength 65536 ∧ ¬ BadLength 65538 := by
  constructor <;>
  · rintro ⟨j, hj, h⟩
    rcases Nat.lt_or_ge j 9 with h9 | h9
    · have : j = 8 := by omega
      subst this; simp at h
    · have : 4 ^ 9 ≤ 4 ^ j := Nat.pow_le_pow_right (by omega) h9
      have e : (4:Nat) ^ 9 = 262144 := by decide
      omega

/-- C02 is false of the code: for every length `4^j + 1` with `8 ≤ j ≤ 31` and **all** round keys, positions
`0` and `4^j` of the shuffled dataset read the same element. -/
theorem indexShuffle_bad_collision (j : Nat) (hj : 8 ≤ j) (hj' : j ≤ 31) (keys : List (BitVec 32)) :
    indexShuffle (4 ^ j) (4 ^ j) keys = indexShuffle 0 (4 ^ j) keys := by
  have hpow : (4 : Nat) ^ j = 2 ^ (2 * j) := by
    rw [show (4:Nat) = 2 ^ 2 by rfl, ← Nat.pow_mul]
  have hb : blockSize (4 ^ j) = 2 * j := by
    unfold blockSize
    rw [hpow, ceilLog2_two_pow]
    simp only
    split <;> omega
  have h0 : (4 : Nat) ^ j ≠ 0 := by
    have := Nat.two_pow_pos (2 * j); omega
  unfold indexShuffle indexShuffleFuel
  simp only [h0, if_false, hb]
  have hW : 2 * j / 2 = j := by omega
  rw [hW]
  obtain ⟨n, hn⟩ : ∃ n, 2 ^ (2 * j) = n + 1 :=
    ⟨2 ^ (2 * j) - 1, by have := Nat.two_pow_pos (2 * j); omega⟩
  rw [hn]
  have henc : simonEncrypt j (4 ^ j) keys = simonEncrypt j 0 keys := by
    unfold simonEncrypt
    have e1 : BitVec.ofNat j (4 ^ j >>> j) = BitVec.ofNat j (0 >>> j) := by
      apply BitVec.eq_of_toNat_eq
      simp only [BitVec.toNat_ofNat, Nat.shiftRight_eq_div_pow, Nat.zero_div, Nat.zero_mod]
      rw [hpow, show 2 * j = j + j by omega, Nat.pow_add, Nat.mul_div_cancel _ (Nat.two_pow_pos j), Nat.mod_self]
    have e2 : BitVec.ofNat j (4 ^ j) = BitVec.ofNat j 0 := by
      apply BitVec.eq_of_toNat_eq
      simp only [BitVec.toNat_ofNat, Nat.zero_mod]
      rw [hpow, show 2 * j = j + j by omega, Nat.pow_add, Nat.mul_mod_left]
    rw [e1, e2]
  simp only [cycleWalk, henc]

/-- C02 is false of the code (consequence): a dataset of length 65537 is never shuffled into a permutation. -/
theorem indexShuffle_not_perm_65537 (keys : List (BitVec 32)) :
    ¬ ((List.range 65537).map (fun i => indexShuffle i 65536 keys)).Perm (List.range 65537) := by
  intro h
  have hnd := h.nodup_iff.mpr List.nodup_range
  have hinj := List.inj_on_of_nodup_map hnd
  have := hinj (x := 65536) (by simp) (y := 0) (by simp)
    (by simpa using indexShuffle_bad_collision 8 (by omega) (by omega) keys)
  omega

/-- C02 at the dataset level: in every epoch `e` (any integer), the indices that `ds.shuffle(seed)` requests
from its parent for output positions `e*L .. e*L+L-1` are exactly the parent's indices of that epoch, each
once; requesting never fails.
Full statement: the same without `hb`. -/
theorem shuffledIndex_epoch_perm_partial (keysOf : Nat → List (BitVec 32)) (seed L : Nat) (e : Int)
    (hL : 0 < L) (h64 : L ≤ 2 ^ 64) (hb : ¬ BadLength L) :
    ∃ idx : List Int,
      ((List.range L).mapM (fun i => shuffledIndex keysOf seed L (e * L + (i : Nat)))) = .ok idx ∧
      idx.Perm ((List.range L).map (fun i => e * L + ((i : Nat) : Int))) := by
  let ks := keysOf (((seed : Int) + e) % 2 ^ 32).toNat
  refine ⟨(List.range L).map (fun i => e * L + ((indexShuffle i (L-1) ks : Nat) : Int)), ?_, ?_⟩
  · have hne : L ≠ 0 := by omega
    have key : ∀ i : Nat, i < L → shuffledIndex keysOf seed L (e * L + (i : Nat)) =
        .ok (e * L + ((indexShuffle i (L-1) ks : Nat) : Int)) := by
      intro i hi
      unfold shuffledIndex
      simp only [hne, if_false]
      have hdiv : (e * (L : Int) + (i : Nat)) / (L : Int) = e := by
        rw [Int.add_comm, Int.add_mul_ediv_right _ _ (by omega)]
        have : ((i : Nat) : Int) / (L : Int) = 0 := Int.ediv_eq_zero_of_lt (by omega) (by omega)
        omega
      have hmod : (e * (L : Int) + (i : Nat)) % (L : Int) = i := by
        rw [Int.add_comm, Int.add_mul_emod_self_right]
        exact Int.emod_eq_of_lt (by omega) (by omega)
      rw [hdiv, hmod]
      simp only [Int.toNat_natCast, ks]
      congr 1; omega
    have : ∀ l : List Nat, (∀ i ∈ l, i < L) →
        l.mapM (fun i => shuffledIndex keysOf seed L (e * L + (i : Nat))) =
        .ok (l.map (fun i => e * L + ((indexShuffle i (L-1) ks : Nat) : Int))) := by
      intro l
      induction l with
      | nil => intro _; rfl
      | cons a l ih =>
        intro h
        rw [List.mapM_cons, key a (h a (by simp)), ih (fun i hi => h i (by simp [hi]))]
        rfl
    exact this _ (fun i hi => List.mem_range.mp hi)
  · have := indexShuffle_perm_partial L ks hL h64 hb
    have := this.map (fun i : Nat => e * (L : Int) + (i : Int))
    simpa [List.map_map, Function.comp_def] using this

/-- C02: shuffling an empty dataset raises instead of returning something. -/
theorem shuffledIndex_empty (keysOf) (seed : Nat) (i : Int) :
    shuffledIndex keysOf seed 0 i = .error .zeroDivision := rfl

/-! ### C52: per-epoch seeds -/

/-- The seed `ds.shuffle(seed)` uses in epoch `e` (shuffle.py:67). -/
def perEpochSeed (seed : Nat) (e : Int) : Int := ((seed : Int) + e) % 2 ^ 32

/-- C52: the per-epoch seed is a 32-bit number, and two epochs use the same seed only if their numbers are
congruent mod `2^32`; in particular the first `2^32` epochs all differ. -/
theorem perEpochSeed_range_inj (seed : Nat) (e e' : Int) :
    (0 ≤ perEpochSeed seed e ∧ perEpochSeed seed e < 2 ^ 32) ∧
    (0 ≤ e → 0 ≤ e' → e < 2 ^ 32 → e' < 2 ^ 32 → perEpochSeed seed e = perEpochSeed seed e' → e = e') := by
  unfold perEpochSeed
  refine ⟨⟨by omega, by omega⟩, by intros; omega⟩

/-- C52: this is the seed the shuffle uses: the shuffled index depends on `seed` and epoch through it only. -/
theorem shuffledIndex_uses_perEpochSeed (keysOf) (seed seed' L : Nat) (e : Int) (i : Nat) (hi : i < L)
    (h : perEpochSeed seed e = perEpochSeed seed' e) :
    shuffledIndex keysOf seed L (e * L + (i : Nat)) = shuffledIndex keysOf seed' L (e * L + (i : Nat)) := by
  unfold shuffledIndex
  have hne : L ≠ 0 := by omega
  simp only [hne, if_false]
  have hdiv : (e * (L : Int) + (i : Nat)) / (L : Int) = e := by
    rw [Int.add_comm, Int.add_mul_ediv_right _ _ (by omega)]
    have : ((i : Nat) : Int) / (L : Int) = 0 := Int.ediv_eq_zero_of_lt (by omega) (by omega)
    omega
  rw [hdiv]
  unfold perEpochSeed at h
  rw [h]

example : perEpochSeed 4294967295 1 = 0 := by decide

/-! ### C03: window shuffle -/

/-- C03 (inside a window): for a window fully described by its number `q`, the requested parent indices are
exactly the window's indices, each once.
Full statement: the same without `hb` and for windows whose seed exceeds 32 bits (the code raises there). -/
theorem windowShuffle_window_perm_partial (keysOf : Nat → List (BitVec 32)) (seed w : Nat) (q : Int)
    (hw : 0 < w) (h64 : w ≤ 2 ^ 64) (hb : ¬ BadLength w)
    (hs : 0 ≤ (seed : Int) + q) (hs' : (seed : Int) + q < 2 ^ 32) :
    ∃ idx : List Int,
      ((List.range w).mapM (fun i => windowShuffledIndex keysOf seed w (q * w + (i : Nat)))) = .ok idx ∧
      idx.Perm ((List.range w).map (fun i => q * w + ((i : Nat) : Int))) := by
  let ks := keysOf ((seed : Int) + q).toNat
  refine ⟨(List.range w).map (fun i => q * w + ((indexShuffle i (w-1) ks : Nat) : Int)), ?_, ?_⟩
  · have hne : w ≠ 0 := by omega
    have key : ∀ i : Nat, i < w → windowShuffledIndex keysOf seed w (q * w + (i : Nat)) =
        .ok (q * w + ((indexShuffle i (w-1) ks : Nat) : Int)) := by
      intro i hi
      unfold windowShuffledIndex
      simp only [hne, if_false]
      have hdiv : (q * (w : Int) + (i : Nat)) / (w : Int) = q := by
        rw [Int.add_comm, Int.add_mul_ediv_right _ _ (by omega)]
        have : ((i : Nat) : Int) / (w : Int) = 0 := Int.ediv_eq_zero_of_lt (by omega) (by omega)
        omega
      have hmod : (q * (w : Int) + (i : Nat)) % (w : Int) = i := by
        rw [Int.add_comm, Int.add_mul_emod_self_right]
        exact Int.emod_eq_of_lt (by omega) (by omega)
      rw [hdiv, hmod, if_neg (by omega)]
      simp only [Int.toNat_natCast, ks]
      congr 1; omega
    have : ∀ l : List Nat, (∀ i ∈ l, i < w) →
        l.mapM (fun i => windowShuffledIndex keysOf seed w (q * w + (i : Nat))) =
        .ok (l.map (fun i => q * w + ((indexShuffle i (w-1) ks : Nat) : Int))) := by
      intro l
      induction l with
      | nil => intro _; rfl
      | cons a l ih =>
        intro h
        rw [List.mapM_cons, key a (h a (by simp)), ih (fun i hi => h i (by simp [hi]))]
        rfl
    exact this _ (fun i hi => List.mem_range.mp hi)
  · have := indexShuffle_perm_partial w ks hw h64 hb
    have := this.map (fun i : Nat => q * (w : Int) + (i : Int))
    simpa [List.map_map, Function.comp_def] using this

/-- C03 is false of the code when the window does not divide the length: whenever the window permutation
moves some position `i` upwards, a dataset of length `i + 1` (shorter than the window) has an epoch position
that reads past the epoch. -/
theorem windowShuffle_leaves_epoch (keysOf : Nat → List (BitVec 32)) (seed w i : Nat)
    (hi : i < w) (hs : seed < 2 ^ 32)
    (hmove : i < indexShuffle i (w - 1) (keysOf seed)) :
    ∃ j : Int, windowShuffledIndex keysOf seed w (i : Nat) = .ok j ∧ ((i + 1 : Nat) : Int) ≤ j := by
  refine ⟨(indexShuffle i (w-1) (keysOf seed) : Nat), ?_, by omega⟩
  unfold windowShuffledIndex
  have hne : w ≠ 0 := by omega
  simp only [hne, if_false]
  have hdiv : ((i : Nat) : Int) / (w : Int) = 0 := Int.ediv_eq_zero_of_lt (by omega) (by omega)
  have hmod : ((i : Nat) : Int) % (w : Int) = i := Int.emod_eq_of_lt (by omega) (by omega)
  rw [hdiv, hmod, if_neg (by omega)]
  simp

-- a concrete case meeting the hypotheses: window 2, dataset of length 1, round keys [0,1,4,0]
example : 0 < indexShuffle 0 (2 - 1) [0#32, 1#32, 4#32, 0#32] := by
  have h : indexShuffleFuel 1 0 1 [0#32, 1#32, 4#32, 0#32] = some 1 := by decide
  have h2 : cycleWalk (fun v => simonEncrypt (blockSize 1 / 2) v [0#32, 1#32, 4#32, 0#32]) 1
      (2 ^ blockSize 1) 0 = some 1 := by
    unfold indexShuffleFuel at h
    simp only [Nat.one_ne_zero, if_false] at h
    rw [cycleWalk_spec] at h ⊢
    obtain ⟨k, hk, h⟩ := h
    exact ⟨k, Nat.lt_of_lt_of_le hk Nat.one_le_two_pow, h⟩
  unfold indexShuffle indexShuffleFuel
  rw [show (2 - 1 : Nat) = 1 from rfl, if_neg (by omega), h2]
  decide

/-- C03: every index is mapped into its own window (any length, any window size up to `2^64`), as long as
the window seed fits 32 bits (otherwise the binding raises). -/
theorem windowShuffle_stays_in_window (keysOf : Nat → List (BitVec 32)) (seed w : Nat) (x : Int)
    (hw : 0 < w) (h64 : w ≤ 2 ^ 64)
    (hs : 0 ≤ (seed : Int) + x / w) (hs' : (seed : Int) + x / w < 2 ^ 32) :
    ∃ y, windowShuffledIndex keysOf seed w x = .ok y ∧ y / (w : Int) = x / (w : Int) := by
  unfold windowShuffledIndex
  have hne : w ≠ 0 := by omega
  simp only [hne, if_false]
  rw [if_neg (by omega)]
  refine ⟨_, rfl, ?_⟩
  have hm0 : 0 ≤ x % (w : Int) := Int.emod_nonneg _ (by omega)
  have hm1 : x % (w : Int) < w := Int.emod_lt_of_pos _ (by omega)
  obtain ⟨y, hy, _, h⟩ := indexShuffle_terminates (x % (w : Int)).toNat w
    (keysOf ((seed : Int) + x / w).toNat) (by omega) h64
  rw [h, Int.add_mul_ediv_right _ _ (by omega)]
  have : ((y : Nat) : Int) / (w : Int) = 0 := Int.ediv_eq_zero_of_lt (by omega) (by omega)
  omega

example : 0 ≤ ((7 : Nat) : Int) + (-3) / (2 : Nat) ∧ ((7 : Nat) : Int) + (-3) / (2 : Nat) < 2 ^ 32 := by decide

/-- C03 over a whole epoch, when the window size divides the length (`L = m * w`): the parent indices
requested for output positions `e*L .. e*L+L-1` are exactly these positions, each once.
Full statement: the same for every length `L`; false, see `windowShuffle_leaves_epoch`. -/
theorem windowShuffle_epoch_perm_partial (keysOf : Nat → List (BitVec 32)) (seed w m : Nat) (e : Int)
    (hw : 0 < w) (h64 : w ≤ 2 ^ 64) (hb : ¬ BadLength w)
    (hs : 0 ≤ (seed : Int) + e * m) (hs' : (seed : Int) + e * m + m ≤ 2 ^ 32) :
    ∃ idx : List Int,
      ((List.range (m * w)).mapM
        (fun i => windowShuffledIndex keysOf seed w (e * (m * w : Nat) + (i : Nat)))) = .ok idx ∧
      idx.Perm ((List.range (m * w)).map (fun i => e * ((m * w : Nat) : Int) + ((i : Nat) : Int))) := by
  have key : ∀ n, n ≤ m → ∃ idx : List Int,
      ((List.range (n * w)).mapM
        (fun i => windowShuffledIndex keysOf seed w (e * (m * w : Nat) + (i : Nat)))) = .ok idx ∧
      idx.Perm ((List.range (n * w)).map (fun i => e * ((m * w : Nat) : Int) + ((i : Nat) : Int))) := by
    intro n
    induction n with
    | zero => intro _; exact ⟨[], by simp; rfl, by simp⟩
    | succ n ih =>
      intro hn
      obtain ⟨idx, h1, h2⟩ := ih (by omega)
      obtain ⟨idx', h1', h2'⟩ := windowShuffle_window_perm_partial keysOf seed w (e * m + n) hw h64 hb
        (by omega) (by omega)
      have harith : ∀ i : Nat, e * ((m * w : Nat) : Int) + ((n * w + i : Nat) : Int) = (e * m + n) * w + (i : Nat) := by
        intro i; push_cast; ring
      refine ⟨idx ++ idx', ?_, ?_⟩
      · rw [Nat.succ_mul, List.range_add, List.mapM_append, h1, List.mapM_map]
        simp only [Function.comp_def, harith]
        rw [h1']; rfl
      · rw [Nat.succ_mul, List.range_add, List.map_append]
        refine h2.append ?_
        rw [List.map_map]
        simp only [Function.comp_def, harith]
        exact h2'
  exact key m (Nat.le_refl m)

example : (¬ BadLength 4) ∧ 0 ≤ ((42 : Nat) : Int) + 1 * (3 : Nat) ∧ ((42 : Nat) : Int) + 1 * (3 : Nat) + (3 : Nat) ≤ 2 ^ 32 := by
  refine ⟨?_, by decide, by decide⟩
  rintro ⟨j, hj, h⟩
  have : 4 ^ 8 ≤ 4 ^ j := Nat.pow_le_pow_right (by omega) hj
  omega

end Grain
