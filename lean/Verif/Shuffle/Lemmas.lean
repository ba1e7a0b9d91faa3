import Verif.Shuffle.Model
import Mathlib.Data.Fintype.Pigeonhole
import Mathlib.Data.List.Perm.Subperm
namespace Grain

/-! ### The cipher is a bijection on a block -/

theorem simonRx2_injective {W} (k1 k2 : BitVec 32) :
    Function.Injective (fun s : BitVec W × BitVec W => simonRx2 s k1 k2) := by
  rintro ⟨l, r⟩ ⟨l', r'⟩ h
  simp only [simonRx2, Prod.mk.injEq] at h
  obtain ⟨h1, h2⟩ := h
  rw [h1] at h2
  have h3 := (BitVec.xor_left_inj _).mp ((BitVec.xor_left_inj _).mp h2)
  rw [h3] at h1
  have h4 := (BitVec.xor_left_inj _).mp ((BitVec.xor_left_inj _).mp h1)
  rw [h3, h4]

theorem simonRounds_injective {W} : ∀ keys, Function.Injective (simonRounds (W := W) keys)
  | [] => fun _ _ h => by simpa [simonRounds] using h
  | [_] => fun _ _ h => by simpa [simonRounds] using h
  | k1 :: k2 :: ks => fun a b h => by
      simp only [simonRounds] at h
      exact simonRx2_injective k1 k2 (simonRounds_injective ks h)

theorem join_eq {W : Nat} (a b : BitVec W) : (a.toNat <<< W) ||| b.toNat = 2 ^ W * a.toNat + b.toNat := by
  rw [Nat.shiftLeft_eq, Nat.mul_comm, Nat.two_pow_add_eq_or_of_lt b.isLt]

theorem simonEncrypt_lt (W v : Nat) (keys) : simonEncrypt W v keys < 2 ^ (2 * W) := by
  unfold simonEncrypt
  simp only [join_eq]
  generalize simonRounds keys _ = s
  have h1 := s.1.isLt
  have h2 := s.2.isLt
  rw [show 2 * W = W + W by omega, Nat.pow_add]
  calc 2 ^ W * s.1.toNat + s.2.toNat < 2 ^ W * s.1.toNat + 2 ^ W := by omega
    _ = 2 ^ W * (s.1.toNat + 1) := by rw [Nat.mul_add, Nat.mul_one]
    _ ≤ 2 ^ W * 2 ^ W := Nat.mul_le_mul_left _ h1

theorem simonEncrypt_inj (W : Nat) (keys) {v w : Nat} (hv : v < 2 ^ (2 * W)) (hw : w < 2 ^ (2 * W))
    (h : simonEncrypt W v keys = simonEncrypt W w keys) : v = w := by
  unfold simonEncrypt at h
  simp only [join_eq] at h
  have key : simonRounds (W := W) keys (BitVec.ofNat W (v >>> W), BitVec.ofNat W v) =
      simonRounds keys (BitVec.ofNat W (w >>> W), BitVec.ofNat W w) := by
    generalize simonRounds (W := W) keys _ = s at h ⊢
    generalize simonRounds (W := W) keys _ = t at h ⊢
    have h1 := s.2.isLt
    have h2 := t.2.isLt
    have e2 : s.2.toNat = t.2.toNat := by
      have := congrArg (· % 2 ^ W) h
      simpa [Nat.mul_add_mod, Nat.mod_eq_of_lt h1, Nat.mod_eq_of_lt h2] using this
    have e1 : s.1.toNat = t.1.toNat := by
      rw [e2] at h
      exact Nat.eq_of_mul_eq_mul_left (Nat.two_pow_pos W) (by omega)
    exact Prod.ext (BitVec.eq_of_toNat_eq e1) (BitVec.eq_of_toNat_eq e2)
  have key2 := simonRounds_injective keys key
  simp only [Prod.mk.injEq] at key2
  obtain ⟨ka, kb⟩ := key2
  have ka := congrArg BitVec.toNat ka
  have kb := congrArg BitVec.toNat kb
  simp only [BitVec.toNat_ofNat, Nat.shiftRight_eq_div_pow] at ka kb
  rw [show 2 * W = W + W by omega, Nat.pow_add] at hv hw
  have d1 : v / 2 ^ W < 2 ^ W := Nat.div_lt_of_lt_mul hv
  have d2 : w / 2 ^ W < 2 ^ W := Nat.div_lt_of_lt_mul hw
  rw [Nat.mod_eq_of_lt d1, Nat.mod_eq_of_lt d2] at ka
  rw [← Nat.div_add_mod v (2 ^ W), ← Nat.div_add_mod w (2 ^ W), ka, kb]

/-! ### Cycle walking -/

section walk
variable (enc : Nat → Nat) (M N : Nat)

/-- `cycleWalk` returns the first iterate (at least one step) that is `≤ M`. -/
theorem cycleWalk_spec : ∀ fuel x y, cycleWalk enc M fuel x = some y ↔
    ∃ k, k < fuel ∧ y = enc^[k + 1] x ∧ y ≤ M ∧ ∀ j, j < k → M < enc^[j + 1] x := by
  intro fuel
  induction fuel with
  | zero => intro x y; simp [cycleWalk]
  | succ fuel ih =>
    intro x y
    simp only [cycleWalk]
    split
    · rename_i hle
      constructor
      · rintro h; cases h
        exact ⟨0, by omega, rfl, hle, by intro j hj; omega⟩
      · rintro ⟨k, _, rfl, _, hk⟩
        rcases Nat.eq_zero_or_pos k with rfl | hpos
        · rfl
        · have := hk 0 hpos
          simp at this; omega
    · rename_i hgt
      rw [ih]
      constructor
      · rintro ⟨k, hk, hy, hyM, hall⟩
        refine ⟨k + 1, by omega, by simpa using hy, hyM, ?_⟩
        intro j hj
        rcases j with _ | j
        · simp; omega
        · simpa using hall j (by omega)
      · rintro ⟨k, hk, hy, hyM, hall⟩
        rcases k with _ | k
        · simp at hy; omega
        · exact ⟨k, by omega, by simpa using hy, hyM, fun j hj => by simpa using hall (j+1) (by omega)⟩

variable (hinj : ∀ x y, x < N → y < N → enc x = enc y → x = y) (hlt : ∀ x, enc x < N)

include hlt in
theorem iter_lt {x : Nat} (hx : x < N) : ∀ k, enc^[k] x < N
  | 0 => hx
  | k + 1 => by rw [Function.iterate_succ_apply']; exact hlt _

include hinj hlt in
theorem iter_inj {x y : Nat} (hx : x < N) (hy : y < N) : ∀ k, enc^[k] x = enc^[k] y → x = y
  | 0, h => h
  | k + 1, h => by
    rw [Function.iterate_succ_apply', Function.iterate_succ_apply'] at h
    exact iter_inj hx hy k (hinj _ _ (iter_lt enc N hlt hx k) (iter_lt enc N hlt hy k) h)

include hinj hlt in
/-- Every element comes back to itself within `N` steps. -/
theorem exists_return {x : Nat} (hx : x < N) : ∃ k, k < N ∧ enc^[k + 1] x = x := by
  have hcard : (Finset.range N).card < (Finset.range (N + 1)).card := by simp
  obtain ⟨i, hi, j, hj, hne, heq⟩ := Finset.exists_ne_map_eq_of_card_lt_of_maps_to hcard
    (f := fun k => enc^[k] x) (fun k _ => by simpa using iter_lt enc N hlt hx k)
  simp only [Finset.mem_range] at hi hj
  have aux : ∀ a b, a < b → b < N + 1 → enc^[a] x = enc^[b] x → ∃ k, k < N ∧ enc^[k+1] x = x := by
    intro a b hab hb he
    refine ⟨b - a - 1, by omega, ?_⟩
    rw [show b - a - 1 + 1 = b - a by omega]
    rw [show b = a + (b - a) by omega, Function.iterate_add_apply] at he
    exact (iter_inj enc N hinj hlt hx (iter_lt enc N hlt hx _) a he).symm
  rcases Nat.lt_or_gt_of_ne hne with h | h
  · exact aux i j h hj heq
  · exact aux j i h hi heq.symm

include hinj hlt in
theorem cycleWalk_terminates {x : Nat} (hx : x < N) (hxM : x ≤ M) :
    ∃ y, cycleWalk enc M N x = some y := by
  obtain ⟨k, hk, he⟩ := exists_return enc N hinj hlt hx
  -- least index with value ≤ M
  have hex : ∃ k, k < N ∧ enc^[k+1] x ≤ M := ⟨k, hk, by rw [he]; exact hxM⟩
  classical
  have hmin := Nat.find_spec hex
  refine ⟨enc^[Nat.find hex + 1] x, ?_⟩
  rw [cycleWalk_spec]
  refine ⟨Nat.find hex, hmin.1, rfl, hmin.2, ?_⟩
  intro j hj
  have := Nat.find_min hex hj
  simp only [not_and, not_le] at this
  exact this (by omega)

include hinj hlt in
theorem cycleWalk_inj {x x' y : Nat} {f f' : Nat} (hx : x < N) (hx' : x' < N) (hxM : x ≤ M) (hxM' : x' ≤ M)
    (h : cycleWalk enc M f x = some y) (h' : cycleWalk enc M f' x' = some y) : x = x' := by
  rw [cycleWalk_spec] at h h'
  obtain ⟨a, _, ha, _, hall⟩ := h
  obtain ⟨b, _, hb, _, hall'⟩ := h'
  have aux : ∀ {x x' : Nat} {a b : Nat}, x < N → x' < N → x ≤ M → a ≤ b → enc^[a+1] x = enc^[b+1] x' →
      (∀ j, j < b → M < enc^[j+1] x') → x = x' := by
    intro x x' a b hx hx' hxM hab he hall'
    have hxe : x = enc^[b - a] x' := by
      rw [show b + 1 = (a + 1) + (b - a) by omega, Function.iterate_add_apply _ (a+1) (b-a)] at he
      exact iter_inj enc N hinj hlt hx (iter_lt enc N hlt hx' _) (a+1) he
    rcases Nat.eq_or_lt_of_le hab with rfl | hlt'
    · simpa using hxe
    · have := hall' (b - a - 1) (by omega)
      rw [show b - a - 1 + 1 = b - a by omega, ← hxe] at this
      omega
  rcases Nat.le_total a b with hab | hab
  · exact aux hx hx' hxM hab (ha ▸ hb) hall'
  · exact (aux hx' hx hxM' hab (hb ▸ ha) hall).symm

end walk

/-! ### Block size -/

theorem le_two_pow_ceilLog2 (n : Nat) : n ≤ 2 ^ ceilLog2 n := by
  unfold ceilLog2
  split
  · simpa using ‹n ≤ 1›
  · have : n - 1 < 2 ^ (Nat.log2 (n-1) + 1) := Nat.lt_log2_self
    omega

theorem blockSize_even (m : Nat) : 2 * (blockSize m / 2) = blockSize m := by
  unfold blockSize
  simp only
  split <;> omega

theorem blockSize_le (m : Nat) : blockSize m ≤ 64 := by
  unfold blockSize; simp only; split <;> omega

theorem le_two_pow_blockSize (m : Nat) (hm : m < 2 ^ 64) : m ≤ 2 ^ blockSize m := by
  have h0 := le_two_pow_ceilLog2 m
  unfold blockSize
  simp only
  split
  · exact Nat.le_trans h0 (Nat.pow_le_pow_right (by omega) (by omega))
  · omega

theorem perm_of_inj_maps {n : Nat} (f : Nat → Nat) (hlt : ∀ i, i < n → f i < n)
    (hinj : ∀ i j, i < n → j < n → f i = f j → i = j) :
    ((List.range n).map f).Perm (List.range n) := by
  have hnd : ((List.range n).map f).Nodup := by
    apply List.Nodup.map_on _ List.nodup_range
    intro x hx y hy h
    exact hinj x y (List.mem_range.mp hx) (List.mem_range.mp hy) h
  have hsub : ((List.range n).map f) ⊆ List.range n := by
    intro x hx
    obtain ⟨i, hi, rfl⟩ := List.mem_map.mp hx
    exact List.mem_range.mpr (hlt i (List.mem_range.mp hi))
  exact (List.subperm_of_subset hnd hsub).perm_of_length_le (by simp)

end Grain
