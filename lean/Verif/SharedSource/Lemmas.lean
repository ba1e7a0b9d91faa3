import Verif.SharedSource.Model
import Verif.Sources.Lemmas
import Mathlib.Tactic.Ring
/-
Lemmas for C94.
-/
namespace Grain

/-! ### Bytes -/

theorem rstrip0_zeros (b : List UInt8) (k : Nat) : rstrip0 (b ++ List.replicate k 0) = rstrip0 b := by
  unfold rstrip0
  rw [List.reverse_append, List.reverse_replicate]
  congr 1
  induction k with
  | zero => rfl
  | succ k ih => rw [List.replicate_succ, List.cons_append, List.dropWhile_cons]; simpa using ih

theorem rstrip0_eq {b : List UInt8} : rstrip0 b = b ↔ b.getLast? ≠ some 0 := by
  unfold rstrip0
  rw [← List.head?_reverse]
  constructor
  · intro h hh
    have hl : (b.reverse.dropWhile (· == 0)) = b.reverse := by rw [← List.reverse_inj]; simpa using h
    cases hb : b.reverse with
    | nil => rw [hb] at hh; cases hh
    | cons x t =>
      rw [hb] at hh hl
      simp only [List.head?_cons, Option.some.injEq] at hh
      rw [List.dropWhile_cons, hh] at hl
      simp only [beq_self_eq_true, if_true] at hl
      have := congrArg List.length hl
      have h2 := (List.dropWhile_sublist (· == (0 : UInt8)) (l := t)).length_le
      simp only [List.length_cons] at this
      omega
  · intro h
    rw [← List.reverse_inj, List.reverse_reverse]
    cases hb : b.reverse with
    | nil => rfl
    | cons x t =>
      rw [hb] at h
      simp only [List.head?_cons, ne_eq, Option.some.injEq] at h
      rw [List.dropWhile_cons]
      simp [h]

theorem unpackQ_packQ {n : Int} (h : -9223372036854775808 ≤ n ∧ n < 9223372036854775808) : unpackQ (leBytes 8 (n % 18446744073709551616).toNat) = n := by
  unfold unpackQ
  rw [leNat_leBytes]
  have h1 : (256 : Nat) ^ 8 = 18446744073709551616 := by norm_num
  rw [h1]
  split <;> omega

theorem utf8Dec_utf8Enc (s : List Char) : utf8Dec (utf8Enc s) = .ok s := by
  have h := List.utf8Decode?_utf8Encode (l := s)
  unfold utf8Dec utf8Enc
  unfold List.utf8Encode at h
  rw [h]

theorem utf8Enc_of_utf8Dec {b : List UInt8} {s : List Char} (h : utf8Dec b = .ok s) : utf8Enc s = b := by
  unfold utf8Dec at h
  split at h
  case h_2 => cases h
  case h_1 t ht =>
    cases h
    have := ByteArray.utf8Encode_get_utf8Decode? (b := b.toByteArray) (h := by rw [ht]; rfl)
    simp only [ht, Option.get_some] at this
    exact List.toByteArray_inj.1 this

theorem utf8Enc_length (s : List Char) : (utf8Enc s).length = utf8Size s := by
  induction s with
  | nil => rfl
  | cons c s ih =>
    simp only [utf8Enc, utf8Size, List.flatMap_cons, List.length_append, List.map_cons, List.sum_cons] at ih ⊢
    rw [ih, String.length_utf8EncodeChar]

theorem utf8EncodeChar_getLast (c : Char) : (String.utf8EncodeChar c).getLast? = some 0 ↔ c = Char.ofNat 0 := by
  have hv := c.valid
  rw [String.utf8EncodeChar.eq_1]
  have hz : c = Char.ofNat 0 ↔ c.val.toNat = 0 := by
    constructor
    · rintro rfl; rfl
    · intro h
      apply Char.ext
      apply UInt32.toNat_inj.1
      rw [h]; rfl
  rw [hz]
  have key : ∀ k : Nat, k < 256 → (UInt8.ofNat k = 0 ↔ k = 0) := by
    intro k hk
    rw [← UInt8.toNat_inj, UInt8.toNat_ofNat']
    simp only [UInt8.toNat_zero]
    omega
  split
  · simp only [List.getLast?_singleton, Option.some.injEq]; exact key _ (by omega)
  · split
    · simp only [List.getLast?_cons_cons, List.getLast?_singleton, Option.some.injEq]; rw [key _ (by omega)]; omega
    · split <;>
      · simp only [List.getLast?_cons_cons, List.getLast?_singleton, Option.some.injEq]; rw [key _ (by omega)]; omega

theorem utf8Enc_getLast (s : List Char) : (utf8Enc s).getLast? = some 0 ↔ s.getLast? = some (Char.ofNat 0) := by
  rcases List.eq_nil_or_concat s with rfl | ⟨t, c, rfl⟩
  · simp [utf8Enc]
  · simp only [utf8Enc, List.concat_eq_append, List.flatMap_append, List.flatMap_cons, List.flatMap_nil, List.append_nil]
    rw [List.getLast?_append_of_ne_nil _ String.utf8EncodeChar_ne_nil, utf8EncodeChar_getLast]
    simp

end Grain
