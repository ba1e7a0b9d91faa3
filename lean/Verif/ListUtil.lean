/- General list and integer lemmas used by several groups. -/
namespace Grain

/-- Counting `m` rows of `w` cells counts `m * w` cells. -/
theorem range_mul (m w : Nat) :
    List.range (m * w) = (List.range m).flatMap (fun q => (List.range w).map (fun i => q * w + i)) := by
  induction m with
  | zero => simp
  | succ m ih =>
    rw [List.range_succ, List.flatMap_append, ← ih, Nat.succ_mul, List.range_add]
    simp

theorem mapM_ok_of_forall {f : α → Except ε β} {g : α → β} (l : List α) (h : ∀ a ∈ l, f a = .ok (g a)) :
    l.mapM f = .ok (l.map g) := by
  induction l with
  | nil => rfl
  | cons a l ih =>
    rw [List.mapM_cons, h a (by simp), ih (fun b hb => h b (by simp [hb]))]
    rfl

theorem ediv_mul_add (e : Int) (L i : Nat) (hi : i < L) : (e * (L : Int) + (i : Nat)) / (L : Int) = e := by
  rw [Int.add_comm, Int.add_mul_ediv_right _ _ (by omega)]
  have : ((i : Nat) : Int) / (L : Int) = 0 := Int.ediv_eq_zero_of_lt (by omega) (by omega)
  omega

theorem emod_mul_add (e : Int) (L i : Nat) (hi : i < L) : (e * (L : Int) + (i : Nat)) % (L : Int) = i := by
  rw [Int.add_comm, Int.add_mul_emod_self_right]
  exact Int.emod_eq_of_lt (by omega) (by omega)

end Grain
