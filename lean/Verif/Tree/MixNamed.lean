import Verif.MapDs.PropsMix
import Mathlib.Data.String.Basic
import Mathlib.Order.Defs.LinearOrder
/-
C55: mixing datasets given by name.
-/
namespace Grain

/-! ### Model -/

/-- `tree_lib.flatten` of a flat dictionary given as its items in insertion order: without JAX the values in insertion order,
grain/_src/core/tree_lib.py:117-122; with JAX (`sorted`) in the order of the keys, tree_lib.py:76-77. -/
def dictFlatten (sorted : Bool) (d : List (String × β)) : List β :=
  ((if sorted then d.mergeSort (fun a b => decide (a.1 ≤ b.1)) else d)).map (·.2)

/-- The component drawn for the `k`-th element of `MixedIterDataset(parents, proportions)` given two dictionaries,
grain/_src/python/dataset/transformations/mix.py:196-227, 265-294: parents and proportions are flattened separately, the number
of the component is found from the proportions.  The proportions are the integers after `_float_to_int_proportions`, which
treats each of them alike. -/
def mixNamedDraw (sorted : Bool) (parents : List (String × π)) (proportions : List (String × Nat)) (k : Nat) : Option π :=
  match datasetAndKey (k : Int) (dictFlatten sorted proportions) with
  | .ok (d, _) => (dictFlatten sorted parents)[d]?
  | .error _ => none

/-! ### Specification -/

/-- The names as the parents: which name is drawn. -/
def named (parents : List (String × π)) : List (String × String) := parents.map (fun e => (e.1, e.1))

/-- How often the component called `s` is drawn for the elements `a, …, b - 1`. -/
def drawnNamed (sorted : Bool) (parents : List (String × π)) (proportions : List (String × Nat)) (s : String) (a b : Nat) : Nat :=
  ((List.range' a (b - a)).filter (fun k => mixNamedDraw sorted (named parents) proportions k == some s)).length

/-! ### Lemmas -/

/-- Items in the order in which they are flattened. -/
def flatItems (sorted : Bool) (d : List (String × β)) : List (String × β) :=
  if sorted then d.mergeSort (fun a b => decide (a.1 ≤ b.1)) else d

theorem flatItems_perm (sorted : Bool) (d : List (String × β)) : (flatItems sorted d).Perm d := by
  unfold flatItems
  split
  · exact List.mergeSort_perm _ _
  · exact List.Perm.refl _

theorem flatItems_sorted (d : List (String × β)) : ((flatItems true d).map (·.1)).Pairwise (· ≤ ·) := by
  rw [List.pairwise_map]
  have := List.pairwise_mergeSort (le := fun a b : String × β => decide (a.1 ≤ b.1))
    (fun a b c h1 h2 => by simp only [decide_eq_true_eq] at *; exact le_trans h1 h2)
    (fun a b => by simp only [Bool.or_eq_true, decide_eq_true_eq]; exact le_total _ _) d
  exact this.imp (fun h => by simpa using h)

theorem named_map (sorted : Bool) (d : List (String × β)) :
    dictFlatten sorted (named d) = (flatItems sorted d).map (·.1) := by
  unfold dictFlatten named flatItems
  cases sorted with
  | false => simp
  | true =>
    simp only [if_true]
    have : (d.map (fun e => (e.1, e.1))).mergeSort (fun a b => decide (a.1 ≤ b.1)) =
        (d.mergeSort (fun a b => decide (a.1 ≤ b.1))).map (fun e => (e.1, e.1)) := by
      rw [List.map_mergeSort]
      intro a _ b _; rfl
    rw [this]; simp

/-- The draws of a name are those of its position, if the names of both dictionaries come in the same order. -/
theorem drawnNamed_eq {sorted : Bool} {parents : List (String × π)} {proportions : List (String × Nat)} {s : String} {d w : Nat}
    (hk : (flatItems sorted parents).map (·.1) = (flatItems sorted proportions).map (·.1))
    (hnd : (parents.map (·.1)).Nodup) (hd : (flatItems sorted proportions)[d]? = some (s, w)) (a b : Nat) :
    drawnNamed sorted parents proportions s a b = drawn (dictFlatten sorted proportions) d a b := by
  unfold drawnNamed drawn
  congr 1
  apply List.filter_congr
  intro k _
  unfold mixNamedDraw
  cases datasetAndKey (k : Int) (dictFlatten sorted proportions) with
  | error e => simp
  | ok q =>
    obtain ⟨d', key⟩ := q
    simp only
    rw [named_map, hk]
    have h1 : ((flatItems sorted proportions).map (·.1))[d]? = some s := by rw [List.getElem?_map, hd]; rfl
    have hnd' : ((flatItems sorted proportions).map (·.1)).Nodup := by
      rw [← hk]; exact ((flatItems_perm sorted parents).map _).nodup_iff.2 hnd
    rw [Bool.eq_iff_iff]
    simp only [beq_iff_eq]
    constructor
    · intro h
      exact (List.getElem?_inj (List.getElem?_eq_some_iff.1 h).1 hnd').1 (by rw [h, h1])
    · intro h; rw [h]; exact h1

theorem dictFlatten_get {sorted : Bool} {d : List (String × Nat)} {i : Nat} {s : String} {w : Nat}
    (h : (flatItems sorted d)[i]? = some (s, w)) : (dictFlatten sorted d)[i]? = some w := by
  show ((flatItems sorted d).map (·.2))[i]? = some w
  rw [List.getElem?_map, h]; rfl

theorem mix_by_name_aux {sorted : Bool} {parents : List (String × π)} {proportions : List (String × Nat)}
    (hk : (flatItems sorted parents).map (·.1) = (flatItems sorted proportions).map (·.1))
    (hnd : (parents.map (·.1)).Nodup) (hpos : ∀ e ∈ proportions, 0 < e.2) {s : String} {w : Nat} (hs : (s, w) ∈ proportions)
    (m : Nat) :
    drawnNamed sorted parents proportions s (m * (proportions.map (·.2)).sum) ((m + 1) * (proportions.map (·.2)).sum) = w := by
  have hmem : (s, w) ∈ flatItems sorted proportions := (flatItems_perm sorted proportions).mem_iff.2 hs
  obtain ⟨d, hd⟩ := List.getElem?_of_mem hmem
  rw [drawnNamed_eq hk hnd hd]
  have hp : (dictFlatten sorted proportions).Perm (proportions.map (·.2)) := (flatItems_perm sorted proportions).map _
  have hsum : (proportions.map (·.2)).sum = (dictFlatten sorted proportions).sum := hp.sum_nat.symm
  rw [hsum]
  refine mix_exact_per_period (dictFlatten sorted proportions) (fun p hp' => ?_) d w m (dictFlatten_get hd)
  obtain ⟨e, he, rfl⟩ := List.mem_map.1 (hp.mem_iff.1 hp')
  exact hpos e he

/-! ### Theorems -/

/-- C55, with JAX installed: for any two dictionaries with the same keys, written in any order, the component called `s` is
drawn exactly as often as the proportion stored under `s` says, in every round of as many elements as the sum of the
proportions. -/
theorem mix_by_name (parents : List (String × π)) (proportions : List (String × Nat))
    (hnd : (parents.map (·.1)).Nodup) (hkeys : (parents.map (·.1)).Perm (proportions.map (·.1)))
    (hpos : ∀ e ∈ proportions, 0 < e.2) (s : String) (w : Nat) (hs : (s, w) ∈ proportions) (m : Nat) :
    drawnNamed true parents proportions s (m * (proportions.map (·.2)).sum) ((m + 1) * (proportions.map (·.2)).sum) = w := by
  refine mix_by_name_aux ?_ hnd hpos hs m
  refine List.Perm.eq_of_pairwise (fun a b _ _ h1 h2 => le_antisymm h1 h2) (flatItems_sorted parents) (flatItems_sorted proportions) ?_
  exact ((flatItems_perm true parents).map _).trans (hkeys.trans ((flatItems_perm true proportions).map _).symm)

/-- C55, without JAX, for dictionaries that list the keys in the same order.
Missing: dictionaries that list them in different orders (`mix_by_name_order`). -/
theorem mix_by_name_partial (parents : List (String × π)) (proportions : List (String × Nat))
    (hnd : (parents.map (·.1)).Nodup) (hkeys : parents.map (·.1) = proportions.map (·.1))
    (hpos : ∀ e ∈ proportions, 0 < e.2) (s : String) (w : Nat) (hs : (s, w) ∈ proportions) (m : Nat) :
    drawnNamed false parents proportions s (m * (proportions.map (·.2)).sum) ((m + 1) * (proportions.map (·.2)).sum) = w :=
  mix_by_name_aux (by simpa [flatItems] using hkeys) hnd hpos hs m

/-- C55 fails without JAX: with parents `{"a": …, "b": …}` and proportions `{"b": 3, "a": 1}` the component `a` is drawn three
times in four, `b` once. -/
theorem mix_by_name_order :
    ∃ (parents : List (String × Unit)) (proportions : List (String × Nat)),
      (parents.map (·.1)).Nodup ∧ (parents.map (·.1)).Perm (proportions.map (·.1)) ∧ ("a", 1) ∈ proportions ∧
      drawnNamed false parents proportions "a" 0 4 = 3 ∧ drawnNamed false parents proportions "b" 0 4 = 1 :=
  ⟨[("a", ()), ("b", ())], [("b", 3), ("a", 1)], by decide, List.Perm.swap _ _ _, by decide, by decide +kernel, by decide +kernel⟩

example : drawnNamed true [("a", ()), ("b", ())] [("b", 3), ("a", 1)] "a" (2 * 4) (3 * 4) = 1 :=
  mix_by_name [("a", ()), ("b", ())] [("b", 3), ("a", 1)] (by decide) (List.Perm.swap _ _ _) (by decide) "a" 1 (by decide) 2

example : drawnNamed false [("b", ()), ("a", ())] [("b", 3), ("a", 1)] "b" (2 * 4) (3 * 4) = 3 :=
  mix_by_name_partial [("b", ()), ("a", ())] [("b", 3), ("a", 1)] (by decide) rfl (by decide) "b" 3 (by decide) 2

end Grain
