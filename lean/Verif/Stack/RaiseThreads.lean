import Verif.Stack.RaiseBlocks
import Verif.Stack.RaiseWorkers
/-
`multithread_prefetch` over elements that may raise: what the turns of the threads give.
-/
namespace Grain
namespace Raise

variable {α : Type}

theorem filterMap_all : ∀ (N : Nat) (l : List α), l.length ≤ N → (List.range N).filterMap (fun m => l[m]?) = l := by
  intro N
  induction N with
  | zero =>
    intro l h
    cases l with
    | nil => rfl
    | cons a l => simp at h
  | succ N ih =>
    intro l h
    rw [List.range_succ_eq_map, List.filterMap_cons, List.filterMap_map]
    cases l with
    | nil => simp
    | cons a l =>
      have := ih l (by simpa using h)
      simpa [Function.comp_def] using this

theorem nthOutcomes_length (n i : Nat) (zs : List (Py α)) : (nthOutcomes n i zs).length ≤ zs.length := by
  refine (List.length_filterMap_le _ _).trans ?_
  simp

theorem nthOutcomes_get {n : Nat} (hn : 0 < n) (i : Nat) (zs : List (Py α)) (m : Nat) : (nthOutcomes n i zs)[m]? = zs[m * n + i]? := by
  have hle : ∀ m, m ≤ m * n := fun m => Nat.le_mul_of_pos_right m hn
  obtain ⟨l, h1, h2⟩ := exists_list zs.length (fun m => zs[m * n + i]?)
    (by have := hle zs.length; rw [List.getElem?_eq_none_iff]; omega)
    (by intro m hm; rw [List.getElem?_eq_none_iff] at hm ⊢; rw [Nat.add_mul]; omega)
  have : nthOutcomes n i zs = l := by
    unfold nthOutcomes
    rw [← funext h2]
    exact filterMap_all _ _ h1
  rw [this, h2]

/-- The interleave of threads that go on after exceptions. -/
theorem threads_follow {w L : Nat} (hL : L = w) {zs : List (Py α)} {c : Fin (w + 1) → ConcIter (Py α)}
    (h : ∀ i, ∃ I K, Follows (c i) (fun m => zs[m * (w + 1) + i.val]?) I K) :
    ∃ I K, Follows (renewed (multiOver (ilTrans (w + 1) L) c)) (fun m => (threadsOutcomes (w + 1) zs)[m]?) I K := by
  subst hL
  choose I K hF using h
  have hc := blocks_computes (fun i : Fin (L + 1) => nthOutcomes (L + 1) i.val zs) (K := zs.length) (fun i => nthOutcomes_length _ _ _)
  have hF' : ∀ i : Fin (L + 1), Follows (c i) (fun m => (nthOutcomes (L + 1) i.val zs)[m]?) (I i) (K i) := by
    intro i
    rw [show (fun m => (nthOutcomes (L + 1) i.val zs)[m]?) = fun m => zs[m * (L + 1) + i.val]? from
      funext (nthOutcomes_get (wpos L) _ _)]
    exact hF i
  exact ⟨_, _, renewed_follows (multi_follows hF' hc)⟩

theorem multithread_follows {threads size : Nat} (ht : 0 < threads) {zs : List (Py α)}
    {c : Fin threads → ConcIter (Py α)} (h : ∀ i, ∃ I K, Follows (c i) (fun m => zs[m * threads + i.val]?) I K) :
    ∃ I K, Follows (multithreadPrefetchOver threads size c) (fun m => (threadsOutcomes threads zs)[m]?) I K := by
  obtain ⟨w, rfl⟩ : ∃ w, threads = w + 1 := ⟨threads - 1, by omega⟩
  refine threads_follow (L := min (w + 1) (w + 1) - 1) (by omega) ?_
  intro i
  obtain ⟨I, K, hF⟩ := h i
  exact ⟨_, _, prefetch_follows (size := size) hF⟩

theorem le_sum_of_mem' {a : Nat} : ∀ {l : List Nat}, a ∈ l → a ≤ l.sum
  | b :: l, h => by
    rw [List.sum_cons]
    rcases List.mem_cons.1 h with rfl | h
    · omega
    · have := le_sum_of_mem' h
      omega

theorem length_le_sum {n i : Nat} (hi : i < n) (xs : Nat → List (Py α)) :
    (xs i).length ≤ ((List.range n).map (fun i => (xs i).length)).sum :=
  le_sum_of_mem' (List.mem_map.2 ⟨i, List.mem_range.2 hi, rfl⟩)

theorem inputs_follow {w L : Nat} (hL : L = w) {xs : Nat → List (Py α)} {c : Fin (w + 1) → ConcIter (Py α)}
    (h : ∀ i, ∃ I K, Follows (c i) (fun m => (xs i.val)[m]?) I K) :
    ∃ I K, Follows (renewed (multiOver (ilTrans (w + 1) L) c)) (fun m => (interleaveOutcomes (w + 1) xs)[m]?) I K := by
  subst hL
  choose I K hF using h
  exact ⟨_, _, renewed_follows (multi_follows hF (blocks_computes (fun i : Fin (L + 1) => xs i.val)
    (fun i => length_le_sum i.isLt xs)))⟩

theorem interleave_follows {n cycle : Nat} (hn : 0 < n) (hc : n ≤ cycle) {xs : Nat → List (Py α)}
    {c : Fin n → ConcIter (Py α)} (h : ∀ i, ∃ I K, Follows (c i) (fun m => (xs i.val)[m]?) I K) :
    ∃ I K, Follows (interleaveOver n cycle c) (fun m => (interleaveOutcomes n xs)[m]?) I K := by
  obtain ⟨w, rfl⟩ : ∃ w, n = w + 1 := ⟨n - 1, by omega⟩
  exact inputs_follow (L := min cycle (w + 1) - 1) (by omega) h

/-! ### The outcomes -/

theorem flatMap_turns {β : Type} (f : Nat → List β) (n : Nat) : ∀ K : Nat,
    ((List.range (K * n)).flatMap f).Perm ((List.range n).flatMap (fun i => (List.range K).flatMap (fun a => f (a * n + i)))) := by
  intro K
  induction K with
  | zero => simp
  | succ K ih =>
    have h1 : (List.range ((K + 1) * n)).flatMap f = (List.range (K * n)).flatMap f ++ (List.range n).flatMap (fun i => f (K * n + i)) := by
      rw [Nat.add_mul, Nat.one_mul, List.range_add, List.flatMap_append, List.flatMap_map]
    have h2 : (fun i => (List.range (K + 1)).flatMap (fun a => f (a * n + i))) =
        fun i => (List.range K).flatMap (fun a => f (a * n + i)) ++ f (K * n + i) := by
      funext i
      rw [List.range_succ, List.flatMap_append]
      simp
    rw [h1, h2]
    exact (ih.append_right _).trans (List.flatMap_append_perm _ _ _)

theorem flatMap_turn_sublist {β : Type} (f : Nat → List β) {n i : Nat} (hi : i < n) : ∀ K : Nat,
    ((List.range K).flatMap (fun a => f (a * n + i))).Sublist ((List.range (K * n)).flatMap f) := by
  intro K
  induction K with
  | zero => simp
  | succ K ih =>
    rw [List.range_succ (n := K), List.flatMap_append, Nat.add_mul, Nat.one_mul, List.range_add (n := K * n), List.flatMap_append,
      List.flatMap_map]
    refine ih.append ?_
    rw [List.flatMap_singleton]
    have := List.sublist_flatten_of_mem (List.mem_map_of_mem (f := fun i => f (K * n + i)) (List.mem_range.2 hi))
    rwa [← List.flatMap_def] at this

theorem flatMap_all {β : Type} : ∀ (N : Nat) (l : List (List β)), l.length ≤ N → (List.range N).flatMap (fun a => (l[a]?).getD []) = l.flatten := by
  intro N
  induction N with
  | zero =>
    intro l h
    cases l with
    | nil => rfl
    | cons a l => simp at h
  | succ N ih =>
    intro l h
    rw [List.range_succ_eq_map, List.flatMap_cons, List.flatMap_map]
    cases l with
    | nil => simp
    | cons a l =>
      have := ih l (by simpa using h)
      simpa [Function.comp_def] using this

theorem turnsOfInput_length (l : List (Py α)) : (turnsOfInput l).length ≤ l.length := by
  induction l with
  | nil => simp [turnsOfInput]
  | cons r l ih =>
    cases r with
    | ok a => simpa [turnsOfInput] using ih
    | error e =>
      rw [turnsOfInput.eq_def]
      dsimp only
      cases ht : turnsOfInput l with
      | nil => simp
      | cons b bs =>
        rw [ht] at ih
        simp only [List.length_cons] at ih ⊢
        omega

/-- The turns of one input. -/
theorem turns_of_input {n i K : Nat} (hi : i < n) (xs : Nat → List (Py α)) (hK : (xs i).length ≤ K) :
    (List.range K).flatMap (fun a => ((turnsOfInput (xs ((a * n + i) % n)))[(a * n + i) / n]?).getD []) = xs i := by
  have h1 : ∀ a, (a * n + i) % n = i := fun a => by rw [Nat.mul_comm, Nat.mul_add_mod, Nat.mod_eq_of_lt hi]
  have h2 : ∀ a, (a * n + i) / n = a := fun a => by
    rw [Nat.mul_comm, Nat.mul_add_div (by omega), Nat.div_eq_of_lt hi, Nat.add_zero]
  simp only [h1, h2]
  rw [flatMap_all _ _ ((turnsOfInput_length _).trans hK), turnsOfInput_flatten]

theorem turns_of_thread {n i : Nat} (hi : i < n) (zs : List (Py α)) :
    (List.range zs.length).flatMap (fun a => ((turnsOfInput (nthOutcomes n ((a * n + i) % n) zs))[(a * n + i) / n]?).getD []) =
      nthOutcomes n i zs :=
  turns_of_input hi (fun i => nthOutcomes n i zs) (nthOutcomes_length _ _ _)

theorem filterMap_flatMap {β γ : Type} (f : β → Option γ) (l : List β) : l.filterMap f = l.flatMap (fun a => (f a).toList) := by
  induction l with
  | nil => rfl
  | cons a l ih =>
    rw [List.filterMap_cons, List.flatMap_cons, ← ih]
    cases f a <;> rfl

/-- The first turns, when no outcome before has raised. -/
theorem turn_first : ∀ (a : Nat) (l : List (Py α)), (∀ b, b < a → ¬ Raises l[b]?) → ∀ r, l[a]? = some r →
    ∃ rest, (turnsOfInput l)[a]? = some (r :: rest) ∧ (¬ Raises (some r) → rest = []) := by
  intro a
  induction a with
  | zero =>
    intro l _ r hr
    cases l with
    | nil => cases hr
    | cons r' l =>
      simp only [List.getElem?_cons_zero, Option.some.injEq] at hr
      subst hr
      cases r' with
      | ok x => exact ⟨[], rfl, fun _ => rfl⟩
      | error e =>
        rw [turnsOfInput.eq_def]
        dsimp only
        cases turnsOfInput l with
        | nil => exact ⟨[], rfl, fun _ => rfl⟩
        | cons b bs => exact ⟨b, rfl, fun h => absurd ⟨e, rfl⟩ h⟩
  | succ a ih =>
    intro l h r hr
    cases l with
    | nil => cases hr
    | cons r' l =>
      cases r' with
      | error e => exact absurd ⟨e, rfl⟩ (h 0 (by omega))
      | ok x =>
        obtain ⟨rest, h1, h2⟩ := ih l (fun b hb => h (b + 1) (by omega)) r hr
        exact ⟨rest, h1, h2⟩

end Raise
end Grain
