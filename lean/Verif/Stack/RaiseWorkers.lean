import Verif.Stack.RaiseTurns
/-
`mp_prefetch` with several workers over elements that may raise: what the turns of the workers give.
-/
namespace Grain
namespace Raise

variable {α : Type}

/-- A stream that ends is a list. -/
theorem exists_list : ∀ (N : Nat) (x : Nat → Option α), x N = none → StaysOver x → ∃ l : List α, l.length ≤ N ∧ ∀ m, l[m]? = x m := by
  intro N
  induction N with
  | zero =>
    intro x h0 hx
    refine ⟨[], Nat.le_refl _, fun m => ?_⟩
    induction m with
    | zero => simp [h0]
    | succ m ih => rw [hx m (by rw [← ih]; simp)]; simp
  | succ N ih =>
    intro x h0 hx
    cases hx0 : x 0 with
    | none =>
      refine ⟨[], Nat.zero_le _, fun m => ?_⟩
      induction m with
      | zero => simp [hx0]
      | succ m ih => rw [hx m (by rw [← ih]; simp)]; simp
    | some a =>
      obtain ⟨l, h1, h2⟩ := ih (fun m => x (m + 1)) h0 (fun m hm => hx _ hm)
      refine ⟨a :: l, Nat.succ_le_succ h1, fun m => ?_⟩
      cases m with
      | zero => simp [hx0]
      | succ m => simpa using h2 m

theorem matches_raises (r : Option (Py α)) : (r matches some (.error _)) = true ↔ Raises r := by
  rcases r with _ | (e | a) <;> simp [Raises]

theorem untilRaise_none {x : Nat → Option (Py α)} {n : Nat} (h : ∃ j, j < n ∧ Raises (x j)) : streamUntilRaise x n = none := by
  obtain ⟨j, hj, e, he⟩ := h
  unfold streamUntilRaise
  refine if_pos (List.any_eq_true.2 ⟨j, List.mem_range.2 hj, ?_⟩)
  rw [he]

theorem untilRaise_some {x : Nat → Option (Py α)} {n : Nat} (h : ¬ ∃ j, j < n ∧ Raises (x j)) : streamUntilRaise x n = x n := by
  unfold streamUntilRaise
  refine if_neg (fun ha => h ?_)
  obtain ⟨j, hj, hx⟩ := List.any_eq_true.1 ha
  exact ⟨j, List.mem_range.1 hj, (matches_raises _).1 hx⟩

theorem failedBefore_iff {n t : Nat} {zs : List (Py α)} :
    failedBefore n zs t = true ↔ ∃ s, s < t ∧ s % n = t % n ∧ Raises zs[s]? := by
  unfold failedBefore
  rw [List.any_eq_true]
  constructor
  · rintro ⟨s, hs, h⟩
    rw [Bool.and_eq_true, beq_iff_eq] at h
    exact ⟨s, List.mem_range.1 hs, h.1, (matches_raises _).1 h.2⟩
  · rintro ⟨s, hs, h1, h2⟩
    refine ⟨s, List.mem_range.2 hs, ?_⟩
    rw [Bool.and_eq_true, beq_iff_eq]
    exact ⟨h1, (matches_raises _).2 h2⟩

theorem exists_slice {n t : Nat} (P : Nat → Prop) :
    (∃ j, j < t / n ∧ P (j * n + t % n)) ↔ ∃ s, s < t ∧ s % n = t % n ∧ P s := by
  have hd := Nat.div_add_mod t n
  constructor
  · rintro ⟨j, hj, hP⟩
    refine ⟨j * n + t % n, ?_, ?_, hP⟩
    · have : (j + 1) * n ≤ t / n * n := Nat.mul_le_mul_right _ hj
      have hn : 0 < n := by
        rcases Nat.eq_zero_or_pos n with rfl | h
        · simp at hj
        · exact h
      rw [Nat.add_mul, Nat.mul_comm (t / n)] at this
      omega
    · rw [Nat.mul_comm, Nat.mul_add_mod, Nat.mod_mod]
  · rintro ⟨s, hs, hm, hP⟩
    have hds := Nat.div_add_mod s n
    refine ⟨s / n, ?_, ?_⟩
    · by_contra hc
      have : n * (t / n) ≤ n * (s / n) := Nat.mul_le_mul_left _ (by omega)
      omega
    · rw [← hm, Nat.mul_comm, hds]
      exact hP

theorem streamUntilRaise_staysOver {x : Nat → Option (Py α)} (h : StaysOver x) : StaysOver (streamUntilRaise x) := by
  intro n hn
  by_cases ha : ∃ j, j < n ∧ Raises (x j)
  · obtain ⟨j, hj, hx⟩ := ha
    exact untilRaise_none ⟨j, by omega, hx⟩
  · rw [untilRaise_some ha] at hn
    have := h n hn
    by_cases hb : ∃ j, j < n + 1 ∧ Raises (x j)
    · exact untilRaise_none hb
    · rw [untilRaise_some hb, this]

theorem streamUntilRaise_last {x : Nat → Option (Py α)} {n : Nat} {e : Err} (h : streamUntilRaise x n = some (.error e)) :
    streamUntilRaise x (n + 1) = none := by
  by_cases ha : ∃ j, j < n ∧ Raises (x j)
  · rw [untilRaise_none ha] at h
    cases h
  · rw [untilRaise_some ha] at h
    exact untilRaise_none ⟨n, by omega, e, h⟩

/-- What the workers give, as lists. -/
theorem workers_lists (w : Nat) (zs : List (Py α)) : ∃ vs : Fin (w + 1) → List (Py α), (∀ i, (vs i).length ≤ zs.length) ∧
    (∀ i m, (vs i)[m]? = streamUntilRaise (fun m => zs[m * (w + 1) + i.val]?) m) ∧ LastRaises vs ∧
    ∀ m, turnsStream vs zs.length m = (workersOutcomes (w + 1) zs)[m]? := by
  have hex : ∀ i : Fin (w + 1), ∃ l : List (Py α), l.length ≤ zs.length ∧
      ∀ m, l[m]? = streamUntilRaise (fun m => zs[m * (w + 1) + i.val]?) m := by
    intro i
    refine exists_list _ _ ?_ (streamUntilRaise_staysOver ?_)
    · have hx : zs[zs.length * (w + 1) + i.val]? = none := by
        rw [List.getElem?_eq_none_iff, Nat.mul_add]
        omega
      by_cases hb : ∃ j, j < zs.length ∧ Raises (zs[j * (w + 1) + i.val]?)
      · exact untilRaise_none hb
      · rw [untilRaise_some hb, hx]
    · intro m hm
      rw [List.getElem?_eq_none_iff] at hm ⊢
      rw [Nat.add_mul]
      omega
  choose vs h1 h2 using hex
  refine ⟨vs, h1, h2, ?_, ?_⟩
  · intro i j e hj
    rw [h2] at hj
    have hn := streamUntilRaise_last hj
    rw [← h2] at hj hn
    have ha := (List.getElem?_eq_some_iff.1 hj).1
    rw [List.getElem?_eq_none_iff] at hn
    omega
  · intro m
    have hturn : ∀ t, turnOf vs t = if failedBefore (w + 1) zs t then none else zs[t]? := by
      intro t
      unfold turnOf
      rw [h2]
      dsimp only
      have he := exists_slice (n := w + 1) (t := t) (fun s => Raises zs[s]?)
      have hd := Nat.div_add_mod t (w + 1)
      rw [Nat.mul_comm] at hd
      by_cases hb : ∃ s, s < t ∧ s % (w + 1) = t % (w + 1) ∧ Raises zs[s]?
      · rw [untilRaise_none (he.2 hb), if_pos (failedBefore_iff.2 hb)]
      · rw [untilRaise_some (fun h => hb (he.1 h)), if_neg (fun h => hb (failedBefore_iff.1 h)), hd]
    unfold turnsStream workersOutcomes
    have hf : turnOf vs = fun t => if failedBefore (w + 1) zs t then none else zs[t]? := funext hturn
    rw [hf, show zs.length * (w + 1) = zs.length + zs.length * w by rw [Nat.mul_add]; omega, List.range_add, List.filterMap_append]
    have : ((List.range (zs.length * w)).map (fun x => zs.length + x)).filterMap
        (fun t => if failedBefore (w + 1) zs t then none else zs[t]?) = [] := by
      rw [List.filterMap_eq_nil_iff]
      intro t ht
      obtain ⟨e, -, rfl⟩ := List.mem_map.1 ht
      split
      · rfl
      · rw [List.getElem?_eq_none_iff]
        omega
    rw [this, List.append_nil]

/-- The interleave of workers that are over after their first exception. -/
theorem workers_follow {w L : Nat} (hL : L = w) {zs : List (Py α)} {c : Fin (w + 1) → ConcIter (Py α)}
    (h : ∀ i, ∃ I K, Follows (c i) (streamUntilRaise (fun m => zs[m * (w + 1) + i.val]?)) I K) :
    ∃ I K, Follows (renewed (multiOver (ilTrans (w + 1) L) c)) (fun m => (workersOutcomes (w + 1) zs)[m]?) I K := by
  subst hL
  obtain ⟨vs, h1, h2, h3, h4⟩ := workers_lists L zs
  choose I K hF using h
  have hc := ilTrans_computes vs h1 h3
  have hF' : ∀ i, Follows (c i) (fun m => (vs i)[m]?) (I i) (K i) := by
    intro i
    have : (fun m => (vs i)[m]?) = streamUntilRaise (fun m => zs[m * (L + 1) + i.val]?) := funext (h2 i)
    rw [this]
    exact hF i
  have := renewed_follows (multi_follows hF' hc)
  rw [show turnsStream vs zs.length = fun m => (workersOutcomes (L + 1) zs)[m]? from funext h4] at this
  exact ⟨_, _, this⟩

theorem mpPrefetch_follows {workers size : Nat} (hw : 0 < workers) (hsize : 0 < size) {zs : List (Py α)}
    {c : Fin workers → ConcIter (Py α)} (h : ∀ i, ∃ I K, Follows (c i) (fun m => zs[m * workers + i.val]?) I K) :
    ∃ I K, Follows (mpPrefetchOver workers size c) (fun m => (workersOutcomes workers zs)[m]?) I K := by
  obtain ⟨w, rfl⟩ : ∃ w, workers = w + 1 := ⟨workers - 1, by omega⟩
  refine workers_follow (L := min (w + 1) (w + 1) - 1) (by omega) ?_
  intro i
  obtain ⟨I, K, hF⟩ := h i
  exact ⟨_, _, prefetch_follows (size := size) (process_follows (keep := false) hF hsize)⟩

end Raise
end Grain
