import Verif.Stack.RaiseProps
import Verif.Stack.RaiseWorkersProps
/-
C110: `multithread_prefetch` over elements that raise.
-/
namespace Grain

variable {α : Type}

/-- C110: whatever the schedule of the threads, a user of `multithread_prefetch` who reads to the end and goes on after
exceptions sees the outcomes `threadsOutcomes threads zs`, in this order, and then the end; no schedule blocks and none goes
on for ever. -/
theorem multithread_prefetch_raising_outcomes {threads size : Nat} (ht : 0 < threads) {zs : List (Py α)}
    {c : Fin threads → ConcIter (Py α)} (h : ∀ i, RaiseStack (c i) (fun m => zs[m * threads + i.val]?)) (k : Nat) :
    (∀ s, UserRun (Raise.multithreadPrefetchOver threads size c) (userInit _ (List.replicate k .next)) s →
      (s.finished → s.outs = (List.range k).map (fun j => (threadsOutcomes threads zs)[j]?)) ∧
      (¬ s.finished → ∃ t, UserStep (Raise.multithreadPrefetchOver threads size c) s t)) ∧
    ∀ f : Nat → UserSys (Raise.multithreadPrefetchOver threads size c), f 0 = userInit _ (List.replicate k .next) →
      ¬ ∀ i, UserStep (Raise.multithreadPrefetchOver threads size c) (f i) (f (i + 1)) := by
  have hs := RaiseStack.threads size ht h
  have hprog : savedFirst 0 (List.replicate k .next) = true := by
    induction k with
    | zero => rfl
    | succ k ih => exact ih
  refine ⟨fun s hrun => ⟨fun hf => ?_, fun hf => raising_stack_no_deadlock hs hprog hrun hf⟩,
    fun f h0 => raising_stack_terminates hs hprog f h0⟩
  have := lagRun_reads_to_end (x := fun m => (threadsOutcomes threads zs)[m]?) (fun n hn => by
    rw [List.getElem?_eq_none_iff] at hn ⊢
    omega) k 0 [] _ ((raising_stack_outcomes hs hprog hrun).2 hf)
  simpa using this

/-- C110: no outcome of the dataset is lost and none is repeated, neither elements nor exceptions. -/
theorem threads_outcomes_perm {n : Nat} (hn : 0 < n) (zs : List (Py α)) : (threadsOutcomes n zs).Perm zs := by
  unfold threadsOutcomes
  refine (Raise.flatMap_turns _ n zs.length).trans ?_
  have h1 : (List.range n).flatMap (fun i => (List.range zs.length).flatMap
      (fun a => ((turnsOfInput (nthOutcomes n ((a * n + i) % n) zs))[(a * n + i) / n]?).getD [])) =
      (List.range n).flatMap (fun i => (List.range zs.length).flatMap (fun a => (zs[a * n + i]?).toList)) := by
    refine List.flatMap_congr (fun i hi => ?_)
    rw [Raise.turns_of_thread (List.mem_range.1 hi), ← Raise.filterMap_flatMap]
    rfl
  rw [h1]
  refine (Raise.flatMap_turns (fun t => (zs[t]?).toList) n zs.length).symm.trans ?_
  rw [← Raise.filterMap_flatMap, Raise.filterMap_all _ _ (Nat.le_mul_of_pos_right _ hn)]

/-- C110: the outcomes of each thread stay in order. -/
theorem thread_outcomes_in_order {n i : Nat} (hi : i < n) (zs : List (Py α)) :
    (nthOutcomes n i zs).Sublist (threadsOutcomes n zs) := by
  have := Raise.flatMap_turn_sublist
    (fun t => ((turnsOfInput (nthOutcomes n (t % n) zs))[t / n]?).getD []) hi zs.length
  rwa [Raise.turns_of_thread hi] at this

/-- C110: up to and including the first exception the outcomes are those of the dataset, in its order. -/
theorem threads_outcomes_up_to_first_raise {n : Nat} (hn : 0 < n) {zs : List (Py α)} {k : Nat} (hk : k < zs.length)
    (h : ∀ j, j < k → ¬ Raises zs[j]?) : (threadsOutcomes n zs).take (k + 1) = zs.take (k + 1) := by
  have hturn : ∀ t, t ≤ k → ∀ r, zs[t]? = some r → ∃ rest,
      (turnsOfInput (nthOutcomes n (t % n) zs))[t / n]? = some (r :: rest) ∧ (¬ Raises (some r) → rest = []) := by
    intro t ht r hr
    have hd := Nat.div_add_mod t n
    rw [Nat.mul_comm] at hd
    refine Raise.turn_first _ _ ?_ r ?_
    · intro b hb
      rw [Raise.nthOutcomes_get hn]
      refine h _ ?_
      have : (b + 1) * n ≤ t / n * n := Nat.mul_le_mul_right _ hb
      rw [Nat.add_mul] at this
      omega
    · rw [Raise.nthOutcomes_get hn, hd, hr]
  have hpre : ∀ q, q ≤ k → (List.range q).flatMap (fun t => ((turnsOfInput (nthOutcomes n (t % n) zs))[t / n]?).getD []) = zs.take q := by
    intro q
    induction q with
    | zero => intro _; simp
    | succ q ih =>
      intro hq
      obtain ⟨rest, h1, h2⟩ := hturn q (by omega) zs[q] (List.getElem?_eq_getElem (by omega))
      have h3 := h2 (by rw [← List.getElem?_eq_getElem (by omega)]; exact h q (by omega))
      subst h3
      rw [List.range_succ, List.flatMap_append, ih (by omega), List.flatMap_singleton, h1, List.take_add_one,
        List.getElem?_eq_getElem (by omega)]
      rfl
  obtain ⟨rest, h1, -⟩ := hturn k (Nat.le_refl _) zs[k] (List.getElem?_eq_getElem hk)
  unfold threadsOutcomes
  have hle : zs.length ≤ zs.length * n := Nat.le_mul_of_pos_right _ hn
  obtain ⟨d, hd⟩ : ∃ d, zs.length * n = k + (d + 1) := ⟨zs.length * n - k - 1, by omega⟩
  rw [hd, List.range_add, List.flatMap_append, hpre k (Nat.le_refl _), List.flatMap_map, List.range_succ_eq_map, List.flatMap_cons,
    show (turnsOfInput (nthOutcomes n ((k + 0) % n) zs))[(k + 0) / n]? = _ from h1, Option.getD_some, List.take_append, List.take_take, List.length_take,
    Nat.min_eq_left (Nat.le_of_lt hk), Nat.min_eq_right (Nat.le_succ k), Nat.add_sub_cancel_left]
  rw [List.take_add_one (l := zs), List.getElem?_eq_getElem hk]
  rfl

/-- C110: without exceptions, exactly the dataset. -/
theorem threads_outcomes_without_raise {n : Nat} (hn : 0 < n) {zs : List (Py α)} (h : ∀ j : Nat, ¬ Raises zs[j]?) :
    threadsOutcomes n zs = zs := by
  have hl := (threads_outcomes_perm hn zs).length_eq
  cases hz : zs.length with
  | zero =>
    rw [hz] at hl
    rw [List.length_eq_zero_iff.1 hl, List.length_eq_zero_iff.1 hz]
  | succ k =>
    have := threads_outcomes_up_to_first_raise hn (k := k) (by omega) (fun j _ => h j)
    rwa [List.take_of_length_le (by omega), List.take_of_length_le (by omega)] at this

/-- C110, negative: after an exception the order of the dataset is lost, although every thread gives its outcomes in order:
the interleave asks the thread that raised once more (interleave.py:125-130). -/
theorem multithread_prefetch_reorders_after_exception :
    ∃ c : Fin 2 → ConcIter (Py Nat),
      (∀ i, RaiseStack (c i) (fun m => [Except.ok 0, .error (.user 7), .ok 2, .ok 3, .ok 4, .ok (5 : Nat)][m * 2 + i.val]?)) ∧
    ∀ s, UserRun (Raise.multithreadPrefetchOver 2 1 c) (userInit _ (List.replicate 6 .next)) s → s.finished →
      s.outs = [some (.ok 0), some (.error (.user 7)), some (.ok 3), some (.ok 2), some (.ok 5), some (.ok 4)] := by
  refine ⟨_, two_workers, fun s hrun hf => ?_⟩
  rw [((multithread_prefetch_raising_outcomes (by omega) two_workers 6).1 s hrun).1 hf]
  decide

/-- C110: a checkpoint of `multithread_prefetch` loses and repeats no element, whatever the schedule and whatever raises: the
user who reads, saves, rewinds and restarts sees something that the stream of outcomes allows (`LagRun`). -/
theorem multithread_prefetch_raising_checkpoints {threads size : Nat} (ht : 0 < threads) {zs : List (Py α)}
    {c : Fin threads → ConcIter (Py α)} (hc : ∀ i, RaiseStack (c i) (fun m => zs[m * threads + i.val]?)) {prog : List Op}
    (hprog : savedFirst 0 prog = true) {s : UserSys (Raise.multithreadPrefetchOver threads size c)}
    (hrun : UserRun _ (userInit _ prog) s) :
    (s.finished → LagRun (fun m => (threadsOutcomes threads zs)[m]?) 0 [] prog s.outs) ∧
    (¬ s.finished → ∃ t, UserStep _ s t) :=
  ⟨(raising_stack_outcomes (RaiseStack.threads size ht hc) hprog hrun).2,
    raising_stack_no_deadlock (RaiseStack.threads size ht hc) hprog hrun⟩

/-! ### The hypotheses are met -/

/-- Two threads over six elements, of which the second raises. -/
example : ∃ c : Fin 2 → ConcIter (Py Nat), ∀ i, RaiseStack (c i)
    (fun m => [Except.ok 0, .error (.user 7), .ok 2, .ok 3, .ok 4, .ok 5][m * 2 + i.val]?) :=
  ⟨_, two_workers⟩

example : (threadsOutcomes 3 [.ok 0, .error (.user 7), .ok 2, .ok 3, .error (.user 8), .ok 5, .ok 6, .error (.user 9), .ok (8 : Nat)]) =
    [.ok 0, .error (.user 7), .error (.user 8), .error (.user 9), .ok 2, .ok 3, .ok 5, .ok 6, .ok 8] := by
  decide

end Grain
