import Verif.Stack.RaiseProps
import Verif.Stack.RaiseWorkersProps
/-
C111: interleaved datasets whose elements may raise, under every schedule of the threads and processes below them.
-/
namespace Grain

variable {α : Type}

/-- C111 (`n ≤ cycle`): whatever the schedule of the threads and processes below the interleave, a user who reads to the end and goes
on after exceptions sees the outcomes `interleaveOutcomes n xs`, in this order, and then the end; no schedule blocks and none
goes on for ever.  Missing: interleaves with fewer slots than datasets, endless datasets. -/
theorem interleave_raising_outcomes_partial {n cycle : Nat} (hn : 0 < n) (hc : n ≤ cycle) {xs : Nat → List (Py α)}
    {c : Fin n → ConcIter (Py α)} (h : ∀ i, RaiseStack (c i) (fun m => (xs i.val)[m]?)) (k : Nat) :
    (∀ s, UserRun (Raise.interleaveOver n cycle c) (userInit _ (List.replicate k .next)) s →
      (s.finished → s.outs = (List.range k).map (fun j => (interleaveOutcomes n xs)[j]?)) ∧
      (¬ s.finished → ∃ t, UserStep (Raise.interleaveOver n cycle c) s t)) ∧
    ∀ f : Nat → UserSys (Raise.interleaveOver n cycle c), f 0 = userInit _ (List.replicate k .next) →
      ¬ ∀ i, UserStep (Raise.interleaveOver n cycle c) (f i) (f (i + 1)) := by
  have hs := RaiseStack.interleave hn hc h
  have hprog : savedFirst 0 (List.replicate k .next) = true := by
    induction k with
    | zero => rfl
    | succ k ih => exact ih
  refine ⟨fun s hrun => ⟨fun hf => ?_, fun hf => raising_stack_no_deadlock hs hprog hrun hf⟩,
    fun f h0 => raising_stack_terminates hs hprog f h0⟩
  have := lagRun_reads_to_end (x := fun m => (interleaveOutcomes n xs)[m]?) (fun n hn => by
    rw [List.getElem?_eq_none_iff] at hn ⊢
    omega) k 0 [] _ ((raising_stack_outcomes hs hprog hrun).2 hf)
  simpa using this

/-- C111 (`n ≤ cycle`): the same for a user who saves, goes back and restarts after crashes: restored iterators at most raise again
exceptions that were raised already, and neither repeat nor skip an element of any dataset. -/
theorem interleave_raising_checkpoints_partial {n cycle : Nat} (hn : 0 < n) (hc : n ≤ cycle) {xs : Nat → List (Py α)}
    {c : Fin n → ConcIter (Py α)} (h : ∀ i, RaiseStack (c i) (fun m => (xs i.val)[m]?)) {prog : List Op}
    (hprog : savedFirst 0 prog = true) {s : UserSys (Raise.interleaveOver n cycle c)}
    (hrun : UserRun (Raise.interleaveOver n cycle c) (userInit _ prog) s) :
    (s.finished → LagRun (fun m => (interleaveOutcomes n xs)[m]?) 0 [] prog s.outs) ∧
    (¬ s.finished → ∃ t, UserStep (Raise.interleaveOver n cycle c) s t) :=
  ⟨(raising_stack_outcomes (RaiseStack.interleave hn hc h) hprog hrun).2,
    raising_stack_no_deadlock (RaiseStack.interleave hn hc h) hprog hrun⟩

/-- C111: every element and every exception of every dataset exactly once. -/
theorem interleave_outcomes_perm (n : Nat) (xs : Nat → List (Py α)) :
    (interleaveOutcomes n xs).Perm ((List.range n).flatMap xs) := by
  unfold interleaveOutcomes
  refine (Raise.flatMap_turns _ n _).trans (List.Perm.of_eq ?_)
  refine List.flatMap_congr (fun i hi => ?_)
  exact Raise.turns_of_input (List.mem_range.1 hi) xs (Raise.length_le_sum (List.mem_range.1 hi) xs)

/-- C111: the outcomes of each dataset in their order. -/
theorem interleave_outcomes_in_order {n i : Nat} (hi : i < n) (xs : Nat → List (Py α)) :
    (xs i).Sublist (interleaveOutcomes n xs) := by
  have := Raise.flatMap_turn_sublist (fun t => ((turnsOfInput (xs (t % n)))[t / n]?).getD []) hi
    ((List.range n).map (fun i => (xs i).length)).sum
  rwa [Raise.turns_of_input hi xs (Raise.length_le_sum hi xs)] at this

/-! ### `mp_prefetch` with workers that do not share the elements evenly -/

theorem untilRaiseList_get : ∀ (l : List (Py α)) (m : Nat), (untilRaiseList l)[m]? = streamUntilRaise (fun m => l[m]?) m := by
  intro l
  induction l with
  | nil =>
    intro m
    rw [Raise.untilRaise_some (by rintro ⟨j, -, e, he⟩; simp at he)]
    rfl
  | cons r l ih =>
    intro m
    cases m with
    | zero =>
      rw [Raise.untilRaise_some (by rintro ⟨j, hj, -⟩; omega)]
      cases r <;> rfl
    | succ m =>
      cases r with
      | error e =>
        rw [Raise.untilRaise_none ⟨0, by omega, e, rfl⟩]
        rfl
      | ok a =>
        show (untilRaiseList l)[m]? = _
        rw [ih]
        by_cases h : ∃ j, j < m ∧ Raises l[j]?
        · obtain ⟨j, hj, hr⟩ := h
          rw [Raise.untilRaise_none ⟨j, hj, hr⟩, Raise.untilRaise_none ⟨j + 1, by omega, hr⟩]
        · rw [Raise.untilRaise_some h, Raise.untilRaise_some]
          · rfl
          · rintro ⟨j, hj, hr⟩
            cases j with
            | zero =>
              obtain ⟨e, he⟩ := hr
              cases he
            | succ j => exact h ⟨j, by omega, hr⟩

/-- `mp_prefetch` of workers that give any finite lists of outcomes, for instance because they filter, batch or pack what is in
their slices: a layer with the outcomes of the workers in turn, each up to its first exception. -/
theorem RaiseStack.anyWorkers {workers size : Nat} (hw : 0 < workers) (hs : 0 < size) {xs : Nat → List (Py α)}
    {c : Fin workers → ConcIter (Py α)} (h : ∀ i, RaiseStack (c i) (fun m => (xs i.val)[m]?)) :
    RaiseStack (Raise.mpPrefetchOver workers size c) (fun m => (interleaveOutcomes workers (fun i => untilRaiseList (xs i)))[m]?) := by
  refine RaiseStack.interleave (xs := fun i => untilRaiseList (xs i)) hw (Nat.le_refl _) (fun i => ?_)
  rw [show (fun m => (untilRaiseList (xs i.val))[m]?) = streamUntilRaise (fun m => (xs i.val)[m]?) from
    funext (untilRaiseList_get (xs i.val))]
  exact .prefetch size (.process size false hs (h i))

/-- C109: whatever the schedule of the workers and threads, a user of `mp_prefetch` who reads to the end and goes on after exceptions
sees the outcomes of the workers in turn, each up to its first exception, and then the end; no schedule blocks and none goes on
for ever. -/
theorem mp_prefetch_any_workers_outcomes {workers size : Nat} (hw : 0 < workers) (hs : 0 < size) {xs : Nat → List (Py α)}
    {c : Fin workers → ConcIter (Py α)} (h : ∀ i, RaiseStack (c i) (fun m => (xs i.val)[m]?)) (k : Nat) :
    (∀ s, UserRun (Raise.mpPrefetchOver workers size c) (userInit _ (List.replicate k .next)) s →
      (s.finished → s.outs = (List.range k).map (fun j => (interleaveOutcomes workers (fun i => untilRaiseList (xs i)))[j]?)) ∧
      (¬ s.finished → ∃ t, UserStep (Raise.mpPrefetchOver workers size c) s t)) ∧
    ∀ f : Nat → UserSys (Raise.mpPrefetchOver workers size c), f 0 = userInit _ (List.replicate k .next) →
      ¬ ∀ i, UserStep (Raise.mpPrefetchOver workers size c) (f i) (f (i + 1)) := by
  have hst := RaiseStack.anyWorkers hw hs h
  have hprog : savedFirst 0 (List.replicate k .next) = true := by
    induction k with
    | zero => rfl
    | succ k ih => exact ih
  refine ⟨fun s hrun => ⟨fun hf => ?_, fun hf => raising_stack_no_deadlock hst hprog hrun hf⟩,
    fun f h0 => raising_stack_terminates hst hprog f h0⟩
  have := lagRun_reads_to_end (x := fun m => (interleaveOutcomes workers (fun i => untilRaiseList (xs i)))[m]?) (fun n hn => by
    rw [List.getElem?_eq_none_iff] at hn ⊢
    omega) k 0 [] _ ((raising_stack_outcomes hst hprog hrun).2 hf)
  simpa using this

/-- C109: the same for a user who saves, goes back and restarts after crashes. -/
theorem mp_prefetch_any_workers_checkpoints {workers size : Nat} (hw : 0 < workers) (hs : 0 < size) {xs : Nat → List (Py α)}
    {c : Fin workers → ConcIter (Py α)} (h : ∀ i, RaiseStack (c i) (fun m => (xs i.val)[m]?)) {prog : List Op}
    (hprog : savedFirst 0 prog = true) {s : UserSys (Raise.mpPrefetchOver workers size c)}
    (hrun : UserRun (Raise.mpPrefetchOver workers size c) (userInit _ prog) s) :
    (s.finished → LagRun (fun m => (interleaveOutcomes workers (fun i => untilRaiseList (xs i)))[m]?) 0 [] prog s.outs) ∧
    (¬ s.finished → ∃ t, UserStep (Raise.mpPrefetchOver workers size c) s t) :=
  ⟨(raising_stack_outcomes (RaiseStack.anyWorkers hw hs h) hprog hrun).2,
    raising_stack_no_deadlock (RaiseStack.anyWorkers hw hs h) hprog hrun⟩

/-- C109: exactly the outcomes of the workers up to their first exceptions are seen, each once. -/
theorem any_workers_outcomes_perm (workers : Nat) (xs : Nat → List (Py α)) :
    (interleaveOutcomes workers (fun i => untilRaiseList (xs i))).Perm ((List.range workers).flatMap (fun i => untilRaiseList (xs i))) :=
  interleave_outcomes_perm workers _

/-! ### The hypotheses are met -/

/-- Three datasets of different lengths under thread prefetches; the second has an exception, after which it
goes on, the third ends with one. -/
def raisingInputs : Nat → List (Py Nat)
  | 0 => [.ok 0, .ok 3, .ok 6]
  | 1 => [.ok 1, .error (.user 7), .error (.user 8), .ok 4]
  | 2 => [.ok 2, .error (.user 9)]
  | _ => []

example : ∃ c : Fin 3 → ConcIter (Py Nat), (∀ i, RaiseStack (c i) (fun m => (raisingInputs i.val)[m]?)) ∧
    ∀ s, UserRun (Raise.interleaveOver 3 4 c) (userInit _ (List.replicate 10 .next)) s → s.finished →
      s.outs = [some (.ok 0), some (.ok 1), some (.ok 2), some (.ok 3), some (.error (.user 7)), some (.error (.user 8)),
        some (.ok 4), some (.error (.user 9)), some (.ok 6), none] := by
  have h : ∀ i : Fin 3, RaiseStack (Raise.prefetchOver 2 (Raise.ofIter (listIter (raisingInputs i.val))))
      (fun m => (raisingInputs i.val)[m]?) := fun i => .prefetch 2 (.source (listIter_resumes _).stream)
  refine ⟨_, h, fun s hrun hf => ?_⟩
  rw [((interleave_raising_outcomes_partial (by omega) (by omega) h 10).1 s hrun).1 hf]
  decide

/-- The same inputs in worker processes: what comes after the first exceptions is lost. -/
example : ∃ c : Fin 3 → ConcIter (Py Nat), (∀ i, RaiseStack (c i) (fun m => (raisingInputs i.val)[m]?)) ∧
    ∀ s, UserRun (Raise.mpPrefetchOver 3 2 c) (userInit _ (List.replicate 8 .next)) s → s.finished →
      s.outs = [some (.ok 0), some (.ok 1), some (.ok 2), some (.ok 3), some (.error (.user 7)), some (.error (.user 9)),
        some (.ok 6), none] := by
  have h : ∀ i : Fin 3, RaiseStack (Raise.ofIter (listIter (raisingInputs i.val))) (fun m => (raisingInputs i.val)[m]?) :=
    fun i => .source (listIter_resumes _).stream
  refine ⟨_, h, fun s hrun hf => ?_⟩
  rw [((mp_prefetch_any_workers_outcomes (by omega) (by omega) h 8).1 s hrun).1 hf]
  decide

end Grain
