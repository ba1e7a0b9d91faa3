import Verif.Parallel.Lemmas
/-
C71: `run_in_parallel` (core/parallel.py:10-72), for every number of calls and threads and every schedule.
A run is any list of steps of the calling thread and of the pool's threads that are possible one after another.
-/
namespace Grain

/-- All calls succeed: the values, in the order of the arguments, whatever the schedule. -/
theorem parallel_returns_in_order (j : ParJob β) (v : Nat → β) (hw : 1 ≤ j.workers)
    (hv : ∀ i, i < j.n → j.call i = .ok (v i)) {as : List ParAct} {s : ParState β} {r : Except Err (List β)}
    (h : j.run j.init as = some s) (hr : s.main = .finished r) : r = .ok ((List.range j.n).map v) := by
  have hi := (par_run_inv (par_init_inv j hw) h).main
  rw [hr] at hi
  obtain ⟨_, _, _, h4, _⟩ := hi
  cases r with
  | error e =>
    obtain ⟨i, h5, h6⟩ := h4
    rw [hv i h5] at h6; cases h6
  | ok vs =>
    obtain ⟨h5, h6⟩ := h4
    congr 1
    apply List.ext_getElem?
    intro i
    rcases Nat.lt_or_ge i j.n with hl | hl
    · have h7 := h6 i hl
      rw [hv i hl] at h7
      obtain ⟨w, hw1, hw2⟩ := Option.map_eq_some_iff.1 h7
      cases hw2
      rw [hw1, List.getElem?_map, List.getElem?_range hl]; rfl
    · rw [List.getElem?_eq_none (by omega), List.getElem?_eq_none (by simp; omega)]

/-- Some call raises: `run_in_parallel` raises the exception of a call that raised, and never returns. -/
theorem parallel_raises_failure (j : ParJob β) (hw : 1 ≤ j.workers) {i : Nat} {e : Err} (hlt : i < j.n)
    (hc : j.call i = .error e) {as : List ParAct} {s : ParState β} {r : Except Err (List β)}
    (h : j.run j.init as = some s) (hr : s.main = .finished r) :
    ∃ i' e', i' < j.n ∧ j.call i' = .error e' ∧ r = .error e' := by
  have hi := (par_run_inv (par_init_inv j hw) h).main
  rw [hr] at hi
  obtain ⟨_, _, _, h4, _⟩ := hi
  cases r with
  | error e' =>
    obtain ⟨i', h5, h6⟩ := h4
    exact ⟨i', e', h5, h6, rfl⟩
  | ok vs =>
    have h7 := h4.2 i hlt
    rw [hc] at h7
    obtain ⟨w, _, hw2⟩ := Option.map_eq_some_iff.1 h7
    cases hw2

/-- At any time: calls are started in the order of the arguments, each at most once, and no more run than there are threads. -/
theorem parallel_calls_once (j : ParJob β) (hw : 1 ≤ j.workers) {as : List ParAct} {s : ParState β}
    (h : j.run j.init as = some s) :
    s.running ≤ j.workers ∧ ∃ k, k ≤ j.n ∧ s.started.reverse = List.range k := by
  have hi := par_run_inv (par_init_inv j hw) h
  obtain ⟨k, h1, h2, _, _⟩ := hi.started
  exact ⟨hi.bound, k, Nat.le_trans h2 hi.len, by rw [h1, List.reverse_reverse]⟩

/-- When it has returned or raised nothing is running or will be started; if it returned, every call was made. -/
theorem parallel_finished_is_over (j : ParJob β) (hw : 1 ≤ j.workers) {as : List ParAct} {s : ParState β}
    {r : Except Err (List β)} (h : j.run j.init as = some s) (hr : s.main = .finished r) :
    s.running = 0 ∧ (∀ a, j.step s a = none) ∧ ((∃ vs, r = .ok vs) → s.started.reverse = List.range j.n) := by
  have hinv := par_run_inv (par_init_inv j hw) h
  obtain ⟨k, h1, h2, _, _⟩ := hinv.started
  have hi := hinv.main
  obtain ⟨futs, main, started⟩ := s
  simp only at hr
  subst hr
  obtain ⟨h4, h5, h6, _, h8⟩ := hi
  refine ⟨h6, ?_, ?_⟩
  · intro a
    cases a with
    | submit => rfl
    | take i => rfl
    | exit => rfl
    | start =>
      simp only [ParJob.step]
      split
      · cases hp : firstPending futs with
        | none => rfl
        | some i => exact absurd rfl (h5 _ (List.mem_of_getElem? (firstPending_some hp).1))
      · rfl
    | finish i =>
      simp only [ParJob.step]
      split
      · rename_i hp
        exact absurd rfl (runningIn_zero h6 _ (List.mem_of_getElem? hp))
      · rfl
  · rintro ⟨vs, hv⟩
    have h9 := h8 vs hv
    rw [h1] at h9 ⊢
    rw [List.length_reverse, List.length_range] at h9
    rw [List.reverse_reverse, h9]

/-- It never gets stuck and always ends: some step is possible until it has returned or raised, and no schedule takes more than
`4 * n + 3` steps. -/
theorem parallel_ends (j : ParJob β) (hw : 1 ≤ j.workers) {as : List ParAct} {s : ParState β} (h : j.run j.init as = some s) :
    as.length ≤ 4 * j.n + 3 ∧ ((∃ r, s.main = .finished r) ∨ ∃ a s', j.step s a = some s') := by
  have h0 := par_init_inv j hw
  constructor
  · have := par_run_left h0 h
    have hl : j.left j.init = 4 * j.n + 3 := by
      unfold ParJob.init
      rw [if_neg (by omega)]
      simp only [ParJob.left, ParMain.weight, List.length_nil, List.map_nil, List.sum_nil]
      omega
    omega
  · by_cases hf : ∃ r, s.main = .finished r
    · exact .inl hf
    · exact .inr (par_progress hw (par_run_inv h0 h) (fun r hr => hf ⟨r, hr⟩))

/-- Without threads: `ValueError`, and nothing is called. -/
theorem parallel_needs_workers (j : ParJob β) (hw : j.workers < 1) :
    j.init.main = .finished (.error .valueError) ∧ ∀ as s, j.run j.init as = some s → s.started = [] := by
  unfold ParJob.init
  rw [if_pos hw]
  refine ⟨rfl, ?_⟩
  intro as s h
  cases as with
  | nil => cases h; rfl
  | cons a as =>
    obtain ⟨t, h1, _⟩ := Option.bind_eq_some_iff.1 h
    cases a with
    | submit => cases h1
    | take i => cases h1
    | exit => cases h1
    | start => simp only [ParJob.step] at h1; split at h1 <;> cases h1
    | finish i => cases h1

/-- Three calls on two threads; the second one is the slowest. -/
def threeCalls (call : Nat → Except Err Nat) : ParJob Nat := ⟨3, call, 2, fun _ => true⟩

example : ((threeCalls (fun i => .ok (10 * i))).run (threeCalls (fun i => .ok (10 * i))).init
      [.submit, .submit, .start, .submit, .start, .finish 0, .submit, .start, .finish 2, .take 2, .take 0, .finish 1, .take 1,
       .exit]).map (fun s => (s.main, s.started)) =
    some (.finished (.ok [0, 10, 20]), [2, 1, 0]) := by decide +kernel

/-- The second call raises while the third is waiting: it is never made, and the first, which runs, is waited for. -/
example : ((threeCalls (fun i => if i = 1 then .error (.user 0) else .ok i)).run
      (threeCalls (fun i => if i = 1 then .error (.user 0) else .ok i)).init
      [.submit, .submit, .submit, .submit, .start, .start, .finish 1, .take 1, .finish 0, .exit]).map
      (fun s => (s.main, s.started)) =
    some (.finished (.error (.user 0)), [1, 0]) := by decide +kernel

example : ((threeCalls (fun i => if i = 1 then .error (.user 0) else .ok i)).run
      (threeCalls (fun i => if i = 1 then .error (.user 0) else .ok i)).init
      [.submit, .submit, .submit, .submit, .start, .start, .finish 1, .take 1, .exit]).isNone = true := by decide +kernel

/-- The documentation says the first exception is propagated. `as_completed` hands out the calls that are complete when it is
first asked in no particular order, so the exception may be that of a call that raised later (F63). -/
theorem parallel_raises_later_failure :
    ∃ (call : Nat → Except Err Nat) (before after : List ParAct) (s : ParState Nat),
      (threeCalls call).run (threeCalls call).init (before ++ [.finish 0] ++ [.finish 1] ++ after) = some s ∧
      call 0 = .error .valueError ∧ s.main = .finished (.error .typeError) := by
  refine ⟨fun i => if i = 0 then .error .valueError else if i = 1 then .error .typeError else .ok i,
    [.submit, .start, .submit, .start], [.submit, .submit, .take 1, .exit],
    ⟨[.done (.error .valueError), .done (.error .typeError), .cancelled], .finished (.error .typeError), [1, 0]⟩, ?_, rfl, rfl⟩
  rfl

end Grain
