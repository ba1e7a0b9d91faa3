import Verif.Stack.RaiseUser
import Verif.Stack.RaiseMain
import Verif.Stack.RaiseThreads
import Verif.Iter.Example
/-
C108: exceptions of elements in stacks of thread prefetches, process prefetches, `mp_prefetch` and sequential
transformations.
-/
namespace Grain

/-- A stack of layers over a source whose elements may raise.  The second argument is the stream of outcomes that the
layers stand for: what one would get without any thread, except that a process prefetch ends with the first exception
(until the iterator is restored). -/
inductive RaiseStack : {β : Type} → ConcIter (Py β) → (Nat → Option (Py β)) → Prop
  /-- any sequential iterator that resumes exactly and goes on after an exception (C17–C28, C85, … prove it) -/
  | source {α : Type} {p : Iter α} {x : Nat → Option (Py α)} : ResumesStream p x → RaiseStack (Raise.ofIter p) x
  | prefetch {α : Type} {c : ConcIter (Py α)} {x : Nat → Option (Py α)} (size : Nat) : RaiseStack c x →
      RaiseStack (Raise.prefetchOver size c) x
  | process {α : Type} {c : ConcIter (Py α)} {x : Nat → Option (Py α)} (size : Nat) (keep : Bool) : 0 < size → RaiseStack c x →
      RaiseStack (Raise.processOver size keep c) (streamUntilRaise x)
  | map {α β : Type} {c : ConcIter (Py α)} {x : Nat → Option (Py α)} (f : α → Py β) : RaiseStack c x →
      RaiseStack (transOver (Raise.mapTrans f) c) (fun n => (x n).map (· >>= f))
  | mapWithIndex {α β : Type} {c : ConcIter (Py α)} {x : Nat → Option (Py α)} (f : Nat → α → Py β) : RaiseStack c x →
      RaiseStack (transOver (Raise.mapIndexTrans f) c) (streamIndexRaise f x)
  | limit {α : Type} {c : ConcIter (Py α)} {x : Nat → Option (Py α)} (count : Nat) : RaiseStack c x →
      RaiseStack (transOver (Raise.limitTrans count) c) (streamTakeRaise count x)
  | filter {α : Type} {c : ConcIter (Py α)} {x y : Nat → Option (Py α)} {pos : Nat → Nat} (f : α → Py Bool) :
      FilteredRaise f x y pos → RaiseStack c x → RaiseStack (transOver (Raise.filterTrans f) c) y
  | batch {α : Type} {c : ConcIter (Py α)} {x : Nat → Option (Py α)} (b : Nat) (drop : Bool) : 0 < b → RaiseStack c x →
      RaiseStack (transOver (Raise.batchTrans b drop) c) (streamBatchRaise b drop x)
  /-- `mp_prefetch` with one or several workers over a finite dataset; worker `i` has the outcomes `i, i + workers, …` of it -/
  | workers {α : Type} {workers : Nat} {c : Fin workers → ConcIter (Py α)} {zs : List (Py α)} (size : Nat) : 0 < workers →
      0 < size → (∀ i, RaiseStack (c i) (fun m => zs[m * workers + i.val]?)) →
      RaiseStack (Raise.mpPrefetchOver workers size c) (fun m => (workersOutcomes workers zs)[m]?)
  /-- `multithread_prefetch` over a finite dataset; thread `i` has the outcomes `i, i + threads, …` of it -/
  | threads {α : Type} {threads : Nat} {c : Fin threads → ConcIter (Py α)} {zs : List (Py α)} (size : Nat) : 0 < threads →
      (∀ i, RaiseStack (c i) (fun m => zs[m * threads + i.val]?)) →
      RaiseStack (Raise.multithreadPrefetchOver threads size c) (fun m => (threadsOutcomes threads zs)[m]?)
  /-- an interleave of finite datasets, all of which are open together -/
  | interleave {α : Type} {n cycle : Nat} {c : Fin n → ConcIter (Py α)} {xs : Nat → List (Py α)} : 0 < n → n ≤ cycle →
      (∀ i, RaiseStack (c i) (fun m => (xs i.val)[m]?)) →
      RaiseStack (Raise.interleaveOver n cycle c) (fun m => (interleaveOutcomes n xs)[m]?)

theorem RaiseStack.follows {β : Type} {c : ConcIter (Py β)} {x : Nat → Option (Py β)} (h : RaiseStack c x) :
    ∃ I K, Raise.Follows c x I K := by
  induction h with
  | source h =>
    obtain ⟨At, Ck, h⟩ := h
    exact ⟨_, _, Raise.ofIter_sim h⟩
  | prefetch size _ ih =>
    obtain ⟨I, K, h⟩ := ih
    exact ⟨_, _, Raise.prefetch_follows (size := size) h⟩
  | process size keep hs _ ih =>
    obtain ⟨I, K, h⟩ := ih
    exact ⟨_, _, Raise.process_follows (keep := keep) h hs⟩
  | map f _ ih =>
    obtain ⟨I, K, h⟩ := ih
    exact ⟨_, _, Raise.trans_follows h (Raise.mapTrans_computes f _)⟩
  | mapWithIndex f _ ih =>
    obtain ⟨I, K, h⟩ := ih
    exact ⟨_, _, Raise.trans_follows h (Raise.mapIndexTrans_computes f _)⟩
  | limit count _ ih =>
    obtain ⟨I, K, h⟩ := ih
    exact ⟨_, _, Raise.trans_follows h (Raise.limitTrans_computes count _)⟩
  | filter f hf _ ih =>
    obtain ⟨I, K, h⟩ := ih
    exact ⟨_, _, Raise.trans_follows h (Raise.filterTrans_computes hf)⟩
  | batch b drop hb _ ih =>
    obtain ⟨I, K, h⟩ := ih
    exact ⟨_, _, Raise.trans_follows h (Raise.batchTrans_computes hb drop _)⟩
  | workers size hw hs _ ih => exact Raise.mpPrefetch_follows hw hs ih
  | threads size ht _ ih => exact Raise.multithread_follows ht ih
  | interleave hn hc _ ih => exact Raise.interleave_follows hn hc ih

variable {α : Type}

/-- C108: `random_map` is a layer too: the random numbers of an element depend on how many elements came before it, whatever
the threads below do and whatever raised. -/
theorem RaiseStack.randomMap {β : Type} {c : ConcIter (Py α)} {x : Nat → Option (Py α)} (f : α → Nat → Py β) (procIndex procCount : Nat)
    (h : RaiseStack c x) : RaiseStack (transOver (Raise.randomMapTrans f procIndex procCount) c)
      (streamIndexRaise (fun i a => f a (procIndex + i * procCount)) x) :=
  .mapWithIndex _ h

/-- C108: whatever the schedule of all the threads and processes of the stack, what a user who reads (and goes on after exceptions),
saves, rewinds and restarts after crashes has seen is at every moment the beginning of something that the stream of
outcomes allows for these calls, and is all of it when the calls are done: every exception is raised in its place, no
element is lost, repeated or reordered, and a restored iterator at most raises again exceptions that were raised
already. -/
theorem raising_stack_outcomes {c : ConcIter (Py α)} {x : Nat → Option (Py α)} (h : RaiseStack c x) {prog : List Op}
    (hprog : savedFirst 0 prog = true) {s : UserSys c} (hrun : UserRun c (userInit c prog) s) :
    (∃ rest, LagRun x 0 [] prog (s.outs ++ rest)) ∧ (s.finished → LagRun x 0 [] prog s.outs) := by
  obtain ⟨I, K, hf⟩ := h.follows
  obtain ⟨n, ps, h1, h2, h3, h4⟩ := Raise.userInv_run hf hprog hrun
  constructor
  · revert h4
    cases s.mode with
    | next =>
      intro h4
      obtain ⟨rest, hr⟩ := Raise.lagRun_exists x s.prog (nextPos x n) ps h3
      exact ⟨_, h4 rest hr⟩
    | idle =>
      intro h4
      obtain ⟨rest, hr⟩ := Raise.lagRun_exists x s.prog n ps h3
      exact ⟨_, h4 rest hr⟩
    | set =>
      intro h4
      obtain ⟨rest, hr⟩ := Raise.lagRun_exists x s.prog n ps h3
      exact ⟨_, h4 rest hr⟩
  · rintro ⟨hm, hp⟩
    rw [hm] at h4
    have := h4 [] (by rw [hp]; exact .nil)
    simpa using this

/-- C108: no exception leaves the stack in a deadlock: until the user is done, some thread can go on. -/
theorem raising_stack_no_deadlock {c : ConcIter (Py α)} {x : Nat → Option (Py α)} (h : RaiseStack c x) {prog : List Op}
    (hprog : savedFirst 0 prog = true) {s : UserSys c} (hrun : UserRun c (userInit c prog) s) (hf : ¬ s.finished) :
    ∃ t, UserStep c s t := by
  obtain ⟨I, K, hF⟩ := h.follows
  exact Raise.user_live hF (Raise.userInv_run hF hprog hrun) hf

/-- C108: no schedule goes on for ever: every call returns or raises. -/
theorem raising_stack_terminates {c : ConcIter (Py α)} {x : Nat → Option (Py α)} (h : RaiseStack c x) {prog : List Op}
    (hprog : savedFirst 0 prog = true) (f : Nat → UserSys c) (h0 : f 0 = userInit c prog) :
    ¬ ∀ i, UserStep c (f i) (f (i + 1)) := by
  obtain ⟨I, K, hF⟩ := h.follows
  have hacc : Acc (fun t s => UserStep c s t) (f 0) := by
    rw [h0]
    exact Raise.user_acc hF (Raise.userInv_init hF hprog)
  intro hall
  have : ∀ s, Acc (fun t s => UserStep c s t) s → ∀ i, f i = s → False := by
    intro s hs
    induction hs with
    | intro s _ ih =>
      rintro i rfl
      exact ih _ (hall i) (i + 1) rfl
  exact this _ hacc 0 rfl

/-- C108, for a user who only reads, and goes on after exceptions: the outcomes of the stream, in order. -/
theorem raising_stack_reads_in_order {c : ConcIter (Py α)} {x : Nat → Option (Py α)} (h : RaiseStack c x) {k : Nat}
    (hx : ∀ j < k, (x j).isSome) {s : UserSys c} (hrun : UserRun c (userInit c (List.replicate k .next)) s)
    (hf : s.finished) : s.outs = (List.range k).map x := by
  have hprog : ∀ k, savedFirst 0 (List.replicate k .next) = true := by
    intro k
    induction k with
    | zero => rfl
    | succ k ih => exact ih
  have := Raise.lagRun_reads k 0 ((raising_stack_outcomes h (hprog k) hrun).2 hf) (fun j hj => by rw [Nat.zero_add]; exact hx j hj)
  simpa using this

/-- C108, for streams without exceptions: checkpoints are exact. -/
theorem raising_stack_exact {c : ConcIter (Py α)} {x : Nat → Option (Py α)} (h : RaiseStack c x)
    (hx : ∀ n e, x n ≠ some (.error e)) {prog : List Op} (hprog : savedFirst 0 prog = true) {s : UserSys c}
    (hrun : UserRun c (userInit c prog) s) (hf : s.finished) : streamRun x 0 [] prog = some s.outs :=
  Raise.lagRun_exact (fun n ⟨e, he⟩ => hx n e he) ((raising_stack_outcomes h hprog hrun).2 hf)

/-- C108: a checkpoint taken right after an element is exact also when elements raise: a user who reads `n + 1` outcomes, the
last of which is an element, saves, and restarts in a new process, goes on with outcome `n + 1`. -/
theorem raising_stack_resumes_after_element {c : ConcIter (Py α)} {x : Nat → Option (Py α)} (h : RaiseStack c x) {n k : Nat}
    (hx : ∀ j < n + 1 + k, (x j).isSome) {a : α} (ha : x n = some (.ok a)) {s : UserSys c}
    (hrun : UserRun c (userInit c (List.replicate (n + 1) .next ++ .save :: .fresh 0 :: List.replicate k .next)) s)
    (hf : s.finished) : s.outs = (List.range (n + 1 + k)).map x := by
  have hreps : ∀ k m, savedFirst m (List.replicate k .next) = true := by
    intro k
    induction k with
    | zero => intro m; rfl
    | succ k ih => intro m; exact ih m
  have happ : ∀ j m ops, savedFirst m (List.replicate j .next ++ ops) = savedFirst m ops := by
    intro j
    induction j with
    | zero => intro m ops; rfl
    | succ j ih => intro m ops; exact ih m ops
  have hprog : savedFirst 0 (List.replicate (n + 1) .next ++ .save :: .fresh 0 :: List.replicate k .next) = true := by
    rw [happ]
    simp [savedFirst, hreps]
  have key : ∀ j i outs, LagRun x i [] (List.replicate j .next ++ .save :: .fresh 0 :: List.replicate k .next) outs →
      i + j = n + 1 → outs = (List.range j).map (fun t => x (i + t)) ++ (List.range k).map (fun t => x (n + 1 + t)) := by
    intro j
    induction j with
    | zero =>
      intro i outs hr hi
      rw [List.replicate_zero, List.nil_append] at hr
      cases hr with
      | save p hp hr =>
        have hpn : p = n + 1 := by
          by_contra hne
          have h1 := hp.1
          obtain ⟨e, he⟩ := hp.2 n (by omega) (by omega)
          rw [ha] at he
          cases he
        cases hr with
        | fresh _ q hq hr =>
          simp only [List.nil_append, List.getElem?_cons_zero, Option.some.injEq] at hq
          subst hq hpn
          have aux : ∀ k m sv outs, LagRun x m sv (List.replicate k .next) outs → (∀ t < k, (x (m + t)).isSome) →
              outs = (List.range k).map (fun t => x (m + t)) := by
            intro k m sv outs hr hs
            refine Raise.lagRun_reads k m ?_ hs
            clear hs
            induction k generalizing m outs with
            | zero => cases hr; exact .nil
            | succ k ih =>
              rw [List.replicate_succ] at hr ⊢
              cases hr with
              | next hr => exact .next (ih _ _ hr)
          simpa using aux k _ _ _ hr (fun t ht => hx _ (by omega))
    | succ j ih =>
      intro i outs hr hi
      rw [List.replicate_succ, List.cons_append] at hr
      cases hr with
      | next hr =>
        have hn : nextPos x i = i + 1 := by
          obtain ⟨a, ha⟩ := Option.isSome_iff_exists.1 (hx i (by omega))
          simp [nextPos, ha]
        rw [hn] at hr
        rw [ih _ _ hr (by omega), List.range_succ_eq_map (n := j), List.map_cons, List.map_map]
        simp only [Nat.add_zero, List.cons_append, List.cons.injEq, true_and]
        congr 1
        refine List.map_congr_left (fun t _ => ?_)
        simp only [Function.comp]
        congr 1
        omega
  have := key (n + 1) 0 _ ((raising_stack_outcomes h hprog hrun).2 hf) (by omega)
  rw [this, List.range_add (n := n + 1), List.map_append, List.map_map]
  simp only [Nat.zero_add]
  rfl

/-! ### The hypotheses are met -/

/-- A source of which the second and the third element raise. -/
theorem raising_source : RaiseStack (Raise.ofIter (listIter [.ok 1, .error (.user 7), .error (.user 8), .ok 2, .ok (3 : Nat)]))
    (fun n => [Except.ok 1, .error (.user 7), .error (.user 8), .ok 2, .ok 3][n]?) :=
  .source (listIter_resumes _).stream

/-- Prefetches with a raising map and a batch between them: what they stand for. -/
example : ∃ c : ConcIter (Py (List Nat)), ∃ x, RaiseStack c x ∧ (List.range 6).map x =
    [some (.error (.user 7)), some (.error (.user 8)), some (.error (.user 9)), some (.ok [6]), none, none] :=
  ⟨_, _, .prefetch 2 (.batch 2 false (by omega) (.map (fun a => if a = 2 then .error (.user 9) else .ok (2 * a))
    (.prefetch 3 raising_source))), by decide⟩

/-- A process prefetch under a thread prefetch ends with the first exception, also when it is one of a batch. -/
example : ∃ c : ConcIter (Py (List Nat)), ∃ x, RaiseStack c x ∧ (List.range 6).map x =
    [some (.ok [1, 2]), some (.error (.user 9)), none, none, none, none] :=
  ⟨_, _, .prefetch 2 (.process 1 true (by omega) (.batch 2 false (by omega)
    (.map (fun a => if a = 3 then .error (.user 9) else .ok a) (.prefetch 3
      (.source (listIter_resumes [.ok 1, .ok 2, .ok 3, .ok 4, .ok (5 : Nat)]).stream))))), by decide⟩

/-- A limit counts elements only, and so does the index. -/
example : (List.range 5).map (streamTakeRaise 2 (fun n => [Except.ok 1, .error (.user 7), .ok 2, .ok (3 : Nat)][n]?)) =
    [some (.ok 1), some (.error (.user 7)), some (.ok 2), none, none] ∧
    (List.range 4).map (streamIndexRaise (fun i (a : Nat) => if a = 2 then .error (.user 9) else .ok (10 * i + a))
      (fun n => [Except.ok 1, .error (.user 7), .ok 2, .ok (3 : Nat)][n]?)) =
    [some (.ok 1), some (.error (.user 7)), some (.error (.user 9)), some (.ok 13)] := by
  decide

/-- A filter of which the predicate raises. -/
example : FilteredRaise (fun a => if a = 2 then .error (.user 9) else .ok (a == 3))
    (fun n => [Except.ok 1, .error (.user 7), .ok 2, .ok (3 : Nat)][n]?)
    (fun n => [Except.error (.user 7), .error (.user 9), .ok (3 : Nat)][n]?) (fun m => if m = 0 then 0 else min (m + 1) 4) := by
  refine ⟨rfl, fun m => ?_⟩
  match m with
  | 0 => exact ⟨1, by intro i hi; obtain rfl : i = 0 := by omega
                      exact ⟨1, rfl, rfl⟩, Or.inr (Or.inr (Or.inl ⟨_, rfl, rfl, rfl⟩))⟩
  | 1 => exact ⟨0, by intro i hi; omega, Or.inr (Or.inl ⟨2, _, rfl, rfl, rfl, rfl⟩)⟩
  | 2 => exact ⟨0, by intro i hi; omega, Or.inl ⟨3, rfl, rfl, rfl, rfl⟩⟩
  | m + 3 =>
    refine ⟨0, by intro i hi; omega, Or.inr (Or.inr (Or.inr ⟨?_, ?_, ?_⟩))⟩
    · simp only [List.getElem?_eq_none_iff, List.length_cons, List.length_nil]
      split <;> omega
    · simp only [List.getElem?_eq_none_iff, List.length_cons, List.length_nil]
      omega
    · dsimp only
      rw [if_neg (by omega), if_neg (by omega)]
      omega

/-- A user who saves after the second exception may see it again after a restart, or not, but every element once. -/
example : let x := fun n => [Except.ok 1, .error (.user 7), .error (.user 8), .ok 2, .ok (3 : Nat)][n]?
    savedFirst 0 [.next, .next, .next, .save, .fresh 0, .next, .next] = true ∧
    LagRun x 0 [] [.next, .next, .next, .save, .fresh 0, .next, .next]
      [some (.ok 1), some (.error (.user 7)), some (.error (.user 8)), some (.error (.user 8)), some (.ok 2)] ∧
    LagRun x 0 [] [.next, .next, .next, .save, .fresh 0, .next, .next]
      [some (.ok 1), some (.error (.user 7)), some (.error (.user 8)), some (.ok 2), some (.ok 3)] := by
  refine ⟨rfl, ?_, ?_⟩
  · refine .next (.next (.next (.save 2 ⟨by decide, ?_⟩ (.fresh 0 2 rfl (.next (.next .nil))))))
    intro j h1 h2
    obtain rfl : j = 2 := by simp [nextPos] at h2; omega
    exact ⟨_, rfl⟩
  · exact .next (.next (.next (.save 3 .refl (.fresh 0 3 rfl (.next (.next .nil))))))

end Grain
