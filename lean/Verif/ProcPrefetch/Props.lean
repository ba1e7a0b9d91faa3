import Verif.ProcPrefetch.Live
import Verif.ProcPrefetch.Shm
import Verif.ProcPrefetch.Delete
import Verif.ThreadPrefetch.Props
import Verif.Iter.Example
/-
Properties C30 and C47: prefetching in a worker process.

`PPRun p size keep crashes (ppInit p prog) s`: starting from a new `ProcessPrefetchDatasetIterator` over the parent `p` with
buffer size `size`, and a user making the calls `prog`, some steps of the two processes in some order lead to `s`.
`viewRun x idx .start prog` are the outcomes an ideal iterator over the parent's stream `x` would give.  `crashes = true` allows
the worker process to die at any moment.  `idx` says at which positions the parent supports `get_next_index` and `set_next_index`
(`ResumesIdx`); for a parent that supports them nowhere, `ResumesStream.noIdx`.
-/
namespace Grain

section
variable {p : Iter α} {x : Nat → Option (Py α)} {size : Nat} {idx : Nat → Bool} {keep crashes : Bool} {prog : List TOp} {outs : List (Res α ⊕ Int)}

theorem viewRun_of_rel {v w : PView} {ops : List TOp} {o : List (Res α ⊕ Int)} (h : ViewRun x idx false v ops o w) (rest : List TOp) :
    viewRun x idx v (ops ++ rest) = (viewRun x idx w rest).map (o ++ ·) := by
  induction h generalizing rest with
  | nil => simp
  | @call ops outs w op w' o _ hstep ih =>
    rw [List.append_assoc, ih, List.singleton_append, viewRun, hstep]
    simp only [Option.map_map]
    congr 1
    funext r
    simp
  | crash hc => cases hc

/-- The calls make sense if the ideal iterator has outcomes for them. -/
theorem callsOk_of_viewRun (h : viewRun x idx .start prog = some outs) : callsOk x idx false prog := by
  intro done op rest o v hp hv
  rw [hp, viewRun_of_rel hv] at h
  obtain ⟨o', h', _⟩ := option_map_some h
  rw [viewRun] at h'
  cases hs : viewStep x idx v op with
  | none => rw [hs] at h'; cases h'
  | some r => exact ⟨r, rfl⟩

theorem restoresOk_append : ∀ (a b : List TOp) (n : Nat), restoresOk n (a ++ b) → restoresOk (n + a.countP (· = .save)) b := by
  intro a
  induction a with
  | nil => intro b n h; exact h
  | cons op a ih =>
    intro b n h
    have key : op ≠ .save → restoresOk n (a ++ b) → restoresOk (n + (op :: a).countP (· = .save)) b := by
      intro hop h
      rw [List.countP_cons_of_neg (by simpa using hop)]
      exact ih _ _ h
    cases op with
    | save =>
      rw [List.countP_cons_of_pos (by simp)]
      have := ih b (n + 1) h
      rw [show n + 1 + a.countP (· = .save) = n + (a.countP (· = .save) + 1) by omega] at this
      exact this
    | next => exact key (by simp) h
    | restore k => exact key (by simp) h.2
    | fresh k => exact key (by simp) h.2
    | start => exact key (by simp) h
    | close => exact key (by simp) h
    | index => exact h.elim
    | setIndex i => exact h.elim

theorem viewRun_saved {v w : PView} {ops : List TOp} {o : List (Res α ⊕ Int)} (h : ViewRun x idx crashes v ops o w) :
    w.saved.length = v.saved.length + ops.countP (· = .save) := by
  induction h with
  | nil => rfl
  | @call ops outs w op w' o _ hstep ih =>
    rw [List.countP_append]
    cases op <;> simp only [viewStep] at hstep
    case next =>
      repeat' split at hstep
      all_goals cases hstep; simpa using ih
    case save => cases hstep; simp [ih]; omega
    case restore k =>
      obtain ⟨q, _, hr⟩ := option_map_some hstep
      cases hr
      simpa using ih
    case fresh k =>
      obtain ⟨q, _, hr⟩ := option_map_some hstep
      cases hr
      simpa using ih
    case start =>
      split at hstep
      all_goals cases hstep; simpa using ih
    case close => cases hstep; simpa using ih
    case index =>
      split at hstep
      · cases hstep; simpa using ih
      · cases hstep
    case setIndex i =>
      split at hstep
      · cases hstep; simpa using ih
      · cases hstep
  | crash _ _ _ _ ih => simpa [List.countP_append] using ih

/-- The calls make sense, whenever workers die, if every restore refers to a state saved earlier and there are no index calls. -/
theorem callsOk_of_restoresOk (h : restoresOk 0 prog) : callsOk x idx crashes prog := by
  intro done op rest o v hp hv
  have h1 := viewRun_saved hv
  rw [hp] at h
  have h2 := restoresOk_append _ _ _ h
  have h3 : v.saved.length = 0 + done.countP (· = .save) := h1
  rw [← h3] at h2
  cases op with
  | next => simp only [viewStep]; (repeat' split) <;> exact ⟨_, rfl⟩
  | save => exact ⟨_, rfl⟩
  | restore k => exact ⟨_, by rw [viewStep, List.getElem?_eq_getElem h2.1]; rfl⟩
  | fresh k => exact ⟨_, by rw [viewStep, List.getElem?_eq_getElem h2.1]; rfl⟩
  | start => simp only [viewStep]; split <;> exact ⟨_, rfl⟩
  | close => exact ⟨_, rfl⟩
  | index => exact h2.elim
  | setIndex i => exact h2.elim

/-- C30, safety: whatever the schedule, the number of restores and the number of elements in flight, the outcomes so far are
the ideal ones. -/
theorem process_prefetch_exact (hp : ResumesIdx p x idx) (hideal : viewRun x idx .start prog = some outs)
    {s : PPSys p} (hrun : PPRun p size keep false (ppInit p prog) s) :
    s.outs <+: outs ∧ (s.pc = .idle → s.prog = [] → s.outs = outs) := by
  obtain ⟨At, Ck, sim, hidx⟩ := hp
  obtain ⟨v, l, done, h1, h2, h3, h4, h5, h6, h7, h8⟩ := ppGood_run sim hidx (callsOk_of_viewRun hideal) ppGood_init hrun
  rw [h6, viewRun_of_rel h7] at hideal
  obtain ⟨o, e1, e2⟩ := option_map_some hideal
  refine ⟨⟨o, e2⟩, ?_⟩
  intro _ hprog
  rw [hprog] at e1
  cases e1
  simpa using e2

/-- C30, no deadlock: if no process can make a step then all calls have returned. -/
theorem process_prefetch_no_deadlock (hp : ResumesIdx p x idx) (hsize : 0 < size) (hideal : viewRun x idx .start prog = some outs)
    {s : PPSys p} (hrun : PPRun p size keep false (ppInit p prog) s) (hstuck : ∀ s', ¬ PPStep p size keep false s s') :
    s.pc = .idle ∧ s.prog = [] ∧ s.outs = outs := by
  have hinv := process_prefetch_exact hp hideal hrun
  obtain ⟨At, Ck, sim, hidx⟩ := hp
  have hg := ppGood_run sim hidx (callsOk_of_viewRun hideal) ppGood_init hrun
  have hidle : s.pc = .idle ∧ s.prog = [] := by
    by_contra hc
    rcases pp_progress (keep := keep) sim hidx (callsOk_of_viewRun hideal) hsize hg (by
      by_cases h1 : s.pc = .idle
      · exact Or.inr (fun h2 => hc ⟨h1, h2⟩)
      · exact Or.inl h1) with ⟨s', hs'⟩ | ⟨_, _, _, w, hw, hd⟩
    · exact hstuck s' hs'
    · obtain ⟨v, l, done, h1, h2, h3, h4, h5, h6, h7, h8⟩ := hg
      exact (h8 rfl).2 w hw hd
  exact ⟨hidle.1, hidle.2, hinv.2 hidle.1 hidle.2⟩

/-- C30, no livelock: there is no infinite run, also if workers die; so every call returns or hangs without a step. -/
theorem process_prefetch_terminates (hp : ResumesIdx p x idx) (hok : callsOk x idx crashes prog) (run : Nat → PPSys p)
    (h0 : run 0 = ppInit p prog) : ¬ ∀ i, PPStep p size keep crashes (run i) (run (i + 1)) := by
  intro hsteps
  obtain ⟨At, Ck, sim, hidx⟩ := hp
  have hg : ∀ i, PPGood x At Ck idx crashes prog (run i) := by
    intro i
    induction i with
    | zero => rw [h0]; exact ppGood_init
    | succ i ih => exact ppGood_step sim hidx hok ih (hsteps i)
  have key : ∀ m i, ppMeasure size (run i) = m → False := by
    intro m
    induction m using ppLess_wf.induction with
    | _ m ih =>
      intro i hi
      exact ih _ (by rw [← hi]; exact pp_decreases sim hidx (hg i) (hsteps i)) (i + 1) rfl
  exact key _ 0 rfl

/-- C30 with worker failures, safety: whenever workers die, the outcomes of the calls made so far (`done`) are ideal, except
that a `next` may raise `RuntimeError`; it never returns a wrong element, and after a later restore the right elements come
again. -/
theorem process_prefetch_exact_with_failures (hp : ResumesIdx p x idx) (hok : callsOk x idx crashes prog)
    {s : PPSys p} (hrun : PPRun p size keep crashes (ppInit p prog) s) :
    ∃ done v, prog = done ++ s.prog ∧ ViewRun x idx crashes .start done s.outs v := by
  obtain ⟨At, Ck, sim, hidx⟩ := hp
  obtain ⟨v, l, done, h1, h2, h3, h4, h5, h6, h7, h8⟩ := ppGood_run sim hidx hok ppGood_init hrun
  exact ⟨done, v, h6, h7⟩

/-- C30, worker failures are reported, in part: the only way in which the calls may not return is a `next` waiting for a
worker that died while a `set_state` was pending.  The full statement (they always return) is false:
`process_prefetch_failure_not_reported`. -/
theorem process_prefetch_failure_reported_partial (hp : ResumesIdx p x idx) (hsize : 0 < size) (hok : callsOk x idx crashes prog)
    {s : PPSys p} (hrun : PPRun p size keep crashes (ppInit p prog) s) (hstuck : ∀ s', ¬ PPStep p size keep crashes s s') :
    (s.pc = .idle ∧ s.prog = []) ∨
    (s.pc = .get ∧ s.buf = [] ∧ s.setCount ≠ 0 ∧ ∃ w, s.worker = some w ∧ w.pc = .dead) := by
  obtain ⟨At, Ck, sim, hidx⟩ := hp
  have hg := ppGood_run sim hidx hok ppGood_init hrun
  by_cases hidle : s.pc = .idle ∧ s.prog = []
  · exact Or.inl hidle
  · right
    rcases pp_progress (keep := keep) sim hidx hok hsize hg (by
      by_cases h1 : s.pc = .idle
      · exact Or.inr (fun h2 => hidle ⟨h1, h2⟩)
      · exact Or.inl h1) with ⟨s', hs'⟩ | h
    · exact absurd hs' (hstuck s')
    · exact h

/-- Without restores nothing is ever pending. -/
theorem pp_no_restores {s : PPSys p} (hrun : PPRun p size keep crashes (ppInit p prog) s)
    (hno : ∀ k, TOp.restore k ∉ prog ∧ TOp.fresh k ∉ prog ∧ TOp.setIndex k ∉ prog) :
    s.setCount = 0 ∧ (∀ c, s.pc ≠ .set1 c ∧ s.pc ≠ .set2 c) ∧ ∀ k, TOp.restore k ∉ s.prog ∧ TOp.fresh k ∉ s.prog ∧ TOp.setIndex k ∉ s.prog := by
  induction hrun with
  | refl => exact ⟨rfl, by intro c; simp [ppInit], hno⟩
  | @step t u _ hst ih =>
    obtain ⟨h1, h2, h3⟩ := ih
    have htail : ∀ op ops, t.prog = op :: ops → ∀ k, TOp.restore k ∉ ops ∧ TOp.fresh k ∉ ops ∧ TOp.setIndex k ∉ ops := by
      intro op ops hp k
      have := h3 k
      rw [hp] at this
      exact ⟨fun h => this.1 (List.mem_cons_of_mem _ h), fun h => this.2.1 (List.mem_cons_of_mem _ h), fun h => this.2.2 (List.mem_cons_of_mem _ h)⟩
    cases hst with
    | @set_clear _ k _ _ _ hprog => exact absurd (by rw [hprog]; simp) (h3 k).1
    | @fresh _ k _ _ hprog => exact absurd (by rw [hprog]; simp) (h3 k).2.1
    | @jump_clear _ _ i _ hprog => exact absurd (by rw [hprog]; simp) (h3 i).2.2
    | set_put hpc => exact absurd hpc (h2 _).1
    | set_done hpc => exact absurd hpc (h2 _).2
    | next_over _ hprog => exact ⟨h1, h2, htail _ _ hprog⟩
    | next_closed _ hprog => exact ⟨h1, h2, htail _ _ hprog⟩
    | get_marker => exact ⟨by show t.setCount - 1 = 0; omega, h2, h3⟩
    | get_elem _ hprog => exact ⟨h1, by intro c; simp, htail _ _ hprog⟩
    | get_end _ hprog => exact ⟨h1, by intro c; simp, htail _ _ hprog⟩
    | save _ hprog => exact ⟨h1, h2, htail _ _ hprog⟩
    | save_zero _ hprog => exact ⟨h1, h2, htail _ _ hprog⟩
    | save_index _ hprog => exact ⟨h1, h2, htail _ _ hprog⟩
    | index_known _ hprog => exact ⟨h1, h2, htail _ _ hprog⟩
    | index _ hprog => exact ⟨h1, h2, htail _ _ hprog⟩
    | start_closed _ hprog => exact ⟨h1, h2, htail _ _ hprog⟩
    | start _ hprog => exact ⟨h1, h2, htail _ _ hprog⟩
    | start_again _ hprog => exact ⟨h1, h2, htail _ _ hprog⟩
    | close _ hprog => exact ⟨h1, h2, htail _ _ hprog⟩
    | @stop2 k j => exact ⟨by show t.setCount - j = 0; omega, by intro c; simp, h3⟩
    | raise _ _ hprog => exact ⟨rfl, by intro c; simp, htail _ _ hprog⟩
    | closed _ _ hprog => exact ⟨rfl, by intro c; simp, htail _ _ hprog⟩
    | kill_raise _ _ hprog => exact ⟨rfl, by intro c; simp, htail _ _ hprog⟩
    | kill_close _ _ hprog => exact ⟨rfl, by intro c; simp, htail _ _ hprog⟩
    | next_start => exact ⟨h1, by intro c; simp, h3⟩
    | next_wait => exact ⟨h1, by intro c; simp, h3⟩
    | get_err => exact ⟨h1, by intro c; simp, h3⟩
    | get_dead => exact ⟨h1, by intro c; simp, h3⟩
    | close_stop => exact ⟨h1, by intro c; simp, h3⟩
    | stop1_end => exact ⟨h1, by intro c; simp, h3⟩
    | join => exact ⟨h1, by intro c; simp, h3⟩
    | _ => exact ⟨h1, h2, h3⟩

/-- C30, worker failures are reported when the program neither restores a state nor jumps to an index: all calls return, whenever
workers die. -/
theorem process_prefetch_failure_reported_no_restore (hp : ResumesIdx p x idx) (hsize : 0 < size)
    (hno : ∀ k, TOp.restore k ∉ prog ∧ TOp.fresh k ∉ prog ∧ TOp.setIndex k ∉ prog) (hok : callsOk x idx crashes prog)
    {s : PPSys p} (hrun : PPRun p size keep crashes (ppInit p prog) s) (hstuck : ∀ s', ¬ PPStep p size keep crashes s s') :
    s.pc = .idle ∧ s.prog = [] := by
  rcases process_prefetch_failure_reported_partial hp hsize hok hrun hstuck with h | ⟨_, _, hz, _⟩
  · exact h
  · exact absurd (pp_no_restores hrun hno).1 hz

/-- When `close` has returned there is no worker process. -/
theorem process_prefetch_close_stops (hp : ResumesIdx p x idx) (hok : callsOk x idx crashes prog)
    {s : PPSys p} (hrun : PPRun p size keep crashes (ppInit p prog) s) (hidle : s.pc = .idle) (hclosed : s.closed = true) :
    s.worker = none := by
  obtain ⟨At, Ck, sim, hidx⟩ := hp
  obtain ⟨v, l, done, h1, h2, h3, h4, h5, h6, h7, h8⟩ := ppGood_run sim hidx hok ppGood_init hrun
  rw [hidle] at h1
  by_contra hc
  have := (h1.2.2.2.1 hc).2
  rw [hclosed] at this
  cases this

/-- The result queue never holds more than `buffer_size` entries. -/
theorem process_prefetch_buffer_bound {s : PPSys p} (hrun : PPRun p size keep crashes (ppInit p prog) s) :
    s.buf.length ≤ size := by
  induction hrun with
  | refl => simp [ppInit]
  | @step t u _ hst ih =>
    cases hst with
    | mark _ _ hroom => simp; omega
    | put _ _ hroom => simp; omega
    | fail_put _ _ hroom => simp; omega
    | leave _ _ hb => rw [hb] at ih; simp at ih ⊢; omega
    | fail_clear _ _ hb => rw [hb] at ih; simp at ih ⊢; omega
    | get_marker _ hb => rw [hb] at ih; simp at ih ⊢; omega
    | get_stale _ hb => rw [hb] at ih; simp at ih ⊢; omega
    | get_elem _ _ hb => rw [hb] at ih; simp at ih ⊢; omega
    | get_end _ _ hb => rw [hb] at ih; simp at ih ⊢; omega
    | get_err _ hb => rw [hb] at ih; simp at ih ⊢; omega
    | stop1 _ hb => rw [hb] at ih; simp at ih ⊢; omega
    | stop3 _ hb => rw [hb] at ih; simp at ih ⊢; omega
    | fresh => simp [ppInit]
    | _ => exact ih

/-- C47, hand-over: under every schedule, every block made by the worker is at any moment in exactly one place: in the
queue, in the worker's hands, unlinked, or given to the user (`ppBlocks` lists these places); no block is unlinked twice, or
both unlinked and given. -/
theorem shared_memory_in_one_place {s : PPSys p} (hrun : PPRun p size keep false (ppInit p prog) s) :
    (ppBlocks s).Perm (List.range s.made) ∧ (s.freed ++ s.given).Nodup := by
  have h := List.perm_iff_count.2 (ppShm_run hrun).1
  refine ⟨h, ?_⟩
  have hn : (ppBlocks s).Nodup := h.nodup_iff.2 List.nodup_range
  unfold ppBlocks at hn
  exact (List.nodup_append.1 (List.nodup_append.1 hn).2.1).2.1

/-- C47, stops: whenever there is no worker process (after `close`, after the end of the data, after an error) every block
ever made has been unlinked or given to the user. -/
theorem shared_memory_all_released {s : PPSys p} (hrun : PPRun p size keep false (ppInit p prog) s) (hw : s.worker = none) :
    (s.freed ++ s.given).Perm (List.range s.made) := by
  have h := (shared_memory_in_one_place hrun).1
  unfold ppBlocks at h
  rw [(ppShm_run hrun).2.1 hw, hw] at h
  simpa [ppHeld] using h

end

/-- C47, deletion: under every schedule of the user's threads and the deletion threads, every block given to the user is
held, waiting for deletion, or has been unlinked exactly as often as it was given (once); the blocks waiting for deletion are
at most `max_outstanding_requests` (50, or the number of deletion threads). -/
theorem shared_memory_deleted_once {maxOut threads : Nat} {s : DelSys} (hrun : DelRun maxOut threads s) :
    s.given.Perm (s.live ++ s.queued ++ s.unlinked) ∧ s.queued.length + s.closing ≤ max maxOut threads := by
  obtain ⟨h1, h2, h3⟩ := del_invariant hrun
  refine ⟨List.perm_iff_count.2 (by intro j; rw [h1 j]; simp [Nat.add_assoc]), ?_⟩
  cases hp : s.pool with
  | true => have := h2 hp; omega
  | false => obtain ⟨a, b⟩ := h3 hp; simp [a, b]

/-- All arrays dropped and all requests processed: everything is unlinked, once. -/
theorem shared_memory_deleted_finally {maxOut threads : Nat} {s : DelSys} (hrun : DelRun maxOut threads s)
    (hl : s.live = []) (hq : s.queued = []) : s.given.Perm s.unlinked := by
  have := (shared_memory_deleted_once hrun).1
  simpa [hl, hq] using this

/-- The hypotheses are met. -/
example : ∃ outs, viewRun (fun n => some (if n % 3 = 2 then .error .keyError else .ok n)) noIdx .start
    [.start, .next, .save, .next, .next, .next, .save, .restore 0, .next, .fresh 1, .next, .close, .next] = some outs := ⟨_, rfl⟩
example : ∃ outs, viewRun (fun n => some (.ok n)) (fun _ => true) .start
    [.index, .next, .save, .setIndex 7, .next, .index, .restore 0, .index, .next] = some outs := ⟨_, rfl⟩
example : callsOk (fun n => some (.ok n)) noIdx true
    [.start, .next, .save, .next, .next, .next, .save, .restore 0, .next, .fresh 1, .next, .close, .next] :=
  callsOk_of_restoresOk (by simp [restoresOk])
example : ResumesIdx (listIter [Except.ok 1, .error .keyError, .ok 3]) (fun n => [Except.ok 1, .error .keyError, .ok 3][n]?) noIdx :=
  (listIter_resumes _).stream.noIdx
example : DelRun 50 1 { pool := true, sem := 49, given := [7], live := [], queued := [7], closing := 0, unlinked := [] } :=
  .step (.step (.step .init (.enable rfl)) (.arrive 7)) (.del_async (i := 0) (b := 7) rfl rfl rfl)

/-! Failures that are not reported. -/

/-- If the worker process dies while a `set_state` is pending, the next call of `next` never returns: the failure is looked at
as one more element from before the restore (process_prefetch.py:508-524). -/
theorem process_prefetch_failure_not_reported :
    ∃ s : PPSys (listIter [Except.ok 1, Except.ok 2]),
      PPRun (listIter [Except.ok 1, Except.ok 2]) 1 false true (ppInit _ [.save, .start, .restore 0, .next]) s ∧
      s.pc = .get ∧ s.outs = [] ∧ ∀ s', ¬ PPStep (listIter [Except.ok 1, Except.ok 2]) 1 false true s s' := by
  refine ⟨_, .step (.step (.step (.step (.step (.step (.step .refl (.save_zero rfl rfl rfl rfl)) (.start rfl rfl rfl rfl))
    (.crash rfl (by simp [ppWorker0]) (by simp [ppWorker0]) rfl)) (.set_clear (j := 0) rfl rfl rfl (by simp [ppInit]))) (.set_put rfl)) (.set_done rfl rfl))
    (.next_wait rfl rfl rfl rfl rfl), rfl, rfl, ?_⟩
  intro s' h
  cases h <;> simp_all [ppInit] <;> (subst_vars; simp_all)

/-- An iterator whose `set_state` raises. -/
def noRestore : Iter Nat where
  S := Unit
  C := Unit
  init := ()
  next := fun _ _ => some ((), .item 1)
  get := fun s => (s, ())
  set := fun _ s _ => some (s, some (.user 0))
  getIdx := fun _ => .error .notImplemented
  setIdx := fun s _ => (s, some .notImplemented)

/-- If `set_state` of the parent raises in the worker, the next call of `next` never returns: the worker empties the queue,
including the marker it has just put, and the exception it then puts is discarded as an element from before the restore
(process_prefetch.py:242-252, 294-308). -/
theorem process_prefetch_set_state_error_not_reported :
    ∃ s : PPSys noRestore, PPRun noRestore 1 false false (ppInit _ [.save, .restore 0, .next]) s ∧
      s.pc = .get ∧ s.outs = [] ∧ ∀ s', ¬ PPStep noRestore 1 false false s s' := by
  refine ⟨_, .step (.step (.step (.step (.step (.step (.step (.step (.step (.step (.step (.step (.step .refl (.save_zero rfl rfl rfl rfl))
    (.set_clear (j := 0) rfl rfl rfl (by simp [ppInit]))) (.set_put rfl)) (.set_done rfl rfl))
    (.next_start rfl rfl rfl rfl rfl)) (.top_take rfl rfl rfl (by simp [ppInit]))) (.take rfl rfl rfl rfl)) (.mark rfl rfl (by simp [ppInit])))
    (.apply_raise (it' := ()) (e := .user 0) rfl rfl ⟨0, fun _ _ => rfl⟩)) (.fail_clear rfl rfl rfl)) (.fail_end rfl rfl)) (.fail_put rfl rfl (by simp)))
    (.get_stale rfl rfl rfl (by simp [ppInit])), rfl, rfl, ?_⟩
  intro s' h
  cases h <;> simp_all [ppInit] <;> (subst_vars; simp_all)

end Grain
