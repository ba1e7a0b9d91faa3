import Verif.ProcPrefetch.Props
/-
C30: worker processes that fail before their loop, i.e. in `worker_init_fn`, when the pipeline is unpickled or when its iterator is
made (process_prefetch.py:218-232, handler 294-308).
-/
namespace Grain

/-- A worker that was just started goes to the exception handler with `e` (process_prefetch.py:294-308); everything else is as
before. -/
def startFails (e : Err) {p : Iter α} (s t : PPSys p) : PPSys p :=
  match s.worker, t.worker with
  | none, some w => { t with worker := some { w with pc := .failClear e } }
  | _, _ => t

/-- The steps when the start of every worker process fails with `e`. -/
inductive PPFailStep (p : Iter α) (size : Nat) (keep : Bool) (e : Err) (s : PPSys p) : PPSys p → Prop where
  | step {t} : PPStep p size keep false s t → PPFailStep p size keep e s (startFails e s t)

/-- Runs of it. -/
inductive PPFailRun (p : Iter α) (size : Nat) (keep : Bool) (e : Err) (s : PPSys p) : PPSys p → Prop where
  | refl : PPFailRun p size keep e s s
  | step {t u} : PPFailRun p size keep e s t → PPFailStep p size keep e t u → PPFailRun p size keep e s u

/-- The states of a run that restores a state into a new iterator and reads. -/
inductive LostStart {p : Iter α} (rest : List TOp) (e : Err) (s : PPSys p) : Prop where
  | save : s.pc = .idle → s.prog = .save :: .fresh 0 :: .next :: rest → s.worker = none → s.outs = [] → s.state = none →
      s.nextIndex = some 0 → s.saved = [] → LostStart rest e s
  | fresh : s.pc = .idle → s.prog = .fresh 0 :: .next :: rest → s.worker = none → s.outs = [] → (∃ c, s.saved = [c]) →
      LostStart rest e s
  | set1 (c) : s.pc = .set1 c → s.prog = .fresh 0 :: .next :: rest → s.worker = none → s.outs = [] → s.buf = [] → s.closed = false → LostStart rest e s
  | set2 (c) : s.pc = .set2 c → s.prog = .fresh 0 :: .next :: rest → s.worker = none → s.outs = [] → s.buf = [] → s.closed = false → LostStart rest e s
  | next : s.pc = .idle → s.prog = .next :: rest → s.worker = none → s.outs = [] → s.buf = [] → s.setCount ≠ 0 → s.over = false →
      s.closed = false → LostStart rest e s
  | get (w) : s.pc = .get → s.prog = .next :: rest → s.worker = some w → s.outs = [] → s.setCount ≠ 0 →
      (∀ x ∈ s.buf, ppIsMarker x = false) → (w.pc = .failClear e ∨ w.pc = .failPut e ∨ w.pc = .exited) → LostStart rest e s

theorem lostStart_step {p : Iter α} {size : Nat} {keep : Bool} {e : Err} {rest : List TOp} {s t : PPSys p} (h : LostStart rest e s)
    (hst : PPFailStep p size keep e s t) : LostStart rest e t := by
  obtain ⟨hst⟩ := hst
  cases h with
  | save h1 h2 h3 h4 h5 h6 h7 =>
    cases hst <;> simp_all [startFails]
    all_goals exact .fresh (by first | rfl | assumption) rfl (by first | rfl | assumption) (by first | rfl | assumption) ⟨_, rfl⟩
  | fresh h1 h2 h3 h4 h5 =>
    cases hst <;> simp_all [startFails]
    all_goals
      refine .set1 _ (by first | rfl | assumption) ?_ (by first | rfl | assumption) (by first | rfl | assumption) rfl rfl
      simp_all [ppInit]
  | set1 c h1 h2 h3 h4 h5 h6 =>
    cases hst <;> simp_all [startFails]
    all_goals exact .set2 _ (by first | rfl | assumption) (by first | rfl | assumption) (by first | rfl | assumption) (by first | rfl | assumption) (by first | rfl | assumption) (by first | rfl | assumption)
  | set2 c h1 h2 h3 h4 h5 h6 =>
    cases hst <;> simp_all [startFails]
    all_goals exact .next (by first | rfl | assumption) (by first | rfl | assumption) (by first | rfl | assumption) (by first | rfl | assumption) (by first | rfl | assumption) (by simp) (by first | rfl | assumption) (by first | rfl | assumption)
  | next h1 h2 h3 h4 h5 h6 h7 h8 =>
    cases hst <;> simp_all [startFails]
    all_goals exact .get _ (by first | rfl | assumption) (by first | rfl | assumption) rfl (by first | rfl | assumption) (by first | rfl | assumption) (by simp) (Or.inl rfl)
  | get w h1 h2 h3 h4 h5 h6 h7 =>
    have hw : ∀ t : PPSys p, startFails e s t = t := by
      intro t
      simp only [startFails, h3]
    rw [hw]
    cases hst with
    | fail_clear a b d =>
      rw [h3] at a
      cases a
      exact .get _ h1 h2 h3 h4 h5 (fun x hx => h6 x (by rw [d]; exact List.mem_cons_of_mem _ hx)) h7
    | fail_end a b =>
      rw [h3] at a
      cases a
      rcases h7 with h7 | h7 | h7 <;> rw [h7] at b <;> cases b
      exact .get _ h1 h2 rfl h4 h5 h6 (Or.inr (Or.inl rfl))
    | fail_put a b d =>
      rw [h3] at a
      cases a
      refine .get _ h1 h2 rfl h4 h5 ?_ (Or.inr (Or.inr rfl))
      intro x hx
      rcases List.mem_append.1 hx with hx | hx
      · exact h6 x hx
      · rw [List.mem_singleton] at hx
        rw [hx]
        rfl
    | fail_stop a b d =>
      exact .get _ h1 h2 rfl h4 h5 h6 (Or.inr (Or.inr rfl))
    | get_stale a b d g =>
      exact .get _ h1 h2 h3 h4 h5 (fun x hx => h6 x (by rw [b]; exact List.mem_cons_of_mem _ hx)) h7
    | get_marker a b =>
      have := h6 .marker (by rw [b]; exact List.mem_cons_self ..)
      cases this
    | _ => exfalso; simp_all

theorem lostStart_run {p : Iter α} {size : Nat} {keep : Bool} {e : Err} {rest : List TOp} {s : PPSys p}
    (hrun : PPFailRun p size keep e (ppInit p (.save :: .fresh 0 :: .next :: rest)) s) : LostStart rest e s := by
  induction hrun with
  | refl => exact .save rfl rfl rfl rfl rfl rfl rfl
  | step _ hst ih => exact lostStart_step ih hst

/-- C30 fails: if the worker process of a restored iterator fails at its start (in `worker_init_fn`, when the pipeline is unpickled,
or when its iterator is made), the first call of `next` never returns, whatever the pipeline, the buffer size and the schedule: no
reachable state has an outcome, and when nothing can move any more the call is still waiting.  The exception is put in the queue, but
is discarded as an element from before the restore (process_prefetch.py:515-524), and the worker's exit code is 0. -/
theorem process_prefetch_start_failure_not_reported {p : Iter α} {size : Nat} {keep : Bool} {e : Err} {rest : List TOp} {s : PPSys p}
    (hrun : PPFailRun p size keep e (ppInit p (.save :: .fresh 0 :: .next :: rest)) s) :
    s.outs = [] ∧ ((∀ s', ¬ PPFailStep p size keep e s s') → s.pc = .get ∧ s.prog = .next :: rest) := by
  cases lostStart_run hrun with
  | save h1 h2 h3 h4 h5 h6 h7 => exact ⟨h4, fun hs => absurd ⟨.save_zero h1 h2 h5 h6⟩ (hs _)⟩
  | fresh h1 h2 h3 h4 h5 =>
    obtain ⟨c, hc⟩ := h5
    exact ⟨h4, fun hs => absurd ⟨.fresh (c := c) h1 h2 (by rw [hc]; rfl)⟩ (hs _)⟩
  | set1 c h1 h2 h3 h4 h5 h6 => exact ⟨h4, fun hs => absurd ⟨.set_put h1⟩ (hs _)⟩
  | set2 c h1 h2 h3 h4 h5 h6 => exact ⟨h4, fun hs => absurd ⟨.set_done h1 h2⟩ (hs _)⟩
  | next h1 h2 h3 h4 h5 h6 h7 h8 => exact ⟨h4, fun hs => absurd ⟨.next_start h1 h2 h7 h8 h3⟩ (hs _)⟩
  | get w h1 h2 h3 h4 h5 h6 h7 => exact ⟨h4, fun _ => ⟨h1, h2⟩⟩

/-- The states of a run that reads a new iterator. -/
inductive FoundStart {p : Iter α} (e : Err) (s : PPSys p) : Prop where
  | next : s.pc = .idle → s.prog = [.next] → s.worker = none → s.outs = [] → s.buf = [] → s.reqs = [] → s.setCount = 0 → s.over = false →
      s.closed = false → FoundStart e s
  | get (w) : s.pc = .get → s.prog = [.next] → s.worker = some w → s.outs = [] → s.setCount = 0 → s.reqs = [] → s.stop = false →
      ((w.pc = .failClear e ∧ s.buf = []) ∨ (w.pc = .failPut e ∧ s.buf = []) ∨ (w.pc = .exited ∧ s.buf = [.err (.fail e)])) → FoundStart e s
  | stop1 (w) : s.pc = .stop1 (.raise (.fail e)) → s.prog = [.next] → s.worker = some w → s.outs = [] → s.reqs = [] → s.buf = [] →
      w.pc = .exited → FoundStart e s
  | stop2 (w) : s.pc = .stop2 (.raise (.fail e)) → s.prog = [.next] → s.worker = some w → s.outs = [] → s.reqs = [] → s.buf = [] →
      w.pc = .exited → FoundStart e s
  | join (w) : s.pc = .join (.raise (.fail e)) → s.prog = [.next] → s.worker = some w → s.outs = [] → s.buf = [] →
      w.pc = .exited → FoundStart e s
  | stop3 (w) : s.pc = .stop3 (.raise (.fail e)) → s.prog = [.next] → s.worker = some w → s.outs = [] → s.buf = [] →
      w.pc = .exited → FoundStart e s
  | done : s.pc = .idle → s.prog = [] → s.worker = none → s.outs = [.inl (.fail e)] → FoundStart e s

theorem foundStart_step {p : Iter α} {size : Nat} {keep : Bool} {e : Err} {s t : PPSys p} (h : FoundStart e s)
    (hst : PPFailStep p size keep e s t) : FoundStart e t := by
  obtain ⟨hst⟩ := hst
  cases h with
  | next h1 h2 h3 h4 h5 h6 h7 h8 h9 =>
    cases hst <;> simp_all [startFails]
    all_goals exact .get _ (by first | rfl | assumption) (by first | rfl | assumption) rfl (by first | rfl | assumption) (by first | rfl | assumption) (by first | rfl | assumption) rfl (Or.inl ⟨rfl, by first | rfl | assumption⟩)
  | done h1 h2 h3 h4 => cases hst <;> simp_all [startFails]
  | get w h1 h2 h3 h4 h5 h6 h7 h8 =>
    have hw : ∀ t : PPSys p, startFails e s t = t := by
      intro t
      simp only [startFails, h3]
    rw [hw]
    cases hst with
    | fail_end a b =>
      rw [h3] at a
      cases a
      rcases h8 with ⟨h8, hb⟩ | ⟨h8, hb⟩ | ⟨h8, hb⟩ <;> rw [h8] at b <;> cases b
      exact .get _ h1 h2 rfl h4 h5 rfl h7 (Or.inr (Or.inl ⟨rfl, hb⟩))
    | fail_put a b d =>
      rw [h3] at a
      cases a
      rcases h8 with ⟨h8, hb⟩ | ⟨h8, hb⟩ | ⟨h8, hb⟩ <;> rw [h8] at b <;> cases b
      exact .get _ h1 h2 rfl h4 h5 h6 h7 (Or.inr (Or.inr ⟨rfl, by rw [hb]; rfl⟩))
    | get_err a b d g =>
      rcases h8 with ⟨h8, hb⟩ | ⟨h8, hb⟩ | ⟨h8, hb⟩ <;> rw [hb] at b <;> cases b
      exact .stop1 w rfl h2 h3 h4 h6 rfl h8
    | _ => exfalso; simp_all <;> grind
  | stop1 w h1 h2 h3 h4 h5 h6 h7 =>
    have hw : ∀ t : PPSys p, startFails e s t = t := by
      intro t
      simp only [startFails, h3]
    rw [hw]
    cases hst with
    | stop1_end a =>
      rw [h1] at a
      cases a
      exact .stop2 w rfl h2 h3 h4 h5 h6 h7
    | _ => exfalso; simp_all
  | stop2 w h1 h2 h3 h4 h5 h6 h7 =>
    have hw : ∀ t : PPSys p, startFails e s t = t := by
      intro t
      simp only [startFails, h3]
    rw [hw]
    cases hst with
    | stop2 a =>
      rw [h1] at a
      cases a
      exact .join w rfl h2 h3 h4 h6 h7
    | _ => exfalso; simp_all
  | join w h1 h2 h3 h4 h6 h7 =>
    have hw : ∀ t : PPSys p, startFails e s t = t := by
      intro t
      simp only [startFails, h3]
    rw [hw]
    cases hst with
    | join a =>
      rw [h1] at a
      cases a
      exact .stop3 w rfl h2 h3 h4 h6 h7
    | _ => exfalso; simp_all
  | stop3 w h1 h2 h3 h4 h6 h7 =>
    have hw : ∀ t : PPSys p, startFails e s t = t := by
      intro t
      simp only [startFails, h3]
    rw [hw]
    cases hst with
    | raise a b d =>
      rw [h1] at a
      cases a
      rw [h2] at d
      cases d
      exact .done rfl rfl rfl (by rw [h4]; rfl)
    | _ => exfalso; simp_all

/-- Without a restore the exception is raised by the first call of `next`, under every schedule. -/
theorem process_prefetch_start_failure_reported {p : Iter α} {size : Nat} {keep : Bool} {e : Err} (hsize : 0 < size) {s : PPSys p}
    (hrun : PPFailRun p size keep e (ppInit p [.next]) s) :
    s.outs <+: [.inl (.fail e)] ∧ ((∀ s', ¬ PPFailStep p size keep e s s') → s.pc = .idle ∧ s.prog = [] ∧ s.outs = [.inl (.fail e)]) := by
  have h : FoundStart e s := by
    induction hrun with
    | refl => exact .next rfl rfl rfl rfl rfl rfl rfl rfl rfl
    | step _ hst ih => exact foundStart_step ih hst
  have hnil : ([] : List (Res α ⊕ Int)) <+: [.inl (.fail e)] := List.nil_prefix
  cases h with
  | next h1 h2 h3 h4 h5 h6 h7 h8 h9 => exact ⟨h4 ▸ hnil, fun hs => absurd ⟨.next_start h1 h2 h8 h9 h3⟩ (hs _)⟩
  | done h1 h2 h3 h4 => exact ⟨h4 ▸ List.prefix_rfl, fun _ => ⟨h1, h2, h4⟩⟩
  | get w h1 h2 h3 h4 h5 h6 h7 h8 =>
    refine ⟨h4 ▸ hnil, fun hs => ?_⟩
    rcases h8 with ⟨h8, hb⟩ | ⟨h8, hb⟩ | ⟨h8, hb⟩
    · exact absurd ⟨.fail_end h3 h8⟩ (hs _)
    · exact absurd ⟨.fail_put h3 h8 (by rw [hb]; exact hsize)⟩ (hs _)
    · exact absurd ⟨.get_err h1 hb h5 (Or.inl (by simp))⟩ (hs _)
  | stop1 w h1 h2 h3 h4 h5 h6 h7 => exact ⟨h4 ▸ hnil, fun hs => absurd ⟨.stop1_end h1⟩ (hs _)⟩
  | stop2 w h1 h2 h3 h4 h5 h6 h7 => exact ⟨h4 ▸ hnil, fun hs => absurd ⟨.stop2 (j := 0) h1 (Nat.zero_le _)⟩ (hs _)⟩
  | join w h1 h2 h3 h4 h6 h7 => exact ⟨h4 ▸ hnil, fun hs => absurd ⟨.join h1 h3 (Or.inl h7)⟩ (hs _)⟩
  | stop3 w h1 h2 h3 h4 h6 h7 => exact ⟨h4 ▸ hnil, fun hs => absurd ⟨.raise h1 h6 h2⟩ (hs _)⟩

/-- A run to the end: the exception was discarded, the worker has ended, and `next` waits. -/
example : ∃ s : PPSys (listIter [Except.ok 1, Except.ok 2]),
    PPFailRun _ 1 false (.user 0) (ppInit (listIter [Except.ok 1, Except.ok 2]) [.save, .fresh 0, .next]) s ∧
    s.pc = .get ∧ s.outs = [] ∧ ∀ s', ¬ PPFailStep _ 1 false (.user 0) s s' := by
  refine ⟨_, .step (.step (.step (.step (.step (.step (.step (.step .refl ⟨.save_zero rfl rfl rfl rfl⟩) ⟨.fresh rfl rfl rfl⟩) ⟨.set_put rfl⟩)
    ⟨.set_done rfl rfl⟩) ⟨.next_start rfl rfl rfl rfl rfl⟩) ⟨.fail_end rfl rfl⟩) ⟨.fail_put rfl rfl (by simp [ppInit, startFails])⟩)
    ⟨.get_stale rfl rfl rfl (by simp [ppInit, startFails])⟩, rfl, rfl, ?_⟩
  rintro s' ⟨h⟩
  cases h <;> simp_all [ppInit, startFails, ppWorker0] <;> (subst_vars; simp_all)

/-- A run to the end without a restore. -/
example : ∃ s : PPSys (listIter [Except.ok 1, Except.ok 2]),
    PPFailRun _ 1 false (.user 0) (ppInit (listIter [Except.ok 1, Except.ok 2]) [.next]) s ∧ s.outs = [.inl (.fail (.user 0))] :=
  ⟨_, .step (.step (.step (.step (.step (.step (.step (.step .refl ⟨.next_start rfl rfl rfl rfl rfl⟩) ⟨.fail_end rfl rfl⟩)
    ⟨.fail_put rfl rfl (by simp [ppInit, startFails])⟩) ⟨.get_err rfl rfl rfl (Or.inr rfl)⟩) ⟨.stop1_end rfl⟩)
    ⟨.stop2 (j := 0) rfl (by simp)⟩) ⟨.join rfl rfl (Or.inl rfl)⟩) ⟨.raise rfl rfl rfl⟩, rfl⟩

end Grain
