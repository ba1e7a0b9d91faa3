import Verif.ProcPrefetch.Model
namespace Grain

/-! Accounting of shared memory blocks. -/

section
variable {p : Iter α} {size : Nat} {keep : Bool}

/-- The blocks of the entry the worker is about to put. -/
def ppHeld : Option (PPWorker p) → List Nat
  | none => []
  | some w => match w.pc with
    | .put e => ppIds e
    | _ => []

/-- Where the blocks are: in the queue, in the worker's hands, unlinked, in the user's hands. -/
def ppBlocks (s : PPSys p) : List Nat := s.buf.flatMap ppIds ++ (ppHeld s.worker ++ (s.freed ++ s.given))

def PPShm (s : PPSys p) : Prop :=
  (∀ i, (ppBlocks s).count i = (List.range s.made).count i) ∧ (s.worker = none → s.buf = []) ∧
  ∀ k, s.pc = .stop3 k → ∀ w, s.worker = some w → w.pc = .exited ∨ w.pc = .dead

private theorem shm_worker {s s' : PPSys p} {w w' : PPWorker p} (h : PPShm s) (hw : s.worker = some w) (hw' : s'.worker = some w')
    (hend : w.pc ≠ .exited ∧ w.pc ≠ .dead) (hpc : s'.pc = s.pc)
    (hcount : ∀ i, (ppBlocks s).count i + (List.range s'.made).count i = (ppBlocks s').count i + (List.range s.made).count i) : PPShm s' := by
  obtain ⟨h1, h2, h3⟩ := h
  refine ⟨?_, ?_, ?_⟩
  · intro i
    have := hcount i
    have := h1 i
    omega
  · intro hh; rw [hw'] at hh; cases hh
  · intro k hk
    rw [hpc] at hk
    rcases h3 k hk w hw with hh | hh
    · exact absurd hh hend.1
    · exact absurd hh hend.2

private theorem shm_main {s s' : PPSys p} (h : PPShm s) (hw : s'.worker = s.worker) (hpc : ∀ k, s'.pc ≠ .stop3 k)
    (hm : s'.made = s.made) (hb : s.worker = none → s'.buf = s.buf) (hcount : ∀ i, (ppBlocks s').count i = (ppBlocks s).count i) : PPShm s' := by
  obtain ⟨h1, h2, h3⟩ := h
  refine ⟨?_, ?_, ?_⟩
  · intro i; rw [hcount, hm]; exact h1 i
  · intro hh; rw [hw] at hh; rw [hb hh]; exact h2 hh
  · intro k hk; exact absurd hk (hpc k)

theorem ppShm_step {s s' : PPSys p} (h : PPShm s) (hne : ∀ k, s.pc = .get ∨ s.pc = .stop1 k ∨ s.pc = .stop3 k → s.worker ≠ none)
    (hstep : PPStep p size keep false s s') : PPShm s' := by
  cases hstep with
  | @top_stop w hw hpc _ => exact shm_worker h hw rfl (by simp [hpc]) rfl (by intro i; simp [ppBlocks, ppHeld, hw, hpc])
  | @top_take w hw hpc _ => exact shm_worker h hw rfl (by simp [hpc]) rfl (by intro i; simp [ppBlocks, ppHeld, hw, hpc])
  | @top_work w hw hpc _ => exact shm_worker h hw rfl (by simp [hpc]) rfl (by intro i; simp [ppBlocks, ppHeld, hw, hpc])
  | @take w n c cs hw hpc _ => exact shm_worker h hw rfl (by simp [hpc]) rfl (by intro i; simp [ppBlocks, ppHeld, hw, hpc])
  | @take_none w hw hpc _ => exact shm_worker h hw rfl (by simp [hpc]) rfl (by intro i; simp [ppBlocks, ppHeld, hw, hpc])
  | @mark w c hw hpc _ => exact shm_worker h hw rfl (by simp [hpc]) rfl (by intro i; simp [ppBlocks, ppHeld, hw, hpc, ppIds])
  | @mark_stop w c hw hpc _ => exact shm_worker h hw rfl (by simp [hpc]) rfl (by intro i; simp [ppBlocks, ppHeld, hw, hpc])
  | @apply w c it' hw hpc _ => exact shm_worker h hw rfl (by simp [hpc]) rfl (by intro i; simp [ppBlocks, ppHeld, hw, hpc])
  | @apply_raise w c it' e hw hpc _ => exact shm_worker h hw rfl (by simp [hpc]) rfl (by intro i; simp [ppBlocks, ppHeld, hw, hpc])
  | @apply_index w it' i hw hpc _ => exact shm_worker h hw rfl (by simp [hpc]) rfl (by intro i; simp [ppBlocks, ppHeld, hw, hpc])
  | @apply_index_raise w it' e i hw hpc _ => exact shm_worker h hw rfl (by simp [hpc]) rfl (by intro i; simp [ppBlocks, ppHeld, hw, hpc])
  | @work_wait w hw hpc _ => exact shm_worker h hw rfl (by simp [hpc]) rfl (by intro i; simp [ppBlocks, ppHeld, hw, hpc])
  | @work_item w it' a n hw hpc _ _ =>
    refine shm_worker h hw rfl (by simp [hpc]) rfl ?_
    intro i
    have hr : List.range (s.made + n) = List.range s.made ++ List.range' s.made n := by
      rw [List.range_eq_range', List.range_eq_range', ← List.range'_append_1, Nat.zero_add]
    simp only [ppBlocks, ppHeld, hw, hpc, ppIds, hr, List.count_append, List.count_nil]
    omega
  | @work_err w it' r hw hpc _ _ _ => exact shm_worker h hw rfl (by simp [hpc]) rfl (by intro i; simp [ppBlocks, ppHeld, hw, hpc, ppIds])
  | @put w e hw hpc _ =>
    refine shm_worker h hw rfl (by simp [hpc]) rfl ?_
    intro i
    simp [ppBlocks, ppHeld, hw, hpc]
  | @put_stop w e hw hpc _ =>
    refine shm_worker h hw rfl (by simp [hpc]) rfl ?_
    intro i
    simp [ppBlocks, ppHeld, hw, hpc]
    omega
  | @leave w e es hw hpc hb =>
    refine shm_worker h hw hw (by simp [hpc]) rfl ?_
    intro i
    simp [ppBlocks, ppHeld, hw, hpc, hb]
    omega
  | @leave_end w hw hpc => exact shm_worker h hw rfl (by simp [hpc]) rfl (by intro i; simp [ppBlocks, ppHeld, hw, hpc])
  | @fail_clear w e e' es hw hpc hb =>
    refine shm_worker h hw hw (by simp [hpc]) rfl ?_
    intro i
    simp [ppBlocks, ppHeld, hw, hpc, hb]
    omega
  | @fail_end w e hw hpc => exact shm_worker h hw rfl (by simp [hpc]) rfl (by intro i; simp [ppBlocks, ppHeld, hw, hpc])
  | @fail_put w e hw hpc _ => exact shm_worker h hw rfl (by simp [hpc]) rfl (by intro i; simp [ppBlocks, ppHeld, hw, hpc, ppIds])
  | @fail_stop w e hw hpc _ => exact shm_worker h hw rfl (by simp [hpc]) rfl (by intro i; simp [ppBlocks, ppHeld, hw, hpc])
  | crash _ _ _ hc => cases hc
  | next_over hpc => exact shm_main h rfl (by simp [hpc]) rfl (fun _ => rfl) (fun _ => rfl)
  | next_closed hpc => exact shm_main h rfl (by simp [hpc]) rfl (fun _ => rfl) (fun _ => rfl)
  | next_start hpc hprog _ _ hw =>
    refine ⟨?_, (by intro hh; cases hh), by intro k hk; cases hk⟩
    intro i
    rw [← h.1 i]
    simp [ppBlocks, ppHeld, hw, ppWorker0]
  | next_wait hpc => exact shm_main h rfl (by simp) rfl (fun _ => rfl) (fun _ => rfl)
  | get_marker hpc hb =>
    exact shm_main h rfl (by simp [hpc]) rfl (fun hw => absurd hw (hne .close (Or.inl hpc))) (by intro i; simp [ppBlocks, hb, ppIds])
  | get_stale hpc hb =>
    refine shm_main h rfl (by simp [hpc]) rfl (fun hw => absurd hw (hne .close (Or.inl hpc))) ?_
    intro i
    simp [ppBlocks, hb]
    omega
  | get_elem hpc hprog hb =>
    refine shm_main h rfl (by simp) rfl (fun hw => absurd hw (hne .close (Or.inl hpc))) ?_
    intro i
    simp only [ppBlocks, hb, ppIds, List.count_append, List.flatMap_cons]
    omega
  | get_end hpc hprog hb =>
    exact shm_main h rfl (by simp) rfl (fun hw => absurd hw (hne .close (Or.inl hpc))) (by intro i; simp [ppBlocks, hb, ppIds])
  | get_err hpc hb =>
    exact shm_main h rfl (by simp) rfl (fun hw => absurd hw (hne .close (Or.inl hpc))) (by intro i; simp [ppBlocks, hb, ppIds])
  | get_dead hpc hb => exact shm_main h rfl (by simp) rfl (fun _ => rfl) (fun _ => rfl)
  | save hpc => exact shm_main h rfl (by simp [hpc]) rfl (fun _ => rfl) (fun _ => rfl)
  | save_zero hpc => exact shm_main h rfl (by simp [hpc]) rfl (fun _ => rfl) (fun _ => rfl)
  | save_index hpc => exact shm_main h rfl (by simp [hpc]) rfl (fun _ => rfl) (fun _ => rfl)
  | index_known hpc => exact shm_main h rfl (by simp [hpc]) rfl (fun _ => rfl) (fun _ => rfl)
  | index hpc => exact shm_main h rfl (by simp [hpc]) rfl (fun _ => rfl) (fun _ => rfl)
  | jump_clear hpc => exact shm_main h rfl (by simp) rfl (fun _ => rfl) (fun _ => rfl)
  | set_clear hpc => exact shm_main h rfl (by simp) rfl (fun _ => rfl) (fun _ => rfl)
  | set_put hpc => exact shm_main h rfl (by simp) rfl (fun _ => rfl) (fun _ => rfl)
  | set_done hpc => exact shm_main h rfl (by simp) rfl (fun _ => rfl) (fun _ => rfl)
  | fresh hpc => exact ⟨fun i => by simp [ppBlocks, ppInit, ppHeld], fun _ => rfl, by intro k hk; cases hk⟩
  | start_closed hpc => exact shm_main h rfl (by simp [hpc]) rfl (fun _ => rfl) (fun _ => rfl)
  | start hpc hprog _ hw =>
    refine ⟨?_, (by intro hh; cases hh), by intro k hk; have hk : s.pc = _ := hk; rw [hpc] at hk; cases hk⟩
    intro i
    rw [← h.1 i]
    simp [ppBlocks, ppHeld, hw, ppWorker0]
  | start_again hpc => exact shm_main h rfl (by simp [hpc]) rfl (fun _ => rfl) (fun _ => rfl)
  | close hpc => exact shm_main h rfl (by simp [hpc]) rfl (fun _ => rfl) (fun _ => rfl)
  | close_stop hpc => exact shm_main h rfl (by simp) rfl (fun _ => rfl) (fun _ => rfl)
  | @stop1 k e es hpc hb =>
    refine shm_main h rfl (by simp [hpc]) rfl (fun hw => absurd hw (hne k (Or.inr (Or.inl hpc)))) ?_
    intro i
    simp [ppBlocks, hb]
    omega
  | stop1_end hpc => exact shm_main h rfl (by simp) rfl (fun _ => rfl) (fun _ => rfl)
  | stop2 hpc => exact shm_main h rfl (by simp) rfl (fun _ => rfl) (fun _ => rfl)
  | @join k w hpc hw hd =>
    refine ⟨h.1, h.2.1, ?_⟩
    intro k' _ w' hw'
    have hw' : s.worker = some w' := hw'
    rw [hw] at hw'
    cases hw'
    exact hd
  | @stop3 k e es hpc hb =>
    refine ⟨?_, fun hw => absurd hw (hne k (Or.inr (Or.inr hpc))), h.2.2⟩
    intro i
    rw [← h.1 i]
    simp [ppBlocks, hb]
    omega
  | @raise r op ops hpc hb =>
    refine ⟨?_, fun _ => hb, by intro k hk; cases hk⟩
    intro i
    rw [← h.1 i]
    cases hw : s.worker with
    | none => simp [ppBlocks, ppHeld, hw]
    | some w => rcases h.2.2 _ hpc w hw with hp | hp <;> simp [ppBlocks, ppHeld, hw, hp]
  | @closed op ops hpc hb =>
    refine ⟨?_, fun _ => hb, by intro k hk; cases hk⟩
    intro i
    rw [← h.1 i]
    cases hw : s.worker with
    | none => simp [ppBlocks, ppHeld, hw]
    | some w => rcases h.2.2 _ hpc w hw with hp | hp <;> simp [ppBlocks, ppHeld, hw, hp]
  | kill_raise _ _ _ hc => cases hc
  | kill_close _ _ _ hc => cases hc

/-- In the phases in which the queue is read there is a worker. -/
theorem pp_worker_some {s s' : PPSys p} {crashes : Bool} (h : ∀ k, s.pc = .get ∨ s.pc = .stop1 k ∨ s.pc = .stop2 k ∨ s.pc = .join k ∨ s.pc = .stop3 k → s.worker ≠ none)
    (hstep : PPStep p size keep crashes s s') (k : PPCont α) :
    s'.pc = .get ∨ s'.pc = .stop1 k ∨ s'.pc = .stop2 k ∨ s'.pc = .join k ∨ s'.pc = .stop3 k → s'.worker ≠ none := by
  cases hstep with
  | next_start => intro _; simp
  | next_wait _ _ _ _ hw => intro _; simp [hw]
  | leave hw => intro _; simp [hw]
  | fail_clear hw => intro _; simp [hw]
  | get_err hpc => intro _; exact h .close (Or.inl hpc)
  | get_dead hpc => intro _; exact h .close (Or.inl hpc)
  | get_marker hpc => intro _; exact h .close (Or.inl hpc)
  | get_stale hpc => intro _; exact h .close (Or.inl hpc)
  | close_stop _ _ hw => intro _; simp [hw]
  | stop1 hpc => intro _; exact h _ (Or.inr (Or.inl hpc))
  | stop1_end hpc => intro _; exact h _ (Or.inr (Or.inl hpc))
  | stop2 hpc => intro _; exact h _ (Or.inr (Or.inr (Or.inl hpc)))
  | join hpc => intro _; exact h _ (Or.inr (Or.inr (Or.inr (Or.inl hpc))))
  | stop3 hpc => intro _; exact h _ (Or.inr (Or.inr (Or.inr (Or.inr hpc))))
  | next_over hpc => intro hh; simp [hpc] at hh
  | next_closed hpc => intro hh; simp [hpc] at hh
  | save hpc => intro hh; simp [hpc] at hh
  | save_zero hpc => intro hh; simp [hpc] at hh
  | save_index hpc => intro hh; simp [hpc] at hh
  | index_known hpc => intro hh; simp [hpc] at hh
  | index hpc => intro hh; simp [hpc] at hh
  | start_closed hpc => intro hh; simp [hpc] at hh
  | start_again hpc => intro hh; simp [hpc] at hh
  | close hpc => intro hh; simp [hpc] at hh
  | get_elem => intro hh; simp at hh
  | get_end => intro hh; simp at hh
  | set_clear => intro hh; simp at hh
  | jump_clear => intro hh; simp at hh
  | set_put => intro hh; simp at hh
  | set_done => intro hh; simp at hh
  | fresh => intro hh; simp at hh
  | raise => intro hh; simp at hh
  | closed => intro hh; simp at hh
  | kill_raise => intro hh; simp at hh
  | kill_close => intro hh; simp at hh
  | _ => intro _; simp

theorem pp_worker_some_run {prog : List TOp} {s : PPSys p} {crashes : Bool} (hrun : PPRun p size keep crashes (ppInit p prog) s) :
    ∀ k, s.pc = .get ∨ s.pc = .stop1 k ∨ s.pc = .stop2 k ∨ s.pc = .join k ∨ s.pc = .stop3 k → s.worker ≠ none := by
  induction hrun with
  | refl => intro k hh; simp [ppInit] at hh
  | step _ hst ih => exact pp_worker_some ih hst

theorem ppShm_run {prog : List TOp} {s : PPSys p} (hrun : PPRun p size keep false (ppInit p prog) s) : PPShm s := by
  induction hrun with
  | refl => exact ⟨fun i => by simp [ppBlocks, ppInit, ppHeld], fun _ => rfl, by intro k hk; cases hk⟩
  | @step t u hr hst ih =>
    refine ppShm_step ih ?_ hst
    intro k hk
    refine pp_worker_some_run hr k ?_
    rcases hk with h | h | h
    · exact Or.inl h
    · exact Or.inr (Or.inl h)
    · exact Or.inr (Or.inr (Or.inr (Or.inr h)))

end
end Grain
