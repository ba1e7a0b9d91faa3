import Verif.Ahead.ThreadProps
import Verif.ProcPrefetch.Props
/-
Property C90 for process prefetching.
-/
namespace Grain

section
variable {p : Iter α} {size : Nat} {keep crashes : Bool} {prog : List TOp}

/-- C90, shared memory: the blocks that have been made and were neither handed to the user nor unlinked are those of at most
`size + 1` elements (one in the worker's hands). -/
theorem process_prefetch_blocks_bound {s : PPSys p} (hrun : PPRun p size keep false (ppInit p prog) s) :
    ∃ elements : List (List Nat), elements.length ≤ size + 1 ∧ (List.range s.made).Perm (elements.flatten ++ s.freed ++ s.given) := by
  have hl := process_prefetch_buffer_bound hrun
  have h := (List.perm_iff_count.2 (ppShm_run hrun).1).symm
  refine ⟨s.buf.map ppIds ++ [ppHeld s.worker], by simp; omega, h.trans ?_⟩
  unfold ppBlocks
  rw [List.flatten_append, List.flatMap_def]
  simp

/-- Elements among entries. -/
def ppElems (l : List (PPEntry α C)) : Nat := l.countP (fun e => match e with | .elem .. => true | _ => false)

def ppPut : Option (PPWorker p) → List (PPEntry α (PPSnap p))
  | some w => match w.pc with
    | .put e => [e]
    | _ => []
  | none => []

/-- The worker is about to read. -/
def ppReading : PPPc α C R → Nat
  | .work => 1
  | _ => 0

/-- If the iterator is never moved: no requests. -/
structure PPStays (size : Nat) (s : PPSys p.counted) : Prop where
  prog : ∀ op ∈ s.prog, op.stays = true
  reqs : s.reqs = [] ∧ s.reqCount = 0 ∧ s.setCount = 0 ∧ ∀ c, s.pc ≠ .set1 c ∧ s.pc ≠ .set2 c
  entries : ∀ e ∈ s.buf, ppIsMarker e = false
  worker : ∀ w, s.worker = some w → w.pc ≠ .take ∧ (∀ c, w.pc ≠ .mark c ∧ w.pc ≠ .apply c) ∧ (∀ e, w.pc ≠ .failClear e ∧ w.pc ≠ .failPut e)
  held : ∀ e ∈ ppPut s.worker, ppIsMarker e = false
  ahead : ∀ w, s.worker = some w →
    (s.stop = true ∨ w.pc = .dead → w.it.2 + ppReading w.pc ≤ received s.outs + size + 1) ∧
      (s.stop = false → w.pc ≠ .dead → w.it.2 ≤ received s.outs + ppElems (s.buf ++ ppPut s.worker)) ∧ (w.pc = .leaving → s.stop = true)
  phase : (∀ k, s.pc ≠ .stop1 k ∧ s.pc ≠ .stop2 k ∧ s.pc ≠ .join k ∧ s.pc ≠ .stop3 k) ∨ s.stop = true

theorem ppElems_append (l m : List (PPEntry α C)) : ppElems (l ++ m) = ppElems l + ppElems m := List.countP_append

theorem ppElems_le (l : List (PPEntry α C)) : ppElems l ≤ l.length := List.countP_le_length


theorem ppPut_some {w : PPWorker p} : ppElems (ppPut (some w)) + ppReading w.pc ≤ 1 := by
  obtain ⟨it, ni, ex, pc⟩ := w
  cases pc with
  | put e => cases e <;> simp [ppPut, ppElems, ppReading]
  | _ => simp [ppPut, ppElems, ppReading]

/-- A step of the worker. -/
theorem PPStays.workerStep {s s' : PPSys p.counted} (h : PPStays size s) {w w' : PPWorker p.counted} (hw : s.worker = some w)
    (hw' : s'.worker = some w') (hprog : s'.prog = s.prog) (hreqs : s'.reqs = s.reqs) (hrc : s'.reqCount = s.reqCount)
    (hsc : s'.setCount = s.setCount) (hpc : s'.pc = s.pc) (hstop : s'.stop = s.stop) (houts : s'.outs = s.outs)
    (hent : ∀ e ∈ s'.buf, ppIsMarker e = false) (hheld : ∀ e ∈ ppPut s'.worker, ppIsMarker e = false)
    (hwpc : w'.pc ≠ .take ∧ (∀ c, w'.pc ≠ .mark c ∧ w'.pc ≠ .apply c) ∧ (∀ e, w'.pc ≠ .failClear e ∧ w'.pc ≠ .failPut e))
    (hnd : w.pc ≠ .dead ∧ w'.pc ≠ .dead) (hlv : w'.pc = .leaving → s.stop = true)
    (h1 : s.stop = true → w'.it.2 + ppReading w'.pc ≤ w.it.2 + ppReading w.pc)
    (h2 : s.stop = false → w'.it.2 + ppElems (s.buf ++ ppPut s.worker) ≤ w.it.2 + ppElems (s'.buf ++ ppPut s'.worker)) :
    PPStays size s' := by
  refine ⟨hprog ▸ h.prog, ⟨hreqs ▸ h.reqs.1, hrc ▸ h.reqs.2.1, hsc ▸ h.reqs.2.2.1, hpc ▸ h.reqs.2.2.2⟩, hent, ?_, hheld, ?_, ?_⟩
  · intro x hx
    rw [hw'] at hx
    cases hx
    exact hwpc
  · intro x hx
    rw [hw'] at hx
    cases hx
    obtain ⟨ha, hb, _⟩ := h.ahead w hw
    rw [hstop, houts]
    refine ⟨fun hs => ?_, fun hs _ => ?_, hlv⟩
    · rcases hs with hs | hs
      · have := h1 hs
        have := ha (Or.inl hs)
        omega
      · exact absurd hs hnd.2
    · have := h2 hs
      have := hb hs hnd.1
      omega
  · rw [hpc, hstop]; exact h.phase

/-- A step of the main process that leaves the worker alone; elements it takes from the queue are received, unless the stop event
is set. -/
theorem PPStays.mainStep {s s' : PPSys p.counted} (h : PPStays size s) (hw : s'.worker = s.worker) (hbuf : ∀ e ∈ s'.buf, e ∈ s.buf)
    (hstop : s'.stop = s.stop) (hprog : ∀ op ∈ s'.prog, op.stays = true)
    (hreqs : s'.reqs = [] ∧ s'.reqCount = 0 ∧ s'.setCount = 0 ∧ ∀ c, s'.pc ≠ .set1 c ∧ s'.pc ≠ .set2 c)
    (hrec : received s.outs ≤ received s'.outs)
    (hel : s.stop = false → received s.outs + ppElems s.buf ≤ received s'.outs + ppElems s'.buf)
    (hphase : (∀ k, s'.pc ≠ .stop1 k ∧ s'.pc ≠ .stop2 k ∧ s'.pc ≠ .join k ∧ s'.pc ≠ .stop3 k) ∨ s'.stop = true) : PPStays size s' := by
  refine ⟨hprog, hreqs, fun e he => h.entries e (hbuf e he), hw ▸ h.worker, hw ▸ h.held, ?_, hphase⟩
  intro w hw'
  rw [hw] at hw'
  obtain ⟨ha, hb, hc⟩ := h.ahead w hw'
  rw [hstop, hw]
  refine ⟨fun hs => ?_, fun hs hd => ?_, hc⟩
  · have := ha hs
    omega
  · have := hb hs hd
    have := hel hs
    rw [ppElems_append] at *
    omega

/-- The stop event is set. -/
theorem PPStays.stopped {s s' : PPSys p.counted} (h : PPStays size s) (hl : s.buf.length ≤ size) (hw : s'.worker = s.worker)
    (hbuf : ∀ e ∈ s'.buf, e ∈ s.buf) (hstop : s'.stop = true) (hprog : s'.prog = s.prog)
    (hreqs : s'.reqs = [] ∧ s'.reqCount = 0 ∧ s'.setCount = 0 ∧ ∀ c, s'.pc ≠ .set1 c ∧ s'.pc ≠ .set2 c)
    (hrec : s'.outs = s.outs) : PPStays size s' := by
  refine ⟨hprog ▸ h.prog, hreqs, fun e he => h.entries e (hbuf e he), hw ▸ h.worker, hw ▸ h.held, ?_, Or.inr hstop⟩
  intro w hw'
  rw [hw] at hw'
  obtain ⟨ha, hb, hc⟩ := h.ahead w hw'
  rw [hrec]
  refine ⟨fun _ => ?_, fun hs => by simp [hstop] at hs, fun _ => hstop⟩
  by_cases hs : s.stop = true ∨ w.pc = .dead
  · exact ha hs
  · have hs : s.stop = false ∧ w.pc ≠ .dead := by simpa [not_or] using hs
    have hb := hb hs.1 hs.2
    rw [hw', ppElems_append] at hb
    have := ppPut_some (w := w)
    have := ppElems_le s.buf
    omega

theorem ppStays_step {s s' : PPSys p.counted} (hl : s.buf.length ≤ size) (h : PPStays size s)
    (hstep : PPStep p.counted size keep crashes s s') : PPStays size s' := by
  obtain ⟨hr1, hr2, hr3, hr4⟩ := h.reqs
  have hprog : ∀ {op ops}, s.prog = op :: ops → ∀ o ∈ ops, o.stays = true :=
    fun hp o ho => h.prog o (by rw [hp]; exact List.mem_cons_of_mem _ ho)
  have hhead : ∀ {op ops}, s.prog = op :: ops → op.stays = true := fun hp => h.prog _ (by rw [hp]; exact List.mem_cons_self)
  have hsnoc : ∀ o, received s.outs ≤ received (s.outs ++ [o]) := fun o => by rw [received_snoc]; exact Nat.le_add_right _ _
  cases hstep with
  | @top_stop w hw hpc hs =>
    exact h.workerStep hw rfl rfl rfl rfl rfl rfl rfl rfl h.entries (fun e he => by cases he) (by simp) (by simp [hpc]) (fun _ => hs)
      (by simp [ppReading, hpc]) (fun hh => by simp [hs] at hh)
  | @top_take w hw hpc _ hc => omega
  | @top_work w hw hpc hs _ _ =>
    exact h.workerStep hw rfl rfl rfl rfl rfl rfl rfl rfl h.entries (fun e he => by cases he) (by simp) (by simp [hpc]) (by simp)
      (fun hh => by simp [hs] at hh) (fun _ => by simp [ppPut, hw, hpc])
  | @take w n c cs hw hpc hc => omega
  | @take_none w hw hpc => exact absurd hpc (h.worker w hw).1
  | @mark w c hw hpc => exact absurd hpc ((h.worker w hw).2.1 c).1
  | @mark_stop w c hw hpc => exact absurd hpc ((h.worker w hw).2.1 c).1
  | @apply w c it' hw hpc => exact absurd hpc ((h.worker w hw).2.1 _).2
  | @apply_raise w c it' e hw hpc => exact absurd hpc ((h.worker w hw).2.1 _).2
  | @apply_index w it' i hw hpc => exact absurd hpc ((h.worker w hw).2.1 _).2
  | @apply_index_raise w it' e i hw hpc => exact absurd hpc ((h.worker w hw).2.1 _).2
  | @work_wait w hw hpc _ =>
    exact h.workerStep hw rfl rfl rfl rfl rfl rfl rfl rfl h.entries (fun e he => by cases he) (by simp) (by simp [hpc]) (by simp)
      (by simp [ppReading, hpc]) (fun _ => by simp [ppPut, hw, hpc])
  | @work_item w it' a n hw hpc _ hn =>
    have hn : it'.2 = w.it.2 + 1 := counted_next hn
    refine h.workerStep hw rfl rfl rfl rfl rfl rfl rfl rfl h.entries ?_ (by simp) (by simp [hpc]) (by simp) ?_ ?_
    · intro e he
      rw [List.mem_singleton.1 he]; rfl
    · intro _
      show it'.2 + 0 ≤ _
      rw [hn, hpc]
      exact Nat.le_refl _
    · intro _
      show it'.2 + ppElems (s.buf ++ ppPut s.worker) ≤ w.it.2 + ppElems (s.buf ++ [_])
      rw [ppElems_append, ppElems_append, hn]
      simp [ppPut, hw, hpc, ppElems]
      omega
  | @work_err w it' r hw hpc _ hr hn =>
    have hn := counted_next hn
    have hn : it'.2 = w.it.2 := by
      rw [hn]
      cases r with
      | item a => exact absurd rfl (hr a)
      | stop => rfl
      | fail e => rfl
    refine h.workerStep hw rfl rfl rfl rfl rfl rfl rfl rfl h.entries ?_ (by simp) (by simp [hpc]) (by simp) ?_ ?_
    · intro e he
      rw [List.mem_singleton.1 he]; rfl
    · intro _
      show it'.2 + 0 ≤ _
      rw [hn]
      exact Nat.le_add_right _ _
    · intro _
      show it'.2 + ppElems (s.buf ++ ppPut s.worker) ≤ w.it.2 + ppElems (s.buf ++ [_])
      rw [ppElems_append, ppElems_append, hn]
      simp [ppPut, hw, hpc, ppElems]
  | @put w e hw hpc _ =>
    have he : ppPut s.worker = [e] := by simp [ppPut, hw, hpc]
    refine h.workerStep hw rfl rfl rfl rfl rfl rfl rfl rfl ?_ (fun e he => by cases he) (by simp) (by simp [hpc]) (by simp) ?_ ?_
    · intro x hx
      rcases List.mem_append.1 hx with hx | hx
      · exact h.entries x hx
      · exact h.held x (by rw [he]; exact hx)
    · intro _
      show w.it.2 + 0 ≤ _
      exact Nat.le_add_right _ _
    · intro _
      show w.it.2 + ppElems (s.buf ++ ppPut s.worker) ≤ w.it.2 + ppElems (s.buf ++ [e] ++ [])
      rw [he, List.append_nil]
  | @put_stop w e hw hpc hs =>
    refine h.workerStep hw rfl rfl rfl rfl rfl rfl rfl rfl h.entries (fun e he => by cases he) (by simp) (by simp [hpc]) (by simp) ?_
      (fun hh => by simp [hs] at hh)
    intro _
    show w.it.2 + 0 ≤ _
    exact Nat.le_add_right _ _
  | @leave w e es hw hpc hb =>
    have hs := (h.ahead w hw).2.2 hpc
    exact h.workerStep hw hw rfl rfl rfl rfl rfl rfl rfl (fun e he => h.entries e (by rw [hb]; exact List.mem_cons_of_mem _ he)) h.held
      (h.worker w hw) (by simp [hpc]) (fun _ => hs) (fun _ => Nat.le_refl _) (fun hh => by simp [hs] at hh)
  | @leave_end w hw hpc =>
    have hs := (h.ahead w hw).2.2 hpc
    exact h.workerStep hw rfl rfl hr1.symm rfl rfl rfl rfl rfl h.entries (fun e he => by cases he) (by simp) (by simp [hpc])
      (by simp) (fun _ => Nat.le_add_right _ _) (fun hh => by simp [hs] at hh)
  | @fail_clear w e e' es hw hpc hb => exact absurd hpc ((h.worker w hw).2.2 _).1
  | @fail_end w e hw hpc => exact absurd hpc ((h.worker w hw).2.2 _).1
  | @fail_put w e hw hpc => exact absurd hpc ((h.worker w hw).2.2 _).2
  | @fail_stop w e hw hpc => exact absurd hpc ((h.worker w hw).2.2 _).2
  | @crash w hw hne hnd hc =>
    refine ⟨h.prog, h.reqs, h.entries, fun x hx => ?_, fun e he => (by cases he), fun x hx => ?_, h.phase⟩
    · cases hx; simp
    · cases hx
      obtain ⟨ha, hb, hc⟩ := h.ahead w hw
      refine ⟨fun _ => ?_, fun _ hh => absurd rfl hh, fun hh => by cases hh⟩
      show w.it.2 + 0 ≤ received s.outs + size + 1
      cases hs : s.stop with
      | true => have := ha (Or.inl hs); omega
      | false =>
        have hb := hb hs hnd
        rw [hw, ppElems_append] at hb
        have := ppPut_some (w := w)
        have := ppElems_le s.buf
        omega
  | next_over hpc hp _ =>
    exact h.mainStep rfl (fun _ h => h) rfl (hprog hp) ⟨hr1, hr2, hr3, hr4⟩ (hsnoc _) (fun _ => Nat.add_le_add_right (hsnoc _) _) (by simp [hpc])
  | next_closed hpc hp _ =>
    exact h.mainStep rfl (fun _ h => h) rfl (hprog hp) ⟨hr1, hr2, hr3, hr4⟩ (hsnoc _) (fun _ => Nat.add_le_add_right (hsnoc _) _) (by simp [hpc])
  | next_start hpc hp _ _ hw =>
    refine ⟨h.prog, ⟨hr1, hr2, hr3, by simp⟩, h.entries, fun x hx => ?_, fun e he => (by cases he), fun x hx => ?_, by simp⟩
    · cases hx; simp [ppWorker0]
    · cases hx
      refine ⟨fun hh => by simp [ppWorker0] at hh, fun _ _ => Nat.zero_le _, fun hh => by simp [ppWorker0] at hh⟩
  | next_wait hpc hp _ _ hw =>
    exact h.mainStep rfl (fun _ h => h) rfl h.prog ⟨hr1, hr2, hr3, by simp⟩ (Nat.le_refl _) (fun _ => Nat.le_refl _) (by simp)
  | get_marker hpc hb => exact absurd (h.entries _ (by rw [hb]; exact List.mem_cons_self)) (by simp [ppIsMarker])
  | get_stale hpc hb _ hc => exact absurd hr3 hc
  | @get_elem ops a c ids es hpc hp hb _ =>
    have h3 : received (s.outs ++ [Sum.inl (Res.item a)]) = received s.outs + 1 := by rw [received_snoc]; rfl
    refine h.mainStep rfl (fun e he => by rw [hb]; exact List.mem_cons_of_mem _ he) rfl (hprog hp) ⟨hr1, hr2, hr3, by simp⟩ (hsnoc _) ?_ (by simp)
    intro _
    show _ ≤ received (s.outs ++ [Sum.inl (Res.item a)]) + ppElems es
    rw [h3, hb, show ppElems (PPEntry.elem a c ids :: es) = ppElems es + 1 from List.countP_cons_of_pos rfl]
    omega
  | @get_end ops es hpc hp hb _ _ =>
    refine h.mainStep rfl (fun e he => by rw [hb]; exact List.mem_cons_of_mem _ he) rfl (hprog hp) ⟨hr1, hr2, hr3, by simp⟩ (hsnoc _) ?_ (by simp)
    intro _
    show _ ≤ received (s.outs ++ [_]) + ppElems es
    rw [hb, show ppElems (PPEntry.err (Res.stop (α := α)) :: es) = ppElems es from List.countP_cons_of_neg (by simp)]
    exact Nat.add_le_add_right (hsnoc _) _
  | get_err hpc hb => exact h.stopped hl rfl (fun e he => by rw [hb]; exact List.mem_cons_of_mem _ he) rfl rfl ⟨hr1, hr2, hr3, by simp⟩ rfl
  | get_dead hpc hb => exact h.stopped hl rfl (fun _ h => h) rfl rfl ⟨hr1, hr2, hr3, by simp⟩ rfl
  | save hpc hp _ =>
    exact h.mainStep rfl (fun _ h => h) rfl (hprog hp) ⟨hr1, hr2, hr3, hr4⟩ (Nat.le_refl _) (fun _ => Nat.le_refl _) (by simp [hpc])
  | save_zero hpc hp _ =>
    exact h.mainStep rfl (fun _ h => h) rfl (hprog hp) ⟨hr1, hr2, hr3, hr4⟩ (Nat.le_refl _) (fun _ => Nat.le_refl _) (by simp [hpc])
  | save_index hpc hp _ =>
    exact h.mainStep rfl (fun _ h => h) rfl (hprog hp) ⟨hr1, hr2, hr3, hr4⟩ (Nat.le_refl _) (fun _ => Nat.le_refl _) (by simp [hpc])
  | set_clear hpc hp => exact absurd (hhead hp) (by simp [TOp.stays])
  | @set_put c hpc => exact absurd hpc (hr4 c).1
  | @set_done c op ops hpc => exact absurd hpc (hr4 c).2
  | fresh hpc hp => exact absurd (hhead hp) (by simp [TOp.stays])
  | index_known hpc hp _ =>
    exact h.mainStep rfl (fun _ h => h) rfl (hprog hp) ⟨hr1, hr2, hr3, hr4⟩ (hsnoc _) (fun _ => Nat.add_le_add_right (hsnoc _) _) (by simp [hpc])
  | index hpc hp _ =>
    exact h.mainStep rfl (fun _ h => h) rfl (hprog hp) ⟨hr1, hr2, hr3, hr4⟩ (hsnoc _) (fun _ => Nat.add_le_add_right (hsnoc _) _) (by simp [hpc])
  | jump_clear hpc hp => exact absurd (hhead hp) (by simp [TOp.stays])
  | start_closed hpc hp _ =>
    exact h.mainStep rfl (fun _ h => h) rfl (hprog hp) ⟨hr1, hr2, hr3, hr4⟩ (hsnoc _) (fun _ => Nat.add_le_add_right (hsnoc _) _) (by simp [hpc])
  | start hpc hp _ hw =>
    refine ⟨hprog hp, ⟨hr1, hr2, hr3, hr4⟩, h.entries, fun x hx => ?_, fun e he => (by cases he), fun x hx => ?_, by simp [hpc]⟩
    · cases hx; simp [ppWorker0]
    · cases hx
      refine ⟨fun hh => by simp [ppWorker0] at hh, fun _ _ => Nat.zero_le _, fun hh => by simp [ppWorker0] at hh⟩
  | start_again hpc hp _ hw =>
    exact h.mainStep rfl (fun _ h => h) rfl (hprog hp) ⟨hr1, hr2, hr3, hr4⟩ (Nat.le_refl _) (fun _ => Nat.le_refl _) (by simp [hpc])
  | close hpc hp hw =>
    exact h.mainStep rfl (fun _ h => h) rfl (hprog hp) ⟨hr1, hr2, hr3, hr4⟩ (Nat.le_refl _) (fun _ => Nat.le_refl _) (by simp [hpc])
  | close_stop hpc hp hw => exact h.stopped hl rfl (fun _ h => h) rfl rfl ⟨hr1, hr2, hr3, by simp⟩ rfl
  | @stop1 k e es hpc hb =>
    have hs : s.stop = true := h.phase.resolve_left (fun hh => (hh k).1 hpc)
    exact h.mainStep rfl (fun e he => by rw [hb]; exact List.mem_cons_of_mem _ he) rfl h.prog ⟨hr1, hr2, hr3, hr4⟩ (Nat.le_refl _)
      (fun hh => by simp [hs] at hh) (Or.inr hs)
  | @stop1_end k hpc =>
    have hs : s.stop = true := h.phase.resolve_left (fun hh => (hh k).1 hpc)
    exact h.mainStep rfl (fun _ h => h) rfl h.prog ⟨hr1, hr2, hr3, by simp⟩ (Nat.le_refl _) (fun _ => Nat.le_refl _) (Or.inr hs)
  | @stop2 k j hpc hj =>
    have hs : s.stop = true := h.phase.resolve_left (fun hh => (hh k).2.1 hpc)
    exact h.mainStep rfl (fun _ h => h) rfl h.prog ⟨by simp [hr1], by simp [hr2], by simp [hr3], by simp⟩ (Nat.le_refl _)
      (fun _ => Nat.le_refl _) (Or.inr hs)
  | @join k w hpc hw _ =>
    have hs : s.stop = true := h.phase.resolve_left (fun hh => (hh k).2.2.1 hpc)
    exact h.mainStep rfl (fun _ h => h) rfl h.prog ⟨hr1, hr2, hr3, by simp⟩ (Nat.le_refl _) (fun _ => Nat.le_refl _) (Or.inr hs)
  | @stop3 k e es hpc hb =>
    have hs : s.stop = true := h.phase.resolve_left (fun hh => (hh k).2.2.2 hpc)
    exact h.mainStep rfl (fun e he => by rw [hb]; exact List.mem_cons_of_mem _ he) rfl h.prog ⟨hr1, hr2, hr3, hr4⟩ (Nat.le_refl _)
      (fun hh => by simp [hs] at hh) (Or.inr hs)
  | raise hpc hb hp =>
    exact ⟨hprog hp, ⟨hr1, hr2, rfl, by simp⟩, h.entries, fun x hx => (by cases hx), fun e he => (by cases he), fun x hx => (by cases hx), by simp⟩
  | closed hpc hb hp =>
    exact ⟨hprog hp, ⟨hr1, hr2, rfl, by simp⟩, h.entries, fun x hx => (by cases hx), fun e he => (by cases he), fun x hx => (by cases hx), by simp⟩
  | kill_raise hpc hw hp _ =>
    exact ⟨hprog hp, ⟨hr1, hr2, rfl, by simp⟩, h.entries, fun x hx => (by cases hx), fun e he => (by cases he), fun x hx => (by cases hx), by simp⟩
  | kill_close hpc hw hp _ =>
    exact ⟨hprog hp, ⟨hr1, hr2, rfl, by simp⟩, h.entries, fun x hx => (by cases hx), fun e he => (by cases he), fun x hx => (by cases hx), by simp⟩

theorem ppStays_run (hprog : ∀ op ∈ prog, op.stays = true) {s : PPSys p.counted}
    (hrun : PPRun p.counted size keep crashes (ppInit p.counted prog) s) : PPStays size s := by
  induction hrun with
  | refl =>
    exact ⟨hprog, ⟨rfl, rfl, rfl, by simp [ppInit]⟩, fun e he => (by cases he), fun x hx => (by cases hx), fun e he => (by cases he),
      fun x hx => (by cases hx), by simp [ppInit]⟩
  | step hr hst ih => exact ppStays_step (process_prefetch_buffer_bound hr) ih hst

/-- C90: unless the user moves the iterator, the worker process has read at most `size + 1` elements from its input that the user
has not received, whatever the schedule, and also when the worker dies or is killed. -/
theorem process_prefetch_reads (hprog : ∀ op ∈ prog, op.stays = true) {s : PPSys p.counted}
    (hrun : PPRun p.counted size keep crashes (ppInit p.counted prog) s) {w : PPWorker p.counted} (hw : s.worker = some w) :
    w.it.2 ≤ received s.outs + size + 1 := by
  have h := ppStays_run hprog hrun
  obtain ⟨ha, hb, _⟩ := h.ahead w hw
  by_cases hs : s.stop = true ∨ w.pc = .dead
  · have := ha hs
    omega
  · have hs : s.stop = false ∧ w.pc ≠ .dead := by simpa [not_or] using hs
    have hb := hb hs.1 hs.2
    rw [hw, ppElems_append] at hb
    have := ppPut_some (w := w)
    have := ppElems_le s.buf
    have := process_prefetch_buffer_bound hrun
    omega

end

/-- A run in which the bound of `process_prefetch_reads` is reached: buffer size 1, no element received, two elements read. -/
theorem process_prefetch_reads_sharp :
    ∃ (s : PPSys (listIter ([10, 11, 12].map Except.ok)).counted) (w : PPWorker (listIter ([10, 11, 12].map Except.ok)).counted),
      PPRun _ 1 false false (ppInit (listIter ([10, 11, 12].map Except.ok)).counted [.start]) s ∧ s.worker = some w ∧
        received s.outs = 0 ∧ w.it.2 = 2 := by
  refine ⟨_, _, .step (.step (.step (.step (.step (.step .refl (.start rfl rfl rfl rfl)) (.top_work rfl rfl rfl rfl rfl))
    (.work_item (n := 1) rfl rfl rfl (listIter_counted_next [10, 11, 12] 0 (by decide) rfl))) (.put rfl rfl (Nat.zero_lt_one)))
    (.top_work rfl rfl rfl rfl rfl))
    (.work_item (n := 1) rfl rfl rfl (listIter_counted_next [10, 11, 12] 1 (by decide) rfl)), rfl, rfl, rfl⟩

end Grain
