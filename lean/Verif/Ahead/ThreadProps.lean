import Verif.Ahead.ThreadLemmas
import Verif.Iter.Example
/-
Property C90 for thread prefetching: however the two threads are scheduled, at most `size + 1` elements have been read from
the input and not been returned.

The input is `p.counted`, i.e. any iterator `p` with a counter of the elements it has returned.
-/
namespace Grain

section
variable {p : Iter α} {size : Nat} {prog : List TOp}

/-- C90: the input of a thread prefetching iterator with a buffer of `size` elements is never more than `size + 1` elements
ahead of what `get_state` would return, whatever the user calls (also restores and `set_next_index`) and whatever the
schedule. -/
theorem thread_prefetch_ahead (hsize : 0 < size) {s : TPSys p.counted} (hrun : TPRun p.counted size (tpInit p.counted prog) s) :
    s.ps.2 ≤ (tpState s).2.2 + size + 1 := by
  have h := tpAhead_run hsize hrun
  have hm := h.mode
  unfold tpState
  cases hs : s.state with
  | none =>
    show s.ps.2 ≤ s.ps.2 + size + 1
    omega
  | some c =>
    show s.ps.2 ≤ c.2 + size + 1
    have hL : tpElems (s.buf ++ tpHeld s.thread) ≤ size + 1 := by
      rw [tpElems_append]
      have := tpElems_held s.thread
      have := tpElems_le s.buf
      have := h.len
      omega
    have hst : ∀ k, tpStopping size s k → s.ps.2 ≤ c.2 + size + 1 := by
      intro k hk
      obtain ⟨_, hk⟩ := hk
      cases k with
      | raise r => have := hk.2 c hs; omega
      | restore d => have := hk c hs; omega
      | close => have := hk.2 c hs; omega
      | getIndex d =>
        have h1 := hk.1
        rw [hs] at h1
        cases h1
        have := hk.2
        omega
      | setIndex i => have := hk c hs; omega
    cases hp : s.pc with
    | idle =>
      rw [hp] at hm
      rcases hm c hs with h1 | h1
      · omega
      · exact h1.2.2
    | get => rw [hp] at hm; have := hm.2 c hs; omega
    | clear1 k => rw [hp] at hm; exact hst k hm.2
    | join k => rw [hp] at hm; exact hst k hm
    | clear2 k => rw [hp] at hm; exact hst k hm.2

/-- The queue never holds more than `size` entries. -/
theorem thread_prefetch_queue_bound (hsize : 0 < size) {s : TPSys p.counted} (hrun : TPRun p.counted size (tpInit p.counted prog) s) :
    s.buf.length ≤ size := (tpAhead_run hsize hrun).len

theorem received_snoc (outs : List (Res α ⊕ Int)) (o : Res α ⊕ Int) : received (outs ++ [o]) = received outs + received [o] :=
  List.countP_append

/-- The phases, when the iterator is never moved: the position of the input is exactly what was received and what is on its
way. -/
def tpMode' (s : TPSys p.counted) (n : Nat) : TPConsumer α p.counted.C → Prop
  | .idle => s.ps.2 = n + tpElems (s.buf ++ tpHeld s.thread) ∨ (s.closed = true ∧ s.thread = none)
  | .get => s.ps.2 = n + tpElems (s.buf ++ tpHeld s.thread)
  | .clear1 k | .join k | .clear2 k =>
    match k with
    | .raise r => s.ps.2 = n ∧ s.buf ++ tpHeld s.thread = [] ∧ ¬ tpActive s.thread ∧ received (α := α) [.inl r] = 0
    | .close => s.closed = true
    | _ => False

structure TPExact (s : TPSys p.counted) : Prop where
  prog : ∀ op ∈ s.prog, op.stays = true
  idx : s.nextIndex ≠ none
  state : ∃ c, s.state = some c ∧ c.2 = received s.outs
  res : ∀ r, TPEntry.err r ∈ s.buf ++ tpHeld s.thread → received (α := α) [.inl r] = 0
  mode : tpMode' s (received s.outs) s.pc

theorem TPExact.producer {s s' : TPSys p.counted} (h : TPExact s) (hpc : s'.pc = s.pc) (hst : s'.state = s.state)
    (hcl : s'.closed = s.closed) (hprog : s'.prog = s.prog) (hidx : s'.nextIndex = s.nextIndex) (houts : s'.outs = s.outs)
    (ht : s.thread ≠ none) (hres : ∀ r, TPEntry.err r ∈ s'.buf ++ tpHeld s'.thread → received (α := α) [.inl r] = 0)
    (hn : s'.ps.2 + tpElems (s.buf ++ tpHeld s.thread) = s.ps.2 + tpElems (s'.buf ++ tpHeld s'.thread))
    (ha : ¬ tpActive s.thread → s.buf ++ tpHeld s.thread = [] → False) : TPExact s' := by
  refine ⟨hprog ▸ h.prog, hidx ▸ h.idx, houts ▸ hst ▸ h.state, hres, ?_⟩
  have hm := h.mode
  rw [hpc, houts]
  cases hp : s.pc with
  | idle =>
    rw [hp] at hm
    rcases hm with h1 | h1
    · left; omega
    · exact absurd h1.2 ht
  | get => rw [hp] at hm; have hm : s.ps.2 = _ := hm; show s'.ps.2 = _; omega
  | clear1 k =>
    rw [hp] at hm
    cases k with
    | raise r => exact (ha hm.2.2.1 hm.2.1).elim
    | close => exact hcl.trans hm
    | restore c => exact hm
    | getIndex c => exact hm
    | setIndex c => exact hm
  | join k =>
    rw [hp] at hm
    cases k with
    | raise r => exact (ha hm.2.2.1 hm.2.1).elim
    | close => exact hcl.trans hm
    | restore c => exact hm
    | getIndex c => exact hm
    | setIndex c => exact hm
  | clear2 k =>
    rw [hp] at hm
    cases k with
    | raise r => exact (ha hm.2.2.1 hm.2.1).elim
    | close => exact hcl.trans hm
    | restore c => exact hm
    | getIndex c => exact hm
    | setIndex c => exact hm

theorem tpExact_step (hsize : 0 < size) {s s' : TPSys p.counted} (hA : TPAhead size s) (h : TPExact s)
    (hstep : TPStep p.counted size s s') : TPExact s' := by
  have hm := h.mode
  have hprog : ∀ {op ops}, s.prog = op :: ops → ∀ o ∈ ops, o.stays = true :=
    fun hp o ho => h.prog o (by rw [hp]; exact List.mem_cons_of_mem _ ho)
  have hhead : ∀ {op ops}, s.prog = op :: ops → op.stays = true := fun hp => h.prog _ (by rw [hp]; exact List.mem_cons_self)
  obtain ⟨c0, hc0, hc1⟩ := h.state
  cases hstep with
  | check_go ht hs =>
    exact h.producer rfl rfl rfl rfl rfl rfl (by simp [ht]) (by simpa [tpHeld, ht] using h.res) (by simp [tpHeld, ht])
      (fun hh => absurd (by simp [tpActive, ht]) hh)
  | check_stop ht hs =>
    exact h.producer rfl rfl rfl rfl rfl rfl (by simp [ht]) (by simpa [tpHeld, ht] using h.res) (by simp [tpHeld, ht])
      (fun hh => absurd (by simp [tpActive, ht]) hh)
  | @read ps' r ht hr =>
    have hn := counted_next hr
    have hact : tpActive s.thread := by rw [ht]; trivial
    have hres := h.res
    rw [show tpHeld s.thread = [] by rw [ht]; rfl, List.append_nil] at hres
    refine h.producer rfl rfl rfl rfl rfl rfl (by simp [ht]) ?_ ?_ (fun hh => absurd hact hh)
    · intro r' hr'
      rcases List.mem_append.1 hr' with hr' | hr'
      · exact hres r' hr'
      · cases r <;> simp [tpHeld, tpProduce] at hr' <;> subst hr' <;> rfl
    · cases r with
      | item a =>
        have hn : ps'.2 = s.ps.2 + 1 := hn
        show ps'.2 + tpElems (s.buf ++ tpHeld s.thread) = s.ps.2 + tpElems (s.buf ++ [.elem a (p.counted.get ps').2])
        rw [hn, ht, tpElems_append, tpElems_append]
        simp [tpHeld, tpElems]
        omega
      | stop =>
        have hn : ps'.2 = s.ps.2 := hn
        show ps'.2 + tpElems (s.buf ++ tpHeld s.thread) = s.ps.2 + tpElems (s.buf ++ [.err .stop])
        rw [hn, ht, tpElems_append, tpElems_append]
        simp [tpHeld, tpElems]
      | fail e =>
        have hn : ps'.2 = s.ps.2 := hn
        show ps'.2 + tpElems (s.buf ++ tpHeld s.thread) = s.ps.2 + tpElems (s.buf ++ [.err (.fail e)])
        rw [hn, ht, tpElems_append, tpElems_append]
        simp [tpHeld, tpElems]
  | @put e ht hroom =>
    have hl : s.buf ++ [e] ++ tpHeld (some (tpAfterPut e)) = s.buf ++ tpHeld s.thread := by
      rw [tpHeld_afterPut, ht]; simp [tpHeld]
    refine h.producer rfl rfl rfl rfl rfl rfl (by simp [ht]) ?_ ?_ ?_
    · show ∀ r, _ ∈ s.buf ++ [e] ++ tpHeld (some (tpAfterPut e)) → _
      rw [hl]; exact h.res
    · show s.ps.2 + _ = s.ps.2 + tpElems (s.buf ++ [e] ++ tpHeld (some (tpAfterPut e)))
      rw [hl]
    · intro _ hh
      rw [ht] at hh
      simp [tpHeld] at hh
  | next_closed hpc hp _ _ =>
    refine ⟨hprog hp, h.idx, ⟨c0, hc0, ?_⟩, h.res, ?_⟩
    · rw [hc1, received_snoc]; rfl
    · show tpMode' _ (received (s.outs ++ [_])) s.pc
      rw [received_snoc]
      exact hm
  | next_start hpc hp _ hcl ht =>
    rw [hpc] at hm
    have hl : s.buf ++ tpHeld (some (TPProducer.check (α := α) (C := p.counted.C))) = s.buf ++ tpHeld s.thread := by rw [ht]; rfl
    refine ⟨h.prog, h.idx, h.state, ?_, ?_⟩
    · show ∀ r, _ ∈ s.buf ++ tpHeld (some .check) → _
      rw [hl]; exact h.res
    · rcases hm with h1 | h1
      · show s.ps.2 = _ + tpElems (s.buf ++ tpHeld (some .check))
        rw [hl]; exact h1
      · rw [hcl] at h1; simp at h1
  | next_wait hpc hp _ hcl ht =>
    rw [hpc] at hm
    refine ⟨h.prog, h.idx, h.state, h.res, ?_⟩
    rcases hm with h1 | h1
    · exact h1
    · rw [hcl] at h1; simp at h1
  | @get_elem ops a c es hpc hp hb =>
    rw [hpc] at hm
    have hm : s.ps.2 = received s.outs + tpElems (s.buf ++ tpHeld s.thread) := hm
    have hch := hA.chain
    rw [hb] at hch hm
    have h1 : s.ps.2 = c.2 + tpElems (es ++ tpHeld s.thread) := hch.1
    have h2 : tpElems (TPEntry.elem a c :: es ++ tpHeld s.thread) = tpElems (es ++ tpHeld s.thread) + 1 := by
      rw [List.cons_append]
      exact List.countP_cons_of_pos rfl
    have h3 : received (s.outs ++ [Sum.inl (Res.item a)]) = received s.outs + 1 := by rw [received_snoc]; rfl
    refine ⟨hprog hp, ?_, ⟨c, rfl, ?_⟩, ?_, Or.inl ?_⟩
    · have := h.idx
      cases hi : s.nextIndex with
      | none => exact absurd hi this
      | some i => simp
    · rw [h3]; omega
    · intro r hr
      exact h.res r (by rw [hb]; exact List.mem_cons_of_mem _ hr)
    · rw [h3]
      show s.ps.2 = _ + tpElems (es ++ tpHeld s.thread)
      omega
  | @get_err r es hpc hb =>
    rw [hpc] at hm
    have hm : s.ps.2 = received s.outs + tpElems (s.buf ++ tpHeld s.thread) := hm
    have hch := hA.chain
    rw [hb] at hch hm
    have hnil : es ++ tpHeld s.thread = [] := hch
    rw [List.cons_append, hnil] at hm
    refine ⟨h.prog, h.idx, h.state, ?_, ?_⟩
    · intro r hr
      have hr : _ ∈ es ++ tpHeld s.thread := hr
      rw [hnil] at hr; cases hr
    · refine ⟨hm, hnil, hA.errs ⟨r, by rw [hb]; exact List.mem_cons_self⟩, h.res r (by rw [hb]; exact List.mem_cons_self)⟩
  | zero_elem _ _ hz => omega
  | zero_err _ _ hz => omega
  | zero_item _ _ hz => omega
  | zero_raise _ _ hz => omega
  | save hpc hp =>
    refine ⟨hprog hp, h.idx, ⟨(tpState s).2, rfl, ?_⟩, h.res, ?_⟩
    · unfold tpState; rw [hc0]; exact hc1
    · show tpMode' _ _ s.pc
      rw [hpc] at hm ⊢
      show (tpState s).1.2 = _ ∨ _
      rw [tpState_ps]
      exact hm
  | restore_stop hpc hp => exact absurd (hhead hp) (by simp [TOp.stays])
  | restore hpc hp => exact absurd (hhead hp) (by simp [TOp.stays])
  | fresh hpc hp => exact absurd (hhead hp) (by simp [TOp.stays])
  | start_closed hpc hp =>
    refine ⟨hprog hp, h.idx, ⟨c0, hc0, ?_⟩, h.res, ?_⟩
    · rw [hc1, received_snoc]; rfl
    · show tpMode' _ (received (s.outs ++ [_])) s.pc
      rw [received_snoc]
      exact hm
  | start hpc hp hcl ht =>
    rw [hpc] at hm
    have hl : s.buf ++ tpHeld (some (TPProducer.check (α := α) (C := p.counted.C))) = s.buf ++ tpHeld s.thread := by rw [ht]; rfl
    refine ⟨hprog hp, h.idx, h.state, ?_, ?_⟩
    · show ∀ r, _ ∈ s.buf ++ tpHeld (some .check) → _
      rw [hl]; exact h.res
    · show tpMode' _ _ s.pc
      rw [hpc]
      rcases hm with h1 | h1
      · left
        show s.ps.2 = _ + tpElems (s.buf ++ tpHeld (some .check))
        rw [hl]; exact h1
      · rw [hcl] at h1; simp at h1
  | start_again hpc hp => exact ⟨hprog hp, h.idx, h.state, h.res, hm⟩
  | close_stop hpc hp ht => exact ⟨h.prog, h.idx, h.state, h.res, rfl⟩
  | close hpc hp ht =>
    refine ⟨hprog hp, h.idx, h.state, h.res, ?_⟩
    show tpMode' _ _ s.pc
    rw [hpc]
    exact Or.inr ⟨rfl, ht⟩
  | @index_known ops i hpc hp hi =>
    refine ⟨hprog hp, h.idx, ⟨c0, hc0, ?_⟩, h.res, ?_⟩
    · rw [hc1, received_snoc]; rfl
    · show tpMode' _ (received (s.outs ++ [_])) s.pc
      rw [received_snoc]
      exact hm
  | index_stop _ _ hi => exact absurd hi h.idx
  | index _ _ hi => exact absurd hi h.idx
  | set_index_stop hpc hp => exact absurd (hhead hp) (by simp [TOp.stays])
  | set_index hpc hp => exact absurd (hhead hp) (by simp [TOp.stays])
  | @clear1 k e es hpc hb =>
    refine ⟨h.prog, h.idx, h.state, fun r hr => h.res r (by rw [hb]; exact List.mem_cons_of_mem _ hr), ?_⟩
    show tpMode' _ _ s.pc
    rw [hpc] at hm ⊢
    cases k with
    | raise r => have h2 := hm.2.1; rw [hb] at h2; exact absurd h2 (by simp)
    | close => exact hm
    | restore c => exact hm
    | getIndex c => exact hm
    | setIndex c => exact hm
  | clear1_end hpc hb => rw [hpc] at hm; exact ⟨h.prog, h.idx, h.state, h.res, hm⟩
  | @join k hpc ht =>
    rw [hpc] at hm
    have hl : s.buf ++ tpHeld (none : Option (TPProducer α p.counted.C)) = s.buf ++ tpHeld s.thread := by rw [ht]; rfl
    refine ⟨h.prog, h.idx, h.state, ?_, ?_⟩
    · show ∀ r, _ ∈ s.buf ++ tpHeld none → _
      rw [hl]; exact h.res
    · cases k with
      | raise r => exact ⟨hm.1, hl.trans hm.2.1, fun hh => hh, hm.2.2.2⟩
      | close => exact hm
      | restore c => exact hm
      | getIndex c => exact hm
      | setIndex c => exact hm
  | @clear2 k e es hpc hb =>
    refine ⟨h.prog, h.idx, h.state, fun r hr => h.res r (by rw [hb]; exact List.mem_cons_of_mem _ hr), ?_⟩
    show tpMode' _ _ s.pc
    rw [hpc] at hm ⊢
    cases k with
    | raise r => have h2 := hm.2.1; rw [hb] at h2; exact absurd h2 (by simp)
    | close => exact hm
    | restore c => exact hm
    | getIndex c => exact hm
    | setIndex c => exact hm
  | @raise r op ops hpc hb hp =>
    rw [hpc] at hm
    have h3 : received (s.outs ++ [Sum.inl r]) = received s.outs := by rw [received_snoc, hm.2.2.2]; rfl
    refine ⟨hprog hp, h.idx, ⟨c0, hc0, ?_⟩, h.res, Or.inl ?_⟩
    · rw [h3]; exact hc1
    · rw [h3]
      show s.ps.2 = _ + tpElems (s.buf ++ tpHeld s.thread)
      rw [hm.2.1]; exact hm.1
  | restored hpc => rw [hpc] at hm; exact hm.elim
  | closed hpc hb hp =>
    rw [hpc] at hm
    have hA' := hA.mode
    rw [hpc] at hA'
    exact ⟨hprog hp, h.idx, h.state, h.res, Or.inr ⟨hm, hA'.1⟩⟩
  | indexed hpc => rw [hpc] at hm; exact hm.elim
  | index_set hpc => rw [hpc] at hm; exact hm.elim

theorem tpExact_run (hsize : 0 < size) (hprog : ∀ op ∈ prog, op.stays = true) {s : TPSys p.counted}
    (hrun : TPRun p.counted size (tpInit p.counted prog) s) : TPExact s := by
  induction hrun with
  | refl => exact ⟨hprog, by simp [tpInit], ⟨_, rfl, rfl⟩, fun r hr => (by cases hr), Or.inl rfl⟩
  | step hr hst ih => exact tpExact_step hsize (tpAhead_run hsize hr) ih hst

/-- C90: unless the user moves the iterator (`set_state`, `set_next_index`), at most `size + 1` elements have been read from
the input that the user has not received. -/
theorem thread_prefetch_reads (hsize : 0 < size) (hprog : ∀ op ∈ prog, op.stays = true) {s : TPSys p.counted}
    (hrun : TPRun p.counted size (tpInit p.counted prog) s) : s.ps.2 ≤ received s.outs + size + 1 := by
  have h1 := thread_prefetch_ahead hsize hrun
  obtain ⟨c, hc, hc'⟩ := (tpExact_run hsize hprog hrun).state
  rw [← hc']
  unfold tpState at h1
  rw [hc] at h1
  exact h1

end

/-! ### The bounds are reached -/

theorem listIter_counted_next (xs : List α) (k : Nat) (hk : k < xs.length)
    {s : (listIter (xs.map Except.ok)).counted.S} (hs : s = (k, k)) :
    Ev (fun F => (listIter (xs.map Except.ok)).counted.next F s = some ((k + 1, k + 1), .item xs[k])) := by
  subst hs
  refine ⟨0, fun F _ => ?_⟩
  have hx : (xs.map (Except.ok : α → Py α))[k]? = some (.ok xs[k]) := by
    simp [List.getElem?_map, List.getElem?_eq_getElem hk]
  have : (listIter (xs.map Except.ok)).next F k = some (k + 1, .item xs[k]) := by
    simp only [listIter, hx]
  show ((listIter (xs.map Except.ok)).next F k).map _ = _
  rw [this]
  rfl

theorem tp_fill (xs : List α) (size : Nat) : ∀ k, k ≤ xs.length → (size = 0 ∨ k ≤ size) →
    ∃ s : TPSys (listIter (xs.map Except.ok)).counted,
      TPRun _ size (tpInit (listIter (xs.map Except.ok)).counted [.start]) s ∧ s.thread = some .check ∧ s.stop = false ∧
        s.buf.length = k ∧ s.ps = (k, k) ∧ s.outs = []
  | 0, _, _ => ⟨_, .step .refl (.start rfl rfl rfl rfl), rfl, rfl, rfl, rfl, rfl⟩
  | k + 1, hk, hsz => by
    obtain ⟨s, hr, ht, hs, hb, hp, ho⟩ := tp_fill xs size k (by omega) (by omega)
    have hn := listIter_counted_next xs k (by omega) hp
    refine ⟨_, .step (.step (.step hr (.check_go ht hs)) (.read rfl hn)) (.put rfl ?_), rfl, hs, ?_, rfl, ho⟩
    · rcases hsz with h | h
      · exact Or.inl h
      · exact Or.inr (by show s.buf.length < size; omega)
    · show (s.buf ++ [_]).length = k + 1
      simp [hb]

/-- C90: `size + 1` is reached: for every buffer size and every input with more elements there is a schedule in which
`size + 1` elements are read before the first is asked for. -/
theorem thread_prefetch_ahead_sharp (xs : List α) {size : Nat} (hsize : 0 < size) (hlen : size < xs.length) :
    ∃ s : TPSys (listIter (xs.map Except.ok)).counted,
      TPRun _ size (tpInit (listIter (xs.map Except.ok)).counted [.start]) s ∧ received s.outs = 0 ∧ s.ps.2 = size + 1 := by
  obtain ⟨s, hr, ht, hs, hb, hp, ho⟩ := tp_fill xs size size (by omega) (Or.inr (Nat.le_refl _))
  have hn := listIter_counted_next xs size hlen hp
  refine ⟨_, .step (.step hr (.check_go ht hs)) (.read rfl hn), ?_, rfl⟩
  show received s.outs = 0
  rw [ho]; rfl

/-- C90 is false for buffer size 0 (finding F98): `start_prefetch` then starts a thread that reads without any limit, e.g. all
of the input before the first element is asked for. -/
theorem thread_prefetch_zero_unbounded (xs : List α) :
    ∃ s : TPSys (listIter (xs.map Except.ok)).counted,
      TPRun _ 0 (tpInit (listIter (xs.map Except.ok)).counted [.start]) s ∧ received s.outs = 0 ∧ s.ps.2 = xs.length ∧
        s.buf.length = xs.length := by
  obtain ⟨s, hr, _, _, hb, hp, ho⟩ := tp_fill xs 0 xs.length (Nat.le_refl _) (Or.inl rfl)
  exact ⟨s, hr, by rw [ho]; rfl, by rw [hp], hb⟩

/-- The hypotheses are met: a user reads, saves and closes. -/
example : ∀ op ∈ [TOp.start, .next, .save, .next, .close, .next], op.stays = true := by decide

end Grain
