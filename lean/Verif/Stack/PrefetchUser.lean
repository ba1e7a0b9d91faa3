import Verif.Stack.Prefetch
/-
The user's side of a thread prefetch, and the whole of it.
-/
namespace Grain

section
variable {c : ConcIter α} {x : Nat → Option α} {I : Nat → CMode → c.S → Prop} {K : Nat → c.C → Prop} {size : Nat}

theorem running_head {n : Nat} {s : PrefState c} {a : α} {ck : c.C} {b} (hb : s.buf = some (a, ck) :: b)
    (hs : Running x I K n s) : x n = some a ∧ K (n + 1) ck ∧
      ∀ state pc, Running x I K (n + 1) { s with buf := b, state := state, pc := pc } := by
  rcases s with ⟨cs, state, buf, thr, flag, pc⟩
  dsimp only at hb
  subst hb
  rcases thr with _ | (_ | _ | _ | _ | (_ | ⟨a, ck⟩) | _) <;> simp only [Running] at hs ⊢
  · exact absurd hs.1 (by simp)
  · obtain ⟨h1, e, h2, h3⟩ := hs; exact ⟨h2.1, h2.2.1, fun _ _ => ⟨h1, e, h2.2.2, h3⟩⟩
  · obtain ⟨h1, e, h2, h3⟩ := hs; exact ⟨h2.1, h2.2.1, fun _ _ => ⟨h1, e, h2.2.2, h3⟩⟩
  · obtain ⟨h1, e, h2, h3⟩ := hs; exact ⟨h2.1, h2.2.1, fun _ _ => ⟨h1, e, h2.2.2, h3⟩⟩
  · obtain ⟨h1, e, h2, h3⟩ := hs; exact ⟨h2.1, h2.2.1, fun _ _ => ⟨h1, e, h2.2.2, h3⟩⟩
  · obtain ⟨h1, e, h2, h3⟩ := hs; exact ⟨h2.1, h2.2.1, fun _ _ => ⟨h1, e, h2.2.2, h3⟩⟩
  · obtain ⟨h1, e, h2, h3⟩ := hs; exact ⟨h2.1, h2.2.1, fun _ _ => ⟨h1, e, h2.2.2, h3⟩⟩
  · obtain ⟨h1, e, b', h2, h3, h4⟩ := hs
    rcases b' with _ | ⟨d, b'⟩
    · simp at h2
    · simp only [List.cons_append, List.cons.injEq] at h2
      obtain ⟨rfl, rfl⟩ := h2
      exact ⟨h3.1, h3.2.1, fun _ _ => ⟨h1, e, b', rfl, h3.2.2, h4⟩⟩

theorem running_headStop {n : Nat} {s : PrefState c} {b} (hb : s.buf = none :: b) (hs : Running x I K n s) :
    x n = none ∧ s.thr = some .exited ∧ b = [] ∧ I n .idle s.cs := by
  rcases s with ⟨cs, state, buf, thr, flag, pc⟩
  dsimp only at hb
  subst hb
  rcases thr with _ | (_ | _ | _ | _ | (_ | ⟨a, ck⟩) | _) <;> simp only [Running] at hs ⊢
  · exact absurd hs.1 (by simp)
  · obtain ⟨h1, e, h2, h3⟩ := hs; exact h2.elim
  · obtain ⟨h1, e, h2, h3⟩ := hs; exact h2.elim
  · obtain ⟨h1, e, h2, h3⟩ := hs; exact h2.elim
  · obtain ⟨h1, e, h2, h3⟩ := hs; exact h2.elim
  · obtain ⟨h1, e, h2, h3⟩ := hs; exact h2.elim
  · obtain ⟨h1, e, h2, h3⟩ := hs; exact h2.elim
  · obtain ⟨h1, e, b', h2, h3, h4⟩ := hs
    rcases b' with _ | ⟨d, b'⟩
    · simp only [List.nil_append, List.cons.injEq, true_and] at h2
      cases h3
      exact ⟨h4.1, trivial, h2, h4.2⟩
    · simp only [List.cons_append, List.cons.injEq] at h2
      obtain ⟨rfl, rfl⟩ := h2
      exact h3.elim

theorem running_busy {n : Nat} {s : PrefState c} (hs : Running x I K n s) :
    Busy I s ∧ (s.thr = none → s.buf = []) := by
  rcases s with ⟨cs, state, buf, thr, flag, pc⟩
  rcases thr with _ | (_ | _ | _ | _ | (_ | ⟨a, ck⟩) | _) <;> simp only [Running, Busy] at hs ⊢
  · exact ⟨⟨_, hs.2⟩, fun _ => hs.1⟩
  · obtain ⟨h1, e, h2, h3⟩ := hs; exact ⟨⟨_, h3⟩, by simp⟩
  · obtain ⟨h1, e, h2, h3⟩ := hs; exact ⟨⟨_, h3⟩, by simp⟩
  · obtain ⟨h1, e, h2, h3⟩ := hs; exact ⟨⟨_, h3⟩, by simp⟩
  · obtain ⟨h1, e, h2, h3, h4⟩ := hs; exact ⟨⟨_, h4⟩, by simp⟩
  · obtain ⟨h1, e, h2, h3, h4⟩ := hs; exact ⟨⟨_, h4⟩, by simp⟩
  · obtain ⟨h1, e, h2, h3, h4, h5⟩ := hs; exact ⟨⟨_, h5⟩, by simp⟩
  · obtain ⟨h1, e, b, h2, h3, h4, h5⟩ := hs; exact ⟨⟨_, h5⟩, by simp⟩

/-- `Running` does not depend on where the user is, nor on its checkpoint. -/
theorem running_pc {n : Nat} {s : PrefState c} (hs : Running x I K n s) (pc) : Running x I K n { s with pc := pc } := hs

theorem busy_pc {s : PrefState c} (hs : Busy I s) (pc) (b) (f) : Busy I { s with pc := pc, buf := b, flag := f } := hs

theorem running_none {n : Nat} {s : PrefState c} (h1 : s.thr = none) (h2 : s.buf = []) (h3 : I n .idle s.cs) :
    Running x I K n s := by
  unfold Running
  rw [h1]
  exact ⟨h2, h3⟩

theorem busy_idle {s : PrefState c} (h : s.thr ≠ some .reading) (hs : Busy I s) : ∃ e, I e .idle s.cs := by
  rcases s with ⟨cs, state, buf, thr, flag, pc⟩
  dsimp only at h
  rcases thr with _ | (_ | _ | _ | _ | (_ | ⟨a, ck⟩) | _) <;> first | exact hs | exact absurd rfl h

/-- Every step keeps the invariant; it is a step of the layer below, or the rank goes down. -/
theorem prefInv_step (h : Follows c x I K) {n : Nat} {m : CMode} {s t : PrefState c} (hb : Bounded size s)
    (hs : PrefInv x I K n m s) (ht : PrefStep size c s t) :
    PrefInv x I K n m t ∧ ((c.step s.cs t.cs ∧ t.rank size = s.rank size) ∨ t.rank size < s.rank size) := by
  have hb' := bounded_step hb ht
  cases ht with
  | below t ht => exact ⟨prefInv_below h hs ht, Or.inl ⟨ht, rfl⟩⟩
  | check h1 => exact (prefInv_prod hs (prod_check h h1)).imp id Or.inr
  | call t h1 h2 => exact (prefInv_prod hs (prod_call h h1 h2)).imp id Or.inr
  | item a t h1 h2 => exact (prefInv_prod hs (prod_item h h1 h2)).imp id Or.inr
  | over t h1 h2 => exact (prefInv_prod hs (prod_over h h1 h2)).imp id Or.inr
  | getState a h1 => exact (prefInv_prod hs (prod_getState h h1)).imp id Or.inr
  | put e h1 h2 => exact (prefInv_prod hs (prod_put h1 h2)).imp id Or.inr
  | start h1 h2 =>
    refine ⟨?_, Or.inr (rank_lt_of_phase hb' ?_)⟩
    · rcases s with ⟨cs, state, buf, thr, flag, pc⟩
      dsimp only at h1
      subst h1
      cases m <;> try exact hs.elim
      obtain ⟨h3, h4⟩ := hs
      cases thr with
      | none =>
        refine ⟨⟨rfl, n, ?_, h3.2⟩, h4, by simp⟩
        have := h3.1
        dsimp only at this
        subst this
        exact rfl
      | some p => exact ⟨h3, h4, by simp⟩
    · dsimp only
      rw [h1]
      simp [UserPc.phase]
  | take a ck b h1 h2 =>
    refine ⟨?_, Or.inr (rank_lt_of_phase hb' ?_)⟩
    · rcases s with ⟨cs, state, buf, thr, flag, pc⟩
      dsimp only at h1
      subst h1
      cases m <;> try exact hs.elim
      obtain ⟨h3, h4, h5⟩ := hs
      obtain ⟨h6, h7, h8⟩ := running_head h2 h3
      have : nextPos x n = n + 1 := by simp [nextPos, h6]
      refine ⟨h6.symm, ?_, ?_⟩
      · rw [this]; exact h8 _ _
      · rw [this]; exact h7
    · dsimp only
      rw [h1]
      simp [UserPc.phase]
  | takeStop b h1 h2 =>
    refine ⟨?_, Or.inr (rank_lt_of_phase hb' ?_)⟩
    · rcases s with ⟨cs, state, buf, thr, flag, pc⟩
      dsimp only at h1
      subst h1
      cases m <;> try exact hs.elim
      obtain ⟨h3, h4, h5⟩ := hs
      obtain ⟨h6, h7, h8, h9⟩ := running_headStop h2 h3
      exact ⟨h6, h9, h4, h7⟩
    · dsimp only
      rw [h1]
      simp [UserPc.phase]
  | sync t h1 h2 h3 h4 =>
    refine ⟨?_, Or.inr (rank_lt_of_phase hb' ?_)⟩
    · have hthr := hb.2 h2
      rcases s with ⟨cs, state, buf, thr, flag, pc⟩
      dsimp only at h1 h3 h4 hthr
      subst h1 h3 hthr
      cases m <;> try exact hs.elim
      obtain ⟨h5, h6⟩ := hs
      exact ⟨rfl, rfl, h.call h5.2 h4, h6⟩
    · dsimp only
      rw [h1]
      simp [UserPc.phase]
  | syncItem a t h1 h2 =>
    refine ⟨?_, Or.inr (rank_lt_of_phase hb' ?_)⟩
    · rcases s with ⟨cs, state, buf, thr, flag, pc⟩
      dsimp only at h1 h2
      subst h1
      cases m <;> try exact hs.elim
      obtain ⟨h5, h6, h7, h8⟩ := hs
      obtain ⟨h9, h10⟩ := h.ret h7 h2
      simp only [nextPos, ← h9] at h10
      exact ⟨h5, h6, h9.symm, h10⟩
    · dsimp only
      rw [h1]
      simp [UserPc.phase]
  | syncOver t h1 h2 =>
    refine ⟨?_, Or.inr (rank_lt_of_phase hb' ?_)⟩
    · rcases s with ⟨cs, state, buf, thr, flag, pc⟩
      dsimp only at h1 h2
      subst h1
      cases m <;> try exact hs.elim
      obtain ⟨h5, h6, h7, h8⟩ := hs
      obtain ⟨h9, h10⟩ := h.ret h7 h2
      have : nextPos x n = n := by simp [nextPos, ← h9]
      rw [this] at h10
      refine ⟨h9, ?_, ?_⟩
      · rw [this]; exact running_none h5 h6 h10
      · rw [this]; exact h8
    · dsimp only
      rw [h1]
      simp [UserPc.phase]
  | syncState a h1 =>
    refine ⟨?_, Or.inr (rank_lt_of_phase hb' ?_)⟩
    · rcases s with ⟨cs, state, buf, thr, flag, pc⟩
      dsimp only at h1
      subst h1
      cases m <;> try exact hs.elim
      obtain ⟨h5, h6, h7, h8⟩ := hs
      dsimp only at h7 h8
      have : nextPos x n = n + 1 := by simp [nextPos, h7]
      refine ⟨h7.symm, ?_, ?_⟩
      · rw [this]; exact running_none h5 h6 (h.get h8).1
      · rw [this]; exact (h.get h8).2
    · dsimp only
      rw [h1]
      simp [UserPc.phase]
  | stopNone k h1 h2 =>
    refine ⟨?_, Or.inr (rank_lt_of_phase hb' ?_)⟩
    · rcases s with ⟨cs, state, buf, thr, flag, pc⟩
      dsimp only at h1 h2
      subst h1 h2
      cases k <;> cases m <;> try exact hs.elim
      · exact absurd hs.2.2.2 (by simp)
      · obtain ⟨h3, ⟨e, h4⟩, h5⟩ := hs
        exact ⟨h3, rfl, h5 rfl, e, h4⟩
    · dsimp only
      rw [h1]
      cases k <;> simp [UserPc.phase, afterStop]
  | stopSome k h1 h2 =>
    refine ⟨?_, Or.inr (rank_lt_of_phase hb' ?_)⟩
    · rcases s with ⟨cs, state, buf, thr, flag, pc⟩
      dsimp only at h1 h2
      subst h1
      cases k <;> cases m <;> try exact hs.elim
      · exact ⟨hs, rfl⟩
      · obtain ⟨h3, h4, h5⟩ := hs
        exact ⟨h3, h4, by rintro rfl; simp at h2, rfl⟩
    · dsimp only
      rw [h1]
      cases k <;> simp [UserPc.phase]
  | clear k e b h1 h2 =>
    refine ⟨?_, Or.inr (rank_lt_of_pot rfl ?_)⟩
    · rcases s with ⟨cs, state, buf, thr, flag, pc⟩
      dsimp only at h1 h2
      subst h1
      cases k <;> cases m <;> try exact hs.elim
      · exact hs
      · exact hs
    · unfold PrefState.pot
      dsimp only
      rw [h1, h2]
      simp [UserPc.phase]
  | clearEnd k h1 h2 =>
    refine ⟨?_, Or.inr (rank_lt_of_phase hb' ?_)⟩
    · rcases s with ⟨cs, state, buf, thr, flag, pc⟩
      dsimp only at h1 h2
      subst h1 h2
      cases k <;> cases m <;> try exact hs.elim
      · exact hs.1
      · exact ⟨hs.1, hs.2.1, hs.2.2.1, hs.2.2.2, Or.inr (Or.inr rfl)⟩
    · dsimp only
      rw [h1]
      cases k <;> simp [UserPc.phase]
  | join k h1 h2 =>
    refine ⟨?_, Or.inr (rank_lt_of_phase hb' ?_)⟩
    · rcases s with ⟨cs, state, buf, thr, flag, pc⟩
      dsimp only at h1 h2
      subst h1 h2
      cases k <;> cases m <;> try exact hs.elim
      · exact ⟨hs.1, hs.2.1, hs.2.2.1, rfl⟩
      · exact ⟨hs.1, rfl, hs.2.1⟩
    · dsimp only
      rw [h1]
      cases k <;> simp [UserPc.phase]
  | again k e b h1 h2 =>
    refine ⟨?_, Or.inr (rank_lt_of_pot rfl ?_)⟩
    · rcases s with ⟨cs, state, buf, thr, flag, pc⟩
      dsimp only at h1 h2
      subst h1
      cases k <;> cases m <;> try exact hs.elim
      · exact hs
      · exact hs
    · unfold PrefState.pot
      dsimp only
      rw [h1, h2]
      simp [UserPc.phase]
  | againEnd k h1 h2 =>
    refine ⟨?_, Or.inr (rank_lt_of_phase hb' ?_)⟩
    · rcases s with ⟨cs, state, buf, thr, flag, pc⟩
      dsimp only at h1 h2
      subst h1 h2
      cases k <;> cases m <;> try exact hs.elim
      · obtain ⟨h3, h4, h5, h6⟩ := hs
        have : nextPos x n = n := by simp [nextPos, h3]
        refine ⟨h3.symm, ?_, ?_⟩
        · rw [this]; exact running_none h6 rfl h4
        · rw [this]; exact h5
      · exact ⟨hs.1, hs.2.1, rfl, hs.2.2⟩
    · dsimp only
      rw [h1]
      cases k <;> simp [UserPc.phase, afterStop]
  | setPar ck t h1 h2 =>
    refine ⟨?_, Or.inr (rank_lt_of_phase hb' ?_)⟩
    · rcases s with ⟨cs, state, buf, thr, flag, pc⟩
      dsimp only at h1 h2
      subst h1
      cases m <;> try exact hs.elim
      obtain ⟨h3, h4, h5, e, h6⟩ := hs
      exact ⟨h4, h5, h.setCall h6 h3 h2⟩
    · dsimp only
      rw [h1]
      simp [UserPc.phase]
  | setRet t h1 h2 =>
    refine ⟨?_, Or.inr (rank_lt_of_phase hb' ?_)⟩
    · rcases s with ⟨cs, state, buf, thr, flag, pc⟩
      dsimp only at h1 h2
      subst h1
      cases m <;> try exact hs.elim
      obtain ⟨h3, h4, h5⟩ := hs
      exact ⟨h3, h4, h.setRet h5 h2⟩
    · dsimp only
      rw [h1]
      simp [UserPc.phase]
  | setGet h1 =>
    refine ⟨?_, Or.inr (rank_lt_of_phase hb' ?_)⟩
    · rcases s with ⟨cs, state, buf, thr, flag, pc⟩
      dsimp only at h1
      subst h1
      cases m <;> try exact hs.elim
      obtain ⟨h3, h4, h5⟩ := hs
      exact ⟨h3, h4, (h.get h5).1, (h.get h5).2⟩
    · dsimp only
      rw [h1]
      simp [UserPc.phase]

/-- The layer below is in order whatever the thread and the user do. -/
theorem prefInv_parent {n : Nat} {m : CMode} {s : PrefState c} (hs : PrefInv x I K n m s) : ∃ k l, I k l s.cs := by
  have hr : ∀ {k}, Running x I K k s → ∃ k l, I k l s.cs := by
    intro k hk
    have := (running_busy hk).1
    unfold Busy at this
    split at this
    · exact ⟨_, _, this.choose_spec⟩
    · exact ⟨_, _, this.choose_spec⟩
  have hb : Busy I s → ∃ k l, I k l s.cs := by
    intro this
    unfold Busy at this
    split at this
    · exact ⟨_, _, this.choose_spec⟩
    · exact ⟨_, _, this.choose_spec⟩
  revert hs hr hb
  rcases s with ⟨cs, state, buf, thr, flag, pc⟩
  dsimp only
  intro hs hr hb
  rcases pc with _ | _ | _ | _ | _ | (_ | _) | (_ | _) | (_ | _) | (_ | _) | _ | _ | _ | _ | _ <;>
    cases m <;> simp only [PrefInv, AtEnd] at hs
  · exact hr hs.1
  · exact hr hs.1
  · exact hr hs.1
  · exact ⟨_, _, hs.2.2.1⟩
  · exact ⟨_, _, hs.2.2.2⟩
  · exact ⟨_, _, hs.2.1⟩
  · exact hb hs.2.1
  · exact ⟨_, _, hs.1.2.1⟩
  · exact hb hs.2.1
  · exact ⟨_, _, hs.2.1⟩
  · exact hb hs.2.1
  · exact ⟨_, _, hs.2.1⟩
  · exact ⟨_, _, hs.2.2.choose_spec⟩
  · exact hr hs.2.1
  · exact ⟨_, _, hs.2.2.2.choose_spec⟩
  · exact ⟨_, _, hs.2.2⟩
  · exact ⟨_, _, hs.2.2⟩
  · exact ⟨_, _, hs.2.2.1⟩

/-- A thread that has not ended, and has room in the buffer, can make a step (or a thread below it can). -/
theorem prod_live (h : Follows c x I K) {s : PrefState c} (hs : Busy I s) (h1 : s.thr ≠ none) (h2 : s.thr ≠ some .exited)
    (h3 : (∃ e, s.thr = some (.put e)) → s.buf.length < size) : ∃ t, PrefStep size c s t := by
  cases hthr : s.thr with
  | none => exact absurd hthr h1
  | some p =>
    cases p with
    | check => exact ⟨_, .check s hthr⟩
    | call =>
      obtain ⟨e, he⟩ := busy_idle (by rw [hthr]; simp) hs
      obtain ⟨t, ht⟩ := h.canCall he
      exact ⟨_, .call s t hthr ht⟩
    | reading =>
      unfold Busy at hs
      rw [hthr] at hs
      obtain ⟨e, he⟩ := hs
      rcases h.live he with ⟨t, ht⟩ | ⟨r, t, ht⟩
      · exact ⟨_, .below s t ht⟩
      · cases r with
        | none => exact ⟨_, .over s t hthr ht⟩
        | some a => exact ⟨_, .item s a t hthr ht⟩
    | got a => exact ⟨_, .getState s a hthr⟩
    | put e => exact ⟨_, .put s e hthr (h3 ⟨e, hthr⟩)⟩
    | exited => exact absurd hthr h2

/-- A thread prefetch follows the stream of its parent. -/
theorem prefetch_follows (h : Follows c x I K) :
    Follows (prefetchOver size c) x (fun n m s => Bounded size s ∧ PrefInv x I K n m s) K := by
  constructor
  · refine ⟨⟨by simp [prefetchOver], fun _ => rfl⟩, ⟨rfl, (h.get h.init).1⟩, (h.get h.init).2⟩
  · rintro n m s t ⟨hb, hs⟩ ht
    exact ⟨bounded_step hb ht, (prefInv_step h hb hs ht).1⟩
  · rintro n s t ⟨hb, hs⟩ ⟨hpc, rfl⟩
    rcases s with ⟨cs, state, buf, thr, flag, pc⟩
    dsimp only at hpc
    subst hpc
    exact ⟨hb, hs⟩
  · rintro n s r t ⟨hb, hs⟩ ⟨hpc, rfl⟩
    rcases s with ⟨cs, state, buf, thr, flag, pc⟩
    dsimp only at hpc
    subst hpc
    exact ⟨hs.1, hb, hs.2⟩
  · rintro n s ⟨hb, hs⟩
    refine ⟨⟨hb, hs⟩, ?_⟩
    rcases s with ⟨cs, state, buf, thr, flag, pc⟩
    cases pc <;> try exact hs.elim
    · exact hs.2
    all_goals (rename_i k; cases k <;> exact hs.elim)
  · rintro n s k ck t ⟨hb, hs⟩ hk ⟨hpc, rfl⟩
    rcases s with ⟨cs, state, buf, thr, flag, pc⟩
    dsimp only at hpc
    subst hpc
    exact ⟨hb, hk, running_busy hs.1⟩
  · rintro n s t ⟨hb, hs⟩ ⟨hpc, rfl⟩
    rcases s with ⟨cs, state, buf, thr, flag, pc⟩
    dsimp only at hpc
    subst hpc
    exact ⟨hb, running_none hs.1 hs.2.1 hs.2.2.1, hs.2.2.2⟩
  · rintro n s ⟨hb, hs⟩
    rcases s with ⟨cs, state, buf, thr, flag, pc⟩
    cases pc <;> try exact hs.elim
    · exact ⟨_, rfl, rfl⟩
    all_goals (rename_i k; cases k <;> exact hs.elim)
  · rintro n s k ck ⟨hb, hs⟩ -
    rcases s with ⟨cs, state, buf, thr, flag, pc⟩
    cases pc <;> try exact hs.elim
    · exact ⟨_, rfl, rfl⟩
    all_goals (rename_i k; cases k <;> exact hs.elim)
  · rintro n s ⟨hb, hs⟩
    rcases s with ⟨cs, state, buf, thr, flag, pc⟩
    rcases pc with _ | _ | _ | _ | _ | (_ | _) | (_ | _) | (_ | _) | (_ | _) | _ | _ | _ | _ | _ <;>
      try exact hs.elim
    · left
      by_cases hz : size = 0
      · have h1 := hb.2 hz
        dsimp only at h1
        subst h1
        obtain ⟨⟨h2, h3⟩, -⟩ := hs
        obtain ⟨t, ht⟩ := h.canCall h3
        exact ⟨_, .sync _ t rfl hz h2 ht⟩
      · exact ⟨_, .start _ rfl (by omega)⟩
    · left
      rcases buf with _ | ⟨_ | ⟨a, ck⟩, b⟩
      · refine prod_live h (running_busy hs.1).1 hs.2.2 ?_ ?_
        · rintro h1
          dsimp only at h1
          subst h1
          obtain ⟨⟨-, e, b, h2, -⟩, -⟩ := hs
          simp at h2
        · rintro ⟨e, h1⟩
          dsimp only at h1 ⊢
          have : size ≠ 0 := by
            intro hz
            have := hb.2 hz
            dsimp only at this
            rw [this] at h1
            simp at h1
          simp
          omega
      · exact ⟨_, .takeStop _ b rfl rfl⟩
      · exact ⟨_, .take _ a ck b rfl rfl⟩
    · left
      rcases h.live hs.2.2.1 with ⟨t, ht⟩ | ⟨r, t, ht⟩
      · exact ⟨_, .below _ t ht⟩
      · cases r with
        | none => exact ⟨_, .syncOver _ t rfl ht⟩
        | some a => exact ⟨_, .syncItem _ a t rfl ht⟩
    · exact Or.inl ⟨_, .syncState _ _ rfl⟩
    · refine Or.inl ⟨_, .stopSome _ none rfl ?_⟩
      have := hs.2.2.2
      dsimp only at this ⊢
      rw [this]
      rfl
    · left
      rcases buf with _ | ⟨e, b⟩
      · exact ⟨_, .clearEnd _ none rfl rfl⟩
      · exact ⟨_, .clear _ none e b rfl rfl⟩
    · exact Or.inl ⟨_, .join _ none rfl hs.2.2.2⟩
    · left
      rcases buf with _ | ⟨e, b⟩
      · exact ⟨_, .againEnd _ none rfl rfl⟩
      · exact ⟨_, .again _ none e b rfl rfl⟩
    · exact Or.inr ⟨_, _, rfl, rfl⟩
  · rintro n s ⟨hb, hs⟩
    rcases s with ⟨cs, state, buf, thr, flag, pc⟩
    rcases pc with _ | _ | _ | _ | _ | (_ | _) | (_ | _) | (_ | _) | (_ | _) | _ | _ | _ | _ | _ <;>
      try exact hs.elim
    · left
      cases thr with
      | none => exact ⟨_, .stopNone _ _ rfl rfl⟩
      | some p => exact ⟨_, .stopSome _ _ rfl rfl⟩
    · left
      rcases buf with _ | ⟨e, b⟩
      · exact ⟨_, .clearEnd _ _ rfl rfl⟩
      · exact ⟨_, .clear _ _ e b rfl rfl⟩
    · left
      obtain ⟨h1, h2, h3, h4, h5⟩ := hs
      by_cases hex : thr = some .exited
      · exact ⟨_, .join _ _ rfl hex⟩
      · refine prod_live h h2 h3 hex ?_
        rintro ⟨e, he⟩
        dsimp only at he h5 ⊢
        have : size ≠ 0 := by
          intro hz
          have := hb.2 hz
          dsimp only at this
          rw [this] at he
          simp at he
        rcases h5 with h5 | h5 | h5
        · rw [he] at h5
          simp at h5
        · exact absurd h5 hex
        · rw [h5]
          simp
          omega
    · left
      rcases buf with _ | ⟨e, b⟩
      · exact ⟨_, .againEnd _ _ rfl rfl⟩
      · exact ⟨_, .again _ _ e b rfl rfl⟩
    · left
      obtain ⟨h1, h2, h3, e, h4⟩ := hs
      obtain ⟨t, ht⟩ := h.canSet h4 h1
      exact ⟨_, .setPar _ _ t rfl ht⟩
    · left
      rcases h.liveSet hs.2.2 with ⟨t, ht⟩ | ⟨t, ht⟩
      · exact ⟨_, .below _ t ht⟩
      · exact ⟨_, .setRet _ t rfl ht⟩
    · exact Or.inl ⟨_, .setGet _ rfl⟩
    · exact Or.inr ⟨_, rfl, rfl⟩
  · rintro n m s hs
    refine acc_of_rank (proj := PrefState.cs) (cstep := c.step)
      (R := fun w s => s.rank size = w ∧ Bounded size s ∧ PrefInv x I K n m s) ?_ ?_ _ s ⟨rfl, hs⟩
    · rintro w s t ⟨rfl, hb, hs⟩ ht
      obtain ⟨h1, h2⟩ := prefInv_step h hb hs ht
      rcases h2 with ⟨h2, h3⟩ | h2
      · exact Or.inl ⟨h2, h3, bounded_step hb ht, h1⟩
      · exact Or.inr ⟨_, h2, rfl, bounded_step hb ht, h1⟩
    · rintro w s ⟨-, -, hs⟩
      obtain ⟨k, l, hk⟩ := prefInv_parent hs
      exact h.acc hk

end
end Grain
