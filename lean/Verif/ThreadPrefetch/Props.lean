import Verif.ThreadPrefetch.Live
import Verif.Iter.Example
/-
Property C29: thread prefetch is invisible under every schedule; C49 for thread prefetch.

`TPRun p size (tpInit p prog) s`: starting from a new iterator over the parent `p` with buffer size `size`, and a user making
the calls `prog`, some steps of the two threads in some order lead to `s`.  `idealRun x noIdx 0 0 false false [] prog` are the outcomes
the user would see from an iterator without threads over the parent's stream `x` (finite or endless).  `idx` tells at which
positions `get_next_index` and `set_next_index` are considered: those at which the parent gets them right (and if there are
any, no element fails), see `ResumesIdx`; none at all is always possible (`ResumesStream.noIdx`).
-/
namespace Grain

/-- The iterator reads the stream `x`, resumes exactly from its checkpoints, and at the positions of `idx` its index calls are
right. -/
def ResumesIdx (p : Iter α) (x : Nat → Option (Py α)) (idx : Nat → Bool) : Prop :=
  ∃ (At : p.S → Nat → Prop) (Ck : p.C → Nat → Prop), SimStream p x At Ck ∧ IdxStream p x idx At

/-- No index calls are considered. -/
def noIdx : Nat → Bool := fun _ => false

theorem ResumesStream.noIdx {p : Iter α} {x : Nat → Option (Py α)} (h : ResumesStream p x) : ResumesIdx p x noIdx := by
  obtain ⟨At, Ck, sim⟩ := h
  exact ⟨At, Ck, sim, .no⟩

section
variable {p : Iter α} {x : Nat → Option (Py α)} {idx : Nat → Bool} {size : Nat} {prog : List TOp} {outs : List (Res α ⊕ Int)}

/-- C29, safety: whatever the schedule, the outcomes the user has seen so far are the ideal ones; and once all calls have
returned they are all there.  (Buffer size 0: no thread; `start_prefetch` must not be called, see
`thread_prefetch_size_zero_race`.) -/
theorem thread_prefetch_invisible (hp : ResumesIdx p x idx) (hz : size = 0 → ∀ op, op ∈ prog → op ≠ .start ∧ op ≠ .close)
    (hideal : idealRun x idx 0 0 false false [] prog = some outs) {s : TPSys p} (hrun : TPRun p size (tpInit p prog) s) :
    s.outs <+: outs ∧ (s.pc = .idle → s.prog = [] → s.outs = outs) := by
  obtain ⟨At, Ck, sim, hidx⟩ := hp
  obtain ⟨pos, last, mv, sp, rest, h1, h2, h3, h4, h5, h6, h7⟩ := tpGood_run sim hidx (tpGood_init sim hideal hz) hrun
  refine ⟨⟨rest, h6⟩, ?_⟩
  intro _ hprog
  rw [hprog] at h5
  simp only [idealRun, Option.some.injEq] at h5
  subst h5
  simpa using h6

/-- C29, no deadlock: if no thread can make a step then all calls have returned. -/
theorem thread_prefetch_no_deadlock (hp : ResumesIdx p x idx) (hz : size = 0 → ∀ op, op ∈ prog → op ≠ .start ∧ op ≠ .close)
    (hideal : idealRun x idx 0 0 false false [] prog = some outs) {s : TPSys p} (hrun : TPRun p size (tpInit p prog) s)
    (hstuck : ∀ s', ¬ TPStep p size s s') : s.pc = .idle ∧ s.prog = [] ∧ s.outs = outs := by
  have hinv := thread_prefetch_invisible hp hz hideal hrun
  obtain ⟨At, Ck, sim, hidx⟩ := hp
  have hg := tpGood_run sim hidx (tpGood_init sim hideal hz) hrun
  have hidle : s.pc = .idle ∧ s.prog = [] := by
    by_contra hc
    obtain ⟨s', hs'⟩ := tp_progress sim hidx hg (by
      by_cases h1 : s.pc = .idle
      · exact Or.inr (fun h2 => hc ⟨h1, h2⟩)
      · exact Or.inl h1)
    exact hstuck s' hs'
  exact ⟨hidle.1, hidle.2, hinv.2 hidle.1 hidle.2⟩

/-- C29, no livelock: there is no infinite run, fair or not; so every call returns, also those that stop the producer
(`set_state`, `close`, the `next` that raises). -/
theorem thread_prefetch_terminates (hp : ResumesIdx p x idx) (hz : size = 0 → ∀ op, op ∈ prog → op ≠ .start ∧ op ≠ .close)
    (hideal : idealRun x idx 0 0 false false [] prog = some outs) (run : Nat → TPSys p) (h0 : run 0 = tpInit p prog) :
    ¬ ∀ i, TPStep p size (run i) (run (i + 1)) := by
  intro hsteps
  obtain ⟨At, Ck, sim, hidx⟩ := hp
  have hg : ∀ i, TPGood x At Ck idx size outs (run i) := by
    intro i
    induction i with
    | zero => rw [h0]; exact tpGood_init sim hideal hz
    | succ i ih => exact tpGood_step sim hidx ih (hsteps i)
  have key : ∀ m i, tpMeasure size (run i) = m → False := by
    intro m
    induction m using tpLess_wf.induction with
    | _ m ih =>
      intro i hi
      exact ih _ (by rw [← hi]; exact tp_decreases (hg i) (hsteps i)) (i + 1) rfl
  exact key _ 0 rfl

/-- C29, stopping: when `close` has returned there is no producer thread, and the buffer is empty. -/
theorem thread_prefetch_close_stops (hp : ResumesIdx p x idx) (hz : size = 0 → ∀ op, op ∈ prog → op ≠ .start ∧ op ≠ .close)
    (hideal : idealRun x idx 0 0 false false [] prog = some outs) {s : TPSys p} (hrun : TPRun p size (tpInit p prog) s)
    (hidle : s.pc = .idle) (hclosed : s.closed = true) : s.thread = none ∧ s.buf = [] := by
  obtain ⟨At, Ck, sim, hidx⟩ := hp
  obtain ⟨pos, last, mv, sp, rest, h1, _⟩ := tpGood_run sim hidx (tpGood_init sim hideal hz) hrun
  rw [hidle] at h1
  rcases h1 with ⟨h1, h2, _⟩ | ⟨_, h2, _⟩
  · exact ⟨h1, h2⟩
  · rw [hclosed] at h2; cases h2

/-- C56, for positive buffer sizes: `start_prefetch` at any point changes nothing: dropping these calls from the program
(before a `close`) leaves the outcomes the same.  The full statement would include size 0 and calls of `set_next_index`, where
it is false (`thread_prefetch_size_zero_race`, `thread_prefetch_set_index_race`). -/
theorem thread_prefetch_start_invisible_partial (hp : ResumesIdx p x idx) (hsize : 0 < size) (hnc : .close ∉ prog) (hns : ∀ i, .setIndex i ∉ prog)
    (hideal : idealRun x idx 0 0 false false [] (prog.filter (· ≠ .start)) = some outs) {s : TPSys p}
    (hrun : TPRun p size (tpInit p prog) s) (hstuck : ∀ s', ¬ TPStep p size s s') : s.outs = outs := by
  have key : ∀ (ops : List TOp) (pos last : Nat) (saved : List Nat), .close ∉ ops → (∀ i, .setIndex i ∉ ops) →
      idealRun x idx pos last false false saved ops = idealRun x idx pos last false false saved (ops.filter (· ≠ .start)) := by
    intro ops
    induction ops with
    | nil => intro pos last saved _ _; rfl
    | cons op ops ih =>
      intro pos last saved hc hm
      have hc' : .close ∉ ops := fun h => hc (List.mem_cons_of_mem _ h)
      have hm' : ∀ i, .setIndex i ∉ ops := fun i h => hm i (List.mem_cons_of_mem _ h)
      cases op with
      | next =>
        simp only [List.filter_cons, ne_eq, reduceCtorEq, not_false_eq_true, decide_true, if_true, idealRun]
        rw [ih _ _ _ hc' hm', ih _ _ _ hc' hm', ih _ _ _ hc' hm']
      | save => simpa [idealRun] using ih _ _ _ hc' hm'
      | restore k =>
        simp only [List.filter_cons, ne_eq, reduceCtorEq, not_false_eq_true, decide_true, if_true, idealRun]
        cases saved[k]? with
        | none => rfl
        | some q => exact ih _ _ _ hc' hm'
      | fresh k =>
        simp only [List.filter_cons, ne_eq, reduceCtorEq, not_false_eq_true, decide_true, if_true, idealRun]
        cases saved[k]? with
        | none => rfl
        | some q => exact ih _ _ _ hc' hm'
      | start => simpa [idealRun] using ih _ _ _ hc' hm'
      | close => exact absurd (List.mem_cons_self) hc
      | index =>
        simp only [List.filter_cons, ne_eq, reduceCtorEq, not_false_eq_true, decide_true, if_true, idealRun]
        rw [ih _ _ _ hc' hm']
      | setIndex i => exact absurd (List.mem_cons_self) (hm i)
  exact (thread_prefetch_no_deadlock hp (fun h => by omega) ((key prog 0 0 [] hnc hns).trans hideal) hrun hstuck).2.2

/-- The buffer never holds more than `prefetch_buffer_size` elements. -/
theorem thread_prefetch_buffer_bound (hsize : 0 < size) {s : TPSys p} (hrun : TPRun p size (tpInit p prog) s) :
    s.buf.length ≤ size := by
  induction hrun with
  | refl => simp [tpInit]
  | @step t u _ hst ih =>
    cases hst with
    | put _ hroom =>
      rcases hroom with hz | hz
      · omega
      · simp; omega
    | get_elem _ _ hb => rw [hb] at ih; simp at ih ⊢; omega
    | get_err _ hb => rw [hb] at ih; simp at ih ⊢; omega
    | zero_elem _ _ hz => omega
    | zero_err _ _ hz => omega
    | clear1 _ hb => rw [hb] at ih; simp at ih ⊢; omega
    | clear2 _ hb => rw [hb] at ih; simp at ih ⊢; omega
    | fresh => simp [tpInit]
    | _ => exact ih

end

/-! The ideal iterator of this property is that of C17-C28 when no read fails. -/

/-- The calls `next`, `get_state`, `set_state` and crashes. -/
def Op.toTOp : Op → TOp
  | .next => .next
  | .save => .save
  | .restore k => .restore k
  | .fresh k => .fresh k

theorem idealRun_of_specRun (vs : List α) : ∀ (ops : List Op) (pos : Nat) (saved : List Nat) (outs : List (Res α)), pos ≤ vs.length →
    specRun (vs.map Except.ok) true (fun _ => true) pos saved ops = some outs →
    (∀ (i : Nat) q, saved[i]? = some q → q ≤ vs.length) →
    idealRun (fun n => (vs.map (Except.ok (ε := Err)))[n]?) noIdx pos pos false false saved (ops.map Op.toTOp) =
      some (outs.map Sum.inl) := by
  intro ops
  induction ops with
  | nil => intro pos saved outs _ h _; simp only [specRun, Option.some.injEq] at h; subst h; rfl
  | cons op ops ih =>
    intro pos saved outs hpos h hsv
    cases op with
    | next =>
      simp only [specRun, Option.bind_eq_bind] at h
      cases hx : vs[pos]? with
      | some a =>
        have hlt : pos < vs.length := (List.getElem?_eq_some_iff.1 hx).1
        have ho : outcome (vs.map (Except.ok (ε := Err))) true pos = some (.item a) := by simp [outcome, hx]
        rw [ho, Option.bind_some] at h
        simp only [List.length_map] at h
        rw [Nat.min_eq_right (by omega)] at h
        cases hr : specRun (vs.map Except.ok) true (fun _ => true) (pos + 1) saved ops with
        | none => rw [hr] at h; cases h
        | some rest =>
          rw [hr] at h
          have := ih (pos + 1) saved rest (by omega) hr hsv
          simp only [List.map_cons, Op.toTOp, idealRun, List.getElem?_map, hx, Option.map_some, List.getElem?_map] at this ⊢
          rw [this]
          simp only [bind, Option.bind, Option.some.injEq] at h
          subst h
          rfl
      | none =>
        have hge : vs.length ≤ pos := List.getElem?_eq_none_iff.1 hx
        have ho : outcome (vs.map (Except.ok (ε := Err))) true pos = some .stop := by simp [outcome, hx]
        rw [ho, Option.bind_some] at h
        simp only [List.length_map] at h
        rw [Nat.min_eq_left (by omega)] at h
        have hp : pos = vs.length := by omega
        cases hr : specRun (vs.map Except.ok) true (fun _ => true) vs.length saved ops with
        | none => rw [hr] at h; cases h
        | some rest =>
          rw [hr] at h
          have := ih vs.length saved rest (by omega) hr hsv
          simp only [List.map_cons, Op.toTOp, idealRun, List.getElem?_map, hx, Option.map_none] at this ⊢
          rw [hp, this]
          simp only [bind, Option.bind, Option.some.injEq] at h
          subst h
          rfl
    | save =>
      simp only [specRun] at h
      have := ih pos (saved ++ [pos]) outs hpos h (by
        intro i q hq
        by_cases hi : i < saved.length
        · rw [List.getElem?_append_left hi] at hq
          exact hsv i q hq
        · rw [List.getElem?_append_right (by omega)] at hq
          have := List.getElem?_eq_some_iff.1 hq
          obtain ⟨hi', hq'⟩ := this
          simp at hi' hq'
          omega)
      simpa only [List.map_cons, Op.toTOp, idealRun, Bool.false_and, Bool.false_eq_true, if_false] using this
    | restore k =>
      simp only [specRun, Option.bind_eq_bind] at h
      cases hq : saved[k]? with
      | none => rw [hq] at h; cases h
      | some q =>
        rw [hq] at h
        simp only [Option.bind_some, or_true, and_self, if_true] at h
        have := ih q saved outs (hsv k q hq) h hsv
        simpa only [List.map_cons, Op.toTOp, idealRun, hq] using this
    | fresh k =>
      simp only [specRun, Option.bind_eq_bind] at h
      cases hq : saved[k]? with
      | none => rw [hq] at h; cases h
      | some q =>
        rw [hq] at h
        simp only [Option.bind_some, or_true, if_true] at h
        have := ih q saved outs (hsv k q hq) h hsv
        simpa only [List.map_cons, Op.toTOp, idealRun, hq] using this

/-- C29 in the form of C17-C28, for a parent that yields the elements `vs` and ends: in every run that cannot go on, the
outcomes are those of the ideal checkpointing iterator (and by `thread_prefetch_terminates` every run gets there). -/
theorem thread_prefetch_resumes_exactly {p : Iter α} {vs : List α} {size : Nat} (hp : Resumes p (vs.map Except.ok) true)
    {ops : List Op} {outs : List (Res α)} (hspec : specRun (vs.map Except.ok) true (fun _ => true) 0 [] ops = some outs)
    {s : TPSys p} (hrun : TPRun p size (tpInit p (ops.map Op.toTOp)) s) (hstuck : ∀ s', ¬ TPStep p size s s') :
    s.outs = outs.map Sum.inl := by
  refine (thread_prefetch_no_deadlock hp.stream.noIdx ?_ (idealRun_of_specRun vs ops 0 [] outs (by omega) hspec (by intro i q h; simp at h)) hrun hstuck).2.2
  intro _ op hop
  obtain ⟨o, _, rfl⟩ := List.mem_map.1 hop
  cases o <;> exact ⟨by simp [Op.toTOp], by simp [Op.toTOp]⟩

/-- The hypotheses are met: an endless parent; a program that saves, reads past, rewinds, crashes, closes. -/
example : ∃ outs, idealRun (fun n => some (if n % 3 = 2 then .error .keyError else .ok n)) noIdx 0 0 false false []
    [.start, .next, .save, .next, .next, .save, .restore 0, .next, .fresh 1, .next, .close, .next] = some outs := ⟨_, rfl⟩
example : ResumesStream (listIter [Except.ok 1, .error .keyError, .ok 3]) (fun n => [Except.ok 1, .error .keyError, .ok 3][n]?) :=
  (listIter_resumes _).stream

/-- With `prefetch_buffer_size=0`, documented as "prefetching is disabled and this is a noop", `start_prefetch` (which the
checkpoint handler calls after every restore, checkpoint/handler.py:96, and interleave for every new dataset,
interleave.py:65) still starts the producer, and `__next__` reads the parent beside it: elements come out of order. -/
theorem thread_prefetch_size_zero_race :
    ∃ s : TPSys (listIter [Except.ok 1, Except.ok 2]),
      TPRun (listIter [Except.ok 1, Except.ok 2]) 0 (tpInit _ [.start, .next, .next]) s ∧
      s.prog = [] ∧ s.pc = .idle ∧ s.outs = [.inl (.item 2), .inl (.item 1)] := by
  refine ⟨_, .step (.step (.step (.step (.step (.step .refl (.start rfl rfl rfl rfl)) (.check_go rfl rfl))
    (.read (p := listIter [Except.ok 1, Except.ok 2]) (ps' := (1 : Nat)) (r := .item 1) rfl ⟨0, fun _ _ => rfl⟩)) 
    (.zero_item (p := listIter [Except.ok 1, Except.ok 2]) (ps' := (2 : Nat)) (a := 2) rfl rfl rfl rfl ⟨0, fun _ _ => rfl⟩))
    (.put rfl (Or.inl rfl))) (.zero_elem rfl rfl rfl rfl), rfl, rfl, rfl⟩

end Grain
