import Verif.Stats.SpecReport
import Mathlib.Tactic.Common
import Mathlib.Data.List.Perm.Basic
import Mathlib.Data.List.Induction
/-
C76: recorded times are neither lost nor counted twice.
-/
namespace Grain

theorem Totals.of_perm {t : Totals} {rs rs' : List TimeRec} (h : t.Of rs) (hp : rs.Perm rs') : t.Of rs' := by
  have hc : (counted rs).Perm (counted rs') := hp.filter _
  obtain ⟨h1, h2, h3, h4, h5⟩ := h
  refine ⟨h1.trans (hc.map _).sum_eq, h2.trans (hc.map _).sum_eq, fun r hr => h3 r (hc.mem_iff.2 hr), ?_, ?_⟩
  · rcases h4 with h | ⟨r, hr, e⟩
    · exact Or.inl h
    · exact Or.inr ⟨r, hc.mem_iff.1 hr, e⟩
  · rcases h5 with h | ⟨r, hr, e⟩
    · exact Or.inl h
    · exact Or.inr ⟨r, hc.mem_iff.1 hr, e⟩

theorem Totals.of_skip {t : Totals} {rs : List TimeRec} {r : TimeRec} (h : t.Of rs) (hr : r.elements ≤ 0) : t.Of (r :: rs) := by
  have : counted (r :: rs) = counted rs := by
    unfold counted
    rw [List.filter_cons_of_neg (by simpa using hr)]
  unfold Totals.Of at h ⊢
  rwa [this]

theorem Totals.of_add {t : Totals} {rs : List TimeRec} {r : TimeRec} (h : t.Of rs) (hr : 0 < r.elements) : (t.add r).Of (r :: rs) := by
  have hc : counted (r :: rs) = r :: counted rs := by
    unfold counted
    rw [List.filter_cons_of_pos (by simpa using hr)]
  obtain ⟨h1, h2, h3, h4, h5⟩ := h
  unfold Totals.Of
  rw [hc]
  refine ⟨by simp [Totals.add, h1, Nat.add_comm], by simp [Totals.add, h2, Nat.add_comm], fun x hx => ?_, ?_, ?_⟩
  · simp only [Totals.add]
    rcases List.mem_cons.1 hx with rfl | hx
    · exact ⟨Nat.min_le_right _ _, Nat.le_max_right _ _⟩
    · exact ⟨(Nat.min_le_left _ _).trans (h3 x hx).1, (h3 x hx).2.trans (Nat.le_max_left _ _)⟩
  · simp only [Totals.add]
    rcases Nat.le_total t.minNs (r.ns / r.elements.toNat) with hle | hle
    · rw [Nat.min_eq_left hle]
      rcases h4 with h | ⟨x, hx, e⟩
      · exact Or.inl h
      · exact Or.inr ⟨x, by simp [hx], e⟩
    · rw [Nat.min_eq_right hle]
      exact Or.inr ⟨r, by simp, rfl⟩
  · simp only [Totals.add]
    rcases Nat.le_total t.maxNs (r.ns / r.elements.toNat) with hle | hle
    · rw [Nat.max_eq_right hle]
      exact Or.inr ⟨r, by simp, rfl⟩
    · rw [Nat.max_eq_left hle]
      rcases h5 with h | ⟨x, hx, e⟩
      · exact Or.inl h
      · exact Or.inr ⟨x, by simp [hx], e⟩

/-- The record a reporter is working on. -/
def inHand (pc : ReporterPc) : List TimeRec :=
  match pc with
  | .popped r => [r]
  | .loaded r _ => [r]
  | _ => []

/-- What holds all the time while one reporter runs. -/
structure ReportInv (i : Nat) (rs : List TimeRec) (s : ReportState) : Prop where
  parts : ∃ done, rs.Perm (done ++ (inHand (s.pc i) ++ s.buffer)) ∧ s.totals.Of done
  alive : s.pc i ≠ .dead
  checked : s.pc i = .checked → s.buffer ≠ []
  loaded : ∀ r t, s.pc i = .loaded r t → t = s.totals ∧ 0 < r.elements

theorem report_init (i : Nat) : ReportInv i [] .init where
  parts := ⟨[], by simp [inHand, ReportState.init], by simp [Totals.Of, counted, ReportState.init, Totals.init]⟩
  alive := by simp [ReportState.init]
  checked := by simp [ReportState.init]
  loaded := by simp [ReportState.init]

theorem report_record {i : Nat} {rs : List TimeRec} {s : ReportState} (h : ReportInv i rs s) (r : TimeRec) :
    ReportInv i (rs ++ [r]) (s.step (.record r)) where
  parts := by
    obtain ⟨done, h1, h2⟩ := h.parts
    refine ⟨done, ?_, h2⟩
    have := h1.append_right [r]
    simpa [ReportState.step, List.append_assoc] using this
  alive := h.alive
  checked := fun hc => by simp [ReportState.step]
  loaded := h.loaded

theorem report_step {i : Nat} {rs : List TimeRec} {s : ReportState} (h : ReportInv i rs s) : ReportInv i rs (s.step (.step i)) := by
  obtain ⟨done, h1, h2⟩ := h.parts
  cases hpc : s.pc i with
  | loop =>
    simp only [ReportState.step, hpc]
    by_cases hb : s.buffer = []
    · rw [if_pos hb]; exact h
    · rw [if_neg hb]
      rw [hpc] at h1
      exact ⟨⟨done, by simpa [inHand] using h1, h2⟩, by simp, fun _ => hb, by simp⟩
  | checked =>
    simp only [ReportState.step, hpc]
    have hb := h.checked hpc
    rw [hpc] at h1
    rw [List.getLast?_eq_some_getLast hb]
    refine ⟨⟨done, ?_, h2⟩, by simp, by simp, by simp⟩
    refine h1.trans (List.Perm.append_left done ?_)
    simp only [inHand, List.nil_append, Function.update_self]
    have : s.buffer = s.buffer.dropLast ++ [s.buffer.getLast hb] := (List.dropLast_concat_getLast hb).symm
    conv_lhs => rw [this]
    exact List.perm_append_comm
  | popped r =>
    simp only [ReportState.step, hpc]
    rw [hpc] at h1
    by_cases hr : r.elements ≤ 0
    · rw [if_pos hr]
      refine ⟨⟨r :: done, ?_, Totals.of_skip h2 hr⟩, by simp, by simp, by simp⟩
      simp only [inHand, Function.update_self, List.nil_append]
      refine h1.trans ?_
      simp only [inHand, List.singleton_append]
      exact List.perm_middle
    · rw [if_neg hr]
      refine ⟨⟨done, ?_, h2⟩, by simp, by simp, ?_⟩
      · simpa [inHand] using h1
      · intro r' t' he
        simp only [Function.update_self, ReporterPc.loaded.injEq] at he
        exact ⟨he.2.symm, by rw [← he.1]; omega⟩
  | loaded r t =>
    simp only [ReportState.step, hpc]
    rw [hpc] at h1
    obtain ⟨rfl, hr⟩ := h.loaded r t hpc
    refine ⟨⟨r :: done, ?_, Totals.of_add h2 hr⟩, by simp, by simp, by simp⟩
    simp only [inHand, Function.update_self, List.nil_append]
    refine h1.trans ?_
    simp only [inHand, List.singleton_append]
    exact List.perm_middle
  | dead => exact absurd hpc h.alive

theorem report_run {i : Nat} : ∀ (acts : List ReportAct) {rs : List TimeRec} {s : ReportState}, ReportInv i rs s → OnlyReporter i acts →
    ReportInv i (rs ++ recordsOf acts) (s.run acts)
  | [], rs, s, h, _ => by simpa [recordsOf, ReportState.run] using h
  | a :: acts, rs, s, h, ho => by
    have ho' : OnlyReporter i acts := fun j hj => ho j (by simp [hj])
    cases a with
    | record r =>
      have := report_run acts (report_record h r) ho'
      simpa [recordsOf, ReportState.run, List.append_assoc] using this
    | step j =>
      obtain rfl := ho j (by simp)
      have := report_run acts (report_step h) ho'
      simpa [recordsOf, ReportState.run] using this

/-- **C76.**  Threads record times while one thread reports, in any order: the reporting thread never fails, and whenever it finds
the buffer empty the reported totals are those of all records so far. -/
theorem report_counts_each_record_once {i : Nat} {acts : List ReportAct} (ho : OnlyReporter i acts) :
    (ReportState.init.run acts).pc i ≠ .dead ∧
    ((ReportState.init.run acts).pc i = .loop → (ReportState.init.run acts).buffer = [] →
      (ReportState.init.run acts).totals.Of (recordsOf acts)) := by
  have h := report_run acts (report_init i) ho
  rw [List.nil_append] at h
  refine ⟨h.alive, fun hpc hb => ?_⟩
  obtain ⟨done, h1, h2⟩ := h.parts
  rw [hpc, hb] at h1
  simp only [inHand, List.append_nil] at h1
  exact Totals.of_perm h2 h1.symm

/-- Steps the reporter still has to do. -/
def reportWork (i : Nat) (s : ReportState) : Nat :=
  4 * s.buffer.length + match s.pc i with
    | .loop => 0
    | .checked => 0
    | .popped _ => 2
    | .loaded _ _ => 1
    | .dead => 0

theorem report_work {i : Nat} {rs : List TimeRec} {s : ReportState} (h : ReportInv i rs s) :
    (s.pc i = .loop ∧ s.buffer = []) ∨ reportWork i (s.step (.step i)) < reportWork i s ∨
    (s.pc i = .loop ∧ (s.step (.step i)).pc i = .checked ∧ (s.step (.step i)).buffer = s.buffer) := by
  unfold reportWork
  cases hpc : s.pc i with
  | loop =>
    by_cases hb : s.buffer = []
    · exact Or.inl ⟨rfl, hb⟩
    · refine Or.inr (Or.inr ⟨rfl, ?_⟩)
      simp [ReportState.step, hpc, hb]
  | checked =>
    refine Or.inr (Or.inl ?_)
    have hb := h.checked hpc
    have hlen := List.length_pos_iff.2 hb
    simp only [ReportState.step, hpc, List.getLast?_eq_some_getLast hb, Function.update_self, List.length_dropLast]
    omega
  | popped r =>
    refine Or.inr (Or.inl ?_)
    by_cases hr : r.elements ≤ 0 <;> simp [ReportState.step, hpc, hr]
  | loaded r t =>
    refine Or.inr (Or.inl ?_)
    simp [ReportState.step, hpc]
  | dead => exact absurd hpc h.alive

/-- **C76.**  When the reporting thread gets to run, everything recorded so far is reported after finitely many of its steps. -/
theorem report_catches_up {i : Nat} {acts : List ReportAct} (ho : OnlyReporter i acts) :
    ∃ n, ∀ m, n ≤ m → (ReportState.init.run (acts ++ List.replicate m (.step i))).totals.Of (recordsOf acts) := by
  have key : ∀ (w : Nat) (s : ReportState) (rs : List TimeRec), ReportInv i rs s → reportWork i s < w →
      ∃ n, (s.run (List.replicate n (.step i))).pc i = .loop ∧ (s.run (List.replicate n (.step i))).buffer = [] := by
    intro w
    induction w with
    | zero => intro s rs _ hw; omega
    | succ w ih =>
      intro s rs h hw
      rcases report_work h with ⟨h1, h2⟩ | h1 | ⟨h1, h2, h3⟩
      · exact ⟨0, h1, h2⟩
      · obtain ⟨n, hn⟩ := ih _ rs (report_step h) (by omega)
        exact ⟨n + 1, hn⟩
      · have h' := report_step h
        rcases report_work h' with ⟨g1, _⟩ | g1 | ⟨g1, _⟩
        · rw [h2] at g1; cases g1
        · have e : reportWork i (s.step (.step i)) = reportWork i s := by
            unfold reportWork
            rw [h1, h2, h3]
          obtain ⟨n, hn⟩ := ih _ rs (report_step h') (by omega)
          exact ⟨n + 2, hn⟩
        · rw [h2] at g1; cases g1
  have h := report_run acts (report_init i) ho
  obtain ⟨n, hn1, hn2⟩ := key _ _ _ h (Nat.lt_succ_self _)
  have stay : ∀ (m : Nat) (s : ReportState), s.pc i = .loop → s.buffer = [] → s.run (List.replicate m (.step i)) = s := by
    intro m
    induction m with
    | zero => intro s _ _; rfl
    | succ m ih =>
      intro s h1 h2
      have e : s.step (.step i) = s := by simp [ReportState.step, h1, h2]
      show (s.step (.step i)).run _ = s
      rw [e]
      exact ih s h1 h2
  refine ⟨n, fun m hm => ?_⟩
  obtain ⟨k, rfl⟩ : ∃ k, m = n + k := ⟨m - n, by omega⟩
  have e : ReportState.init.run (acts ++ List.replicate (n + k) (.step i)) =
      ((ReportState.init.run acts).run (List.replicate n (.step i))).run (List.replicate k (.step i)) := by
    unfold ReportState.run
    rw [List.replicate_add, List.foldl_append, List.foldl_append]
  rw [e, stay k _ hn1 hn2]
  have hrec : ∀ n, recordsOf (List.replicate n (.step i)) = [] := by
    intro n
    induction n with
    | zero => rfl
    | succ n ih => exact ih
  have hrec' : recordsOf (acts ++ List.replicate n (.step i)) = recordsOf acts := by
    have : recordsOf (acts ++ List.replicate n (.step i)) = recordsOf acts ++ recordsOf (List.replicate n (.step i)) := by
      unfold recordsOf; rw [List.filterMap_append]
    rw [this, hrec, List.append_nil]
  have ho' : OnlyReporter i (acts ++ List.replicate n (.step i)) := by
    intro j hj
    rcases List.mem_append.1 hj with hj | hj
    · exact ho j hj
    · have := List.eq_of_mem_replicate hj
      cases this
      rfl
  have fin := (report_counts_each_record_once ho').2
  have e2 : ReportState.init.run (acts ++ List.replicate n (.step i)) = (ReportState.init.run acts).run (List.replicate n (.step i)) := by
    unfold ReportState.run
    rw [List.foldl_append]
  rw [e2, hrec'] at fin
  exact fin hn1 hn2

/-- Two records while the reporter runs. -/
def twoRecords : List ReportAct :=
  [.record ⟨10, 1⟩, .step 0, .step 0, .record ⟨30, 2⟩, .step 0, .step 0, .step 0, .step 0, .step 0, .step 0]

example : OnlyReporter 0 twoRecords ∧ (ReportState.init.run twoRecords).pc 0 = .loop ∧ (ReportState.init.run twoRecords).buffer = [] ∧
    (ReportState.init.run twoRecords).totals = ⟨3, 40, 10, 15⟩ := by
  refine ⟨?_, by decide, by decide, by decide⟩
  intro j hj
  simp [twoRecords] at hj
  exact hj

/-- **C76, finding.**  An interleaved iterator stays an output, so two threads report it: its own reporting thread and the one of
the pipeline's output.  Then one of them can die of an `IndexError`. -/
theorem two_reporters_crash : ∃ acts, (∀ j, ReportAct.step j ∈ acts → j < 2) ∧ (ReportState.init.run acts).pc 1 = .dead :=
  ⟨[.record ⟨10, 1⟩, .step 0, .step 1, .step 0, .step 1], by simp, by decide⟩

/-- **C76, finding.**  With two reporting threads a record can be lost for ever. -/
theorem two_reporters_lose_time : ∃ acts, (∀ j, ReportAct.step j ∈ acts → j < 2) ∧
    (ReportState.init.run acts).pc 0 = .loop ∧ (ReportState.init.run acts).pc 1 = .loop ∧ (ReportState.init.run acts).buffer = [] ∧
    ¬ (ReportState.init.run acts).totals.Of (recordsOf acts) := by
  refine ⟨[.record ⟨10, 1⟩, .record ⟨20, 1⟩, .step 0, .step 0, .step 1, .step 1, .step 0, .step 1, .step 0, .step 1], by simp,
    by decide, by decide, by decide, ?_⟩
  rintro ⟨h, _⟩
  revert h
  decide

/-! ### The reporting thread -/

theorem loop_run_append (s : LoopState) (a b : List LoopAct) : s.run (a ++ b) = (s.run a).run b := by
  unfold LoopState.run; rw [List.foldl_append]

theorem loopRecords_append (a b : List LoopAct) : loopRecords (a ++ b) = loopRecords a ++ loopRecords b := by
  unfold loopRecords; rw [List.filterMap_append]

theorem loop_all (acts : List LoopAct) (s : LoopState) :
    (s.run acts).reported ++ (s.run acts).buffer = s.reported ++ s.buffer ++ loopRecords acts := by
  induction acts generalizing s with
  | nil => simp [LoopState.run, loopRecords]
  | cons a acts ih =>
    have : s.run (a :: acts) = (s.step a).run acts := rfl
    rw [this, ih]
    cases a with
    | record now r => simp [LoopState.step, loopRecords]
    | wake now =>
      by_cases h : s.thread = .running <;> simp [LoopState.step, h, loopRecords]

theorem loop_update (acts : List LoopAct) (h : ∀ t r, LoopAct.record t r ∉ acts) (s : LoopState) :
    (s.run acts).lastUpdate = s.lastUpdate := by
  induction acts generalizing s with
  | nil => rfl
  | cons a acts ih =>
    have : s.run (a :: acts) = (s.step a).run acts := rfl
    rw [this, ih (fun t r hm => h t r (by simp [hm]))]
    cases a with
    | record now r => exact absurd List.mem_cons_self (h now r)
    | wake now => by_cases h : s.thread = .running <;> simp [LoopState.step, h]

theorem noPause_left {a b : List LoopAct} (h : NoPause (a ++ b)) : NoPause a := by
  intro x now y e
  exact h x now (y ++ b) (by rw [e]; simp)

theorem loop_alive (acts : List LoopAct) (h : NoPause acts) :
    (LoopState.init.run acts).thread = (if loopRecords acts = [] then .absent else .running) := by
  induction acts using List.reverseRecOn with
  | nil => rfl
  | append_singleton a x ih =>
    have hx := ih (noPause_left h)
    rw [loop_run_append, loopRecords_append]
    cases x with
    | record now r =>
      simp only [LoopState.run, List.foldl_cons, List.foldl_nil, LoopState.step]
      simp only [LoopState.run] at hx
      rw [hx]
      by_cases e : loopRecords a = [] <;> simp [e, loopRecords]
    | wake now =>
      obtain ⟨a₁, t, r, a₂, rfl, h2, hnow⟩ := h a now [] rfl
      have hl : ((LoopState.init.run (a₁ ++ .record t r :: a₂))).lastUpdate = t := by
        rw [loop_run_append]
        show (((LoopState.init.run a₁).step (.record t r)).run a₂).lastUpdate = t
        rw [loop_update _ h2]
        rfl
      have hne : loopRecords (a₁ ++ .record t r :: a₂) ≠ [] := by
        rw [loopRecords_append]
        simp [loopRecords]
      rw [if_neg hne] at hx
      generalize hs : LoopState.init.run (a₁ ++ .record t r :: a₂) = s at hx hl
      simp only [LoopState.run, List.foldl_cons, List.foldl_nil, LoopState.step, hx, if_true]
      rw [hl, if_pos (by unfold reportingTimeout; omega), if_neg (by simp [hne])]

/-- **C76.**  As long as the pipeline never pauses for two minutes, the totals contain all records each time the reporting thread
has run. -/
theorem reports_while_busy_partial {acts : List LoopAct} {now : Nat} (h : NoPause (acts ++ [.wake now])) :
    (LoopState.init.run (acts ++ [.wake now])).reported = loopRecords acts ∧
    (LoopState.init.run (acts ++ [.wake now])).buffer = [] ∧
    (LoopState.init.run (acts ++ [.wake now])).thread = .running := by
  have hl := loop_alive _ h
  have hlp := loop_alive _ (noPause_left h)
  have hall := loop_all acts LoopState.init
  obtain ⟨a₁, t, r, a₂, hacts, h2, hnow⟩ := h acts now [] rfl
  have hne : loopRecords acts ≠ [] := by
    rw [hacts, loopRecords_append]
    simp [loopRecords]
  rw [if_neg hne] at hlp
  rw [if_neg (by rw [loopRecords_append]; simp [hne])] at hl
  refine ⟨?_, ?_, hl⟩
  · rw [loop_run_append]
    simp only [LoopState.init, List.nil_append] at hall
    generalize hs : LoopState.run ⟨[], [], 0, .absent⟩ acts = s at hall
    rw [show LoopState.init.run acts = s from hs] at hlp ⊢
    simp only [LoopState.run, List.foldl_cons, List.foldl_nil, LoopState.step, hlp, if_true]
    exact hall
  · rw [loop_run_append]
    generalize hs : LoopState.init.run acts = s at hlp
    simp only [LoopState.run, List.foldl_cons, List.foldl_nil, LoopState.step, hlp, if_true]

example : NoPause ([.record 0 ⟨10, 1⟩, .wake 5, .record 100 ⟨30, 2⟩] ++ [.wake 110]) := by
  intro a now b e
  match a, e with
  | [], e => simp at e
  | [_], e =>
    simp at e
    exact ⟨[], 0, ⟨10, 1⟩, [], by simp [← e.1], by simp, by have := e.2.1; omega⟩
  | [_, _], e => simp at e
  | [_, _, _], e =>
    simp at e
    exact ⟨[.record 0 ⟨10, 1⟩, .wake 5], 100, ⟨30, 2⟩, [], by simp [← e.1, ← e.2.1, ← e.2.2.1], by simp, by have := e.2.2.2.1; omega⟩
  | _ :: _ :: _ :: _ :: a, e => simp at e

theorem loop_finished (acts : List LoopAct) (s : LoopState) (h : s.thread = .finished) :
    (s.run acts).reported = s.reported ∧ (s.run acts).buffer = s.buffer ++ loopRecords acts := by
  induction acts generalizing s with
  | nil => simp [LoopState.run, loopRecords]
  | cons a acts ih =>
    have : s.run (a :: acts) = (s.step a).run acts := rfl
    rw [this]
    cases a with
    | record now r =>
      have := ih (s.step (.record now r)) (by simp [LoopState.step, h])
      refine ⟨this.1, this.2.trans ?_⟩
      simp [LoopState.step, loopRecords]
    | wake now =>
      have e : s.step (.wake now) = s := by simp [LoopState.step, h]
      rw [e]
      have := ih s h
      simpa [loopRecords] using this

/-- **C76, finding.**  After one pause of two minutes the statistics stand still for ever: whatever is recorded later is never
reported, and stays in memory. -/
theorem reports_stop_after_pause : ∃ before, (LoopState.init.run before).reported = loopRecords before ∧ loopRecords before ≠ [] ∧
    ∀ later, (LoopState.init.run (before ++ later)).reported = loopRecords before ∧
      (LoopState.init.run (before ++ later)).buffer = loopRecords later := by
  refine ⟨[.record 0 ⟨10, 1⟩, .wake 120], by decide, by decide, fun later => ?_⟩
  rw [loop_run_append]
  have := loop_finished later (LoopState.init.run [.record 0 ⟨10, 1⟩, .wake 120]) (by decide)
  exact this

/-! ### Interleaved datasets -/

theorem useSlots_length (uses : List (Nat × α)) (slots : List (Option α)) :
    (uses.foldl (fun slots u => useSlot slots u.1 u.2) slots).length = slots.length := by
  induction uses generalizing slots with
  | nil => rfl
  | cons u uses ih =>
    rw [List.foldl_cons, ih]
    simp [useSlot]

theorem useSlots_get (uses : List (Nat × α)) (cycle : Nat) (i : Nat) (hi : i < cycle) :
    (uses.foldl (fun slots u => useSlot slots u.1 u.2) (List.replicate cycle none))[i]? = some (lastUse uses i) := by
  induction uses using List.reverseRecOn with
  | nil => simp [lastUse, hi]
  | append_singleton uses u ih =>
    rw [List.foldl_append, List.foldl_cons, List.foldl_nil, useSlot]
    by_cases h : u.1 = i
    · subst h
      rw [List.getElem?_set_self (by rw [useSlots_length]; simpa using hi)]
      simp [lastUse]
    · rw [List.getElem?_set_ne h, ih]
      simp [lastUse, h]

/-- **C77.**  An interleave knows the statistics of the last iterator that has yielded in each slot. -/
theorem interleave_parents_eq (cycle : Nat) (uses : List (Nat × α)) :
    interleaveParents cycle uses = (List.range cycle).filterMap (lastUse uses) := by
  unfold interleaveParents
  have : uses.foldl (fun slots u => useSlot slots u.1 u.2) (List.replicate cycle none) = (List.range cycle).map (lastUse uses) := by
    apply List.ext_getElem?
    intro i
    by_cases hi : i < cycle
    · rw [useSlots_get _ _ _ hi]
      simp [hi]
    · rw [List.getElem?_eq_none (by rw [useSlots_length]; simpa using hi), List.getElem?_eq_none (by simpa using hi)]
  rw [this, List.filterMap_map]
  rfl

/-- **C77.**  While no slot has moved on to another dataset, an interleave counts every iterator that has yielded. -/
theorem interleave_counts_all_partial {cycle : Nat} {uses : List (Nat × α)} (hslot : ∀ u ∈ uses, u.1 < cycle)
    (hone : ∀ u ∈ uses, ∀ v ∈ uses, u.1 = v.1 → u.2 = v.2) (o : α) :
    o ∈ interleaveParents cycle uses ↔ ∃ i, (i, o) ∈ uses := by
  rw [interleave_parents_eq, List.mem_filterMap]
  constructor
  · rintro ⟨i, _, h⟩
    have := List.mem_of_getLast? h
    simp only [List.mem_map, List.mem_filter] at this
    obtain ⟨u, ⟨hu, hi⟩, rfl⟩ := this
    exact ⟨u.1, hu⟩
  · rintro ⟨i, h⟩
    refine ⟨i, List.mem_range.2 (hslot _ h), ?_⟩
    unfold lastUse
    have hne : (uses.filter (fun u => u.1 = i)).map (·.2) ≠ [] := by
      intro e
      have : (i, o) ∈ uses.filter (fun u => u.1 = i) := by simp [h]
      rw [List.map_eq_nil_iff] at e
      rw [e] at this
      cases this
    rw [List.getLast?_eq_some_getLast hne]
    have hm := List.getLast_mem hne
    simp only [List.mem_map, List.mem_filter] at hm
    obtain ⟨u, ⟨hu, hi⟩, e⟩ := hm
    rw [← e, hone u hu _ h (by simpa using hi)]

example : (∀ u ∈ [(0, 10), (1, 20), (0, 10)], u.1 < 3) ∧
    (∀ u ∈ [(0, 10), (1, 20), (0, 10)], ∀ v ∈ [(0, 10), (1, 20), (0, 10)], u.1 = v.1 → u.2 = v.2) ∧
    interleaveParents 3 [(0, 10), (1, 20), (0, 10)] = [10, 20] := by decide

end Grain
