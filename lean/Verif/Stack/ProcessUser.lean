import Verif.Stack.ProcessLemmas
/-
The main process of a process prefetch, and the whole of it.
-/
namespace Grain

section
variable {c : ConcIter α} {x : Nat → Option α} {I : Nat → CMode → c.S → Prop} {K : Nat → c.C → Prop} {size : Nat}
  {keep kick : Bool}

/-- `_state` is a checkpoint of position `n`, or unset at the start. -/
def StateAt (K : Nat → c.C → Prop) (n : Nat) (s : ProcState c) : Prop :=
  match s.state with
  | none => n = 0
  | some ck => K n ck

/-- `kick` tells whether `start_prefetch()` may have been called after the end of the stream: then the new worker reads it
from the start, and what it puts in the buffer is never looked at. -/
structure ProcBase (kick : Bool) (x : Nat → Option α) (I : Nat → CMode → c.S → Prop) (K : Nat → c.C → Prop) (n : Nat)
    (s : ProcState c) : Prop where
  common : ProcCommon x I K 0 s
  aim : Aim x I K n s ∨ kick = true ∧ s.over = true
  state : StateAt K n s
  over : s.over = true → x n = none

theorem ProcBase.aimed {n : Nat} {s : ProcState c} (hs : ProcBase kick x I K n s) (hov : s.over = false) : Aim x I K n s := by
  rcases hs.aim with h | ⟨-, h⟩
  · exact h
  · rw [hov] at h
    cases h

/-- How far the worker is from its end once it has been told to stop (after the end of the stream). -/
def WorkerPc.haltStage {α C : Type} : WorkerPc α C → Option Nat
  | .take => some 4
  | .work => some 3
  | .top => some 2
  | .leaving => some 1
  | .exited => some 0
  | _ => none

/-- `_stop_prefetch` after the end of the stream. -/
structure Halting (x : Nat → Option α) (I : Nat → CMode → c.S → Prop) (K : Nat → c.C → Prop) (n : Nat)
    (s : ProcState c) : Prop where
  over : x n = none
  buf : s.buf = []
  reqs : s.reqs = []
  reqCount : s.reqCount = 0
  setCount : s.setCount = 0
  state : StateAt K n s
  stop : s.stop = true
  wrk : ∃ w, s.wrk = some w ∧ w.exh = true ∧ I n .idle w.cs ∧ ∃ k, w.pc.haltStage = some k

def ProcInv (kick : Bool) (x : Nat → Option α) (I : Nat → CMode → c.S → Prop) (K : Nat → c.C → Prop) (n : Nat) (m : CMode)
    (s : ProcState c) : Prop :=
  match s.pc, m with
  | .idle, .idle => ProcBase kick x I K n s
  | .enter, .next => ProcBase kick x I K n s
  | .get, .next => ProcBase kick x I K n s ∧ s.wrk ≠ none ∧ s.over = false
  | .done r, .next => r = x n ∧ ProcBase kick x I K (nextPos x n) s
  | .stop1, .next => Halting x I K n s
  | .stop2, .next => Halting x I K n s
  | .join, .next => Halting x I K n s
  | .stop3, .next => Halting x I K n s ∧ ∀ w, s.wrk = some w → w.pc = .exited
  | .set1 ck, .set => K n ck ∧ s.state = some ck ∧ ProcCommon x I K 0 s
  | .set2 ck, .set => K n ck ∧ s.state = some ck ∧ ProcCommon x I K 1 s ∧ s.reqs.getLast? = some ck
  | .setDone, .set => ProcBase kick x I K n s
  | _, _ => False

def ProcState.halt (s : ProcState c) : Nat :=
  match s.wrk with
  | none => 0
  | some w => w.pc.haltStage.getD 0

def ProcState.rank (size : Nat) (s : ProcState c) : Nat :=
  match s.pc with
  | .idle => s.room size
  | .done _ => s.room size
  | .setDone => s.room size
  | .set2 _ => (10 * size + 20) + s.room size
  | .set1 _ => 2 * (10 * size + 20) + s.room size
  | .get => 6 * (10 * size + 20) + 11 * s.stale + s.room size
  | .enter => 7 * (10 * size + 20) + 11 * s.stale + s.room size
  | .stop1 => 4 * (10 * size + 20) + s.halt
  | .stop2 => 3 * (10 * size + 20) + s.halt
  | .join => 2 * (10 * size + 20) + s.halt
  | .stop3 => (10 * size + 20) + s.halt

theorem room_lt (s : ProcState c) : s.room size < 10 * size + 20 := by
  unfold ProcState.room
  split
  · omega
  · rename_i w _
    have : w.stage s.reqCount ≤ 7 := by
      unfold WorkerState.stage
      split <;> (try split) <;> omega
    omega

theorem haltStage_le {α C : Type} (p : WorkerPc α C) : p.haltStage.getD 0 ≤ 4 := by
  cases p <;> simp [WorkerPc.haltStage]

theorem halt_le (s : ProcState c) : s.halt ≤ 4 := by
  unfold ProcState.halt
  split
  · omega
  · exact haltStage_le _

theorem workerAt_below (h : Follows c x I K) {e : Nat} {w : WorkerState c} (hw : WorkerAt x I K e w) {t : c.S}
    (ht : c.step w.cs t) : WorkerAt x I K e { w with cs := t } := by
  rcases w with ⟨cs, exh, pc⟩
  dsimp only at ht
  rcases pc with _ | _ | _ | _ | _ | _ | _ | _ | (_ | _ | _) | _ | _ <;> simp only [WorkerAt] at hw ⊢
  · exact ⟨h.step hw.1 ht, hw.2⟩
  · exact ⟨h.step hw.1 ht, hw.2⟩
  · obtain ⟨h1, h2, d, h3⟩ := hw; exact ⟨h1, h2, d, h.step h3 ht⟩
  · obtain ⟨h1, h2, d, h3⟩ := hw; exact ⟨h1, h2, d, h.step h3 ht⟩
  · exact ⟨hw.1, h.step hw.2 ht⟩
  · exact ⟨h.step hw.1 ht, hw.2⟩
  · exact ⟨hw.1, h.step hw.2 ht⟩
  · exact ⟨hw.1, hw.2.1, h.step hw.2.2 ht⟩
  · exact ⟨hw.1, hw.2.1, hw.2.2.1, h.step hw.2.2.2 ht⟩
  · exact ⟨hw.1, hw.2.1, h.step hw.2.2 ht⟩

theorem workerAt_parent {e : Nat} {w : WorkerState c} (hw : WorkerAt x I K e w) : ∃ k l, I k l w.cs := by
  rcases w with ⟨cs, exh, pc⟩
  rcases pc with _ | _ | _ | _ | _ | _ | _ | _ | (_ | _ | _) | _ | _ <;> simp only [WorkerAt] at hw
  · exact ⟨_, _, hw.1⟩
  · exact ⟨_, _, hw.1⟩
  · exact ⟨_, _, hw.2.2.choose_spec⟩
  · exact ⟨_, _, hw.2.2.choose_spec⟩
  · exact ⟨_, _, hw.2⟩
  · exact ⟨_, _, hw.1⟩
  · exact ⟨_, _, hw.2⟩
  · exact ⟨_, _, hw.2.2⟩
  · exact ⟨_, _, hw.2.2.2⟩
  · exact ⟨_, _, hw.2.2⟩

theorem common_below (h : Follows c x I K) {d : Nat} {s : ProcState c} {w : WorkerState c} (hw : s.wrk = some w) {t : c.S}
    (ht : c.step w.cs t) (hs : ProcCommon x I K d s) : ProcCommon x I K d { s with wrk := some { w with cs := t } } := by
  refine ⟨hs.req, ?_, hs.good, ?_, by simp⟩
  · have := hs.set
    rw [hw] at this
    exact this
  · rintro v ⟨⟩
    obtain ⟨h1, e, h2⟩ := hs.wrk w hw
    exact ⟨h1, e, workerAt_below h h2 ht⟩

theorem aim_below (h : Follows c x I K) {n : Nat} {s : ProcState c} {w : WorkerState c} (hw : s.wrk = some w) {t : c.S}
    (ht : c.step w.cs t) (hs : Aim x I K n s) : Aim x I K n { s with wrk := some { w with cs := t } } := by
  by_cases hr : s.reqs = []
  · by_cases hm : ∃ ck, w.pc = .mark ck
    · obtain ⟨ck, hm⟩ := hm
      rw [aim_mark hr hw hm] at hs
      exact (aim_mark (s := { s with wrk := some { w with cs := t } }) hr rfl hm).2 hs
    · have hm' : ∀ ck, w.pc ≠ .mark ck := fun ck hck => hm ⟨ck, hck⟩
      rw [aim_nil hr hw hm'] at hs
      refine (aim_nil (s := { s with wrk := some { w with cs := t } }) hr rfl hm').2 ?_
      obtain ⟨stale, tail, e, h1, h2, h3, h4⟩ := hs
      exact ⟨stale, tail, e, h1, h2, h3, workerAt_below h h4 ht⟩
  · exact aim_congr (s := s) rfl hr hs

theorem base_below (h : Follows c x I K) {n : Nat} {s : ProcState c} {w : WorkerState c} (hw : s.wrk = some w) {t : c.S}
    (ht : c.step w.cs t) (hs : ProcBase kick x I K n s) : ProcBase kick x I K n { s with wrk := some { w with cs := t } } :=
  ⟨common_below h hw ht hs.common, hs.aim.imp (aim_below h hw ht) id, hs.state, hs.over⟩

theorem halting_below (h : Follows c x I K) {n : Nat} {s : ProcState c} {w : WorkerState c} (hw : s.wrk = some w) {t : c.S}
    (ht : c.step w.cs t) (hs : Halting x I K n s) : Halting x I K n { s with wrk := some { w with cs := t } } := by
  obtain ⟨h1, h2, h3, h4, h5, h6, h7, v, h8, h9, h10, h11⟩ := hs
  rw [hw] at h8
  cases h8
  exact ⟨h1, h2, h3, h4, h5, h6, h7, _, rfl, h9, h.step h10 ht, h11⟩

theorem rank_below {s : ProcState c} {w : WorkerState c} (hw : s.wrk = some w) (t : c.S) :
    ({ s with wrk := some { w with cs := t } } : ProcState c).rank size = s.rank size := by
  have h1 : ({ s with wrk := some { w with cs := t } } : ProcState c).room size = s.room size := by
    unfold ProcState.room
    rw [hw]
    rfl
  have h2 : ({ s with wrk := some { w with cs := t } } : ProcState c).stale = s.stale := by
    unfold ProcState.stale
    dsimp only
    rw [hw]
    cases s.reqs <;> rfl
  have h3 : ({ s with wrk := some { w with cs := t } } : ProcState c).halt = s.halt := by
    unfold ProcState.halt
    rw [hw]
  unfold ProcState.rank
  rw [h1, h2, h3]

theorem procInv_below (h : Follows c x I K) {n : Nat} {m : CMode} {s : ProcState c} {w : WorkerState c}
    (hw : s.wrk = some w) {t : c.S} (ht : c.step w.cs t) (hs : ProcInv kick x I K n m s) :
    ProcInv kick x I K n m { s with wrk := some { w with cs := t } } := by
  have hb : ∀ {k}, ProcBase kick x I K k s → ProcBase kick x I K k { s with wrk := some { w with cs := t } } :=
    fun hs => base_below h hw ht hs
  have hc : ∀ {d}, ProcCommon x I K d s → ProcCommon x I K d { s with wrk := some { w with cs := t } } :=
    fun hs => common_below h hw ht hs
  have hh : Halting x I K n s → Halting x I K n { s with wrk := some { w with cs := t } } :=
    fun hs => halting_below h hw ht hs
  revert hs hb hc hh hw
  rcases s with ⟨state, over, setCount, buf, reqs, reqCount, stop, wrk, pc⟩
  dsimp only
  intro hw hs hb hc hh
  cases pc <;> cases m <;> simp only [ProcInv] at hs ⊢
  · exact hb hs
  · exact hb hs
  · exact ⟨hb hs.1, by simp, hs.2.2⟩
  · exact hh hs
  · exact hh hs
  · exact hh hs
  · refine ⟨hh hs.1, ?_⟩
    rintro v ⟨⟩
    exact hs.2 w hw
  · exact ⟨hs.1, hb hs.2⟩
  · exact ⟨hs.1, hs.2.1, hc hs.2.2⟩
  · exact ⟨hs.1, hs.2.1, hc hs.2.2.1, hs.2.2.2⟩
  · exact hb hs

/-- The counters and the worker while no `_stop_prefetch` is under way. -/
theorem procInv_worker {n : Nat} {m : CMode} {s t : ProcState c} (hs : ProcInv kick x I K n m s)
    (hk : (∃ d, ProcCommon x I K d s) → WorkerKeeps size x I K s t)
    (hhalt : ∀ k, Halting x I K k s → Halting x I K k t ∧ t.pc = s.pc ∧ t.halt < s.halt) :
    ProcInv kick x I K n m t ∧ t.rank size < s.rank size := by
  have hbase : ∀ {k}, ProcBase kick x I K k s → WorkerKeeps size x I K s t := fun h => hk ⟨0, h.common⟩
  have hstate : ∀ {k}, t.state = s.state → StateAt K k s → StateAt K k t := by
    intro k h1 h2
    unfold StateAt at *
    rw [h1]
    exact h2
  have hb : ∀ {k}, ProcBase kick x I K k s → ProcBase kick x I K k t := by
    intro k h
    have hw := hbase h
    exact ⟨hw.common h.common, h.aim.imp (hw.aim h.common) (by rw [hw.over]; exact id), hstate hw.state h.state,
      by rw [hw.over]; exact h.over⟩
  revert hs hk hhalt hb hbase hstate
  rcases s with ⟨state, over, setCount, buf, reqs, reqCount, stop, wrk, pc⟩
  rcases t with ⟨state', over', setCount', buf', reqs', reqCount', stop', wrk', pc'⟩
  intro hs hk hhalt hbase hstate hb
  have hpc : pc' = pc := by
    cases pc <;> cases m <;> simp only [ProcInv] at hs
    · exact (hbase hs).pc
    · exact (hbase hs).pc
    · exact (hbase hs.1).pc
    · exact (hhalt _ hs).2.1
    · exact (hhalt _ hs).2.1
    · exact (hhalt _ hs).2.1
    · exact (hhalt _ hs.1).2.1
    · exact (hbase hs.2).pc
    · exact (hk ⟨_, hs.2.2⟩).pc
    · exact (hk ⟨_, hs.2.2.1⟩).pc
    · exact (hbase hs).pc
  subst hpc
  cases pc' <;> cases m <;> simp only [ProcInv, ProcState.rank] at hs ⊢
  · have := (hbase hs).room hs.common
    exact ⟨hb hs, this⟩
  · have := (hbase hs).room hs.common
    have := (hbase hs).stale hs.common
    exact ⟨hb hs, by omega⟩
  · have := (hbase hs.1).room hs.1.common
    have := (hbase hs.1).stale hs.1.common
    refine ⟨⟨hb hs.1, (hbase hs.1).wrk, ?_⟩, by omega⟩
    have := (hbase hs.1).over
    dsimp only at this
    rw [this]
    exact hs.2.2
  · have := hhalt _ hs
    exact ⟨this.1, by omega⟩
  · have := hhalt _ hs
    exact ⟨this.1, by omega⟩
  · have := hhalt _ hs
    exact ⟨this.1, by omega⟩
  · have := hhalt _ hs.1
    exfalso
    have h1 := this.2.2
    obtain ⟨w, h2, -⟩ := hs.1.wrk
    have h3 := hs.2 w h2
    dsimp only at h2
    subst h2
    simp only [ProcState.halt] at h1
    rw [h3] at h1
    simp [WorkerPc.haltStage] at h1
  · have := (hbase hs.2).room hs.2.common
    exact ⟨⟨hs.1, hb hs.2⟩, this⟩
  · have hw := hk ⟨_, hs.2.2⟩
    have := hw.room hs.2.2
    refine ⟨⟨hs.1, ?_, hw.common hs.2.2⟩, by omega⟩
    have := hw.state
    dsimp only at this
    rw [this]
    exact hs.2.1
  · have hw := hk ⟨_, hs.2.2.1⟩
    have := hw.room hs.2.2.1
    refine ⟨⟨hs.1, ?_, hw.common hs.2.2.1, hw.last hs.2.2.1 hs.2.2.2⟩, by omega⟩
    have := hw.state
    dsimp only at this
    rw [this]
    exact hs.2.1
  · have := (hbase hs).room hs.common
    exact ⟨hb hs, this⟩


theorem common_pop {d : Nat} {s : ProcState c} {e : ProcEntry α c.C} {es} (hs : ProcCommon x I K d s) (hb : s.buf = e :: es)
    (hw : s.wrk ≠ none) (sc : Nat) (state) (over) (pc) (hsc : sc + d = marks es + marking s.wrk + s.reqs.length) :
    ProcCommon x I K d { s with buf := es, setCount := sc, state := state, over := over, pc := pc } :=
  ⟨hs.req, hsc, hs.good, hs.wrk, fun h => absurd h hw⟩

/-- Taking an entry that does not count: a marker, or an entry before one. -/
theorem base_pop {n : Nat} {s : ProcState c} {e : ProcEntry α c.C} {es} (hs : ProcBase kick x I K n s) (hb : s.buf = e :: es)
    (hw : s.wrk ≠ none) (hov : s.over = false) (he : e = .marker ∨ s.setCount ≠ 0) (sc : Nat) (hsc : sc + marks [e] = s.setCount) :
    ProcBase kick x I K n { s with buf := es, setCount := sc } ∧
      ({ s with buf := es, setCount := sc } : ProcState c).stale < s.stale := by
  obtain ⟨w, hw'⟩ : ∃ w, s.wrk = some w := Option.ne_none_iff_exists'.1 hw
  have hset := hs.common.set
  have hmk : marks (e :: es) = marks [e] + marks es := by
    rw [← List.singleton_append, marks_append]
  rw [hb, hmk] at hset
  have hbuf : s.reqs = [] → (∀ ck, w.pc ≠ .mark ck) → marks (e :: es) ≠ 0 := by
    intro hr hm
    rcases he with rfl | he
    · simp [marks]
    · have : marking s.wrk = 0 := by
        rw [hw']
        unfold marking
        dsimp only
        cases h : w.pc <;> first | rfl | exact absurd h (hm _)
      rw [hmk]
      rw [hr, this] at hset
      simp only [List.length_nil] at hset
      omega
  refine ⟨⟨?_, ?_, hs.state, hs.over⟩, ?_⟩
  · exact common_pop hs.common hb hw sc s.state s.over s.pc (by omega)
  · refine Or.inl ?_
    by_cases hr : s.reqs = []
    · by_cases hm : ∃ ck, w.pc = .mark ck
      · obtain ⟨ck, hm⟩ := hm
        have := hs.aimed hov
        rw [aim_mark hr hw' hm] at this
        exact (aim_mark (s := { s with buf := es, setCount := sc }) hr hw' hm).2 this
      · have hm' : ∀ ck, w.pc ≠ .mark ck := fun ck hck => hm ⟨ck, hck⟩
        have := hs.aimed hov
        rw [aim_nil hr hw' hm'] at this
        refine (aim_nil (s := { s with buf := es, setCount := sc }) hr hw' hm').2 ?_
        obtain ⟨stale, tail, k, h1, h2, h3, h4⟩ := this
        rw [hb] at h1
        cases stale with
        | nil =>
          rw [List.nil_append] at h1
          exact absurd (h1 ▸ h3.marks) (hbuf hr hm')
        | cons b stale =>
          simp only [List.cons_append, List.cons.injEq] at h1
          obtain ⟨rfl, h1⟩ := h1
          exact ⟨stale, tail, k, h1, h2.tail, h3, h4⟩
    · exact aim_congr (s := s) rfl hr (hs.aimed hov)
  · unfold ProcState.stale
    dsimp only
    rw [hw', hb]
    cases hr : s.reqs with
    | nil =>
      dsimp only
      by_cases hm : ∃ ck, w.pc = .mark ck
      · obtain ⟨ck, hm⟩ := hm
        rw [hm]
        simp
      · have hm' : ∀ ck, w.pc ≠ .mark ck := fun ck hck => hm ⟨ck, hck⟩
        have h1 := hbuf hr hm'
        have h2 : staleLen es < staleLen (e :: es) := by
          simp only [staleLen]
          rw [if_neg h1]
          omega
        cases h : w.pc <;> first | exact h2 | exact absurd h (hm' _)
    | cons r rs => simp

/-- With no marker due, the buffer holds the stream from the user's position on. -/
theorem base_ready {n : Nat} {s : ProcState c} (hs : ProcBase kick x I K n s) (hw : s.wrk ≠ none) (hov : s.over = false)
    (hz : s.setCount = 0) :
    s.reqs = [] ∧ ∃ w, s.wrk = some w ∧ (∀ ck, w.pc ≠ .mark ck) ∧
      ∃ e, ProcTail x K n s.buf e w.exh s.over ∧ WorkerAt x I K e w := by
  obtain ⟨w, hw'⟩ : ∃ w, s.wrk = some w := Option.ne_none_iff_exists'.1 hw
  have hset := hs.common.set
  rw [hz] at hset
  have hr : s.reqs = [] := List.eq_nil_of_length_eq_zero (by omega)
  have hm : ∀ ck, w.pc ≠ .mark ck := by
    intro ck h
    rw [hw'] at hset
    simp only [marking, h, WorkerPc.marking] at hset
    omega
  have := hs.aimed hov
  rw [aim_nil hr hw' hm] at this
  obtain ⟨stale, tail, k, h1, h2, h3, h4⟩ := this
  have : marks stale = 0 := by
    rw [h1, marks_append] at hset
    omega
  rw [h2.eq_nil this, List.nil_append] at h1
  exact ⟨hr, w, hw', hm, k, h1 ▸ h3, h4⟩

theorem base_elem {n : Nat} {s : ProcState c} {a ck es} (hs : ProcBase kick x I K n s) (hb : s.buf = .elem a ck :: es)
    (hw : s.wrk ≠ none) (hz : s.setCount = 0) (hov : s.over = false) (pc) :
    x n = some a ∧ ProcBase kick x I K (n + 1) { s with buf := es, state := some ck, pc := pc } := by
  obtain ⟨hr, w, hw', hm, e, h1, h2⟩ := base_ready hs hw hov hz
  have hset := hs.common.set
  rw [hb] at hset h1
  have key : x n = some a ∧ K (n + 1) ck ∧ ProcTail x K (n + 1) es e w.exh s.over := by
    unfold ProcTail at h1 ⊢
    split at h1
    · rename_i hexh
      rw [if_pos hexh]
      rcases h1 with ⟨b, h3, h4⟩ | ⟨h3, h4, -⟩
      · cases b with
        | nil => simp at h3
        | cons d b =>
          simp only [List.cons_append, List.cons.injEq] at h3
          obtain ⟨rfl, rfl⟩ := h3
          exact ⟨h4.1, h4.2.1, Or.inl ⟨b, rfl, h4.2.2⟩⟩
      · simp at h4
    · rename_i hexh
      rw [if_neg hexh]
      exact ⟨h1.1, h1.2.1, h1.2.2⟩
  refine ⟨key.1, ?_, ?_, key.2.1, by simp [hov]⟩
  · exact common_pop hs.common hb hw s.setCount _ s.over pc hset
  · exact Or.inl <| (aim_nil (s := { s with buf := es, state := some ck, pc := pc }) hr hw' hm).2
      ⟨[], es, e, rfl, Or.inl rfl, key.2.2, h2⟩

theorem base_over {n : Nat} {s : ProcState c} {es} (hs : ProcBase kick x I K n s) (hb : s.buf = .over :: es)
    (hw : s.wrk ≠ none) (hov : s.over = false) (hz : s.setCount = 0) :
    x n = none ∧ es = [] ∧ s.reqs = [] ∧ ∃ w, s.wrk = some w ∧ w.exh = true ∧ I n .idle w.cs ∧
      (w.pc = .top ∨ w.pc = .take ∨ w.pc = .work) ∧ WorkerAt x I K n w := by
  obtain ⟨hr, w, hw', hm, e, h1, h2⟩ := base_ready hs hw hov hz
  rw [hb] at h1
  unfold ProcTail at h1
  split at h1
  · rename_i hexh
    rcases h1 with ⟨b, h3, h4⟩ | ⟨h3, h4, -⟩
    · cases b with
      | nil =>
        simp only [List.nil_append, List.cons.injEq, true_and] at h3
        cases h4
        have h2' := h2
        rcases w with ⟨cs, exh, pc⟩
        dsimp only at hexh hm
        subst hexh
        rcases pc with _ | _ | _ | _ | _ | _ | _ | _ | (_ | _ | _) | _ | _ <;> simp only [WorkerAt] at h2
        · exact ⟨h2.2 trivial, h3, hr, _, hw', rfl, h2.1, by simp, h2'⟩
        · exact ⟨h2.2 trivial, h3, hr, _, hw', rfl, h2.1, by simp, h2'⟩
        · exact absurd h2.1 (by simp)
        · exact absurd h2.1 (by simp)
        · exact absurd h2.1 (by simp)
        · exact ⟨h2.2 trivial, h3, hr, _, hw', rfl, h2.1, by simp, h2'⟩
        · exact absurd h2.1 (by simp)
        · exact absurd h2.1 (by simp)
        · exact absurd h2.1 (by simp)
        · exact absurd h2.1 (by simp)
      | cons d b =>
        simp only [List.cons_append, List.cons.injEq] at h3
        obtain ⟨rfl, rfl⟩ := h3
        exact h4.elim
    · simp at h4
  · exact h1.elim

theorem room_pop {s : ProcState c} {e es} (hb : s.buf = e :: es) (sc state over pc) :
    ({ s with buf := es, setCount := sc, state := state, over := over, pc := pc } : ProcState c).room size ≤
      s.room size + 10 := by
  unfold ProcState.room
  dsimp only
  cases s.wrk with
  | none => simp
  | some w =>
    dsimp only
    rw [hb, List.length_cons]
    omega


theorem halting_no {n : Nat} {s : ProcState c} {w : WorkerState c} (hs : Halting x I K n s) (hw : s.wrk = some w)
    (h : w.pc.haltStage = none) : False := by
  obtain ⟨v, h1, -, -, k, h2⟩ := hs.wrk
  rw [hw] at h1
  cases h1
  rw [h] at h2
  simp at h2

theorem halting_exh {n : Nat} {s : ProcState c} {w : WorkerState c} (hs : Halting x I K n s) (hw : s.wrk = some w) :
    w.exh = true := by
  obtain ⟨v, h1, h2, -⟩ := hs.wrk
  rw [hw] at h1
  cases h1
  exact h2

theorem halting_move {n : Nat} {s : ProcState c} {w : WorkerState c} (hs : Halting x I K n s) (hw : s.wrk = some w)
    (p : WorkerPc α c.C) {k l : Nat} (hp : w.pc.haltStage = some l) (hq : p.haltStage = some k) (hk : k < l) (rs)
    (hrs : rs = []) :
    Halting x I K n { s with reqs := rs, wrk := some { w with pc := p } } ∧
      ({ s with reqs := rs, wrk := some { w with pc := p } } : ProcState c).pc = s.pc ∧
      ({ s with reqs := rs, wrk := some { w with pc := p } } : ProcState c).halt < s.halt := by
  obtain ⟨h1, h2, h3, h4, h5, h6, h7, v, h8, h9, h10, h11⟩ := hs
  rw [hw] at h8
  cases h8
  refine ⟨⟨h1, h2, hrs, h4, h5, h6, h7, _, rfl, h9, h10, k, hq⟩, rfl, ?_⟩
  simp only [ProcState.halt, hw, hp, hq, Option.getD_some]
  exact hk

/-- A step within the worker: the layers below move, and nothing else. -/
def WorkerBelow (c : ConcIter α) (s t : Option c.S) : Prop := ∃ a b, s = some a ∧ t = some b ∧ c.step a b

theorem procInv_step (h : Follows c x I K) {n : Nat} {m : CMode} {s t : ProcState c} (hs : ProcInv kick x I K n m s)
    (ht : ProcStep size keep c s t) :
    ProcInv kick x I K n m t ∧
      ((WorkerBelow c (s.wrk.map (·.cs)) (t.wrk.map (·.cs)) ∧ t.rank size = s.rank size) ∨ t.rank size < s.rank size) := by
  have hP : ∀ u : ProcState c, u.room size < 10 * size + 20 := room_lt
  have hH : ∀ u : ProcState c, u.halt ≤ 4 := halt_le
  cases ht with
  | below w t hw ht =>
    refine ⟨procInv_below h hw ht hs, Or.inl ⟨⟨w.cs, t, by rw [hw]; rfl, rfl, ht⟩, rank_below hw t⟩⟩
  | topStop w hw hpc hstop =>
    refine (fun ⟨a, b⟩ => ⟨a, Or.inr b⟩) (procInv_worker hs ?_ ?_)
    · rintro ⟨d, hd⟩
      have := (hd.wrk w hw).1
      rw [hstop] at this
      cases this
    · intro k hk
      exact halting_move hk hw .leaving (by rw [hpc]; rfl) rfl (by omega) s.reqs hk.reqs
  | topTake w hw hpc hstop hr =>
    refine (fun ⟨a, b⟩ => ⟨a, Or.inr b⟩) (procInv_worker hs (fun _ => worker_topTake hw hpc hr) ?_)
    intro k hk
    rw [hk.stop] at hstop
    cases hstop
  | topWork w hw hpc hstop hr he =>
    refine (fun ⟨a, b⟩ => ⟨a, Or.inr b⟩) (procInv_worker hs (fun _ => worker_topWork hw hpc hr he) ?_)
    intro k hk
    rw [hk.stop] at hstop
    cases hstop
  | take w q ck cks hw hpc hr hrs =>
    refine (fun ⟨a, b⟩ => ⟨a, Or.inr b⟩) (procInv_worker hs (fun _ => worker_take hw hpc hr hrs) ?_)
    intro k hk
    rw [hk.reqCount] at hr
    cases hr
  | takeNone w hw hpc hr =>
    refine (fun ⟨a, b⟩ => ⟨a, Or.inr b⟩) (procInv_worker hs (fun _ => worker_takeNone hw hpc hr) ?_)
    intro k hk
    exact halting_move hk hw .work (by rw [hpc]; rfl) rfl (by omega) s.reqs hk.reqs
  | mark w ck hw hpc hb =>
    refine (fun ⟨a, b⟩ => ⟨a, Or.inr b⟩) (procInv_worker hs (fun _ => worker_mark hw hpc hb) ?_)
    exact fun k hk => (halting_no hk hw (by rw [hpc]; rfl)).elim
  | markStop w ck hw hpc hstop =>
    refine (fun ⟨a, b⟩ => ⟨a, Or.inr b⟩) (procInv_worker hs ?_ ?_)
    · rintro ⟨d, hd⟩
      have := (hd.wrk w hw).1
      rw [hstop] at this
      cases this
    · exact fun k hk => (halting_no hk hw (by rw [hpc]; rfl)).elim
  | apply w ck t hw hpc ht =>
    refine (fun ⟨a, b⟩ => ⟨a, Or.inr b⟩) (procInv_worker hs (fun _ => worker_apply h hw hpc ht) ?_)
    exact fun k hk => (halting_no hk hw (by rw [hpc]; rfl)).elim
  | applied w t hw hpc ht =>
    refine (fun ⟨a, b⟩ => ⟨a, Or.inr b⟩) (procInv_worker hs (fun hcm => worker_applied h hw hpc hcm ht) ?_)
    exact fun k hk => (halting_no hk hw (by rw [hpc]; rfl)).elim
  | workWait w hw hpc he =>
    refine (fun ⟨a, b⟩ => ⟨a, Or.inr b⟩) (procInv_worker hs (fun _ => worker_workWait hw hpc he) ?_)
    intro k hk
    exact halting_move hk hw .top (by rw [hpc]; rfl) rfl (by omega) s.reqs hk.reqs
  | call w t hw hpc he ht =>
    refine (fun ⟨a, b⟩ => ⟨a, Or.inr b⟩) (procInv_worker hs (fun _ => worker_call h hw hpc he ht) ?_)
    intro k hk
    rw [halting_exh hk hw] at he
    cases he
  | item w a t hw hpc ht =>
    refine (fun ⟨a, b⟩ => ⟨a, Or.inr b⟩) (procInv_worker hs (fun _ => worker_item h hw hpc ht) ?_)
    exact fun k hk => (halting_no hk hw (by rw [hpc]; rfl)).elim
  | ended w t hw hpc ht =>
    refine (fun ⟨a, b⟩ => ⟨a, Or.inr b⟩) (procInv_worker hs (fun _ => worker_ended h hw hpc ht) ?_)
    exact fun k hk => (halting_no hk hw (by rw [hpc]; rfl)).elim
  | getState w a hw hpc =>
    refine (fun ⟨a, b⟩ => ⟨a, Or.inr b⟩) (procInv_worker hs (fun _ => worker_getState h hw hpc) ?_)
    exact fun k hk => (halting_no hk hw (by rw [hpc]; rfl)).elim
  | put w e hw hpc hb =>
    refine (fun ⟨a, b⟩ => ⟨a, Or.inr b⟩) (procInv_worker hs (fun hcm => worker_put hw hpc hb hcm) ?_)
    exact fun k hk => (halting_no hk hw (by rw [hpc]; rfl)).elim
  | putStop w e hw hpc hstop =>
    refine (fun ⟨a, b⟩ => ⟨a, Or.inr b⟩) (procInv_worker hs ?_ ?_)
    · rintro ⟨d, hd⟩
      have := (hd.wrk w hw).1
      rw [hstop] at this
      cases this
    · exact fun k hk => (halting_no hk hw (by rw [hpc]; rfl)).elim
  | leave w e es hw hpc hb =>
    refine (fun ⟨a, b⟩ => ⟨a, Or.inr b⟩) (procInv_worker hs ?_ ?_)
    · rintro ⟨d, hd⟩
      obtain ⟨-, e, he⟩ := hd.wrk w hw
      simp only [WorkerAt, hpc] at he
    · intro k hk
      rw [hk.buf] at hb
      cases hb
  | leaveEnd w hw hpc =>
    refine (fun ⟨a, b⟩ => ⟨a, Or.inr b⟩) (procInv_worker hs ?_ ?_)
    · rintro ⟨d, hd⟩
      obtain ⟨-, e, he⟩ := hd.wrk w hw
      simp only [WorkerAt, hpc] at he
    · intro k hk
      exact halting_move hk hw .exited (by rw [hpc]; rfl) rfl (by omega) [] rfl
  | nextOver hpc hov =>
    rcases s with ⟨state, over, setCount, buf, reqs, reqCount, stop, wrk, pc⟩
    dsimp only at hpc hov
    subst hpc
    cases m <;> simp only [ProcInv] at hs
    have hx := hs.over hov
    refine ⟨⟨hx.symm, ?_⟩, Or.inr ?_⟩
    · simp only [nextPos, hx]
      exact ⟨⟨hs.common.req, hs.common.set, hs.common.good, hs.common.wrk, hs.common.none⟩, hs.aim, hs.state, hs.over⟩
    · simp only [ProcState.rank]
      have := hP ⟨state, over, setCount, buf, reqs, reqCount, stop, wrk, .done none⟩
      omega
  | start hpc hov hwn =>
    rcases s with ⟨state, over, setCount, buf, reqs, reqCount, stop, wrk, pc⟩
    dsimp only at hpc hov hwn
    subst hpc hov hwn
    cases m <;> simp only [ProcInv] at hs
    have hbuf := hs.common.none rfl
    dsimp only at hbuf
    subst hbuf
    have hat : WorkerAt x I K 0 { cs := c.init, exh := false, pc := .top } := ⟨h.init, by simp⟩
    refine ⟨⟨⟨?_, ?_, hs.state, hs.over⟩, by simp, rfl⟩, Or.inr ?_⟩
    · refine ⟨hs.common.req, ?_, hs.common.good, ?_, by simp⟩
      · exact hs.common.set
      · rintro w ⟨⟩
        exact ⟨rfl, 0, hat⟩
    · refine Or.inl ?_
      by_cases hr : reqs = []
      · have := hs.aimed rfl
        subst hr
        simp only [Aim, List.getLast?_nil, Bool.false_eq_true, or_false] at this
        subst this
        refine (aim_nil rfl rfl (by simp)).2 ⟨[], [], 0, rfl, Or.inl rfl, ?_, hat⟩
        simp [ProcTail, ProcItems]
      · exact aim_congr (s := ⟨state, false, setCount, [], reqs, reqCount, stop, none, .enter⟩) rfl hr (hs.aimed rfl)
    · simp only [ProcState.rank]
      have h1 := hP ⟨state, false, setCount, [], reqs, reqCount, false, some { cs := c.init, exh := false, pc := .top }, .get⟩
      have h2 : (⟨state, false, setCount, [], reqs, reqCount, false, some { cs := c.init, exh := false, pc := .top }, .get⟩ :
          ProcState c).stale = (⟨state, false, setCount, [], reqs, reqCount, stop, none, .enter⟩ : ProcState c).stale := by
        unfold ProcState.stale
        cases reqs <;> simp [staleLen, WorkerPc.coming]
      omega
  | wait w hpc hov hw =>
    rcases s with ⟨state, over, setCount, buf, reqs, reqCount, stop, wrk, pc⟩
    dsimp only at hpc hov hw
    subst hpc hov hw
    cases m <;> simp only [ProcInv] at hs
    refine ⟨⟨⟨⟨hs.common.req, hs.common.set, hs.common.good, hs.common.wrk, hs.common.none⟩, hs.aim, hs.state, hs.over⟩,
      by simp, rfl⟩, Or.inr ?_⟩
    simp only [ProcState.rank]
    have h2 : (⟨state, false, setCount, buf, reqs, reqCount, stop, some w, .get⟩ : ProcState c).stale =
        (⟨state, false, setCount, buf, reqs, reqCount, stop, some w, .enter⟩ : ProcState c).stale := rfl
    have h3 : (⟨state, false, setCount, buf, reqs, reqCount, stop, some w, .get⟩ : ProcState c).room size =
        (⟨state, false, setCount, buf, reqs, reqCount, stop, some w, .enter⟩ : ProcState c).room size := rfl
    omega
  | getMarker es hpc hb =>
    rcases s with ⟨state, over, setCount, buf, reqs, reqCount, stop, wrk, pc⟩
    dsimp only at hpc hb
    subst hpc hb
    cases m <;> simp only [ProcInv] at hs
    have hset := hs.1.common.set
    simp only [marks] at hset
    obtain ⟨h1, h2⟩ := base_pop (es := es) hs.1 rfl hs.2.1 hs.2.2 (Or.inl rfl) (setCount - 1) (by simp only [marks]; omega)
    refine ⟨⟨h1, hs.2⟩, Or.inr ?_⟩
    have := room_pop (size := size) (s := ⟨state, over, setCount, .marker :: es, reqs, reqCount, stop, wrk, .get⟩)
      (es := es) rfl (setCount - 1) state over .get
    dsimp only at this
    simp only [ProcState.rank] at h2 ⊢
    omega
  | getStale e es hpc hb hne hsc =>
    rcases s with ⟨state, over, setCount, buf, reqs, reqCount, stop, wrk, pc⟩
    dsimp only at hpc hb hsc
    subst hpc hb
    cases m <;> simp only [ProcInv] at hs
    have hm : marks [e] = 0 := by
      cases e with
      | marker => exact absurd rfl hne
      | elem a ck => rfl
      | over => rfl
    obtain ⟨h1, h2⟩ := base_pop (es := es) hs.1 rfl hs.2.1 hs.2.2 (Or.inr hsc) setCount (by rw [hm]; rfl)
    refine ⟨⟨h1, hs.2⟩, Or.inr ?_⟩
    have := room_pop (size := size) (s := ⟨state, over, setCount, e :: es, reqs, reqCount, stop, wrk, .get⟩)
      (es := es) rfl setCount state over .get
    dsimp only at this
    simp only [ProcState.rank] at h2 ⊢
    omega
  | getElem a ck es hpc hb hsc =>
    rcases s with ⟨state, over, setCount, buf, reqs, reqCount, stop, wrk, pc⟩
    dsimp only at hpc hb hsc
    subst hpc hb hsc
    cases m <;> simp only [ProcInv] at hs
    obtain ⟨h1, h2⟩ := base_elem (es := es) hs.1 rfl hs.2.1 rfl hs.2.2 (.done (some a))
    refine ⟨⟨h1.symm, ?_⟩, Or.inr ?_⟩
    · simp only [nextPos, h1]
      exact h2
    · simp only [ProcState.rank]
      have := hP ⟨some ck, over, 0, es, reqs, reqCount, stop, wrk, .done (some a)⟩
      omega
  | getOver es hpc hb hsc hk =>
    rcases s with ⟨state, over, setCount, buf, reqs, reqCount, stop, wrk, pc⟩
    dsimp only at hpc hb hsc
    subst hpc hb hsc
    cases m <;> simp only [ProcInv] at hs
    obtain ⟨h1, rfl, h3, w, h4, h5, h6, h7, h8⟩ := base_over (es := es) hs.1 rfl hs.2.1 hs.2.2 rfl
    have hset := hs.1.common.set
    dsimp only at h3 h4
    subst h3 h4
    refine ⟨⟨h1.symm, ?_⟩, Or.inr ?_⟩
    · simp only [nextPos, h1]
      refine ⟨common_pop hs.1.common rfl hs.2.1 0 state true _ hset, ?_, hs.1.state, fun _ => h1⟩
      refine Or.inl ((aim_nil rfl rfl ?_).2 ⟨[], [], n, rfl, Or.inl rfl, ?_, h8⟩)
      · rcases h7 with h7 | h7 | h7 <;> simp [h7]
      · simp [ProcTail, h5]
    · simp only [ProcState.rank]
      have := hP ⟨state, true, 0, [], [], reqCount, stop, some w, .done none⟩
      omega
  | getStop es hpc hb hsc hk =>
    rcases s with ⟨state, over, setCount, buf, reqs, reqCount, stop, wrk, pc⟩
    dsimp only at hpc hb hsc
    subst hpc hb hsc
    cases m <;> simp only [ProcInv] at hs
    obtain ⟨h1, rfl, h3, w, h4, h5, h6, h7, h8⟩ := base_over (es := es) hs.1 rfl hs.2.1 hs.2.2 rfl
    have hreq := hs.1.common.req
    dsimp only at h3 h4 hreq
    subst h3 h4
    refine ⟨⟨h1, rfl, rfl, by simpa using hreq, rfl, hs.1.state, rfl, w, rfl, h5, h6, ?_⟩, Or.inr ?_⟩
    · rcases h7 with h7 | h7 | h7 <;> rw [h7] <;> exact ⟨_, rfl⟩
    · simp only [ProcState.rank]
      have := hH ⟨state, over, 0, [], [], reqCount, true, some w, .stop1⟩
      omega
  | stop1 e es hpc hb =>
    rcases s with ⟨state, over, setCount, buf, reqs, reqCount, stop, wrk, pc⟩
    dsimp only at hpc hb
    subst hpc hb
    cases m <;> simp only [ProcInv] at hs
    have := hs.buf
    cases this
  | stop1End hpc =>
    rcases s with ⟨state, over, setCount, buf, reqs, reqCount, stop, wrk, pc⟩
    dsimp only at hpc
    subst hpc
    cases m <;> simp only [ProcInv] at hs
    refine ⟨⟨hs.over, hs.buf, hs.reqs, hs.reqCount, hs.setCount, hs.state, hs.stop, hs.wrk⟩, Or.inr ?_⟩
    have := hH ⟨state, over, setCount, buf, reqs, reqCount, stop, wrk, .stop2⟩
    simp only [ProcState.rank]
    omega
  | stop2 j hpc hj =>
    rcases s with ⟨state, over, setCount, buf, reqs, reqCount, stop, wrk, pc⟩
    dsimp only at hpc hj
    subst hpc
    cases m <;> simp only [ProcInv] at hs
    have h1 := hs.reqs
    have h2 := hs.reqCount
    have h3 := hs.setCount
    dsimp only at h1 h2 h3
    subst h1 h2 h3
    refine ⟨⟨hs.over, hs.buf, by simp, by simp, by simp, hs.state, hs.stop, hs.wrk⟩, Or.inr ?_⟩
    have := hH ⟨state, over, 0 - j, buf, List.drop j [], 0 - j, stop, wrk, .join⟩
    simp only [ProcState.rank]
    omega
  | join w hpc hw hx =>
    rcases s with ⟨state, over, setCount, buf, reqs, reqCount, stop, wrk, pc⟩
    dsimp only at hpc hw
    subst hpc hw
    cases m <;> simp only [ProcInv] at hs
    refine ⟨⟨⟨hs.over, hs.buf, hs.reqs, hs.reqCount, hs.setCount, hs.state, hs.stop, hs.wrk⟩, ?_⟩, Or.inr ?_⟩
    · rintro v ⟨⟩
      exact hx
    · have := hH ⟨state, over, setCount, buf, reqs, reqCount, stop, some w, .stop3⟩
      simp only [ProcState.rank]
      omega
  | stop3 e es hpc hb =>
    rcases s with ⟨state, over, setCount, buf, reqs, reqCount, stop, wrk, pc⟩
    dsimp only at hpc hb
    subst hpc hb
    cases m <;> simp only [ProcInv] at hs
    have := hs.1.buf
    cases this
  | stopped hpc hb =>
    rcases s with ⟨state, over, setCount, buf, reqs, reqCount, stop, wrk, pc⟩
    dsimp only at hpc hb
    subst hpc hb
    cases m <;> simp only [ProcInv] at hs
    have h1 := hs.1.over
    have h2 := hs.1.reqs
    have h3 := hs.1.reqCount
    dsimp only at h2 h3
    subst h2 h3
    refine ⟨⟨h1.symm, ?_⟩, Or.inr ?_⟩
    · simp only [nextPos, h1]
      exact ⟨⟨rfl, rfl, by simp, by simp, fun _ => rfl⟩, Or.inl (Or.inr rfl), hs.1.state, fun _ => h1⟩
    · simp only [ProcState.rank, ProcState.room]
      omega
  | setPut ck hpc =>
    rcases s with ⟨state, over, setCount, buf, reqs, reqCount, stop, wrk, pc⟩
    dsimp only at hpc
    subst hpc
    cases m <;> simp only [ProcInv] at hs
    obtain ⟨h1, h2, h3⟩ := hs
    refine ⟨⟨h1, h2, ⟨?_, ?_, ?_, h3.wrk, h3.none⟩, by simp⟩, Or.inr ?_⟩
    · have := h3.req
      simp only [List.length_append, List.length_singleton] at this ⊢
      omega
    · have := h3.set
      simp only [List.length_append, List.length_singleton] at this ⊢
      omega
    · intro r hr
      rcases List.mem_append.1 hr with hr | hr
      · exact h3.good r hr
      · rw [List.mem_singleton.1 hr]
        exact ⟨n, h1⟩
    · simp only [ProcState.rank]
      have : (⟨state, over, setCount, buf, reqs ++ [ck], reqCount, stop, wrk, .set2 ck⟩ : ProcState c).room size =
        (⟨state, over, setCount, buf, reqs, reqCount, stop, wrk, .set1 ck⟩ : ProcState c).room size := rfl
      omega
  | setDone ck hpc =>
    rcases s with ⟨state, over, setCount, buf, reqs, reqCount, stop, wrk, pc⟩
    dsimp only at hpc
    subst hpc
    cases m <;> simp only [ProcInv] at hs
    obtain ⟨h1, h2, h3, h4⟩ := hs
    subst h2
    refine ⟨⟨⟨h3.req, h3.set, h3.good, h3.wrk, h3.none⟩, ?_, h1, by simp⟩, Or.inr ?_⟩
    · exact Or.inl ((aim_last h4).2 h1)
    · simp only [ProcState.rank]
      have := hP ⟨some ck, false, setCount + 1, buf, reqs, reqCount + 1, stop, wrk, .setDone⟩
      omega


theorem procInv_parent {n : Nat} {m : CMode} {s : ProcState c} (hs : ProcInv kick x I K n m s) {w : WorkerState c}
    (hw : s.wrk = some w) : ∃ k l, I k l w.cs := by
  have hc : ∀ {d}, ProcCommon x I K d s → ∃ k l, I k l w.cs := by
    intro d h
    obtain ⟨-, e, he⟩ := h.wrk w hw
    exact workerAt_parent he
  have hh : ∀ {k}, Halting x I K k s → ∃ k l, I k l w.cs := by
    intro k h
    obtain ⟨v, h1, -, h2, -⟩ := h.wrk
    rw [hw] at h1
    cases h1
    exact ⟨_, _, h2⟩
  revert hs hc hh
  rcases s with ⟨state, over, setCount, buf, reqs, reqCount, stop, wrk, pc⟩
  intro hs hc hh
  cases pc <;> cases m <;> simp only [ProcInv] at hs
  · exact hc hs.common
  · exact hc hs.common
  · exact hc hs.1.common
  · exact hh hs
  · exact hh hs
  · exact hh hs
  · exact hh hs.1
  · exact hc hs.2.common
  · exact hc hs.2.2
  · exact hc hs.2.2.1
  · exact hc hs.common

/-- While the main process waits for an element, the worker can go on. -/
theorem worker_live (h : Follows c x I K) (hsize : 0 < size) {n : Nat} {s : ProcState c} (hs : ProcBase kick x I K n s)
    (hw : s.wrk ≠ none) (hov : s.over = false) (hb : s.buf = []) : ∃ t, ProcStep size keep c s t := by
  obtain ⟨w, hw⟩ : ∃ w, s.wrk = some w := Option.ne_none_iff_exists'.1 hw
  obtain ⟨hstop, e, he⟩ := hs.common.wrk w hw
  have hroom : s.buf.length < size := by rw [hb]; exact hsize
  cases hpc : w.pc with
  | top =>
    by_cases hr : s.reqCount = 0
    · cases hexh : w.exh with
      | false => exact ⟨_, .topWork s w hw hpc hstop hr hexh⟩
      | true =>
        exfalso
        have hreq := hs.common.req
        rw [hr] at hreq
        have hr' : s.reqs = [] := List.eq_nil_of_length_eq_zero (by omega)
        have := hs.aimed hov
        rw [aim_nil hr' hw (by simp [hpc])] at this
        obtain ⟨stale, tail, k, h1, h2, h3, h4⟩ := this
        rw [hb] at h1
        have htail : tail = [] := (List.append_eq_nil_iff.1 h1.symm).2
        subst htail
        rw [hov, hexh] at h3
        simp [ProcTail] at h3
    · exact ⟨_, .topTake s w hw hpc hstop (by omega)⟩
  | take =>
    cases hr : s.reqCount with
    | zero => exact ⟨_, .takeNone s w hw hpc hr⟩
    | succ q =>
      have hreq := hs.common.req
      rw [hr] at hreq
      cases hrs : s.reqs with
      | nil => rw [hrs] at hreq; simp at hreq
      | cons ck cks => exact ⟨_, .take s w q ck cks hw hpc hr hrs⟩
  | mark ck => exact ⟨_, .mark s w ck hw hpc hroom⟩
  | apply ck =>
    simp only [WorkerAt, hpc] at he
    obtain ⟨-, h2, d, h3⟩ := he
    obtain ⟨t, ht⟩ := h.canSet h3 h2
    exact ⟨_, .apply s w ck t hw hpc ht⟩
  | applying =>
    simp only [WorkerAt, hpc] at he
    rcases h.liveSet he.2 with ⟨t, ht⟩ | ⟨t, ht⟩
    · exact ⟨_, .below s w t hw ht⟩
    · exact ⟨_, .applied s w t hw hpc ht⟩
  | work =>
    cases hexh : w.exh with
    | true => exact ⟨_, .workWait s w hw hpc hexh⟩
    | false =>
      simp only [WorkerAt, hpc] at he
      obtain ⟨t, ht⟩ := h.canCall he.1
      exact ⟨_, .call s w t hw hpc hexh ht⟩
  | reading =>
    simp only [WorkerAt, hpc] at he
    rcases h.live he.2 with ⟨t, ht⟩ | ⟨_ | a, t, ht⟩
    · exact ⟨_, .below s w t hw ht⟩
    · exact ⟨_, .ended s w t hw hpc ht⟩
    · exact ⟨_, .item s w a t hw hpc ht⟩
  | got a => exact ⟨_, .getState s w a hw hpc⟩
  | put e => exact ⟨_, .put s w e hw hpc hroom⟩
  | leaving => simp only [WorkerAt, hpc] at he
  | exited => simp only [WorkerAt, hpc] at he

theorem process_follows (h : Follows c x I K) (hsize : 0 < size) :
    Follows (processOver size keep c) x (ProcInv kick x I K) K := by
  constructor
  · exact ⟨⟨rfl, rfl, by simp [processOver], by simp [processOver], fun _ => rfl⟩, Or.inl (Or.inl rfl), rfl, by simp [processOver]⟩
  · intro n m s t hs ht
    exact (procInv_step h hs ht).1
  · rintro n s t hs ⟨hpc, rfl⟩
    rcases s with ⟨state, over, setCount, buf, reqs, reqCount, stop, wrk, pc⟩
    dsimp only at hpc
    subst hpc
    exact ⟨⟨hs.common.req, hs.common.set, hs.common.good, hs.common.wrk, hs.common.none⟩, hs.aim, hs.state, hs.over⟩
  · rintro n s r t hs ⟨hpc, rfl⟩
    rcases s with ⟨state, over, setCount, buf, reqs, reqCount, stop, wrk, pc⟩
    dsimp only at hpc
    subst hpc
    obtain ⟨h1, h2⟩ := hs
    exact ⟨h1, ⟨h2.common.req, h2.common.set, h2.common.good, h2.common.wrk, h2.common.none⟩, h2.aim, h2.state, h2.over⟩
  · rintro n s hs
    rcases s with ⟨state, over, setCount, buf, reqs, reqCount, stop, wrk, pc⟩
    cases pc <;> simp only [ProcInv] at hs
    cases state with
    | some ck => exact ⟨hs, hs.state⟩
    | none =>
      have h0 : n = 0 := hs.state
      subst h0
      have hk := (h.get h.init).2
      exact ⟨⟨⟨hs.common.req, hs.common.set, hs.common.good, hs.common.wrk, hs.common.none⟩, hs.aim, hk, hs.over⟩, hk⟩
  · rintro n s k ck t hs hk ⟨hpc, j, hj, rfl⟩
    rcases s with ⟨state, over, setCount, buf, reqs, reqCount, stop, wrk, pc⟩
    dsimp only at hpc hj
    subst hpc
    have h1 := hs.common.req
    have h2 := hs.common.set
    dsimp only at h1 h2
    refine ⟨hk, rfl, ?_, ?_, ?_, hs.common.wrk, hs.common.none⟩
    · simp only [List.length_drop]
      omega
    · simp only [List.length_drop]
      omega
    · intro r hr
      exact hs.common.good r (List.mem_of_mem_drop hr)
  · rintro n s t hs ⟨hpc, rfl⟩
    rcases s with ⟨state, over, setCount, buf, reqs, reqCount, stop, wrk, pc⟩
    dsimp only at hpc
    subst hpc
    exact ⟨⟨hs.common.req, hs.common.set, hs.common.good, hs.common.wrk, hs.common.none⟩, hs.aim, hs.state, hs.over⟩
  · rintro n s hs
    rcases s with ⟨state, over, setCount, buf, reqs, reqCount, stop, wrk, pc⟩
    cases pc <;> simp only [ProcInv] at hs
    exact ⟨_, rfl, rfl⟩
  · rintro n s k ck hs -
    rcases s with ⟨state, over, setCount, buf, reqs, reqCount, stop, wrk, pc⟩
    cases pc <;> simp only [ProcInv] at hs
    exact ⟨_, rfl, 0, by simp, rfl⟩
  · rintro n s hs
    rcases s with ⟨state, over, setCount, buf, reqs, reqCount, stop, wrk, pc⟩
    cases pc <;> simp only [ProcInv] at hs
    · left
      cases hov : over with
      | true => exact ⟨_, .nextOver _ rfl rfl⟩
      | false =>
        cases wrk with
        | none => exact ⟨_, .start _ rfl rfl rfl⟩
        | some w => exact ⟨_, .wait _ w rfl rfl rfl⟩
    · left
      rcases buf with _ | ⟨e, es⟩
      · exact worker_live h hsize hs.1 hs.2.1 hs.2.2 rfl
      · by_cases hm : e = .marker
        · subst hm
          exact ⟨_, .getMarker _ es rfl rfl⟩
        · by_cases hz : setCount = 0
          · cases e with
            | marker => exact absurd rfl hm
            | elem a ck => exact ⟨_, .getElem _ a ck es rfl rfl hz⟩
            | over =>
              cases hk : keep with
              | true => exact ⟨_, .getOver _ es rfl rfl hz rfl⟩
              | false => exact ⟨_, .getStop _ es rfl rfl hz rfl⟩
          · exact ⟨_, .getStale _ e es rfl rfl hm hz⟩
    · exact Or.inl ⟨_, .stop1End _ rfl⟩
    · exact Or.inl ⟨_, .stop2 _ 0 rfl (Nat.zero_le _)⟩
    · left
      obtain ⟨w, h1, h2, h3, k, h4⟩ := hs.wrk
      have hr := hs.reqCount
      have hst := hs.stop
      dsimp only at h1 hr hst
      subst h1 hr hst
      cases hpc : w.pc with
      | top => exact ⟨_, .topStop _ w rfl hpc rfl⟩
      | take => exact ⟨_, .takeNone _ w rfl hpc rfl⟩
      | work => exact ⟨_, .workWait _ w rfl hpc h2⟩
      | leaving => exact ⟨_, .leaveEnd _ w rfl hpc⟩
      | exited => exact ⟨_, .join _ w rfl rfl hpc⟩
      | _ => rw [hpc] at h4; cases h4
    · exact Or.inl ⟨_, .stopped _ rfl hs.1.buf⟩
    · exact Or.inr ⟨_, _, rfl, rfl⟩
  · rintro n s hs
    rcases s with ⟨state, over, setCount, buf, reqs, reqCount, stop, wrk, pc⟩
    cases pc <;> simp only [ProcInv] at hs
    · exact Or.inl ⟨_, .setPut _ _ rfl⟩
    · exact Or.inl ⟨_, .setDone _ _ rfl⟩
    · exact Or.inr ⟨_, rfl, rfl⟩
  · intro n m s hs
    refine acc_of_rank (proj := fun s : ProcState c => s.wrk.map (·.cs)) (cstep := WorkerBelow c)
      (R := fun w s => s.rank size = w ∧ ProcInv kick x I K n m s) ?_ ?_ _ s ⟨rfl, hs⟩
    · rintro w s t ⟨rfl, hs⟩ ht
      obtain ⟨h1, h2⟩ := procInv_step h hs ht
      rcases h2 with ⟨h2, h3⟩ | h2
      · exact Or.inl ⟨h2, h3, h1⟩
      · exact Or.inr ⟨_, h2, rfl, h1⟩
    · rintro w s ⟨-, hs⟩
      cases hw : s.wrk with
      | none =>
        constructor
        rintro t ⟨a, b, h1, -⟩
        simp at h1
      | some v =>
        obtain ⟨k, l, hk⟩ := procInv_parent hs hw
        have hacc := h.acc hk
        have aux : ∀ cs, Acc (fun t s => c.step s t) cs → Acc (fun t s => WorkerBelow c s t) (some cs) := by
          intro cs h
          induction h with
          | intro cs _ ih =>
            constructor
            rintro t ⟨a, b, h1, rfl, h2⟩
            cases h1
            exact ih b h2
        exact aux _ hacc

end
end Grain
