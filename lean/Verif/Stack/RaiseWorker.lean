import Verif.Stack.RaiseProcess
import Verif.Stack.RaisePrefetch
/-
A process prefetch over an iterator that follows a stream of outcomes follows it up to the first exception: the worker.
-/
namespace Grain
namespace Raise

/-- No exception before position `n`. -/
def Clean (x : Nat → Option (Py α)) (n : Nat) : Prop := ∀ j < n, ¬ Raises (x j)

theorem Clean.succ {x : Nat → Option (Py α)} {n : Nat} {a : α} (h : Clean x n) (hx : x n = some (.ok a)) : Clean x (n + 1) := by
  intro j hj
  by_cases hn : j = n
  · subst hn
    rintro ⟨e, he⟩
    rw [hx] at he
    cases he
  · exact h j (by omega)

/-- A checkpoint of a position before which nothing raises. -/
def Known {C : Type} (x : Nat → Option (Py α)) (K : Nat → C → Prop) (n : Nat) (ck : C) : Prop := K n ck ∧ Clean x n

theorem Lagged.known {C : Type} {x : Nat → Option (Py α)} {K : Nat → C → Prop} {n : Nat} {ck : C} {a : α}
    (h : Lagged x K (n + 1) ck) (hn : Clean x n) (hx : x n = some (.ok a)) : Known x K (n + 1) ck := by
  obtain ⟨k, h1, h2⟩ := h
  have : k = n + 1 := by
    by_contra hne
    have := h1.1
    obtain ⟨e, he⟩ := h1.2 n (by omega) (by omega)
    rw [hx] at he
    cases he
  subst this
  exact ⟨h2, hn.succ hx⟩

/-- The number of markers in a list of entries. -/
def marks : List (ProcEntry α C) → Nat
  | [] => 0
  | .marker :: l => marks l + 1
  | .elem _ _ :: l => marks l
  | .over _ :: l => marks l

theorem marks_append (l l' : List (ProcEntry α C)) : marks (l ++ l') = marks l + marks l' := by
  induction l with
  | nil => simp [marks]
  | cons e l ih => cases e <;> simp [marks, ih]; omega

/-- How many entries there are up to the last marker. -/
def staleLen : List (ProcEntry α C) → Nat
  | [] => 0
  | e :: l => if marks (e :: l) = 0 then 0 else staleLen l + 1

theorem staleLen_zero {l : List (ProcEntry α C)} (h : marks l = 0) : staleLen l = 0 := by
  cases l with
  | nil => rfl
  | cons e l => simp [staleLen, h]

theorem staleLen_le (l : List (ProcEntry α C)) : staleLen l ≤ l.length := by
  induction l with
  | nil => simp [staleLen]
  | cons e l ih =>
    simp only [staleLen, List.length_cons]
    split <;> omega

theorem staleLen_snoc {l : List (ProcEntry α C)} {e : ProcEntry α C} (he : marks [e] = 0) :
    staleLen (l ++ [e]) = staleLen l := by
  induction l with
  | nil => simp [staleLen, he]
  | cons b l ih =>
    simp only [List.cons_append, staleLen, ih]
    have : marks (b :: (l ++ [e])) = marks (b :: l) := by
      rw [← List.cons_append, marks_append, he, Nat.add_zero]
    rw [this]

/-- Empty, or the last entry is a marker. -/
def EndsMark (l : List (ProcEntry α C)) : Prop := l = [] ∨ ∃ l', l = l' ++ [.marker]

theorem EndsMark.tail {e : ProcEntry α C} {l : List (ProcEntry α C)} (h : EndsMark (e :: l)) : EndsMark l := by
  rcases h with h | ⟨l', h⟩
  · simp at h
  · cases l' with
    | nil =>
      simp only [List.nil_append, List.cons.injEq] at h
      exact Or.inl h.2
    | cons b l' =>
      simp only [List.cons_append, List.cons.injEq] at h
      exact Or.inr ⟨l', h.2⟩

theorem EndsMark.eq_nil {l : List (ProcEntry α C)} (h : EndsMark l) (hm : marks l = 0) : l = [] := by
  rcases h with h | ⟨l', rfl⟩
  · exact h
  · rw [marks_append] at hm
    simp [marks] at hm

/-- The entries are the elements `n, …, e - 1` of the stream, each with a checkpoint after it. -/
def ProcItems (x : Nat → Option (Py α)) (K : Nat → C → Prop) : Nat → List (ProcEntry α C) → Nat → Prop
  | n, [], e => n = e
  | n, .elem a ck :: es, e => x n = some (.ok a) ∧ K (n + 1) ck ∧ ProcItems x K (n + 1) es e
  | _, .marker :: _, _ => False
  | _, .over _ :: _, _ => False

theorem ProcItems.snoc {x : Nat → Option (Py α)} {K : Nat → C → Prop} {n e : Nat} {es : List (ProcEntry α C)} {a : α} {ck : C}
    (h : ProcItems x K n es e) (hx : x e = some (.ok a)) (hk : K (e + 1) ck) :
    ProcItems x K n (es ++ [.elem a ck]) (e + 1) := by
  induction es generalizing n with
  | nil => cases h; exact ⟨hx, hk, rfl⟩
  | cons b es ih =>
    cases b with
    | marker => exact h.elim
    | over r => exact h.elim
    | elem b ck' => exact ⟨h.1, h.2.1, ih h.2.2⟩

theorem ProcItems.marks {x : Nat → Option (Py α)} {K : Nat → C → Prop} {n e : Nat} {es : List (ProcEntry α C)}
    (h : ProcItems x K n es e) : marks es = 0 := by
  induction es generalizing n with
  | nil => rfl
  | cons b es ih =>
    cases b with
    | marker => exact h.elim
    | over r => exact h.elim
    | elem b ck' => exact ih h.2.2

section
variable {c : ConcIter (Py α)} {x : Nat → Option (Py α)} {I : Nat → CMode → c.S → Prop} {K K₀ : Nat → c.C → Prop} {size : Nat}
  {keep : Bool}

/-- What the buffer holds for a user at `n`, when the worker is at `e`: the elements in between, then the exception if
the worker is at one (unless the user has seen it). -/
def ProcTail (x : Nat → Option (Py α)) (K : Nat → C → Prop) (n : Nat) (l : List (ProcEntry α C)) (e : Nat) (exh over : Bool) :
    Prop :=
  if exh then (∃ b r, l = b ++ [.over r] ∧ ProcItems x K n b e ∧ x e = raised r) ∨ (over = true ∧ l = [] ∧ n = e)
  else ProcItems x K n l e

theorem ProcTail.marks {n e : Nat} {l : List (ProcEntry α c.C)} {exh over : Bool}
    (h : ProcTail x K n l e exh over) : marks l = 0 := by
  unfold ProcTail at h
  split at h
  · rcases h with ⟨b, r, rfl, h, -⟩ | ⟨-, rfl, -⟩
    · rw [marks_append, h.marks]; rfl
    · rfl
  · exact h.marks

/-- The parent is before outcome `e`, or has raised it. -/
def Ready (x : Nat → Option (Py α)) (I : Nat → CMode → c.S → Prop) (e : Nat) (exh : Bool) (cs : c.S) : Prop :=
  if exh then (∃ r, x e = raised r) ∧ I (nextPos x e) .idle cs else I e .idle cs

theorem Ready.idle {e : Nat} {exh : Bool} {cs : c.S} (h : Ready x I e exh cs) : ∃ d, I d .idle cs := by
  unfold Ready at h
  split at h
  · exact ⟨_, h.2⟩
  · exact ⟨_, h⟩

/-- The worker is at position `e`: the next entry it puts (after the marker, if one is due) is element `e`. -/
def WorkerPos (x : Nat → Option (Py α)) (I : Nat → CMode → c.S → Prop) (K : Nat → c.C → Prop) (e : Nat) (w : WorkerState c) :
    Prop :=
  match w.pc with
  | .top => Ready x I e w.exh w.cs
  | .take => Ready x I e w.exh w.cs
  | .work => Ready x I e w.exh w.cs
  | .reading => w.exh = false ∧ I e .next w.cs
  | .got a => w.exh = false ∧ x e = some (.ok a) ∧ I (e + 1) .idle w.cs
  | .put (.elem a ck) => w.exh = false ∧ x e = some (.ok a) ∧ K (e + 1) ck ∧ I (e + 1) .idle w.cs
  | .put (.over r) => w.exh = false ∧ x e = raised r ∧ I (nextPos x e) .idle w.cs
  | .put .marker => False
  | .mark ck => w.exh = false ∧ K e ck ∧ ∃ d, I d .idle w.cs
  | .apply ck => w.exh = false ∧ K e ck ∧ ∃ d, I d .idle w.cs
  | .applying => w.exh = false ∧ I e .set w.cs
  | .leaving => False
  | .exited => False

def WorkerAt (x : Nat → Option (Py α)) (I : Nat → CMode → c.S → Prop) (K : Nat → c.C → Prop) (e : Nat) (w : WorkerState c) :
    Prop := Clean x e ∧ WorkerPos x I K e w

def WorkerPc.marking {α C : Type} : WorkerPc α C → Nat
  | .mark _ => 1
  | _ => 0

def marking : Option (WorkerState c) → Nat
  | none => 0
  | some w => w.pc.marking

/-- The counters agree (`d` is 1 while `set_state` has put its request but not counted it), the worker is in order. -/
structure ProcCommon (x : Nat → Option (Py α)) (I : Nat → CMode → c.S → Prop) (K : Nat → c.C → Prop) (d : Nat)
    (s : ProcState c) : Prop where
  req : s.reqCount + d = s.reqs.length
  set : s.setCount + d = marks s.buf + marking s.wrk + s.reqs.length
  good : ∀ r ∈ s.reqs, ∃ k, K k r
  wrk : ∀ w, s.wrk = some w → s.stop = false ∧ ∃ e, WorkerAt x I K e w
  none : s.wrk = none → s.buf = []

/-- The user who is at `n` will get the stream from there: by the last request, or by the marker due, or from what
follows the last marker in the buffer. -/
def Aim (x : Nat → Option (Py α)) (I : Nat → CMode → c.S → Prop) (K : Nat → c.C → Prop) (n : Nat) (s : ProcState c) : Prop :=
  match s.reqs.getLast?, s.wrk with
  | some r, _ => K n r
  | none, none => n = 0 ∨ s.over = true
  | none, some w =>
    match w.pc with
    | .mark ck => K n ck
    | _ => ∃ stale tail e, s.buf = stale ++ tail ∧ EndsMark stale ∧ ProcTail x K n tail e w.exh s.over ∧
        WorkerAt x I K e w

/-! #### Ranks -/

/-- What the worker can do without room in the buffer. -/
def WorkerState.stage (w : WorkerState c) (reqCount : Nat) : Nat :=
  match w.pc with
  | .top => if w.exh = true ∧ reqCount = 0 then 0 else 6
  | .take => 5
  | .work => if w.exh = true ∧ reqCount ≠ 0 then 7 else 4
  | .reading => 3
  | .got _ => 2
  | .put _ => 1
  | .mark _ => 4
  | .apply _ => 6
  | .applying => 5
  | .leaving => 0
  | .exited => 0

def ProcState.room (size : Nat) (s : ProcState c) : Nat :=
  match s.wrk with
  | none => 0
  | some w => 10 * (size - s.buf.length) + w.stage s.reqCount

/-- The entries the worker still puts before it looks at the next request. -/
def WorkerPc.coming {α C : Type} : WorkerPc α C → Nat
  | .top => 0
  | .take => 0
  | .mark _ => 2
  | .leaving => 0
  | .exited => 0
  | _ => 1

/-- A bound on the entries to be taken before the stream continues for the user. -/
def ProcState.stale (s : ProcState c) : Nat :=
  match s.reqs, s.wrk with
  | [], none => 0
  | [], some w =>
    match w.pc with
    | .mark _ => s.buf.length + 2
    | _ => staleLen s.buf
  | rs, none => 3 * rs.length
  | rs, some w => s.buf.length + w.pc.coming + 3 * rs.length

/-- A step of the worker. -/
structure WorkerKeeps (size : Nat) (x : Nat → Option (Py α)) (I : Nat → CMode → c.S → Prop) (K : Nat → c.C → Prop)
    (s t : ProcState c) : Prop where
  pc : t.pc = s.pc
  state : t.state = s.state
  over : t.over = s.over
  wrk : t.wrk ≠ none
  common : ∀ {d}, ProcCommon x I K d s → ProcCommon x I K d t
  aim : ∀ {n}, ProcCommon x I K 0 s → Aim x I K n s → Aim x I K n t
  last : ∀ {r}, ProcCommon x I K 1 s → s.reqs.getLast? = some r → t.reqs.getLast? = some r
  room : ∀ {d}, ProcCommon x I K d s → t.room size < s.room size
  stale : ProcCommon x I K 0 s → t.stale ≤ s.stale

theorem aim_nil {n : Nat} {s : ProcState c} {w : WorkerState c} (hr : s.reqs = []) (hw : s.wrk = some w)
    (hm : ∀ ck, w.pc ≠ .mark ck) :
    Aim x I K n s ↔ ∃ stale tail e, s.buf = stale ++ tail ∧ EndsMark stale ∧ ProcTail x K n tail e w.exh s.over ∧
        WorkerAt x I K e w := by
  unfold Aim
  rw [hr, hw]
  dsimp only [List.getLast?_nil]
  cases h : w.pc <;> first | exact Iff.rfl | exact absurd h (hm _)

theorem aim_mark {n : Nat} {s : ProcState c} {w : WorkerState c} {ck} (hr : s.reqs = []) (hw : s.wrk = some w)
    (hm : w.pc = .mark ck) : Aim x I K n s ↔ K n ck := by
  unfold Aim
  rw [hr, hw]
  dsimp only [List.getLast?_nil]
  rw [hm]

theorem aim_last {n : Nat} {s : ProcState c} {r} (hr : s.reqs.getLast? = some r) : Aim x I K n s ↔ K n r := by
  unfold Aim
  rw [hr]

theorem aim_congr {n : Nat} {s t : ProcState c} (h1 : t.reqs = s.reqs) (h2 : s.reqs ≠ []) (h : Aim x I K n s) :
    Aim x I K n t := by
  obtain ⟨r, hr⟩ : ∃ r, s.reqs.getLast? = some r := by
    exact ⟨_, List.getLast?_eq_some_getLast h2⟩
  rw [aim_last hr] at h
  rw [aim_last (h1 ▸ hr)]
  exact h

/-- A step that changes nothing but the worker, and no marker is due before or after. -/
theorem keeps_move {s : ProcState c} {w w' : WorkerState c} (hw : s.wrk = some w) (hm : ∀ ck, w.pc ≠ .mark ck)
    (hm' : ∀ ck, w'.pc ≠ .mark ck) (hexh : w'.exh = w.exh)
    (hat' : ∀ e, Clean x e → WorkerPos x I K e w → WorkerPos x I K e w')
    (hroom : w'.stage s.reqCount < w.stage s.reqCount)
    (hcom : s.reqCount ≠ 0 → w'.pc.coming ≤ w.pc.coming) :
    WorkerKeeps size x I K s { s with wrk := some w' } := by
  have hat : ∀ e, WorkerAt x I K e w → WorkerAt x I K e w' := fun e h => ⟨h.1, hat' e h.1 h.2⟩
  have hmk : ∀ v : WorkerState c, (∀ ck, v.pc ≠ .mark ck) → v.pc.marking = 0 := by
    intro v hv
    cases h : v.pc <;> first | rfl | exact absurd h (hv _)
  have hst : ∀ v : WorkerState c, (∀ ck, v.pc ≠ .mark ck) → ∀ buf : List (ProcEntry α c.C),
      (match v.pc with | .mark _ => buf.length + 2 | _ => staleLen buf) = staleLen buf := by
    intro v hv buf
    cases h : v.pc <;> first | rfl | exact absurd h (hv _)
  constructor
  · rfl
  · rfl
  · rfl
  · simp
  · rintro d ⟨h1, h2, h3, h4, h5⟩
    refine ⟨h1, ?_, h3, ?_, by simp⟩
    · dsimp only
      rw [h2, hw]
      simp only [marking]
      rw [hmk _ hm, hmk _ hm']
    · rintro v ⟨⟩
      obtain ⟨h6, e, h7⟩ := h4 w hw
      exact ⟨h6, e, hat e h7⟩
  · intro n h1 h2
    by_cases hr : s.reqs = []
    · rw [aim_nil hr hw hm] at h2
      refine (aim_nil (s := { s with wrk := some w' }) hr rfl hm').2 ?_
      obtain ⟨stale, tail, e, h3, h4, h5, h6⟩ := h2
      exact ⟨stale, tail, e, h3, h4, hexh ▸ h5, hat e h6⟩
    · exact aim_congr (s := s) rfl hr h2
  · intro r _ h
    exact h
  · intro d h1
    unfold ProcState.room
    rw [hw]
    dsimp only
    omega
  · intro h1
    unfold ProcState.stale
    dsimp only
    rw [hw]
    cases hr : s.reqs with
    | nil =>
      dsimp only
      rw [hst _ hm, hst _ hm']
    | cons r rs =>
      dsimp only
      have : s.reqCount ≠ 0 := by
        have := h1.req
        rw [hr] at this
        simp at this
        omega
      have := hcom this
      omega

theorem worker_topTake {s : ProcState c} {w} (hw : s.wrk = some w) (hpc : w.pc = .top) (hr : 0 < s.reqCount) :
    WorkerKeeps size x I K s { s with wrk := some { w with pc := .take } } := by
  refine keeps_move hw (by simp [hpc]) (by simp) rfl ?_ ?_ ?_
  · intro e _ h
    simp only [WorkerPos, hpc] at h ⊢
    exact h
  · simp only [WorkerState.stage, hpc]
    rw [if_neg (by omega)]
    omega
  · simp [hpc, WorkerPc.coming]

theorem worker_topWork {s : ProcState c} {w} (hw : s.wrk = some w) (hpc : w.pc = .top) (hr : s.reqCount = 0)
    (he : w.exh = false) : WorkerKeeps size x I K s { s with wrk := some { w with pc := .work } } := by
  refine keeps_move hw (by simp [hpc]) (by simp) rfl ?_ ?_ ?_
  · intro e _ h
    simp only [WorkerPos, hpc] at h ⊢
    exact h
  · simp [WorkerState.stage, hpc, he]
  · intro h
    exact absurd hr h

theorem worker_takeNone {s : ProcState c} {w} (hw : s.wrk = some w) (hpc : w.pc = .take) (hr : s.reqCount = 0) :
    WorkerKeeps size x I K s { s with wrk := some { w with pc := .work } } := by
  refine keeps_move hw (by simp [hpc]) (by simp) rfl ?_ ?_ ?_
  · intro e _ h
    simp only [WorkerPos, hpc] at h ⊢
    exact h
  · simp [WorkerState.stage, hpc, hr]
  · intro h
    exact absurd hr h

theorem worker_apply (h : Follows c x I K₀) {s : ProcState c} {w ck t} (hw : s.wrk = some w) (hpc : w.pc = .apply ck)
    (ht : c.setCall w.cs ck t) : WorkerKeeps size x I (Known x K₀) s { s with wrk := some { w with cs := t, pc := .applying } } := by
  refine keeps_move hw (by simp [hpc]) (by simp) rfl ?_ ?_ ?_
  · intro e hc he
    simp only [WorkerPos, hpc] at he ⊢
    obtain ⟨h1, h2, d, h3⟩ := he
    exact ⟨h1, h.setCall h3 h2.1 ht⟩
  · simp [WorkerState.stage, hpc]
  · simp [hpc, WorkerPc.coming]

theorem worker_applied (h : Follows c x I K₀) {s : ProcState c} {w t} (hw : s.wrk = some w) (hpc : w.pc = .applying)
    (hcm : ∃ d, ProcCommon x I (Known x K₀) d s)
    (ht : c.setRet w.cs t) : WorkerKeeps size x I (Known x K₀) s { s with wrk := some { w with cs := t, pc := .work } } := by
  have hexh : w.exh = false := by
    obtain ⟨d, hd⟩ := hcm
    obtain ⟨-, e, he⟩ := hd.wrk w hw
    simp only [WorkerAt, WorkerPos, hpc] at he
    exact he.2.1
  refine keeps_move hw (by simp [hpc]) (by simp) rfl ?_ ?_ ?_
  · intro e hc he
    simp only [WorkerPos, hpc] at he ⊢
    rw [Ready, if_neg (by simp [hexh])]
    exact h.setRet he.2 ht
  · simp [WorkerState.stage, hpc, hexh]
  · simp [hpc, WorkerPc.coming]

theorem worker_workWait {s : ProcState c} {w} (hw : s.wrk = some w) (hpc : w.pc = .work) (he : w.exh = true) :
    WorkerKeeps size x I K s { s with wrk := some { w with pc := .top } } := by
  refine keeps_move hw (by simp [hpc]) (by simp) rfl ?_ ?_ ?_
  · intro e _ h
    simp only [WorkerPos, hpc] at h ⊢
    exact h
  · by_cases hr : s.reqCount = 0 <;> simp [WorkerState.stage, hpc, he, hr]
  · simp [hpc, WorkerPc.coming]

theorem worker_call (h : Follows c x I K₀) {s : ProcState c} {w t} (hw : s.wrk = some w) (hpc : w.pc = .work)
    (hexh : w.exh = false) (ht : c.call w.cs t) :
    WorkerKeeps size x I (Known x K₀) s { s with wrk := some { w with cs := t, pc := .reading } } := by
  refine keeps_move hw (by simp [hpc]) (by simp) rfl ?_ ?_ ?_
  · intro e hc he
    simp only [WorkerPos, hpc] at he ⊢
    rw [Ready, if_neg (by simp [hexh])] at he
    exact ⟨hexh, h.call he ht⟩
  · simp [WorkerState.stage, hpc, hexh]
  · simp [hpc, WorkerPc.coming]

theorem worker_item (h : Follows c x I K₀) {s : ProcState c} {w a t} (hw : s.wrk = some w) (hpc : w.pc = .reading)
    (ht : c.ret w.cs (some (.ok a)) t) :
    WorkerKeeps size x I (Known x K₀) s { s with wrk := some { w with cs := t, pc := .got a } } := by
  refine keeps_move hw (by simp [hpc]) (by simp) rfl ?_ ?_ ?_
  · intro e hc he
    simp only [WorkerPos, hpc] at he ⊢
    obtain ⟨h4, h5⟩ := h.ret he.2 ht
    simp only [nextPos, ← h4] at h5
    exact ⟨he.1, h4.symm, h5⟩
  · simp [WorkerState.stage, hpc]
  · simp [hpc, WorkerPc.coming]

theorem worker_ended (h : Follows c x I K₀) {s : ProcState c} {w r t} (hw : s.wrk = some w) (hpc : w.pc = .reading)
    (ht : c.ret w.cs (raised r) t) :
    WorkerKeeps size x I (Known x K₀) s { s with wrk := some { w with cs := t, pc := .put (.over r) } } := by
  refine keeps_move hw (by simp [hpc]) (by simp) rfl ?_ ?_ ?_
  · intro e hc he
    simp only [WorkerPos, hpc] at he ⊢
    obtain ⟨h4, h5⟩ := h.ret he.2 ht
    exact ⟨he.1, h4.symm, h5⟩
  · simp [WorkerState.stage, hpc]
  · simp [hpc, WorkerPc.coming]

theorem worker_getState (h : Follows c x I K₀) {s : ProcState c} {w a} (hw : s.wrk = some w) (hpc : w.pc = .got a) :
    WorkerKeeps size x I (Known x K₀) s
      { s with wrk := some { w with cs := (c.get w.cs).1, pc := .put (.elem a (c.get w.cs).2) } } := by
  refine keeps_move hw (by simp [hpc]) (by simp) rfl ?_ ?_ ?_
  · intro e hc he
    simp only [WorkerPos, hpc] at he ⊢
    obtain ⟨h1, k, h2, h3⟩ := h.get he.2.2
    exact ⟨he.1, he.2.1, Lagged.known ⟨k, h2, h3⟩ hc he.2.1, h1⟩
  · simp [WorkerState.stage, hpc]
  · simp [hpc, WorkerPc.coming]

theorem worker_take (hK : K = Known x K₀) {s : ProcState c} {w n ck cks} (hw : s.wrk = some w) (hpc : w.pc = .take)
    (hn : s.reqCount = n + 1) (hr : s.reqs = ck :: cks) :
    WorkerKeeps size x I K s
      { s with reqCount := n, reqs := cks, wrk := some { w with exh := false, pc := .mark ck } } := by
  subst hK
  constructor
  · rfl
  · rfl
  · rfl
  · simp
  · rintro d ⟨h1, h2, h3, h4, h5⟩
    rw [hr] at h1 h2
    rw [hw] at h2
    simp only [marking, hpc, WorkerPc.marking, List.length_cons] at h1 h2
    refine ⟨?_, ?_, ?_, ?_, by simp⟩
    · dsimp only; omega
    · simp only [marking, WorkerPc.marking]; omega
    · intro r hr'
      exact h3 r (hr ▸ List.mem_cons_of_mem _ hr')
    · rintro v ⟨⟩
      obtain ⟨h6, e, h7⟩ := h4 w hw
      simp only [WorkerAt, WorkerPos, hpc] at h7
      obtain ⟨k, hk⟩ := h3 ck (by rw [hr]; exact List.mem_cons_self)
      exact ⟨h6, k, hk.2, rfl, hk, h7.2.idle⟩
  · intro m h1 h2
    rcases cks with _ | ⟨c2, cks⟩
    · rw [aim_last (r := ck) (by rw [hr]; rfl)] at h2
      exact (aim_mark (s := { s with reqCount := n, reqs := [], wrk := some { w with exh := false, pc := .mark ck } })
        rfl rfl rfl).2 h2
    · obtain ⟨r, hr'⟩ : ∃ r, (c2 :: cks).getLast? = some r := ⟨_, List.getLast?_eq_some_getLast (by simp)⟩
      rw [aim_last (r := r) (by rw [hr, List.getLast?_cons_cons]; exact hr')] at h2
      exact (aim_last (s := { s with reqCount := n, reqs := c2 :: cks,
                                     wrk := some { w with exh := false, pc := .mark ck } }) hr').2 h2
  · intro r h1 h2
    have := h1.req
    rw [hr] at this
    rcases cks with _ | ⟨c2, cks⟩
    · simp only [List.length_cons, List.length_nil] at this
      omega
    · rw [hr, List.getLast?_cons_cons] at h2
      exact h2
  · intro d h1
    unfold ProcState.room
    rw [hw]
    simp only [WorkerState.stage, hpc]
    omega
  · intro h1
    unfold ProcState.stale
    rw [hw, hr]
    rcases cks with _ | ⟨c2, cks⟩ <;> simp [hpc, WorkerPc.coming]
    omega

theorem worker_mark (hK : K = Known x K₀) {s : ProcState c} {w ck} (hw : s.wrk = some w) (hpc : w.pc = .mark ck) (hb : s.buf.length < size) :
    WorkerKeeps size x I K s { s with buf := s.buf ++ [.marker], wrk := some { w with pc := .apply ck } } := by
  subst hK
  constructor
  · rfl
  · rfl
  · rfl
  · simp
  · rintro d ⟨h1, h2, h3, h4, h5⟩
    rw [hw] at h2
    simp only [marking, hpc, WorkerPc.marking] at h2
    refine ⟨h1, ?_, h3, ?_, by simp⟩
    · simp only [marking, WorkerPc.marking, marks_append, marks]; omega
    · rintro v ⟨⟩
      obtain ⟨h6, e, h7⟩ := h4 w hw
      simp only [WorkerAt, WorkerPos, hpc] at h7
      exact ⟨h6, e, h7⟩
  · intro m h1 h2
    by_cases hr : s.reqs = []
    · rw [aim_mark hr hw hpc] at h2
      refine (aim_nil (s := { s with buf := s.buf ++ [.marker], wrk := some { w with pc := .apply ck } }) hr rfl
        (by simp)).2 ?_
      obtain ⟨h6, e, h7⟩ := h1.wrk w hw
      simp only [WorkerAt, WorkerPos, hpc] at h7
      refine ⟨s.buf ++ [.marker], [], m, by simp, Or.inr ⟨_, rfl⟩, ?_, h2.2, h7.2.1, h2, h7.2.2.2⟩
      unfold ProcTail
      rw [if_neg (by simp [h7.2.1])]
      exact rfl
    · exact aim_congr (s := s) rfl hr h2
  · intro r _ h
    exact h
  · intro d h1
    unfold ProcState.room
    rw [hw]
    simp only [WorkerState.stage, hpc, List.length_append, List.length_cons, List.length_nil]
    omega
  · intro h1
    unfold ProcState.stale
    rw [hw]
    dsimp only
    cases hr : s.reqs with
    | nil =>
      dsimp only
      rw [hpc]
      have := staleLen_le (s.buf ++ [ProcEntry.marker])
      simp only [List.length_append, List.length_cons, List.length_nil] at this
      dsimp only
      omega
    | cons r rs =>
      simp only [hpc, WorkerPc.coming, List.length_append, List.length_cons, List.length_nil]
      omega

theorem worker_put {s : ProcState c} {w e} (hw : s.wrk = some w) (hpc : w.pc = .put e) (hb : s.buf.length < size)
    (hcm : ∃ d, ProcCommon x I K d s) :
    WorkerKeeps size x I K s
      { s with buf := s.buf ++ [e], wrk := some { w with exh := exhAfter e w.exh, pc := .top } } := by
  have hmk : marks [e] = 0 := by
    obtain ⟨d, hd⟩ := hcm
    obtain ⟨-, k, hk⟩ := hd.wrk w hw
    cases e with
    | marker =>
      simp only [WorkerAt, WorkerPos, hpc] at hk
      exact hk.2.elim
    | elem => rfl
    | over r => rfl
  have hat : ∀ k, WorkerAt x I K k w → ∃ k', WorkerAt x I K k'
      { w with exh := exhAfter e w.exh, pc := .top } ∧
      ∀ n l o, ProcTail x K n l k w.exh o → ProcTail x K n (l ++ [e]) k' (exhAfter e w.exh) o := by
    intro k hk
    cases e with
    | marker =>
      simp only [WorkerAt, WorkerPos, hpc] at hk
      exact hk.2.elim
    | elem a ck =>
      simp only [WorkerAt, WorkerPos, hpc] at hk ⊢
      obtain ⟨hc, hk⟩ := hk
      refine ⟨k + 1, ⟨hc.succ hk.2.1, ?_⟩, ?_⟩
      · rw [Ready, if_neg (by simp [hk.1, exhAfter])]
        exact hk.2.2.2
      intro n l o hl
      unfold ProcTail at hl ⊢
      rw [if_neg (by simp [hk.1])] at hl
      rw [if_neg (by simp [hk.1, exhAfter])]
      exact hl.snoc hk.2.1 hk.2.2.1
    | over r =>
      simp only [WorkerAt, WorkerPos, hpc] at hk ⊢
      obtain ⟨hc, hk⟩ := hk
      refine ⟨k, ⟨hc, ?_⟩, ?_⟩
      · rw [Ready, if_pos (by simp [exhAfter])]
        exact ⟨⟨r, hk.2.1⟩, hk.2.2⟩
      intro n l o hl
      unfold ProcTail at hl ⊢
      rw [if_neg (by simp [hk.1])] at hl
      rw [if_pos (by simp [exhAfter])]
      exact Or.inl ⟨l, r, rfl, hl, hk.2.1⟩
  constructor
  · rfl
  · rfl
  · rfl
  · simp
  · rintro d ⟨h1, h2, h3, h4, h5⟩
    rw [hw] at h2
    simp only [marking, hpc, WorkerPc.marking] at h2
    refine ⟨h1, ?_, h3, ?_, by simp⟩
    · simp only [marking, WorkerPc.marking, marks_append, hmk]; omega
    · rintro v ⟨⟩
      obtain ⟨h6, k, h7⟩ := h4 w hw
      obtain ⟨k', h8, -⟩ := hat k h7
      exact ⟨h6, k', h8⟩
  · intro m h1 h2
    by_cases hr : s.reqs = []
    · rw [aim_nil hr hw (by simp [hpc])] at h2
      refine (aim_nil
        (s := { s with buf := s.buf ++ [e], wrk := some { w with exh := exhAfter e w.exh, pc := .top } }) hr rfl
        (by simp)).2 ?_
      obtain ⟨stale, tail, k, h3, h4, h5, h6⟩ := h2
      obtain ⟨k', h7, h8⟩ := hat k h6
      exact ⟨stale, tail ++ [e], k', by dsimp only; rw [h3, List.append_assoc], h4, h8 _ _ _ h5, h7⟩
    · exact aim_congr (s := s) rfl hr h2
  · intro r _ h
    exact h
  · intro d h1
    unfold ProcState.room
    rw [hw]
    simp only [WorkerState.stage, hpc, List.length_append, List.length_cons, List.length_nil]
    split <;> omega
  · intro h1
    unfold ProcState.stale
    rw [hw]
    dsimp only
    cases hr : s.reqs with
    | nil =>
      dsimp only
      rw [hpc, staleLen_snoc hmk]
    | cons r rs =>
      simp only [hpc, WorkerPc.coming, List.length_append, List.length_cons, List.length_nil]
      omega

end
end Raise
end Grain
