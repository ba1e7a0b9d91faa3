import Verif.Stats.Model
/-
How recorded times get into the summary, for every order in which threads run.
-/
namespace Grain

/-- `_RecordedSelfTime`, ST:828-830. -/
structure TimeRec where
  ns : Nat
  elements : Int
deriving DecidableEq

/-- The fields of `_ExecutionStats._summary` that `report` updates. -/
structure Totals where
  produced : Nat
  totalNs : Nat
  minNs : Nat
  maxNs : Nat
deriving DecidableEq

/-- ST:850-853. -/
def Totals.init : Totals := ⟨0, 0, maxsize, 0⟩

/-- The updates for one record, ST:997-1008. -/
def Totals.add (t : Totals) (r : TimeRec) : Totals :=
  { produced := t.produced + r.elements.toNat
    totalNs := t.totalNs + r.ns
    minNs := min t.minNs (r.ns / r.elements.toNat)
    maxNs := max t.maxNs (r.ns / r.elements.toNat) }

/-- Where a thread that executes `report` is: at the head of the loop, after the check of the buffer, after `pop`, after reading
the fields, or dead after an exception.  Simplification: the four fields are read together and written together. -/
inductive ReporterPc where
  | loop
  | checked
  | popped (r : TimeRec)
  | loaded (r : TimeRec) (t : Totals)
  | dead
deriving DecidableEq

/-- The state of a statistics object and of the threads that report it. -/
structure ReportState where
  buffer : List TimeRec
  totals : Totals
  pc : Nat → ReporterPc

/-- Before anything was recorded. -/
def ReportState.init : ReportState := ⟨[], .init, fun _ => .loop⟩

/-- What threads do: a worker thread appends a record (`record_self_time`, ST:950-960), or reporter `i` executes its next step. -/
inductive ReportAct where
  | record (r : TimeRec)
  | step (i : Nat)

/-- One step; `report`, ST:991-1010.  `pop` of an empty list raises `IndexError`. -/
def ReportState.step (s : ReportState) : ReportAct → ReportState
  | .record r => { s with buffer := s.buffer ++ [r] }
  | .step i =>
    match s.pc i with
    | .loop => if s.buffer = [] then s else { s with pc := Function.update s.pc i .checked }
    | .checked =>
      match s.buffer.getLast? with
      | none => { s with pc := Function.update s.pc i .dead }
      | some r => { s with buffer := s.buffer.dropLast, pc := Function.update s.pc i (.popped r) }
    | .popped r =>
      if r.elements ≤ 0 then { s with pc := Function.update s.pc i .loop }
      else { s with pc := Function.update s.pc i (.loaded r s.totals) }
    | .loaded r t => { s with totals := t.add r, pc := Function.update s.pc i .loop }
    | .dead => s

/-- Several steps. -/
def ReportState.run (s : ReportState) (acts : List ReportAct) : ReportState := acts.foldl ReportState.step s

/-! ### When the reporting thread runs -/

/-- `_REPORTING_TIMEOUT_SEC`, ST:91. -/
def reportingTimeout : Nat := 120

/-- The reporting thread: not started, running, or finished; `self._reporting_thread` is not `None` in the last two cases. -/
inductive RThread where
  | absent
  | running
  | finished
deriving DecidableEq

/-- Records in the buffer, records in the totals, `_last_update_time` (seconds) and the thread. -/
structure LoopState where
  buffer : List TimeRec
  reported : List TimeRec
  lastUpdate : Nat
  thread : RThread
deriving DecidableEq

/-- Before anything was recorded. -/
def LoopState.init : LoopState := ⟨[], [], 0, .absent⟩

/-- An output node records a time, or the reporting thread wakes up, at a time in seconds. -/
inductive LoopAct where
  | record (now : Nat) (r : TimeRec)
  | wake (now : Nat)

/-- `record_self_time` of an output node, ST:950-973, and one round of `_reporting_loop`, ST:864-872, whose `report` takes all
records (see `report_catches_up`) before `_should_report`, ST:861-862, is asked again. -/
def LoopState.step (s : LoopState) : LoopAct → LoopState
  | .record now r =>
    { s with buffer := s.buffer ++ [r], lastUpdate := now, thread := if s.thread = .absent then .running else s.thread }
  | .wake now =>
    if s.thread = .running then
      { s with buffer := [], reported := s.reported ++ s.buffer,
               thread := if now - s.lastUpdate < reportingTimeout then .running else .finished }
    else s

/-- Several steps. -/
def LoopState.run (s : LoopState) (acts : List LoopAct) : LoopState := acts.foldl LoopState.step s

/-! ### The parents of an interleave -/

/-- `_parent_stats` of `InterleaveDatasetIterator` after slot `i` has yielded an element of the iterator with statistics `o`,
T/interleave.py:110-117. -/
def useSlot (slots : List (Option α)) (i : Nat) (o : α) : List (Option α) := slots.set i (some o)

/-- `self._stats._parents` after the elements have been yielded, T/interleave.py:118-121; at the beginning the slots are empty (:87). -/
def interleaveParents (cycle : Nat) (uses : List (Nat × α)) : List α :=
  (uses.foldl (fun slots u => useSlot slots u.1 u.2) (List.replicate cycle none)).filterMap id

end Grain
