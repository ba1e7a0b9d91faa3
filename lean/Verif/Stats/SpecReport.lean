import Verif.Stats.ModelReport
/-
What has been recorded.
-/
namespace Grain

/-- The records with elements. -/
def counted (rs : List TimeRec) : List TimeRec := rs.filter (fun r => decide (0 < r.elements))

/-- The totals are those of the records: sums, and the shortest and longest time of an element. -/
def Totals.Of (t : Totals) (rs : List TimeRec) : Prop :=
  t.produced = ((counted rs).map (fun r => r.elements.toNat)).sum ∧
  t.totalNs = ((counted rs).map (fun r => r.ns)).sum ∧
  (∀ r ∈ counted rs, t.minNs ≤ r.ns / r.elements.toNat ∧ r.ns / r.elements.toNat ≤ t.maxNs) ∧
  (t.minNs = maxsize ∨ ∃ r ∈ counted rs, t.minNs = r.ns / r.elements.toNat) ∧
  (t.maxNs = 0 ∨ ∃ r ∈ counted rs, t.maxNs = r.ns / r.elements.toNat)

/-- The records of a schedule. -/
def recordsOf (acts : List ReportAct) : List TimeRec :=
  acts.filterMap (fun a => match a with
    | .record r => some r
    | .step _ => none)

/-- Only this reporter runs. -/
def OnlyReporter (i : Nat) (acts : List ReportAct) : Prop := ∀ j, ReportAct.step j ∈ acts → j = i

/-- The records of a schedule with times. -/
def loopRecords (acts : List LoopAct) : List TimeRec :=
  acts.filterMap (fun a => match a with
    | .record _ r => some r
    | .wake _ => none)

/-- Each time the reporting thread wakes up, the last record is younger than two minutes. -/
def NoPause (acts : List LoopAct) : Prop :=
  ∀ a now b, acts = a ++ .wake now :: b → ∃ a₁ t r a₂, a = a₁ ++ .record t r :: a₂ ∧ (∀ t' r', LoopAct.record t' r' ∉ a₂) ∧ now < t + 120

/-- The last iterator used in a slot, if any. -/
def lastUse (uses : List (Nat × α)) (i : Nat) : Option α := ((uses.filter (fun u => u.1 = i)).map (·.2)).getLast?

end Grain
