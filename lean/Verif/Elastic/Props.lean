import Verif.Elastic.History
import Verif.Interleave.Props
/-
C39: elastic shard states.
-/
namespace Grain

/-! ### C39: who gets which state -/

/-- `c` hosts save one state per dataset, `D` datasets altogether: host `i` has the datasets `i, i + c, i + 2c, …` and writes
the states of these in that order.  Whatever the order in which the files get written, after that host `j` of any other
number `c'` of hosts restores exactly the states of its own datasets `j, j + c', j + 2c', …`, in that order.  The bound `F` on
the turns of the reading loop only has to be larger than the number of its datasets. -/
theorem elastic_redistribute {σ : Type} {D c c' j F : Nat} (hc : 0 < c) (hc' : 0 < c') (state : Nat → σ) {files : List (Nat × σ)}
    (hfiles : ∀ q, q ∈ files ↔ ∃ i, i < c ∧ q ∈ shardFiles c i ((List.range (hostLen D c i)).map (fun l => state (l * c + i))))
    (hF : hostLen D c' j < F) :
    (readFiles (writeFiles (fun _ => none) files) c' F j).map orderStates =
      some ((List.range (hostLen D c' j)).map (fun l => state (l * c' + j))) := by
  have hw : writeFiles (fun _ => none) files = dirOf D state :=
    writeFiles_hosts hc (states := fun i => (List.range (hostLen D c i)).map (fun l => state (l * c + i))) (fun i _ => rfl) hfiles
  rw [hw]
  exact orderStates_readFiles hc' state hF

/-- The datasets of the hosts: each dataset is one of exactly one host, in one place. -/
theorem elastic_owner {D c : Nat} (hc : 0 < c) {d : Nat} (hd : d < D) :
    ∃ i l, i < c ∧ l < hostLen D c i ∧ d = l * c + i ∧
      ∀ i' l', i' < c → l' < hostLen D c i' → d = l' * c + i' → i' = i ∧ l' = l := by
  have hdm : d / c * c + d % c = d := by rw [Nat.mul_comm]; exact Nat.div_add_mod d c
  have hlt := Nat.mod_lt d hc
  refine ⟨d % c, d / c, hlt, (lt_hostLen hc).2 (by omega), hdm.symm, ?_⟩
  rintro i' l' hi' _ he
  constructor
  · rw [he, Nat.mul_comm, Nat.mul_add_mod, Nat.mod_eq_of_lt hi']
  · rw [he, Nat.mul_comm, Nat.mul_add_div hc, Nat.div_eq_of_lt hi', Nat.add_zero]

/-- A host has no datasets beyond the last one. -/
theorem elastic_hostLen {D c i : Nat} (hc : 0 < c) (l : Nat) : l < hostLen D c i ↔ l * c + i < D :=
  lt_hostLen hc

-- seven states, saved by 2 hosts (host 1 first) and restored by host 1 of 3
example : (readFiles (writeFiles (fun _ => none) (shardFiles 2 1 [10, 30, 50] ++ shardFiles 2 0 [0, 20, 40, 60])) 3 9 1).map orderStates =
    some [10, 40] := by
  refine (elastic_redistribute (D := 7) (c := 2) (c' := 3) (j := 1) (F := 9) (by decide) (by decide) (fun d => 10 * d) ?_ (by decide)).trans rfl
  intro q
  rw [List.mem_append]
  constructor
  · rintro (h | h)
    · exact ⟨1, by decide, h⟩
    · exact ⟨0, by decide, h⟩
  · rintro ⟨i, hi, h⟩
    obtain rfl | rfl : i = 0 ∨ i = 1 := by omega
    · exact Or.inr h
    · exact Or.inl h

/-! ### C39: what is read across resizes -/

/-- An elastic job over `D` datasets is resized again and again: in phase `ph` there are `ph.1` hosts, host `i` calls `next`
`ph.2 i` times, and each phase starts from the checkpoint of the phase before.  `ts` says which elements the hosts get, tagged with
their datasets.  Then no element is read twice and none is skipped: over all phases, each dataset is read in order from
its start, and once a call of `next` on one of its hosts returned `StopIteration`, all of it was read.

`_partial`: only if in each checkpoint that is restored, each used-up dataset of a host comes before one of the datasets the host
opens first.  `elastic_rereads_used_up` shows that this can't be dropped. -/
theorem elastic_exactly_once_partial {f : IterFam α} {D cycle : Nat} {xs : Nat → List (Py α)} (hcyc : 0 < cycle)
    (h : ∀ d, d < D → ResumesFresh (f.iter d) (xs d) true) (phases : List (Nat × (Nat → Nat)))
    (hph : ∀ ph ∈ phases, 0 < ph.1 ∧ ph.1 ≤ D)
    (hgood : ∀ before ph after, phases = before ++ ph :: after → Ev (fun F => ∀ outs dir,
      elasticHistory f D cycle F none before = some (outs, some dir) → UsedUpFirst cycle ph.1 dir)) :
    ∃ (ts : List (Nat → List (Nat × Py α))) (dir : Option (Nat → Option (ShardState f.C))) (rest : Nat → List (Py α)),
      ts.length = phases.length ∧
      Ev (fun F => elasticHistory f D cycle F none phases =
        some (List.zipWith (fun ph t => (List.range ph.1).map (fun i => asResults (ph.2 i) (t i))) phases ts, dir)) ∧
      (∀ p ∈ phases.zip ts, ∀ i, i < p.1.1 → (p.2 i).length ≤ p.1.2 i ∧ ∀ q ∈ p.2 i, q.1 < D ∧ q.1 % p.1.1 = i) ∧
      (∀ d, d < D → xs d = (List.zipWith (fun ph t => ofDataset d (phaseReads ph.1 t)) phases ts).flatten ++ rest d) ∧
      (∀ p ∈ phases.zip ts, ∀ d, d < D → (p.2 (d % p.1.1)).length < p.1.2 (d % p.1.1) → rest d = []) := by
  obtain ⟨At, Ck, hs⟩ := fam_sims h
  obtain ⟨ts, dir, rest, h0, h1, h2, h3, h4, _⟩ := history_ok hs hcyc phases none xs hph (fun _ _ => rfl) hgood
  exact ⟨ts, dir, rest, h0, h1, h2, h3, h4⟩

/-- A case in which the condition on checkpoints always holds: before the last resize, no dataset gets as many calls of `next` as
it has elements. -/
theorem elastic_exactly_once_long_partial {f : IterFam α} {D cycle : Nat} {xs : Nat → List (Py α)} (hcyc : 0 < cycle)
    (h : ∀ d, d < D → ResumesFresh (f.iter d) (xs d) true) (phases : List (Nat × (Nat → Nat)))
    (hph : ∀ ph ∈ phases, 0 < ph.1 ∧ ph.1 ≤ D)
    (hlong : ∀ d, d < D → (phases.dropLast.map (fun ph => ph.2 (d % ph.1))).sum < (xs d).length) :
    ∃ (ts : List (Nat → List (Nat × Py α))) (dir : Option (Nat → Option (ShardState f.C))) (rest : Nat → List (Py α)),
      ts.length = phases.length ∧
      Ev (fun F => elasticHistory f D cycle F none phases =
        some (List.zipWith (fun ph t => (List.range ph.1).map (fun i => asResults (ph.2 i) (t i))) phases ts, dir)) ∧
      (∀ p ∈ phases.zip ts, ∀ i, i < p.1.1 → (p.2 i).length ≤ p.1.2 i ∧ ∀ q ∈ p.2 i, q.1 < D ∧ q.1 % p.1.1 = i) ∧
      (∀ d, d < D → xs d = (List.zipWith (fun ph t => ofDataset d (phaseReads ph.1 t)) phases ts).flatten ++ rest d) ∧
      (∀ p ∈ phases.zip ts, ∀ d, d < D → (p.2 (d % p.1.1)).length < p.1.2 (d % p.1.1) → rest d = []) := by
  obtain ⟨At, Ck, hs⟩ := fam_sims h
  exact elastic_exactly_once_partial hcyc h phases hph
    (fun before ph after he => long_good hs hcyc hph hlong before.length before ph after rfl he)

/-- Two datasets, the second one short. -/
def longAndShort : Nat → List (Py Nat)
  | 0 => [.ok 1, .ok 2, .ok 3, .ok 4]
  | _ => [.ok 10]

/-- Three datasets of three elements each. -/
def threeEach (d : Nat) : List (Py Nat) := [.ok (10 * d), .ok (10 * d + 1), .ok (10 * d + 2)]

/-- One host, then three, then two. -/
def threePhases : List (Nat × (Nat → Nat)) := [(1, fun _ => 1), (3, fun _ => 1), (2, fun _ => 7)]

example : ∃ (ts : List (Nat → List (Nat × Py Nat))) (rest : Nat → List (Py Nat)), ts.length = 3 ∧
    ∀ d, d < 3 → threeEach d =
      (List.zipWith (fun ph t => ofDataset d (phaseReads ph.1 t)) threePhases ts).flatten ++ rest d := by
  obtain ⟨ts, _, rest, h0, _, _, h3, _⟩ := elastic_exactly_once_long_partial (f := listFam threeEach) (D := 3) (cycle := 2) (by decide)
    (fun d _ => (listFam_resumes threeEach d).fresh) threePhases
    (by simp [threePhases]) (fun d hd => show 2 < 3 by decide)
  exact ⟨ts, rest, h0, h3⟩

-- a checkpoint with a used-up dataset (number 0) before an unfinished one
example : UsedUpFirst 2 1 (fun d => if d < 2 then some (⟨d = 0, some 0⟩ : ShardState Nat) else none) := by
  intro e s hs hex
  dsimp only at hs
  split at hs
  · cases hs
    have : e = 0 := by simpa using hex
    subst this
    exact ⟨1, by decide, by decide, rfl, by decide⟩
  · cases hs

/-- C39 as stated does not hold.  One host reads `1, 10, 2, 3` from two datasets `[1, 2, 3, 4]` and `[10]`, so the second one is used up.
Restarted from its checkpoint, with the same single host or with another number of hosts, the job reads `10` again. -/
theorem elastic_rereads_used_up (F : Nat) :
    (elasticHistory (listFam longAndShort) 2 2 (F + 20) none [(1, fun _ => 4), (1, fun _ => 3)]).map (·.1) =
      some [[[.item 1, .item 10, .item 2, .item 3]], [[.item 4, .item 10, .stop]]] := by
  rfl

/-- The same with two hosts after the restart. -/
theorem elastic_rereads_used_up_hosts (F : Nat) :
    (elasticHistory (listFam longAndShort) 2 2 (F + 20) none [(1, fun _ => 4), (2, fun _ => 3)]).map (·.1) =
      some [[[.item 1, .item 10, .item 2, .item 3]], [[.item 4, .stop, .stop], [.item 10, .stop, .stop]]] := by
  rfl

end Grain
