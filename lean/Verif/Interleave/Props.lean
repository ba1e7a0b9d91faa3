import Verif.Interleave.Order
import Verif.Iter.Example
/-
Properties C26 (what interleave yields) and C27 (its checkpoints).

`interleaveIter f n cycle keep` interleaves `n` datasets, `f.iter d` being the iterator of dataset `d`.  The hypothesis on
the datasets is that each of them yields its stream `xs d` and can be restored into new objects (`ResumesFresh`) or into
any object (`Resumes`).
-/
namespace Grain

/-- "Correctly checkpointing", states being restored into new objects only. -/
def ResumesFresh (it : Iter α) (xs : List (Py α)) (ended : Bool) : Prop :=
  ∃ (At : it.S → Nat → Prop) (Ck : it.C → Nat → Prop), SimWhen (fun _ => false) it xs ended At Ck

theorem Resumes.fresh {it : Iter α} {xs : List (Py α)} {ended : Bool} (h : Resumes it xs ended) : ResumesFresh it xs ended := by
  obtain ⟨At, Ck, h⟩ := h
  exact ⟨At, Ck, h.when _⟩

theorem ResumesFresh.exactly {it : Iter α} {xs : List (Py α)} {ended : Bool} (h : ResumesFresh it xs ended) :
    ResumesExactlyWhen (fun _ => false) it xs ended := by
  obtain ⟨At, Ck, h⟩ := h
  exact h.exactly

theorem fam_sims {f : IterFam α} {n : Nat} {xs : Nat → List (Py α)} {ended : Bool} {used : Nat → Bool}
    (h : ∀ d, d < n → ∃ (At : f.S → Nat → Prop) (Ck : f.C → Nat → Prop), SimWhen used (f.iter d) (xs d) ended At Ck) :
    ∃ (At : Nat → f.S → Nat → Prop) (Ck : Nat → f.C → Nat → Prop),
      ∀ d, d < n → SimWhen used (f.iter d) (xs d) ended (At d) (Ck d) := by
  have h' : ∀ d, ∃ p : (f.S → Nat → Prop) × (f.C → Nat → Prop), d < n → SimWhen used (f.iter d) (xs d) ended p.1 p.2 := by
    intro d
    by_cases hd : d < n
    · obtain ⟨A, C, hs⟩ := h d hd
      exact ⟨(A, C), fun _ => hs⟩
    · exact ⟨(fun _ _ => False, fun _ _ => False), fun hd' => absurd hd' hd⟩
  exact ⟨fun d => (h' d).choose.1, fun d => (h' d).choose.2, fun d hd => (h' d).choose_spec hd⟩

/-! ### C26 -/

/-- C26.  For any datasets and any positive cycle length the iterator yields an interleaving of the streams: tagging each
outcome with the dataset it comes from, the outcomes of each dataset are all there, once and in order; and at every point
at most `cycle` datasets have been started and not finished.  (With crashes: a state restored into a new iterator
continues the same sequence.) -/
theorem interleave_elements {f : IterFam α} {n cycle : Nat} (keep : Bool) {xs : Nat → List (Py α)}
    (hn : 0 < n) (hcyc : 0 < cycle) (h : ∀ d, d < n → ResumesFresh (f.iter d) (xs d) true) :
    ∃ tagged : List (Nat × Py α),
      ResumesFresh (interleaveIter f n cycle keep) (tagged.map (·.2)) true ∧
      ResumesExactlyWhen (fun _ => false) (interleaveIter f n cycle keep) (tagged.map (·.2)) true ∧
      (∀ d r, (d, r) ∈ tagged → d < n) ∧
      (∀ d, d < n → (tagged.filter (fun q => q.1 = d)).map (·.2) = xs d) ∧
      (∀ before after, tagged = before ++ after →
        ((List.range n).filter (fun d => before.any (fun q => q.1 = d) && after.any (fun q => q.1 = d))).length ≤ cycle) := by
  obtain ⟨At, Ck, hs⟩ := fam_sims h
  have hL : 0 < min cycle n := by omega
  obtain ⟨t, ht⟩ := aTrace_exists (xs := xs) (ended := true) (n := n) hL _ (aStart (min cycle n)) (aStart_wf hL) (Or.inl rfl) (Nat.le_refl _)
  have hsim := (interleave_sim (keep := keep) hs hL ht).when
  obtain ⟨c1, c2, _⟩ := ht.contents hL (aStart_wf hL) (Nat.min_le_right _ _)
  refine ⟨t, ⟨_, _, hsim⟩, hsim.exactly, c1, ?_, ?_⟩
  · intro d hd
    simpa using c2 d _ hd (aStart_left xs)
  · intro before after heq
    rw [heq] at ht
    exact Nat.le_trans (ht.open_le hL (aStart_wf hL) (Nat.min_le_right _ _)) (Nat.min_le_left _ _)

/-- The same for datasets of which only a prefix of the stream is known (e.g. endless ones): prefixes come out, and the
known part of at least one dataset completely. -/
theorem interleave_elements_prefix {f : IterFam α} {n cycle : Nat} (keep : Bool) {xs : Nat → List (Py α)}
    (hn : 0 < n) (hcyc : 0 < cycle) (h : ∀ d, d < n → ResumesFresh (f.iter d) (xs d) false) :
    ∃ tagged : List (Nat × Py α),
      ResumesExactlyWhen (fun _ => false) (interleaveIter f n cycle keep) (tagged.map (·.2)) false ∧
      (∀ d r, (d, r) ∈ tagged → d < n) ∧
      (∀ d, d < n → (tagged.filter (fun q => q.1 = d)).map (·.2) <+: xs d) ∧
      (∃ d, d < n ∧ (tagged.filter (fun q => q.1 = d)).map (·.2) = xs d) := by
  obtain ⟨At, Ck, hs⟩ := fam_sims h
  have hL : 0 < min cycle n := by omega
  obtain ⟨t, ht⟩ := aTrace_exists (xs := xs) (ended := false) (n := n) hL _ (aStart (min cycle n)) (aStart_wf hL)
    (Or.inr (by intro i hi; simp [aStart]; omega)) (Nat.le_refl _)
  have hsim := (interleave_sim (keep := keep) hs hL ht).when
  obtain ⟨c1, c2, c3⟩ := ht.contents hL (aStart_wf hL) (Nat.min_le_right _ _)
  refine ⟨t, hsim.exactly, c1, ?_, ?_⟩
  · intro d hd
    simpa using c2 d _ hd (aStart_left xs)
  · obtain ⟨d, hd, hl⟩ := c3 rfl
    exact ⟨d, hd, hl _ (aStart_left xs)⟩

/-- With cycle length 1 the datasets are chained. -/
theorem interleave_cycle_one {f : IterFam α} {n : Nat} (keep : Bool) {xs : Nat → List (Py α)} (hn : 0 < n)
    (h : ∀ d, d < n → ResumesFresh (f.iter d) (xs d) true) :
    ResumesExactlyWhen (fun _ => false) (interleaveIter f n 1 keep) ((List.range n).flatMap xs) true := by
  obtain ⟨At, Ck, hs⟩ := fam_sims h
  have hL : min 1 n = 1 := by omega
  have ht := trace_concat (xs := xs) hn
  have hsim := (interleave_sim (cycle := 1) (keep := keep) hs (by omega) (by rw [hL]; exact ht)).when
  have he : ((List.range n).flatMap (fun e => (xs e).map (fun r => (e, r)))).map (·.2) = (List.range n).flatMap xs := by
    rw [List.map_flatMap]
    congr 1
    funext e
    simp
  rw [he] at hsim
  exact hsim.exactly

/-- With a cycle length of at least the number of datasets (and no read errors) the elements come row by row: visit number
`q` reads element `q / n` of dataset `q % n`, and datasets that are over are skipped.  `K` is any bound on the lengths. -/
theorem interleave_cycle_all {f : IterFam α} {n cycle K : Nat} (keep : Bool) {vs : Nat → List α} (hn : 0 < n)
    (hc : n ≤ cycle) (hK : ∀ d, d < n → (vs d).length ≤ K)
    (h : ∀ d, d < n → ResumesFresh (f.iter d) ((vs d).map Except.ok) true) :
    ResumesExactlyWhen (fun _ => false) (interleaveIter f n cycle keep)
      (((List.range (K * n)).filterMap (fun q => (vs (q % n))[q / n]?)).map Except.ok) true := by
  obtain ⟨At, Ck, hs⟩ := fam_sims (xs := fun d => (vs d).map Except.ok) h
  have hL : min cycle n = n := by omega
  have ht := trace_rows (vs := vs) hn hK
  have hsim := (interleave_sim (cycle := cycle) (keep := keep) hs (by omega) (by rw [hL]; exact ht)).when
  have he : ((List.range (K * n)).filterMap (fun q => (vs (q % n))[q / n]?.map (fun a => (q % n, (Except.ok a : Py α))))).map (·.2) =
      ((List.range (K * n)).filterMap (fun q => (vs (q % n))[q / n]?)).map Except.ok := by
    rw [List.map_filterMap, List.map_filterMap]
    congr 1
    funext q
    cases (vs (q % n))[q / n]? <;> rfl
  rw [he] at hsim
  exact hsim.exactly

/-- With no datasets iteration does not end with `StopIteration` but raises `IndexError`. -/
theorem interleave_no_datasets (f : IterFam α) (cycle : Nat) (keep : Bool) (F : Nat) :
    implRun (interleaveIter f 0 cycle keep) F (interleaveIter f 0 cycle keep).init [] [.next] = some [.fail .indexError] := by
  simp [implRun, interleaveIter]

/-- A family of list iterators for the examples and witnesses. -/
def listFam (xs : Nat → List (Py α)) : IterFam α where
  S := Nat
  C := Nat
  init _ := 0
  next d := (listIter (xs d)).next
  get d := (listIter (xs d)).get
  set d := (listIter (xs d)).set

theorem listFam_resumes (xs : Nat → List (Py α)) (d : Nat) : Resumes ((listFam xs).iter d) (xs d) true :=
  listIter_resumes (xs d)

/-- Three datasets, two at a time. -/
def threeLists : Nat → List (Py Nat)
  | 0 => [.ok 1, .ok 2]
  | 1 => [.ok 10, .error .keyError, .ok 11]
  | _ => [.ok 100]

example : ∃ tagged : List (Nat × Py Nat),
    ResumesExactlyWhen (fun _ => false) (interleaveIter (listFam threeLists) 3 2 false) (tagged.map (·.2)) true ∧
    ∀ d, d < 3 → (tagged.filter (fun q => q.1 = d)).map (·.2) = threeLists d := by
  obtain ⟨t, _, h, _, h', _⟩ := interleave_elements (cycle := 2) false (by decide : 0 < 3) (by decide)
    (fun d _ => (listFam_resumes threeLists d).fresh)
  exact ⟨t, h, h'⟩

example : ResumesExactlyWhen (fun _ => false) (interleaveIter (listFam threeLists) 3 1 true)
    [.ok 1, .ok 2, .ok 10, .error .keyError, .ok 11, .ok 100] true :=
  interleave_cycle_one true (by decide : 0 < 3) (fun d _ => (listFam_resumes threeLists d).fresh)

example : ResumesExactlyWhen (fun _ => false) (interleaveIter (listFam (fun d => [[1, 2, 3], [], [4, 5]][d]!.map Except.ok)) 3 7 false)
    [.ok 1, .ok 4, .ok 2, .ok 5, .ok 3] true :=
  interleave_cycle_all (K := 3) (vs := fun d => [[1, 2, 3], [], [4, 5]][d]!) false (by decide : 0 < 3) (by decide) (by decide)
    (fun d _ => (listFam_resumes _ d).fresh)

/-! ### C27 -/

/-- C27, for states that are restored into new iterators (also when the interleaved datasets support only that); what the
sequence is: C26. -/
theorem interleave_resumes_exactly_fresh {f : IterFam α} {n cycle : Nat} (keep : Bool) {xs : Nat → List (Py α)} (hn : 0 < n)
    (hcyc : 0 < cycle) (h : ∀ d, d < n → ResumesFresh (f.iter d) (xs d) true) :
    ∃ tagged : List (Nat × Py α),
      (∀ d, d < n → (tagged.filter (fun q => q.1 = d)).map (·.2) = xs d) ∧
      ResumesExactlyWhen (fun _ => false) (interleaveIter f n cycle keep) (tagged.map (·.2)) true := by
  obtain ⟨t, _, h1, _, h3, _⟩ := interleave_elements (cycle := cycle) keep hn hcyc h
  exact ⟨t, h3, h1⟩

/-- C27, any history in which states are also restored into the used iterator, as long as no new state is taken between
such a restore and the next restart (`cleanSaves`).  States are copies (e.g. written to a checkpoint).  The full statement
would drop `hclean`; it is false: `interleave_save_after_restore_loses_data`. -/
theorem interleave_resumes_exactly_partial {f : IterFam α} {n cycle : Nat} (keep : Bool) {xs : Nat → List (Py α)} (hn : 0 < n)
    (hcyc : 0 < cycle) (h : ∀ d, d < n → Resumes (f.iter d) (xs d) true) :
    ∃ tagged : List (Nat × Py α),
      (∀ d, d < n → (tagged.filter (fun q => q.1 = d)).map (·.2) = xs d) ∧
      ∀ ops outs, cleanSaves false ops = true → specRun (tagged.map (·.2)) true (fun _ => true) 0 [] ops = some outs →
        Ev (fun F => implRun (interleaveIter f n cycle keep) F (interleaveIter f n cycle keep).init [] ops = some outs) := by
  obtain ⟨At, Ck, hs⟩ := fam_sims (used := fun _ => true) (fun d hd => by
    obtain ⟨A, C, hs⟩ := h d hd
    exact ⟨A, C, hs.when _⟩)
  have hL : 0 < min cycle n := by omega
  obtain ⟨t, ht⟩ := aTrace_exists (xs := xs) (ended := true) (n := n) hL _ (aStart (min cycle n)) (aStart_wf hL) (Or.inl rfl) (Nat.le_refl _)
  have hsim := interleave_sim (keep := keep) hs hL ht
  obtain ⟨_, c2, _⟩ := ht.contents hL (aStart_wf hL) (Nat.min_le_right _ _)
  refine ⟨t, ?_, ?_⟩
  · intro d hd
    simpa using c2 d _ hd (aStart_left xs)
  · intro ops outs hcl hrun
    exact simTaint_run hsim ops false _ 0 [] [] outs hsim.init rfl (by intro i c p hc; simp at hc) hcl hrun

/-- A history covered by it: rewind the used iterator after the end, read on, crash, go on from the first state. -/
example : cleanSaves false [.next, .save, .next, .next, .next, .restore 0, .next, .fresh 0, .next, .save, .next] = true := by decide

/-- The excluded case.  After a restore into the used iterator the mark "exhausted" of the first pass stays, so a state
taken later says that a dataset being read is exhausted; a new iterator restored from it drops the rest of the dataset.
Here: one dataset [1, 2]; save at the start, read to the end, rewind, read 1, save, crash, restore: 2 is lost. -/
theorem interleave_save_after_restore_loses_data :
    ¬ ResumesExactly (interleaveIter (listFam (fun _ => [.ok 1, .ok 2])) 1 1 false) [.ok 1, .ok 2] true := by
  intro h
  obtain ⟨k, hk⟩ := h [.save, .next, .next, .next, .restore 0, .next, .save, .fresh 1, .next]
    [.item 1, .item 2, .stop, .item 1, .item 2] (by decide)
  have h1 := hk (k + 9) (by omega)
  have h2 : implRun (interleaveIter (listFam (fun _ => [.ok 1, .ok 2])) 1 1 false) (k + 9)
      (interleaveIter (listFam (fun _ => [.ok 1, .ok 2])) 1 1 false).init []
      [.save, .next, .next, .next, .restore 0, .next, .save, .fresh 1, .next] =
      some [.item 1, .item 2, .stop, .item 1, .stop] := rfl
  cases h2.symm.trans h1

/-- The same without any explicit restore into a used iterator: `repeat(2)` over an interleave restarts it that way.  Save in
the second epoch, crash and restore: the element 2 of the second epoch is lost. -/
theorem repeat_interleave_loses_data :
    ¬ ResumesExactlyWhen (fun _ => false) (repeatIter (some 2) (interleaveIter (listFam (fun _ => [.ok 1, .ok 2])) 1 1 true))
      [.ok 1, .ok 2, .ok 1, .ok 2] true := by
  intro h
  obtain ⟨k, hk⟩ := h [.next, .next, .next, .save, .fresh 0, .next] [.item 1, .item 2, .item 1, .item 2] (by decide)
  have h1 := hk (k + 9) (by omega)
  have h2 : implRun (repeatIter (some 2) (interleaveIter (listFam (fun _ => [.ok 1, .ok 2])) 1 1 true)) (k + 9)
      (repeatIter (some 2) (interleaveIter (listFam (fun _ => [.ok 1, .ok 2])) 1 1 true)).init []
      [.next, .next, .next, .save, .fresh 0, .next] = some [.item 1, .item 2, .item 1, .stop] := rfl
  cases h2.symm.trans h1

/-- Even without checkpoints: `set_state` keeps the list of the state object it was given and `__next__` writes into it, so
the starting state that `repeat` keeps is changed during the second epoch.  With three datasets [0], [1], [2], cycle length
1 and `repeat(3)` the third epoch is 2, 1, 2 instead of 0, 1, 2. -/
theorem repeat_interleave_wrong_elements :
    Ev (fun F => implRun (repeatIter (some 3) (interleaveAliasIter (listFam (fun d => [.ok d])) 3 1 true)) F
      (repeatIter (some 3) (interleaveAliasIter (listFam (fun d => [.ok d])) 3 1 true)).init []
      (List.replicate 10 .next) =
      some [.item 0, .item 1, .item 2, .item 0, .item 1, .item 2, .item 2, .item 1, .item 2, .stop]) := by
  refine ⟨12, fun F hF => ?_⟩
  obtain ⟨k, rfl⟩ : ∃ k, F = k + 12 := ⟨F - 12, by omega⟩
  rfl

end Grain
