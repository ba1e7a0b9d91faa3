import Verif.Multiprocess.LemmasSlice
/-
C31 and C68 for whole pipelines: what `mp_prefetch` and `multithread_prefetch` yield with any number of workers.  The
specification (what a pipeline yields without workers, in terms of lists) is in Verif/Multiprocess/SpecSlice.lean.
-/
namespace Grain

/-! ### C31 -/

/-- C31 for pipelines of `map`, `random_map` and `zip` over any number of random access datasets, each object used once in the
pipeline: whatever the number of workers (0: no workers), the elements `ys` come out in the same order, also when the iterator is
restarted from checkpoints any number of times.
Missing: pipelines for which this is false: with objects used twice (`parallel_shared_zip_loses`), `filter`
(`mp_sparse_order_depends_on_workers`), `batch` (`parallel_batch_depends_on_workers`), `limit` (`parallel_limit_multiplies`). -/
theorem parallel_pipeline_order_partial {heap : Nat → WorkObj V} {d : WorkDs V} {ys : List (Option V)} (h : Yields heap d ys)
    (hnd : d.objects.Nodup) (n : Nat) :
    ResumesExactlyWhen (fun _ => false) (parallelIter n heap d) (ys.map Except.ok) true := by
  unfold parallelIter
  by_cases hn : n = 0
  · rw [if_pos hn]
    have := worker_yields h (n := 1) (w := 0) (by omega) (by omega) heap (by
      intro id _ size threads allow ds hobj
      rw [hobj]
      simp [WorkObj.iter, workerDs])
    rw [everyNth_one] at this
    exact this.fresh.exactly
  · rw [if_neg hn]
    refine interleave_everyNth false (by omega) ys ?_
    intro w hw
    apply ofIters_fresh
    apply Resumes.fresh
    unfold workerIter
    by_cases hn1 : n = 1
    · rw [if_pos hn1]
      refine worker_yields h (by omega) hw heap ?_
      intro id _ size threads allow ds hobj
      rw [hobj]
      simp [WorkObj.iter, workerDs, hn1]
    · rw [if_neg hn1]
      obtain ⟨h', he⟩ := yields_sliceable h n w heap
      rw [he]
      refine worker_yields h (by omega) hw h' ?_
      intro id hid size threads allow ds hobj
      rw [(setSlice_objects n w d heap h' he).2 hnd id hid, hobj]
      rfl

/-- The objects of the examples: two lists and three interleaved lists. -/
def interleavedLists : List (Iter (Option Nat)) :=
  [prefetchIter 0 0 false none (tableDs [some 20, some 21]), prefetchIter 0 0 false none (tableDs [some 30]),
    prefetchIter 0 0 false none (tableDs [some 40, some 41, some 42])]
def workHeap : Nat → WorkObj Nat
  | 0 => .mapDs 2 1 false (tableDs [some 0, some 1, some 2, some 3])
  | 1 => .mapDs 0 0 false (tableDs [some 10, some 11, some 12, some 13, some 14])
  | _ => .interleave 2 interleavedLists

/-- The sum of the two components of a tuple, as an element. -/
def sumTuple (vs : List (Option Nat)) : Option Nat := some ((vs.map (fun v => v.getD 0)).sum)

/-- A zip of a mapped and a randomly mapped dataset. -/
def zipPipeline : WorkDs Nat := .zip false sumTuple (.map (fun a => .ok (some (100 * a))) (.object 0)) (.randomMap (fun a j => .ok (some (a + j))) (.object 1))

example (n : Nat) : ResumesExactlyWhen (fun _ => false) (parallelIter n workHeap zipPipeline)
    [.ok (some 10), .ok (some 112), .ok (some 214), .ok (some 316)] true := by
  refine parallel_pipeline_order_partial (heap := workHeap) (d := zipPipeline) (ys := [some 10, some 112, some 214, some 316]) ?_ (by decide) n
  exact Yields.zip (xs := [some 0, some 100, some 200, some 300]) (ys := [some 10, some 12, some 14, some 16, some 18]) false sumTuple (by decide)
    (Yields.map (xs := [some 0, some 1, some 2, some 3]) _ (fun x => x.map (100 * ·)) (by decide) (Yields.object rfl ⟨rfl, by decide⟩ (Or.inr (by decide))))
    (Yields.randomMap (xs := [some 10, some 11, some 12, some 13, some 14]) _ rfl (by decide) (Yields.object rfl ⟨rfl, by decide⟩ (Or.inr (by decide))))

/-- C31 fails when an object is used twice: `zip([ds.map(f), ds.map(g)])` over one `ds`.  Each worker slices `ds` twice, so with two
workers half of the elements are missing. -/
theorem parallel_shared_zip_loses :
    let d : WorkDs Nat := .zip false sumTuple (.map (fun a => .ok (some (100 * a))) (.object 0)) (.object 0)
    Ev (fun F => implRun (parallelIter 0 workHeap d) F (parallelIter 0 workHeap d).init [] [.next, .next, .next, .next, .next] =
      some [.item (some 0), .item (some 101), .item (some 202), .item (some 303), .stop]) ∧
    Ev (fun F => implRun (parallelIter 2 workHeap d) F (parallelIter 2 workHeap d).init [] [.next, .next, .next] =
      some [.item (some 0), .item (some 303), .stop]) := by
  refine ⟨⟨9, fun F hF => ?_⟩, ⟨9, fun F hF => ?_⟩⟩ <;> obtain ⟨k, rfl⟩ : ∃ k, F = k + 9 := ⟨F - 9, by omega⟩ <;> rfl

/-- C31 fails for `limit` before the workers: each worker has its own limit.  `limit(2)` yields two elements without workers and
four with two. -/
theorem parallel_limit_multiplies :
    Ev (fun F => implRun (parallelIter 0 workHeap (.limit 2 (.object 0))) F (parallelIter 0 workHeap (.limit 2 (.object 0))).init []
      [.next, .next, .next] = some [.item (some 0), .item (some 1), .stop]) ∧
    Ev (fun F => implRun (parallelIter 2 workHeap (.limit 2 (.object 0))) F (parallelIter 2 workHeap (.limit 2 (.object 0))).init []
      [.next, .next, .next, .next, .next] = some [.item (some 0), .item (some 1), .item (some 2), .item (some 3), .stop]) := by
  refine ⟨⟨9, fun F hF => ?_⟩, ⟨9, fun F hF => ?_⟩⟩ <;> obtain ⟨k, rfl⟩ : ∃ k, F = k + 9 := ⟨F - 9, by omega⟩ <;> rfl

/-- C31 fails for `batch` before the workers: each worker makes its own batches.  Batches of two of 0, 1, 2, 3 (with sums as
elements) are 1 and 5 without workers, 2 and 4 with two; and with three workers and `drop_remainder` only one batch is left. -/
theorem parallel_batch_depends_on_workers :
    let d : WorkDs Nat := .batch 2 true (fun vs => .ok (sumTuple vs)) (.object 0)
    Ev (fun F => implRun (parallelIter 0 workHeap d) F (parallelIter 0 workHeap d).init [] [.next, .next, .next] =
      some [.item (some 1), .item (some 5), .stop]) ∧
    Ev (fun F => implRun (parallelIter 2 workHeap d) F (parallelIter 2 workHeap d).init [] [.next, .next, .next] =
      some [.item (some 2), .item (some 4), .stop]) ∧
    Ev (fun F => implRun (parallelIter 3 workHeap d) F (parallelIter 3 workHeap d).init [] [.next, .next] =
      some [.item (some 3), .stop]) := by
  refine ⟨⟨9, fun F hF => ?_⟩, ⟨9, fun F hF => ?_⟩, ⟨9, fun F hF => ?_⟩⟩ <;>
    obtain ⟨k, rfl⟩ : ∃ k, F = k + 9 := ⟨F - 9, by omega⟩ <;> rfl

/-- One worker, for any pipeline whatever: the stream is that of the pipeline itself. -/
theorem parallel_one_worker {heap : Nat → WorkObj V} {d : WorkDs V} {xs : List (Py (Option V))}
    (h : ResumesFresh (parallelIter 0 heap d) xs true) :
    ResumesExactlyWhen (fun _ => false) (parallelIter 1 heap d) xs true := by
  have h0 : parallelIter 0 heap d = workerIter 1 0 heap d := by simp [parallelIter, workerIter]
  rw [h0] at h
  have h1 : parallelIter 1 heap d = interleaveIter (IterFam.ofIters (fun w => workerIter 1 w heap d)) 1 1 false := by simp [parallelIter]
  rw [h1]
  have := interleave_cycle_one (f := IterFam.ofIters (fun w => workerIter 1 w heap d)) (n := 1) (xs := fun _ => xs) false (by omega) (by
    intro w hw
    have : w = 0 := by omega
    subst this
    exact ofIters_fresh h)
  simpa using this

example : ResumesExactlyWhen (fun _ => false) (parallelIter 1 workHeap (.object 0)) [.ok (some 0), .ok (some 1), .ok (some 2), .ok (some 3)] true := by
  apply parallel_one_worker
  have := reads_resumes (ds := tableDs [some 0, some 1, some 2, some 3]) (vs := [some 0, some 1, some 2, some 3]) ⟨rfl, by decide⟩ 2 1 false
  exact this.fresh

/-! ### C68 -/

theorem elements_fewer {n m : Nat} {heap : Nat → WorkObj V} {d : WorkDs V} {ys : List (Option V)} {into : RestoreInto}
    (h : Elements n heap d ys into) (hm : m ≤ max n 1) : Elements m heap d ys into := by
  induction h with
  | object hobj hr => exact .object hobj hr
  | interleave hobj hc hn hpos hits => exact .interleave hobj hc (by omega) hpos hits
  | interleaveAsked hobj hc hn hpos hits => exact .interleaveAsked hobj hc (by omega) hpos hits
  | map f g hf _ ih => exact .map f g hf ih
  | filter f g hf _ ih => exact .filter f g hf ih
  | «repeat» k hk _ ih => exact .repeat k hk ih
  | flatMap f g hf hi _ ih => exact .flatMap f g hf hi ih

/-- C68, for pipelines of `map`, `filter`, `flat_map` and `repeat` over a random access dataset or interleaved datasets, not less of
them than workers: with any number of workers (0: no workers) the same elements come out, each the same number of times, in an order
that is fixed and kept by checkpoints.
Missing: more workers than interleaved datasets (`parallel_more_workers_than_datasets`); `repeat` over interleaved datasets, whose
checkpoints are wrong in another way (`repeat_interleave_loses_data`, C27), and over `flat_map`. -/
theorem parallel_same_elements_partial {n : Nat} {heap : Nat → WorkObj V} {d : WorkDs V} {ys : List (Option V)} {into : RestoreInto}
    (h : Elements n heap d ys into) :
    ∃ zs : List (Option V), zs.Perm ys ∧
      ResumesExactlyWhen (fun _ => false) (parallelIter n heap d) (zs.map Except.ok) true := by
  unfold parallelIter
  by_cases hn : n = 0
  · rw [if_pos hn]
    obtain ⟨zs, h1, h2⟩ := worker_elements (n := 1) (by omega) (elements_fewer h (by omega))
    refine ⟨zs 0, by simpa using h2, ?_⟩
    have := (h1 0 (by omega)).1.exactly
    simpa [workerIter] using this
  · rw [if_neg hn]
    obtain ⟨zs, h1, h2⟩ := worker_elements (by omega) h
    obtain ⟨us, g1, g2⟩ := interleave_bag (f := IterFam.ofIters (fun w => workerIter n w heap d)) (n := n) (cycle := n) false (xs := zs)
      (by omega) (by omega) (fun w hw => ofIters_fresh (h1 w hw).1)
    exact ⟨us, g1.trans h2, g2.exactly⟩

/-- The even elements of three interleaved lists, doubled; one, two or three workers. -/
example (n : Nat) (hn : n ≤ 3) : ∃ zs : List (Option Nat), zs.Perm [some 40, some 60, some 80, some 84] ∧
    ResumesExactlyWhen (fun _ => false)
      (parallelIter n workHeap (.map (fun a => .ok (some (2 * a))) (.filter (fun v => .ok (v.getD 1 % 2 = 0)) (.object 2))))
      (zs.map Except.ok) true := by
  have h : Elements n workHeap (.object 2) [some 20, some 21, some 30, some 40, some 41, some 42] .asked :=
    Elements.interleaveAsked (cycle := 2) (its := interleavedLists) (xs := fun i => match i with | 0 => [some 20, some 21] | 1 => [some 30] | _ => [some 40, some 41, some 42])
      rfl (by decide) hn (Nat.succ_pos 2) (by
        intro i hi
        match i, hi with
        | 0, _ => exact (reads_resumes (vs := [some 20, some 21]) (ds := tableDs [some 20, some 21]) ⟨rfl, by decide⟩ 0 0 false).asked
        | 1, _ => exact (reads_resumes (vs := [some 30]) (ds := tableDs [some 30]) ⟨rfl, by decide⟩ 0 0 false).asked
        | 2, _ => exact (reads_resumes (vs := [some 40, some 41, some 42]) (ds := tableDs [some 40, some 41, some 42]) ⟨rfl, by decide⟩ 0 0 false).asked)
  exact parallel_same_elements_partial (Elements.map _ (fun x => x.map (2 * ·)) (by decide)
    (Elements.filter _ (fun v => decide (v.getD 1 % 2 = 0)) (by decide) h))

/-- The same lists with each element `x` replaced by `x` and `x + 100` if it is even and dropped if it is odd. -/
example (n : Nat) (hn : n ≤ 3) : ∃ zs : List (Option Nat), zs.Perm [some 20, some 120, some 30, some 130, some 40, some 140, some 42, some 142] ∧
    ResumesExactlyWhen (fun _ => false)
      (parallelIter n workHeap (.flatMap (fun v => .ok (if v.getD 1 % 2 = 0 then [v, v.map (· + 100)] else [])) (.object 2)))
      (zs.map Except.ok) true := by
  have h : Elements n workHeap (.object 2) [some 20, some 21, some 30, some 40, some 41, some 42] .asked :=
    Elements.interleaveAsked (cycle := 2) (its := interleavedLists) (xs := fun i => match i with | 0 => [some 20, some 21] | 1 => [some 30] | _ => [some 40, some 41, some 42])
      rfl (by decide) hn (Nat.succ_pos 2) (by
        intro i hi
        match i, hi with
        | 0, _ => exact (reads_resumes (vs := [some 20, some 21]) (ds := tableDs [some 20, some 21]) ⟨rfl, by decide⟩ 0 0 false).asked
        | 1, _ => exact (reads_resumes (vs := [some 30]) (ds := tableDs [some 30]) ⟨rfl, by decide⟩ 0 0 false).asked
        | 2, _ => exact (reads_resumes (vs := [some 40, some 41, some 42]) (ds := tableDs [some 40, some 41, some 42]) ⟨rfl, by decide⟩ 0 0 false).asked)
  exact parallel_same_elements_partial (Elements.flatMap _ (fun v => if v.getD 1 % 2 = 0 then [v, v.map (· + 100)] else []) (fun _ _ => rfl) (by decide) h)

/-- C68 fails with more workers than interleaved datasets (or Parquet files): a worker without datasets raises `IndexError`.  Here
four workers read three datasets: after one element of each the error comes.  (What happens after an error is not modelled here.) -/
theorem parallel_more_workers_than_datasets :
    Ev (fun F => implRun (parallelIter 4 workHeap (.object 2)) F (parallelIter 4 workHeap (.object 2)).init []
      [.next, .next, .next, .next] = some [.item (some 20), .item (some 30), .item (some 40), .fail .indexError]) := by
  refine ⟨9, fun F hF => ?_⟩
  obtain ⟨k, rfl⟩ : ∃ k, F = k + 9 := ⟨F - 9, by omega⟩
  rfl

/-- A user's stream dataset without parents cannot be sliced: with several workers the first read raises `ValueError`, with one or
none it is read as usual. -/
theorem parallel_user_source_rejected (it : Iter (Option V)) (heap : Nat → WorkObj V) :
    (∀ n w, n ≠ 1 → workerIter n w heap (.user it) = failIter .valueError) ∧ workerIter 1 0 heap (.user it) = it ∧
    parallelIter 0 heap (.user it) = it := by
  refine ⟨fun n w hn => ?_, by simp [workerIter, WorkDs.iter], by simp [parallelIter, WorkDs.iter]⟩
  unfold workerIter
  rw [if_neg hn]
  rfl

end Grain
