import Verif.Stack.Props
import Mathlib.Tactic.IntervalCases
/-
C100: interleaves of stacks, `mp_prefetch` with several workers and `multithread_prefetch`.
-/
namespace Grain

variable {α : Type}

theorem stacked_complete {c : ConcIter α} {x : Nat → Option α} (hs : Stacked c x) {prog : List Op}
    {total : List (Option α)} (hspec : streamRun x 0 [] prog = some total) :
    (∀ s, UserRun c (userInit c prog) s →
      s.outs <+: total ∧ (s.finished → s.outs = total) ∧ (¬ s.finished → ∃ t, UserStep c s t)) ∧
    ∀ f : Nat → UserSys c, f 0 = userInit c prog → ¬ ∀ i, UserStep c (f i) (f (i + 1)) :=
  ⟨fun _ hrun => ⟨(stacked_threads_invisible hs hspec hrun).1, (stacked_threads_invisible hs hspec hrun).2,
    stacked_threads_no_deadlock hs (by simp [hspec]) hrun⟩,
   fun f h0 => stacked_threads_terminate hs (by simp [hspec]) f h0⟩

/-- C100: an interleave of any stacks.  There is one stream `y`, an interleaving of the streams of the datasets with at most
`cycle_length` of them open, such that whatever the layers of the datasets and whatever the schedule of the user and of all
their threads and processes, a user who reads, saves, goes back and restarts after crashes (restoring states into new
iterators) sees `y`; there is no deadlock and no call takes for ever. -/
theorem interleave_of_stacks_invisible {n cycle : Nat} (hn : 0 < n) (hcycle : 0 < cycle) (x : Fin n → Nat → Option α) :
    ∃ (y : Nat → Option α) (who : Nat → Fin n), Interleaves x (min cycle n) y who ∧
      ∀ {c : Fin n → ConcIter α}, (∀ i, Stacked (c i) (x i)) →
      ∀ {prog : List Op} {total : List (Option α)}, streamRun y 0 [] prog = some total →
      (∀ s, UserRun (interleaveOver n cycle c) (userInit _ prog) s →
        s.outs <+: total ∧ (s.finished → s.outs = total) ∧
        (¬ s.finished → ∃ t, UserStep (interleaveOver n cycle c) s t)) ∧
      ∀ f : Nat → UserSys (interleaveOver n cycle c), f 0 = userInit _ prog →
        ¬ ∀ i, UserStep (interleaveOver n cycle c) (f i) (f (i + 1)) := by
  have hL : min cycle n - 1 < n := by omega
  have he : min cycle n - 1 + 1 = min cycle n := by omega
  refine ⟨streamInterleave x hL, interleaveWho x hL, ?_, ?_⟩
  · have := streamInterleave_interleaves x hL
    rwa [he] at this
  · intro c h prog total hspec
    exact stacked_complete (.interleave cycle hL h) hspec

/-- C100: an interleave may stand in a tree of stacks, under any of the layers. -/
theorem interleave_stacked {n cycle : Nat} (hn : 0 < n) (hcycle : 0 < cycle) {x : Fin n → Nat → Option α}
    {c : Fin n → ConcIter α} (h : ∀ i, Stacked (c i) (x i)) :
    ∃ (y : Nat → Option α) (who : Nat → Fin n), Interleaves x (min cycle n) y who ∧ Stacked (interleaveOver n cycle c) y := by
  have hL : min cycle n - 1 < n := by omega
  have he : min cycle n - 1 + 1 = min cycle n := by omega
  refine ⟨streamInterleave x hL, interleaveWho x hL, ?_, .interleave cycle hL h⟩
  have := streamInterleave_interleaves x hL
  rwa [he] at this

/-- C100: any number of pipelines that read the slices `i, i + n, i + 2 * n, …` of one stream, interleaved with the cycle length
`n`, are that stream. -/
theorem interleave_of_slices_stacked {n : Nat} (hn : 0 < n) {z : Nat → Option α} (hz : StaysOver z) {c : Fin n → ConcIter α}
    (h : ∀ i, Stacked (c i) (fun m => z (m * n + i.val))) : Stacked (interleaveOver n n c) z := by
  have hL : min n n - 1 < n := by omega
  have := Stacked.interleave n hL h
  rwa [streamInterleave_slices hz hL (by omega)] at this

/-- C100: `mp_prefetch`.  With any positive number of workers and any buffer size, if worker `i` of `w` gives the elements
`i, i + w, i + 2 * w, …` of the dataset (C31 and C53 say when slicing does that), then whatever the schedule of the main process,
the worker processes and all their threads, a user who reads, saves, and restarts after crashes sees the elements of the
dataset in their order, as without workers; there is no deadlock and no call takes for ever. -/
theorem mp_prefetch_workers_invisible {workers size : Nat} (hw : 0 < workers) (hsize : 0 < size) {z : Nat → Option α}
    (hz : StaysOver z) {c : Fin workers → ConcIter α} (h : ∀ i, Stacked (c i) (fun m => z (m * workers + i.val)))
    {prog : List Op} {total : List (Option α)} (hspec : streamRun z 0 [] prog = some total) :
    (∀ s, UserRun (mpPrefetchOver workers size c) (userInit _ prog) s →
      s.outs <+: total ∧ (s.finished → s.outs = total) ∧
      (¬ s.finished → ∃ t, UserStep (mpPrefetchOver workers size c) s t)) ∧
    ∀ f : Nat → UserSys (mpPrefetchOver workers size c), f 0 = userInit _ prog →
      ¬ ∀ i, UserStep (mpPrefetchOver workers size c) (f i) (f (i + 1)) :=
  stacked_complete (interleave_of_slices_stacked hw hz fun i => .prefetch size (.process size false hsize (h i))) hspec

/-- C100: the same of `multithread_prefetch`. -/
theorem multithread_prefetch_invisible {threads size : Nat} (ht : 0 < threads) {z : Nat → Option α}
    (hz : StaysOver z) {c : Fin threads → ConcIter α} (h : ∀ i, Stacked (c i) (fun m => z (m * threads + i.val)))
    {prog : List Op} {total : List (Option α)} (hspec : streamRun z 0 [] prog = some total) :
    (∀ s, UserRun (multithreadPrefetchOver threads size c) (userInit _ prog) s →
      s.outs <+: total ∧ (s.finished → s.outs = total) ∧
      (¬ s.finished → ∃ t, UserStep (multithreadPrefetchOver threads size c) s t)) ∧
    ∀ f : Nat → UserSys (multithreadPrefetchOver threads size c), f 0 = userInit _ prog →
      ¬ ∀ i, UserStep (multithreadPrefetchOver threads size c) (f i) (f (i + 1)) :=
  stacked_complete (interleave_of_slices_stacked ht hz fun i => .prefetch size (h i)) hspec

/-! ### The hypotheses are met -/

/-- A source of the elements of a list. -/
theorem list_source (l : List α) : Stacked (ofIter (listIter (l.map .ok))) (fun n => l[n]?) := by
  refine .source ?_ ?_
  · have := (listIter_resumes (l.map (Except.ok : α → Py α))).stream
    have he : (fun n : Nat => l[n]?.map (Except.ok : α → Py α)) = (fun n : Nat => (l.map Except.ok)[n]?) := by
      funext n
      rw [← List.getElem?_map]
    rw [he]
    exact this
  · intro n hn
    rw [List.getElem?_eq_none_iff] at hn ⊢
    omega

/-- Two workers with the elements 1, 3, 5 and 2, 4 of 1, …, 5, the first behind a thread prefetch of its own; a user who saves,
reads to the end, and restarts. -/
example : ∃ c : Fin 2 → ConcIter Nat, (∀ i, Stacked (c i) (fun m => [1, 2, 3, 4, 5][m * 2 + i.val]?)) ∧
    Stacked (mpPrefetchOver 2 3 c) (fun n => [1, 2, 3, 4, 5][n]?) ∧
    streamRun (fun n => [1, 2, 3, 4, 5][n]?) 0 [] [.next, .next, .next, .save, .next, .next, .next, .fresh 0, .next, .next] =
      some [some 1, some 2, some 3, some 4, some 5, none, some 4, some 5] := by
  have h : ∀ i : Fin 2, Stacked (match i with
      | 0 => prefetchOver 1 (ofIter (listIter ([1, 3, 5].map .ok)))
      | 1 => ofIter (listIter ([2, 4].map .ok)) : ConcIter Nat) (fun m => [1, 2, 3, 4, 5][m * 2 + i.val]?) := by
    intro i
    match i with
    | 0 =>
      have : (fun m : Nat => [1, 2, 3, 4, 5][m * 2 + (0 : Fin 2).val]?) = fun m : Nat => [1, 3, 5][m]? := by
        funext m
        rcases m with _ | _ | _ | m <;> first | rfl | (rw [List.getElem?_eq_none, List.getElem?_eq_none] <;> simp <;> omega)
      rw [this]
      exact .prefetch 1 (list_source [1, 3, 5])
    | 1 =>
      have : (fun m : Nat => [1, 2, 3, 4, 5][m * 2 + (1 : Fin 2).val]?) = fun m : Nat => [2, 4][m]? := by
        funext m
        rcases m with _ | _ | m <;> first | rfl | (rw [List.getElem?_eq_none, List.getElem?_eq_none] <;> simp <;> omega)
      rw [this]
      exact list_source [2, 4]
  refine ⟨_, h, ?_, by decide⟩
  exact interleave_of_slices_stacked (by omega) five_source.follows.1 fun i => .prefetch 3 (.process 3 false (by omega) (h i))

/-- What `Interleaves` asks: the streams 1 2 3, 4 and 5 6, two at a time. -/
example : Interleaves (fun (i : Fin 3) m => (if i = 0 then [1, 2, 3] else if i = 1 then [4] else [5, 6])[m]?) 2
    (fun m => [1, 4, 2, 5, 3, 6][m]?) (fun m => if m = 1 then 1 else if m = 3 ∨ 5 ≤ m then 2 else 0) := by
  have hend : ∀ m, (∀ k < m, ([1, 4, 2, 5, 3, 6][k]?).isSome) → m < 7 := by
    intro m h
    by_contra hc
    have := h 6 (by omega)
    simp at this
  refine ⟨?_, ?_, ?_, ?_, ?_⟩
  · intro m a h
    have hm : m < 6 := by
      by_contra hc
      rw [List.getElem?_eq_none (by simp; omega)] at h
      cases h
    interval_cases m <;> (cases h; decide)
  · intro m hk h
    have hm := hend m hk
    interval_cases m <;> first | (cases h; done) | decide
  · intro m hk ds hd ho
    have hm := hend m hk
    by_contra hc
    have hall : ∀ d, d ∈ ds := by
      have h3 : ds.toFinset = Finset.univ := by
        apply Finset.eq_univ_of_card
        rw [List.toFinset_card_of_nodup hd]
        have := hd.length_le_card
        simp only [Fintype.card_fin] at this ⊢
        omega
      intro d
      rw [← List.mem_toFinset, h3]
      exact Finset.mem_univ d
    have h0 := ho 0 (hall 0)
    have h1 := ho 1 (hall 1)
    have h2 := ho 2 (hall 2)
    interval_cases m <;> revert h0 h1 h2 <;> decide
  · intro m hk
    have hm := hend m hk
    interval_cases m <;> decide
  · intro m hk hx
    have hm := hend m (fun k h => hk k (by omega))
    interval_cases m
    · exact ⟨2, by decide⟩
    · exact absurd hx (by decide)
    · exact ⟨2, by decide⟩
    · exact ⟨2, by decide⟩
    · exact absurd hx (by decide)
    · exact absurd hx (by decide)
    · exact absurd hx (by decide)

end Grain
