import Verif.Stack.CloseProps
import Verif.Iter.PropsCheckpoint
import Verif.Packing.Props
/-
C103: window shuffle, packing and flat_map anywhere in a tree of layers.
C104: repeat and rebatch anywhere in a tree of layers.
-/
namespace Grain

variable {α β τ μ : Type}

/-- C103: a window shuffle of any tree of layers.  Whatever the schedule of the user and of all the threads and processes below,
a user who reads, saves, goes back and restarts after crashes sees the windows of the stream, each in the order that its number
and its elements give it; there is no deadlock and no call takes for ever. -/
theorem window_shuffle_of_stack_invisible {c : ConcIter α} {x : Nat → Option α} (h : Stacked c x) {w : Nat} (hw : 0 < w)
    {shuffle : Nat → List α → List α} (hs : ∀ i l, (shuffle i l).length = l.length) {prog : List Op} {total : List (Option α)}
    (hspec : streamRun (streamWindows shuffle w x) 0 [] prog = some total) :
    (∀ s, UserRun (anchorOver (winAnchor shuffle w) c) (userInit _ prog) s →
      s.outs <+: total ∧ (s.finished → s.outs = total) ∧
      (¬ s.finished → ∃ t, UserStep (anchorOver (winAnchor shuffle w) c) s t)) ∧
    ∀ f : Nat → UserSys (anchorOver (winAnchor shuffle w) c), f 0 = userInit _ prog →
      ¬ ∀ i, UserStep (anchorOver (winAnchor shuffle w) c) (f i) (f (i + 1)) :=
  stacked_complete (.windowShuffle shuffle w hw hs h) hspec

/-- C103: the shuffle of `_reshuffle_window` is such a shuffle: for all windows whose number plus the seed is below `2^32`
(C23 says what happens beyond) it is what `_reshuffle_window` returns, of the same length, and a permutation except for the
lengths excluded in C02. -/
theorem reshuffle_window_stacked (keysOf : Nat → List (BitVec 32)) (seed w : Nat) (hw : 0 < w) (h64 : w ≤ 2 ^ 64) :
    ∃ shuffle : Nat → List α → List α,
      (∀ i l, seed + i < 2 ^ 32 → l.length ≤ w → reshuffleWindow keysOf l (seed + i) = .ok (shuffle i l) ∧
        (¬ BadLength l.length → (shuffle i l).Perm l)) ∧
      ∀ {c : ConcIter α} {x : Nat → Option α}, Stacked c x →
        Stacked (anchorOver (winAnchor shuffle w) c) (streamWindows shuffle w x) := by
  let t : Nat → List α → List α := fun i l => if seed + i < 2 ^ 32 ∧ l.length ≤ w then
      (match reshuffleWindow keysOf l (seed + i) with
        | .ok l' => l'
        | .error _ => l)
    else l
  have ht : ∀ i l, seed + i < 2 ^ 32 → l.length ≤ w → reshuffleWindow keysOf l (seed + i) = .ok (t i l) ∧
      (t i l).length = l.length ∧ (¬ BadLength l.length → (t i l).Perm l) := by
    intro i l hi hl
    obtain ⟨l', h1, h2, h3⟩ := reshuffleWindow_spec keysOf (seed + i) hi l (by omega)
    have : t i l = l' := by
      simp only [t]
      rw [if_pos ⟨hi, hl⟩, h1]
    rw [this]
    exact ⟨h1, h2, h3⟩
  refine ⟨t, fun i l hi hl => ⟨(ht i l hi hl).1, (ht i l hi hl).2.2⟩, fun h => .windowShuffle t w hw ?_ h⟩
  intro i l
  by_cases hc : seed + i < 2 ^ 32 ∧ l.length ≤ w
  · exact (ht i l hc.1 hc.2).2.1
  · simp only [t]
    rw [if_neg hc]

/-- C103: first-fit packing of any tree of layers whose stream is a list of examples that fit into a row.  There are batches and
rows as C32 describes them such that whatever the layers and the schedule, a user who reads, saves, goes back and restarts sees
these rows; there is no deadlock and no call takes for ever. -/
theorem first_fit_of_stack_invisible {cfg : PkCfg τ} (hne : cfg.feats ≠ []) (ha : ∀ fc ∈ cfg.feats, 0 < fc.align) (hbins : 0 < cfg.bins)
    (hm : cfg.maxSeq ≠ some 0) (mode : ShuffleBins (OutRow τ μ)) {perm : Nat → Nat → List Nat} (hperm : ∀ s n, (perm s n).Perm (List.range n))
    (seed : Nat) {es : List (Ex τ μ)} (hes : ∀ e ∈ es, FitsEmpty cfg.feats e) :
    ∃ (gs : List (List (Ex τ μ))) (outs : List (List (OutRow τ μ))),
      es = gs.flatten ∧ GreedyCut (IsFirstFit (RowFits cfg.feats cfg.maxSeq)) cfg.bins true gs [] ∧ outs.length = gs.length ∧
      (∀ (i : Nat) g out, gs[i]? = some g → outs[i]? = some out →
        ∃ a rows, Assigned (IsFirstFit (RowFits cfg.feats cfg.maxSeq)) cfg.bins g a ∧ BatchHolds cfg.feats rows a ∧
          out.Perm rows ∧ (mode = .off → out = rows)) ∧
      ∀ {c : ConcIter (Ex τ μ)}, Stacked c (fun n => es[n]?) →
        Stacked (anchorOver (packAnchor (firstFit cfg) (rowOrder mode perm seed)) c) (fun n => outs.flatten[n]?) ∧
        ∀ {prog : List Op} {total : List (Option (OutRow τ μ))}, streamRun (fun n => outs.flatten[n]?) 0 [] prog = some total →
          (∀ s, UserRun (anchorOver (packAnchor (firstFit cfg) (rowOrder mode perm seed)) c) (userInit _ prog) s →
            s.outs <+: total ∧ (s.finished → s.outs = total) ∧
            (¬ s.finished → ∃ t, UserStep (anchorOver (packAnchor (firstFit cfg) (rowOrder mode perm seed)) c) s t)) ∧
          ∀ f : Nat → UserSys (anchorOver (packAnchor (firstFit cfg) (rowOrder mode perm seed)) c), f 0 = userInit _ prog →
            ¬ ∀ i, UserStep (anchorOver (packAnchor (firstFit cfg) (rowOrder mode perm seed)) c) (f i) (f (i + 1)) := by
  have hord := rowOrder_isOrder mode perm seed hperm
  obtain ⟨gs, rest, h1, h2, h3, h4, h5⟩ := packing_batches (firstFit_chooses (μ := μ) hne) ha hbins hm hord true
    (fun e he => ⟨hes e he, hes e he⟩)
  have hr := h2 rfl
  subst hr
  rw [List.append_nil] at h1
  refine ⟨gs, batchOuts (firstFit cfg) (rowOrder mode perm seed) 0 gs, h1, h3, batchOuts_length _ _ _ _, ?_, ?_⟩
  · intro i g out hg ho
    obtain ⟨a, rows, a1, a2, a3, a4⟩ := h5 i g out hg ho
    exact ⟨a, rows, a1, a2, a3, fun hoff => a4 (fun c rows => by rw [hoff]; rfl)⟩
  · intro c hc
    rw [batchOuts_flatten]
    rw [h1] at hc
    have hs := Stacked.pack (firstFit cfg) (rowOrder mode perm seed) hord (packs_of_groups hord h4) hc
    exact ⟨hs, fun hspec => stacked_complete hs hspec⟩

/-- C103: the same of best-fit packing, with the rows of C33. -/
theorem best_fit_of_stack_invisible {cfg : PkCfg τ} (ha : ∀ fc ∈ cfg.feats, 0 < fc.align) (hbins : 0 < cfg.bins)
    (hm : cfg.maxSeq ≠ some 0) (mode : ShuffleBins (OutRow τ μ)) {perm : Nat → Nat → List Nat} (hperm : ∀ s n, (perm s n).Perm (List.range n))
    (seed : Nat) {es : List (Ex τ μ)} (hes : ∀ e ∈ es, FitsEmpty cfg.feats e) :
    ∃ (gs : List (List (Ex τ μ))) (outs : List (List (OutRow τ μ))),
      es = gs.flatten ∧ GreedyCut (IsBestFit (usedCells cfg.feats) (RowFitsLoose cfg.feats cfg.maxSeq)) cfg.bins true gs [] ∧
      outs.length = gs.length ∧
      (∀ (i : Nat) g out, gs[i]? = some g → outs[i]? = some out →
        ∃ a rows, Assigned (IsBestFit (usedCells cfg.feats) (RowFitsLoose cfg.feats cfg.maxSeq)) cfg.bins g a ∧ BatchHolds cfg.feats rows a ∧
          out.Perm rows ∧ (mode = .off → out = rows)) ∧
      ∀ {c : ConcIter (Ex τ μ)}, Stacked c (fun n => es[n]?) →
        Stacked (anchorOver (packAnchor (bestFit cfg) (rowOrder mode perm seed)) c) (fun n => outs.flatten[n]?) ∧
        ∀ {prog : List Op} {total : List (Option (OutRow τ μ))}, streamRun (fun n => outs.flatten[n]?) 0 [] prog = some total →
          (∀ s, UserRun (anchorOver (packAnchor (bestFit cfg) (rowOrder mode perm seed)) c) (userInit _ prog) s →
            s.outs <+: total ∧ (s.finished → s.outs = total) ∧
            (¬ s.finished → ∃ t, UserStep (anchorOver (packAnchor (bestFit cfg) (rowOrder mode perm seed)) c) s t)) ∧
          ∀ f : Nat → UserSys (anchorOver (packAnchor (bestFit cfg) (rowOrder mode perm seed)) c), f 0 = userInit _ prog →
            ¬ ∀ i, UserStep (anchorOver (packAnchor (bestFit cfg) (rowOrder mode perm seed)) c) (f i) (f (i + 1)) := by
  have hord := rowOrder_isOrder mode perm seed hperm
  obtain ⟨gs, rest, h1, h2, h3, h4, h5⟩ := packing_batches
    (bestFit_chooses (μ := μ) ha (Good := FitsEmpty cfg.feats) (fits := RowFitsLoose cfg.feats cfg.maxSeq) (fun _ h => h)
      (fun _ _ _ => Iff.rfl) (fun _ _ h => h.2) (fun _ _ h => ⟨fun m hm => Or.inl (h.1 m hm), h.2⟩))
    ha hbins hm hord true (fun e he => ⟨hes e he, hes e he⟩)
  have hr := h2 rfl
  subst hr
  rw [List.append_nil] at h1
  refine ⟨gs, batchOuts (bestFit cfg) (rowOrder mode perm seed) 0 gs, h1, h3, batchOuts_length _ _ _ _, ?_, ?_⟩
  · intro i g out hg ho
    obtain ⟨a, rows, a1, a2, a3, a4⟩ := h5 i g out hg ho
    exact ⟨a, rows, a1, a2, a3, fun hoff => a4 (fun c rows => by rw [hoff]; rfl)⟩
  · intro c hc
    rw [batchOuts_flatten]
    rw [h1] at hc
    have hs := Stacked.pack (bestFit cfg) (rowOrder mode perm seed) hord (packs_of_groups hord h4) hc
    exact ⟨hs, fun hspec => stacked_complete hs hspec⟩

/-- C103, partial: a flat_map of any tree of layers whose stream does not end (a repeated dataset, say).  Whatever the schedule,
a user who reads, saves, goes back and restarts sees the lists of the elements one after the other; there is no deadlock and no
call takes for ever.  (Missing: streams that end, where the state of the end restored into an iterator that has read brings old
elements back, F4.) -/
theorem flat_map_of_stack_invisible_partial {c : ConcIter α} {x : Nat → Option α} (h : Stacked c x) {f : α → List β}
    {y : Nat → Option β} {first : Nat → Nat} (hf : Flattens f x y first) {prog : List Op} {total : List (Option β)}
    (hspec : streamRun y 0 [] prog = some total) :
    (∀ s, UserRun (anchorOver (flatMapAnchor f) c) (userInit _ prog) s →
      s.outs <+: total ∧ (s.finished → s.outs = total) ∧
      (¬ s.finished → ∃ t, UserStep (anchorOver (flatMapAnchor f) c) s t)) ∧
    ∀ g : Nat → UserSys (anchorOver (flatMapAnchor f) c), g 0 = userInit _ prog →
      ¬ ∀ i, UserStep (anchorOver (flatMapAnchor f) c) (g i) (g (i + 1)) :=
  stacked_complete (.flatMap f hf h) hspec

/-- C104: a repeat of any tree of layers without interleaves whose stream has `len` elements.  Whatever the schedule of the user
and of all the threads and processes below, a user who reads, saves, goes back and restarts after crashes sees the stream
`epochs` times over; there is no deadlock and no call takes for ever. -/
theorem repeat_of_stack_invisible {c : ConcIter α} {x : Nat → Option α} (h : Stacked c x) (hc : NoInterleave c) {len : Nat}
    (hx : ∀ n, (x n).isSome ↔ n < len) {epochs : Option Nat} (h0 : len = 0 → epochs ≠ none) (h1 : epochs ≠ some 0) {prog : List Op}
    {total : List (Option α)} (hspec : streamRun (streamRepeat epochs len x) 0 [] prog = some total) :
    (∀ s, UserRun (anchorOver (repeatAnchor epochs) c) (userInit _ prog) s →
      s.outs <+: total ∧ (s.finished → s.outs = total) ∧
      (¬ s.finished → ∃ t, UserStep (anchorOver (repeatAnchor epochs) c) s t)) ∧
    ∀ g : Nat → UserSys (anchorOver (repeatAnchor epochs) c), g 0 = userInit _ prog →
      ¬ ∀ i, UserStep (anchorOver (repeatAnchor epochs) c) (g i) (g (i + 1)) :=
  stacked_complete (.repeated epochs len hx h0 h1 hc h) hspec

/-- C104, partial: a rebatch of any tree of layers.  Whatever the schedule, a user who reads, saves, goes back and restarts sees
the rows of the stream in batches of `b`; there is no deadlock and no call takes for ever.  (Missing: streams whose rows fill
the last batch, without `drop_remainder`, where a state of the end brings one more, empty, batch: `rebatch_end_spurious_batch`.) -/
theorem rebatch_of_stack_invisible_partial {c : ConcIter (List α)} {x : Nat → Option (List α)} (h : Stacked c x)
    {r : Nat → Option α} {first : Nat → Nat} (hr : Concats x r first) {b : Nat} (hb : 0 < b) {drop : Bool}
    (hend : drop = true ∨ ∀ k, x k = none → k = 0 ∨ first k % b ≠ 0) {prog : List Op} {total : List (Option (List α))}
    (hspec : streamRun (streamBatch b drop r) 0 [] prog = some total) :
    (∀ s, UserRun (anchorOver (rebatchAnchor b drop) c) (userInit _ prog) s →
      s.outs <+: total ∧ (s.finished → s.outs = total) ∧
      (¬ s.finished → ∃ t, UserStep (anchorOver (rebatchAnchor b drop) c) s t)) ∧
    ∀ g : Nat → UserSys (anchorOver (rebatchAnchor b drop) c), g 0 = userInit _ prog →
      ¬ ∀ i, UserStep (anchorOver (rebatchAnchor b drop) c) (g i) (g (i + 1)) :=
  stacked_complete (.rebatch b drop hb hr hend h) hspec

/-- The rows of a list of batches. -/
theorem concats_of_list {bs : List (List α)} (h : ∀ a ∈ bs, a ≠ []) :
    Concats (fun n => bs[n]?) (fun n => bs.flatten[n]?) (fun k => (bs.take k).flatten.length) := by
  refine ⟨rfl, ?_, ?_⟩
  · intro k a ha
    have hk := (List.getElem?_eq_some_iff.1 ha).1
    refine ⟨h a (List.mem_of_getElem? ha), ?_, ?_⟩
    · show ((bs.take (k + 1)).flatten).length = _
      rw [List.take_add_one, ha]
      simp
    · intro p hp
      have hsplit : bs = bs.take k ++ a :: bs.drop (k + 1) := by
        conv_lhs => rw [← List.take_append_drop k bs, List.drop_eq_getElem_cons hk]
        rw [(List.getElem?_eq_some_iff.1 ha).2]
      show bs.flatten[(bs.take k).flatten.length + p]? = a[p]?
      have hfl : bs.flatten = (bs.take k).flatten ++ (a ++ (bs.drop (k + 1)).flatten) := by
        rw [← List.flatten_cons, ← List.flatten_append, ← hsplit]
      rw [hfl, List.getElem?_append_right (by omega), Nat.add_sub_cancel_left, List.getElem?_append_left hp]
  · intro k hk m hm
    have hk : bs.length ≤ k := List.getElem?_eq_none_iff.1 hk
    rw [List.take_of_length_le hk] at hm
    exact List.getElem?_eq_none_iff.2 hm

/-! ### The hypotheses are met -/

/-- Two epochs of five elements read through a process and a thread prefetch; a user who saves at the end of the first epoch,
reads to the end, and restarts. -/
example : Stacked (prefetchOver 1 (anchorOver (repeatAnchor (some 2)) (processOver 2 true (prefetchOver 3 fiveSource))))
      (streamRepeat (some 2) 5 (fun n => [1, 2, 3, 4, 5][n]?)) ∧
    streamRun (streamRepeat (some 2) 5 (fun n => [1, 2, 3, 4, 5][n]?)) 0 []
        [.next, .next, .next, .next, .next, .save, .next, .next, .next, .next, .next, .next, .fresh 0, .next] =
      some [some 1, some 2, some 3, some 4, some 5, some 1, some 2, some 3, some 4, some 5, none, some 1] :=
  ⟨.prefetch 1 (.repeated (some 2) 5 (fun n => by simp) (by decide) (by decide) (.process 2 true (.prefetch 3 (.source _)))
    (.process 2 true (by decide) (.prefetch 3 five_source))), by decide⟩

/-- Five rows in batches of 1, 3 and 1, read through a thread prefetch, in batches of 2. -/
example : Stacked (anchorOver (rebatchAnchor 2 false) (prefetchOver 3 (ofIter (listIter ([[1], [2, 3, 4], [5]].map .ok)))))
      (streamBatch 2 false (fun n => [1, 2, 3, 4, 5][n]?)) ∧
    streamRun (streamBatch 2 false (fun n => [1, 2, 3, 4, 5][n]?)) 0 [] [.next, .save, .next, .next, .next, .fresh 0, .next] =
      some [some [1, 2], some [3, 4], some [5], none, some [3, 4]] := by
  refine ⟨.rebatch 2 false (by decide) (concats_of_list (bs := [[1], [2, 3, 4], [5]]) (by decide)) (Or.inr ?_)
    (.prefetch 3 (list_source [[1], [2, 3, 4], [5]])), by decide⟩
  intro k hk
  have : 3 ≤ k := List.getElem?_eq_none_iff.1 hk
  right
  rw [List.take_of_length_le this]
  decide

/-- A window shuffle (each window backwards) between two thread prefetches; a user who saves in the middle of a window, reads to
the end, and restarts. -/
example : Stacked (prefetchOver 2 (anchorOver (winAnchor (fun _ l => l) 2) (prefetchOver 3 fiveSource)))
      (streamWindows (fun _ l => l) 2 (fun n => [1, 2, 3, 4, 5][n]?)) ∧
    streamRun (streamWindows (fun _ l => l) 2 (fun n => [1, 2, 3, 4, 5][n]?)) 0 []
        [.next, .next, .next, .save, .next, .next, .next, .fresh 0, .next, .next] =
      some [some 2, some 1, some 4, some 3, some 5, none, some 3, some 5] :=
  ⟨.prefetch 2 (.windowShuffle _ 2 (by decide) (fun _ _ => rfl) (.prefetch 3 five_source)), by decide⟩

/-- Packing of four examples read through a worker process. -/
example : (∀ e ∈ packExData, FitsEmpty packExCfg.feats e) ∧
    Stacked (processOver 2 false (ofIter (listIter (packExData.map .ok)))) (fun n => packExData[n]?) ∧ packExData.length = 4 := by
  refine ⟨?_, .process 2 false (by decide) (list_source packExData), rfl⟩
  intro e he
  simp only [packExData, List.mem_cons, List.not_mem_nil, or_false] at he
  rcases he with rfl | rfl | rfl | rfl <;> refine ⟨rfl, ?_⟩ <;> intro i v fc h1 h2 <;>
    (rcases i with _ | _ | i <;> simp [packExCfg] at h1 h2 <;> subst_vars <;> decide)

/-- A source that counts. -/
def tickIter : Iter Nat where
  S := Nat
  C := Nat
  init := 0
  next _ s := some (s + 1, .item s)
  get s := (s, s)
  set _ _ c := some (c, none)

theorem tick_source : Stacked (ofIter tickIter) (fun n => some n) := by
  refine .source ⟨fun s n => s = n, fun c n => c = n, ?_⟩ (fun n h => by cases h)
  constructor
  · rfl
  · rintro s n rfl
    exact ⟨_, Ev.of_forall (fun _ => rfl), rfl⟩
  · rintro s n rfl
    exact ⟨rfl, rfl⟩
  · rintro s n c m rfl rfl
    exact ⟨_, Ev.of_forall (fun _ => rfl), rfl⟩

/-- The flat_map of the numbers read through a thread prefetch by a function that drops the odd ones and doubles the even ones;
a user who saves in the middle of a list. -/
example : ∃ (y : Nat → Option Nat) (first : Nat → Nat), Flattens (fun a => if a % 2 = 0 then [a, a] else []) (fun n => some n) y first ∧
    Stacked (anchorOver (flatMapAnchor fun a => if a % 2 = 0 then [a, a] else []) (prefetchOver 3 (ofIter tickIter))) y ∧
    streamRun y 0 [] [.next, .next, .next, .save, .next, .next, .fresh 0, .next, .next] =
      some [some 0, some 0, some 2, some 2, some 4, some 2, some 4] := by
  have hf : Flattens (fun a => if a % 2 = 0 then [a, a] else []) (fun n => some n) (fun m => some (2 * (m / 2))) (fun k => 2 * ((k + 1) / 2)) := by
    refine { zero := rfl, block := ?_, more := ?_ }
    · intro k
      refine ⟨k, rfl, ?_, ?_⟩
      · show 2 * ((k + 1 + 1) / 2) = 2 * ((k + 1) / 2) + (if k % 2 = 0 then [k, k] else []).length
        split
        · show _ = _ + 2
          omega
        · show _ = _ + 0
          omega
      · intro p hp
        show some (2 * ((2 * ((k + 1) / 2) + p) / 2)) = (if k % 2 = 0 then [k, k] else [])[p]?
        have hp : p < (if k % 2 = 0 then [k, k] else []).length := hp
        by_cases hk : k % 2 = 0
        · rw [if_pos hk] at hp ⊢
          have : p < 2 := hp
          rcases p with _ | _ | p
          · exact congrArg some (by omega)
          · exact congrArg some (by omega)
          · omega
        · rw [if_neg hk] at hp
          exact absurd hp (by simp)
    · intro k
      refine ⟨2 * k, 2 * k, by omega, rfl, ?_⟩
      show (if 2 * k % 2 = 0 then [2 * k, 2 * k] else []) ≠ []
      rw [if_pos (by omega)]
      simp
  exact ⟨_, _, hf, .flatMap _ hf (.prefetch 3 tick_source), by decide⟩

end Grain
