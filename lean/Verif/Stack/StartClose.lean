import Verif.Stack.CloseProps
import Verif.Stack.StartLemmas
/-
C102 and C106 together: `close` of a tree of layers whose user has called `start_prefetch()`.
-/
namespace Grain

/-- A tree of layers (as in `Stacked`), its stream, its `close` (as in `Shut`) and its `start_prefetch` (as in `Kicked`). -/
inductive KickShut : {β : Type} → (c : ConcIter β) → (Nat → Option β) → Closer c → (c.S → c.S) → Prop
  | source {α : Type} {p : Iter α} {x : Nat → Option α} : ResumesStream p (fun n => (x n).map .ok) → StaysOver x →
      KickShut (ofIter p) x (sourceCloser p) id
  | prefetch {α : Type} {c : ConcIter α} {x : Nat → Option α} {k : Closer c} (size : Nat) : 0 < size → Shut c x k →
      KickShut (prefetchOver size c) x (prefetchCloser size k) prefetchKick
  | map {α β : Type} {c : ConcIter α} {x : Nat → Option α} {k : Closer c} {kick : c.S → c.S} (f : α → β) : KickShut c x k kick →
      KickShut (transOver (mapTrans f) c) (fun n => (x n).map f) (transCloser _ k) (transKick _ kick)
  | mapWithIndex {α β : Type} {c : ConcIter α} {x : Nat → Option α} {k : Closer c} {kick : c.S → c.S} (f : Nat → α → β) : KickShut c x k kick →
      KickShut (transOver (mapIndexTrans f) c) (fun n => (x n).map (f n)) (transCloser _ k) (transKick _ kick)
  | limit {α : Type} {c : ConcIter α} {x : Nat → Option α} {k : Closer c} {kick : c.S → c.S} (count : Nat) : KickShut c x k kick →
      KickShut (transOver (limitTrans count) c) (streamTake count x) (transCloser _ k) (transKick _ kick)
  | batch {α : Type} {c : ConcIter α} {x : Nat → Option α} {k : Closer c} {kick : c.S → c.S} (b : Nat) (drop : Bool) : 0 < b → KickShut c x k kick →
      KickShut (transOver (batchTrans b drop) c) (streamBatch b drop x) (transCloser _ k) (transKick _ kick)
  | process {α : Type} {c : ConcIter α} {x : Nat → Option α} (size : Nat) (keep kill : Bool) : 0 < size → Stacked c x →
      KickShut (processOver size keep c) x (processCloser size keep kill c) processKick
  | filter {α : Type} {c : ConcIter α} {x y : Nat → Option α} {pos : Nat → Nat} {k : Closer c} {kick : c.S → c.S} (f : α → Bool) :
      Filtered f x y pos → KickShut c x k kick → KickShut (transOver (filterTrans f) c) y (transCloser _ k) (transKick _ kick)
  | zip {α : Type} {n : Nat} {c : Fin (n + 1) → ConcIter α} {x : Fin (n + 1) → Nat → Option α} {k : (i : Fin (n + 1)) → Closer (c i)} {kick : (i : Fin (n + 1)) → (c i).S → (c i).S}
      (strict : Bool) : (strict = true → EqualLengths x) → (∀ i, KickShut (c i) (x i) (k i) (kick i)) →
      KickShut (multiOver (zipTrans n strict) c) (streamZip x) (multiCloser _ k) (multiKick _ kick)
  | mix {α : Type} {n : Nat} {c : Fin n → ConcIter α} {x : Fin n → Nat → Option α} {k : (i : Fin n) → Closer (c i)} {kick : (i : Fin n) → (c i).S → (c i).S}
      (sel : Nat → Fin n) : (∀ i, KickShut (c i) (x i) (k i) (kick i)) →
      KickShut (multiOver (mixTrans n sel) c) (streamMix sel x) (multiCloser _ k) (multiKick _ kick)
  | interleave {α : Type} {n : Nat} {c : Fin n → ConcIter α} {x : Fin n → Nat → Option α} {k : (i : Fin n) → Closer (c i)} {kick : (i : Fin n) → (c i).S → (c i).S}
      (cycle : Nat) (hL : min cycle n - 1 < n) : (∀ i, KickShut (c i) (x i) (k i) (kick i)) →
      KickShut (interleaveOver n cycle c) (streamInterleave x hL) (renewedCloser (multiCloser _ k))
        (interleaveKick n (min cycle n - 1) kick)
  | windowShuffle {α : Type} {c : ConcIter α} {x : Nat → Option α} {k : Closer c} {kick : c.S → c.S} (shuffle : Nat → List α → List α) (w : Nat) :
      0 < w → (∀ i l, (shuffle i l).length = l.length) → KickShut c x k kick →
      KickShut (anchorOver (winAnchor shuffle w) c) (streamWindows shuffle w x) (anchorCloser _ k) (anchorKick _ kick)
  | pack {E R : Type} {c : ConcIter E} {x : Nat → Option E} {y : Nat → Option R} {cut first : Nat → Nat} {k : Closer c} {kick : c.S → c.S}
      (pk : Packer E R) (order : Nat → List R → List Nat) : IsOrder order → Packs pk order x y cut first → KickShut c x k kick →
      KickShut (anchorOver (packAnchor pk order) c) y (anchorCloser _ k) (anchorKick _ kick)
  | flatMap {α β : Type} {c : ConcIter α} {x : Nat → Option α} {y : Nat → Option β} {first : Nat → Nat} {k : Closer c} {kick : c.S → c.S}
      (f : α → List β) : Flattens f x y first → KickShut c x k kick → KickShut (anchorOver (flatMapAnchor f) c) y (anchorCloser _ k) (anchorKick _ kick)
  | repeated {α : Type} {c : ConcIter α} {x : Nat → Option α} {k : Closer c} {kick : c.S → c.S} (epochs : Option Nat) (len : Nat) :
      (∀ n, (x n).isSome ↔ n < len) → (len = 0 → epochs ≠ none) → epochs ≠ some 0 → NoInterleave c → KickShut c x k kick →
      KickShut (anchorOver (repeatAnchor epochs) c) (streamRepeat epochs len x) (anchorCloser _ k) (anchorKick _ kick)
  | repeatedEndless {α : Type} {c : ConcIter α} {x : Nat → Option α} {k : Closer c} {kick : c.S → c.S} (epochs : Option Nat) : (∀ n, (x n).isSome) →
      epochs ≠ some 0 → NoInterleave c → KickShut c x k kick → KickShut (anchorOver (repeatAnchor epochs) c) x (anchorCloser _ k) (anchorKick _ kick)
  | rebatch {α : Type} {c : ConcIter (List α)} {x : Nat → Option (List α)} {r : Nat → Option α} {first : Nat → Nat} {k : Closer c} {kick : c.S → c.S}
      (b : Nat) (drop : Bool) : 0 < b → Concats x r first → (drop = true ∨ ∀ j, x j = none → j = 0 ∨ first j % b ≠ 0) → KickShut c x k kick →
      KickShut (anchorOver (rebatchAnchor b drop) c) (streamBatch b drop r) (anchorCloser _ k) (anchorKick _ kick)

theorem KickShut.stacked {β : Type} {c : ConcIter β} {x : Nat → Option β} {k : Closer c} {kick : c.S → c.S}
    (h : KickShut c x k kick) : Stacked c x := by
  induction h with
  | source h1 h2 => exact .source h1 h2
  | prefetch size _ h => exact .prefetch size h.stacked
  | map f _ ih => exact .map f ih
  | mapWithIndex f _ ih => exact .mapWithIndex f ih
  | limit count _ ih => exact .limit count ih
  | batch b drop hb _ ih => exact .batch b drop hb ih
  | process size keep _ hs h => exact .process size keep hs h
  | filter f hf _ ih => exact .filter f hf ih
  | zip strict hlen _ ih => exact .zip strict hlen ih
  | mix sel _ ih => exact .mix sel ih
  | interleave cycle hL _ ih => exact .interleave cycle hL ih
  | windowShuffle shuffle w hw hs _ ih => exact .windowShuffle shuffle w hw hs ih
  | pack pk order hord hp _ ih => exact .pack pk order hord hp ih
  | flatMap f hf _ ih => exact .flatMap f hf ih
  | repeated epochs len hx h0 h1 hn _ ih => exact .repeated epochs len hx h0 h1 hn ih
  | repeatedEndless epochs hx h1 hn _ ih => exact .repeatedEndless epochs hx h1 hn ih
  | rebatch b drop hb hr hend _ ih => exact .rebatch b drop hb hr hend ih

theorem KickShut.ends {β : Type} {c : ConcIter β} {x : Nat → Option β} {k : Closer c} {kick : c.S → c.S}
    (h : KickShut c x k kick) :
    ∃ I K J, Follows c x I K ∧ CloseEnds c k I J ∧ Kicks c I kick := by
  induction h with
  | source h1 h2 =>
    obtain ⟨I, K, h⟩ := ofIter_follows h1
    exact ⟨I, K, _, h, source_closes, fun _ _ h => h⟩
  | prefetch size hs h0 =>
    obtain ⟨I, K, J, h, hc⟩ := h0.ends
    exact ⟨_, _, _, prefetch_follows (size := size) h, prefetch_closes h hc, prefetch_kicks hs⟩
  | map f _ ih =>
    obtain ⟨I, K, J, h, hc, hk⟩ := ih
    exact ⟨_, _, _, trans_follows h (mapTrans_computes f _), trans_closes hc, trans_kicks hk⟩
  | mapWithIndex f _ ih =>
    obtain ⟨I, K, J, h, hc, hk⟩ := ih
    exact ⟨_, _, _, trans_follows h (mapIndexTrans_computes f _), trans_closes hc, trans_kicks hk⟩
  | limit count _ ih =>
    obtain ⟨I, K, J, h, hc, hk⟩ := ih
    exact ⟨_, _, _, trans_follows h (limitTrans_computes count _), trans_closes hc, trans_kicks hk⟩
  | batch b drop hb hs ih =>
    obtain ⟨I, K, J, h, hc, hk⟩ := ih
    exact ⟨_, _, _, trans_follows h (batchTrans_computes hb drop hs.stacked.follows.1), trans_closes hc, trans_kicks hk⟩
  | process size keep _ hs h0 =>
    obtain ⟨-, I, K, h⟩ := h0.follows
    exact ⟨_, _, _, process_follows (keep := keep) (kick := true) h hs, process_closes h hs, process_kicks h⟩
  | filter f hf _ ih =>
    obtain ⟨I, K, J, h, hc, hk⟩ := ih
    exact ⟨_, _, _, trans_follows h (filterTrans_computes hf), trans_closes hc, trans_kicks hk⟩
  | zip strict hlen _ ih =>
    choose I K J h hc hk using ih
    exact ⟨_, _, _, multi_follows h (zipTrans_computes hlen), multi_closes h hc, multi_kicks hk⟩
  | mix sel _ ih =>
    choose I K J h hc hk using ih
    exact ⟨_, _, _, multi_follows h (mixTrans_computes sel _), multi_closes h hc, multi_kicks hk⟩
  | interleave cycle hL _ ih =>
    choose I K J h hc hk using ih
    exact ⟨_, _, _, renewed_follows (multi_follows h (ilTrans_computes _ hL)), renewed_closes (multi_closes h hc), interleave_kicks hk⟩
  | windowShuffle shuffle w hw hs hst ih =>
    obtain ⟨I, K, J, h, hc, hk⟩ := ih
    exact ⟨_, _, _, anchor_follows h (winAnchor_computes hw hs hst.stacked.follows.1), anchor_closes hc, anchor_kicks hk⟩
  | pack pk order hord hp _ ih =>
    obtain ⟨I, K, J, h, hc, hk⟩ := ih
    exact ⟨_, _, _, anchor_follows h (packAnchor_computes hord hp), anchor_closes hc, anchor_kicks hk⟩
  | flatMap f hf _ ih =>
    obtain ⟨I, K, J, h, hc, hk⟩ := ih
    exact ⟨_, _, _, anchor_follows h (flatMapAnchor_computes hf), anchor_closes hc, anchor_kicks hk⟩
  | repeated epochs len hx h0 h1 _ _ ih =>
    obtain ⟨I, K, J, h, hc, hk⟩ := ih
    exact ⟨_, _, _, anchor_follows h (repeatAnchor_computes hx h0 h1), anchor_closes hc, anchor_kicks hk⟩
  | repeatedEndless epochs hx h1 _ _ ih =>
    obtain ⟨I, K, J, h, hc, hk⟩ := ih
    exact ⟨_, _, _, anchor_follows h (repeatAnchor_endless hx h1), anchor_closes hc, anchor_kicks hk⟩
  | rebatch b drop hb hr hend _ ih =>
    obtain ⟨I, K, J, h, hc, hk⟩ := ih
    exact ⟨_, _, _, anchor_follows h (rebatchAnchor_computes hr hb hend), anchor_closes hc, anchor_kicks hk⟩

variable {α : Type}

theorem kickRun_inv {c : ConcIter α} {x : Nat → Option α} {I : Nat → CMode → c.S → Prop} {K : Nat → c.C → Prop} {kick : c.S → c.S}
    (h : Follows c x I K) (hk : Kicks c I kick) {ops : List Op} {later : List (List Op)} {total : List (Option α)}
    (hspec : streamRun x 0 [] (ops ++ later.flatten) = some total) {s : KickSys c} (hrun : KickRun c kick (kickInit c ops later) s) :
    UserInv x I K total s.plain := by
  induction hrun with
  | refl => exact userInv_init h hspec
  | tail _ hst ih => exact kick_step_inv h hk ih hst

/-- C102, C106: the user also calls `start_prefetch()`, as often as they like; then the tree is closed at any moment between
two calls (also right after a `start_prefetch()`, before anything was read), while its threads and worker processes are anywhere in their work.  Whatever the schedule: until `close` returns, some thread can go
on; there is no infinite schedule; and when `close` returns, no thread and no worker process is left and nothing moves. -/
theorem close_ends_started_threads {c : ConcIter α} {x : Nat → Option α} {k : Closer c} {kick : c.S → c.S} (h : KickShut c x k kick)
    {ops : List Op} {later : List (List Op)} (hspec : (streamRun x 0 [] (ops ++ later.flatten)).isSome) {s : KickSys c}
    (hrun : KickRun c kick (kickInit c ops later) s) (hidle : s.user.mode = .idle) :
    (∀ t : Closing c k, CloseRun c k ⟨s.user.st, k.start⟩ t →
      (¬ k.done t.pc → ∃ u, CloseStep c k t u) ∧
      (k.done t.pc → k.gone t.st ∧ ∀ u, ¬ c.step t.st u)) ∧
    ∀ f : Nat → Closing c k, f 0 = ⟨s.user.st, k.start⟩ → ¬ ∀ i, CloseStep c k (f i) (f (i + 1)) := by
  obtain ⟨total, ht⟩ := Option.isSome_iff_exists.1 hspec
  obtain ⟨I, K, J, hf, hc, hk⟩ := h.ends
  obtain ⟨n, ps, h1, h2, h3⟩ := kickRun_inv hf hk ht hrun
  simp only [KickSys.plain, hidle] at h1
  have hstart : J s.user.st k.start := hc.start h1
  refine ⟨fun t hr => ?_, fun f h0 hall => ?_⟩
  · have hJ := closeRun_inv hc hr hstart
    refine ⟨fun hd => ?_, fun hd => ⟨hc.gone hJ hd, hc.quiet hJ hd⟩⟩
    rcases hc.live hJ hd with ⟨u, hu⟩ | ⟨u, q, hu⟩
    · exact ⟨_, .thread _ _ _ hu⟩
    · exact ⟨_, .close _ _ _ _ hu⟩
  · have hacc := hc.acc hstart
    rw [← h0] at hacc
    have : ∀ s, Acc (fun t s => CloseStep c k s t) s → ∀ i, f i = s → False := by
      intro s hs
      induction hs with
      | intro s _ ih =>
        rintro i rfl
        exact ih _ (hall i) (i + 1) rfl
    exact this _ hacc 0 rfl

/-- C102, C106: so `close` does return: there is a schedule, and any schedule that is followed for as long as possible ends with
`close` returned. -/
theorem close_returns_after_start {c : ConcIter α} {x : Nat → Option α} {k : Closer c} {kick : c.S → c.S} (h : KickShut c x k kick)
    {ops : List Op} {later : List (List Op)} (hspec : (streamRun x 0 [] (ops ++ later.flatten)).isSome) {s : KickSys c}
    (hrun : KickRun c kick (kickInit c ops later) s) (hidle : s.user.mode = .idle)
    {t : Closing c k} (ht : CloseRun c k ⟨s.user.st, k.start⟩ t) :
    ∃ u, CloseRun c k t u ∧ k.done u.pc ∧ k.gone u.st := by
  obtain ⟨total, htot⟩ := Option.isSome_iff_exists.1 hspec
  obtain ⟨I, K, J, hf, hc, hk⟩ := h.ends
  obtain ⟨n, ps, h1, h2, h3⟩ := kickRun_inv hf hk htot hrun
  simp only [KickSys.plain, hidle] at h1
  have hJ := closeRun_inv hc ht (hc.start h1)
  have hacc := hc.acc hJ
  have key : ∀ v, Acc (fun t s => CloseStep c k s t) v → CloseRun c k t v → ∃ u, CloseRun c k t u ∧ k.done u.pc ∧ k.gone u.st := by
    intro v hv
    induction hv with
    | intro v _ ih =>
      intro hr
      have hJv := closeRun_inv hc hr hJ
      by_cases hd : k.done v.pc
      · exact ⟨v, hr, hd, hc.gone hJv hd⟩
      · rcases hc.live hJv hd with ⟨u, hu⟩ | ⟨u, q, hu⟩
        · exact ih ⟨u, v.pc⟩ (.thread _ _ _ hu) (.tail hr (.thread _ _ _ hu))
        · exact ih ⟨u, q⟩ (.close _ _ _ _ hu) (.tail hr (.close _ _ _ _ hu))
  exact key t hacc (.refl t)

/-! ### The hypotheses are met -/

/-- A zip of a batched thread prefetch over a process prefetch, and of a process prefetch of lists. -/
example : ∃ (c : ConcIter (List (List Nat))) (x : Nat → Option (List (List Nat))) (k : Closer c) (kick : c.S → c.S),
    KickShut c x k kick ∧ (streamRun x 0 [] ([] ++ [[.next, .save], [], [.restore 0, .next]].flatten)).isSome := by
  obtain ⟨k, hk⟩ := (Stacked.process 2 false (by omega) five_source).shut
  refine ⟨_, _, _, _, .zip (n := 1) false (fun h => by cases h) (c := fun i => match i with
      | 0 => transOver (batchTrans 2 false) (prefetchOver 1 (processOver 2 false fiveSource))
      | 1 => processOver 2 true (ofIter (listIter ([[1], [2]].map .ok))))
    (x := fun i => match i with
      | 0 => streamBatch 2 false (fun n => [1, 2, 3, 4, 5][n]?)
      | 1 => fun n => [[1], [2]][n]?)
    (k := fun i => match i with
      | 0 => transCloser _ (prefetchCloser 1 k)
      | 1 => processCloser 2 true true _)
    (kick := fun i => match i with
      | 0 => transKick _ prefetchKick
      | 1 => processKick)
    (fun i => match i with
      | 0 => .batch 2 false (by omega) (.prefetch 1 (by omega) hk)
      | 1 => .process 2 true true (by omega) (list_source [[1], [2]])), ?_⟩
  decide +kernel

/-- `close` right after `start_prefetch()`: the thread is alive, and nothing was read. -/
example : ∃ s, KickRun (prefetchOver 1 fiveSource) prefetchKick (kickInit _ [] [[]]) s ∧ s.user.mode = .idle ∧ s.user.outs = [] ∧
    ¬ (prefetchCloser 1 (sourceCloser (listIter ([1, 2, 3, 4, 5].map .ok)))).gone s.user.st :=
  ⟨_, .tail (.refl _) (.start _ _ _ ⟨rfl, rfl⟩), rfl, rfl, by rintro ⟨⟨⟩, -⟩⟩

end Grain
