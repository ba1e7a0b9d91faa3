import Verif.Stack.CloseLemmas
import Verif.Stack.InterleaveProps
/-
C102: `close` of a tree of layers, under every schedule.
-/
namespace Grain

/-- A tree of layers (as in `Stacked`), its stream, and its `close`. -/
inductive Shut : {β : Type} → (c : ConcIter β) → (Nat → Option β) → Closer c → Prop
  | source {α : Type} {p : Iter α} {x : Nat → Option α} : ResumesStream p (fun n => (x n).map .ok) → StaysOver x →
      Shut (ofIter p) x (sourceCloser p)
  | prefetch {α : Type} {c : ConcIter α} {x : Nat → Option α} {k : Closer c} (size : Nat) : Shut c x k →
      Shut (prefetchOver size c) x (prefetchCloser size k)
  | map {α β : Type} {c : ConcIter α} {x : Nat → Option α} {k : Closer c} (f : α → β) : Shut c x k →
      Shut (transOver (mapTrans f) c) (fun n => (x n).map f) (transCloser _ k)
  | mapWithIndex {α β : Type} {c : ConcIter α} {x : Nat → Option α} {k : Closer c} (f : Nat → α → β) : Shut c x k →
      Shut (transOver (mapIndexTrans f) c) (fun n => (x n).map (f n)) (transCloser _ k)
  | limit {α : Type} {c : ConcIter α} {x : Nat → Option α} {k : Closer c} (count : Nat) : Shut c x k →
      Shut (transOver (limitTrans count) c) (streamTake count x) (transCloser _ k)
  | batch {α : Type} {c : ConcIter α} {x : Nat → Option α} {k : Closer c} (b : Nat) (drop : Bool) : 0 < b → Shut c x k →
      Shut (transOver (batchTrans b drop) c) (streamBatch b drop x) (transCloser _ k)
  | process {α : Type} {c : ConcIter α} {x : Nat → Option α} {k : Closer c} (size : Nat) (keep kill : Bool) : 0 < size →
      Shut c x k →
      Shut (processOver size keep c) x (processCloser size keep kill c)
  | filter {α : Type} {c : ConcIter α} {x y : Nat → Option α} {pos : Nat → Nat} {k : Closer c} (f : α → Bool) :
      Filtered f x y pos → Shut c x k → Shut (transOver (filterTrans f) c) y (transCloser _ k)
  | zip {α : Type} {n : Nat} {c : Fin (n + 1) → ConcIter α} {x : Fin (n + 1) → Nat → Option α} {k : (i : Fin (n + 1)) → Closer (c i)}
      (strict : Bool) : (strict = true → EqualLengths x) → (∀ i, Shut (c i) (x i) (k i)) →
      Shut (multiOver (zipTrans n strict) c) (streamZip x) (multiCloser _ k)
  | mix {α : Type} {n : Nat} {c : Fin n → ConcIter α} {x : Fin n → Nat → Option α} {k : (i : Fin n) → Closer (c i)}
      (sel : Nat → Fin n) : (∀ i, Shut (c i) (x i) (k i)) →
      Shut (multiOver (mixTrans n sel) c) (streamMix sel x) (multiCloser _ k)
  | interleave {α : Type} {n : Nat} {c : Fin n → ConcIter α} {x : Fin n → Nat → Option α} {k : (i : Fin n) → Closer (c i)}
      (cycle : Nat) (hL : min cycle n - 1 < n) : (∀ i, Shut (c i) (x i) (k i)) →
      Shut (interleaveOver n cycle c) (streamInterleave x hL) (renewedCloser (multiCloser _ k))
  | windowShuffle {α : Type} {c : ConcIter α} {x : Nat → Option α} {k : Closer c} (shuffle : Nat → List α → List α) (w : Nat) :
      0 < w → (∀ i l, (shuffle i l).length = l.length) → Shut c x k →
      Shut (anchorOver (winAnchor shuffle w) c) (streamWindows shuffle w x) (anchorCloser _ k)
  | pack {E R : Type} {c : ConcIter E} {x : Nat → Option E} {y : Nat → Option R} {cut first : Nat → Nat} {k : Closer c}
      (pk : Packer E R) (order : Nat → List R → List Nat) : IsOrder order → Packs pk order x y cut first → Shut c x k →
      Shut (anchorOver (packAnchor pk order) c) y (anchorCloser _ k)
  | flatMap {α β : Type} {c : ConcIter α} {x : Nat → Option α} {y : Nat → Option β} {first : Nat → Nat} {k : Closer c}
      (f : α → List β) : Flattens f x y first → Shut c x k → Shut (anchorOver (flatMapAnchor f) c) y (anchorCloser _ k)
  | repeated {α : Type} {c : ConcIter α} {x : Nat → Option α} {k : Closer c} (epochs : Option Nat) (len : Nat) :
      (∀ n, (x n).isSome ↔ n < len) → (len = 0 → epochs ≠ none) → epochs ≠ some 0 → NoInterleave c → Shut c x k →
      Shut (anchorOver (repeatAnchor epochs) c) (streamRepeat epochs len x) (anchorCloser _ k)
  | repeatedEndless {α : Type} {c : ConcIter α} {x : Nat → Option α} {k : Closer c} (epochs : Option Nat) : (∀ n, (x n).isSome) →
      epochs ≠ some 0 → NoInterleave c → Shut c x k → Shut (anchorOver (repeatAnchor epochs) c) x (anchorCloser _ k)
  | rebatch {α : Type} {c : ConcIter (List α)} {x : Nat → Option (List α)} {r : Nat → Option α} {first : Nat → Nat} {k : Closer c}
      (b : Nat) (drop : Bool) : 0 < b → Concats x r first → (drop = true ∨ ∀ j, x j = none → j = 0 ∨ first j % b ≠ 0) → Shut c x k →
      Shut (anchorOver (rebatchAnchor b drop) c) (streamBatch b drop r) (anchorCloser _ k)

/-- Every tree of C95–C100, C103 and C104 has a `close`. -/
theorem Stacked.shut {β : Type} {c : ConcIter β} {x : Nat → Option β} (h : Stacked c x) : ∃ k, Shut c x k := by
  induction h with
  | source h1 h2 => exact ⟨_, .source h1 h2⟩
  | prefetch size _ ih => obtain ⟨k, h⟩ := ih; exact ⟨_, .prefetch size h⟩
  | map f _ ih => obtain ⟨k, h⟩ := ih; exact ⟨_, .map f h⟩
  | mapWithIndex f _ ih => obtain ⟨k, h⟩ := ih; exact ⟨_, .mapWithIndex f h⟩
  | limit count _ ih => obtain ⟨k, h⟩ := ih; exact ⟨_, .limit count h⟩
  | batch b drop hb _ ih => obtain ⟨k, h⟩ := ih; exact ⟨_, .batch b drop hb h⟩
  | process size keep hs _ ih => obtain ⟨k, h⟩ := ih; exact ⟨_, .process size keep true hs h⟩
  | filter f hf _ ih => obtain ⟨k, h⟩ := ih; exact ⟨_, .filter f hf h⟩
  | zip strict hlen _ ih => choose k h using ih; exact ⟨_, .zip strict hlen h⟩
  | mix sel _ ih => choose k h using ih; exact ⟨_, .mix sel h⟩
  | interleave cycle hL _ ih => choose k h using ih; exact ⟨_, .interleave cycle hL h⟩
  | windowShuffle shuffle w hw hs _ ih => obtain ⟨k, h⟩ := ih; exact ⟨_, .windowShuffle shuffle w hw hs h⟩
  | pack pk order hord hp _ ih => obtain ⟨k, h⟩ := ih; exact ⟨_, .pack pk order hord hp h⟩
  | flatMap f hf _ ih => obtain ⟨k, h⟩ := ih; exact ⟨_, .flatMap f hf h⟩
  | repeated epochs len hx h0 h1 hn _ ih => obtain ⟨k, h⟩ := ih; exact ⟨_, .repeated epochs len hx h0 h1 hn h⟩
  | repeatedEndless epochs hx h1 hn _ ih => obtain ⟨k, h⟩ := ih; exact ⟨_, .repeatedEndless epochs hx h1 hn h⟩
  | rebatch b drop hb hr hend _ ih => obtain ⟨k, h⟩ := ih; exact ⟨_, .rebatch b drop hb hr hend h⟩

theorem Shut.stacked {β : Type} {c : ConcIter β} {x : Nat → Option β} {k : Closer c} (h : Shut c x k) : Stacked c x := by
  induction h with
  | source h1 h2 => exact .source h1 h2
  | prefetch size _ ih => exact .prefetch size ih
  | map f _ ih => exact .map f ih
  | mapWithIndex f _ ih => exact .mapWithIndex f ih
  | limit count _ ih => exact .limit count ih
  | batch b drop hb _ ih => exact .batch b drop hb ih
  | process size keep _ hs _ ih => exact .process size keep hs ih
  | filter f hf _ ih => exact .filter f hf ih
  | zip strict hlen _ ih => exact .zip strict hlen ih
  | mix sel _ ih => exact .mix sel ih
  | interleave cycle hL _ ih => exact .interleave cycle hL ih
  | windowShuffle shuffle w hw hs _ ih => exact .windowShuffle shuffle w hw hs ih
  | pack pk order hord hp _ ih => exact .pack pk order hord hp ih
  | flatMap f hf _ ih => exact .flatMap f hf ih
  | repeated epochs len hx h0 h1 hn _ ih => exact .repeated epochs len hx h0 h1 hn ih
  | repeatedEndless epochs hx h1 hn _ ih => exact .repeatedEndless epochs hx h1 hn ih
  | rebatch b drop hb hr hend _ ih => exact .rebatch b drop hb hr hend ih

theorem Shut.ends {β : Type} {c : ConcIter β} {x : Nat → Option β} {k : Closer c} (h : Shut c x k) :
    ∃ I K J, Follows c x I K ∧ CloseEnds c k I J := by
  induction h with
  | source h1 h2 =>
    obtain ⟨I, K, h⟩ := ofIter_follows h1
    exact ⟨I, K, _, h, source_closes⟩
  | prefetch size _ ih =>
    obtain ⟨I, K, J, h, hc⟩ := ih
    exact ⟨_, _, _, prefetch_follows (size := size) h, prefetch_closes h hc⟩
  | map f _ ih =>
    obtain ⟨I, K, J, h, hc⟩ := ih
    exact ⟨_, _, _, trans_follows h (mapTrans_computes f _), trans_closes hc⟩
  | mapWithIndex f _ ih =>
    obtain ⟨I, K, J, h, hc⟩ := ih
    exact ⟨_, _, _, trans_follows h (mapIndexTrans_computes f _), trans_closes hc⟩
  | limit count _ ih =>
    obtain ⟨I, K, J, h, hc⟩ := ih
    exact ⟨_, _, _, trans_follows h (limitTrans_computes count _), trans_closes hc⟩
  | batch b drop hb hs ih =>
    obtain ⟨I, K, J, h, hc⟩ := ih
    exact ⟨_, _, _, trans_follows h (batchTrans_computes hb drop hs.stacked.follows.1), trans_closes hc⟩
  | process size keep _ hs _ ih =>
    obtain ⟨I, K, J, h, hc⟩ := ih
    exact ⟨_, _, _, process_follows (keep := keep) (kick := true) h hs, process_closes h hs⟩
  | filter f hf _ ih =>
    obtain ⟨I, K, J, h, hc⟩ := ih
    exact ⟨_, _, _, trans_follows h (filterTrans_computes hf), trans_closes hc⟩
  | zip strict hlen _ ih =>
    choose I K J h hc using ih
    exact ⟨_, _, _, multi_follows h (zipTrans_computes hlen), multi_closes h hc⟩
  | mix sel _ ih =>
    choose I K J h hc using ih
    exact ⟨_, _, _, multi_follows h (mixTrans_computes sel _), multi_closes h hc⟩
  | interleave cycle hL _ ih =>
    choose I K J h hc using ih
    exact ⟨_, _, _, renewed_follows (multi_follows h (ilTrans_computes _ hL)), renewed_closes (multi_closes h hc)⟩
  | windowShuffle shuffle w hw hs hst ih =>
    obtain ⟨I, K, J, h, hc⟩ := ih
    exact ⟨_, _, _, anchor_follows h (winAnchor_computes hw hs hst.stacked.follows.1), anchor_closes hc⟩
  | pack pk order hord hp _ ih =>
    obtain ⟨I, K, J, h, hc⟩ := ih
    exact ⟨_, _, _, anchor_follows h (packAnchor_computes hord hp), anchor_closes hc⟩
  | flatMap f hf _ ih =>
    obtain ⟨I, K, J, h, hc⟩ := ih
    exact ⟨_, _, _, anchor_follows h (flatMapAnchor_computes hf), anchor_closes hc⟩
  | repeated epochs len hx h0 h1 _ _ ih =>
    obtain ⟨I, K, J, h, hc⟩ := ih
    exact ⟨_, _, _, anchor_follows h (repeatAnchor_computes hx h0 h1), anchor_closes hc⟩
  | repeatedEndless epochs hx h1 _ _ ih =>
    obtain ⟨I, K, J, h, hc⟩ := ih
    exact ⟨_, _, _, anchor_follows h (repeatAnchor_endless hx h1), anchor_closes hc⟩
  | rebatch b drop hb hr hend _ ih =>
    obtain ⟨I, K, J, h, hc⟩ := ih
    exact ⟨_, _, _, anchor_follows h (rebatchAnchor_computes hr hb hend), anchor_closes hc⟩

variable {α : Type}

theorem closeRun_inv {c : ConcIter α} {k : Closer c} {I : Nat → CMode → c.S → Prop} {J : c.S → k.P → Prop}
    (h : CloseEnds c k I J) {s t : Closing c k} (hrun : CloseRun c k s t) (hs : J s.st s.pc) : J t.st t.pc := by
  induction hrun with
  | refl => exact hs
  | tail _ hst ih =>
    cases hst with
    | thread s t q ht => exact h.step ih ht
    | close s q t q' ht => exact h.close ih ht

/-- C102: a tree of layers is closed at any moment between two calls of a user who reads, saves, goes back and restarts, while
its threads and worker processes are anywhere in their work.  Whatever the schedule: until `close` returns, some thread can go
on; there is no infinite schedule; and when `close` returns, no thread and no worker process is left and nothing moves. -/
theorem close_ends_every_thread {c : ConcIter α} {x : Nat → Option α} {k : Closer c} (h : Shut c x k) {prog : List Op}
    (hspec : (streamRun x 0 [] prog).isSome) {s : UserSys c} (hrun : UserRun c (userInit c prog) s) (hidle : s.mode = .idle) :
    (∀ t : Closing c k, CloseRun c k ⟨s.st, k.start⟩ t →
      (¬ k.done t.pc → ∃ u, CloseStep c k t u) ∧
      (k.done t.pc → k.gone t.st ∧ ∀ u, ¬ c.step t.st u)) ∧
    ∀ f : Nat → Closing c k, f 0 = ⟨s.st, k.start⟩ → ¬ ∀ i, CloseStep c k (f i) (f (i + 1)) := by
  obtain ⟨total, ht⟩ := Option.isSome_iff_exists.1 hspec
  obtain ⟨I, K, J, hf, hc⟩ := h.ends
  obtain ⟨n, ps, h1, h2, h3⟩ := userInv_run hf ht hrun
  rw [hidle] at h1
  have hstart : J s.st k.start := hc.start h1
  refine ⟨fun t hr => ?_, fun f h0 hall => ?_⟩
  · have hJ := closeRun_inv hc hr hstart
    refine ⟨fun hd => ?_, fun hd => ⟨hc.gone hJ hd, hc.quiet hJ hd⟩⟩
    rcases hc.live hJ hd with ⟨u, hu⟩ | ⟨u, q, hu⟩
    · exact ⟨_, .thread _ _ _ hu⟩
    · exact ⟨_, .close _ _ _ _ hu⟩
  · have hacc := hc.acc hstart
    rw [← h0] at hacc
    have : ∀ s, Acc (fun t s => CloseStep c k s t) s → ∀ i, f i = s → False := by
      intro s hs
      induction hs with
      | intro s _ ih =>
        rintro i rfl
        exact ih _ (hall i) (i + 1) rfl
    exact this _ hacc 0 rfl

/-- C102: so `close` does return: there is a schedule, and any schedule that is followed for as long as possible ends with
`close` returned. -/
theorem close_returns {c : ConcIter α} {x : Nat → Option α} {k : Closer c} (h : Shut c x k) {prog : List Op}
    (hspec : (streamRun x 0 [] prog).isSome) {s : UserSys c} (hrun : UserRun c (userInit c prog) s) (hidle : s.mode = .idle)
    {t : Closing c k} (ht : CloseRun c k ⟨s.st, k.start⟩ t) :
    ∃ u, CloseRun c k t u ∧ k.done u.pc ∧ k.gone u.st := by
  obtain ⟨total, htot⟩ := Option.isSome_iff_exists.1 hspec
  obtain ⟨I, K, J, hf, hc⟩ := h.ends
  obtain ⟨n, ps, h1, h2, h3⟩ := userInv_run hf htot hrun
  rw [hidle] at h1
  have hJ := closeRun_inv hc ht (hc.start h1)
  have hacc := hc.acc hJ
  have key : ∀ v, Acc (fun t s => CloseStep c k s t) v → CloseRun c k t v → ∃ u, CloseRun c k t u ∧ k.done u.pc ∧ k.gone u.st := by
    intro v hv
    induction hv with
    | intro v _ ih =>
      intro hr
      have hJv := closeRun_inv hc hr hJ
      by_cases hd : k.done v.pc
      · exact ⟨v, hr, hd, hc.gone hJv hd⟩
      · rcases hc.live hJv hd with ⟨u, hu⟩ | ⟨u, q, hu⟩
        · exact ih ⟨u, v.pc⟩ (.thread _ _ _ hu) (.tail hr (.thread _ _ _ hu))
        · exact ih ⟨u, q⟩ (.close _ _ _ _ hu) (.tail hr (.close _ _ _ _ hu))
  exact key t hacc (.refl t)

/-! ### The hypotheses are met -/

/-- `mp_prefetch` with two workers over the elements 1, …, 5. -/
example : ∃ (c : Fin 2 → ConcIter Nat) (k : Closer (mpPrefetchOver 2 3 c)),
    Shut (mpPrefetchOver 2 3 c) (fun n => [1, 2, 3, 4, 5][n]?) k := by
  have h : ∀ i : Fin 2, Stacked (ofIter (listIter ((if i = 0 then [1, 3, 5] else [2, 4]).map .ok)))
      (fun m => [1, 2, 3, 4, 5][m * 2 + i.val]?) := by
    intro i
    match i with
    | 0 =>
      have : (fun m : Nat => [1, 2, 3, 4, 5][m * 2 + (0 : Fin 2).val]?) = fun m : Nat => [1, 3, 5][m]? := by
        funext m
        rcases m with _ | _ | _ | m <;> first | rfl | (rw [List.getElem?_eq_none, List.getElem?_eq_none] <;> simp <;> omega)
      rw [this]
      exact list_source [1, 3, 5]
    | 1 =>
      have : (fun m : Nat => [1, 2, 3, 4, 5][m * 2 + (1 : Fin 2).val]?) = fun m : Nat => [2, 4][m]? := by
        funext m
        rcases m with _ | _ | m <;> first | rfl | (rw [List.getElem?_eq_none, List.getElem?_eq_none] <;> simp <;> omega)
      rw [this]
      exact list_source [2, 4]
  exact ⟨_, Stacked.shut (interleave_of_slices_stacked (by omega) five_source.follows.1
    fun i => .prefetch 3 (.process 3 false (by omega) (h i)))⟩

/-- A moment between two calls at which the thread of a prefetch over 1, 2 is alive: after the first `next`. -/
example : ∃ s, UserRun (prefetchOver 1 (ofIter (listIter ([1, 2].map .ok)))) (userInit _ [.next]) s ∧ s.mode = .idle ∧
    ¬ (prefetchCloser 1 (sourceCloser (listIter ([1, 2].map .ok)))).gone s.st := by
  let p := listIter ([1, 2].map (Except.ok : Nat → Py Nat))
  let st (i : Nat) (m : Option (Option p.C)) (j : Nat) (buf : List (Option (Nat × (ofIter p).C)))
      (thr : Option (PrefPc Nat (ofIter p).C)) (pc : UserPc Nat (ofIter p).C) : PrefState (ofIter p) :=
    { cs := ((i : p.S), m), state := (j : p.C), buf := buf, thr := thr, flag := false, pc := pc }
  let sys (t : PrefState (ofIter p)) (md : CMode) (ops : List Op) (outs : List (Option Nat)) : UserSys (prefetchOver 1 (ofIter p)) :=
    { st := t, mode := md, prog := ops, saved := [], outs := outs }
  refine ⟨sys (st 1 none 1 [] (some .check) .idle) .idle [] [some 1], ?_, rfl, ?_⟩
  · have h1 : UserStep _ (userInit (prefetchOver 1 (ofIter p)) [.next]) (sys (st 0 none 0 [] none .enter) .next [] []) :=
      .next _ _ _ rfl rfl ⟨rfl, rfl⟩
    have h2 : UserStep _ (sys (st 0 none 0 [] none .enter) .next [] []) (sys (st 0 none 0 [] (some .check) .take) .next [] []) :=
      .thread _ _ (PrefStep.start _ rfl (by decide))
    have h3 : UserStep _ (sys (st 0 none 0 [] (some .check) .take) .next [] []) (sys (st 0 none 0 [] (some .call) .take) .next [] []) :=
      .thread _ _ (PrefStep.check _ rfl)
    have h4 : UserStep _ (sys (st 0 none 0 [] (some .call) .take) .next [] [])
        (sys (st 0 (some none) 0 [] (some .reading) .take) .next [] []) :=
      .thread _ _ (PrefStep.call (st 0 none 0 [] (some .call) .take) ((0 : Nat), some none) rfl ⟨rfl, rfl⟩)
    have h5 : UserStep _ (sys (st 0 (some none) 0 [] (some .reading) .take) .next [] [])
        (sys (st 1 none 0 [] (some (.got 1)) .take) .next [] []) :=
      .thread _ _ (PrefStep.item (st 0 (some none) 0 [] (some .reading) .take) 1 ((1 : Nat), none) rfl ⟨rfl, rfl, Ev.of_forall fun _ => rfl⟩)
    have h6 : UserStep _ (sys (st 1 none 0 [] (some (.got 1)) .take) .next [] [])
        (sys (st 1 none 0 [] (some (.put (some (1, (1 : Nat))))) .take) .next [] []) :=
      .thread _ _ (PrefStep.getState _ 1 rfl)
    have h7 : UserStep _ (sys (st 1 none 0 [] (some (.put (some (1, (1 : Nat))))) .take) .next [] [])
        (sys (st 1 none 0 [some (1, (1 : Nat))] (some .check) .take) .next [] []) :=
      .thread _ _ (PrefStep.put _ _ rfl (by decide))
    have h8 : UserStep _ (sys (st 1 none 0 [some (1, (1 : Nat))] (some .check) .take) .next [] [])
        (sys (st 1 none 1 [] (some .check) (.done (some 1))) .next [] []) :=
      .thread _ _ (PrefStep.take _ _ _ _ rfl rfl)
    have h9 : UserStep _ (sys (st 1 none 1 [] (some .check) (.done (some 1))) .next [] [])
        (sys (st 1 none 1 [] (some .check) .idle) .idle [] [some 1]) :=
      .ret _ _ _ rfl ⟨rfl, rfl⟩
    exact (((((((((UserRun.refl _).tail h1).tail h2).tail h3).tail h4).tail h5).tail h6).tail h7).tail h8).tail h9
  · rintro ⟨⟨⟩, -⟩

end Grain
