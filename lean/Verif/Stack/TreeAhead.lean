import Verif.Stack.TreeAheadAnchor
/-
C101: how far a tree of layers – thread and process prefetches, mixtures, zips, interleaves, `mp_prefetch` with several
workers, window shuffle, rebatch, flat_map – reads ahead of its user, over all its sources together.
-/
namespace Grain

/-- A tree of layers with its stream, the number of elements that all its sources together have given out in a state, and
the bound `most`: when the user has taken `n` elements the sources have given out at most `most n`.

The bound is read off the layers: each thread prefetch and each process prefetch adds its buffer and one element in the
hands of its thread or worker, a batch of `b` multiplies, a mixture or an interleave adds up the constants of its inputs
(all of them, also of the pipelines that an interleave has not opened yet), a zip adds up its inputs, a window shuffle adds a
window, a rebatch may need one incoming batch for each row and one outgoing batch more. -/
inductive ReadsFrom : {β : Type} → (c : ConcIter β) → (Nat → Option β) → (c.S → Nat) → (Nat → Nat) → Prop
  | source {α : Type} {p : Iter α} {pos : p.S → Nat} {x : Nat → Option α} {At : p.S → Nat → Prop} {Ck : p.C → Nat → Prop} :
      SimStream p (fun n => (x n).map .ok) At Ck → (∀ s n, At s n → pos s = n) → StaysOver x →
      ReadsFrom (ofIter p) x (fun s => pos s.1) (fun n => n)
  | prefetch {α : Type} {c : ConcIter α} {x : Nat → Option α} {src most} (size : Nat) : ReadsFrom c x src most →
      ReadsFrom (prefetchOver size c) x (fun s => src s.cs) (fun n => most (if size = 0 then n else n + size + 1))
  | process {α : Type} {c : ConcIter α} {x : Nat → Option α} {src most} (size : Nat) (keep : Bool) : 0 < size →
      ReadsFrom c x src most → ReadsFrom (processOver size keep c) x (workerSrc src) (fun n => most (n + size + 1))
  | map {α β : Type} {c : ConcIter α} {x : Nat → Option α} {src most} (f : α → β) : ReadsFrom c x src most →
      ReadsFrom (transOver (mapTrans f) c) (fun n => (x n).map f) (fun s => src s.cs) most
  | mapWithIndex {α β : Type} {c : ConcIter α} {x : Nat → Option α} {src most} (f : Nat → α → β) : ReadsFrom c x src most →
      ReadsFrom (transOver (mapIndexTrans f) c) (fun n => (x n).map (f n)) (fun s => src s.cs) most
  | limit {α : Type} {c : ConcIter α} {x : Nat → Option α} {src most} (count : Nat) : ReadsFrom c x src most →
      ReadsFrom (transOver (limitTrans count) c) (streamTake count x) (fun s => src s.cs) most
  | batch {α : Type} {c : ConcIter α} {x : Nat → Option α} {src most} (b : Nat) (drop : Bool) : 0 < b →
      ReadsFrom c x src most →
      ReadsFrom (transOver (batchTrans b drop) c) (streamBatch b drop x) (fun s => src s.cs)
        (fun n => most (n * b + if drop then b - 1 else 0))
  /-- a zip of datasets of one length (a zip of datasets of different lengths goes on consuming the longer ones at each
  `next` after the end) -/
  | zip {α : Type} {n : Nat} {c : Fin (n + 1) → ConcIter α} {x : Fin (n + 1) → Nat → Option α}
      {src : (i : Fin (n + 1)) → (c i).S → Nat} {most : Fin (n + 1) → Nat → Nat} (strict : Bool) :
      EqualLengths x → (∀ i, ReadsFrom (c i) (x i) (src i) (most i)) →
      ReadsFrom (multiOver (zipTrans n strict) c) (streamZip x) (fun s => ∑ i, src i (s.cs i)) (fun m => ∑ i, most i m)
  | mix {α : Type} {n : Nat} {c : Fin n → ConcIter α} {x : Fin n → Nat → Option α}
      {src : (i : Fin n) → (c i).S → Nat} {a : Nat} {k : Fin n → Nat}
      (sel : Nat → Fin n) : (∀ i, ReadsFrom (c i) (x i) (src i) (fun m => a * m + k i)) →
      ReadsFrom (multiOver (mixTrans n sel) c) (streamMix sel x) (fun s => ∑ i, src i (s.cs i)) (fun m => a * m + ∑ i, k i)
  | interleave {α : Type} {n : Nat} {c : Fin n → ConcIter α} {x : Fin n → Nat → Option α}
      {src : (i : Fin n) → (c i).S → Nat} {a : Nat} {k : Fin n → Nat}
      (cycle : Nat) (hL : min cycle n - 1 < n) : (∀ i, ReadsFrom (c i) (x i) (src i) (fun m => a * m + k i)) →
      ReadsFrom (interleaveOver n cycle c) (streamInterleave x hL) (fun s => ∑ i, src i (s.cs i)) (fun m => a * m + ∑ i, k i)
  | windowShuffle {α : Type} {c : ConcIter α} {x : Nat → Option α} {src most} (shuffle : Nat → List α → List α) (w : Nat) :
      0 < w → (∀ i l, (shuffle i l).length = l.length) → ReadsFrom c x src most →
      ReadsFrom (anchorOver (winAnchor shuffle w) c) (streamWindows shuffle w x) (fun s => src s.cs) (fun n => most (n + w))
  | rebatch {α : Type} {c : ConcIter (List α)} {x : Nat → Option (List α)} {r : Nat → Option α} {first : Nat → Nat} {src most}
      (b : Nat) (drop : Bool) : 0 < b → Concats x r first → (drop = true ∨ ∀ k, x k = none → k = 0 ∨ first k % b ≠ 0) →
      ReadsFrom c x src most →
      ReadsFrom (anchorOver (rebatchAnchor b drop) c) (streamBatch b drop r) (fun s => src s.cs) (fun n => most (n * b + b))
  /-- `g n` bounds the number of the element whose list holds output `n` -/
  | flatMap {α β : Type} {c : ConcIter α} {x : Nat → Option α} {y : Nat → Option β} {first g : Nat → Nat} {src most}
      (f : α → List β) : Flattens f x y first → (∀ k n, first k ≤ n → k + 1 ≤ g n) → (∀ a b, a ≤ b → g a ≤ g b) →
      ReadsFrom c x src most →
      ReadsFrom (anchorOver (flatMapAnchor f) c) y (fun s => src s.cs) (fun n => most (g n))
  | weaken {α : Type} {c : ConcIter α} {x : Nat → Option α} {src most most'} : (∀ n, most n ≤ most' n) →
      (∀ a b, a ≤ b → most' a ≤ most' b) → ReadsFrom c x src most → ReadsFrom c x src most'

theorem leads_of_imp {c : ConcIter β} {y : Nat → Option β} {I J : Nat → CMode → c.S → Prop} {src most}
    (hij : ∀ {n m s}, J n m s → I n m s) (h : Leads y I src most) : Leads y J src most :=
  ⟨h.mono, fun hs => h.idle (hij hs), fun hs => h.next (hij hs)⟩

theorem sum_linear {n : Nat} (a : Nat) (p k : Fin n → Nat) : ∑ i, (a * p i + k i) = a * (∑ i, p i) + ∑ i, k i := by
  rw [Finset.sum_add_distrib, Finset.mul_sum]

theorem ReadsFrom.leads {β : Type} {c : ConcIter β} {y : Nat → Option β} {src most} (h : ReadsFrom c y src most) :
    StaysOver y ∧ ∃ I K Q, Follows c y I K ∧ Tame c Q ∧ Leads y (Along I Q) src most := by
  induction h with
  | source hp hpos hx =>
    refine ⟨hx, _, _, _, ofIter_sim hp, ofIter_tame _, ?_⟩
    constructor
    · exact fun h => h
    · rintro n s ⟨⟨h1, -⟩, -⟩
      rw [hpos _ _ h1]
    · rintro n s ⟨⟨h1, -⟩, -⟩
      rw [hpos _ _ h1]
      exact (nextPos_le _ n).1
  | prefetch size _ ih =>
    obtain ⟨h0, I, K, Q, h, ht, hl⟩ := ih
    exact ⟨h0, _, _, _, prefetch_follows (size := size) h, prefetch_tame ht,
      leads_of_imp (fun hs => ⟨hs.1.1, prefInv_along hs.1.2 hs.2⟩) (prefetch_leads (K := K) hl)⟩
  | process size keep hs _ ih =>
    obtain ⟨h0, I, K, Q, h, ht, hl⟩ := ih
    exact ⟨h0, _, _, _, process_follows (keep := keep) (kick := false) h hs, process_tame ht, process_leads hl⟩
  | map f _ ih =>
    obtain ⟨h0, I, K, Q, h, ht, hl⟩ := ih
    refine ⟨?_, _, _, _, trans_follows h (mapTrans_computes f _), trans_tame ht,
      leads_of_imp (fun hs => ⟨_, trInv_along hs.1.choose_spec hs.2⟩) (trans_leads (g := fun n => n) (K := K) hl (fun h => h) ?_)⟩
    · intro n hn
      simp only [Option.map_eq_none_iff] at hn ⊢
      exact h0 n hn
    · rintro n i l rfl
      exact Nat.le_refl _
  | mapWithIndex f _ ih =>
    obtain ⟨h0, I, K, Q, h, ht, hl⟩ := ih
    refine ⟨?_, _, _, _, trans_follows h (mapIndexTrans_computes f _), trans_tame ht,
      leads_of_imp (fun hs => ⟨_, trInv_along hs.1.choose_spec hs.2⟩) (trans_leads (g := fun n => n) (K := K) hl (fun h => h) ?_)⟩
    · intro n hn
      simp only [Option.map_eq_none_iff] at hn ⊢
      exact h0 n hn
    · rintro n i l ⟨rfl, -⟩
      exact Nat.le_refl _
  | limit count _ ih =>
    obtain ⟨h0, I, K, Q, h, ht, hl⟩ := ih
    refine ⟨?_, _, _, _, trans_follows h (limitTrans_computes count _), trans_tame ht,
      leads_of_imp (fun hs => ⟨_, trInv_along hs.1.choose_spec hs.2⟩) (trans_leads (g := fun n => n) (K := K) hl (fun h => h) ?_)⟩
    · intro n hn
      unfold streamTake at hn ⊢
      split at hn
      · split
        · exact h0 n hn
        · rfl
      · rw [if_neg (by omega)]
    · rintro n i l ⟨rfl, -⟩
      exact Nat.le_refl _
  | batch b drop hb _ ih =>
    obtain ⟨h0, I, K, Q, h, ht, hl⟩ := ih
    refine ⟨streamBatch_staysOver hb drop h0, _, _, _, trans_follows h (batchTrans_computes hb drop h0), trans_tame ht,
      leads_of_imp (fun hs => ⟨_, trInv_along hs.1.choose_spec hs.2⟩)
        (trans_leads (g := fun n => n * b + if drop then b - 1 else 0) (K := K) hl ?_ ?_)⟩
    · intro a c hac
      have := Nat.mul_le_mul_right b hac
      omega
    · rintro n i l (rfl | ⟨-, -, h3⟩)
      · omega
      · exact h3
  | zip strict hlen _ ih =>
    have h0 := fun i => (ih i).1
    choose I K Q h ht hl using fun i => (ih i).2
    refine ⟨streamZip_staysOver h0, _, _, _, multi_follows h (zipTrans_in_step strict hlen), multi_tame ht,
      multi_leads hl ?_ ?_⟩
    · exact fun hab => Finset.sum_le_sum fun i _ => (hl i).mono hab
    · intro m p l hp
      simp only [hp]
      exact le_rfl
  | @mix _ _ _ _ _ a k sel _ ih =>
    choose I K Q h ht hl using fun i => (ih i).2
    refine ⟨streamMix_staysOver sel _, _, _, _,
      multi_follows h (oneForOne_computes (mixTrans_oneForOne sel) (mixTrans_computes sel _)), multi_tame ht, multi_leads hl ?_ ?_⟩
    · intro b c hbc
      have := Nat.mul_le_mul_left a hbc
      omega
    · rintro m p l ⟨-, hp⟩
      rw [sum_linear]
      have := Nat.mul_le_mul_left a hp
      omega
  | @interleave _ _ _ x _ a k cycle hL _ ih =>
    choose I K Q h ht hl using fun i => (ih i).2
    refine ⟨streamInterleave_staysOver _ hL, _, _, _,
      renewed_follows (multi_follows h (oneForOne_computes ilTrans_oneForOne (ilTrans_computes _ hL))),
      renewed_tame (multi_tame ht), ?_⟩
    have := multi_leads (T := ilTrans _ _) (K := K) (y := streamInterleave x hL) (bound := fun m => a * m + ∑ i, k i)
      (At := fun m p l => ilAt x hL m p l ∧ ∑ i, p i ≤ m) hl ?_ ?_
    · exact ⟨this.mono, this.idle, this.next⟩
    · intro b c hbc
      have := Nat.mul_le_mul_left a hbc
      omega
    · rintro m p l ⟨-, hp⟩
      rw [sum_linear]
      have := Nat.mul_le_mul_left a hp
      omega
  | windowShuffle shuffle w hw hs _ ih =>
    obtain ⟨h0, I, K, Q, h, ht, hl⟩ := ih
    refine ⟨streamWindows_staysOver hw hs h0, _, _, _, anchor_follows h (winAnchor_computes hw hs h0),
      anchor_tame (winAnchor_onward shuffle w) ht, anchor_leads (g := fun n => n + w) (winAnchor_onward shuffle w) hl ?_ ?_⟩
    · intro a b hab
      omega
    · exact fun hat => winAt_le hat
  | rebatch b drop hb hr hend _ ih =>
    obtain ⟨h0, I, K, Q, h, ht, hl⟩ := ih
    refine ⟨streamBatch_staysOver hb drop (concats_staysOver hr), _, _, _, anchor_follows h (rebatchAnchor_computes hr hb hend),
      anchor_tame (rebatchAnchor_onward b drop) ht, anchor_leads (g := fun n => n * b + b) (rebatchAnchor_onward b drop) hl ?_ ?_⟩
    · intro a c hac
      have := Nat.mul_le_mul_right b hac
      omega
    · exact fun hat => rbAt_le hr h0 hb hat
  | flatMap f hf hg hmono _ ih =>
    obtain ⟨h0, I, K, Q, h, ht, hl⟩ := ih
    exact ⟨flattens_staysOver hf, _, _, _, anchor_follows h (flatMapAnchor_computes hf),
      anchor_tame (flatMapAnchor_onward f) ht, anchor_leads (flatMapAnchor_onward f) hl (fun hab => hmono _ _ hab)
        (fun hat => fmAt_le hg hat)⟩
  | weaken hle hmono _ ih =>
    obtain ⟨h0, I, K, Q, h, ht, hl⟩ := ih
    exact ⟨h0, I, K, Q, h, ht, ⟨fun hab => hmono _ _ hab, fun hs => (hl.idle hs).trans (hle _),
      fun hs => (hl.next hs).trans (hle _)⟩⟩

theorem tame_run {c : ConcIter β} {Q : c.S → Prop} (h : Tame c Q) {prog : List Op}
    (hp : ∀ op ∈ prog, op = .next ∨ op = .save) {s : UserSys c} (hrun : UserRun c (userInit c prog) s) :
    Q s.st ∧ s.mode ≠ .set ∧ ∀ op ∈ s.prog, op = .next ∨ op = .save := by
  induction hrun with
  | refl => exact ⟨h.init, by simp [userInit], hp⟩
  | tail _ hstep ih =>
    rename_i s t _
    obtain ⟨h1, h2, h3⟩ := ih
    rcases s with ⟨st, mode, prog, saved, outs⟩
    dsimp only at h1 h2 h3
    cases hstep with
    | thread t ht => exact ⟨h.step h1 ht, h2, h3⟩
    | next ops t hm hp ht =>
      dsimp only at hm hp ht
      subst hm hp
      exact ⟨h.call h1 ht, by simp, fun op hop => h3 op (by simp [hop])⟩
    | ret r t hm ht => exact ⟨h.ret h1 ht, by simp, h3⟩
    | save ops hm hp =>
      dsimp only at hm hp
      subst hm hp
      exact ⟨h.get h1, by simp, fun op hop => h3 op (by simp [hop])⟩
    | restore k ops ck t hm hp hk ht =>
      dsimp only at hp
      subst hp
      rcases h3 (.restore k) (by simp) with h | h <;> cases h
    | fresh k ops ck t hm hp hk ht =>
      dsimp only at hp
      subst hp
      rcases h3 (.fresh k) (by simp) with h | h <;> cases h
    | setRet t hm ht => exact absurd hm h2

/-- C101: at every moment of every schedule of all threads and worker processes, when the user has received `n` elements,
the sources of the tree have together given out at most `most (n + 1)` – and `most n` between two calls. -/
theorem tree_read_ahead {β : Type} {c : ConcIter β} {y : Nat → Option β} {src most} (h : ReadsFrom c y src most)
    {prog : List Op} (hprog : ∀ op ∈ prog, op = .next ∨ op = .save) {s : UserSys c}
    (hrun : UserRun c (userInit c prog) s) :
    src s.st ≤ most ((s.outs.filterMap id).length + 1) ∧
    (s.mode = .idle → src s.st ≤ most (s.outs.filterMap id).length) := by
  obtain ⟨-, I, K, Q, hf, ht, hl⟩ := h.leads
  obtain ⟨h1, h2, h3⟩ := userPos_run hf hprog hrun
  obtain ⟨hq, -, -⟩ := tame_run ht hprog hrun
  constructor
  · cases hm : s.mode with
    | idle =>
      rw [hm] at h1
      exact (hl.idle ⟨h1, hq⟩).trans (hl.mono (by omega))
    | next =>
      rw [hm] at h1
      exact (hl.next ⟨h1, hq⟩).trans (hl.mono (nextPos_le y _).2)
    | set => exact absurd hm h2
  · intro hm
    rw [hm] at h1
    exact hl.idle ⟨h1, hq⟩

/-- What the worker processes of `mp_prefetch` over the iterators `p i` have read. -/
def mpPrefetchSrc {α : Type} {workers size : Nat} {p : Fin workers → Iter α} (pos : (i : Fin workers) → (p i).S → Nat)
    (s : (mpPrefetchOver workers size (fun i => ofIter (p i))).S) : Nat :=
  ∑ i, workerSrc (c := ofIter (p i)) (fun s => pos i s.1) (MtState.cs s i).cs

/-- C101 for `mp_prefetch` with `workers` workers: between two calls the workers have together read at most
`workers * (2 * size + 2)` elements that the user has not received (each worker's buffer and the thread prefetch above it
hold `size` elements each, and one more each is under way); one more during a call. -/
theorem mp_prefetch_read_ahead {α : Type} {workers size : Nat} (hw : 0 < workers) (hsize : 0 < size)
    {p : Fin workers → Iter α} {pos : (i : Fin workers) → (p i).S → Nat} {x : Fin workers → Nat → Option α}
    {At : (i : Fin workers) → (p i).S → Nat → Prop} {Ck : (i : Fin workers) → (p i).C → Nat → Prop}
    (hp : ∀ i, SimStream (p i) (fun n => (x i n).map .ok) (At i) (Ck i)) (hpos : ∀ i s n, At i s n → pos i s = n)
    (hx : ∀ i, StaysOver (x i)) {prog : List Op} (hprog : ∀ op ∈ prog, op = .next ∨ op = .save)
    {s : UserSys (mpPrefetchOver workers size (fun i => ofIter (p i)))}
    (hrun : UserRun _ (userInit _ prog) s) :
    mpPrefetchSrc pos s.st ≤ (s.outs.filterMap id).length + 1 + workers * (2 * size + 2) ∧
    (s.mode = .idle → mpPrefetchSrc pos s.st ≤ (s.outs.filterMap id).length + workers * (2 * size + 2)) := by
  have hL : min workers workers - 1 < workers := by omega
  have child : ∀ i, ReadsFrom (prefetchOver size (processOver size false (ofIter (p i)))) (x i)
      (fun s => workerSrc (c := ofIter (p i)) (fun s => pos i s.1) s.cs) (fun m => 1 * m + (2 * size + 2)) := by
    intro i
    refine .weaken ?_ ?_ (.prefetch size (.process size false hsize (.source (hp i) (hpos i) (hx i))))
    · intro m
      rw [if_neg (by omega)]
      omega
    · intro a b hab
      omega
  have h := tree_read_ahead (.interleave workers hL child) hprog hrun
  simp only [Finset.sum_const, Finset.card_univ, Fintype.card_fin, smul_eq_mul, one_mul] at h
  exact h

/-- What the threads of `multithread_prefetch` over the iterators `p i` have read. -/
def multithreadPrefetchSrc {α : Type} {threads size : Nat} {p : Fin threads → Iter α} (pos : (i : Fin threads) → (p i).S → Nat)
    (s : (multithreadPrefetchOver threads size (fun i => ofIter (p i))).S) : Nat :=
  ∑ i, pos i (MtState.cs s i).cs.1

/-- C101 for `multithread_prefetch`: at most `threads * (size + 1)` elements ahead between two calls. -/
theorem multithread_prefetch_read_ahead {α : Type} {threads size : Nat} (hw : 0 < threads) (hsize : 0 < size)
    {p : Fin threads → Iter α} {pos : (i : Fin threads) → (p i).S → Nat} {x : Fin threads → Nat → Option α}
    {At : (i : Fin threads) → (p i).S → Nat → Prop} {Ck : (i : Fin threads) → (p i).C → Nat → Prop}
    (hp : ∀ i, SimStream (p i) (fun n => (x i n).map .ok) (At i) (Ck i)) (hpos : ∀ i s n, At i s n → pos i s = n)
    (hx : ∀ i, StaysOver (x i)) {prog : List Op} (hprog : ∀ op ∈ prog, op = .next ∨ op = .save)
    {s : UserSys (multithreadPrefetchOver threads size (fun i => ofIter (p i)))}
    (hrun : UserRun _ (userInit _ prog) s) :
    multithreadPrefetchSrc pos s.st ≤ (s.outs.filterMap id).length + 1 + threads * (size + 1) ∧
    (s.mode = .idle → multithreadPrefetchSrc pos s.st ≤ (s.outs.filterMap id).length + threads * (size + 1)) := by
  have hL : min threads threads - 1 < threads := by omega
  have child : ∀ i, ReadsFrom (prefetchOver size (ofIter (p i))) (x i)
      (fun s => pos i s.cs.1) (fun m => 1 * m + (size + 1)) := by
    intro i
    refine .weaken ?_ ?_ (.prefetch size (.source (hp i) (hpos i) (hx i)))
    · intro m
      rw [if_neg (by omega)]
      omega
    · intro a b hab
      omega
  have h := tree_read_ahead (.interleave threads hL child) hprog hrun
  simp only [Finset.sum_const, Finset.card_univ, Fintype.card_fin, smul_eq_mul, one_mul] at h
  exact h

/-- The hypotheses are met: four workers with buffers of 2 over lists read at most 24 elements ahead. -/
example (vs : Fin 4 → List Nat) {s} (hrun : UserRun (mpPrefetchOver 4 2 (fun i => ofIter (listIter ((vs i).map Except.ok))))
    (userInit _ [.next, .save, .next]) s) :
    s.mode = .idle → mpPrefetchSrc (fun _ => id) s.st ≤ (s.outs.filterMap id).length + 24 := by
  have hx : ∀ i, StaysOver (fun n => (vs i)[n]?) := by
    intro i n hn
    rw [List.getElem?_eq_none_iff] at hn ⊢
    omega
  exact (mp_prefetch_read_ahead (by omega) (by omega) (fun i => listIter_sim (vs i)) (fun i s n h => h) hx (by simp) hrun).2

/-- … and a mixture of a batched prefetched list and another, under a process prefetch, is such a tree. -/
example (vs : List Nat) (sel : Nat → Fin 2) :
    ∃ y src, ReadsFrom (processOver 3 true (multiOver (mixTrans 2 sel) (fun _ : Fin 2 =>
      transOver (batchTrans 4 false) (prefetchOver 5 (ofIter (listIter (vs.map Except.ok))))))) y src
        (fun n => 4 * (n + 3 + 1) + ∑ _i : Fin 2, 6) := by
  have hx : StaysOver (fun n => vs[n]?) := by
    intro n hn
    rw [List.getElem?_eq_none_iff] at hn ⊢
    omega
  have h1 := ReadsFrom.batch 4 false (by omega) (.prefetch 5 (.source (pos := id) (listIter_sim vs) (fun s n h => h) hx))
  have h2 : ReadsFrom (transOver (batchTrans 4 false) (prefetchOver 5 (ofIter (listIter (vs.map Except.ok))))) _ _
      (fun m => 4 * m + 6) := .weaken (by intro n; simp; omega) (by intro a b h; omega) h1
  exact ⟨_, _, .process 3 true (by omega) (.mix sel (fun _ => h2))⟩

/-- … and a window shuffle of 10 above a thread prefetch of 5 reads at most 16 elements ahead. -/
example (vs : List Nat) : ∃ src, ReadsFrom (anchorOver (winAnchor (fun _ l => l.reverse) 10)
    (prefetchOver 5 (ofIter (listIter (vs.map Except.ok))))) (streamWindows (fun _ l => l.reverse) 10 (fun n => vs[n]?)) src
      (fun n => n + 16) := by
  have hx : StaysOver (fun n => vs[n]?) := by
    intro n hn
    rw [List.getElem?_eq_none_iff] at hn ⊢
    omega
  refine ⟨_, .weaken ?_ ?_ (.windowShuffle (fun _ l => l.reverse) 10 (by omega) (fun _ l => List.length_reverse)
    (.prefetch 5 (.source (pos := id) (listIter_sim vs) (fun s n h => h) hx)))⟩
  · intro n
    rw [if_neg (by omega)]
  · intro a b h
    omega

end Grain
