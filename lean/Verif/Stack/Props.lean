import Verif.Stack.Streams
import Verif.Stack.ProcessUser
import Verif.Stack.MultiStreams
import Verif.Stack.InterleaveStreams
import Verif.Stack.AnchorPack
import Verif.Stack.AnchorRepeat
import Verif.Iter.Example
/-
C95: stacks of thread prefetches and sequential transformations, among them `device_put`.
C97: the same with process prefetches in the stack.
C98: trees: `zip` and `mix` of stacks.  (C100, interleaves of stacks, is in InterleaveProps.lean; C103 and
C104, window shuffle, packing, flat_map, repeat and rebatch of stacks, in AnchorProps.lean.)
-/
namespace Grain

/-- A tree without interleaves.  (A repeat over an interleave loses elements in the code, see C27, because the states that the
interleave has given out change.)  A repeat sets `keep` of the process prefetches below (repeat.py:98-110); here it may be
anything. -/
inductive NoInterleave : {β : Type} → ConcIter β → Prop
  | source {α : Type} (p : Iter α) : NoInterleave (ofIter p)
  | prefetch {α : Type} {c : ConcIter α} (size : Nat) : NoInterleave c → NoInterleave (prefetchOver size c)
  | trans {α β : Type} {c : ConcIter α} (T : Trans α β) : NoInterleave c → NoInterleave (transOver T c)
  | process {α : Type} {c : ConcIter α} (size : Nat) (keep : Bool) : NoInterleave c → NoInterleave (processOver size keep c)
  | zip {α : Type} {n : Nat} {c : Fin (n + 1) → ConcIter α} (strict : Bool) : (∀ i, NoInterleave (c i)) →
      NoInterleave (multiOver (zipTrans n strict) c)
  | mix {α : Type} {n : Nat} {c : Fin n → ConcIter α} (sel : Nat → Fin n) : (∀ i, NoInterleave (c i)) →
      NoInterleave (multiOver (mixTrans n sel) c)
  | anchor {α β : Type} {c : ConcIter α} (T : Anchor α β) : NoInterleave c → NoInterleave (anchorOver T c)

/-- A stack of layers over a source.  The second argument is the stream that the layers stand for: what one would get
without any thread. -/
inductive Stacked : {β : Type} → ConcIter β → (Nat → Option β) → Prop
  /-- any sequential iterator that resumes exactly (C17–C28, C36–C40, … prove it of the pipelines of grain) -/
  | source {α : Type} {p : Iter α} {x : Nat → Option α} : ResumesStream p (fun n => (x n).map .ok) → StaysOver x →
      Stacked (ofIter p) x
  | prefetch {α : Type} {c : ConcIter α} {x : Nat → Option α} (size : Nat) : Stacked c x → Stacked (prefetchOver size c) x
  | map {α β : Type} {c : ConcIter α} {x : Nat → Option α} (f : α → β) : Stacked c x →
      Stacked (transOver (mapTrans f) c) (fun n => (x n).map f)
  | mapWithIndex {α β : Type} {c : ConcIter α} {x : Nat → Option α} (f : Nat → α → β) : Stacked c x →
      Stacked (transOver (mapIndexTrans f) c) (fun n => (x n).map (f n))
  | limit {α : Type} {c : ConcIter α} {x : Nat → Option α} (count : Nat) : Stacked c x →
      Stacked (transOver (limitTrans count) c) (streamTake count x)
  | batch {α : Type} {c : ConcIter α} {x : Nat → Option α} (b : Nat) (drop : Bool) : 0 < b → Stacked c x →
      Stacked (transOver (batchTrans b drop) c) (streamBatch b drop x)
  /-- a process prefetch; the code demands a positive buffer size (process_prefetch.py:159-162) -/
  | process {α : Type} {c : ConcIter α} {x : Nat → Option α} (size : Nat) (keep : Bool) : 0 < size → Stacked c x →
      Stacked (processOver size keep c) x
  /-- a filter; `Filtered` says what passes, and that there is always a further element that passes or the end
  (otherwise `next` of a filter does not return) -/
  | filter {α : Type} {c : ConcIter α} {x y : Nat → Option α} {pos : Nat → Nat} (f : α → Bool) : Filtered f x y pos →
      Stacked c x → Stacked (transOver (filterTrans f) c) y
  /-- a `zip` of at least one dataset; with `strict` the datasets must have the same length -/
  | zip {α : Type} {n : Nat} {c : Fin (n + 1) → ConcIter α} {x : Fin (n + 1) → Nat → Option α} (strict : Bool) :
      (strict = true → EqualLengths x) → (∀ i, Stacked (c i) (x i)) →
      Stacked (multiOver (zipTrans n strict) c) (streamZip x)
  /-- a mixture in which the dataset of each position is given by `sel` -/
  | mix {α : Type} {n : Nat} {c : Fin n → ConcIter α} {x : Fin n → Nat → Option α} (sel : Nat → Fin n) :
      (∀ i, Stacked (c i) (x i)) → Stacked (multiOver (mixTrans n sel) c) (streamMix sel x)
  /-- an interleave of at least one dataset; `streamInterleave_interleaves` says what its stream is -/
  | interleave {α : Type} {n : Nat} {c : Fin n → ConcIter α} {x : Fin n → Nat → Option α} (cycle : Nat)
      (hL : min cycle n - 1 < n) : (∀ i, Stacked (c i) (x i)) → Stacked (interleaveOver n cycle c) (streamInterleave x hL)
  /-- a window shuffle; `shuffle i` is the shuffle of window number `i` -/
  | windowShuffle {α : Type} {c : ConcIter α} {x : Nat → Option α} (shuffle : Nat → List α → List α) (w : Nat) : 0 < w →
      (∀ i l, (shuffle i l).length = l.length) → Stacked c x →
      Stacked (anchorOver (winAnchor shuffle w) c) (streamWindows shuffle w x)
  /-- a packing; `Packs` says what the rows are -/
  | pack {E R : Type} {c : ConcIter E} {x : Nat → Option E} {y : Nat → Option R} {cut first : Nat → Nat} (pk : Packer E R)
      (order : Nat → List R → List Nat) : IsOrder order → Packs pk order x y cut first → Stacked c x →
      Stacked (anchorOver (packAnchor pk order) c) y
  /-- a flat_map of a stream that does not end (see F4 for the end) -/
  | flatMap {α β : Type} {c : ConcIter α} {x : Nat → Option α} {y : Nat → Option β} {first : Nat → Nat} (f : α → List β) :
      Flattens f x y first → Stacked c x → Stacked (anchorOver (flatMapAnchor f) c) y
  /-- a repeat of a stream of `len` elements.  An empty stream repeated for ever does not return (repeat.py:117-128). -/
  | repeated {α : Type} {c : ConcIter α} {x : Nat → Option α} (epochs : Option Nat) (len : Nat) : (∀ n, (x n).isSome ↔ n < len) →
      (len = 0 → epochs ≠ none) → epochs ≠ some 0 → NoInterleave c → Stacked c x →
      Stacked (anchorOver (repeatAnchor epochs) c) (streamRepeat epochs len x)
  /-- a repeat of a stream that does not end -/
  | repeatedEndless {α : Type} {c : ConcIter α} {x : Nat → Option α} (epochs : Option Nat) : (∀ n, (x n).isSome) →
      epochs ≠ some 0 → NoInterleave c → Stacked c x → Stacked (anchorOver (repeatAnchor epochs) c) x
  /-- a rebatch; without `drop_remainder` the rows must not fill the last batch (C19 says what happens then) -/
  | rebatch {α : Type} {c : ConcIter (List α)} {x : Nat → Option (List α)} {r : Nat → Option α} {first : Nat → Nat} (b : Nat)
      (drop : Bool) : 0 < b → Concats x r first → (drop = true ∨ ∀ k, x k = none → k = 0 ∨ first k % b ≠ 0) → Stacked c x →
      Stacked (anchorOver (rebatchAnchor b drop) c) (streamBatch b drop r)

theorem Stacked.follows {β : Type} {c : ConcIter β} {x : Nat → Option β} (h : Stacked c x) :
    StaysOver x ∧ ∃ I K, Follows c x I K := by
  induction h with
  | source h1 h2 => exact ⟨h2, ofIter_follows h1⟩
  | prefetch size _ ih =>
    obtain ⟨h0, I, K, h⟩ := ih
    exact ⟨h0, _, _, prefetch_follows (size := size) h⟩
  | map f _ ih =>
    obtain ⟨h0, I, K, h⟩ := ih
    refine ⟨?_, _, _, trans_follows h (mapTrans_computes f _)⟩
    intro n hn
    simp only [Option.map_eq_none_iff] at hn ⊢
    exact h0 n hn
  | mapWithIndex f _ ih =>
    obtain ⟨h0, I, K, h⟩ := ih
    refine ⟨?_, _, _, trans_follows h (mapIndexTrans_computes f _)⟩
    intro n hn
    simp only [Option.map_eq_none_iff] at hn ⊢
    exact h0 n hn
  | limit count _ ih =>
    obtain ⟨h0, I, K, h⟩ := ih
    refine ⟨?_, _, _, trans_follows h (limitTrans_computes count _)⟩
    intro n hn
    unfold streamTake at hn ⊢
    split at hn
    · split
      · exact h0 n hn
      · rfl
    · rw [if_neg (by omega)]
  | batch b drop hb _ ih =>
    obtain ⟨h0, I, K, h⟩ := ih
    exact ⟨streamBatch_staysOver hb drop h0, _, _, trans_follows h (batchTrans_computes hb drop h0)⟩
  | process size keep hs _ ih =>
    obtain ⟨h0, I, K, h⟩ := ih
    exact ⟨h0, _, _, process_follows (keep := keep) (kick := true) h hs⟩
  | filter f hf _ ih =>
    obtain ⟨h0, I, K, h⟩ := ih
    exact ⟨filtered_staysOver hf, _, _, trans_follows h (filterTrans_computes hf)⟩
  | zip strict hlen _ ih =>
    have h0 := fun i => (ih i).1
    choose I K h using fun i => (ih i).2
    exact ⟨streamZip_staysOver h0, _, _, multi_follows h (zipTrans_computes hlen)⟩
  | mix sel _ ih =>
    choose I K h using fun i => (ih i).2
    exact ⟨streamMix_staysOver sel _, _, _, multi_follows h (mixTrans_computes sel _)⟩
  | interleave cycle hL _ ih =>
    choose I K h using fun i => (ih i).2
    exact ⟨streamInterleave_staysOver _ hL, _, _, renewed_follows (multi_follows h (ilTrans_computes _ hL))⟩
  | windowShuffle shuffle w hw hs _ ih =>
    obtain ⟨h0, I, K, h⟩ := ih
    exact ⟨streamWindows_staysOver hw hs h0, _, _, anchor_follows h (winAnchor_computes hw hs h0)⟩
  | pack pk order hord hp _ ih =>
    obtain ⟨h0, I, K, h⟩ := ih
    exact ⟨packs_staysOver hord hp, _, _, anchor_follows h (packAnchor_computes hord hp)⟩
  | flatMap f hf _ ih =>
    obtain ⟨h0, I, K, h⟩ := ih
    exact ⟨flattens_staysOver hf, _, _, anchor_follows h (flatMapAnchor_computes hf)⟩
  | repeated epochs len hx h0 h1 _ _ ih =>
    obtain ⟨_, I, K, h⟩ := ih
    exact ⟨streamRepeat_staysOver hx h0, _, _, anchor_follows h (repeatAnchor_computes hx h0 h1)⟩
  | repeatedEndless epochs hx h1 _ _ ih =>
    obtain ⟨h0, I, K, h⟩ := ih
    exact ⟨h0, _, _, anchor_follows h (repeatAnchor_endless hx h1)⟩
  | rebatch b drop hb hr hend _ ih =>
    obtain ⟨_, I, K, h⟩ := ih
    exact ⟨streamBatch_staysOver hb drop (concats_staysOver hr), _, _, anchor_follows h (rebatchAnchor_computes hr hb hend)⟩

variable {α β : Type}

/-- C95: whatever the schedule of all the threads of the stack, a user who reads, saves, rewinds and restarts after
crashes has at every moment seen a prefix of what the stream without threads gives for the same calls, and has seen all
of it when the calls are done. -/
theorem stacked_threads_invisible {c : ConcIter α} {x : Nat → Option α} (h : Stacked c x) {prog : List Op}
    {total : List (Option α)} (hspec : streamRun x 0 [] prog = some total) {s : UserSys c}
    (hrun : UserRun c (userInit c prog) s) : s.outs <+: total ∧ (s.finished → s.outs = total) := by
  obtain ⟨-, I, K, hf⟩ := h.follows
  obtain ⟨n, ps, h1, h2, h3⟩ := userInv_run hf hspec hrun
  constructor
  · revert h3
    cases s.mode <;> (rintro ⟨rest, -, rfl⟩; exact ⟨_, rfl⟩)
  · rintro ⟨hm, hp⟩
    rw [hm] at h3
    obtain ⟨rest, h4, h5⟩ := h3
    rw [hp] at h4
    simp only [streamRun, Option.some.injEq] at h4
    subst h4
    simpa using h5.symm

/-- C95: the stack never deadlocks: until the user is done, some thread can go on. -/
theorem stacked_threads_no_deadlock {c : ConcIter α} {x : Nat → Option α} (h : Stacked c x) {prog : List Op}
    (hspec : (streamRun x 0 [] prog).isSome) {s : UserSys c} (hrun : UserRun c (userInit c prog) s)
    (hf : ¬ s.finished) : ∃ t, UserStep c s t := by
  obtain ⟨total, ht⟩ := Option.isSome_iff_exists.1 hspec
  obtain ⟨-, I, K, hF⟩ := h.follows
  exact user_live hF (userInv_run hF ht hrun) hf

/-- C95: no schedule goes on for ever: every call returns, and the threads that read ahead stop when the buffers are
full.  No fairness is needed. -/
theorem stacked_threads_terminate {c : ConcIter α} {x : Nat → Option α} (h : Stacked c x) {prog : List Op}
    (hspec : (streamRun x 0 [] prog).isSome) (f : Nat → UserSys c) (h0 : f 0 = userInit c prog) :
    ¬ ∀ i, UserStep c (f i) (f (i + 1)) := by
  obtain ⟨total, ht⟩ := Option.isSome_iff_exists.1 hspec
  obtain ⟨-, I, K, hF⟩ := h.follows
  have hacc : Acc (fun t s => UserStep c s t) (f 0) := by
    rw [h0]
    exact user_acc hF (userInv_init hF ht)
  intro hall
  have : ∀ s, Acc (fun t s => UserStep c s t) s → ∀ i, f i = s → False := by
    intro s hs
    induction hs with
    | intro s _ ih =>
      rintro i rfl
      exact ih _ (hall i) (i + 1) rfl
  exact this _ hacc 0 rfl

/-- C95, the three together: the calls can be completed, and however the threads are scheduled, when nothing can go on
any more the user is done and has seen exactly what the stream gives. -/
theorem stacked_threads_complete {c : ConcIter α} {x : Nat → Option α} (h : Stacked c x) {prog : List Op}
    {total : List (Option α)} (hspec : streamRun x 0 [] prog = some total) :
    (∃ s, UserRun c (userInit c prog) s ∧ s.finished) ∧
    ∀ s, UserRun c (userInit c prog) s → (∀ t, ¬ UserStep c s t) → s.finished ∧ s.outs = total := by
  constructor
  · obtain ⟨-, I, K, hF⟩ := h.follows
    have hacc := user_acc hF (userInv_init hF hspec)
    have key : ∀ s, Acc (fun t s => UserStep c s t) s → UserRun c (userInit c prog) s →
        ∃ s, UserRun c (userInit c prog) s ∧ s.finished := by
      intro s hs
      induction hs with
      | intro s _ ih =>
        intro hr
        by_cases hfin : s.finished
        · exact ⟨s, hr, hfin⟩
        · obtain ⟨t, ht⟩ := user_live hF (userInv_run hF hspec hr) hfin
          exact ih t ht (.tail hr ht)
    exact key _ hacc (.refl _)
  · intro s hr hstuck
    by_cases hfin : s.finished
    · exact ⟨hfin, (stacked_threads_invisible h hspec hr).2 hfin⟩
    · obtain ⟨t, ht⟩ := stacked_threads_no_deadlock h (by simp [hspec]) hr hfin
      exact absurd ht (hstuck t)

/-- C95 for `device_put`: with any two buffer sizes, over any stack, the user gets the elements of the dataset, each
transferred once, in order, and resumes exactly; no schedule of the user and the two prefetch threads (and of the
threads below) deadlocks. -/
theorem device_put_invisible {c : ConcIter α} {x : Nat → Option α} (h : Stacked c x) (put : α → β)
    (cpuBuffer deviceBuffer : Nat) {prog : List Op} {total : List (Option β)}
    (hspec : streamRun (fun n => (x n).map put) 0 [] prog = some total)
    {s : UserSys (devicePut cpuBuffer deviceBuffer put c)}
    (hrun : UserRun (devicePut cpuBuffer deviceBuffer put c) (userInit _ prog) s) :
    s.outs <+: total ∧ (s.finished → s.outs = total) ∧
    (¬ s.finished → ∃ t, UserStep (devicePut cpuBuffer deviceBuffer put c) s t) := by
  have hs : Stacked (devicePut cpuBuffer deviceBuffer put c) (fun n => (x n).map put) :=
    .prefetch _ (.map put (.prefetch _ h))
  exact ⟨(stacked_threads_invisible hs hspec hrun).1, (stacked_threads_invisible hs hspec hrun).2,
    stacked_threads_no_deadlock hs (by simp [hspec]) hrun⟩

/-- C97: a process prefetch over any stack, with any layers of the main process above it.  Whatever the schedule of the
main process, the worker process and all the threads of both, a user who reads, saves, rewinds at any moment (also while
earlier rewinds are still on their way to the worker, or after the end) and restarts after crashes sees what the
pipeline without processes and threads gives; there is no deadlock and no call takes for ever. -/
theorem process_prefetch_invisible {c : ConcIter α} {x : Nat → Option α} (h : Stacked c x) {size : Nat} (hsize : 0 < size)
    (keep : Bool) {prog : List Op} {total : List (Option α)} (hspec : streamRun x 0 [] prog = some total) :
    (∀ s, UserRun (processOver size keep c) (userInit _ prog) s →
      s.outs <+: total ∧ (s.finished → s.outs = total) ∧
      (¬ s.finished → ∃ t, UserStep (processOver size keep c) s t)) ∧
    ∀ f : Nat → UserSys (processOver size keep c), f 0 = userInit _ prog →
      ¬ ∀ i, UserStep (processOver size keep c) (f i) (f (i + 1)) := by
  have hs : Stacked (processOver size keep c) x := .process size keep hsize h
  refine ⟨fun s hrun => ⟨(stacked_threads_invisible hs hspec hrun).1, (stacked_threads_invisible hs hspec hrun).2,
    stacked_threads_no_deadlock hs (by simp [hspec]) hrun⟩, fun f h0 => ?_⟩
  exact stacked_threads_terminate hs (by simp [hspec]) f h0

/-- C98: a mixture of any stacks with positive weights.  Whatever the schedule of the user and of all the threads and
processes of all the components, a user who reads, saves, rewinds and restarts after crashes sees at position `m` the
next unused element of the component that `_dataset_and_key_of_next_element` names for `m`, until that component has
none; there is no deadlock and no call takes for ever. -/
theorem mix_of_stacks_invisible {n : Nat} {c : Fin (n + 1) → ConcIter α} {x : Fin (n + 1) → Nat → Option α}
    (h : ∀ i, Stacked (c i) (x i)) {proportions : List Nat} (hlen : proportions.length = n + 1)
    (hpos : ∀ p ∈ proportions, 0 < p) :
    ∃ sel : Nat → Fin (n + 1), (∀ m : Nat, ∃ key, datasetAndKey (m : Int) proportions = .ok ((sel m).val, key)) ∧
      ∀ {prog : List Op} {total : List (Option α)}, streamRun (streamMix sel x) 0 [] prog = some total →
      (∀ s, UserRun (multiOver (mixTrans (n + 1) (mixSel n proportions)) c) (userInit _ prog) s →
        s.outs <+: total ∧ (s.finished → s.outs = total) ∧
        (¬ s.finished → ∃ t, UserStep (multiOver (mixTrans (n + 1) (mixSel n proportions)) c) s t)) ∧
      ∀ f : Nat → UserSys (multiOver (mixTrans (n + 1) (mixSel n proportions)) c), f 0 = userInit _ prog →
        ¬ ∀ i, UserStep (multiOver (mixTrans (n + 1) (mixSel n proportions)) c) (f i) (f (i + 1)) := by
  refine ⟨mixSel n proportions, mixSel_eq hlen hpos, ?_⟩
  intro prog total hspec
  have hs : Stacked (multiOver (mixTrans (n + 1) (mixSel n proportions)) c) _ := .mix _ h
  refine ⟨fun s hrun => ⟨(stacked_threads_invisible hs hspec hrun).1, (stacked_threads_invisible hs hspec hrun).2,
    stacked_threads_no_deadlock hs (by simp [hspec]) hrun⟩, fun f h0 => ?_⟩
  exact stacked_threads_terminate hs (by simp [hspec]) f h0

/-- C98: the same of a `zip` of any stacks: element `m` is made of the elements `m` of all of them.  Without `strict` it
ends with the shortest; with `strict` the stacks have to be equally long. -/
theorem zip_of_stacks_invisible {n : Nat} {c : Fin (n + 1) → ConcIter α} {x : Fin (n + 1) → Nat → Option α}
    (h : ∀ i, Stacked (c i) (x i)) {strict : Bool} (hlen : strict = true → EqualLengths x) {prog : List Op}
    {total : List (Option (List α))} (hspec : streamRun (streamZip x) 0 [] prog = some total) :
    (∀ s, UserRun (multiOver (zipTrans n strict) c) (userInit _ prog) s →
      s.outs <+: total ∧ (s.finished → s.outs = total) ∧
      (¬ s.finished → ∃ t, UserStep (multiOver (zipTrans n strict) c) s t)) ∧
    ∀ f : Nat → UserSys (multiOver (zipTrans n strict) c), f 0 = userInit _ prog →
      ¬ ∀ i, UserStep (multiOver (zipTrans n strict) c) (f i) (f (i + 1)) := by
  have hs : Stacked (multiOver (zipTrans n strict) c) (streamZip x) := .zip strict hlen h
  refine ⟨fun s hrun => ⟨(stacked_threads_invisible hs hspec hrun).1, (stacked_threads_invisible hs hspec hrun).2,
    stacked_threads_no_deadlock hs (by simp [hspec]) hrun⟩, fun f h0 => ?_⟩
  exact stacked_threads_terminate hs (by simp [hspec]) f h0

/-! ### The hypotheses are met -/

/-- A source of the elements 1, 2, 3, 4, 5. -/
def fiveSource : ConcIter Nat := ofIter (listIter [.ok 1, .ok 2, .ok 3, .ok 4, .ok 5])

theorem five_source : Stacked fiveSource (fun n => [1, 2, 3, 4, 5][n]?) := by
  refine .source ?_ ?_
  · have := (listIter_resumes [Except.ok 1, .ok 2, .ok 3, .ok 4, .ok (5 : Nat)]).stream
    have he : (fun n : Nat => ([1, 2, 3, 4, 5] : List Nat)[n]?.map (Except.ok : Nat → Py Nat)) =
        (fun n : Nat => [Except.ok 1, .ok 2, .ok 3, .ok 4, .ok (5 : Nat)][n]?) := by
      funext n
      rw [← List.getElem?_map]
      rfl
    rw [he]
    exact this
  · intro n hn
    rw [List.getElem?_eq_none_iff] at hn ⊢
    omega

/-- A stack of three prefetches with a map, a batch and a limit between them, and a user who saves, reads on, rewinds,
and restarts after a crash. -/
example : ∃ c : ConcIter (List Nat), ∃ x, Stacked c x ∧
    streamRun x 0 [] [.next, .save, .next, .restore 0, .next, .next, .fresh 0, .next] =
      some [some [2, 4], some [6, 8], some [6, 8], none, some [6, 8]] :=
  ⟨_, _, .limit 2 (.prefetch 3 (.batch 2 false (by omega) (.prefetch 0 (.map (2 * ·) (.prefetch 1 five_source))))),
    by decide⟩

/-- The last, shorter batch is dropped or kept. -/
example : (List.range 4).map (streamBatch 2 true (fun n => [1, 2, 3][n]?)) = [some [1, 2], none, none, none] ∧
    (List.range 4).map (streamBatch 2 false (fun n => [1, 2, 3][n]?)) = [some [1, 2], some [3], none, none] := by
  decide

/-- `device_put` with its default buffers. -/
example (put : Nat → String) : Stacked (devicePut 4 2 put fiveSource) (fun n => [1, 2, 3, 4, 5][n]?.map put) :=
  .prefetch 2 (.map put (.prefetch 4 five_source))

/-- `device_put` over a process prefetch whose worker prefetches with threads, and a user who rewinds past the end. -/
example (put : Nat → Nat) : Stacked (devicePut 4 2 put (processOver 1 false (prefetchOver 3 fiveSource)))
      (fun n => [1, 2, 3, 4, 5][n]?.map put) ∧
    streamRun (fun n => [1, 2, 3, 4, 5][n]?) 0 []
      [.next, .save, .next, .next, .next, .next, .next, .restore 0, .restore 0, .next, .fresh 0, .next] =
      some [some 1, some 2, some 3, some 4, some 5, none, some 2, some 2] :=
  ⟨.prefetch 2 (.map put (.prefetch 4 (.process 1 false (by omega) (.prefetch 3 five_source)))), by decide⟩

/-- A prefetched mixture of a process prefetch, a filtered thread prefetch and a `zip` of two stacks; a user who saves in
the middle of it, reads past the end of a component, and goes back. -/
example : ∃ c : ConcIter Nat, ∃ x, Stacked c x ∧
    streamRun x 0 [] [.next, .next, .next, .next, .save, .next, .next, .next, .next, .restore 0, .next, .fresh 0, .next] =
      some [some 2, some 1, some 12, some 4, some 2, some 14, none, none, some 2, some 2] := by
  obtain ⟨pos, hpos⟩ := filtered_list (· % 2 == 0) [1, 2, 3, 4, 5]
  have hz : Stacked (multiOver (zipTrans 1 false) (fun _ => prefetchOver 3 fiveSource)) (streamZip fun _ n => [1, 2, 3, 4, 5][n]?) :=
    .zip false (by simp) fun _ => .prefetch 3 five_source
  refine ⟨_, _, .prefetch 2 (.mix (n := 3) (fun m => ⟨m % 3, by omega⟩)
    (c := fun i => match i with
      | 0 => transOver (filterTrans (· % 2 == 0)) (prefetchOver 1 fiveSource)
      | 1 => processOver 1 false (prefetchOver 2 fiveSource)
      | 2 => transOver (mapTrans (fun l : List Nat => 10 + 2 * l.headD 0)) (multiOver (zipTrans 1 false) (fun _ => prefetchOver 3 fiveSource)))
    (x := fun i => match i with
      | 0 => fun n => ([1, 2, 3, 4, 5].filter (· % 2 == 0))[n]?
      | 1 => fun n => [1, 2, 3, 4, 5][n]?
      | 2 => fun n => (streamZip (fun _ : Fin 2 => fun n => [1, 2, 3, 4, 5][n]?) n).map (fun l : List Nat => 10 + 2 * l.headD 0))
    (fun i => match i with
      | 0 => .filter _ hpos (.prefetch 1 five_source)
      | 1 => .process 1 false (by omega) (.prefetch 2 five_source)
      | 2 => .map _ hz)), ?_⟩
  decide +kernel

/-- Streams of unequal lengths, zipped and mixed in turns. -/
example : (List.range 4).map (streamZip (fun i : Fin 2 => fun n => (if i = 0 then [1, 2, 3] else [4, 5])[n]?)) =
      [some [1, 4], some [2, 5], none, none] ∧
    (List.range 7).map (streamMix (fun m => ⟨m % 2, by omega⟩) (fun i : Fin 2 => fun n => (if i = 0 then [1, 2, 3] else [4, 5])[n]?)) =
      [some 1, some 4, some 2, some 5, some 3, none, none] := by
  decide +kernel

/-- Weights 1 and 2: the components of the first positions. -/
example : (List.range 6).map (mixSel 1 [1, 2]) = [0, 1, 1, 0, 1, 1] := by decide +kernel

end Grain
