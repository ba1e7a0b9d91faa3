import Verif.Iter.Errors
import Verif.Iter.PropsCheckpoint
/-
C85: a failing element affects only itself.

`xs` are the outcomes of the calls of `next` on the parent, exceptions among them; a caller goes on after an exception.  `elements xs`
are the elements that came.  For map, map_with_index, random_map, filter, limit, repeat and flat_map the elements that come out are those
that come out of the elements `elements xs` alone.  For batch, rebatch, zip, mix and window_shuffle this is false.
-/
namespace Grain

/-! ### Transformations with which C85 holds -/

/-- C85, map: the failing elements (of the parent or of the function) are missing, all others come. -/
theorem map_failure_partial {p : Iter (Option α)} {xs : List (Py (Option α))} {ended : Bool} (hp : Resumes p xs ended)
    (f : α → Py (Option β)) :
    ∃ ys, ResumesExactly (mapIter f p) ys ended ∧ elements ys = (elements xs).filterMap (fun x =>
      match x with
      | none => some none
      | some a => (f a).toOption) := by
  refine ⟨_, map_resumes_exactly hp f, ?_⟩
  clear hp
  induction xs with
  | nil => rfl
  | cons x xs ih =>
    cases x with
    | error e => simpa [elements, mapOutcome, Except.toOption] using ih
    | ok a =>
      cases a with
      | none => simpa [elements, mapOutcome, Except.toOption] using ih
      | some a =>
        cases hfa : f a with
        | ok b => simpa [elements, mapOutcome, Except.toOption, hfa] using ih
        | error e => simpa [elements, mapOutcome, Except.toOption, hfa] using ih

private theorem countedMap_elements (g : Nat → α → Py β) : ∀ (xs : List (Py α)) (k : Nat),
    elements (countedMap g k xs) = elements (countedMap g k ((elements xs).map Except.ok)) := by
  intro xs
  induction xs with
  | nil => intro k; rfl
  | cons x xs ih =>
    intro k
    cases x with
    | error e => simpa [elements, countedMap, Except.toOption] using ih k
    | ok a =>
      have e : elements (Except.ok a :: xs) = a :: elements xs := rfl
      rw [e, List.map_cons]
      cases hg : g k a with
      | ok b =>
        simp only [countedMap, hg]
        show b :: elements _ = b :: elements _
        rw [ih (k + 1)]
      | error er =>
        simp only [countedMap, hg]
        exact ih k

/-- C85, map_with_index: the elements are those of a parent that has no failing elements; also the indices are the same. -/
theorem mapWithIndex_failure_partial {p : Iter (Option α)} {xs : List (Py (Option α))} {ended : Bool} (hp : Resumes p xs ended)
    (f : Nat → α → Py (Option β)) {q : Iter (Option α)} (hq : Resumes q ((elements xs).map Except.ok) ended) :
    ∃ ys zs, ResumesExactly (mapWithIndexIter f p) ys ended ∧ ResumesExactly (mapWithIndexIter f q) zs ended ∧ elements ys = elements zs :=
  ⟨_, _, mapWithIndex_resumes_exactly hp f, mapWithIndex_resumes_exactly hq f, countedMap_elements _ _ _⟩

/-- C85, random_map: also the random numbers are the same. -/
theorem randomMap_failure_partial {p : Iter (Option α)} {xs : List (Py (Option α))} {ended : Bool} (hp : Resumes p xs ended)
    (f : α → Nat → Py (Option β)) (i n : Nat) {q : Iter (Option α)} (hq : Resumes q ((elements xs).map Except.ok) ended) :
    ∃ ys zs, ResumesExactly (randomMapIter f i n p) ys ended ∧ ResumesExactly (randomMapIter f i n q) zs ended ∧ elements ys = elements zs :=
  ⟨_, _, randomMap_resumes_exactly hp f i n, randomMap_resumes_exactly hq f i n, countedMap_elements _ _ _⟩

/-- C85, filter. -/
theorem filter_failure_partial {p : Iter α} {xs : List (Py α)} {ended : Bool} (hp : Resumes p xs ended) (pred : α → Py Bool) :
    ∃ ys, ResumesExactly (filterIter pred none p) ys ended ∧
      elements ys = (elements xs).filter (fun a => match pred a with | .ok b => b | .error _ => false) := by
  refine ⟨_, filter_resumes_exactly hp pred, ?_⟩
  clear hp
  induction xs with
  | nil => rfl
  | cons x xs ih =>
    cases x with
    | error e => simpa [elements, filterOutcome, Except.toOption] using ih
    | ok a =>
      cases hpa : pred a with
      | error e => simpa [elements, filterOutcome, Except.toOption, hpa] using ih
      | ok b => cases b <;> simpa [elements, filterOutcome, Except.toOption, hpa] using ih

/-- C85, limit: failing elements are not counted. -/
theorem limit_failure_partial {p : Iter α} {xs : List (Py α)} (hp : Resumes p xs true) (count : Nat) :
    ∃ ys, ResumesExactly (limitIter count p) ys true ∧ elements ys = (elements xs).take count := by
  refine ⟨limitStream count xs, by simpa using limit_resumes_exactly hp count, ?_⟩
  clear hp
  induction xs generalizing count with
  | nil => cases count <;> rfl
  | cons x xs ih =>
    cases count with
    | zero => rfl
    | succ k =>
      cases x with
      | error e => simpa [elements, limitStream, Except.toOption] using ih (k + 1)
      | ok a => simpa [elements, limitStream, Except.toOption] using ih k

/-- C85, repeat. -/
theorem repeat_failure_partial {p : Iter α} {xs : List (Py α)} (hp : Resumes p xs true) (k : Nat) (hk : 0 < k) :
    ∃ ys, ResumesExactly (repeatIter (some k) p) ys true ∧ elements ys = (List.replicate k (elements xs)).flatten := by
  refine ⟨_, repeat_resumes_exactly hp k hk, ?_⟩
  clear hk
  induction k with
  | zero => rfl
  | succ k ih =>
    rw [List.replicate_succ, List.replicate_succ, List.flatten_cons, List.flatten_cons, ← ih]
    simp [elements]

/-- C85, flat_map, if its function does not raise: failing elements of the parent do no harm to a caller who takes no checkpoint.
Missing: functions that raise (`flatMap_error_repeats_elements`) and checkpoints taken after the exception
(`flatMap_checkpoint_after_failure_loses`). -/
theorem flatMap_failure_partial {p : Iter α} {xs : List (Py α)} {ended : Bool} (hp : Resumes p xs ended) {f : α → Py (List β)} {g : α → List β}
    (hf : ∀ a ∈ elements xs, f a = .ok (g a)) :
    ∃ ys, YieldsOutcomes (flatMapIter f p) ys ended ∧ elements ys = (elements xs).flatMap g := by
  refine ⟨_, flatMapIter_yields hp hf, ?_⟩
  clear hp hf
  induction xs with
  | nil => rfl
  | cons x xs ih =>
    have hm : ∀ l : List β, (l.map (Except.ok (ε := Err))).filterMap (fun x => x.toOption) = l := by
      intro l
      induction l with
      | nil => rfl
      | cons b l ihl => simpa [Except.toOption] using ihl
    cases x with
    | error e => simpa [elements, flatMapOutcomes, Except.toOption] using ih
    | ok a =>
      rw [flatMapOutcomes, List.flatMap_cons, elements, List.filterMap_append]
      show _ = (a :: elements xs).flatMap g
      rw [List.flatMap_cons, ← ih]
      congr 1
      exact hm _

/-! ### batch -/

/-- C85, batch: what it yields whichever calls of the parent fail, with exact checkpoints. -/
theorem batch_with_failures {p : Iter α} {xs : List (Py α)} {ended : Bool} (hp : Resumes p xs ended) (b : Nat) (hb : 0 < b) (drop : Bool)
    (f : List α → Py β) : ResumesExactly (batchIter b drop f p) (batchOutcomes b drop f ended [] xs) ended :=
  (batchIter_resumes_errors hp hb).exactly

/-- C85 is false of batch: when the parent fails after the elements `as`, the full batches of `as` come and the elements of the
unfinished one (`as.drop (as.length / b * b)`, see `batchStream_partition`) are lost, also from checkpoints. -/
theorem batch_failure_loses {p : Iter α} {as : List α} {e : Err} {rest : List (Py α)} {ended : Bool}
    (hp : Resumes p (as.map Except.ok ++ .error e :: rest) ended) (b : Nat) (hb : 0 < b) (drop : Bool) (f : List α → Py β) :
    ResumesExactly (batchIter b drop f p)
      (batchStream b true f as true ++ .error e :: batchOutcomes b drop f ended [] rest) ended := by
  have h := batch_with_failures hp b hb drop f
  rw [batchOutcomes_append hb _ as [] hb, List.nil_append, batchOutcomes] at h
  exact h

/-- C85, batch: failures between two batches do no harm. -/
theorem batch_failure_partial {p : Iter α} {as bs : List α} {e : Err} {ended : Bool}
    (hp : Resumes p (as.map Except.ok ++ .error e :: bs.map Except.ok) ended) (b : Nat) (hb : 0 < b) (hdvd : b ∣ as.length) (drop : Bool) :
    ∃ ys, ResumesExactly (batchIter b drop Except.ok p) ys ended ∧ ∃ zs zs', ys = zs ++ .error e :: zs' ∧
      (elements zs).flatten = as ∧ zs' = batchOutcomes b drop Except.ok ended [] (bs.map Except.ok) := by
  refine ⟨_, batch_failure_loses hp b hb drop Except.ok, _, _, rfl, ?_, rfl⟩
  obtain ⟨gs, g1, g2, _⟩ := batchStream_partition b hb true as
  rw [g1]
  have : elements (gs.map (Except.ok (ε := Err))) = gs := by
    clear g1 g2
    induction gs with
    | nil => rfl
    | cons g gs ih => simpa [elements, Except.toOption] using ih
  rw [this, g2, if_pos rfl, Nat.div_mul_cancel hdvd, List.take_length]

/-! ### rebatch, zip, mix, window_shuffle -/

/-- C85 is false of rebatch: rows taken from a batch before the parent fails are lost. -/
theorem rebatch_failure_loses (b : Nat) (r r2 : List α) (e : Err) (drop : Bool) (h1 : 0 < r.length) (h2 : r.length < b) (h3 : r2.length = b) :
    Ev (fun F => implRun (rebatchIter b drop (listIter [.ok r, .error e, .ok r2])) F (rebatchIter b drop (listIter [.ok r, .error e, .ok r2])).init []
      [.next, .next] = some [.fail e, .item r2]) := by
  refine ⟨5, fun F hF => ?_⟩
  obtain ⟨k, rfl⟩ : ∃ k, F = k + 5 := ⟨F - 5, by omega⟩
  obtain ⟨b, rfl⟩ : ∃ c, b = c + 1 := ⟨b - 1, by omega⟩
  obtain ⟨x, r, rfl⟩ := List.exists_cons_of_length_pos h1
  obtain ⟨y, r2, rfl⟩ := List.exists_cons_of_length_pos (by omega : 0 < r2.length)
  have t1 : rebatchTake (x :: r) 0 (b + 1) = (r.length + 1, x :: r, b - r.length) := by
    simp only [rebatchTake, List.length_cons, List.drop_zero]
    simp only [List.length_cons] at h2
    rw [if_neg (by omega)]
    congr 2
    omega
  have t2 : rebatchTake (y :: r2) 0 (b + 1) = (b + 1, y :: r2, 0) := by
    simp only [rebatchTake, List.length_cons, List.drop_zero]
    simp only [List.length_cons] at h3
    rw [if_pos (by omega), Nat.zero_add, List.take_of_length_le (by simp; omega)]
  have hbr : b - r.length ≠ 0 := by simp only [List.length_cons] at h2; omega
  obtain ⟨c, hc⟩ : ∃ c, b - r.length = c + 1 := ⟨b - r.length - 1, by omega⟩
  simp [implRun, rebatchIter, rebatchLoop, rebatchFetch, listIter, t1, t2, hc, rebatchFinish]

/-- C85 is false of zip: after one failure of the second input, for good, its elements are paired with the partners of their
successors; no exception tells. -/
theorem zip_failure_misaligns {ps : Fin 2 → Iter α} {a : α} {as bs : List α} {e : Err}
    (h0 : Resumes (ps 0) ((a :: as).map Except.ok) false) (h1 : Resumes (ps 1) (.error e :: bs.map Except.ok) false) :
    YieldsOutcomes (zipIter false ps) (.error e :: (as.zip bs).map (fun x => .ok [x.1, x.2])) false := by
  have h := zipIter_yields h0 h1
  have hz : ∀ as bs : List α, zipOutcomes as (bs.map Except.ok) = (as.zip bs).map (fun x => .ok [x.1, x.2]) := by
    intro as
    induction as with
    | nil => intro bs; simp [zipOutcomes]
    | cons a as ih =>
      intro bs
      cases bs with
      | nil => simp [zipOutcomes]
      | cons b bs => simp [zipOutcomes, ih]
  rw [zipOutcomes, hz] at h
  exact h

/-- C85 is false of mix: after any exception of a component, and in every checkpoint taken then, the mix has ended, whatever elements
are left. -/
theorem mix_failure_ends {n : Nat} {proportions : List Nat} {ps : Fin n → Iter α} {F : Nat} {s s' : (mixIter proportions ps).S} {e : Err}
    {d : Nat} {k : Int} (hd : datasetAndKey (s.index : Int) proportions = .ok (d, k))
    (h : (mixIter proportions ps).next F s = some (s', .fail e)) :
    (∀ F', (mixIter proportions ps).next F' s' = some (s', .stop)) ∧
    ∀ F' t t', (mixIter proportions ps).set F' t ((mixIter proportions ps).get s').2 = some (t', none) →
      ∀ F'', (mixIter proportions ps).next F'' t' = some (t', .stop) := by
  have hstop : s'.stop = true := by
    simp only [mixIter] at h
    split at h
    · have := (Prod.mk.inj (Option.some.inj h)).2
      cases this
    · rw [hd] at h
      simp only [] at h
      split at h
      · simp only [Option.bind_eq_bind, Option.bind_eq_some_iff] at h
        obtain ⟨⟨si, r⟩, _, h⟩ := h
        cases r with
        | item a =>
          have := (Prod.mk.inj (Option.some.inj h)).2
          cases this
        | stop =>
          have := (Prod.mk.inj (Option.some.inj h)).2
          cases this
        | fail e' =>
          have := (Prod.mk.inj (Option.some.inj h)).1
          rw [← this]
      · have := (Prod.mk.inj (Option.some.inj h)).1
        rw [← this]
  have hn : ∀ (t : (mixIter proportions ps).S), t.stop = true → ∀ F', (mixIter proportions ps).next F' t = some (t, .stop) := by
    intro t ht F'
    simp only [mixIter, ht, if_true]
  refine ⟨hn s' hstop, fun F' t t' hset => hn t' ?_⟩
  simp only [mixIter, Option.bind_eq_bind, Option.bind_eq_some_iff] at hset
  obtain ⟨⟨q, r⟩, _, hset⟩ := hset
  cases r with
  | some e =>
    have := (Prod.mk.inj (Option.some.inj hset)).2
    cases this
  | none =>
    have := (Prod.mk.inj (Option.some.inj hset)).1
    rw [← this]
    exact hstop

private theorem winFill_fails (xs : List (Py α)) (e : Err) (F : Nat) : ∀ (as : List α) (n q : Nat) (acc : List α), as.length < n →
    xs.drop q = as.map Except.ok ++ [.error e] →
    winFill (listIter xs) F n q acc = some (q + as.length + 1, acc ++ as, false, some e) := by
  intro as
  induction as with
  | nil =>
    intro n q acc hn hx
    obtain ⟨n, rfl⟩ : ∃ m, n = m + 1 := ⟨n - 1, by simp at hn; omega⟩
    obtain ⟨h1, _⟩ := getElem?_drop_cons hx
    have hnext : (listIter xs).next F q = some (q + 1, .fail e) := by simp only [listIter, h1]
    simp only [winFill, hnext, List.append_nil]
    rfl
  | cons a as ih =>
    intro n q acc hn hx
    obtain ⟨n, rfl⟩ : ∃ m, n = m + 1 := ⟨n - 1, by simp at hn; omega⟩
    obtain ⟨h1, h2⟩ := getElem?_drop_cons hx
    have hnext : (listIter xs).next F q = some (q + 1, .item a) := by simp only [listIter, h1]
    simp only [winFill, hnext]
    refine (ih n (q + 1) (acc ++ [a]) (by simp at hn; omega) h2).trans ?_
    have h3 : q + 1 + as.length + 1 = q + (a :: as).length + 1 := by simp; omega
    have h4 : acc ++ [a] ++ as = acc ++ a :: as := by simp
    rw [h3, h4]

private theorem implRun_next {it : Iter α} {F : Nat} {s s' : it.S} {r : Res α} {saved : List it.C} {ops : List Op} {rest : List (Res α)}
    (h : it.next F s = some (s', r)) (h2 : implRun it F s' saved ops = some rest) :
    implRun it F s saved (.next :: ops) = some (r :: rest) := by
  simp only [implRun, h, Option.bind_eq_bind, Option.bind_some, h2]

private theorem winPops (shuffle : Nat → List α → Py (List α)) (w : Nat) (p : Iter α) (F : Nat) : ∀ (l : List α) (s : WinState p.S p.C α), s.window = l →
    implRun (windowShuffleIter shuffle w p) F s [] (List.replicate l.length .next) = some (l.map .item) := by
  intro l
  induction l with
  | nil => intro s _; rfl
  | cons a l ih =>
    intro s hs
    have hn : (windowShuffleIter shuffle w p).next F s = some ({ s with pos := s.pos + 1, window := l, windowIndex := if l.isEmpty then s.windowIndex + 1 else s.windowIndex }, .item a) := by
      simp only [windowShuffleIter, hs, List.isEmpty_cons, Bool.false_eq_true, if_false, winPop]
    exact implRun_next hn (ih _ rfl)

/-- C85 is false of window_shuffle: when the parent fails, the elements already read for the window come unshuffled, the last one
first. -/
theorem windowShuffle_failure_unshuffled (shuffle : Nat → List α → Py (List α)) (as : List α) (e : Err) (w : Nat) (hw : as.length < w) :
    Ev (fun F => implRun (windowShuffleIter shuffle w (listIter (as.map Except.ok ++ [.error e]))) F
      (windowShuffleIter shuffle w (listIter (as.map Except.ok ++ [.error e]))).init []
      (List.replicate (as.length + 1) .next) = some (.fail e :: as.reverse.map .item)) := by
  refine ⟨0, fun F _ => ?_⟩
  have hfill := winFill_fails (as.map Except.ok ++ [.error e]) e F as w 0 [] hw rfl
  rw [Nat.zero_add, List.nil_append] at hfill
  have hn : (windowShuffleIter shuffle w (listIter (as.map Except.ok ++ [.error e]))).next F
      (windowShuffleIter shuffle w (listIter (as.map Except.ok ++ [.error e]))).init =
      some ({ ps := (as.length + 1 : Nat), windowIndex := 0, pos := 0, window := as.reverse, start := (0 : Nat), exhausted := false }, .fail e) := by
    simp only [windowShuffleIter, List.isEmpty_nil, if_true, Bool.false_eq_true, if_false, winFillShuffle, listIter] at hfill ⊢
    rw [hfill]
    rfl
  refine implRun_next hn ?_
  have hp := winPops shuffle w (listIter (as.map Except.ok ++ [.error e])) F as.reverse _ (rfl :
    ({ ps := (as.length + 1 : Nat), windowIndex := 0, pos := 0, window := as.reverse, start := (0 : Nat), exhausted := false } :
      WinState Nat Nat α).window = as.reverse)
  rw [List.length_reverse] at hp
  exact hp

/-! ### Checkpoints after a failure -/

/-- A source whose read of element `k` fails once (a lost connection) without losing its place, as `PrefetchDatasetIterator` without
buffer does. -/
def flakyIter (as : List α) (k : Nat) (e : Err) : Iter α where
  S := Nat × Bool
  C := Nat
  init := (0, false)
  next _ s :=
    if s.1 = k ∧ s.2 = false then some ((s.1, true), .fail e)
    else
      match as[s.1]? with
      | some a => some ((s.1 + 1, s.2), .item a)
      | none => some (s, .stop)
  get s := (s, s.1)
  set _ s c := some ((c, s.2), none)

/-- Without a checkpoint all elements come, but a checkpoint taken after the exception loses the outputs of an element: it says how many
outputs of the element before were used up, and means the next one. -/
theorem flatMap_checkpoint_after_failure_loses :
    Ev (fun F => implRun (flatMapIter (fun a => .ok [a, a]) (flakyIter [0, 1, 2] 1 .valueError)) F
        (flatMapIter (fun a => .ok [a, a]) (flakyIter [0, 1, 2] 1 .valueError)).init []
        [.next, .next, .next, .next, .next, .next] = some [.item 0, .item 0, .fail .valueError, .item 1, .item 1, .item 2]) ∧
    Ev (fun F => implRun (flatMapIter (fun a => .ok [a, a]) (flakyIter [0, 1, 2] 1 .valueError)) F
        (flatMapIter (fun a => .ok [a, a]) (flakyIter [0, 1, 2] 1 .valueError)).init []
        [.next, .next, .next, .save, .restore 0, .next] = some [.item 0, .item 0, .fail .valueError, .item 2]) := by
  constructor
  · refine ⟨5, fun F hF => ?_⟩
    obtain ⟨k, rfl⟩ : ∃ k, F = k + 5 := ⟨F - 5, by omega⟩
    rfl
  · refine ⟨5, fun F hF => ?_⟩
    obtain ⟨k, rfl⟩ : ∃ k, F = k + 5 := ⟨F - 5, by omega⟩
    rfl

/-! Non-vacuity: sources that fail, with exact checkpoints. -/

example : Resumes (listIter [.ok 1, .error .valueError, .ok 2]) [.ok 1, .error .valueError, .ok 2] true := listIter_resumes _

example : ResumesExactly (batchIter 2 false Except.ok (listIter [.ok 1, .ok 2, .ok 3, .error .valueError, .ok 4, .ok 5, .ok 6]))
    [.ok [1, 2], .error .valueError, .ok [4, 5], .ok [6]] true :=
  batch_failure_loses (as := [1, 2, 3]) (rest := [.ok 4, .ok 5, .ok 6]) (listIter_resumes _) 2 (by decide) false _

example : ∃ ys, YieldsOutcomes (flatMapIter (fun a => .ok [a, a + 1]) (listIter [.ok 1, .error .valueError, .ok 5])) ys true ∧ elements ys = [1, 2, 5, 6] :=
  flatMap_failure_partial (listIter_resumes _) (fun _ _ => rfl)

end Grain
