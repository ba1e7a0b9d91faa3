import Verif.Iter.Prefetch
import Verif.Iter.Rebatch
import Verif.Iter.Example
import Verif.Shuffle.Props
/-
Properties C17-C25 and C28, and the iterator halves of C10, C12-C15: what each transformation of a stream yields, and
that its checkpoints resume exactly.

`ResumesExactly it xs ended` (Verif/Iter/Basic.lean) says that every history of `next`, `get_state` and `set_state`
calls, into the same object or a fresh one, behaves like a cursor in the fixed stream `xs`.  The streams are written
with the vocabulary of Verif/Iter/Spec.lean.  `Resumes p xs ended` is the same requirement on the parent in a form that
can be composed; `Resumes.exactly` derives `ResumesExactly` from it and Verif/Iter/PropsPipeline.lean closes the
composition.
-/
namespace Grain

/-! ### What `ResumesExactly` gives for a plain loop -/

/-- A plain iteration over an iterator that resumes exactly yields its stream and, if `ended`, then stops. -/
theorem plain_iteration {it : Iter α} {xs : List (Py α)} {ended : Bool} (h : ResumesExactly it xs ended) :
    Ev (fun F => implRun it F it.init [] (List.replicate xs.length .next) = some (xs.map toRes)) ∧
    (ended = true → ∀ k, Ev (fun F => implRun it F it.init [] (List.replicate (xs.length + k) .next) =
      some (xs.map toRes ++ List.replicate k .stop))) := by
  have stops : ∀ k, ended = true → specRun xs ended (fun _ => true) xs.length [] (List.replicate k .next) =
      some (List.replicate k .stop) := by
    intro k he
    induction k with
    | zero => rfl
    | succ k ih =>
      rw [List.replicate_succ, specRun, show outcome xs ended xs.length = some .stop by simp [outcome, he]]
      simp only [Option.bind_eq_bind, Option.bind_some]
      rw [Nat.min_eq_left (by omega), ih, List.replicate_succ]
      rfl
  have main : ∀ (n k : Nat), n ≤ xs.length → (ended = true ∨ k = 0) →
      specRun xs ended (fun _ => true) (xs.length - n) [] (List.replicate (n + k) .next) =
      some ((xs.drop (xs.length - n)).map toRes ++ List.replicate k .stop) := by
    intro n k
    induction n with
    | zero =>
      intro _ hk
      rw [Nat.sub_zero, List.drop_length, Nat.zero_add]
      rcases hk with hk | rfl
      · simpa using stops k hk
      · rfl
    | succ n ih =>
      intro hn hk
      have hlt : xs.length - (n + 1) < xs.length := by omega
      rw [show n + 1 + k = (n + k) + 1 by omega, List.replicate_succ, specRun,
        outcome_lt (List.getElem?_eq_getElem hlt)]
      simp only [Option.bind_eq_bind, Option.bind_some]
      rw [show min xs.length (xs.length - (n + 1) + 1) = xs.length - n by omega, ih (by omega) hk]
      rw [List.drop_eq_getElem_cons hlt, show xs.length - (n + 1) + 1 = xs.length - n by omega]
      rfl
  constructor
  · apply h
    have := main xs.length 0 (by omega) (Or.inr rfl)
    simpa using this
  · intro he k
    apply h
    have := main xs.length k (by omega) (Or.inl he)
    simpa using this

/-! ### C17: map, random_map, map_with_index, limit -/

/-- C17: `map`. -/
theorem map_resumes_exactly {p : Iter (Option α)} {xs : List (Py (Option α))} {ended : Bool} (hp : Resumes p xs ended)
    (f : α → Py (Option β)) : ResumesExactly (mapIter f p) (xs.map (mapOutcome f)) ended := by
  obtain ⟨At, Ck, h⟩ := hp
  exact Resumes.exactly ⟨_, _, mapIter_sim h⟩

/-- C17: `random_map`: element number `k` of the output is computed with generator number `procIndex + k * procCount`. -/
theorem randomMap_resumes_exactly {p : Iter (Option α)} {xs : List (Py (Option α))} {ended : Bool}
    (hp : Resumes p xs ended) (f : α → Nat → Py (Option β)) (procIndex procCount : Nat) :
    ResumesExactly (randomMapIter f procIndex procCount p)
      (countedMap (fun k x => match x with
        | none => .ok none
        | some a => f a (procIndex + k * procCount)) 0 xs) ended := by
  obtain ⟨At, Ck, h⟩ := hp
  have := Resumes.exactly ⟨_, _, randomMapIter_sim (f := f) (i := procIndex) (c := procCount) h⟩
  have heq : (randomMapAt f procIndex procCount : Nat → Option α → Py (Option β)) = (fun k x => match x with
        | none => .ok none
        | some a => f a (procIndex + k * procCount)) := by
    funext k x; cases x <;> rfl
  rw [heq] at this
  exact this

/-- C17: `map_with_index`. -/
theorem mapWithIndex_resumes_exactly {p : Iter (Option α)} {xs : List (Py (Option α))} {ended : Bool}
    (hp : Resumes p xs ended) (f : Nat → α → Py (Option β)) :
    ResumesExactly (mapWithIndexIter f p)
      (countedMap (fun k x => match x with
        | none => .ok none
        | some a => f k a) 0 xs) ended := by
  obtain ⟨At, Ck, h⟩ := hp
  have := Resumes.exactly ⟨_, _, mapWithIndexIter_sim (f := f) h⟩
  have heq : (mapWithIndexAt f : Nat → Option α → Py (Option β)) = (fun k x => match x with
        | none => .ok none
        | some a => f k a) := by
    funext k x; cases x <;> rfl
  rw [heq] at this
  exact this

/-- C17: `limit`: the first `count` elements, then the end (also when the parent is infinite). -/
theorem limit_resumes_exactly {p : Iter α} {xs : List (Py α)} {ended : Bool} (hp : Resumes p xs ended) (count : Nat) :
    ResumesExactly (limitIter count p) (limitStream count xs)
      (ended || decide ((limitStream count xs).length < xs.length)) := by
  obtain ⟨At, Ck, h⟩ := hp
  exact Resumes.exactly ⟨_, _, limitIter_sim h⟩

/-- On a stream without errors, `limitStream` is `take`. -/
theorem limitStream_take (count : Nat) (as : List α) :
    limitStream count (as.map (Except.ok (ε := Err))) = (as.take count).map Except.ok := by
  induction as generalizing count with
  | nil => cases count <;> simp [limitStream]
  | cons a as ih => cases count <;> simp [limitStream, ih]

example : ResumesExactly (limitIter 2 (listIter [.ok 7, .error .valueError, .ok 8, .ok 9]))
    [.ok 7, .error .valueError, .ok 8] true :=
  limit_resumes_exactly (listIter_resumes _) 2

example : ResumesExactly (mapIter (fun a => .ok (if a = 0 then none else some (10 / a)))
    (listIter [.ok (some 5), .ok none, .error .keyError, .ok (some 0)])) [.ok (some 2), .ok none, .error .keyError, .ok none] true :=
  map_resumes_exactly (listIter_resumes _) _

example : ResumesExactly (randomMapIter (fun (a r : Nat) => .ok (some (a, r))) 1 3 (listIter [.ok (some 5), .ok none, .ok (some 6)]))
    [.ok (some (5, 1)), .ok none, .ok (some (6, 7))] true :=
  randomMap_resumes_exactly (listIter_resumes _) _ 1 3

example : ResumesExactly (mapWithIndexIter (fun (i a : Nat) => .ok (some (a, i))) (listIter [.ok (some 5), .ok none, .ok (some 6)]))
    [.ok (some (5, 0)), .ok none, .ok (some (6, 2))] true :=
  mapWithIndex_resumes_exactly (listIter_resumes _) _

/-! ### C18, C14: filter -/

/-- C18, C14: `filter` yields the elements satisfying the predicate, in order (errors pass through), and resumes exactly.
This is for the default options, in which no exception is raised for sparse filters; with a raise threshold the
counters of the threshold checker are not part of the checkpoint (DESIGN.md, finding 25). -/
theorem filter_resumes_exactly {p : Iter α} {xs : List (Py α)} {ended : Bool} (hp : Resumes p xs ended)
    (pred : α → Py Bool) : ResumesExactly (filterIter pred none p) (xs.filterMap (filterOutcome pred)) ended :=
  (filterIter_resumes hp).exactly

/-- On elements and with a predicate that does not fail, the stream of `filter` is `List.filter`. -/
theorem filterStream_filter (pred : α → Bool) (as : List α) :
    (as.map (Except.ok (ε := Err))).filterMap (filterOutcome (fun a => .ok (pred a))) = (as.filter pred).map Except.ok := by
  induction as with
  | nil => rfl
  | cons a as ih =>
    rw [List.map_cons, List.filterMap_cons, List.filter_cons, ih]
    cases h : pred a <;> simp [filterOutcome, h]

example : ResumesExactly (filterIter (fun a => .ok (a % 2 == 0)) none (listIter [.ok 1, .ok 2, .error .keyError, .ok 3, .ok 4]))
    [.ok 2, .error .keyError, .ok 4] true :=
  filter_resumes_exactly (listIter_resumes _) _

/-! ### C19, C10: batch and rebatch -/

/-- C19, C10: `batch` yields consecutive groups of `b` elements (made into a batch by `f`), the last one possibly short
and dropped with `drop_remainder`, and resumes exactly. -/
theorem batch_resumes_exactly {p : Iter α} {as : List α} {ended : Bool} (hp : Resumes p (as.map Except.ok) ended) (b : Nat)
    (hb : 0 < b) (drop : Bool) (f : List α → Py β) :
    ResumesExactly (batchIter b drop f p) (batchStream b drop f as ended) ended :=
  (batchIter_resumes hp b hb drop f).exactly

/-- C10: the batches of `batch` put together are the elements, up to the dropped remainder; all but the last have exactly
`b` elements. -/
theorem batchStream_partition (b : Nat) (hb : 0 < b) (drop : Bool) (as : List α) :
    ∃ bs : List (List α), batchStream b drop Except.ok as true = bs.map Except.ok ∧
      bs.flatten = (if drop then as.take (as.length / b * b) else as) ∧
      (∀ i x, bs[i]? = some x → i + 1 < bs.length → x.length = b) ∧
      (∀ x ∈ bs, x ≠ [] ∧ (drop = true → x.length = b)) := by
  have hspec := batchCount_spec as.length b hb drop
  simp only [] at hspec
  generalize hK : batchCount as.length b drop = K at hspec
  refine ⟨(List.range K).map (group as b), ?_, ?_, ?_, ?_⟩
  · simp [batchStream, hK, List.map_map, Function.comp]
  · have key : ∀ k, ((List.range k).map (group as b)).flatten = as.take (k * b) := by
      intro k
      induction k with
      | zero => simp
      | succ k ih =>
        rw [List.range_succ, List.map_append, List.flatten_append, ih]
        simp only [List.map_cons, List.map_nil, List.flatten_cons, List.flatten_nil, List.append_nil, group]
        rw [Nat.add_mul, Nat.one_mul, List.take_add]
    rw [key]
    cases drop with
    | true =>
      have : K = as.length / b := by rw [← hK]; simp [batchCount]
      simp [this]
    | false =>
      have := (hspec.2 rfl).1
      simp [List.take_of_length_le this]
  · intro i x hx hi
    have hi' : i + 1 < K := by simpa using hi
    rw [List.getElem?_map, List.getElem?_range (by omega)] at hx
    have hxe : x = group as b i := by simpa using hx.symm
    rw [hxe]
    simp only [group, List.length_take, List.length_drop]
    have h1 : (i + 1) * b ≤ (K - 1) * b := Nat.mul_le_mul_right _ (by omega)
    have h2 : (K - 1) * b ≤ K * b := Nat.mul_le_mul_right _ (by omega)
    rw [Nat.add_mul, Nat.one_mul] at h1
    cases drop with
    | true => have := (hspec.1 rfl).1; omega
    | false => have := (hspec.2 rfl).2 (by omega); omega
  · intro x hx
    obtain ⟨i, hi, rfl⟩ := List.mem_map.1 hx
    rw [List.mem_range] at hi
    have h1 : i * b + b ≤ K * b := by rw [← Nat.succ_mul]; exact Nat.mul_le_mul_right _ hi
    have h2 : i * b ≤ (K - 1) * b := Nat.mul_le_mul_right _ (by omega)
    have hlen : (group as b i).length = min b (as.length - i * b) := by simp [group]
    constructor
    · intro hc
      rw [hc, List.length_nil] at hlen
      cases drop with
      | true => have := (hspec.1 rfl).1; omega
      | false => have := (hspec.2 rfl).2 (by omega); omega
    · rintro rfl
      have := (hspec.1 rfl).1
      omega

/-- C19: `rebatch` of nonempty batches yields the same rows in batches of `b` and resumes exactly.
Partial: the hypothesis `hend` excludes the case in which, with `drop_remainder=False`, the row count is a multiple of
`b`; there a checkpoint taken after the last batch yields one more, empty, batch (`rebatch_end_spurious_batch`). -/
theorem rebatch_resumes_exactly_partial {p : Iter (List α)} {bs : List (List α)} {ended : Bool}
    (hp : Resumes p (bs.map Except.ok) ended) (hne : ∀ b ∈ bs, b ≠ []) (b : Nat) (hb : 0 < b) (drop : Bool)
    (hend : ended = true → drop = false → b ∣ bs.flatten.length → bs = []) :
    ResumesExactly (rebatchIter b drop p) (batchStream b drop Except.ok bs.flatten ended) ended :=
  (rebatchIter_resumes hp hne b hb drop hend).exactly

/-- The excluded case: with `drop_remainder=False`, one input batch `[1, 2]` and `b = 2`: iterating yields `[1, 2]` and
stops, but restoring the checkpoint taken after `[1, 2]` makes the next call return an empty batch. -/
theorem rebatch_end_spurious_batch :
    ¬ ResumesExactly (rebatchIter 2 false (listIter [.ok [1, 2]])) [.ok [1, 2]] true := by
  intro h
  obtain ⟨k, hk⟩ := h [.next, .save, .fresh 0, .next] [.item [1, 2], .stop] (by decide)
  have h1 := hk (k + 5) (by omega)
  have h2 : implRun (rebatchIter 2 false (listIter [.ok [1, 2]])) (k + 5)
      (rebatchIter 2 false (listIter [.ok [1, 2]])).init [] [.next, .save, .fresh 0, .next] =
      some [.item [1, 2], .item []] := rfl
  cases h2.symm.trans h1

example : ResumesExactly (batchIter 2 false Except.ok (listIter [.ok 1, .ok 2, .ok 3])) [.ok [1, 2], .ok [3]] true :=
  batch_resumes_exactly (as := [1, 2, 3]) (listIter_resumes _) 2 (by decide) false _

example : ResumesExactly (rebatchIter 2 false (listIter [.ok [1], .ok [2, 3, 4], .ok [5]]))
    [.ok [1, 2], .ok [3, 4], .ok [5]] true :=
  rebatch_resumes_exactly_partial (bs := [[1], [2, 3, 4], [5]]) (listIter_resumes _) (by decide) 2 (by decide) false
    (by decide)

/-! ### C20, C15: flat_map -/

/-- C20, C15: `flat_map` yields the fan-outs in order and resumes exactly.
Partial: a checkpoint taken at the end of the data is only covered for fresh iterators
(`flatMap_end_restored_into_used`), and the user function is assumed not to raise (`flatMap_error_repeats_elements`). -/
theorem flatMap_resumes_exactly_partial {p : Iter α} {as : List α} {g : α → List β} {f : α → Py (List β)} {ended : Bool}
    (hp : Resumes p (as.map Except.ok) ended) (hf : ∀ a ∈ as, f a = .ok (g a)) :
    ResumesExactlyWhen (fun m => decide (m < (as.flatMap g).length)) (flatMapIter f p) ((as.flatMap g).map Except.ok)
      ended := by
  obtain ⟨At, Ck, h, _⟩ := flatMapIter_sim hp hf
  exact h.exactly

/-- The excluded case: restoring an end-of-data checkpoint into a used iterator keeps the elements buffered there: the
iterator yields an element again instead of stopping. -/
theorem flatMap_end_restored_into_used :
    ¬ ResumesExactly (flatMapIter (fun a => .ok [a, a + 1]) (listIter [.ok 10])) [.ok 10, .ok 11] true := by
  intro h
  obtain ⟨k, hk⟩ := h [.save, .next, .next, .next, .save, .restore 0, .next, .restore 1, .next]
    [.item 10, .item 11, .stop, .item 10, .stop] (by decide)
  have h1 := hk (k + 9) (by omega)
  have h2 : implRun (flatMapIter (fun a => .ok [a, a + 1]) (listIter [.ok 10])) (k + 9)
      (flatMapIter (fun a => .ok [a, a + 1]) (listIter [.ok 10])).init []
      [.save, .next, .next, .next, .save, .restore 0, .next, .restore 1, .next] =
      some [.item 10, .item 11, .stop, .item 10, .item 10] := rfl
  cases h2.symm.trans h1

/-- If the function raises for an element, the next calls return the outputs of the previous element again. -/
theorem flatMap_error_repeats_elements :
    Ev (fun F => implRun (flatMapIter (fun a => if a = 1 then .error .valueError else .ok [a, a]) (listIter [.ok 0, .ok 1, .ok 2])) F
      (flatMapIter (fun a => if a = 1 then .error .valueError else .ok [a, a]) (listIter [.ok 0, .ok 1, .ok 2])).init []
      (List.replicate 7 .next) =
      some [.item 0, .item 0, .fail .valueError, .item 0, .item 0, .item 2, .item 2]) := by
  refine ⟨5, fun F hF => ?_⟩
  obtain ⟨k, rfl⟩ : ∃ k, F = k + 5 := ⟨F - 5, by omega⟩
  rfl

example : ResumesExactlyWhen (fun m => decide (m < 3)) (flatMapIter (fun a => .ok (List.replicate a a)) (listIter [.ok 2, .ok 0, .ok 1]))
    [.ok 2, .ok 2, .ok 1] true :=
  flatMap_resumes_exactly_partial (as := [2, 0, 1]) (g := fun a => List.replicate a a) (listIter_resumes _) (by intros; rfl)

/-! ### C21, C12: repeat -/

/-- C21, C12: `repeat(k)` yields the parent's stream `k` times, and ends. -/
theorem repeat_resumes_exactly {p : Iter α} {xs : List (Py α)} (hp : Resumes p xs true) (k : Nat) (hk : 0 < k) :
    ResumesExactly (repeatIter (some k) p) (List.replicate k xs).flatten true :=
  (repeatIter_resumes hp (some k) k hk true (Or.inl ⟨rfl, rfl⟩)).exactly

/-- C21, C12: `repeat(None)` yields the parent's stream again and again: any number `k` of epochs. -/
theorem repeat_forever_resumes_exactly {p : Iter α} {xs : List (Py α)} (hp : Resumes p xs true) (k : Nat) (hk : 0 < k) :
    ResumesExactly (repeatIter none p) (List.replicate k xs).flatten false :=
  (repeatIter_resumes hp none k hk false (Or.inr ⟨rfl, rfl⟩)).exactly

/-- `repeat(None)` of an empty stream never returns from the first `next` call: whatever the number of loop turns allowed,
the call does not come back. -/
theorem repeat_forever_empty_hangs (F : Nat) :
    implRun (repeatIter none (listIter ([] : List (Py Nat)))) F (repeatIter none (listIter ([] : List (Py Nat)))).init []
      [.next] = none := by
  have key : ∀ (n : Nat) (s : RepeatState (listIter ([] : List (Py Nat))).S (listIter ([] : List (Py Nat))).C),
      repeatLoop (listIter ([] : List (Py Nat))) none F n s = none := by
    intro n
    induction n with
    | zero => intro s; rfl
    | succ n ih =>
      intro s
      simp only [repeatLoop, listIter, List.getElem?_nil, Option.bind_eq_bind, Option.bind_some]
      rw [if_neg (by simp)]
      exact ih _
  simp only [implRun, repeatIter]
  rw [if_neg (by simp), key]
  rfl

example : ResumesExactly (repeatIter (some 2) (listIter [.ok 1, .error .keyError])) [.ok 1, .error .keyError, .ok 1, .error .keyError] true :=
  repeat_resumes_exactly (listIter_resumes _) 2 (by decide)

/-! ### C22: cache -/

/-- C22: with the cache, any known prefix of the parent's stream is unchanged and resumes exactly (so always, as long as
the end of the data has not been reached). -/
theorem cache_resumes_exactly_before_end {p : Iter α} {as : List α} (hp : Resumes p (as.map Except.ok) false) :
    ResumesExactly (cacheIter p) (as.map Except.ok) false := (cacheIter_resumes_prefix hp).exactly

/-- C22: to the end of the data and beyond, the cache is invisible and resumes exactly into fresh iterators.
Partial: restoring into a used iterator is not covered once the end has been reached
(`cache_restored_into_used_wrong`). -/
theorem cache_resumes_exactly_partial {p : Iter α} {as : List α} (hp : Resumes p (as.map Except.ok) true) :
    ResumesExactlyWhen (fun _ => false) (cacheIter p) (as.map Except.ok) true := by
  obtain ⟨At, Ck, h⟩ := cacheIter_sim_fresh hp
  exact h.exactly

/-- The excluded case: a checkpoint of a filled cache that is restored into a fresh iterator and saved again before the
next read records a wrong pair of positions; restoring it into a used iterator repeats an element. -/
theorem cache_restored_into_used_wrong :
    ¬ ResumesExactly (cacheIter (listIter [.ok 5, .ok 6])) [.ok 5, .ok 6] true := by
  intro h
  obtain ⟨k, hk⟩ := h
    [.save, .next, .next, .next, .restore 0, .next, .save, .fresh 1, .save, .fresh 0, .next, .restore 2, .next]
    [.item 5, .item 6, .stop, .item 5, .item 5, .item 6] (by decide)
  have h1 := hk (k + 9) (by omega)
  have h2 : implRun (cacheIter (listIter [.ok 5, .ok 6])) (k + 9)
      (cacheIter (listIter [.ok 5, .ok 6])).init []
      [.save, .next, .next, .next, .restore 0, .next, .save, .fresh 1, .save, .fresh 0, .next, .restore 2, .next] =
      some [.item 5, .item 6, .stop, .item 5, .item 5, .item 5] := rfl
  cases h2.symm.trans h1

example : ResumesExactlyWhen (fun _ => false) (cacheIter (listIter [.ok 5, .ok 6])) [.ok 5, .ok 6] true :=
  cache_resumes_exactly_partial (as := [5, 6]) (listIter_resumes _)

/-! ### C23: window shuffle -/

/-- The reordering of one window: defined for every window of at most `2^64` elements, with the same length, and a
permutation unless the length is one of those excluded in C02. -/
theorem reshuffleWindow_spec (keysOf : Nat → List (BitVec 32)) (seed : Nat) (hs : seed < 2 ^ 32) (l : List α)
    (hl : l.length ≤ 2 ^ 64) :
    ∃ l', reshuffleWindow keysOf l seed = .ok l' ∧ l'.length = l.length ∧ (¬ BadLength l.length → l'.Perm l) := by
  rcases Nat.eq_zero_or_pos l.length with h0 | h0
  · have : l = [] := List.eq_nil_of_length_eq_zero h0
    subst this
    exact ⟨[], rfl, rfl, fun _ => List.Perm.refl _⟩
  · let d : α := l[0]
    have hlt : ∀ i, i < l.length → indexShuffle i (l.length - 1) (keysOf seed) < l.length := by
      intro i hi
      obtain ⟨y, hy, _, h⟩ := indexShuffle_terminates i l.length (keysOf seed) hi hl
      omega
    refine ⟨(List.range l.length).map (fun i => l.getD (indexShuffle i (l.length - 1) (keysOf seed)) d), ?_, by simp, ?_⟩
    · unfold reshuffleWindow
      apply mapM_ok_of_forall
      intro i hi
      have h1 := hlt i (List.mem_range.1 hi)
      rw [if_neg (by omega), List.getElem?_eq_getElem h1]
      simp [List.getD_eq_getElem?_getD, List.getElem?_eq_getElem h1]
    · intro hb
      have hp := indexShuffle_perm_partial l.length (keysOf seed) h0 hl hb
      have h1 := hp.map (fun j => l.getD j d)
      rw [List.map_map] at h1
      refine h1.trans (List.Perm.of_eq ?_)
      apply List.ext_getElem
      · simp
      · intro i h2 h3
        simp [List.getD_eq_getElem?_getD, List.getElem?_eq_getElem h3]

/-- C23: the window shuffle of a stream yields, window by window, a reordering of the parent's window that depends only
on the seed, the number of the window and its contents, and resumes exactly.  The reordering is a permutation except for
the window sizes excluded in C02.
Partial: the seed plus the number of windows must stay below `2^32` (`windowShuffle_seed_overflow`). -/
theorem windowShuffle_resumes_exactly_partial (keysOf : Nat → List (BitVec 32)) (seed w : Nat) (hw : 0 < w)
    (h64 : w ≤ 2 ^ 64) :
    ∃ σ : Nat → List α → List α,
      (∀ i l, seed + i < 2 ^ 32 → l.length ≤ w → (σ i l).length = l.length ∧ (¬ BadLength l.length → (σ i l).Perm l)) ∧
      ∀ (p : Iter α) (as : List α) (ended : Bool), Resumes p (as.map Except.ok) ended →
        seed + (as.length + w - 1) / w < 2 ^ 32 →
        ResumesExactly (windowShuffleIter (fun i l => reshuffleWindow keysOf l (seed + i)) w p)
          ((windowStream w σ as ended).map Except.ok) ended := by
  let τ : Nat → List α → List α := fun i l => match reshuffleWindow keysOf l (seed + i) with
    | .ok l' => l'
    | .error _ => l
  have hτ : ∀ i l, seed + i < 2 ^ 32 → l.length ≤ w → reshuffleWindow keysOf l (seed + i) = .ok (τ i l) ∧
      (τ i l).length = l.length ∧ (¬ BadLength l.length → (τ i l).Perm l) := by
    intro i l hi hl
    obtain ⟨l', h1, h2, h3⟩ := reshuffleWindow_spec keysOf (seed + i) hi l (by omega)
    have : τ i l = l' := by simp only [τ]; rw [h1]
    rw [this]
    exact ⟨h1, h2, h3⟩
  refine ⟨fun i l => (τ i l).reverse, ?_, ?_⟩
  · intro i l hi hl
    obtain ⟨_, h2, h3⟩ := hτ i l hi hl
    exact ⟨by rw [List.length_reverse, h2], fun hb => (List.reverse_perm _).trans (h3 hb)⟩
  · intro p as ended hp hseed
    refine (windowShuffleIter_resumes hw hp (σ := τ) ?_).exactly
    intro i hi l hl
    have hle : batchCount as.length w (!ended) ≤ (as.length + w - 1) / w := by
      unfold batchCount
      split
      · exact Nat.div_le_div_right (by omega)
      · exact Nat.le_refl _
    obtain ⟨h1, h2, _⟩ := hτ i l (by omega) hl
    exact ⟨h1, h2⟩

/-- What a stream of reordered windows is: as long as the parent (without an incomplete last window if the data is not
known to end), and each window is the reordered parent's window. -/
theorem windowStream_windows (w : Nat) (hw : 0 < w) (σ : Nat → List α → List α) (as : List α) (ended : Bool)
    (hσ : ∀ i, i < batchCount as.length w (!ended) → (σ i (group as w i)).length = (group as w i).length) :
    (windowStream w σ as ended).length = (if ended then as.length else as.length / w * w) ∧
    ∀ i, i < batchCount as.length w (!ended) → group (windowStream w σ as ended) w i = σ i (group as w i) := by
  have hspec := batchCount_spec as.length w hw (!ended)
  simp only [] at hspec
  have hgl : ∀ i, (group as w i).length = min w (as.length - i * w) := by intro i; simp [group]
  have hk : 0 < batchCount as.length w (!ended) → (batchCount as.length w (!ended) - 1) * w < as.length := by
    intro h0
    cases ended with
    | true => exact (hspec.2 rfl).2 h0
    | false =>
      have h1 := (hspec.1 rfl).1
      have : (batchCount as.length w (!false) - 1) * w < batchCount as.length w (!false) * w :=
        Nat.mul_lt_mul_of_pos_right (by omega) hw
      omega
  have hl : ∀ i, i < batchCount as.length w (!ended) → (σ i (group as w i)).length = min w (as.length - i * w) :=
    fun i hi => by rw [hσ i hi, hgl]
  constructor
  · have h1 := (flatten_groups _ w as.length _ hl hk).1
    unfold windowStream
    rw [h1]
    cases ended with
    | true => have := (hspec.2 rfl).1; simp only [if_true]; omega
    | false =>
      have h2 := (hspec.1 rfl).1
      have h3 : batchCount as.length w (!false) = as.length / w := by simp [batchCount]
      rw [h3] at h2 ⊢
      simp only [Bool.false_eq_true, if_false]; omega
  · intro i hi
    exact flatten_groups_group _ w as.length _ hl hk i hi

/-- The excluded case: window number `2^32 - seed` cannot be shuffled, the binding rejects the seed. -/
theorem windowShuffle_seed_overflow (keysOf : Nat → List (BitVec 32)) (seed i : Nat) (h : 2 ^ 32 ≤ seed + i) (a : α)
    (l : List α) : reshuffleWindow keysOf (a :: l) (seed + i) = .error .typeError := by
  unfold reshuffleWindow
  rw [List.length_cons, List.range_succ_eq_map, List.mapM_cons, if_pos h]
  rfl

example : ∃ σ : Nat → List Nat → List Nat, ResumesExactly
    (windowShuffleIter (fun i l => reshuffleWindow (fun _ => [1, 2, 3, 4]) l (7 + i)) 2 (listIter ([1, 2, 3].map Except.ok)))
    (((σ 0 [1, 2]) ++ (σ 1 [3])).map Except.ok) true := by
  obtain ⟨σ, _, h⟩ := windowShuffle_resumes_exactly_partial (α := Nat) (fun _ => [1, 2, 3, 4]) 7 2 (by decide) (by decide)
  refine ⟨σ, ?_⟩
  have := h _ [1, 2, 3] true (listIter_resumes _) (by decide)
  simpa [windowStream, batchCount, group, List.range_succ] using this

/-! ### C25, C13: zip -/

/-- C25, C13: `zip` yields the rows up to the shortest parent (in strict mode: parents of equal lengths). -/
theorem zip_resumes_exactly {n : Nat} (hn : 0 < n) (strict : Bool) {ps : Fin n → Iter α} {as : Fin n → List α}
    {ended : Bool} (hp : ∀ i, Resumes (ps i) ((as i).map Except.ok) ended)
    (hs : strict = true → ended = true → ∀ i j, (as i).length = (as j).length) :
    ResumesExactly (zipIter strict ps) ((zipStream as).map Except.ok) ended :=
  (zipIter_resumes hn strict hp hs).exactly

/-- C25, C13: in strict mode with parents of different lengths, the rows are followed by a `ValueError`. -/
theorem zip_strict_raises {n : Nat} (hn : 0 < n) {ps : Fin n → Iter α} {as : Fin n → List α}
    (hp : ∀ i, Resumes (ps i) ((as i).map Except.ok) true) (hd : ∃ i j, (as i).length ≠ (as j).length) :
    ResumesExactly (zipIter true ps) ((zipStream as).map Except.ok ++ [.error .valueError]) false :=
  (zipIter_strict_error hn hp hd).exactly

example : ResumesExactly (zipIter false (fun i : Fin 2 => listIter (([[1, 2, 3], [4, 5]] : List (List Nat))[i].map Except.ok)))
    [.ok [1, 4], .ok [2, 5]] true :=
  zip_resumes_exactly (by decide) false (as := fun i : Fin 2 => ([[1, 2, 3], [4, 5]] : List (List Nat))[i])
    (fun _ => listIter_resumes _) (by simp)

example : ResumesExactly (zipIter true (fun i : Fin 2 => listIter (([[1, 2, 3], [4, 5]] : List (List Nat))[i].map Except.ok)))
    [.ok [1, 4], .ok [2, 5], .error .valueError] false :=
  zip_strict_raises (by decide) (as := fun i : Fin 2 => ([[1, 2, 3], [4, 5]] : List (List Nat))[i])
    (fun _ => listIter_resumes _) ⟨0, 1, by decide⟩

/-! ### C24: mix -/

/-- C24: `mix` yields at each step the next element of the component the proportions select (`mixOutcome`), as long as
there is one; an exhausted or failing component ends the stream. -/
theorem mix_resumes_exactly {n : Nat} (hn : 0 < n) {proportions : List Nat} (hlen : proportions.length = n)
    (hpos : ∀ p ∈ proportions, 0 < p) {ps : Fin n → Iter α} {xs : Fin n → List (Py α)}
    (hp : ∀ i, Resumes (ps i) (xs i) true) {ys : List (Py α)}
    (hys : ∀ m, m < ys.length → ys[m]? = mixOutcome proportions xs m)
    (herr : ∀ k e, ys[k]? = some (.error e) → k + 1 = ys.length)
    (hend : (∃ e, ys.getLast? = some (.error e)) ∨ mixOutcome proportions xs ys.length = none) :
    ResumesExactly (mixIter proportions ps) ys true :=
  (mixIter_resumes hn hlen hpos hp hys (fun k e h => ⟨herr k e h, rfl⟩)
    (fun _ => hend.imp id (fun h => ⟨rfl, h⟩)) (fun h => by cases h)).exactly

/-- C24: the same for components of which a prefix is known. -/
theorem mix_resumes_exactly_prefix {n : Nat} (hn : 0 < n) {proportions : List Nat} (hlen : proportions.length = n)
    (hpos : ∀ p ∈ proportions, 0 < p) {ps : Fin n → Iter α} {as : Fin n → List α}
    (hp : ∀ i, Resumes (ps i) ((as i).map Except.ok) false) {ys : List α}
    (hys : ∀ m, m < ys.length → (ys[m]?).map Except.ok = mixOutcome proportions (fun i => (as i).map Except.ok) m)
    (hpre : ∀ i : Fin n, drawn proportions i 0 ys.length < (as i).length) :
    ResumesExactly (mixIter proportions ps) (ys.map Except.ok) false := by
  refine (mixIter_resumes hn hlen hpos hp (ended' := false) ?_ ?_ (fun h => by cases h) ?_).exactly
  · intro m hm
    rw [List.getElem?_map]
    exact hys m (by simpa using hm)
  · intro k e h
    rw [List.getElem?_map, Option.map_eq_some_iff] at h
    obtain ⟨_, _, h⟩ := h
    cases h
  · intro _ i
    simpa using hpre i

example : ResumesExactly (mixIter [1, 2] (fun i : Fin 2 => listIter (([[1, 2], [3, 4, 5, 6, 7]] : List (List Nat))[i].map Except.ok)))
    [.ok 1, .ok 3, .ok 4, .ok 2, .ok 5, .ok 6] true := by
  refine mix_resumes_exactly (n := 2) (by decide) (proportions := [1, 2]) rfl (by decide)
    (xs := fun i : Fin 2 => ([[1, 2], [3, 4, 5, 6, 7]] : List (List Nat))[i].map Except.ok) (fun _ => listIter_resumes _) ?_ ?_ ?_
  · decide
  · intro k e h
    rcases k with _ | _ | _ | _ | _ | _ | k <;> simp at h
  · right; decide

/-! ### C28: to_iter_dataset -/

/-- C28: for every buffer size and thread count, changed at will while running, iterating over a random access dataset
yields its non-`None` elements (all elements with `allow_nones`) in index order, and resumes exactly: every history of
`next`, `get_state`, `set_state` and changes of the settings behaves like a cursor in that list. -/
theorem prefetch_resumes_exactly {ds : MapDs α} {vs : List (Option α)} (size threads : Nat) (allow : Bool)
    (hlen : vs.length = ds.len) (hv : ∀ k (hk : k < vs.length), ds.getitem k = .ok vs[k])
    (ops : List (PrefetchTweak ⊕ Op)) (outs : List (Res (Option α)))
    (h : specRun ((vs.filter (fun x => allow || x.isSome)).map Except.ok) true (fun _ => true) 0 [] (untweaked ops) =
      some outs) :
    Ev (fun F => implRunT (prefetchIter size threads allow none ds) (prefetchTweak ds.len) F
      (prefetchIter size threads allow none ds).init [] ops = some outs) := by
  have sim := prefetchIter_sim (allow := allow) size threads true [] (by simp) (by omega) hv (fun _ => ⟨hlen, rfl⟩) (by simp)
  simp only [List.map_nil, List.append_nil] at sim
  exact sim_runT sim (fun s n t hs => prefetchTweak_inv s n t hs) ops _ 0 [] [] outs sim.init rfl
    (by intro i c p hc; simp at hc) h

/-- C28, C51: up to and including the first read that raises, the outcomes do not depend on the settings either.
Partial for C51: nothing is said about the calls after the exception; there the outcomes do depend on the buffer size
(`read_error_shifts_stream`). -/
theorem prefetch_until_error_partial {ds : MapDs α} {vs : List (Option α)} (size threads : Nat) (allow : Bool) (e : Err)
    (hlen : vs.length < ds.len) (hv : ∀ k (hk : k < vs.length), ds.getitem k = .ok vs[k])
    (he : ds.getitem vs.length = .error e)
    (ops : List (PrefetchTweak ⊕ Op)) (outs : List (Res (Option α)))
    (h : specRun ((vs.filter (fun x => allow || x.isSome)).map Except.ok ++ [.error e]) false (fun _ => true) 0 []
      (untweaked ops) = some outs) :
    Ev (fun F => implRunT (prefetchIter size threads allow none ds) (prefetchTweak ds.len) F
      (prefetchIter size threads allow none ds).init [] ops = some outs) := by
  have sim := prefetchIter_sim (allow := allow) size threads false [e] (by simp) (by omega) hv (fun h => by cases h)
    (by intro e' he'; rw [List.mem_singleton.1 he']; exact ⟨hlen, he⟩)
  exact sim_runT sim (fun s n t hs => prefetchTweak_inv s n t hs) ops _ 0 [] [] outs sim.init rfl
    (by intro i c p hc; simp at hc) h

/-- A dataset of length 3 whose element 1 cannot be read. -/
def badRead : MapDs Nat where
  len := 3
  getitem i := if i = 1 then .error .valueError else .ok (some i.toNat)
  getitems is := is.mapM (fun i => if i = 1 then .error .valueError else .ok (some i.toNat))

/-- C51 is false of the code: after a failed read the following outcomes depend on the buffer size.  Without a buffer the
same read is tried again and again; with a buffer of 2 the stream goes on with the next element and then, instead of
ending, raises `IndexError`; with a checkpoint in between, that element is returned again. -/
theorem read_error_shifts_stream :
    Ev (fun F => implRun (prefetchIter 0 0 false none badRead) F (prefetchIter 0 0 false none badRead).init []
      [.next, .next, .next, .next] = some [.item (some 0), .fail .valueError, .fail .valueError, .fail .valueError]) ∧
    Ev (fun F => implRun (prefetchIter 2 1 false none badRead) F (prefetchIter 2 1 false none badRead).init []
      [.next, .next, .next, .next] = some [.item (some 0), .fail .valueError, .item (some 2), .fail .indexError]) ∧
    Ev (fun F => implRun (prefetchIter 2 1 false none badRead) F (prefetchIter 2 1 false none badRead).init []
      [.next, .next, .next, .save, .fresh 0, .next] =
      some [.item (some 0), .fail .valueError, .item (some 2), .item (some 2)]) := by
  refine ⟨⟨2, fun F hF => ?_⟩, ⟨2, fun F hF => ?_⟩, ⟨2, fun F hF => ?_⟩⟩ <;>
    obtain ⟨k, rfl⟩ : ∃ k, F = k + 2 := ⟨F - 2, by omega⟩
  · rfl
  · rfl
  · rfl

/-- A dataset of length 4 with one `None`. -/
def sparse4 : MapDs Nat where
  len := 4
  getitem i := .ok (if i = 1 then none else some i.toNat)
  getitems is := is.mapM (fun i => .ok (if i = 1 then none else some i.toNat))

example : Ev (fun F => implRunT (prefetchIter 2 3 false none sparse4) (prefetchTweak 4) F
    (prefetchIter 2 3 false none sparse4).init []
    [.inl .startPrefetch, .inr .next, .inr .save, .inl (.setSize 0), .inr .next, .inl (.setThreads 1), .inr .next,
     .inr .next, .inr (.restore 0), .inr .next] =
    some [.item (some 0), .item (some 2), .item (some 3), .stop, .item (some 2)]) :=
  prefetch_resumes_exactly (vs := [some 0, none, some 2, some 3]) 2 3 false rfl (by decide) _ _ (by decide)

end Grain
