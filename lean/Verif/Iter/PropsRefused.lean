import Verif.Iter.Model
/-
C113.  States with a position outside the dataset, given to the iterator of `to_iter_dataset`.
-/
namespace Grain

/-- C113: `set_state` raises `IndexError` exactly for the positions outside the dataset, and an accepted position is the position
of the iterator afterwards. -/
theorem set_state_refuses_iff (size threads : Nat) (allow : Bool) (thr : Option Threshold) (ds : MapDs α) (F : Nat) (s : PrefetchState) (c : Int) :
    ∃ t e, (prefetchIter size threads allow thr ds).set F s c = some (t, e) ∧
      (e = some .indexError ↔ c < 0 ∨ (ds.len : Int) < c) ∧ (e = none ↔ 0 ≤ c ∧ c ≤ ds.len) ∧
      (e = none → ((prefetchIter size threads allow thr ds).get t).2 = c) := by
  by_cases h : c < 0 ∨ c > (ds.len : Int)
  · refine ⟨{ s with returned := c, buffered := c }, some .indexError, ?_, by simpa using h, ?_, by simp⟩
    · simp only [prefetchIter, prefetchSet, if_pos h]
    · simp only [reduceCtorEq, false_iff]
      omega
  · refine ⟨{ s with returned := c, buffered := c, buffer := [] }, none, ?_, ?_, ?_, fun _ => rfl⟩
    · simp only [prefetchIter, prefetchSet, if_neg h]
    · simp only [reduceCtorEq, false_iff]
      exact h
    · simp only [true_iff]
      omega

/-- The counts of the sparse filter check after `k` more elements; the check never raises without a threshold. -/
def countsAfter (c : Checker) : Nat → Checker
  | 0 => c
  | k + 1 => ((countsAfter c k).check none true).1

theorem check_none (c : Checker) (b : Bool) : (c.check none b).2 = none := by
  unfold Checker.check
  dsimp only
  split <;> split <;> rfl

theorem next_past {size threads : Nat} {allow : Bool} (ds : MapDs α) {c : Int} {k F : Nat} {a : α} (ha : ds.getitem (c + k) = .ok (some a))
    {s : PrefetchState} (hs : ¬ (s.size > 0 ∧ s.threads > 0)) (hb : s.buffer = []) (hne : ¬ c + (k : Int) = ds.len) :
    (prefetchIter size threads allow none ds).next (F + 1)
        { s with returned := c + k, buffered := c + k, checker := countsAfter s.checker k } =
      some ({ s with returned := c + (k + 1 : Nat), buffered := c + (k + 1 : Nat), checker := countsAfter s.checker (k + 1) },
        .item (some a)) := by
  simp only [prefetchIter, prefetchLoop, prefetchRead, if_neg hne, if_neg hs, hb, ha, Option.isSome_some, Bool.or_true, if_true]
  have h1 := check_none (countsAfter s.checker k) true
  have h2 : ((countsAfter s.checker k).check none true).1 = countsAfter s.checker (k + 1) := rfl
  generalize (countsAfter s.checker k).check none true = r at h1 h2
  obtain ⟨c', e⟩ := r
  simp only at h1 h2
  subst h1 h2
  simp only [Int.natCast_add, Int.natCast_one, Int.add_assoc]

/-- F114: an iterator without prefetching that has refused a position past the end is moved there nevertheless, and as it is past the
end it never finds the end: it goes on giving the elements of later and later epochs, for ever. -/
theorem refused_state_reads_for_ever (size threads : Nat) (allow : Bool) (ds : MapDs α) (hds : ∀ i, ∃ a, ds.getitem i = .ok (some a))
    (s : PrefetchState) (hs : ¬ (s.size > 0 ∧ s.threads > 0)) (hb : s.buffer = []) {c : Int} (hc : (ds.len : Int) < c) :
    ∃ st : Nat → PrefetchState,
      (∀ F, (prefetchIter size threads allow none ds).set F s c = some (st 0, some .indexError)) ∧
      ∀ (k F : Nat), ∃ a, ds.getitem (c + k) = .ok (some a) ∧
        (prefetchIter size threads allow none ds).next (F + 1) (st k) = some (st (k + 1), .item (some a)) := by
  refine ⟨fun k => { s with returned := c + k, buffered := c + k, checker := countsAfter s.checker k }, fun F => ?_, fun k F => ?_⟩
  · simp only [prefetchIter, prefetchSet, if_pos (Or.inr hc : c < 0 ∨ c > (ds.len : Int))]
    simp [countsAfter]
  · obtain ⟨a, ha⟩ := hds (c + k)
    exact ⟨a, ha, next_past ds ha hs hb (by omega)⟩

/-- F114: after a negative position, too, an iterator without prefetching goes on from there: it gives the elements at the negative
positions first (those of Python's `%`), then the whole dataset, and then it ends. -/
theorem refused_negative_state_reads_extra (size threads : Nat) (allow : Bool) (ds : MapDs α)
    (hds : ∀ i, ∃ a, ds.getitem i = .ok (some a)) (s : PrefetchState) (hs : ¬ (s.size > 0 ∧ s.threads > 0)) (hb : s.buffer = [])
    {c : Int} (hc : c < 0) :
    ∃ st : Nat → PrefetchState,
      (∀ F, (prefetchIter size threads allow none ds).set F s c = some (st 0, some .indexError)) ∧
      (∀ (k F : Nat), c + k < ds.len → ∃ a, ds.getitem (c + k) = .ok (some a) ∧
        (prefetchIter size threads allow none ds).next (F + 1) (st k) = some (st (k + 1), .item (some a))) ∧
      ∀ (k F : Nat), c + k = ds.len →
        (prefetchIter size threads allow none ds).next (F + 1) (st k) = some (st k, .stop) := by
  refine ⟨fun k => { s with returned := c + k, buffered := c + k, checker := countsAfter s.checker k }, fun F => ?_, fun k F hk => ?_,
    fun k F hk => ?_⟩
  · simp only [prefetchIter, prefetchSet, if_pos (Or.inl hc : c < 0 ∨ c > (ds.len : Int))]
    simp [countsAfter]
  · obtain ⟨a, ha⟩ := hds (c + k)
    exact ⟨a, ha, next_past ds ha hs hb (by omega)⟩
  · simp only [prefetchIter, prefetchLoop, if_pos hk]

/-- F114: with prefetching, once the elements that were read ahead are used up, every `next` raises `IndexError`. -/
theorem refused_state_raises_for_ever (size threads : Nat) (allow : Bool) (thr : Option Threshold) (ds : MapDs α) (s : PrefetchState)
    (hs : s.size > 0 ∧ s.threads > 0) (hb : s.buffer = []) {c : Int} (hc : (ds.len : Int) < c) :
    ∃ t, (∀ F, (prefetchIter size threads allow thr ds).set F s c = some (t, some .indexError)) ∧
      ∀ F, (prefetchIter size threads allow thr ds).next (F + 1) t = some (t, .fail .indexError) := by
  refine ⟨{ s with returned := c, buffered := c }, fun F => ?_, fun F => ?_⟩
  · simp only [prefetchIter, prefetchSet, if_pos (Or.inr hc : c < 0 ∨ c > (ds.len : Int))]
  · have hne : ¬ c = (ds.len : Int) := by omega
    have h0 : ((ds.len : Int) - c).toNat = 0 := by omega
    simp [prefetchIter, prefetchLoop, prefetchRead, hne, hs, hb, fillBuffer, h0]

/-- `[10, 11, 12]`: one element is read, a position is given to `set_state`, and one more element is read.  The outcome of `set_state`,
that element and the state after it. -/
def readSetRead (size threads : Nat) (c : Int) : Option (Option Err × Res (Option Nat) × Int) := do
  let (s, _) ← (prefetchIter size threads false none (listSource [10, 11, 12])).next 9 (prefetchIter size threads false none (listSource [10, 11, 12])).init
  let (s, e) ← (prefetchIter size threads false none (listSource [10, 11, 12])).set 9 s c
  let (s, r) ← (prefetchIter size threads false none (listSource [10, 11, 12])).next 9 s
  some (e, r, ((prefetchIter size threads false none (listSource [10, 11, 12])).get s).2)

/-- F114: the position 8 is refused.  Without prefetching the next element is 12 instead of 11; with it the element is 11, but the
state saved after it is 9, which would be refused again. -/
theorem refused_state_moves_iterator :
    readSetRead 0 0 8 = some (some .indexError, .item (some 12), 9) ∧ readSetRead 2 1 8 = some (some .indexError, .item (some 11), 9) :=
  ⟨rfl, rfl⟩

/-! ### The hypotheses are met -/

example : readSetRead 0 0 2 = some (none, .item (some 12), 3) := rfl
example : ∀ i, ∃ a, (listSource [10, 11, 12]).getitem i = .ok (some a) := by
  intro i
  have h : i % 3 = 0 ∨ i % 3 = 1 ∨ i % 3 = 2 := by omega
  rcases h with h | h | h <;> simp only [listSource, sourceDs, pymod, List.length_cons, List.length_nil, pyget] <;>
    simp [h] <;> exact ⟨_, rfl⟩
example : ((listSource [10, 11, 12]).len : Int) < 8 := by decide

/-- The position -1 is refused, and the next element is the last one. -/
example : readSetRead 0 0 (-1) = some (some .indexError, .item (some 12), 0) := rfl

end Grain
