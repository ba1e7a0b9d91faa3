import Verif.Cost.Lemmas
import Verif.Iter.Example
/-
C93: iterators read only what they need, and going back to a saved state does not read the data again from the beginning.
-/
namespace Grain

theorem costs_reads {α : Type} {p : Iter α} {R : p.S → Nat} {kn ks : ℕ∞} (h : Costs p R kn ks) : ReadsAtMost p R kn ks := by
  induction h with
  | input p => exact reads_traced p
  | map f _ ih => exact reads_map f ih
  | randomMap f i n _ ih => exact reads_randomMap f i n ih
  | mapWithIndex f _ ih => exact reads_mapWithIndex f ih
  | limit n _ ih => exact reads_limit n ih
  | filter f thr _ ih => exact reads_filter f thr ih
  | batch b drop f _ ih => exact reads_batch b drop f ih
  | flatMap f _ hf ih => exact reads_flatMap f ih hf
  | flatMapAny f _ ih => exact reads_flatMapAny f ih
  | rebatch b drop _ ih => exact reads_rebatch b drop ih
  | pack pk order _ ih => exact reads_pack pk order ih
  | rep n _ hne ih => exact reads_repeat n ih hne
  | windowShuffle sh w _ ih => exact reads_windowShuffle sh w ih
  | zip strict ps R kn ks _ ih => exact reads_zip strict ps R kn ks ih
  | mix pr ps R kn ks _ ih => exact reads_mix pr ps R kn ks ih

/-- C93: after `a` calls of `next` and `r` calls of `set_state`, the inputs of a pipeline were read at most `a * kn + r * ks` times:
creating the iterator and `get_state` read nothing, and what a restore costs does not depend on the position. -/
theorem pipeline_reads {α : Type} {p : Iter α} {R : p.S → Nat} {kn ks : ℕ∞} (h : Costs p R kn ks) {a r : Nat} {s : p.S} (hu : Used p a r s) :
    (R s : ℕ∞) ≤ a * kn + r * ks :=
  readsAtMost_used (costs_reads h) hu

/-- C93: `filter` reads up to the element that it returns and no further; what it read before was rejected. -/
theorem filter_reads_exactly (p : Iter α) (f : α → Py Bool) (thr : Option Threshold) (F : Nat) (s s' : (filterIter f thr p.traced).S) (a : α)
    (h : (filterIter f thr p.traced).next F s = some (s', .item a)) :
    ∃ l : List α, s'.1.2 = s.1.2 ++ l.map .item ++ [.item a] ∧ f a = .ok true ∧ ∀ x ∈ l, f x = .ok false := by
  have key : ∀ (n : Nat) (s s' : p.traced.S × Checker), filterLoop p.traced f thr F n s = some (s', .item a) →
      ∃ l : List α, s'.1.2 = s.1.2 ++ l.map .item ++ [.item a] ∧ f a = .ok true ∧ ∀ x ∈ l, f x = .ok false := by
    intro n
    induction n with
    | zero => intro s s' h; cases h
    | succ n ih =>
      intro s s' h
      simp only [filterLoop, Option.bind_eq_bind] at h
      cases hx : p.traced.next F s.1 with
      | none => rw [hx] at h; cases h
      | some y =>
        rw [hx, Option.bind_some] at h
        have hy : y.1.2 = s.1.2 ++ [y.2] := by
          change (p.next F s.1.1).map _ = _ at hx
          cases hz : p.next F s.1.1 with
          | none => rw [hz] at hx; cases hx
          | some z => rw [hz] at hx; cases hx; rfl
        obtain ⟨t, x⟩ := y
        cases x with
        | stop => cases h
        | fail e => cases h
        | item b =>
          dsimp only at h hy
          cases hf : f b with
          | error e => rw [hf] at h; cases h
          | ok v =>
            rw [hf] at h
            dsimp only at h
            cases hc : s.2.check thr v with
            | mk c e =>
              rw [hc] at h
              cases e with
              | some e => cases h
              | none =>
                cases v with
                | true =>
                  cases h
                  exact ⟨[], by simp [hy], hf, by simp⟩
                | false =>
                  obtain ⟨l, h1, h2, h3⟩ := ih _ _ h
                  refine ⟨b :: l, ?_, h2, ?_⟩
                  · rw [h1]; dsimp only; rw [hy]; simp
                  · intro x hx
                    rcases List.mem_cons.1 hx with rfl | hx
                    · exact hf
                    · exact h3 x hx
  exact key F s s' h

/-- C93: after `limit(n)` has returned `n` elements it reads nothing any more. -/
theorem limit_reads_no_more (n : Nat) (p : Iter α) (F : Nat) (s : (limitIter n p).S) (h : s.2 = n) :
    (limitIter n p).next F s = some (s, .stop) := by
  exact if_pos (le_of_eq h.symm)

/-! ### The cache -/

/-- An endless input. -/
def naturals : Iter Nat where
  S := Nat
  C := Nat
  init := 0
  next _ s := some (s + 1, .item s)
  get s := (s, s)
  set _ _ c := some (c, none)

/-- The state of a cache above `naturals` that was created or rebuilt and has returned `n` elements. -/
def cachedState (n : Nat) : CacheState (Nat × List (Res Nat)) Nat Nat :=
  { ps := (n, (List.range n).map .item), cache := List.range n, position := n, filled := false, rebuild := false, start := 0 }

theorem cachedState_read (n : Nat) : cacheRead naturals.traced 0 (cachedState n) = some (cachedState (n + 1), .item n) := by
  simp [cacheRead, Iter.traced, naturals, cachedState, List.range_succ]

theorem cachedState_next (n : Nat) : (cacheIter naturals.traced).next 0 (cachedState n) = some (cachedState (n + 1), .item n) :=
  cachedState_read n

theorem cachedState_used : ∀ n, Used (cacheIter naturals.traced) n 0 (cachedState n)
  | 0 => .new
  | n + 1 => .next (cachedState_used n) (cachedState_next n)

theorem cacheRefill_naturals : ∀ (n k : Nat),
    cacheRefill naturals.traced 0 n ((k, (List.range k).map .item) : Nat × List (Res Nat)) (List.range k) =
      some (((k + n, (List.range (k + n)).map .item) : Nat × List (Res Nat)), List.range (k + n), none) := by
  intro n
  induction n with
  | zero => intro k; rfl
  | succ n ih =>
    intro k
    have := ih (k + 1)
    rw [show k + 1 + n = k + (n + 1) by omega] at this
    rw [← this]
    simp [cacheRefill, Iter.traced, naturals, List.range_succ]

/-- C93 (F103): above a cache it is different.  A state saved after `n` elements, restored into a new iterator, makes the next call of
`next` read `n + 1` elements: everything from the beginning. -/
theorem cache_restore_reads_all (n : Nat) (hn : 0 < n) :
    ∃ s s', Used (cacheIter naturals.traced) n 0 s ∧
      Used (cacheIter naturals.traced) 1 1 s' ∧ s'.ps.2.length = n + 1 ∧
      ∃ t, (cacheIter naturals.traced).set 0 (cacheIter naturals.traced).init ((cacheIter naturals.traced).get s).2 = some (t, none) ∧
        ∃ r, (cacheIter naturals.traced).next 0 t = some (s', r) := by
  let t : CacheState (Nat × List (Res Nat)) Nat Nat :=
    { ps := (n, []), cache := [], position := n, filled := false, rebuild := true, start := 0 }
  have hset : (cacheIter naturals.traced).set 0 (cacheIter naturals.traced).init ((cacheIter naturals.traced).get (cachedState n)).2 = some (t, none) := by
    simp [cacheIter, Iter.traced, naturals, cachedState, t, hn]
  have hnext : (cacheIter naturals.traced).next 0 t = some (cachedState (n + 1), .item n) := by
    refine Eq.trans ?_ (cachedState_read n)
    have h := cacheRefill_naturals n 0
    rw [Nat.zero_add] at h
    show (cacheRefill naturals.traced 0 n ((0, []) : Nat × List (Res Nat)) []).bind _ = _
    exact (congrArg (Option.bind · _) h).trans rfl
  refine ⟨cachedState n, cachedState (n + 1), cachedState_used n, .next (.restore .new hset) hnext, ?_, t, hset, _, hnext⟩
  simp [cachedState]

/-! ### The bounds are met -/

/-- A batched window shuffle of a mapped input: three elements for each batch of three, and two windows are read; a restore reads one
window of two. -/
def costExample : Iter (List (Option Nat)) :=
  batchIter 3 true .ok (windowShuffleIter (fun _ l => .ok l.reverse) 2 (mapIter (fun a => .ok (some (a + 1))) (listIter ((List.range 8).map (fun i => .ok (some i)))).traced))

theorem costExample_costs : Costs costExample (fun s => s.ps.2.length) (3 * (2 * 1)) (0 + 2 * 1) :=
  .batch 3 true _ (.windowShuffle _ 2 (.map _ (.input _)))

example : ∃ s, Used costExample 1 0 s ∧ s.ps.2.length = 4 := ⟨_, .next (F := 5) .new rfl, rfl⟩

example : ∃ s, Used costExample 1 1 s ∧ s.ps.2.length = 4 + 2 :=
  ⟨_, .restore (F := 5) (c := ((6 : Nat), (3 : Nat), (1 : Nat))) (.next (F := 5) .new rfl) rfl, rfl⟩

/-- The bounds for `repeat` and `zip` are reached: at the end of an epoch `repeat` reads twice, a strict `zip` reads all its inputs. -/
example : ∃ s, Used (repeatIter none (listIter [.ok 5]).traced) 2 0 s ∧ s.ps.2.length = 3 :=
  ⟨_, .next (F := 5) (.next (F := 5) .new rfl) rfl, rfl⟩

example : NotEmpty (listIter [.ok 5]).traced := by
  intro F F' s s' s'' r h1 h2
  cases h1
  cases h2
  exact fun h => by cases h

example : ∃ s s' a, (filterIter (fun a => .ok (decide (a ≥ 2))) none naturals.traced).next 5 s = some (s', .item a) ∧ s'.1.2.length = 3 :=
  ⟨(filterIter (fun a => .ok (decide (a ≥ 2))) none naturals.traced).init, _, _, rfl, rfl⟩

end Grain
