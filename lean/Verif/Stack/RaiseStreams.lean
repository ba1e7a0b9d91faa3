import Verif.Stack.RaisePrefetch
/-
The outcomes computed by the transformations when elements raise, and the user of a stack.
-/
namespace Grain
namespace Raise

theorem mapTrans_computes (f : α → Py β) (x : Nat → Option (Py α)) :
    Computes (mapTrans f) x (fun n => (x n).map (· >>= f)) (fun n i _ => i = n) := by
  constructor
  · rfl
  · rintro n i l rfl
    refine Or.inr ⟨(), 1, nextPos x i, (), rfl, .last ?_, ?_⟩
    · rcases hx : x i with _ | (e | a) <;> rfl
    · cases hx : x i <;> simp [nextPos, hx]
  · rintro n i k l rfl hl
    refine ⟨k, ⟨hl.1, fun j h1 h2 => ?_⟩, rfl⟩
    obtain ⟨e, he⟩ := hl.2 j h1 h2
    exact ⟨e, by simp [he]; rfl⟩

theorem elementsBefore_succ (x : Nat → Option (Py α)) (n : Nat) :
    elementsBefore x (n + 1) = elementsBefore x n + match x n with | some (.ok _) => 1 | _ => 0 := by
  unfold elementsBefore
  rw [List.range_succ, List.countP_append]
  rcases hx : x n with _ | (e | a) <;> simp [hx]

theorem elementsBefore_lag {x : Nat → Option (Py α)} {k n : Nat} (h : Lagging x k n) :
    elementsBefore x n = elementsBefore x k := by
  obtain ⟨h1, h2⟩ := h
  induction n, h1 using Nat.le_induction with
  | base => rfl
  | succ n hk ih =>
    obtain ⟨e, he⟩ := h2 n hk (by omega)
    rw [elementsBefore_succ, he]
    exact ih (fun j a b => h2 j a (by omega))

theorem limitTrans_computes (count : Nat) (x : Nat → Option (Py α)) :
    Computes (limitTrans count) x (streamTakeRaise count x)
      (fun n i l => i = n ∧ l = elementsBefore x n ∧ ∀ j < n, elementsBefore x j < count) := by
  constructor
  · exact ⟨rfl, rfl, fun j hj => by omega⟩
  · rintro n i l ⟨hi, hl, h⟩
    subst hi hl
    by_cases hc : elementsBefore x i < count
    · have hy : streamTakeRaise count x i = x i := by simp [streamTakeRaise, hc]
      have hn : nextPos (streamTakeRaise count x) i = nextPos x i := by simp [nextPos, hy]
      refine Or.inr ⟨elementsBefore x i, 1, nextPos x i, elementsBefore x (nextPos x i), ?_, ?_, ?_⟩
      · exact if_neg (by omega)
      · rw [hy]
        refine .last ?_
        rcases hx : x i with _ | (e | a)
        · simp [nextPos, hx, limitTrans]
        · simp [nextPos, hx, limitTrans, elementsBefore_succ]
        · simp [nextPos, hx, limitTrans, elementsBefore_succ]
      · rw [hn]
        refine ⟨rfl, rfl, fun j hj => ?_⟩
        have : nextPos x i ≤ i + 1 := by unfold nextPos; split <;> omega
        by_cases hji : j = i
        · rw [hji]; exact hc
        · exact h j (by omega)
    · have hy : streamTakeRaise count x i = none := by simp [streamTakeRaise, hc]
      have hn : nextPos (streamTakeRaise count x) i = i := by simp [nextPos, hy]
      refine Or.inl ⟨elementsBefore x i, ?_, ?_⟩
      · rw [hy]
        exact if_pos (by omega)
      · rw [hn]
        exact ⟨rfl, rfl, h⟩
  · rintro n i k l ⟨rfl, rfl, h⟩ hl
    refine ⟨k, ⟨hl.1, fun j h1 h2 => ?_⟩, rfl, elementsBefore_lag hl, fun j hj => h j (by have := hl.1; omega)⟩
    obtain ⟨e, he⟩ := hl.2 j h1 h2
    exact ⟨e, by rw [streamTakeRaise, if_pos (h j h2), he]⟩

/-- The number of the element at position `n`. -/
def indexAt (f : Nat → α → Py β) (x : Nat → Option (Py α)) : Nat → Nat
  | 0 => 0
  | n + 1 => (indexedFrom f x n).2

theorem indexedFrom_eq (f : Nat → α → Py β) (x : Nat → Option (Py α)) (n : Nat) :
    indexedFrom f x n = indexedFrom.indexedAt f (x n) (indexAt f x n) := by
  cases n <;> rfl

theorem indexAt_succ (f : Nat → α → Py β) (x : Nat → Option (Py α)) (n : Nat) :
    indexAt f x (n + 1) = (indexedFrom.indexedAt f (x n) (indexAt f x n)).2 := by
  rw [indexAt, indexedFrom_eq]

theorem indexAt_lag {f : Nat → α → Py β} {x : Nat → Option (Py α)} {k n : Nat} (h : Lagging x k n) :
    indexAt f x n = indexAt f x k := by
  obtain ⟨h1, h2⟩ := h
  induction n, h1 using Nat.le_induction with
  | base => rfl
  | succ n hk ih =>
    obtain ⟨e, he⟩ := h2 n hk (by omega)
    rw [indexAt, indexedFrom_eq, he]
    exact ih (fun j a b => h2 j a (by omega))

theorem mapIndexTrans_computes (f : Nat → α → Py β) (x : Nat → Option (Py α)) :
    Computes (mapIndexTrans f) x (streamIndexRaise f x) (fun n i l => i = n ∧ l = indexAt f x n) := by
  have hy : ∀ n, streamIndexRaise f x n = (x n).map (fun r => r >>= f (indexAt f x n)) := by
    intro n
    rw [streamIndexRaise, indexedFrom_eq]
    rcases hx : x n with _ | (e | a) <;> simp [indexedFrom.indexedAt] <;> rfl
  constructor
  · exact ⟨rfl, rfl⟩
  · rintro n i l ⟨hi, hl⟩
    subst hi hl
    have hn : nextPos (streamIndexRaise f x) i = nextPos x i := by
      cases hx : x i <;> simp [nextPos, hy, hx]
    refine Or.inr ⟨indexAt f x i, 1, nextPos x i, indexAt f x (nextPos x i), rfl, .last ?_, ?_⟩
    · rcases hx : x i with _ | (e | a)
      · simp [nextPos, hx, mapIndexTrans, hy]
      · simp [nextPos, hx, mapIndexTrans, hy, indexAt_succ, indexedFrom.indexedAt]
        rfl
      · cases hf : f (indexAt f x i) a with
        | ok b => simp [nextPos, hx, mapIndexTrans, hy, indexAt_succ, indexedFrom.indexedAt, hf]; exact hf.symm
        | error e => simp [nextPos, hx, mapIndexTrans, hy, indexAt_succ, indexedFrom.indexedAt, hf]; exact hf.symm
    · rw [hn]
      exact ⟨rfl, rfl⟩
  · rintro n i k l ⟨rfl, rfl⟩ hl
    refine ⟨k, ⟨hl.1, fun j h1 h2 => ?_⟩, rfl, indexAt_lag hl⟩
    obtain ⟨e, he⟩ := hl.2 j h1 h2
    exact ⟨e, by simp [hy, he]; rfl⟩

/-! ### Transformations that read several elements for one -/

/-- Outcome `n` of `y` is made of the outcomes `pos n, …, pos (n + 1) - 1` of `x`, of which only the last may be an
exception, which is then the outcome. -/
structure Reads (x : Nat → Option (Py α)) (y : Nat → Option (Py β)) (pos : Nat → Nat) : Prop where
  zero : pos 0 = 0
  ok : ∀ n, (∀ t, pos n ≤ t → t < pos (n + 1) → ∃ a, x t = some (.ok a)) ∨
    ∃ t e, pos (n + 1) = t + 1 ∧ pos n ≤ t ∧ x t = some (.error e) ∧ y n = some (.error e) ∧
      ∀ u, pos n ≤ u → u < t → ∃ a, x u = some (.ok a)
  over : ∀ n, y n = none → pos n ≤ pos (n + 1) ∧ x (pos (n + 1)) = none ∧
    ∀ t, pos n ≤ t → t < pos (n + 1) → ∃ a, x t = some (.ok a)
  move : ∀ n, (y n).isSome → pos n < pos (n + 1)

/-- Where the parent may be. -/
def ReadsAt (x : Nat → Option (Py α)) (y : Nat → Option (Py β)) (pos : Nat → Nat) (n i : Nat) : Prop :=
  (∀ j < n, (y j).isSome) ∧ pos n ≤ i ∧ (∀ t, pos n ≤ t → t < i → ∃ a, x t = some (.ok a)) ∧
    (i = pos n ∨ (∃ e, x i = some (.error e) ∧ y n = some (.error e) ∧ pos (n + 1) = i + 1) ∨ (x i = none ∧ y n = none))

theorem readsAt_back {x : Nat → Option (Py α)} {y : Nat → Option (Py β)} {pos : Nat → Nat} (h : Reads x y pos) {n i : Nat}
    (hs : ReadsAt x y pos n (i + 1)) (hx : Raises (x i)) : ∃ m, Lagging y m n ∧ ReadsAt x y pos m i := by
  obtain ⟨e, he⟩ := hx
  obtain ⟨h0, h1, h2, h3⟩ := hs
  have hpos : pos n = i + 1 := by
    by_contra hne
    obtain ⟨a, ha⟩ := h2 i (by omega) (by omega)
    rw [he] at ha
    cases ha
  cases n with
  | zero => rw [h.zero] at hpos; omega
  | succ m =>
    have hm := h.move m (h0 m (by omega))
    rcases h.ok m with h4 | ⟨t, e', h4, h5, h6, h7, h8⟩
    · obtain ⟨a, ha⟩ := h4 i (by omega) (by omega)
      rw [he] at ha
      cases ha
    · obtain rfl : t = i := by omega
      refine ⟨m, ⟨by omega, fun j hj hj' => ?_⟩, fun j hj => h0 j (by omega), h5, h8, Or.inr (Or.inl ⟨e', h6, h7, h4⟩)⟩
      obtain rfl : j = m := by omega
      exact ⟨e', h7⟩

theorem readsAt_lag {x : Nat → Option (Py α)} {y : Nat → Option (Py β)} {pos : Nat → Nat} (h : Reads x y pos) {n i k : Nat}
    (hs : ReadsAt x y pos n i) (hl : Lagging x k i) : ∃ m, Lagging y m n ∧ ReadsAt x y pos m k := by
  obtain ⟨h1, h2⟩ := hl
  induction i, h1 using Nat.le_induction generalizing n with
  | base => exact ⟨n, .refl, hs⟩
  | succ i hk ih =>
    obtain ⟨m, h3, h4⟩ := readsAt_back h hs (h2 i hk (by omega))
    obtain ⟨m', h5, h6⟩ := ih h4 (fun j a b => h2 j a (by omega))
    exact ⟨m', h5.trans h3, h6⟩

theorem reads_computes {T : Trans (Py α) (Py β)} {x : Nat → Option (Py α)} {y : Nat → Option (Py β)} {pos : Nat → Nat}
    (h : Reads x y pos) (k0 : T.K) (hstart : T.start T.l0 = .inl k0)
    (heval : ∀ n, ∃ d, TrEval T x d k0 (pos n) (y n) (pos (n + 1)) T.l0)
    (herr : ∀ e, T.resume k0 (some (.error e)) = .inr (some (.error e), T.l0))
    (hover : T.resume k0 none = .inr (none, T.l0)) :
    Computes T x y (fun n i l => l = T.l0 ∧ ReadsAt x y pos n i) := by
  constructor
  · exact ⟨rfl, fun j hj => by omega, by rw [h.zero], fun t h1 h2 => by omega, Or.inl h.zero.symm⟩
  · rintro n i l ⟨rfl, h0, h1, h2, h3⟩
    right
    rcases h3 with rfl | ⟨e, h3, h4, h5⟩ | ⟨h3, h4⟩
    · obtain ⟨d, hd⟩ := heval n
      refine ⟨k0, d, _, _, hstart, hd, rfl, ?_⟩
      cases hy : y n with
      | none =>
        have hn : nextPos y n = n := by simp [nextPos, hy]
        rw [hn]
        obtain ⟨h4, h5, h6⟩ := h.over n hy
        exact ⟨h0, h4, h6, Or.inr (Or.inr ⟨h5, hy⟩)⟩
      | some r =>
        have hn : nextPos y n = n + 1 := by simp [nextPos, hy]
        rw [hn]
        refine ⟨fun j hj => ?_, Nat.le_refl _, fun t h4 h5 => by omega, Or.inl rfl⟩
        by_cases hj' : j = n
        · rw [hj', hy]; rfl
        · exact h0 j (by omega)
    · have hn : nextPos y n = n + 1 := by simp [nextPos, h4]
      have hn' : nextPos x i = i + 1 := by simp [nextPos, h3]
      refine ⟨k0, 1, i + 1, _, hstart, ?_, rfl, ?_⟩
      · rw [h4, ← hn']
        exact .last (by rw [h3]; exact herr e)
      · rw [hn, ← h5]
        refine ⟨fun j hj => ?_, Nat.le_refl _, fun t h4 h5 => by omega, Or.inl rfl⟩
        by_cases hj' : j = n
        · rw [hj', h4]; rfl
        · exact h0 j (by omega)
    · have hn : nextPos y n = n := by simp [nextPos, h4]
      have hn' : nextPos x i = i := by simp [nextPos, h3]
      refine ⟨k0, 1, i, _, hstart, ?_, rfl, ?_⟩
      · rw [h4]
        have : TrEval T x 1 k0 i none (nextPos x i) T.l0 := .last (by rw [h3]; exact hover)
        rwa [hn'] at this
      · rw [hn]
        exact ⟨h0, h1, h2, Or.inr (Or.inr ⟨h3, h4⟩)⟩
  · rintro n i k l ⟨rfl, hs⟩ hl
    obtain ⟨m, h1, h2⟩ := readsAt_lag h hs hl
    exact ⟨m, h1, rfl, h2⟩

theorem batchFrom_reads (drop : Bool) (x : Nat → Option (Py α)) : ∀ b vs i,
    i ≤ (batchFrom drop x b vs i).2 ∧
    ((∀ t, i ≤ t → t < (batchFrom drop x b vs i).2 → ∃ a, x t = some (.ok a)) ∨
      ∃ t e, (batchFrom drop x b vs i).2 = t + 1 ∧ i ≤ t ∧ x t = some (.error e) ∧
        (batchFrom drop x b vs i).1 = some (.error e) ∧ ∀ u, i ≤ u → u < t → ∃ a, x u = some (.ok a)) ∧
    ((batchFrom drop x b vs i).1 = none → x (batchFrom drop x b vs i).2 = none ∧
      ∀ t, i ≤ t → t < (batchFrom drop x b vs i).2 → ∃ a, x t = some (.ok a)) ∧
    (0 < b → (batchFrom drop x b vs i).1.isSome → vs = [] → i < (batchFrom drop x b vs i).2) := by
  intro b
  induction b with
  | zero =>
    intro vs i
    refine ⟨Nat.le_refl _, Or.inl (fun t h1 h2 => ?_), fun h => ?_, fun h => by omega⟩
    · simp only [batchFrom] at h2
      omega
    · simp [batchFrom] at h
  | succ b ih =>
    intro vs i
    rcases hx : x i with _ | (e | a)
    · simp only [batchFrom, hx]
      split
      · exact ⟨Nat.le_refl _, Or.inl (fun t h1 h2 => by simp only at h2; omega),
          fun _ => ⟨hx, fun t h1 h2 => by simp only at h2; omega⟩, fun _ h => by simp at h⟩
      · rename_i hc
        refine ⟨Nat.le_refl _, Or.inl (fun t h1 h2 => by simp only at h2; omega), fun h => by simp at h, fun _ _ h => ?_⟩
        subst h
        simp at hc
    · simp only [batchFrom, hx]
      exact ⟨by simp, Or.inr ⟨i, e, rfl, Nat.le_refl _, hx, rfl, fun u h1 h2 => by omega⟩, fun h => by simp at h,
        fun _ _ _ => by simp⟩
    · simp only [batchFrom, hx]
      obtain ⟨h1, h2, h3, h4⟩ := ih (vs ++ [a]) (i + 1)
      have hfirst : ∀ {m}, (∀ t, i + 1 ≤ t → t < m → ∃ a, x t = some (.ok a)) → ∀ t, i ≤ t → t < m → ∃ a, x t = some (.ok a) := by
        intro m hm t ht ht'
        by_cases hti : t = i
        · rw [hti]; exact ⟨a, hx⟩
        · exact hm t (by omega) ht'
      refine ⟨by omega, ?_, fun h => ⟨(h3 h).1, hfirst (h3 h).2⟩, fun _ _ _ => by omega⟩
      rcases h2 with h2 | ⟨t, e, h5, h6, h7, h8, h9⟩
      · exact Or.inl (hfirst h2)
      · exact Or.inr ⟨t, e, h5, by omega, h7, h8, hfirst h9⟩

theorem streamBatchRaise_reads {b : Nat} (hb : 0 < b) (drop : Bool) (x : Nat → Option (Py α)) :
    Reads x (streamBatchRaise b drop x) (batchStart b drop x) where
  zero := rfl
  ok := fun n => (batchFrom_reads drop x b [] (batchStart b drop x n)).2.1
  over := fun n h => ⟨(batchFrom_reads drop x b [] (batchStart b drop x n)).1,
    (batchFrom_reads drop x b [] (batchStart b drop x n)).2.2.1 h⟩
  move := fun n h => (batchFrom_reads drop x b [] (batchStart b drop x n)).2.2.2 hb h rfl

theorem batchFrom_eval {b : Nat} {drop : Bool} {x : Nat → Option (Py α)} : ∀ (r : Nat) (vs : List α) (i : Nat), r + 1 + vs.length = b →
    ∃ d, TrEval (batchTrans b drop) x d vs i (batchFrom drop x (r + 1) vs i).1 (batchFrom drop x (r + 1) vs i).2 () := by
  intro r
  induction r with
  | zero =>
    intro vs i hl
    refine ⟨1, ?_⟩
    rcases hx : x i with _ | (e | a)
    · have hn : nextPos x i = i := by simp [nextPos, hx]
      have : TrEval (batchTrans b drop) x 1 vs i (batchFrom drop x (0 + 1) vs i).1 (nextPos x i) () := by
        refine .last ?_
        simp only [batchFrom, hx, batchTrans]
        split <;> rfl
      rw [hn] at this
      convert this using 1
      simp only [batchFrom, hx]
      split <;> rfl
    · have hn : nextPos x i = i + 1 := by simp [nextPos, hx]
      have : TrEval (batchTrans b drop) x 1 vs i (some (.error e)) (nextPos x i) () := .last (by rw [hx]; rfl)
      rw [hn] at this
      simpa only [batchFrom, hx] using this
    · have hn : nextPos x i = i + 1 := by simp [nextPos, hx]
      have : TrEval (batchTrans b drop) x 1 vs i (some (.ok (vs ++ [a]))) (nextPos x i) () := by
        refine .last ?_
        rw [hx]
        exact if_neg (by omega)
      rw [hn] at this
      simpa only [batchFrom, hx] using this
  | succ r ih =>
    intro vs i hl
    rcases hx : x i with _ | (e | a)
    · have hn : nextPos x i = i := by simp [nextPos, hx]
      have : TrEval (batchTrans b drop) x 1 vs i (batchFrom drop x (r + 1 + 1) vs i).1 (nextPos x i) () := by
        refine .last ?_
        simp only [batchFrom, hx, batchTrans]
        split <;> rfl
      rw [hn] at this
      refine ⟨1, ?_⟩
      convert this using 1
      simp only [batchFrom, hx]
      split <;> rfl
    · have hn : nextPos x i = i + 1 := by simp [nextPos, hx]
      have : TrEval (batchTrans b drop) x 1 vs i (some (.error e)) (nextPos x i) () := .last (by rw [hx]; rfl)
      rw [hn] at this
      exact ⟨1, by simpa only [batchFrom, hx] using this⟩
    · have hn : nextPos x i = i + 1 := by simp [nextPos, hx]
      obtain ⟨d, hd⟩ := ih (vs ++ [a]) (i + 1) (by simp; omega)
      refine ⟨d + 1, ?_⟩
      rw [batchFrom]
      simp only [hx]
      refine .more (k' := vs ++ [a]) ?_ ?_
      · rw [hx]
        exact if_pos (by omega)
      · rw [hn]
        exact hd

theorem batchTrans_computes {b : Nat} (hb : 0 < b) (drop : Bool) (x : Nat → Option (Py α)) :
    Computes (batchTrans b drop) x (streamBatchRaise b drop x)
      (fun n i l => l = () ∧ ReadsAt x (streamBatchRaise b drop x) (batchStart b drop x) n i) := by
  refine reads_computes (T := batchTrans b drop) (streamBatchRaise_reads hb drop x) [] rfl ?_ (fun e => rfl) ?_
  · intro n
    obtain ⟨r, rfl⟩ : ∃ r, b = r + 1 := ⟨b - 1, by omega⟩
    exact batchFrom_eval r [] _ (by simp)
  · show (if _ then _ else _) = _
    simp [batchTrans]

theorem filteredRaise_reads {f : α → Py Bool} {x y : Nat → Option (Py α)} {pos : Nat → Nat} (h : FilteredRaise f x y pos) :
    Reads x y pos := by
  obtain ⟨h0, h⟩ := h
  have hd : ∀ {m d : Nat}, (∀ i < d, ∃ a, x (pos m + i) = some (.ok a) ∧ f a = .ok false) →
      ∀ t, pos m ≤ t → t < pos m + d → ∃ a, x t = some (.ok a) := by
    intro m d hd t h1 h2
    obtain ⟨a, ha, -⟩ := hd (t - pos m) (by omega)
    rw [show pos m + (t - pos m) = t by omega] at ha
    exact ⟨a, ha⟩
  have hd' : ∀ {m d : Nat} {a : α}, (∀ i < d, ∃ a, x (pos m + i) = some (.ok a) ∧ f a = .ok false) →
      x (pos m + d) = some (.ok a) → ∀ t, pos m ≤ t → t < pos m + d + 1 → ∃ a, x t = some (.ok a) := by
    intro m d a h1 h2 t h3 h4
    by_cases ht : t = pos m + d
    · rw [ht]; exact ⟨a, h2⟩
    · exact hd h1 t h3 (by omega)
  refine ⟨h0, fun m => ?_, fun m hy => ?_, fun m hy => ?_⟩
  · obtain ⟨d, h1, ⟨a, h2, h3, h4, h5⟩ | ⟨a, e, h2, h3, h4, h5⟩ | ⟨e, h2, h4, h5⟩ | ⟨h2, h4, h5⟩⟩ := h m
    · rw [h5]; exact Or.inl (hd' h1 h2)
    · rw [h5]; exact Or.inl (hd' h1 h2)
    · rw [h5]; exact Or.inr ⟨pos m + d, e, rfl, by omega, h2, h4, hd h1⟩
    · rw [h5]; exact Or.inl (hd h1)
  · obtain ⟨d, h1, ⟨a, h2, h3, h4, h5⟩ | ⟨a, e, h2, h3, h4, h5⟩ | ⟨e, h2, h4, h5⟩ | ⟨h2, h4, h5⟩⟩ := h m
    · rw [hy] at h4; cases h4
    · rw [hy] at h4; cases h4
    · rw [hy] at h4; cases h4
    · rw [h5]; exact ⟨by omega, h2, hd h1⟩
  · obtain ⟨d, h1, ⟨a, h2, h3, h4, h5⟩ | ⟨a, e, h2, h3, h4, h5⟩ | ⟨e, h2, h4, h5⟩ | ⟨h2, h4, h5⟩⟩ := h m
    · omega
    · omega
    · omega
    · rw [h4] at hy; cases hy

theorem filterTrans_computes {f : α → Py Bool} {x y : Nat → Option (Py α)} {pos : Nat → Nat} (h : FilteredRaise f x y pos) :
    Computes (filterTrans f) x y (fun n i l => l = () ∧ ReadsAt x y pos n i) := by
  refine reads_computes (T := filterTrans f) (filteredRaise_reads h) () rfl ?_ (fun e => rfl) rfl
  intro n
  obtain ⟨d, h1, h2⟩ := h.2 n
  have key : ∀ d i, (∀ k < d, ∃ a, x (i + k) = some (.ok a) ∧ f a = .ok false) → ∀ r j,
      TrEval (filterTrans f) x 1 () (i + d) r j () → ∃ d, TrEval (filterTrans f) x d () i r j () := by
    intro d
    induction d with
    | zero => intro i _ r j h; exact ⟨1, h⟩
    | succ d ih =>
      intro i hi r j hr
      obtain ⟨a, ha, hf⟩ := hi 0 (by omega)
      obtain ⟨d', hd'⟩ := ih (i + 1) (fun k hk => by
        have := hi (k + 1) (by omega)
        rwa [show i + (k + 1) = i + 1 + k by omega] at this) r j (by rwa [show i + 1 + d = i + (d + 1) by omega])
      have hn : nextPos x i = i + 1 := by
        rw [Nat.add_zero] at ha
        simp [nextPos, ha]
      refine ⟨d' + 1, .more (k' := ()) ?_ (by rw [hn]; exact hd')⟩
      rw [Nat.add_zero] at ha
      simp [filterTrans, ha, hf]
  refine key d (pos n) h1 _ _ ?_
  obtain ⟨a, h2, h3, h4, h5⟩ | ⟨a, e, h2, h3, h4, h5⟩ | ⟨e, h2, h4, h5⟩ | ⟨h2, h4, h5⟩ := h2
  · have hn : nextPos x (pos n + d) = pos n + d + 1 := by simp [nextPos, h2]
    rw [h5, ← hn]
    exact .last (by simp [filterTrans, h2, h3, h4])
  · have hn : nextPos x (pos n + d) = pos n + d + 1 := by simp [nextPos, h2]
    rw [h5, ← hn]
    exact .last (by simp [filterTrans, h2, h3, h4])
  · have hn : nextPos x (pos n + d) = pos n + d + 1 := by simp [nextPos, h2]
    rw [h5, ← hn]
    exact .last (by simp [filterTrans, h2, h4])
  · have hn : nextPos x (pos n + d) = pos n + d := by simp [nextPos, h2]
    have : TrEval (filterTrans f) x 1 () (pos n + d) (y n) (nextPos x (pos n + d)) () := .last (by simp [filterTrans, h2, h4])
    rw [h5]
    rwa [hn] at this

end Raise
end Grain
