import Verif.Cost.Spec
import Mathlib.Algebra.Order.BigOperators.Group.Finset
import Mathlib.Tactic.Ring
/-
Bounds on what the iterators read, one transformation at a time.
-/
namespace Grain

/-- One call of `next` adds at most `kn` reads, one call of `set_state` at most `ks`, creating the iterator and `get_state` none. -/
def ReadsAtMost (p : Iter α) (R : p.S → Nat) (kn ks : ℕ∞) : Prop :=
  ∃ I : p.S → Prop, I p.init ∧ R p.init = 0 ∧
    (∀ F s s' r, I s → p.next F s = some (s', r) → I s' ∧ (R s' : ℕ∞) ≤ R s + kn) ∧
    (∀ s, I s → I (p.get s).1 ∧ R (p.get s).1 = R s) ∧
    (∀ F s c s' e, I s → p.set F s c = some (s', e) → I s' ∧ (R s' : ℕ∞) ≤ R s + ks)

theorem readsAtMost_used {p : Iter α} {R : p.S → Nat} {kn ks : ℕ∞} (h : ReadsAtMost p R kn ks) {a r : Nat} {s : p.S} (hu : Used p a r s) :
    (R s : ℕ∞) ≤ a * kn + r * ks := by
  obtain ⟨I, h0, h1, hn, hg, hs⟩ := h
  suffices I s ∧ (R s : ℕ∞) ≤ a * kn + r * ks from this.2
  induction hu with
  | new => exact ⟨h0, by simp [h1]⟩
  | next _ he ih =>
    obtain ⟨j1, j2⟩ := hn _ _ _ _ ih.1 he
    refine ⟨j1, le_trans j2 (le_trans (add_le_add_left ih.2 _) (le_of_eq ?_))⟩
    push_cast
    ring
  | save _ ih =>
    obtain ⟨j1, j2⟩ := hg _ ih.1
    exact ⟨j1, by rw [j2]; exact ih.2⟩
  | restore _ he ih =>
    obtain ⟨j1, j2⟩ := hs _ _ _ _ _ ih.1 he
    refine ⟨j1, le_trans j2 (le_trans (add_le_add_left ih.2 _) (le_of_eq ?_))⟩
    push_cast
    ring

theorem reads_traced (p : Iter α) : ReadsAtMost p.traced (fun s => s.2.length) 1 0 := by
  refine ⟨fun _ => True, trivial, rfl, ?_, fun s _ => ⟨trivial, rfl⟩, ?_⟩
  · intro F s s' r _ h
    refine ⟨trivial, ?_⟩
    change (p.next F s.1).map _ = _ at h
    cases hx : p.next F s.1 with
    | none => rw [hx] at h; cases h
    | some y => rw [hx] at h; cases h; simp
  · intro F s c s' e _ h
    refine ⟨trivial, ?_⟩
    change (p.set F s.1 c).map _ = _ at h
    cases hx : p.set F s.1 c with
    | none => rw [hx] at h; cases h
    | some y => rw [hx] at h; cases h; simp

theorem reads_map (f : α → Py (Option β)) {p : Iter (Option α)} {R : p.S → Nat} {kn ks} (h : ReadsAtMost p R kn ks) :
    ReadsAtMost (mapIter f p) R kn ks := by
  obtain ⟨I, h0, h1, hn, hg, hs⟩ := h
  refine ⟨I, h0, h1, ?_, hg, hs⟩
  intro F s s' r hi he
  simp only [mapIter, Option.bind_eq_bind] at he
  cases hx : p.next F s with
  | none => rw [hx] at he; cases he
  | some y =>
    rw [hx, Option.bind_some] at he
    have := hn F s y.1 y.2 hi hx
    obtain ⟨t, x⟩ := y
    cases x with
    | stop => cases he; exact this
    | fail e => cases he; exact this
    | item o =>
      cases o with
      | none => cases he; exact this
      | some a =>
        dsimp only at he
        cases hf : f a <;> (rw [hf] at he; cases he; exact this)

theorem reads_randomMap (f : α → Nat → Py (Option β)) (i n : Nat) {p : Iter (Option α)} {R : p.S → Nat} {kn ks} (h : ReadsAtMost p R kn ks) :
    ReadsAtMost (randomMapIter f i n p) (fun s => R s.1) kn ks := by
  obtain ⟨I, h0, h1, hn, hg, hs⟩ := h
  refine ⟨fun s => I s.1, h0, h1, ?_, fun s hi => hg _ hi, ?_⟩
  · intro F s s' r hi he
    simp only [randomMapIter, Option.bind_eq_bind] at he
    cases hx : p.next F s.1 with
    | none => rw [hx] at he; cases he
    | some y =>
      rw [hx, Option.bind_some] at he
      have := hn F s.1 y.1 y.2 hi hx
      obtain ⟨t, x⟩ := y
      cases x with
      | stop => cases he; exact this
      | fail e => cases he; exact this
      | item o =>
        cases o with
        | none => cases he; exact this
        | some a =>
          dsimp only at he
          cases hf : f a (i + s.2 * n) <;> (rw [hf] at he; cases he; exact this)
  · intro F s c s' e hi he
    simp only [randomMapIter, Option.bind_eq_bind] at he
    cases hx : p.set F s.1 c.1 with
    | none => rw [hx] at he; cases he
    | some y =>
      rw [hx, Option.bind_some] at he
      have := hs F s.1 c.1 y.1 y.2 hi hx
      obtain ⟨t, x⟩ := y
      cases x <;> (cases he; exact this)

theorem reads_mapWithIndex (f : Nat → α → Py (Option β)) {p : Iter (Option α)} {R : p.S → Nat} {kn ks} (h : ReadsAtMost p R kn ks) :
    ReadsAtMost (mapWithIndexIter f p) (fun s => R s.1) kn ks := by
  obtain ⟨I, h0, h1, hn, hg, hs⟩ := h
  refine ⟨fun s => I s.1, h0, h1, ?_, fun s hi => hg _ hi, ?_⟩
  · intro F s s' r hi he
    simp only [mapWithIndexIter, Option.bind_eq_bind] at he
    cases hx : p.next F s.1 with
    | none => rw [hx] at he; cases he
    | some y =>
      rw [hx, Option.bind_some] at he
      have := hn F s.1 y.1 y.2 hi hx
      obtain ⟨t, x⟩ := y
      cases x with
      | stop => cases he; exact this
      | fail e => cases he; exact this
      | item o =>
        cases o with
        | none => cases he; exact this
        | some a =>
          dsimp only at he
          cases hf : f s.2 a <;> (rw [hf] at he; cases he; exact this)
  · intro F s c s' e hi he
    simp only [mapWithIndexIter, Option.bind_eq_bind] at he
    cases hx : p.set F s.1 c.1 with
    | none => rw [hx] at he; cases he
    | some y =>
      rw [hx, Option.bind_some] at he
      have := hs F s.1 c.1 y.1 y.2 hi hx
      obtain ⟨t, x⟩ := y
      cases x <;> (cases he; exact this)

theorem reads_limit (m : Nat) {p : Iter α} {R : p.S → Nat} {kn ks} (h : ReadsAtMost p R kn ks) :
    ReadsAtMost (limitIter m p) (fun s => R s.1) kn ks := by
  obtain ⟨I, h0, h1, hn, hg, hs⟩ := h
  refine ⟨fun s => I s.1, h0, h1, ?_, fun s hi => hg _ hi, ?_⟩
  · intro F s s' r hi he
    simp only [limitIter, Option.bind_eq_bind] at he
    split at he
    · cases he; exact ⟨hi, le_self_add⟩
    · cases hx : p.next F s.1 with
      | none => rw [hx] at he; cases he
      | some y =>
        rw [hx, Option.bind_some] at he
        have := hn F s.1 y.1 y.2 hi hx
        obtain ⟨t, x⟩ := y
        cases x <;> (cases he; exact this)
  · intro F s c s' e hi he
    simp only [limitIter, Option.bind_eq_bind] at he
    cases hx : p.set F s.1 c.1 with
    | none => rw [hx] at he; cases he
    | some y =>
      rw [hx, Option.bind_some] at he
      have := hs F s.1 c.1 y.1 y.2 hi hx
      obtain ⟨t, x⟩ := y
      cases x <;> (cases he; exact this)

theorem filterLoop_inv {p : Iter α} {I : p.S → Prop} (hn : ∀ F s s' r, I s → p.next F s = some (s', r) → I s') (f : α → Py Bool)
    (thr : Option Threshold) (F : Nat) : ∀ (n : Nat) (s s' : p.S × Checker) (r : Res α), I s.1 → filterLoop p f thr F n s = some (s', r) → I s'.1 := by
  intro n
  induction n with
  | zero => intro s s' r _ h; cases h
  | succ n ih =>
    intro s s' r hi h
    simp only [filterLoop, Option.bind_eq_bind] at h
    cases hx : p.next F s.1 with
    | none => rw [hx] at h; cases h
    | some y =>
      rw [hx, Option.bind_some] at h
      have h1 := hn F s.1 y.1 y.2 hi hx
      obtain ⟨t, x⟩ := y
      cases x with
      | stop => cases h; exact h1
      | fail e => cases h; exact h1
      | item a =>
        dsimp only at h
        cases hf : f a with
        | error e => rw [hf] at h; cases h; exact h1
        | ok b =>
          rw [hf] at h
          dsimp only at h
          cases hc : s.2.check thr b with
          | mk c e =>
            rw [hc] at h
            cases e with
            | some e => cases h; exact h1
            | none =>
              dsimp only at h
              split at h
              · cases h; exact h1
              · exact ih _ _ _ h1 h

theorem reads_filter (f : α → Py Bool) (thr : Option Threshold) {p : Iter α} {R : p.S → Nat} {kn ks} (h : ReadsAtMost p R kn ks) :
    ReadsAtMost (filterIter f thr p) (fun s => R s.1) ⊤ ks := by
  obtain ⟨I, h0, h1, hn, hg, hs⟩ := h
  refine ⟨fun s => I s.1, h0, h1, ?_, fun s hi => hg _ hi, ?_⟩
  · intro F s s' r hi he
    exact ⟨filterLoop_inv (fun F s s' r hi he => (hn F s s' r hi he).1) f thr F F s s' r hi he, by simp⟩
  · intro F s c s' e hi he
    simp only [filterIter, Option.bind_eq_bind] at he
    cases hx : p.set F s.1 c with
    | none => rw [hx] at he; cases he
    | some y =>
      rw [hx, Option.bind_some] at he
      have := hs F s.1 c y.1 y.2 hi hx
      obtain ⟨t, x⟩ := y
      cases he; exact this

theorem le_succ_mul {R R' R'' kn : ℕ∞} {n : Nat} (h1 : R' ≤ R + kn) (h2 : R'' ≤ R' + n * kn) : R'' ≤ R + ((n + 1 : Nat) : ℕ∞) * kn := by
  refine le_trans h2 (le_trans (add_le_add_left h1 _) (le_of_eq ?_))
  push_cast
  ring

theorem le_succ_mul' {R R' kn : ℕ∞} {n : Nat} (h1 : R' ≤ R + kn) : R' ≤ R + ((n + 1 : Nat) : ℕ∞) * kn :=
  le_succ_mul (R'' := R') h1 le_self_add

theorem batchLoop_reads {p : Iter α} {I : p.S → Prop} {R : p.S → Nat} {kn : ℕ∞}
    (hn : ∀ F s s' r, I s → p.next F s = some (s', r) → I s' ∧ (R s' : ℕ∞) ≤ R s + kn) (drop : Bool) (F : Nat) :
    ∀ (n : Nat) (s s' : p.S) (vs : List α) (r), I s → batchLoop p drop F n s vs = some (s', r) → I s' ∧ (R s' : ℕ∞) ≤ R s + n * kn := by
  intro n
  induction n with
  | zero => intro s s' vs r hi h; cases h; exact ⟨hi, le_self_add⟩
  | succ n ih =>
    intro s s' vs r hi h
    simp only [batchLoop, Option.bind_eq_bind] at h
    cases hx : p.next F s with
    | none => rw [hx] at h; cases h
    | some y =>
      rw [hx, Option.bind_some] at h
      have h1 := hn F s y.1 y.2 hi hx
      obtain ⟨t, x⟩ := y
      cases x with
      | stop =>
        dsimp only at h
        split at h <;> (cases h; exact ⟨h1.1, le_succ_mul' h1.2⟩)
      | fail e => cases h; exact ⟨h1.1, le_succ_mul' h1.2⟩
      | item a =>
        obtain ⟨j1, j2⟩ := ih _ _ _ _ h1.1 h
        exact ⟨j1, le_succ_mul h1.2 j2⟩

theorem reads_batch (b : Nat) (drop : Bool) (f : List α → Py β) {p : Iter α} {R : p.S → Nat} {kn ks} (h : ReadsAtMost p R kn ks) :
    ReadsAtMost (batchIter b drop f p) R (b * kn) ks := by
  obtain ⟨I, h0, h1, hn, hg, hs⟩ := h
  refine ⟨I, h0, h1, ?_, hg, hs⟩
  intro F s s' r hi he
  simp only [batchIter, Option.bind_eq_bind] at he
  cases hx : batchLoop p drop F b s [] with
  | none => rw [hx] at he; cases he
  | some y =>
    rw [hx, Option.bind_some] at he
    have := batchLoop_reads hn drop F b s y.1 [] y.2 hi hx
    obtain ⟨t, x⟩ := y
    cases x with
    | inr x => cases x <;> (cases he; exact this)
    | inl vs =>
      cases vs with
      | nil => cases he; exact this
      | cons v vs =>
        dsimp only at he
        cases hf : f (v :: vs) <;> (rw [hf] at he; cases he; exact this)

theorem flatMapSet_reads {p : Iter α} {I : p.S → Prop} {R : p.S → Nat} {kn ks : ℕ∞}
    (hn : ∀ F s s' r, I s → p.next F s = some (s', r) → I s' ∧ (R s' : ℕ∞) ≤ R s + kn)
    (hs : ∀ F s c s' e, I s → p.set F s c = some (s', e) → I s' ∧ (R s' : ℕ∞) ≤ R s + ks) (f : α → Py (List β)) :
    ∀ F s c s' e, I s.ps → (flatMapIter f p).set F s c = some (s', e) → I s'.ps ∧ (R s'.ps : ℕ∞) ≤ R s.ps + (ks + kn) := by
  intro F s c s' e hi he
  simp only [flatMapIter, Option.bind_eq_bind] at he
  cases hx : p.set F s.ps c.1 with
  | none => rw [hx] at he; cases he
  | some y =>
    rw [hx, Option.bind_some] at he
    obtain ⟨j1, j2⟩ := hs F s.ps c.1 y.1 y.2 hi hx
    obtain ⟨t, x⟩ := y
    cases x with
    | some x => cases he; exact ⟨j1, le_trans j2 (add_le_add_right le_self_add _)⟩
    | none =>
      dsimp only at he
      cases hy : p.next F t with
      | none => rw [hy] at he; cases he
      | some z =>
        rw [hy, Option.bind_some] at he
        obtain ⟨k1, k2⟩ := hn F t z.1 z.2 j1 hy
        have k3 : (R z.1 : ℕ∞) ≤ R s.ps + (ks + kn) := by
          rw [← add_assoc]; exact le_trans k2 (add_le_add_left j2 _)
        obtain ⟨u, x⟩ := z
        cases x with
        | stop => cases he; exact ⟨k1, k3⟩
        | fail e => cases he; exact ⟨k1, k3⟩
        | item a =>
          dsimp only at he
          cases hf : f a <;> (rw [hf] at he; cases he; exact ⟨k1, k3⟩)

theorem flatMapLoop_reads {p : Iter α} {I : p.S → Prop} {R : p.S → Nat} {kn : ℕ∞}
    (hn : ∀ F s s' r, I s → p.next F s = some (s', r) → I s' ∧ (R s' : ℕ∞) ≤ R s + kn)
    (hg : ∀ s, I s → I (p.get s).1 ∧ R (p.get s).1 = R s) (f : α → Py (List β)) (hf : ∀ a l, f a = .ok l → l ≠ []) (F : Nat) :
    ∀ (n : Nat) (s s' : FlatMapState p.S p.C β) (r), I s.ps → flatMapLoop p f F n s = some (s', r) → I s'.ps ∧ (R s'.ps : ℕ∞) ≤ R s.ps + kn := by
  intro n s s' r hi h
  cases n with
  | zero => cases h
  | succ n =>
    simp only [flatMapLoop, Option.bind_eq_bind] at h
    cases hb : s.buf[s.idx]? with
    | some b => rw [hb] at h; cases h; exact ⟨hi, le_self_add⟩
    | none =>
      rw [hb] at h
      dsimp only at h
      obtain ⟨g1, g2⟩ := hg _ hi
      cases hx : p.next F (p.get s.ps).1 with
      | none => rw [hx] at h; cases h
      | some y =>
        rw [hx, Option.bind_some] at h
        obtain ⟨j1, j2⟩ := hn F _ y.1 y.2 g1 hx
        rw [g2] at j2
        obtain ⟨t, x⟩ := y
        cases x with
        | stop => cases h; exact ⟨j1, j2⟩
        | fail e => cases h; exact ⟨j1, j2⟩
        | item a =>
          dsimp only at h
          cases hfa : f a with
          | error e => rw [hfa] at h; cases h; exact ⟨j1, j2⟩
          | ok l =>
            rw [hfa] at h
            dsimp only at h
            cases l with
            | nil => exact absurd rfl (hf a [] hfa)
            | cons b bs =>
              cases n with
              | zero => cases h
              | succ n =>
                simp only [flatMapLoop, List.getElem?_cons_zero] at h
                cases h
                exact ⟨j1, j2⟩

theorem flatMapLoop_inv {p : Iter α} {I : p.S → Prop}
    (hn : ∀ F s s' r, I s → p.next F s = some (s', r) → I s')
    (hg : ∀ s, I s → I (p.get s).1) (f : α → Py (List β)) (F : Nat) :
    ∀ (n : Nat) (s s' : FlatMapState p.S p.C β) (r), I s.ps → flatMapLoop p f F n s = some (s', r) → I s'.ps := by
  intro n
  induction n with
  | zero => intro s s' r _ h; cases h
  | succ n ih =>
    intro s s' r hi h
    simp only [flatMapLoop, Option.bind_eq_bind] at h
    cases hb : s.buf[s.idx]? with
    | some b => rw [hb] at h; cases h; exact hi
    | none =>
      rw [hb] at h
      dsimp only at h
      cases hx : p.next F (p.get s.ps).1 with
      | none => rw [hx] at h; cases h
      | some y =>
        rw [hx, Option.bind_some] at h
        have j1 := hn F _ y.1 y.2 (hg _ hi) hx
        obtain ⟨t, x⟩ := y
        cases x with
        | stop => cases h; exact j1
        | fail e => cases h; exact j1
        | item a =>
          dsimp only at h
          cases hfa : f a with
          | error e => rw [hfa] at h; cases h; exact j1
          | ok l => rw [hfa] at h; exact ih _ _ _ (by exact j1) h

theorem reads_flatMap (f : α → Py (List β)) {p : Iter α} {R : p.S → Nat} {kn ks} (h : ReadsAtMost p R kn ks)
    (hf : ∀ a l, f a = .ok l → l ≠ []) : ReadsAtMost (flatMapIter f p) (fun s => R s.ps) kn (ks + kn) := by
  obtain ⟨I, h0, h1, hn, hg, hs⟩ := h
  refine ⟨fun s => I s.ps, (hg _ h0).1, (hg _ h0).2.trans h1, ?_, fun s hi => ⟨hi, rfl⟩, flatMapSet_reads hn hs f⟩
  intro F s s' r hi he
  exact flatMapLoop_reads hn hg f hf F F s s' r hi he

theorem reads_flatMapAny (f : α → Py (List β)) {p : Iter α} {R : p.S → Nat} {kn ks} (h : ReadsAtMost p R kn ks) :
    ReadsAtMost (flatMapIter f p) (fun s => R s.ps) ⊤ (ks + kn) := by
  obtain ⟨I, h0, h1, hn, hg, hs⟩ := h
  refine ⟨fun s => I s.ps, (hg _ h0).1, (hg _ h0).2.trans h1, ?_, fun s hi => ⟨hi, rfl⟩, flatMapSet_reads hn hs f⟩
  intro F s s' r hi he
  exact ⟨flatMapLoop_inv (fun F s s' r hi he => (hn F s s' r hi he).1) (fun s hi => (hg s hi).1) f F F s s' r hi he, by simp⟩

theorem rebatchLoop_inv {p : Iter (List α)} {I : p.S → Prop}
    (hn : ∀ F s s' r, I s → p.next F s = some (s', r) → I s') (hg : ∀ s, I s → I (p.get s).1) (drop : Bool) (F : Nat) :
    ∀ (n needed : Nat) (acc) (s s' : RebatchState p.S p.C α) (r), I s.ps → rebatchLoop p drop F n needed acc s = some (s', r) → I s'.ps := by
  have hfetch : ∀ (s s' : RebatchState p.S p.C α) (r), I s.ps → rebatchFetch p F s = some (s', r) → I s'.ps := by
    intro s s' r hi h
    unfold rebatchFetch at h
    split at h
    · simp only [Option.bind_eq_bind] at h
      cases hx : p.next F (p.get s.ps).1 with
      | none => rw [hx] at h; cases h
      | some y =>
        rw [hx, Option.bind_some] at h
        have j1 := hn F _ y.1 y.2 (hg _ hi) hx
        obtain ⟨t, x⟩ := y
        cases x <;> (cases h; exact j1)
    · cases h; exact hi
  intro n
  induction n with
  | zero => intro _ _ _ _ _ _ h; cases h
  | succ n ih =>
    intro needed acc s s' r hi h
    simp only [rebatchLoop, Option.bind_eq_bind] at h
    split at h
    · cases h; exact hi
    · cases hx : rebatchFetch p F s with
      | none => rw [hx] at h; cases h
      | some y =>
        rw [hx, Option.bind_some] at h
        have j1 := hfetch s y.1 y.2 hi hx
        obtain ⟨t, x⟩ := y
        cases x with
        | some x =>
          cases x with
          | fail e => cases h; exact j1
          | stop => dsimp only at h; split at h <;> (cases h; exact j1)
          | item a => dsimp only at h; split at h <;> (cases h; exact j1)
        | none =>
          dsimp only at h
          split at h
          · cases h; exact j1
          · exact ih _ _ _ _ _ (by exact j1) h

theorem reads_rebatch (b : Nat) (drop : Bool) {p : Iter (List α)} {R : p.S → Nat} {kn ks} (h : ReadsAtMost p R kn ks) :
    ReadsAtMost (rebatchIter b drop p) (fun s => R s.ps) ⊤ ks := by
  obtain ⟨I, h0, h1, hn, hg, hs⟩ := h
  refine ⟨fun s => I s.ps, (hg _ h0).1, (hg _ h0).2.trans h1, ?_, fun s hi => ⟨hi, rfl⟩, ?_⟩
  · intro F s s' r hi he
    exact ⟨rebatchLoop_inv (fun F s s' r hi he => (hn F s s' r hi he).1) (fun s hi => (hg s hi).1) drop F F b none s s' r hi he, by simp⟩
  · intro F s c s' e hi he
    simp only [rebatchIter, Option.bind_eq_bind] at he
    cases hx : p.set F s.ps c.1 with
    | none => rw [hx] at he; cases he
    | some y =>
      rw [hx, Option.bind_some] at he
      obtain ⟨j1, j2⟩ := hs F s.ps c.1 y.1 y.2 hi hx
      obtain ⟨t, x⟩ := y
      cases x with
      | some x => cases he; exact ⟨j1, j2⟩
      | none =>
        cases he
        obtain ⟨g1, g2⟩ := hg _ j1
        exact ⟨g1, by dsimp only at g2 ⊢; rw [g2]; exact j2⟩

theorem reads_repeat (n : Option Nat) {p : Iter α} {R : p.S → Nat} {kn ks} (h : ReadsAtMost p R kn ks) (hne : NotEmpty p) :
    ReadsAtMost (repeatIter n p) (fun s => R s.ps) (kn + (ks + kn)) ks := by
  obtain ⟨I, h0, h1, hn, hg, hs⟩ := h
  refine ⟨fun s => I s.ps ∧ s.start = (p.get p.init).2, ⟨(hg _ h0).1, rfl⟩, (hg _ h0).2.trans h1, ?_,
    fun s hi => ⟨⟨(hg _ hi.1).1, hi.2⟩, (hg _ hi.1).2⟩, ?_⟩
  · intro F s s' r hi he
    simp only [repeatIter] at he
    split at he
    · cases he; exact ⟨hi, le_self_add⟩
    · cases F with
      | zero => cases he
      | succ G =>
        generalize hG : G + 1 = F' at *
        rw [← hG] at he
        nth_rewrite 2 [show G + 1 = G + 1 from rfl] at he
        simp only [repeatLoop, Option.bind_eq_bind] at he
        cases hx : p.next (G + 1) s.ps with
        | none => rw [hx] at he; cases he
        | some y =>
          rw [hx, Option.bind_some] at he
          obtain ⟨j1, j2⟩ := hn _ s.ps y.1 y.2 hi.1 hx
          obtain ⟨t, x⟩ := y
          cases x with
          | item a => cases he; exact ⟨⟨j1, hi.2⟩, le_trans j2 (add_le_add_right le_self_add _)⟩
          | fail e => cases he; exact ⟨⟨j1, hi.2⟩, le_trans j2 (add_le_add_right le_self_add _)⟩
          | stop =>
            dsimp only at he
            split at he
            · cases he; exact ⟨⟨j1, hi.2⟩, le_trans j2 (add_le_add_right le_self_add _)⟩
            · cases hy : p.set (G + 1) t s.start with
              | none => rw [hy] at he; cases he
              | some z =>
                rw [hy, Option.bind_some] at he
                obtain ⟨k1, k2⟩ := hs _ _ _ z.1 z.2 j1 hy
                have k3 : (R z.1 : ℕ∞) ≤ R s.ps + (kn + ks) := by rw [← add_assoc]; exact le_trans k2 (add_le_add_left j2 _)
                obtain ⟨u, x⟩ := z
                cases x with
                | some x =>
                  cases he
                  exact ⟨⟨k1, hi.2⟩, le_trans k3 (add_le_add_right (add_le_add_right le_self_add _) _)⟩
                | none =>
                  dsimp only at he
                  cases G with
                  | zero => cases he
                  | succ G =>
                    simp only [repeatLoop, Option.bind_eq_bind] at he
                    cases hw : p.next (G + 1 + 1) u with
                    | none => rw [hw] at he; cases he
                    | some v =>
                      rw [hw, Option.bind_some] at he
                      obtain ⟨l1, l2⟩ := hn _ u v.1 v.2 k1 hw
                      have l3 : (R v.1 : ℕ∞) ≤ R s.ps + (kn + (ks + kn)) := by
                        rw [← add_assoc kn, ← add_assoc]
                        exact le_trans l2 (add_le_add_left k3 _)
                      have l4 := hne _ _ t u v.1 v.2 (by rw [← hi.2]; exact hy) hw
                      obtain ⟨q, x⟩ := v
                      cases x with
                      | item a => cases he; exact ⟨⟨l1, hi.2⟩, l3⟩
                      | fail e => cases he; exact ⟨⟨l1, hi.2⟩, l3⟩
                      | stop => exact absurd rfl l4
  · intro F s c s' e hi he
    simp only [repeatIter, Option.bind_eq_bind] at he
    cases hx : p.set F s.ps c.1 with
    | none => rw [hx] at he; cases he
    | some y =>
      rw [hx, Option.bind_some] at he
      obtain ⟨j1, j2⟩ := hs F s.ps c.1 y.1 y.2 hi.1 hx
      cases he
      exact ⟨⟨j1, hi.2⟩, j2⟩

theorem winFill_reads {p : Iter α} {I : p.S → Prop} {R : p.S → Nat} {kn : ℕ∞}
    (hn : ∀ F s s' r, I s → p.next F s = some (s', r) → I s' ∧ (R s' : ℕ∞) ≤ R s + kn) (F : Nat) :
    ∀ (n : Nat) (s : p.S) (acc : List α) (y), I s → winFill p F n s acc = some y → I y.1 ∧ (R y.1 : ℕ∞) ≤ R s + n * kn := by
  intro n
  induction n with
  | zero => intro s acc y hi h; cases h; exact ⟨hi, le_self_add⟩
  | succ n ih =>
    intro s acc y hi h
    simp only [winFill, Option.bind_eq_bind] at h
    cases hx : p.next F s with
    | none => rw [hx] at h; cases h
    | some y =>
      rw [hx, Option.bind_some] at h
      have h1 := hn F s y.1 y.2 hi hx
      obtain ⟨t, x⟩ := y
      cases x with
      | stop => cases h; exact ⟨h1.1, le_succ_mul' h1.2⟩
      | fail e => cases h; exact ⟨h1.1, le_succ_mul' h1.2⟩
      | item a =>
        obtain ⟨j1, j2⟩ := ih _ _ _ h1.1 h
        exact ⟨j1, le_succ_mul h1.2 j2⟩

theorem winFillShuffle_reads {p : Iter α} {I : p.S → Prop} {R : p.S → Nat} {kn : ℕ∞}
    (hn : ∀ F s s' r, I s → p.next F s = some (s', r) → I s' ∧ (R s' : ℕ∞) ≤ R s + kn) (sh : Nat → List α → Py (List α)) (w F : Nat)
    (s : WinState p.S p.C α) (y) (hi : I s.ps) (h : winFillShuffle sh w p F s = some y) : I y.1.ps ∧ (R y.1.ps : ℕ∞) ≤ R s.ps + w * kn := by
  simp only [winFillShuffle, Option.bind_eq_bind] at h
  cases hx : winFill p F w s.ps [] with
  | none => rw [hx] at h; cases h
  | some z =>
    rw [hx, Option.bind_some] at h
    have h1 := winFill_reads hn F w s.ps [] z hi hx
    obtain ⟨t, acc, ex, err⟩ := z
    cases err with
    | some e => cases h; exact h1
    | none =>
      dsimp only at h
      cases hs : sh s.windowIndex acc <;> (rw [hs] at h; cases h; exact h1)

theorem winPop_ps {PS PC : Type} (s : WinState PS PC α) : (winPop s).1.ps = s.ps := by
  unfold winPop
  split <;> rfl

theorem reads_windowShuffle (sh : Nat → List α → Py (List α)) (w : Nat) {p : Iter α} {R : p.S → Nat} {kn ks} (h : ReadsAtMost p R kn ks) :
    ReadsAtMost (windowShuffleIter sh w p) (fun s => R s.ps) (w * kn) (ks + w * kn) := by
  obtain ⟨I, h0, h1, hn, hg, hs⟩ := h
  refine ⟨fun s => I s.ps, (hg _ h0).1, (hg _ h0).2.trans h1, ?_, fun s hi => ⟨hi, rfl⟩, ?_⟩
  · intro F s s' r hi he
    simp only [windowShuffleIter, Option.bind_eq_bind] at he
    split at he
    · split at he
      · cases he; exact ⟨hi, le_self_add⟩
      · obtain ⟨g1, g2⟩ := hg _ hi
        cases hx : winFillShuffle sh w p F { s with ps := (p.get s.ps).1, start := (p.get s.ps).2 } with
        | none => rw [hx] at he; cases he
        | some y =>
          rw [hx, Option.bind_some] at he
          obtain ⟨j1, j2⟩ := winFillShuffle_reads hn sh w F _ y g1 hx
          dsimp only at j2
          rw [g2] at j2
          obtain ⟨t, x⟩ := y
          cases x with
          | some e => cases he; exact ⟨j1, j2⟩
          | none =>
            have he := congrArg Prod.fst (Option.some.inj he)
            dsimp only at he
            subst he
            dsimp only
            rw [winPop_ps]
            exact ⟨j1, j2⟩
    · have he := congrArg Prod.fst (Option.some.inj he)
      dsimp only at he
      subst he
      have hps : (winPop s).1.ps = s.ps := winPop_ps (PS := p.S) (PC := p.C) s
      exact ⟨(congrArg I hps).mpr hi, le_of_eq_of_le (congrArg (fun x => ((R x : Nat) : ℕ∞)) hps) le_self_add⟩
  · intro F s c s' e hi he
    simp only [windowShuffleIter, Option.bind_eq_bind] at he
    cases hx : p.set F s.ps c.1 with
    | none => rw [hx] at he; cases he
    | some y =>
      rw [hx, Option.bind_some] at he
      obtain ⟨j1, j2⟩ := hs F s.ps c.1 y.1 y.2 hi hx
      obtain ⟨t, x⟩ := y
      cases x with
      | some x => cases he; exact ⟨j1, le_trans j2 (add_le_add_right le_self_add _)⟩
      | none =>
        dsimp only at he
        generalize hq : ({ ps := t, windowIndex := c.2.1, pos := c.2.2, window := s.window, start := c.1, exhausted := false } : WinState p.S p.C α) = q at he
        have hqp : q.ps = t := by rw [← hq]
        cases hy : winFillShuffle sh w p F q with
        | none => rw [hy] at he; cases he
        | some z =>
          rw [hy, Option.bind_some] at he
          obtain ⟨k1, k2⟩ := winFillShuffle_reads hn sh w F q z (by rw [hqp]; exact j1) hy
          rw [hqp] at k2
          have k3 : (R z.1.ps : ℕ∞) ≤ R s.ps + (ks + w * kn) := by rw [← add_assoc]; exact le_trans k2 (add_le_add_left j2 _)
          obtain ⟨u, x⟩ := z
          cases x <;> (cases he; exact ⟨k1, k3⟩)

theorem packEmit_parent (s : PackState B R' S C) (rows : List R') (ord : List Nat) : (packEmit s rows ord).1.parent = s.parent := by
  unfold packEmit
  split
  · rfl
  · split
    · rfl
    · split <;> rfl

theorem packLoop_inv {E R' : Type} (pk : Packer E R') (order : Nat → List R' → List Nat) {p : Iter E} {I : p.S → Prop}
    (hn : ∀ F s s' r, I s → p.next F s = some (s', r) → I s') (hg : ∀ s, I s → I (p.get s).1) (F : Nat) :
    ∀ (n : Nat) (s : PackState pk.B R' p.S p.C) (y), I s.parent → packLoop pk order p F n s = some y → I y.1.parent := by
  intro n
  induction n with
  | zero => intro s y _ h; cases h
  | succ n ih =>
    intro s y hi h
    simp only [packLoop, Option.bind_eq_bind] at h
    cases hx : p.next F (p.get s.parent).1 with
    | none => rw [hx] at h; cases h
    | some z =>
      rw [hx, Option.bind_some] at h
      have j1 := hn F _ z.1 z.2 (hg _ hi) hx
      obtain ⟨t, x⟩ := z
      cases x with
      | fail e => cases h; exact j1
      | stop =>
        dsimp only at h
        split at h
        · cases h
          rw [packEmit_parent]
          exact j1
        · cases h; exact j1
      | item e =>
        dsimp only at h
        cases ha : pk.tryAdd (s.current.getD pk.new) e with
        | error er => rw [ha] at h; cases h; exact j1
        | ok o =>
          rw [ha] at h
          cases o with
          | some b' => exact ih _ _ (by exact j1) h
          | none =>
            dsimp only at h
            cases hb : pk.tryAdd pk.new e with
            | error er => rw [hb] at h; cases h; exact j1
            | ok o =>
              rw [hb] at h
              cases o with
              | none => cases h; exact j1
              | some b1 =>
                cases h
                rw [packEmit_parent]
                exact j1

theorem reads_pack {E R' : Type} (pk : Packer E R') (order : Nat → List R' → List Nat) {p : Iter E} {R : p.S → Nat} {kn ks}
    (h : ReadsAtMost p R kn ks) : ReadsAtMost (packIter pk order p) (fun s => R s.parent) ⊤ ks := by
  obtain ⟨I, h0, h1, hn, hg, hs⟩ := h
  refine ⟨fun s => I s.parent, (hg _ h0).1, (hg _ h0).2.trans h1, ?_, fun s hi => ⟨hi, rfl⟩, ?_⟩
  · intro F s s' r hi he
    refine ⟨?_, by simp⟩
    simp only [packIter] at he
    cases hp : s.packed with
    | some q =>
      rw [hp] at he
      have he := congrArg Prod.fst (Option.some.inj he)
      dsimp only at he
      subst he
      have hps := packEmit_parent (B := pk.B) (S := p.S) (C := p.C) s q.1 q.2
      exact (congrArg I hps).mpr hi
    | none =>
      rw [hp] at he
      exact packLoop_inv pk order (fun F s s' r hi he => (hn F s s' r hi he).1) (fun s hi => (hg s hi).1) F F s (s', r) hi he
  · intro F s c s' e hi he
    simp only [packIter, Option.bind_eq_bind] at he
    cases hx : p.set F s.parent c.1 with
    | none => rw [hx] at he; cases he
    | some y =>
      rw [hx, Option.bind_some] at he
      obtain ⟨j1, j2⟩ := hs F s.parent c.1 y.1 y.2 hi hx
      obtain ⟨t, x⟩ := y
      cases x with
      | some x => cases he; exact ⟨j1, j2⟩
      | none =>
        cases he
        obtain ⟨g1, g2⟩ := hg _ j1
        exact ⟨g1, by dsimp only at g2 ⊢; rw [g2]; exact j2⟩

/-! ### Several inputs -/

section
variable {n : Nat} {ps : Fin n → Iter α} {I : ∀ i, (ps i).S → Prop} {R : ∀ i, (ps i).S → Nat} {kn ks : Fin n → ℕ∞}

theorem sum_reads {s s' : ∀ i, (ps i).S} {k : Fin n → ℕ∞} (h : ∀ j, (R j (s' j) : ℕ∞) ≤ R j (s j) + k j) :
    ((∑ i, R i (s' i) : Nat) : ℕ∞) ≤ ((∑ i, R i (s i) : Nat) : ℕ∞) + ∑ i, k i := by
  push_cast
  rw [← Finset.sum_add_distrib]
  exact Finset.sum_le_sum (fun j _ => h j)

theorem update_reads {s : ∀ i, (ps i).S} {i : Fin n} {si : (ps i).S} {k : ℕ∞} (hI : ∀ j, I j (s j)) (h1 : I i si)
    (h2 : (R i si : ℕ∞) ≤ R i (s i) + k) (j : Fin n) :
    I j (Function.update s i si j) ∧ (R j (Function.update s i si j) : ℕ∞) ≤ R j (s j) + if j = i then k else 0 := by
  by_cases hj : j = i
  · subst hj
    simpa using ⟨h1, h2⟩
  · rw [Function.update_of_ne hj, if_neg hj]
    exact ⟨hI j, by simp⟩

theorem nextAll_reads (hn : ∀ i F s s' r, I i s → (ps i).next F s = some (s', r) → I i s' ∧ (R i s' : ℕ∞) ≤ R i s + kn i) (F : Nat) :
    ∀ (is : List (Fin n)) (s s' : ∀ i, (ps i).S) (acc : List α) (r), is.Nodup → (∀ j, I j (s j)) → nextAll ps F is s acc = some (s', r) →
      ∀ j, I j (s' j) ∧ (R j (s' j) : ℕ∞) ≤ R j (s j) + if j ∈ is then kn j else 0 := by
  intro is
  induction is with
  | nil => intro s s' acc r _ hI h; cases h; exact fun j => ⟨hI j, by simp⟩
  | cons i is ih =>
    intro s s' acc r hd hI h j
    simp only [nextAll, Option.bind_eq_bind] at h
    cases hx : (ps i).next F (s i) with
    | none => rw [hx] at h; cases h
    | some y =>
      rw [hx, Option.bind_some] at h
      obtain ⟨h1, h2⟩ := hn i F (s i) y.1 y.2 (hI i) hx
      obtain ⟨t, x⟩ := y
      have hu := update_reads hI h1 h2
      have hone : I j (Function.update s i t j) ∧ (R j (Function.update s i t j) : ℕ∞) ≤ R j (s j) + if j ∈ i :: is then kn j else 0 := by
        refine ⟨(hu j).1, le_trans (hu j).2 (add_le_add_right ?_ _)⟩
        by_cases hj : j = i
        · subst hj; simp
        · simp [hj]
      cases x with
      | stop => cases h; exact hone
      | fail e => cases h; exact hone
      | item a =>
        obtain ⟨k1, k2⟩ := ih _ _ _ _ (List.nodup_cons.1 hd).2 (fun j => (hu j).1) h j
        refine ⟨k1, le_trans k2 (le_trans (add_le_add_left (hu j).2 _) ?_)⟩
        rw [add_assoc]
        refine add_le_add_right ?_ _
        by_cases hj : j = i
        · subst hj; simp [(List.nodup_cons.1 hd).1]
        · simp [hj]

theorem nextAll_mem (F : Nat) : ∀ (is : List (Fin n)) (s s' : ∀ i, (ps i).S) (acc acc' : List α) (i : Fin n) (r),
    nextAll ps F is s acc = some (s', acc', some (i, r)) → i ∈ is := by
  intro is
  induction is with
  | nil => intro s s' acc acc' i r h; cases h
  | cons i is ih =>
    intro s s' acc acc' k r h
    simp only [nextAll, Option.bind_eq_bind] at h
    cases hx : (ps i).next F (s i) with
    | none => rw [hx] at h; cases h
    | some y =>
      rw [hx, Option.bind_some] at h
      obtain ⟨t, x⟩ := y
      cases x with
      | stop => cases h; exact List.mem_cons_self ..
      | fail e => cases h; exact List.mem_cons_self ..
      | item a => exact List.mem_cons_of_mem _ (ih _ _ _ _ _ _ h)

theorem zipCheckRest_reads (hn : ∀ i F s s' r, I i s → (ps i).next F s = some (s', r) → I i s' ∧ (R i s' : ℕ∞) ≤ R i s + kn i) (F : Nat) :
    ∀ (is : List (Fin n)) (s s' : ∀ i, (ps i).S) (r), is.Nodup → (∀ j, I j (s j)) → zipCheckRest ps F is s = some (s', r) →
      ∀ j, I j (s' j) ∧ (R j (s' j) : ℕ∞) ≤ R j (s j) + if j ∈ is then kn j else 0 := by
  intro is
  induction is with
  | nil => intro s s' r _ hI h; cases h; exact fun j => ⟨hI j, by simp⟩
  | cons i is ih =>
    intro s s' r hd hI h j
    simp only [zipCheckRest, Option.bind_eq_bind] at h
    cases hx : (ps i).next F (s i) with
    | none => rw [hx] at h; cases h
    | some y =>
      rw [hx, Option.bind_some] at h
      obtain ⟨h1, h2⟩ := hn i F (s i) y.1 y.2 (hI i) hx
      obtain ⟨t, x⟩ := y
      have hu := update_reads hI h1 h2
      have hone : I j (Function.update s i t j) ∧ (R j (Function.update s i t j) : ℕ∞) ≤ R j (s j) + if j ∈ i :: is then kn j else 0 := by
        refine ⟨(hu j).1, le_trans (hu j).2 (add_le_add_right ?_ _)⟩
        by_cases hj : j = i
        · subst hj; simp
        · simp [hj]
      cases x with
      | item a => cases h; exact hone
      | fail e => cases h; exact hone
      | stop =>
        obtain ⟨k1, k2⟩ := ih _ _ _ (List.nodup_cons.1 hd).2 (fun j => (hu j).1) h j
        refine ⟨k1, le_trans k2 (le_trans (add_le_add_left (hu j).2 _) ?_)⟩
        rw [add_assoc]
        refine add_le_add_right ?_ _
        by_cases hj : j = i
        · subst hj; simp [(List.nodup_cons.1 hd).1]
        · simp [hj]

theorem setAll_reads (hs : ∀ i F s c s' e, I i s → (ps i).set F s c = some (s', e) → I i s' ∧ (R i s' : ℕ∞) ≤ R i s + ks i) (F : Nat)
    (cs : ∀ i, (ps i).C) : ∀ (is : List (Fin n)) (s s' : ∀ i, (ps i).S) (e), is.Nodup → (∀ j, I j (s j)) → setAll ps F cs is s = some (s', e) →
      ∀ j, I j (s' j) ∧ (R j (s' j) : ℕ∞) ≤ R j (s j) + if j ∈ is then ks j else 0 := by
  intro is
  induction is with
  | nil => intro s s' e _ hI h; cases h; exact fun j => ⟨hI j, by simp⟩
  | cons i is ih =>
    intro s s' e hd hI h j
    simp only [setAll, Option.bind_eq_bind] at h
    cases hx : (ps i).set F (s i) (cs i) with
    | none => rw [hx] at h; cases h
    | some y =>
      rw [hx, Option.bind_some] at h
      obtain ⟨h1, h2⟩ := hs i F (s i) (cs i) y.1 y.2 (hI i) hx
      obtain ⟨t, x⟩ := y
      have hu := update_reads hI h1 h2
      cases x with
      | some x =>
        cases h
        refine ⟨(hu j).1, le_trans (hu j).2 (add_le_add_right ?_ _)⟩
        by_cases hj : j = i
        · subst hj; simp
        · simp [hj]
      | none =>
        obtain ⟨k1, k2⟩ := ih _ _ _ (List.nodup_cons.1 hd).2 (fun j => (hu j).1) h j
        refine ⟨k1, le_trans k2 (le_trans (add_le_add_left (hu j).2 _) ?_)⟩
        rw [add_assoc]
        refine add_le_add_right ?_ _
        by_cases hj : j = i
        · subst hj; simp [(List.nodup_cons.1 hd).1]
        · simp [hj]

theorem zip_next_reads (strict : Bool) (hn : ∀ i F s s' r, I i s → (ps i).next F s = some (s', r) → I i s' ∧ (R i s' : ℕ∞) ≤ R i s + kn i)
    (F : Nat) (s s' : ∀ i, (ps i).S) (r) (hI : ∀ j, I j (s j)) (h : (zipIter strict ps).next F s = some (s', r)) (j : Fin n) :
    I j (s' j) ∧ (R j (s' j) : ℕ∞) ≤ R j (s j) + kn j := by
  simp only [zipIter, Option.bind_eq_bind] at h
  cases hx : nextAll ps F (List.finRange n) s [] with
  | none => rw [hx] at h; cases h
  | some y =>
    rw [hx, Option.bind_some] at h
    have h1 := nextAll_reads hn F _ s y.1 [] y.2 (List.nodup_finRange n) hI hx
    simp only [List.mem_finRange, if_true] at h1
    obtain ⟨t, acc, x⟩ := y
    cases x with
    | none => cases h; exact h1 j
    | some x =>
      obtain ⟨i, x⟩ := x
      have hrest : ∀ (r), (if strict = true then if i.val > 0 then some (t, Res.fail Err.valueError)
            else zipCheckRest ps F ((List.finRange n).drop 1) t else some (t, .stop)) = some (s', r) →
          I j (s' j) ∧ (R j (s' j) : ℕ∞) ≤ R j (s j) + kn j := by
        intro r h
        split at h
        · split at h
          · cases h; exact h1 j
          · cases n with
            | zero => exact i.elim0
            | succ m =>
              rename_i hi
              have hi0 : i = 0 := Fin.ext (by simp only [Fin.val_zero]; omega)
              have hcons : List.finRange (m + 1) = 0 :: (List.finRange m).map Fin.succ := List.finRange_succ
              have hnd := List.nodup_finRange (m + 1)
              rw [hcons] at hx hnd h
              simp only [nextAll, Option.bind_eq_bind] at hx
              cases hz : (ps 0).next F (s 0) with
              | none => rw [hz] at hx; cases hx
              | some z =>
                rw [hz, Option.bind_some] at hx
                obtain ⟨l1, l2⟩ := hn 0 F (s 0) z.1 z.2 (hI 0) hz
                obtain ⟨u, x0⟩ := z
                have hu := update_reads hI l1 l2
                have hdrop : (0 :: (List.finRange m).map Fin.succ).drop 1 = (List.finRange m).map Fin.succ := rfl
                have fin : t = Function.update s 0 u → I j (s' j) ∧ (R j (s' j) : ℕ∞) ≤ R j (s j) + kn j := by
                  intro ht
                  subst ht
                  rw [hdrop] at h
                  obtain ⟨m1, m2⟩ := zipCheckRest_reads hn F _ _ s' r (List.nodup_cons.1 hnd).2 (fun j => (hu j).1) h j
                  refine ⟨m1, le_trans m2 (le_trans (add_le_add_left (hu j).2 _) ?_)⟩
                  rw [add_assoc]
                  refine add_le_add_right ?_ _
                  by_cases hj : j = 0
                  · subst hj; simp [(List.nodup_cons.1 hnd).1]
                  · simp only [hj, if_false, zero_add]; split <;> simp
                cases x0 with
                | item a =>
                  have := nextAll_mem F _ _ _ _ _ _ _ hx
                  rw [hi0] at this
                  exact absurd this (List.nodup_cons.1 hnd).1
                | stop => cases hx; exact fin rfl
                | fail e => cases hx; exact fin rfl
        · cases h; exact h1 j
      cases x with
      | fail e => cases h; exact h1 j
      | stop => exact hrest _ h
      | item a => exact hrest _ h

end

theorem reads_zip {n : Nat} (strict : Bool) (ps : Fin n → Iter α) (R : ∀ i, (ps i).S → Nat) (kn ks : Fin n → ℕ∞)
    (h : ∀ i, ReadsAtMost (ps i) (R i) (kn i) (ks i)) :
    ReadsAtMost (zipIter strict ps) (fun s => ∑ i, R i (s i)) (∑ i, kn i) (∑ i, ks i) := by
  choose I h0 h1 hn hg hs using h
  refine ⟨fun s => ∀ j, I j (s j), h0, Finset.sum_eq_zero (fun i _ => h1 i), ?_, ?_, ?_⟩
  · intro F s s' r hi he
    have := zip_next_reads strict hn F s s' r hi he
    exact ⟨fun j => (this j).1, sum_reads (fun j => (this j).2)⟩
  · intro s hi
    exact ⟨fun j => (hg j _ (hi j)).1, Finset.sum_congr rfl (fun j _ => (hg j _ (hi j)).2)⟩
  · intro F s c s' e hi he
    have := setAll_reads hs F c (List.finRange n) s s' e (List.nodup_finRange n) hi he
    simp only [List.mem_finRange, if_true] at this
    exact ⟨fun j => (this j).1, sum_reads (fun j => (this j).2)⟩

theorem reads_mix {n : Nat} (proportions : List Nat) (ps : Fin n → Iter α) (R : ∀ i, (ps i).S → Nat) (kn : ℕ∞) (ks : Fin n → ℕ∞)
    (h : ∀ i, ReadsAtMost (ps i) (R i) kn (ks i)) :
    ReadsAtMost (mixIter proportions ps) (fun s => ∑ i, R i (s.parents i)) kn (∑ i, ks i) := by
  choose I h0 h1 hn hg hs using h
  refine ⟨fun s => ∀ j, I j (s.parents j), h0, Finset.sum_eq_zero (fun i _ => h1 i), ?_, ?_, ?_⟩
  · intro F s s' r hi he
    simp only [mixIter, Option.bind_eq_bind] at he
    split at he
    · cases he; exact ⟨hi, le_self_add⟩
    · cases hd : datasetAndKey (s.index : Int) proportions with
      | error e => rw [hd] at he; cases he; exact ⟨hi, le_self_add⟩
      | ok y =>
        rw [hd] at he
        obtain ⟨d, key⟩ := y
        dsimp only at he
        split at he
        · rename_i hlt
          cases hx : (ps ⟨d, hlt⟩).next F (s.parents ⟨d, hlt⟩) with
          | none => rw [hx] at he; cases he
          | some y =>
            rw [hx, Option.bind_some] at he
            obtain ⟨j1, j2⟩ := hn _ F _ y.1 y.2 (hi _) hx
            obtain ⟨t, x⟩ := y
            have hu := update_reads hi j1 j2
            have hsum : ((∑ i, R i (Function.update s.parents ⟨d, hlt⟩ t i) : Nat) : ℕ∞) ≤ ((∑ i, R i (s.parents i) : Nat) : ℕ∞) + kn := by
              have := sum_reads (fun j => (hu j).2)
              rwa [Finset.sum_ite_eq' Finset.univ (⟨d, hlt⟩ : Fin n) (fun _ => kn), if_pos (Finset.mem_univ _)] at this
            cases x <;> (cases he; exact ⟨fun j => (hu j).1, hsum⟩)
        · cases he; exact ⟨hi, le_self_add⟩
  · intro s hi
    exact ⟨fun j => (hg j _ (hi j)).1, Finset.sum_congr rfl (fun j _ => (hg j _ (hi j)).2)⟩
  · intro F s c s' e hi he
    simp only [mixIter, Option.bind_eq_bind] at he
    cases hx : setAll ps F c.1 (List.finRange n) s.parents with
    | none => rw [hx] at he; cases he
    | some y =>
      rw [hx, Option.bind_some] at he
      have := setAll_reads hs F c.1 (List.finRange n) s.parents y.1 y.2 (List.nodup_finRange n) hi hx
      simp only [List.mem_finRange, if_true] at this
      obtain ⟨t, x⟩ := y
      cases x <;> (cases he; exact ⟨fun j => (this j).1, sum_reads (fun j => (this j).2)⟩)

end Grain
