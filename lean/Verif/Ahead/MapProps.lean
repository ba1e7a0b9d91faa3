import Verif.Iter.Prefetch
/-
Property C90 for the reads that `to_iter_dataset` submits ahead.
-/
namespace Grain

/-- What a user can do with the iterator of `to_iter_dataset`: `next`, `set_state` (or `set_next_index`), and changing the
settings. -/
inductive PfCall where
  | next
  | set (i : Int)
  | tweak (t : PrefetchTweak)

/-- Buffer sizes that are set are at most `M`. -/
def PfCall.within (M : Nat) : PfCall → Prop
  | .tweak (.setSize n) => n ≤ M
  | _ => True

/-- Positions that are set exist in a dataset of length `len` (otherwise the call raises `IndexError`). -/
def PfCall.inRange (len : Nat) : PfCall → Prop
  | .set i => 0 ≤ i ∧ i ≤ (len : Int)
  | _ => True

/-- The state after a call, which may have raised. -/
def pfCall (ds : MapDs α) (allow : Bool) (thr : Option Threshold) (F : Nat) (s : PrefetchState) : PfCall → Option PrefetchState
  | .next => (prefetchLoop ds allow thr F s).map Prod.fst
  | .set i => some (prefetchSet ds.len s i).1
  | .tweak t => some (prefetchTweak ds.len s t).1

/-- States reached by calls that satisfy `ok`. -/
inductive PfReach (ds : MapDs α) (size threads : Nat) (allow : Bool) (thr : Option Threshold) (ok : PfCall → Prop) :
    PrefetchState → Prop where
  | new : PfReach ds size threads allow thr ok (prefetchIter size threads allow thr ds).init
  | call {s t F} (c : PfCall) : PfReach ds size threads allow thr ok s → ok c → pfCall ds allow thr F s c = some t →
      PfReach ds size threads allow thr ok t

/-- Sizes do not exceed `M`. -/
def PfSmall (M : Nat) (s : PrefetchState) : Prop := s.size ≤ M ∧ s.buffer.length ≤ M

theorem fillBuffer_small {M len : Nat} {s : PrefetchState} (h : PfSmall M s) : PfSmall M (fillBuffer len s).1 := by
  unfold fillBuffer
  simp only []
  split
  · exact h
  · split
    · refine ⟨h.1, ?_⟩
      have := h.1
      have := h.2
      simp only [List.length_append, List.length_map, List.length_range]
      omega
    · exact h

theorem prefetchRead_small {M : Nat} {ds : MapDs α} {s : PrefetchState} (h : PfSmall M s) : PfSmall M (prefetchRead ds s).1 := by
  have tail : ∀ {t : PrefetchState} {i rest}, PfSmall M t → t.buffer = i :: rest → PfSmall M { t with buffer := rest } := by
    intro t i rest ht hb
    have := ht.2
    rw [hb] at this
    exact ⟨ht.1, Nat.le_of_succ_le this⟩
  unfold prefetchRead
  split
  · have h1 : PfSmall M (if s.buffer.isEmpty then fillBuffer ds.len s else (s, none)).1 := by
      split
      · exact fillBuffer_small h
      · exact h
    generalize (if s.buffer.isEmpty then fillBuffer ds.len s else (s, none)) = x at h1
    obtain ⟨t, e⟩ := x
    cases e with
    | some e => exact h1
    | none =>
      dsimp only
      cases hb : t.buffer with
      | nil => exact h1
      | cons i rest =>
        dsimp only
        have h2 := fillBuffer_small (len := ds.len) (tail h1 hb)
        generalize fillBuffer ds.len { t with buffer := rest } = y at h2
        obtain ⟨u, e⟩ := y
        cases e with
        | some e => exact h2
        | none =>
          dsimp only
          cases ds.getitem i with
          | error e => exact h2
          | ok x => exact h2
  · cases hb : s.buffer with
    | cons i rest =>
      dsimp only
      cases ds.getitem i with
      | error e => exact tail h hb
      | ok x => exact tail h hb
    | nil =>
      dsimp only
      cases ds.getitem s.returned with
      | error e => exact h
      | ok x => exact ⟨h.1, Nat.zero_le _⟩

theorem prefetchLoop_small {M : Nat} {ds : MapDs α} {allow : Bool} {thr : Option Threshold} : ∀ (n : Nat) {s : PrefetchState}, PfSmall M s →
    ∀ {t r}, prefetchLoop ds allow thr n s = some (t, r) → PfSmall M t
  | 0, s, _, t, r, ht => by simp [prefetchLoop] at ht
  | n + 1, s, h, t, r, ht => by
    rw [prefetchLoop] at ht
    split at ht
    · cases ht; exact h
    · have h1 := prefetchRead_small (ds := ds) h
      generalize prefetchRead ds s = x at h1 ht
      obtain ⟨u, e⟩ := x
      cases e with
      | error e => cases ht; exact h1
      | ok x =>
        dsimp only at ht
        generalize u.checker.check thr (allow || x.isSome) = y at ht
        obtain ⟨c, e⟩ := y
        cases e with
        | some e => cases ht; exact h1
        | none =>
          dsimp only at ht
          split at ht
          · cases ht; exact h1
          · exact prefetchLoop_small n (s := { u with checker := c }) h1 ht

theorem pfCall_small {M : Nat} {ds : MapDs α} {allow : Bool} {thr : Option Threshold} {F : Nat} {s t : PrefetchState} {c : PfCall}
    (h : PfSmall M s) (hc : c.within M) (ht : pfCall ds allow thr F s c = some t) : PfSmall M t := by
  cases c with
  | next =>
    simp only [pfCall, Option.map_eq_some_iff] at ht
    obtain ⟨⟨u, r⟩, hu, rfl⟩ := ht
    exact prefetchLoop_small F h hu
  | set i =>
    cases ht
    unfold prefetchSet
    dsimp only
    split
    · exact h
    · exact ⟨h.1, Nat.zero_le _⟩
  | tweak w =>
    cases ht
    cases w with
    | setSize n => exact ⟨hc, h.2⟩
    | setThreads n => exact h
    | startPrefetch =>
      unfold prefetchTweak
      dsimp only
      split
      · exact fillBuffer_small h
      · exact h

section
variable {ds : MapDs α} {size threads M : Nat} {allow : Bool} {thr : Option Threshold}

theorem pfReach_small {ok : PfCall → Prop} (hM : size ≤ M) (hok : ∀ c, ok c → c.within M) {s : PrefetchState}
    (h : PfReach ds size threads allow thr ok s) : PfSmall M s := by
  induction h with
  | new => exact ⟨hM, Nat.zero_le _⟩
  | call c _ hc ht ih => exact pfCall_small ih (hok c hc) ht

/-- C90: at any moment at most `M` reads have been submitted whose results have not been taken, `M` being the largest buffer size
that was set, whatever the calls, and also if they raise. -/
theorem map_prefetch_pending (hM : size ≤ M) {s : PrefetchState} (h : PfReach ds size threads allow thr (PfCall.within M) s) :
    s.buffer.length ≤ M :=
  (pfReach_small hM (fun _ h => h) h).2

/-- The reads in the buffer are those that follow the position. -/
def PfNext (len : Nat) (s : PrefetchState) : Prop := ∃ r : Nat, s.returned = r ∧ r ≤ len ∧ PfBuf len s r

theorem prefetchLoop_next (hds : ∀ k < ds.len, ∃ x, ds.getitem k = .ok x) : ∀ (n : Nat) {s : PrefetchState}, PfNext ds.len s →
    ∀ {t r}, prefetchLoop ds allow thr n s = some (t, r) → PfNext ds.len t
  | 0, s, _, t, r, ht => by simp [prefetchLoop] at ht
  | n + 1, s, h, t, r, ht => by
    obtain ⟨q, hq, hql, hb⟩ := h
    rw [prefetchLoop] at ht
    split at ht
    · cases ht; exact ⟨q, hq, hql, hb⟩
    · rename_i hne
      have hlt : q < ds.len := by
        rcases Nat.lt_or_ge q ds.len with h | h
        · exact h
        · exact absurd (by rw [hq, show q = ds.len by omega]) hne
      obtain ⟨u, hu, hnext, _⟩ := prefetchRead_spec ds s q hlt hq hb
      obtain ⟨x, hx⟩ := hds q hlt
      rw [hu, hx] at ht
      have h1 : PfNext ds.len u := ⟨q + 1, (hnext x hx).1, hlt, (hnext x hx).2⟩
      dsimp only at ht
      generalize u.checker.check thr (allow || x.isSome) = y at ht
      obtain ⟨c, e⟩ := y
      cases e with
      | some e => cases ht; exact h1
      | none =>
        dsimp only at ht
        split at ht
        · cases ht; exact h1
        · exact prefetchLoop_next hds n (s := { u with checker := c }) h1 ht

theorem pfCall_next (hds : ∀ k < ds.len, ∃ x, ds.getitem k = .ok x) {F : Nat} {s t : PrefetchState} {c : PfCall}
    (h : PfNext ds.len s) (hc : c.inRange ds.len) (ht : pfCall ds allow thr F s c = some t) : PfNext ds.len t := by
  cases c with
  | next =>
    simp only [pfCall, Option.map_eq_some_iff] at ht
    obtain ⟨⟨u, r⟩, hu, rfl⟩ := ht
    exact prefetchLoop_next hds F h hu
  | set i =>
    cases ht
    obtain ⟨q, hq, hql, hb⟩ := h
    obtain ⟨k, rfl⟩ : ∃ k : Nat, i = k := ⟨i.toNat, by have := hc.1; omega⟩
    have hk : k ≤ ds.len := by have := hc.2; omega
    have : ¬ ((k : Int) < 0 ∨ (k : Int) > (ds.len : Int)) := by omega
    unfold prefetchSet
    dsimp only
    rw [if_neg this]
    exact ⟨k, rfl, hk, rfl, by simp, by simpa using hk, hb.2.2.2⟩
  | tweak w =>
    cases ht
    obtain ⟨q, hq, hql, hb⟩ := h
    cases w with
    | setSize n =>
      refine ⟨q, hq, hql, hb.1, hb.2.1, hb.2.2.1, ?_⟩
      rintro ⟨ha, hb⟩
      simp only [prefetchTweak] at ha hb ⊢
      cases hx : s.exec <;> simp [ha, hb] <;> omega
    | setThreads n =>
      refine ⟨q, hq, hql, hb.1, hb.2.1, hb.2.2.1, ?_⟩
      rintro ⟨ha, hb⟩
      simp only [prefetchTweak] at ha hb ⊢
      simp [ha, hb]
    | startPrefetch =>
      unfold prefetchTweak
      dsimp only
      split
      · rename_i hst
        obtain ⟨_, f2, f3, _⟩ := fillBuffer_inv hb (hb.2.2.2 hst)
        exact ⟨q, f3.trans hq, hql, f2⟩
      · exact ⟨q, hq, hql, hb⟩

/-- C90: if no read fails, the reads submitted ahead are, at any moment, reads of the elements right after the position (what
`get_state` returns), at most `M` of them, and none past the end of the dataset. -/
theorem map_prefetch_ahead (hds : ∀ k < ds.len, ∃ x, ds.getitem k = .ok x) (hM : size ≤ M) {s : PrefetchState}
    (h : PfReach ds size threads allow thr (fun c => c.within M ∧ c.inRange ds.len) s) :
    ∀ i ∈ s.buffer, s.returned ≤ i ∧ i < s.returned + M ∧ i < ds.len := by
  have hs := (pfReach_small hM (fun _ h => h.1) h).2
  have hn : PfNext ds.len s := by
    clear hs
    induction h with
    | new => exact ⟨0, rfl, Nat.zero_le _, rfl, rfl, Nat.zero_le _, by simp [prefetchIter]⟩
    | call c _ hc ht ih => exact pfCall_next hds ih hc.2 ht
  obtain ⟨r, hr, hrl, hb⟩ := hn
  intro i hi
  rw [hb.1] at hi
  simp only [idxFrom, List.mem_map, List.mem_range] at hi
  obtain ⟨k, hk, rfl⟩ := hi
  have := hb.2.2.1
  rw [hr]
  omega

end

/-- A dataset of 5 elements. -/
def five : MapDs Nat where
  len := 5
  getitem i := .ok (some i.toNat)
  getitems is := .ok (is.map (fun i => some i.toNat))

/-- The bound is reached: with buffer size 2, after the first element, the elements 1 and 2 are being read; a buffer that is made
smaller is not emptied. -/
example : PfReach five 2 1 false none (fun c => c.within 2 ∧ c.inRange 5)
    { returned := 1, buffered := 3, buffer := [1, 2], checker := ⟨1, 0⟩, size := 1, threads := 1, exec := true } :=
  .call (F := 1) (.tweak (.setSize 1)) (.call (F := 1) .next .new ⟨trivial, trivial⟩ rfl) ⟨by simp [PfCall.within], trivial⟩ rfl

end Grain
