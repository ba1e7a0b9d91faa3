import Verif.Iter.Mix
/-
Simulation for the iterator over a random access dataset (`to_iter_dataset`).
-/
namespace Grain

/-- The indices `r, r+1, …` (`n` of them). -/
def idxFrom (r n : Nat) : List Int := (List.range n).map (fun (k : Nat) => ((r + k : Nat) : Int))

theorem idxFrom_succ (r n : Nat) : idxFrom r (n + 1) = (r : Int) :: idxFrom (r + 1) n := by
  unfold idxFrom
  rw [List.range_succ_eq_map, List.map_cons, List.map_map]
  congr 1
  apply List.map_congr_left
  intro k _
  simp only [Function.comp]
  congr 1
  omega

theorem idxFrom_append (r n m : Nat) : idxFrom r (n + m) = idxFrom r n ++ idxFrom (r + n) m := by
  unfold idxFrom
  rw [List.range_add, List.map_append, List.map_map]
  congr 1
  apply List.map_congr_left
  intro k _
  simp only [Function.comp]
  congr 1
  omega

/-- The buffer holds the reads `r, r+1, …`, and there is an executor whenever one is needed. -/
def PfBuf (len : Nat) (s : PrefetchState) (r : Nat) : Prop :=
  s.buffer = idxFrom r s.buffer.length ∧ s.buffered = ((r + s.buffer.length : Nat) : Int) ∧ r + s.buffer.length ≤ len ∧
  (s.size > 0 ∧ s.threads > 0 → s.exec = true)

theorem fillBuffer_inv {len : Nat} {s : PrefetchState} {r : Nat} (h : PfBuf len s r) (hx : s.exec = true) :
    (fillBuffer len s).2 = none ∧ PfBuf len (fillBuffer len s).1 r ∧ (fillBuffer len s).1.returned = s.returned ∧
    (fillBuffer len s).1.checker = s.checker ∧
    (0 < s.size → r < len → s.buffer = [] → (fillBuffer len s).1.buffer ≠ []) := by
  obtain ⟨h1, h2, h3, h4⟩ := h
  unfold fillBuffer
  simp only []
  split
  · rename_i hn
    refine ⟨rfl, ⟨h1, h2, h3, h4⟩, rfl, rfl, ?_⟩
    intro hs hr hb
    rw [hb] at h2 hn
    simp only [List.length_nil] at h2 hn
    omega
  · rename_i hn
    simp only [hx, if_true]
    generalize hN : min (s.size - s.buffer.length) (((len : Int) - s.buffered).toNat) = n at hn
    have hidx : s.buffer ++ (List.range n).map (fun (k : Nat) => s.buffered + (k : Int)) =
        idxFrom r (s.buffer.length + n) := by
      rw [idxFrom_append, ← h1]
      congr 1
      unfold idxFrom
      apply List.map_congr_left
      intro k _
      rw [h2]; push_cast; rfl
    refine ⟨trivial, ⟨?_, ?_, ?_, ?_⟩, trivial, trivial, ?_⟩
    · simp only [List.length_append, List.length_map, List.length_range]
      exact hidx
    · simp only [List.length_append, List.length_map, List.length_range, h2]; push_cast; omega
    · simp only [List.length_append, List.length_map, List.length_range]; omega
    · intro _; rfl
    · intro _ _ _ hc
      have := congrArg List.length hc
      simp at this
      omega

theorem fillBuffer_exec (len : Nat) (s : PrefetchState) (hx : s.exec = true) :
    (fillBuffer len s).2 = none ∧ (fillBuffer len s).1.exec = true := by
  unfold fillBuffer
  simp only []
  split
  · exact ⟨rfl, hx⟩
  · simp [hx]

/-- One read returns the element at the returned index, whatever the buffer size. -/
theorem prefetchRead_spec (ds : MapDs α) (s : PrefetchState) (r : Nat) (hr : r < ds.len) (hs : s.returned = r)
    (h : PfBuf ds.len s r) :
    ∃ s', prefetchRead ds s = (s', ds.getitem r) ∧
      (∀ x, ds.getitem r = .ok x → s'.returned = ((r + 1 : Nat) : Int) ∧ PfBuf ds.len s' (r + 1)) ∧
      (s'.size > 0 ∧ s'.threads > 0 → s'.exec = true) := by
  have popped : ∀ (t : PrefetchState) (i : Int) (rest : List Int), PfBuf ds.len t r → t.buffer = i :: rest →
      i = r ∧ PfBuf ds.len { t with buffer := rest } (r + 1) := by
    rintro t i rest ⟨h1, h2, h3, h4⟩ hb
    rw [hb, List.length_cons] at h1 h2 h3
    rw [idxFrom_succ] at h1
    have h5 := (List.cons.inj h1).1
    have h6 := (List.cons.inj h1).2
    refine ⟨h5, h6, ?_, ?_, h4⟩
    · simp only [h2]; omega
    · simp only []; omega
  unfold prefetchRead
  by_cases hbt : s.size > 0 ∧ s.threads > 0
  · rw [if_pos hbt]
    have hx := h.2.2.2 hbt
    have main : ∀ t : PrefetchState, PfBuf ds.len t r → t.returned = r → t.exec = true → t.buffer ≠ [] →
        ∃ s', (match t.buffer with
          | [] => (t, .error .indexError)
          | i :: rest =>
            match fillBuffer ds.len { t with buffer := rest } with
            | (s, some e) => (s, .error e)
            | (s, none) =>
              match ds.getitem i with
              | .error e => (s, .error e)
              | .ok x => ({ s with returned := s.returned + 1 }, .ok x)) = (s', ds.getitem r) ∧
          (∀ x, ds.getitem r = .ok x → s'.returned = ((r + 1 : Nat) : Int) ∧ PfBuf ds.len s' (r + 1)) ∧
          (s'.size > 0 ∧ s'.threads > 0 → s'.exec = true) := by
      intro t ht htr htx htb
      cases hb : t.buffer with
      | nil => exact absurd hb htb
      | cons i rest =>
        obtain ⟨rfl, hp⟩ := popped t i rest ht hb
        obtain ⟨f1, f2, f3, f4, _⟩ := fillBuffer_inv hp htx
        cases hf : fillBuffer ds.len { t with buffer := rest } with
        | mk t' e =>
          rw [hf] at f1 f2 f3
          simp only at f1 f2 f3
          subst f1
          simp only [hf]
          cases hg : ds.getitem (r : Int) with
          | error e => exact ⟨t', rfl, (fun x hx => by cases hx), f2.2.2.2⟩
          | ok x =>
            refine ⟨_, rfl, fun y _ => ⟨?_, f2⟩, f2.2.2.2⟩
            simp only [f3, htr]; push_cast; rfl
    by_cases hb : s.buffer = []
    · have hbe : s.buffer.isEmpty = true := by rw [hb]; rfl
      simp only [hbe, if_true]
      obtain ⟨f1, f2, f3, f4, f5⟩ := fillBuffer_inv h hx
      have hne := f5 hbt.1 hr hb
      have fx := (fillBuffer_exec ds.len s hx).2
      cases hf : fillBuffer ds.len s with
      | mk t' e =>
        rw [hf] at f1 f2 f3 hne fx
        simp only at f1 f2 f3 hne fx
        subst f1
        exact main t' f2 (by rw [f3, hs]) fx hne
    · have hbe : s.buffer.isEmpty = false := by cases hh : s.buffer <;> simp_all
      simp only [hbe, Bool.false_eq_true, if_false]
      exact main s h hs hx hb
  · rw [if_neg hbt]
    cases hb : s.buffer with
    | cons i rest =>
      obtain ⟨rfl, hp⟩ := popped s i rest h hb
      simp only []
      cases hg : ds.getitem (r : Int) with
      | error e => exact ⟨_, rfl, (fun x hx => by cases hx), hp.2.2.2⟩
      | ok x =>
        refine ⟨_, rfl, fun y _ => ⟨?_, hp⟩, hp.2.2.2⟩
        simp only [hs]; push_cast; rfl
    | nil =>
      simp only [hs]
      cases hg : ds.getitem (r : Int) with
      | error e => exact ⟨_, rfl, (fun x hx => by cases hx), h.2.2.2⟩
      | ok x =>
        obtain ⟨h1, h2, h3, h4⟩ := h
        rw [hb] at h1 h2 h3
        simp only [List.length_nil] at h1 h2 h3
        refine ⟨_, rfl, fun y _ => ⟨?_, ?_, ?_, ?_, h4⟩, h4⟩
        · push_cast; rfl
        · rfl
        · simp only [h2, List.length_nil]; push_cast; omega
        · simp only [List.length_nil]; omega

section
variable {ds : MapDs α} {vs : List (Option α)} {allow : Bool}

/-- What is kept of the values read. -/
def keepElems (allow : Bool) (vs : List (Option α)) : List (Option α) := vs.filter (fun x => allow || x.isSome)

/-- The loop skips to the next element to return. -/
theorem prefetchLoop_item (hlen : vs.length ≤ ds.len) (hv : ∀ k (hk : k < vs.length), ds.getitem k = .ok vs[k])
    (x : Option α) (rest : List (Option α)) :
    ∀ (k r : Nat) (s : PrefetchState), k = vs.length - r → s.returned = r → PfBuf ds.len s r →
    keepElems allow (vs.drop r) = x :: rest →
    ∃ s' r', (∀ n, k ≤ n → prefetchLoop ds allow none n s = some (s', .item x)) ∧ s'.returned = ((r' : Nat) : Int) ∧
      r' ≤ vs.length ∧ PfBuf ds.len s' r' ∧ keepElems allow (vs.drop r') = rest := by
  intro k
  induction k with
  | zero =>
    intro r s hk _ _ hf
    rw [List.drop_eq_nil_of_le (by omega)] at hf
    simp [keepElems] at hf
  | succ k ih =>
    intro r s hk hs hb hf
    have hr : r < vs.length := by omega
    obtain ⟨s1, e1, e2, _⟩ := prefetchRead_spec ds s r (by omega) hs hb
    obtain ⟨e3, e4⟩ := e2 _ (hv r hr)
    rw [hv r hr] at e1
    have hne : ¬ s.returned = (ds.len : Int) := by rw [hs]; omega
    obtain ⟨c', hc⟩ := Checker.check_none s1.checker (allow || vs[r].isSome)
    rw [drop_cons_of_lt hr] at hf
    simp only [keepElems, List.filter_cons] at hf
    by_cases hkeep : (allow || vs[r].isSome) = true
    · rw [if_pos hkeep] at hf
      refine ⟨{ s1 with checker := c' }, r + 1, ?_, e3, by omega, e4, (List.cons.inj hf).2⟩
      intro n hn
      obtain ⟨n, rfl⟩ : ∃ m, n = m + 1 := ⟨n - 1, by omega⟩
      rw [prefetchLoop, if_neg hne, e1]
      simp only []
      rw [hc]
      simp only [if_pos hkeep]
      rw [(List.cons.inj hf).1]
    · rw [if_neg hkeep] at hf
      obtain ⟨s', r', h1, h2⟩ := ih (r + 1) { s1 with checker := c' } (by omega) e3 e4 hf
      refine ⟨s', r', ?_, h2⟩
      intro n hn
      obtain ⟨n, rfl⟩ : ∃ m, n = m + 1 := ⟨n - 1, by omega⟩
      rw [prefetchLoop, if_neg hne, e1]
      simp only []
      rw [hc]
      simp only [hkeep, Bool.false_eq_true, if_false]
      exact h1 n (by omega)

/-- When nothing is left to return, the loop reads all the remaining values. -/
theorem prefetchLoop_skip (hlen : vs.length ≤ ds.len) (hv : ∀ k (hk : k < vs.length), ds.getitem k = .ok vs[k]) :
    ∀ (k r : Nat) (s : PrefetchState), k = vs.length - r → r ≤ vs.length → s.returned = r → PfBuf ds.len s r →
    keepElems allow (vs.drop r) = [] →
    ∃ s', (∀ n, prefetchLoop ds allow none (k + n) s = prefetchLoop ds allow none n s') ∧
      s'.returned = (vs.length : Int) ∧ PfBuf ds.len s' vs.length := by
  intro k
  induction k with
  | zero =>
    intro r s hk hr hs hb _
    have : r = vs.length := by omega
    subst this
    exact ⟨s, fun n => by rw [Nat.zero_add], hs, hb⟩
  | succ k ih =>
    intro r s hk hr' hs hb hf
    have hr : r < vs.length := by omega
    obtain ⟨s1, e1, e2, _⟩ := prefetchRead_spec ds s r (by omega) hs hb
    obtain ⟨e3, e4⟩ := e2 _ (hv r hr)
    rw [hv r hr] at e1
    have hne : ¬ s.returned = (ds.len : Int) := by rw [hs]; omega
    obtain ⟨c', hc⟩ := Checker.check_none s1.checker (allow || vs[r].isSome)
    rw [drop_cons_of_lt hr] at hf
    simp only [keepElems, List.filter_cons] at hf
    by_cases hkeep : (allow || vs[r].isSome) = true
    · rw [if_pos hkeep] at hf
      cases hf
    · rw [if_neg hkeep] at hf
      obtain ⟨s', h1, h2⟩ := ih (r + 1) { s1 with checker := c' } (by omega) (by omega) e3 e4 hf
      refine ⟨s', ?_, h2⟩
      intro n
      rw [show k + 1 + n = (k + n) + 1 by omega, prefetchLoop, if_neg hne, e1]
      simp only []
      rw [hc]
      simp only [hkeep, Bool.false_eq_true, if_false]
      exact h1 n
end

/-- The states and checkpoints of the prefetch iterator: position `m` of the stream of kept elements.  `extra` is the
number of outcomes after the values that were read without error (one error, or none). -/
def PfAt (len : Nat) (allow : Bool) (vs : List (Option α)) (extra : Nat) (s : PrefetchState) (m : Nat) : Prop :=
  (∃ r, s.returned = ((r : Nat) : Int) ∧ r ≤ vs.length ∧ PfBuf len s r ∧ m ≤ (keepElems allow vs).length ∧
    keepElems allow (vs.drop r) = (keepElems allow vs).drop m) ∨
  (m = (keepElems allow vs).length + extra ∧ 0 < extra ∧ (s.size > 0 ∧ s.threads > 0 → s.exec = true))

def PfCk (allow : Bool) (vs : List (Option α)) (extra : Nat) (c : Int) (m : Nat) : Prop :=
  (∃ r : Nat, c = (r : Int) ∧ r ≤ vs.length ∧ m ≤ (keepElems allow vs).length ∧
    keepElems allow (vs.drop r) = (keepElems allow vs).drop m) ∨
  (m = (keepElems allow vs).length + extra ∧ 0 < extra)

theorem prefetchIter_sim {ds : MapDs α} {vs : List (Option α)} {allow : Bool} (size threads : Nat) (ended : Bool)
    (err : List Err) (herr : err.length ≤ 1)
    (hlen : vs.length ≤ ds.len) (hv : ∀ k (hk : k < vs.length), ds.getitem k = .ok vs[k])
    (hend : ended = true → vs.length = ds.len ∧ err = [])
    (he : ∀ e, e ∈ err → vs.length < ds.len ∧ ds.getitem vs.length = .error e) :
    Sim (prefetchIter size threads allow none ds) ((keepElems allow vs).map Except.ok ++ err.map Except.error) ended
      (PfAt ds.len allow vs err.length) (PfCk allow vs err.length) := by
  have hL : ((keepElems allow vs).map (Except.ok (ε := Err)) ++ err.map Except.error).length =
      (keepElems allow vs).length + err.length := by simp
  refine { init := ?_, bound := ?_, next_item := ?_, next_stop := ?_, get := ?_, set := ?_, ck_bound := ?_ }
  · left
    refine ⟨0, rfl, by omega, ⟨rfl, rfl, by simp [prefetchIter], ?_⟩, by omega, by simp⟩
    intro hh
    simpa [prefetchIter] using hh
  · rintro s m (⟨r, _, _, _, h, _⟩ | ⟨h, _⟩) <;> rw [hL] <;> omega
  · rintro s m r hs hr
    have hm : m < (keepElems allow vs).length + err.length := by rw [← hL]; exact getElem?_lt hr
    rcases hs with ⟨q, h1, h2, h3, h4, h5⟩ | ⟨h1, h2⟩
    swap
    · omega
    by_cases hlt : m < (keepElems allow vs).length
    · rw [List.getElem?_append_left (by simpa using hlt), List.getElem?_map, List.getElem?_eq_getElem hlt] at hr
      have hr' : r = .ok (keepElems allow vs)[m] := by simpa using hr.symm
      subst hr'
      rw [drop_cons_of_lt hlt] at h5
      obtain ⟨s', r', e1, e2, e3, e4, e5⟩ := prefetchLoop_item hlen hv _ _ _ q s rfl h1 h3 h5
      exact ⟨s', ⟨_, e1⟩, Or.inl ⟨r', e2, e3, e4, hlt, e5⟩⟩
    · have hme : m = (keepElems allow vs).length := by omega
      subst hme
      cases herr' : err with
      | nil => rw [herr'] at hm; simp at hm
      | cons e0 es =>
        have hes : es = [] := by
          cases es with
          | nil => rfl
          | cons _ _ => rw [herr'] at herr; simp at herr
        subst hes
        rw [herr', List.getElem?_append_right (by simp)] at hr
        simp at hr
        subst hr
        obtain ⟨h6, h7⟩ := he e0 (by rw [herr']; exact List.mem_cons_self)
        rw [List.drop_eq_nil_of_le (Nat.le_refl _)] at h5
        obtain ⟨s1, e1, e2, e3⟩ := prefetchLoop_skip hlen hv _ q s rfl h2 h1 h3 h5
        obtain ⟨s2, e4, _, e5⟩ := prefetchRead_spec ds s1 vs.length h6 e2 e3
        have hne : ¬ s1.returned = (ds.len : Int) := by rw [e2]; omega
        rw [h7] at e4
        refine ⟨s2, ⟨vs.length - q + 1, ?_⟩, Or.inr ⟨rfl, by simp, e5⟩⟩
        · intro F hF
          show prefetchLoop ds allow none F s = _
          obtain ⟨n, rfl⟩ : ∃ n, F = (vs.length - q) + (n + 1) := ⟨F - (vs.length - q) - 1, by omega⟩
          rw [e1, prefetchLoop, if_neg hne, e4]
          rfl
  · rintro s hs hended
    obtain ⟨h6, h7⟩ := hend hended
    subst h7
    rw [hL] at hs ⊢
    rcases hs with ⟨q, h1, h2, h3, h4, h5⟩ | ⟨_, h2, _⟩
    swap
    · simp at h2
    rw [show (keepElems allow vs).length + ([] : List Err).length = (keepElems allow vs).length from rfl,
      List.drop_eq_nil_of_le (Nat.le_refl _)] at h5
    obtain ⟨s1, e1, e2, e3⟩ := prefetchLoop_skip hlen hv _ q s rfl h2 h1 h3 h5
    refine ⟨s1, ⟨vs.length - q + 1, ?_⟩, Or.inl ⟨vs.length, e2, Nat.le_refl _, e3, by simp, ?_⟩⟩
    · intro F hF
      show prefetchLoop ds allow none F s = _
      obtain ⟨n, rfl⟩ : ∃ n, F = (vs.length - q) + (n + 1) := ⟨F - (vs.length - q) - 1, by omega⟩
      rw [e1, prefetchLoop, if_pos (by rw [e2, h6])]
      rfl
    · rw [List.drop_length]
      simp [keepElems]
  · rintro s m hs
    refine ⟨hs, ?_⟩
    rcases hs with ⟨q, h1, h2, h3, h4, h5⟩ | ⟨h1, h2, _⟩
    · exact Or.inl ⟨q, h1, h2, h4, h5⟩
    · exact Or.inr ⟨h1, h2⟩
  · rintro s n c m hs hc hk
    rw [hL] at hk
    have hex : (s.size > 0 ∧ s.threads > 0 → s.exec = true) := by
      rcases hs with ⟨q, h1, h2, h3, h4, h5⟩ | ⟨h1, h2, h3⟩
      · exact h3.2.2.2
      · exact h3
    rcases hc with ⟨r, rfl, h2, h3, h4⟩ | ⟨h1, h2⟩
    · refine ⟨{ s with returned := r, buffered := r, buffer := [] }, Ev.of_forall (fun F => ?_),
        Or.inl ⟨r, rfl, h2, ⟨rfl, by simp, by simp; omega, hex⟩, h3, h4⟩⟩
      have : ¬ ((r : Int) < 0 ∨ (r : Int) > (ds.len : Int)) := by omega
      simp only [prefetchIter, prefetchSet, if_neg this]
    · rcases hk with hk | hk
      · omega
      · rw [(hend hk).2] at h2; simp at h2
  · rintro c m (⟨r, _, _, h, _⟩ | ⟨h, _⟩) <;> rw [hL] <;> omega

/-- Changing the buffer size, the number of threads or starting the prefetch early is not noticed. -/
theorem prefetchTweak_inv {vs : List (Option α)} {allow : Bool} {len extra : Nat} (s : PrefetchState) (m : Nat)
    (t : PrefetchTweak) (h : PfAt len allow vs extra s m) :
    (prefetchTweak len s t).2 = none ∧ PfAt len allow vs extra (prefetchTweak len s t).1 m := by
  cases t with
  | setSize b =>
    refine ⟨rfl, ?_⟩
    rcases h with ⟨q, h1, h2, h3, h4, h5⟩ | ⟨h1, h2, h3⟩
    · refine Or.inl ⟨q, h1, h2, ⟨h3.1, h3.2.1, h3.2.2.1, ?_⟩, h4, h5⟩
      rintro ⟨ha, hb⟩
      simp only [prefetchTweak] at ha hb ⊢
      cases hx : s.exec <;> simp [ha, hb] <;> omega
    · refine Or.inr ⟨h1, h2, ?_⟩
      rintro ⟨ha, hb⟩
      simp only [prefetchTweak] at ha hb ⊢
      cases hx : s.exec <;> simp [ha, hb] <;> omega
  | setThreads b =>
    refine ⟨rfl, ?_⟩
    rcases h with ⟨q, h1, h2, h3, h4, h5⟩ | ⟨h1, h2, h3⟩
    · refine Or.inl ⟨q, h1, h2, ⟨h3.1, h3.2.1, h3.2.2.1, ?_⟩, h4, h5⟩
      rintro ⟨ha, hb⟩
      simp only [prefetchTweak] at ha hb ⊢
      simp [ha, hb]
    · refine Or.inr ⟨h1, h2, ?_⟩
      rintro ⟨ha, hb⟩
      simp only [prefetchTweak] at ha hb ⊢
      simp [ha, hb]
  | startPrefetch =>
    unfold prefetchTweak
    simp only []
    split
    · rename_i hb
      rcases h with ⟨q, h1, h2, h3, h4, h5⟩ | ⟨h1, h2, h3⟩
      · obtain ⟨f1, f2, f3, _, _⟩ := fillBuffer_inv h3 (h3.2.2.2 hb)
        exact ⟨f1, Or.inl ⟨q, by rw [f3]; exact h1, h2, f2, h4, h5⟩⟩
      · obtain ⟨f1, f2⟩ := fillBuffer_exec len s (h3 hb)
        exact ⟨f1, Or.inr ⟨h1, h2, fun _ => f2⟩⟩
    · exact ⟨rfl, h⟩

end Grain
