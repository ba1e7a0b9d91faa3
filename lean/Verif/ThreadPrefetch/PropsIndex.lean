import Verif.ThreadPrefetch.Props
import Verif.Iter.PropsIndex
/-
C49 for thread prefetch: `get_next_index` and `set_next_index` under every schedule of the two threads.
-/
namespace Grain

/-- The calls of C49 as calls on a prefetching iterator. -/
def IdxOp.toTOp : IdxOp → TOp
  | .op o => o.toTOp
  | .getIndex => .index
  | .setIndex i => .setIndex i

/-- The positions at which the index calls are considered: where an element follows, and at the end if `atEnd`. -/
def idxUpTo (n : Nat) (atEnd : Bool) (i : Nat) : Bool := decide (i < n) || (atEnd && decide (i = n))

theorem IdxResumes.stream {p : Iter α} {vs : List α} {E : Bool} (h : IdxResumes p vs true E) :
    ResumesIdx p (fun n => (vs.map Except.ok)[n]?) (idxUpTo vs.length E) := by
  obtain ⟨At, Ck, h⟩ := h
  refine ⟨At, Ck, { init := h.sim.init, next := ?_, get := h.sim.get, set := fun h1 h2 => h.sim.set h1 h2 (Or.inr rfl) }, ?_⟩
  · intro s n hs
    have hb := h.sim.bound hs
    cases hx : (vs.map (Except.ok (ε := Err)))[n]? with
    | some r =>
      obtain ⟨s', e1, e2⟩ := h.sim.next_item hs hx
      exact ⟨s', by simpa only [streamRes, hx] using e1, by simpa only [streamPos, hx] using e2⟩
    | none =>
      have : (vs.map (Except.ok (ε := Err))).length ≤ n := List.getElem?_eq_none_iff.1 hx
      have hn : n = (vs.map (Except.ok (ε := Err))).length := by omega
      subst hn
      obtain ⟨s', e1, e2⟩ := h.sim.next_stop hs rfl
      exact ⟨s', by simpa only [streamRes, hx] using e1, by simpa only [streamPos, hx] using e2⟩
  · refine ⟨?_, ?_, ?_⟩
    · intro i _ n e he
      simp only [List.getElem?_map] at he
      cases hv : vs[n]? <;> simp [hv] at he
    · intro s n hs hi
      refine h.getIdx hs ?_
      simp only [idxUpTo, Bool.or_eq_true, decide_eq_true_eq, Bool.and_eq_true] at hi
      rcases hi with hi | hi
      · exact Or.inl hi
      · exact Or.inr ⟨hi.1, rfl⟩
    · intro s n i hs hi
      refine h.setIdx hs ?_
      simp only [idxUpTo, Bool.or_eq_true, decide_eq_true_eq, Bool.and_eq_true] at hi
      rcases hi with hi | hi
      · exact Or.inl hi
      · exact Or.inr ⟨hi.1, rfl, hi.2⟩

theorem idealRun_of_idxSpec (vs : List α) (E : Bool) : ∀ (ops : List IdxOp) (pos : Nat) (mv : Bool) (saved : List Nat) (outs : List (Res α ⊕ Int)),
    pos ≤ vs.length → idxSpec vs true E pos saved ops = some outs → (∀ (i : Nat) q, saved[i]? = some q → q ≤ vs.length) →
    idealRun (fun n => (vs.map (Except.ok (ε := Err)))[n]?) (idxUpTo vs.length E) pos pos mv false saved (ops.map IdxOp.toTOp) = some outs := by
  intro ops
  induction ops with
  | nil => intro pos mv saved outs _ h _; simpa only [idxSpec, List.map_nil, idealRun] using h
  | cons op ops ih =>
    intro pos mv saved outs hpos h hsv
    match op with
    | .op .next =>
      simp only [idxSpec, Option.bind_eq_bind] at h
      cases hx : vs[pos]? with
      | some a =>
        have hlt : pos < vs.length := (List.getElem?_eq_some_iff.1 hx).1
        have ho : outcome (vs.map (Except.ok (ε := Err))) true pos = some (.item a) := by simp [outcome, hx]
        rw [ho, Option.bind_some, Nat.min_eq_right (by omega)] at h
        obtain ⟨rest, hr, h⟩ := Option.bind_eq_some_iff.1 h
        have := ih (pos + 1) false saved rest (by omega) hr hsv
        simp only [List.map_cons, IdxOp.toTOp, Op.toTOp, idealRun, List.getElem?_map, hx, Option.map_some] at this ⊢
        rw [this]
        simpa using h
      | none =>
        have hge : vs.length ≤ pos := List.getElem?_eq_none_iff.1 hx
        have ho : outcome (vs.map (Except.ok (ε := Err))) true pos = some .stop := by simp [outcome, hx]
        have hp : vs.length = pos := by omega
        rw [ho, Option.bind_some, Nat.min_eq_left (by omega), hp] at h
        obtain ⟨rest, hr, h⟩ := Option.bind_eq_some_iff.1 h
        have := ih pos mv saved rest hpos hr hsv
        simp only [List.map_cons, IdxOp.toTOp, Op.toTOp, idealRun, List.getElem?_map, hx, Option.map_none] at this ⊢
        rw [this]
        simpa using h
    | .op .save =>
      simp only [idxSpec] at h
      have := ih pos false (saved ++ [pos]) outs hpos h (by
        intro i q hq
        rcases List.mem_append.1 (List.mem_of_getElem? hq) with hm | hm
        · obtain ⟨j, hj⟩ := List.getElem?_of_mem hm
          exact hsv j q hj
        · simp only [List.mem_singleton] at hm
          omega)
      simpa only [List.map_cons, IdxOp.toTOp, Op.toTOp, idealRun, Bool.and_false, Bool.false_eq_true, if_false] using this
    | .op (.restore k) =>
      simp only [idxSpec, Option.bind_eq_bind] at h
      obtain ⟨q, hq, h⟩ := Option.bind_eq_some_iff.1 h
      simp only [or_true, if_true] at h
      have := ih q false saved outs (hsv k q hq) h hsv
      simpa only [List.map_cons, IdxOp.toTOp, Op.toTOp, idealRun, hq] using this
    | .op (.fresh k) =>
      simp only [idxSpec, Option.bind_eq_bind] at h
      obtain ⟨q, hq, h⟩ := Option.bind_eq_some_iff.1 h
      simp only [or_true, if_true] at h
      have := ih q false saved outs (hsv k q hq) h hsv
      simpa only [List.map_cons, IdxOp.toTOp, Op.toTOp, idealRun, hq] using this
    | .getIndex =>
      simp only [idxSpec, Option.bind_eq_bind] at h
      split at h
      · rename_i hc
        obtain ⟨rest, hr, h⟩ := Option.bind_eq_some_iff.1 h
        have := ih pos mv saved rest hpos hr hsv
        have hi : idxUpTo vs.length E pos = true := by
          simp only [idxUpTo, Bool.or_eq_true, decide_eq_true_eq, Bool.and_eq_true]
          rcases hc with hc | hc
          · exact Or.inl hc
          · by_cases hlt : pos < vs.length
            · exact Or.inl hlt
            · exact Or.inr ⟨hc.1, by omega⟩
        simp only [List.map_cons, IdxOp.toTOp, idealRun, hi, if_true, this, Option.map_some]
        simpa using h
      · cases h
    | .setIndex i =>
      simp only [idxSpec] at h
      split at h
      · rename_i hc
        have := ih i true saved outs (by rcases hc with hc | ⟨_, _, hc⟩ <;> omega) h hsv
        have hi : idxUpTo vs.length E i = true := by
          simp only [idxUpTo, Bool.or_eq_true, decide_eq_true_eq, Bool.and_eq_true]
          rcases hc with hc | hc
          · exact Or.inl hc
          · exact Or.inr ⟨hc.1, hc.2.2⟩
        simp only [List.map_cons, IdxOp.toTOp, idealRun, hi, if_true, this]
      · cases h

theorem toTOp_plain (ops : List IdxOp) : ∀ op, op ∈ ops.map IdxOp.toTOp → op ≠ .start ∧ op ≠ .close := by
  intro op hop
  obtain ⟨o, _, rfl⟩ := List.mem_map.1 hop
  cases o with
  | op o => cases o <;> simp [IdxOp.toTOp, Op.toTOp]
  | getIndex => simp [IdxOp.toTOp]
  | setIndex i => simp [IdxOp.toTOp]

/-- C49 for thread prefetch with any buffer size, above the pipelines of `next_index_exact_partial`: whatever the schedule of the two
threads and whatever calls of `next`, `get_state`, `set_state`, `get_next_index` and `set_next_index` are made, in every run that cannot
go on all calls have returned, `next` returned the element at the position, `get_next_index` the position, and `set_next_index` moved to
it.  (Partial for the reasons of `next_index_exact_partial`, and because of the two counterexamples below.) -/
theorem thread_prefetch_next_index_partial {p : Iter α} {vs : List α} {atEnd : Bool} {size : Nat} (hp : IdxPipe p vs true atEnd)
    {ops : List IdxOp} {outs : List (Res α ⊕ Int)} (hspec : idxSpec vs true atEnd 0 [] ops = some outs)
    {s : TPSys p} (hrun : TPRun p size (tpInit p (ops.map IdxOp.toTOp)) s) (hstuck : ∀ s', ¬ TPStep p size s s') :
    s.pc = .idle ∧ s.prog = [] ∧ s.outs = outs :=
  thread_prefetch_no_deadlock hp.resumes.stream (fun _ => toTOp_plain ops)
    (idealRun_of_idxSpec vs atEnd ops 0 false [] outs (by omega) hspec (by intro i q h; simp at h)) hrun hstuck

/-- ... and every run gets there. -/
theorem thread_prefetch_next_index_terminates {p : Iter α} {vs : List α} {atEnd : Bool} {size : Nat} (hp : IdxPipe p vs true atEnd)
    {ops : List IdxOp} {outs : List (Res α ⊕ Int)} (hspec : idxSpec vs true atEnd 0 [] ops = some outs)
    (run : Nat → TPSys p) (h0 : run 0 = tpInit p (ops.map IdxOp.toTOp)) : ¬ ∀ i, TPStep p size (run i) (run (i + 1)) :=
  thread_prefetch_terminates hp.resumes.stream (fun _ => toTOp_plain ops)
    (idealRun_of_idxSpec vs atEnd ops 0 false [] outs (by omega) hspec (by intro i q h; simp at h)) run h0

-- the hypotheses are met: batches of two of `range(5)`, with a jump to the last batch, a checkpoint and a jump back
example : IdxPipe (batchIter 2 false .ok (prefetchIter 3 2 false none range5))
    ((List.range (batchCount 5 2 false)).map (fun i => group [some 0, some 1, some 2, some 3, some 4] 2 i)) true false ∧
    idxSpec ((List.range (batchCount 5 2 false)).map (fun i => group [some 0, some 1, some 2, some 3, some 4] 2 i)) true false 0 []
      [.op .next, .op .save, .getIndex, .setIndex 2, .op .next, .op (.restore 0), .getIndex, .op .next] =
    some [.inl (.item [some 0, some 1]), .inr 1, .inl (.item [some 4]), .inr 1, .inl (.item [some 2, some 3])] :=
  ⟨(IdxPipe.mapDataset (ds := range5) (vs := [some 0, some 1, some 2, some 3, some 4]) 3 2 false rfl (by decide) (by decide)).batch 2
    (by decide) false .ok (fun l => l) (fun _ => rfl), by decide⟩

/-! ### Where C49 does not hold for thread prefetch -/

/-- `set_next_index(1)`, `start_prefetch()`, `get_state()`: `set_next_index` leaves `_state` unset, so `get_state` asks the parent, while
the producer thread reads it (prefetch.py:700-708, 734-742).  Here the producer has read one element: the state saved is that after
element 1, and the iterator restored from it continues with element 2; element 1 is lost. -/
theorem thread_prefetch_set_index_race :
    ∃ s : TPSys (prefetchIter 0 0 false none range5),
      TPRun (prefetchIter 0 0 false none range5) 2 (tpInit _ [.setIndex 1, .start, .save, .fresh 0, .next]) s ∧
      s.prog = [] ∧ s.pc = .idle ∧ s.outs = [.inl (.item (some 2))] := by
  let p := prefetchIter 0 0 false none range5
  let s1 : p.S := (p.setIdx p.init 1).1
  let s2 : p.S := ((p.next 9 s1).get rfl).1
  have e2 : Ev (fun F => p.next F s1 = some (s2, .item (some 1))) := ⟨9, fun F hF => by
    obtain ⟨n, rfl⟩ := Nat.exists_eq_add_of_le hF
    rw [Nat.add_comm]
    rfl⟩
  let s3 : p.S := (prefetchSet 5 p.init 2).1
  let s4 : p.S := ((p.next 9 s3).get rfl).1
  have e4 : Ev (fun F => p.next F s3 = some (s4, .item (some 2))) := ⟨9, fun F hF => by
    obtain ⟨n, rfl⟩ := Nat.exists_eq_add_of_le hF
    rw [Nat.add_comm]
    rfl⟩
  exact ⟨_, .step (.step (.step (.step (.step (.step (.step (.step (.step (.step (.step .refl
    (.set_index (i := 1) (ps' := s1) rfl rfl rfl rfl)) (.start rfl rfl rfl rfl)) (.check_go rfl rfl)) (.read (ps' := s2) (r := .item (some 1)) rfl e2))
    (.save rfl rfl)) (.fresh (k := 0) (c := (2 : Int)) (ps' := s3) rfl rfl rfl ⟨0, fun _ _ => rfl⟩)) (.next_start rfl rfl (by decide) rfl rfl)) (.check_go rfl rfl))
    (.read (ps' := s4) (r := .item (some 2)) rfl e4)) (.put rfl (Or.inr (by decide)))) (.get_elem rfl rfl rfl), rfl, rfl, rfl⟩

/-- With filtered elements (`[0, None, 2, 3]`) `get_next_index` even changes when a state is restored: after `0` and `2` it is 2 (the
elements returned are counted); after restoring the state saved there it is 3 (the parent is asked). -/
theorem thread_prefetch_next_index_sparse :
    ∃ s : TPSys (prefetchIter 0 0 false none sparse4),
      TPRun (prefetchIter 0 0 false none sparse4) 0 (tpInit _ [.next, .next, .index, .save, .restore 0, .index]) s ∧
      s.prog = [] ∧ s.pc = .idle ∧ s.outs = [.inl (.item (some 0)), .inl (.item (some 2)), .inr 2, .inr 3] := by
  let p := prefetchIter 0 0 false none sparse4
  let s1 : p.S := ((p.next 9 p.init).get rfl).1
  have e1 : Ev (fun F => p.next F p.init = some (s1, .item (some 0))) := ⟨9, fun F hF => by
    obtain ⟨n, rfl⟩ := Nat.exists_eq_add_of_le hF
    rw [Nat.add_comm]
    rfl⟩
  let s2 : p.S := ((p.next 9 s1).get rfl).1
  have e2 : Ev (fun F => p.next F s1 = some (s2, .item (some 2))) := ⟨9, fun F hF => by
    obtain ⟨n, rfl⟩ := Nat.exists_eq_add_of_le hF
    rw [Nat.add_comm]
    rfl⟩
  let s3 : p.S := (prefetchSet 4 s2 3).1
  exact ⟨_, .step (.step (.step (.step (.step (.step .refl (.zero_item (ps' := s1) (a := some 0) rfl rfl rfl rfl e1))
    (.zero_item (ps' := s2) (a := some 2) rfl rfl rfl rfl e2)) (.index_known (i := 2) rfl rfl rfl)) (.save rfl rfl))
    (.restore (k := 0) (c := (3 : Int)) (ps' := s3) rfl rfl rfl rfl ⟨0, fun _ _ => rfl⟩))
    (.index (ps' := (prefetchSet 4 s3 3).1) (i := 3) rfl rfl rfl rfl ⟨0, fun _ _ => rfl⟩ rfl), rfl, rfl, rfl⟩

end Grain
