import Verif.ProcPrefetch.Props
import Verif.ThreadPrefetch.PropsIndex
/-
C49 for process prefetch: `get_next_index` and `set_next_index` under every schedule of the two processes.
-/
namespace Grain

theorem viewRun_of_idxSpec (vs : List α) (E : Bool) : ∀ (ops : List IdxOp) (pos : Nat) (over : Bool) (saved : List Nat) (outs : List (Res α ⊕ Int)),
    pos ≤ vs.length → (over = true → pos = vs.length) → idxSpec vs true E pos saved ops = some outs →
    (∀ (i : Nat) q, saved[i]? = some q → q ≤ vs.length) →
    viewRun (fun n => (vs.map (Except.ok (ε := Err)))[n]?) (idxUpTo vs.length E) ⟨pos, pos, over, false, saved⟩ (ops.map IdxOp.toTOp) =
      some outs := by
  intro ops
  induction ops with
  | nil => intro pos over saved outs _ _ h _; simpa only [idxSpec, List.map_nil, viewRun] using h
  | cons op ops ih =>
    intro pos over saved outs hpos hover h hsv
    match op with
    | .op .next =>
      simp only [idxSpec, Option.bind_eq_bind] at h
      cases hx : vs[pos]? with
      | some a =>
        have hlt : pos < vs.length := (List.getElem?_eq_some_iff.1 hx).1
        have ho : outcome (vs.map (Except.ok (ε := Err))) true pos = some (.item a) := by simp [outcome, hx]
        rw [ho, Option.bind_some, Nat.min_eq_right (by omega)] at h
        obtain ⟨rest, hr, h⟩ := Option.bind_eq_some_iff.1 h
        have hov : over = false := by
          cases over with
          | false => rfl
          | true => have := hover rfl; omega
        subst hov
        have := ih (pos + 1) false saved rest (by omega) (by intro h; cases h) hr hsv
        simp only [List.map_cons, IdxOp.toTOp, Op.toTOp, viewRun, viewStep, List.getElem?_map, hx, Option.map_some, Bool.false_eq_true,
          if_false] at this ⊢
        rw [this]
        simpa using h
      | none =>
        have hge : vs.length ≤ pos := List.getElem?_eq_none_iff.1 hx
        have ho : outcome (vs.map (Except.ok (ε := Err))) true pos = some .stop := by simp [outcome, hx]
        have hp : vs.length = pos := by omega
        rw [ho, Option.bind_some, Nat.min_eq_left (by omega), hp] at h
        obtain ⟨rest, hr, h⟩ := Option.bind_eq_some_iff.1 h
        have := ih pos true saved rest hpos (fun _ => hp.symm) hr hsv
        cases over with
        | true =>
          simp only [List.map_cons, IdxOp.toTOp, Op.toTOp, viewRun, viewStep, if_true] at this ⊢
          rw [this]
          simpa using h
        | false =>
          simp only [List.map_cons, IdxOp.toTOp, Op.toTOp, viewRun, viewStep, List.getElem?_map, hx, Option.map_none, Bool.false_eq_true,
            if_false] at this ⊢
          rw [this]
          simpa using h
    | .op .save =>
      simp only [idxSpec] at h
      have := ih pos over (saved ++ [pos]) outs hpos hover h (by
        intro i q hq
        rcases List.mem_append.1 (List.mem_of_getElem? hq) with hm | hm
        · obtain ⟨j, hj⟩ := List.getElem?_of_mem hm
          exact hsv j q hj
        · simp only [List.mem_singleton] at hm
          omega)
      simp only [List.map_cons, IdxOp.toTOp, Op.toTOp, viewRun, viewStep, this, Option.map_some, List.nil_append]
    | .op (.restore k) =>
      simp only [idxSpec, Option.bind_eq_bind] at h
      obtain ⟨q, hq, h⟩ := Option.bind_eq_some_iff.1 h
      simp only [or_true, if_true] at h
      have := ih q false saved outs (hsv k q hq) (by intro h; cases h) h hsv
      simp only [List.map_cons, IdxOp.toTOp, Op.toTOp, viewRun, viewStep, hq, Option.map_some, this, List.nil_append]
    | .op (.fresh k) =>
      simp only [idxSpec, Option.bind_eq_bind] at h
      obtain ⟨q, hq, h⟩ := Option.bind_eq_some_iff.1 h
      simp only [or_true, if_true] at h
      have := ih q false saved outs (hsv k q hq) (by intro h; cases h) h hsv
      simp only [List.map_cons, IdxOp.toTOp, Op.toTOp, viewRun, viewStep, hq, Option.map_some, this, List.nil_append]
    | .getIndex =>
      simp only [idxSpec, Option.bind_eq_bind] at h
      split at h
      · rename_i hc
        obtain ⟨rest, hr, h⟩ := Option.bind_eq_some_iff.1 h
        have := ih pos over saved rest hpos hover hr hsv
        have hi : idxUpTo vs.length E pos = true := by
          simp only [idxUpTo, Bool.or_eq_true, decide_eq_true_eq, Bool.and_eq_true]
          rcases hc with hc | hc
          · exact Or.inl hc
          · by_cases hlt : pos < vs.length
            · exact Or.inl hlt
            · exact Or.inr ⟨hc.1, by omega⟩
        simp only [List.map_cons, IdxOp.toTOp, viewRun, viewStep, hi, if_true, this, Option.map_some]
        simpa using h
      · cases h
    | .setIndex i =>
      simp only [idxSpec] at h
      split at h
      · rename_i hc
        have := ih i false saved outs (by rcases hc with hc | ⟨_, _, hc⟩ <;> omega) (by intro h; cases h) h hsv
        have hi : idxUpTo vs.length E i = true := by
          simp only [idxUpTo, Bool.or_eq_true, decide_eq_true_eq, Bool.and_eq_true]
          rcases hc with hc | hc
          · exact Or.inl hc
          · exact Or.inr ⟨hc.1, hc.2.2⟩
        simp only [List.map_cons, IdxOp.toTOp, viewRun, viewStep, hi, if_true, this, Option.map_some, List.nil_append]
      · cases h

/-- C49 for process prefetch with any buffer size, above the pipelines of `next_index_exact_partial`: whatever the schedule of the two
processes and whatever calls of `next`, `get_state`, `set_state`, `get_next_index` and `set_next_index` are made, in every run that
cannot go on all calls have returned, `next` returned the element at the position, `get_next_index` the position, and
`set_next_index` moved to it.  (Partial for the reasons of `next_index_exact_partial`, and because of the counterexample below.) -/
theorem process_prefetch_next_index_partial {p : Iter α} {vs : List α} {atEnd : Bool} {size : Nat} {keep : Bool} (hp : IdxPipe p vs true atEnd)
    (hsize : 0 < size) {ops : List IdxOp} {outs : List (Res α ⊕ Int)} (hspec : idxSpec vs true atEnd 0 [] ops = some outs)
    {s : PPSys p} (hrun : PPRun p size keep false (ppInit p (ops.map IdxOp.toTOp)) s) (hstuck : ∀ s', ¬ PPStep p size keep false s s') :
    s.pc = .idle ∧ s.prog = [] ∧ s.outs = outs :=
  process_prefetch_no_deadlock hp.resumes.stream hsize
    (viewRun_of_idxSpec vs atEnd ops 0 false [] outs (by omega) (by intro h; cases h) hspec (by intro i q h; simp at h)) hrun hstuck

/-- ... and every run gets there. -/
theorem process_prefetch_next_index_terminates {p : Iter α} {vs : List α} {atEnd : Bool} {size : Nat} {keep : Bool} (hp : IdxPipe p vs true atEnd)
    {ops : List IdxOp} {outs : List (Res α ⊕ Int)} (hspec : idxSpec vs true atEnd 0 [] ops = some outs)
    (run : Nat → PPSys p) (h0 : run 0 = ppInit p (ops.map IdxOp.toTOp)) : ¬ ∀ i, PPStep p size keep false (run i) (run (i + 1)) :=
  process_prefetch_terminates hp.resumes.stream (callsOk_of_viewRun
    (viewRun_of_idxSpec vs atEnd ops 0 false [] outs (by omega) (by intro h; cases h) hspec (by intro i q h; simp at h))) run h0

-- the hypotheses are met: batches of two of `range(5)`, with a jump to the last batch, a checkpoint and a jump back
example : IdxPipe (batchIter 2 false .ok (prefetchIter 3 2 false none range5))
    ((List.range (batchCount 5 2 false)).map (fun i => group [some 0, some 1, some 2, some 3, some 4] 2 i)) true false ∧
    idxSpec ((List.range (batchCount 5 2 false)).map (fun i => group [some 0, some 1, some 2, some 3, some 4] 2 i)) true false 0 []
      [.setIndex 1, .op .save, .op .next, .getIndex, .setIndex 2, .op .next, .op .next, .op (.fresh 0), .getIndex, .op .next] =
    some [.inl (.item [some 2, some 3]), .inr 2, .inl (.item [some 4]), .inl .stop, .inr 1, .inl (.item [some 2, some 3])] :=
  ⟨(IdxPipe.mapDataset (ds := range5) (vs := [some 0, some 1, some 2, some 3, some 4]) 3 2 false rfl (by decide) (by decide)).batch 2
    (by decide) false .ok (fun l => l) (fun _ => rfl), by decide⟩

/-! ### Where C49 does not hold for process prefetch -/

/-- As with thread prefetch, with filtered elements (`[0, None, 2, 3]`) `get_next_index` changes when a state is restored: after `0` and
`2` it is 2 (the worker counts the elements produced); after restoring the state saved there it is 3 (the parent is asked). -/
theorem process_prefetch_next_index_sparse :
    ∃ s : PPSys (prefetchIter 0 0 false none sparse4),
      PPRun (prefetchIter 0 0 false none sparse4) 1 false false (ppInit _ [.next, .next, .index, .save, .restore 0, .index]) s ∧
      s.prog = [] ∧ s.pc = .idle ∧ s.outs = [.inl (.item (some 0)), .inl (.item (some 2)), .inr 2, .inr 3] := by
  let p := prefetchIter 0 0 false none sparse4
  let s1 : p.S := ((p.next 9 p.init).get rfl).1
  have e1 : Ev (fun F => p.next F p.init = some (s1, .item (some 0))) := ⟨9, fun F hF => by
    obtain ⟨n, rfl⟩ := Nat.exists_eq_add_of_le hF
    rw [Nat.add_comm]
    rfl⟩
  let s2 : p.S := ((p.next 9 s1).get rfl).1
  have e2 : Ev (fun F => p.next F s1 = some (s2, .item (some 2))) := ⟨9, fun F hF => by
    obtain ⟨n, rfl⟩ := Nat.exists_eq_add_of_le hF
    rw [Nat.add_comm]
    rfl⟩
  exact ⟨_, .step (.step (.step (.step (.step (.step (.step (.step (.step (.step (.step (.step (.step (.step (.step (.step .refl
    (.next_start rfl rfl rfl rfl rfl)) (.top_work rfl rfl rfl rfl rfl)) (.work_item (n := 1) (it' := s1) rfl rfl rfl e1)) (.put rfl rfl (by decide)))
    (.get_elem rfl rfl rfl rfl)) (.next_wait rfl rfl rfl rfl rfl)) (.top_work rfl rfl rfl rfl rfl)) (.work_item (n := 1) (it' := s2) rfl rfl rfl e2))
    (.put rfl rfl (by decide))) (.get_elem rfl rfl rfl rfl)) (.index_known (i := 2) rfl rfl rfl)) (.save rfl rfl rfl))
    (.set_clear (j := 0) rfl rfl rfl (by simp))) (.set_put rfl)) (.set_done rfl rfl))
    (.index (c := (3 : Int)) (it' := (prefetchSet 4 p.init 3).1) (i := 3) rfl rfl rfl rfl ⟨0, fun _ _ => rfl⟩ rfl), rfl, rfl, rfl⟩

end Grain
