import Verif.ProcPrefetch.Props
/-
C85 for process prefetching: what a failing element does to the others.
-/
namespace Grain

private theorem viewRun_over (x : Nat → Option (Py α)) (v : PView) (hv : v.over = true) : ∀ n : Nat,
    viewRun x noIdx v (List.replicate n .next) = some ((List.replicate n (Res.stop (α := α))).map Sum.inl) := by
  intro n
  induction n with
  | zero => rfl
  | succ n ih =>
    rw [List.replicate_succ, viewRun]
    simp only [viewStep, hv, if_true, ih, Option.map_some, List.replicate_succ, List.map_cons, List.singleton_append]

/-- What calls of `next` on an ideal process-prefetched iterator do if an element fails. -/
private theorem viewRun_nexts (goods : List α) (e : Err) (rest : List (Py α)) : ∀ (n : Nat) (v : PView), v.over = false → v.closed = false →
    v.pos ≤ goods.length →
    viewRun (fun k => (goods.map Except.ok ++ Except.error e :: rest)[k]?) noIdx v (List.replicate n .next) =
      some ((((goods.drop v.pos).map Res.item ++ Res.fail e :: List.replicate n (Res.stop (α := α))).take n).map Sum.inl) := by
  intro n
  induction n with
  | zero => intro v _ _ _; rfl
  | succ n ih =>
    intro v ho hc hpos
    rw [List.replicate_succ, viewRun]
    rcases Nat.lt_or_ge v.pos goods.length with hlt | hge
    · have hx : (goods.map Except.ok ++ Except.error e :: rest)[v.pos]? = some (Except.ok goods[v.pos] : Py α) := by
        rw [List.getElem?_append_left (by simpa using hlt), List.getElem?_map, List.getElem?_eq_getElem hlt]; rfl
      have hih := ih { v with pos := v.pos + 1, last := v.pos + 1 } ho hc hlt
      have hs : viewStep (fun k => (goods.map Except.ok ++ Except.error e :: rest)[k]?) noIdx v .next =
          some ({ v with pos := v.pos + 1, last := v.pos + 1 }, [.inl (.item goods[v.pos])]) := by
        simp only [viewStep, ho, hc, hx, Bool.false_eq_true, if_false]
      rw [hs]
      dsimp only
      rw [hih, Option.map_some]
      have ht : ((goods.drop v.pos).map Res.item ++ Res.fail e :: List.replicate (n + 1) (Res.stop (α := α))).take (n + 1) =
          Res.item goods[v.pos] :: ((goods.drop (v.pos + 1)).map Res.item ++ Res.fail e :: List.replicate n (Res.stop (α := α))).take n := by
        rw [List.drop_eq_getElem_cons hlt, List.map_cons, List.cons_append, List.take_succ_cons, List.replicate_succ',
          ← List.cons_append, ← List.append_assoc, List.take_append_of_le_length (by simp; omega)]
      rw [ht]
      rfl
    · have hp : v.pos = goods.length := by omega
      have hx : (goods.map Except.ok ++ Except.error e :: rest)[v.pos]? = some (Except.error e : Py α) := by
        rw [List.getElem?_append_right (by simpa using hge), hp]; simp
      have hov := viewRun_over (fun k => (goods.map Except.ok ++ Except.error e :: rest)[k]?) { v with over := true } rfl n
      have hs : viewStep (fun k => (goods.map Except.ok ++ Except.error e :: rest)[k]?) noIdx v .next =
          some ({ v with over := true }, [.inl (.fail e)]) := by
        simp only [viewStep, ho, hc, hx, Bool.false_eq_true, if_false]
      rw [hs]
      dsimp only
      rw [hov, List.drop_eq_nil_of_le hge, List.map_nil, List.nil_append, List.take_succ_cons, List.map_cons]
      simp [List.take_replicate]

/-- C85 is false of process prefetching: the first failing element ends the data.  The caller gets the elements before it and its
exception, then `StopIteration` for ever: whatever comes after the failing element (`rest` may be anything) is never returned, with every buffer size
and every schedule. -/
theorem process_prefetch_failure_ends {p : Iter α} {goods : List α} {e : Err} {rest : List (Py α)} {size n : Nat} {keep : Bool}
    (hp : Resumes p (goods.map .ok ++ .error e :: rest) true) (hsize : 0 < size) {s : PPSys p}
    (hrun : PPRun p size keep false (ppInit p (List.replicate n .next)) s) (hstuck : ∀ s', ¬ PPStep p size keep false s s') :
    s.outs = ((goods.map Res.item ++ Res.fail e :: List.replicate n (Res.stop (α := α))).take n).map Sum.inl := by
  refine (process_prefetch_no_deadlock hp.stream.noIdx hsize ?_ hrun hstuck).2.2
  exact viewRun_nexts goods e rest n .start rfl rfl (Nat.zero_le _)

/-- No checkpoint gets past the failing element: the state after the exception is the one before the failing element, which fails again, in the
same iterator and in a new one. -/
theorem process_prefetch_failure_repeats {p : Iter α} {a : α} {e : Err} {rest : List (Py α)} {size : Nat} {keep : Bool}
    (hp : Resumes p (.ok a :: .error e :: rest) true) (hsize : 0 < size) {s : PPSys p}
    (hrun : PPRun p size keep false (ppInit p [.next, .next, .save, .restore 0, .next, .next, .save, .fresh 1, .next]) s)
    (hstuck : ∀ s', ¬ PPStep p size keep false s s') :
    s.outs = [.inl (.item a), .inl (.fail e), .inl (.fail e), .inl .stop, .inl (.fail e)] :=
  (process_prefetch_no_deadlock hp.stream.noIdx hsize rfl hrun hstuck).2.2

/-- Elements of a parent that does not fail are all returned: the loss is due to the exception. -/
example : viewRun (fun k => ([.ok 1, .ok 2] : List (Py Nat))[k]?) noIdx .start [.next, .next, .next] =
    some [.inl (.item 1), .inl (.item 2), .inl .stop] := rfl

/-- The hypotheses are met. -/
example : Resumes (listIter [.ok 1, .error .valueError, .ok 2]) ([1].map .ok ++ .error .valueError :: [.ok 2]) true := listIter_resumes _

end Grain
