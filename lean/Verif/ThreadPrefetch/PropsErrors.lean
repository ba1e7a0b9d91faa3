import Verif.ThreadPrefetch.Props
/-
C85 for thread prefetching: what a failing element does to the others.
-/
namespace Grain

/-- What calls of `next` on an ideal iterator over `xs` do. -/
private theorem idealRun_nexts (xs : List (Py α)) : ∀ (n pos last : Nat), pos ≤ xs.length →
    idealRun (fun k => xs[k]?) noIdx pos last false false [] (List.replicate n .next) =
      some (((xs.drop pos).map toRes ++ List.replicate n (Res.stop (α := α))).take n |>.map Sum.inl) := by
  intro n
  induction n with
  | zero => intro pos last _; rfl
  | succ n ih =>
    intro pos last hpos
    rw [List.replicate_succ]
    rcases Nat.lt_or_ge pos xs.length with hlt | hge
    · have hd : xs.drop pos = xs[pos] :: xs.drop (pos + 1) := List.drop_eq_getElem_cons hlt
      have ht : ∀ r : Res α, ((r :: (xs.drop (pos + 1)).map toRes) ++ List.replicate (n + 1) (Res.stop (α := α))).take (n + 1) =
          r :: (((xs.drop (pos + 1)).map toRes) ++ List.replicate n (Res.stop (α := α))).take n := by
        intro r
        rw [List.cons_append, List.take_succ_cons, List.replicate_succ', ← List.append_assoc, List.take_append_of_le_length (by simp)]
      rw [hd, List.map_cons, ht]
      simp only [idealRun, List.getElem?_eq_getElem hlt]
      cases hx : xs[pos] with
      | ok a => simp only [ih (pos + 1) (pos + 1) hlt, Option.map_some, List.map_cons, toRes]
      | error e => simp only [ih (pos + 1) last hlt, Option.map_some, List.map_cons, toRes]
    · have hp : pos = xs.length := by omega
      have h0 := ih pos last hpos
      rw [List.drop_eq_nil_of_le hge] at h0 ⊢
      simp only [idealRun, List.getElem?_eq_none hge, h0]
      simp [List.take_replicate, List.replicate_succ]

/-- A caller of a thread-prefetched iterator who goes on after exceptions and takes no checkpoints gets the outcomes of the parent, whatever the
buffer size and the schedule: when all calls have returned, `n` calls of `next` had the first `n` outcomes of the parent, then
`StopIteration`. -/
theorem thread_prefetch_failure_partial {p : Iter α} {xs : List (Py α)} {size n : Nat} (hp : Resumes p xs true) {s : TPSys p}
    (hrun : TPRun p size (tpInit p (List.replicate n .next)) s) (hstuck : ∀ s', ¬ TPStep p size s s') :
    s.pc = .idle ∧ s.prog = [] ∧ s.outs = ((xs.map toRes ++ List.replicate n (Res.stop (α := α))).take n).map Sum.inl := by
  refine thread_prefetch_no_deadlock hp.stream.noIdx ?_ ?_ hrun hstuck
  · intro _ op hop
    rw [List.eq_of_mem_replicate hop]
    exact ⟨by simp, by simp⟩
  · have := idealRun_nexts xs n 0 0 (Nat.zero_le _)
    rwa [List.drop_zero] at this

/-- C85 is false of thread prefetching with checkpoints: a state taken after an exception is the state before the failing element.  A failing
element fails again after every restore, however often the caller goes on, saves and restores: nobody gets past it with a
checkpoint taken before the next good element. -/
theorem thread_prefetch_failure_repeats {p : Iter α} {a : α} {e : Err} {xs : List (Py α)} {size : Nat} (hp : Resumes p (.ok a :: .error e :: xs) true) {s : TPSys p}
    (hrun : TPRun p size (tpInit p [.next, .next, .save, .fresh 0, .next, .save, .fresh 1, .next]) s) (hstuck : ∀ s', ¬ TPStep p size s s') :
    s.outs = [.inl (.item a), .inl (.fail e), .inl (.fail e), .inl (.fail e)] := by
  refine (thread_prefetch_no_deadlock hp.stream.noIdx ?_ rfl hrun hstuck).2.2
  intro _ op hop
  simp only [List.mem_cons, List.not_mem_nil, or_false] at hop
  rcases hop with h | h | h | h | h | h | h | h <;> (rw [h]; exact ⟨by simp, by simp⟩)

/-- The hypotheses are met. -/
example : Resumes (listIter [.ok 1, .error .valueError, .ok 2]) [.ok 1, .error .valueError, .ok 2] true := listIter_resumes _

end Grain
