import Verif.Py
/-
Deletion of the shared memory arrays handed to the user (grain/_src/python/ipc/shared_memory_array.py:117-188).  The steps of
the user's threads (dropping the last reference to an array runs `__del__`) and of the deletion threads interleave in any
order.
-/
namespace Grain

/-- `sem`: the semaphore `_outstanding_del_requests`; `given`: all blocks handed out so far; `live`: those whose array the
user still holds; `queued`: requests in the thread pool; `closing`: how many blocks have been unlinked by `close_shm_async`
whose semaphore has not been released yet; `unlinked`: the blocks unlinked, in order.  `pool`: whether `enable_async_del`
has been called. -/
structure DelSys where
  pool : Bool
  sem : Nat
  given : List Nat
  live : List Nat
  queued : List Nat
  closing : Nat
  unlinked : List Nat

def delInit : DelSys := { pool := false, sem := 0, given := [], live := [], queued := [], closing := 0, unlinked := [] }

/-- One step.  `enable` is `enable_async_del` (:117-139, only the first call has an effect); `arrive` is `open_from_shm`
handing out a block marked `unlink_on_del` (:212-217); `del_async`, `del_full`, `del_sync` are `__del__` (:167-188);
`close`, `release` are `close_shm_async` (:149-157).  The array handed out has the mapping itself as its base, so `__del__`
does not return early (:169); views of it hold a reference to it. -/
inductive DelStep (maxOut threads : Nat) : DelSys → DelSys → Prop where
  | enable {s} : s.pool = false → DelStep maxOut threads s { s with pool := true, sem := max maxOut threads }
  | arrive {s} (b : Nat) : DelStep maxOut threads s { s with given := s.given ++ [b], live := s.live ++ [b] }
  | del_async {s n i b} : s.pool = true → s.live[i]? = some b → s.sem = n + 1 →
      DelStep maxOut threads s { s with live := s.live.eraseIdx i, sem := n, queued := s.queued ++ [b] }
  | del_full {s i b} : s.pool = true → s.live[i]? = some b → s.sem = 0 →
      DelStep maxOut threads s { s with live := s.live.eraseIdx i, unlinked := s.unlinked ++ [b] }
  | del_sync {s i b} : s.pool = false → s.live[i]? = some b →
      DelStep maxOut threads s { s with live := s.live.eraseIdx i, unlinked := s.unlinked ++ [b] }
  | close {s b bs} : s.queued = b :: bs →
      DelStep maxOut threads s { s with queued := bs, closing := s.closing + 1, unlinked := s.unlinked ++ [b] }
  | release {s n} : s.closing = n + 1 → DelStep maxOut threads s { s with closing := n, sem := s.sem + 1 }

inductive DelRun (maxOut threads : Nat) : DelSys → Prop where
  | init : DelRun maxOut threads delInit
  | step {s s'} : DelRun maxOut threads s → DelStep maxOut threads s s' → DelRun maxOut threads s'

private theorem count_eraseIdx {l : List Nat} {i b : Nat} (h : l[i]? = some b) (j : Nat) :
    (l.eraseIdx i).count j + [b].count j = l.count j := by
  induction l generalizing i with
  | nil => simp at h
  | cons a l ih =>
    cases i with
    | zero =>
      simp only [List.getElem?_cons_zero, Option.some.injEq] at h
      subst h
      simp [List.count_cons]
    | succ i =>
      simp only [List.getElem?_cons_succ] at h
      have := ih h
      simp only [List.eraseIdx_cons_succ, List.count_cons] at this ⊢
      omega

theorem del_invariant {maxOut threads : Nat} {s : DelSys} (h : DelRun maxOut threads s) :
    (∀ j, s.given.count j = s.live.count j + s.queued.count j + s.unlinked.count j) ∧
    (s.pool = true → s.sem + s.queued.length + s.closing = max maxOut threads) ∧
    (s.pool = false → s.queued = [] ∧ s.closing = 0) := by
  induction h with
  | init => exact ⟨fun j => rfl, by simp [delInit], by simp [delInit]⟩
  | @step s s' _ hst ih =>
    obtain ⟨h1, h2, h3⟩ := ih
    cases hst with
    | enable hp =>
      obtain ⟨hq, hc⟩ := h3 hp
      exact ⟨h1, fun _ => by simp [hq, hc], by simp⟩
    | arrive b =>
      refine ⟨?_, h2, h3⟩
      intro j
      have := h1 j
      simp only [List.count_append]
      omega
    | del_async hp hb hn =>
      refine ⟨?_, ?_, by simp [hp]⟩
      · intro j
        have := h1 j
        have := count_eraseIdx hb j
        simp only [List.count_append]
        omega
      · intro _
        have := h2 hp
        simp only [List.length_append, List.length_cons, List.length_nil]
        omega
    | del_full hp hb hn =>
      refine ⟨?_, h2, h3⟩
      intro j
      have := h1 j
      have := count_eraseIdx hb j
      simp only [List.count_append]
      omega
    | del_sync hp hb =>
      refine ⟨?_, h2, h3⟩
      intro j
      have := h1 j
      have := count_eraseIdx hb j
      simp only [List.count_append]
      omega
    | @close b bs hq =>
      refine ⟨?_, ?_, ?_⟩
      · intro j
        have := h1 j
        rw [hq] at this
        simp only [List.count_append, List.count_cons, List.count_nil] at this ⊢
        omega
      · intro hp
        have := h2 hp
        rw [hq] at this
        simp only [List.length_cons] at this
        show s.sem + bs.length + (s.closing + 1) = _
        omega
      · intro hp
        have := (h3 hp).1
        rw [hq] at this; cases this
    | release hc =>
      refine ⟨h1, ?_, ?_⟩
      · intro hp
        have := h2 hp
        dsimp only
        omega
      · intro hp
        have := (h3 hp).2
        omega

end Grain
