import Verif.Iter.Errors
import Verif.Iter.Example
/-
C85 for cache: what a failing element does to the others.
-/
namespace Grain

section
variable {p : Iter α} {xs : List (Py α)} {ended : Bool}

/-- A caller of `cache` who goes on after exceptions and takes no checkpoints gets the outcomes of the parent: a failing element
fails, the others come in order. -/
theorem cache_failure_partial (hp : Resumes p xs ended) : YieldsOutcomes (cacheIter p) xs ended := by
  obtain ⟨At, Ck, h⟩ := hp
  refine yields_of_sim (it := cacheIter p)
    (fun s m => m ≤ xs.length ∧ At s.ps m ∧ s.cache.length = s.position ∧ s.rebuild = false ∧ (s.filled = true → m = xs.length)) ?_ (fun h => h.1) ?_ ?_
  · exact ⟨by omega, (h.get h.init).1, rfl, rfl, by intro hc; cases hc⟩
  · rintro s m r ⟨hm, hs, hc, hr, hf⟩ hx
    have hlt := getElem?_lt hx
    have hf' : s.filled = false := by
      cases hq : s.filled with
      | false => rfl
      | true => have := hf hq; omega
    obtain ⟨ps', e1, e2⟩ := h.next_item hs hx
    cases r with
    | ok a =>
      refine ⟨{ s with ps := ps', cache := s.cache ++ [a], position := s.position + 1 }, e1.mono (fun F e => ?_), hlt, e2, ?_, hr, ?_⟩
      · show cacheNext p F s = _
        simp only [toRes] at e
        simp only [cacheNext, hf', hr, Bool.false_eq_true, if_false, cacheRead, e, Option.bind_eq_bind, Option.bind_some, hc, if_true]
        rfl
      · simp [hc]
      · intro hq
        have : s.filled = true := hq
        rw [hf'] at this; cases this
    | error er =>
      refine ⟨{ s with ps := ps' }, e1.mono (fun F e => ?_), hlt, e2, hc, hr, ?_⟩
      · show cacheNext p F s = _
        simp only [toRes] at e
        simp only [cacheNext, hf', hr, Bool.false_eq_true, if_false, cacheRead, e, Option.bind_eq_bind, Option.bind_some]
        rfl
      · intro hq
        have : s.filled = true := hq
        rw [hf'] at this; cases this
  · rintro s ⟨hm, hs, hc, hr, hf⟩ he
    cases hq : s.filled with
    | true =>
      refine ⟨s, Ev.of_forall (fun F => ?_), hm, hs, hc, hr, hf⟩
      show cacheNext p F s = _
      simp only [cacheNext, hq, if_true, ← hc, List.getElem?_length]
      rfl
    | false =>
      obtain ⟨ps', e1, e2⟩ := h.next_stop hs he
      refine ⟨{ s with ps := ps', filled := true }, e1.mono (fun F e => ?_), hm, e2, hc, hr, fun _ => rfl⟩
      show cacheNext p F s = _
      simp only [cacheNext, hq, hr, Bool.false_eq_true, if_false, cacheRead, e, Option.bind_eq_bind, Option.bind_some]
      rfl

end

/-- C85 is false of cache with checkpoints: a state says how many elements came, not how many calls failed.  A new iterator given the state
reads the parent from the start until it has that many elements, the failing element fails again in the middle, and the next call goes on from
there, so that elements that already came come again. -/
theorem cache_failure_repeats :
    Ev (fun F => implRun (cacheIter (listIter [.ok 1, .error .valueError, .ok 2, .ok 3])) F
      (cacheIter (listIter [.ok 1, .error .valueError, .ok 2, .ok 3])).init []
      [.next, .next, .next, .save, .next, .fresh 0, .next, .next] =
        some [.item 1, .fail .valueError, .item 2, .item 3, .fail .valueError, .item 2]) ∧
    specRun [.ok 1, .error .valueError, .ok 2, .ok 3] true (fun _ => true) 0 [] [.next, .next, .next, .save, .next, .fresh 0, .next, .next] =
      some [.item 1, .fail .valueError, .item 2, .item 3, .item 3, .stop] := by
  refine ⟨⟨5, fun F hF => ?_⟩, rfl⟩
  obtain ⟨k, rfl⟩ : ∃ k, F = k + 5 := ⟨F - 5, by omega⟩
  rfl

example : YieldsOutcomes (cacheIter (listIter [.ok 1, .error .valueError, .ok 2])) [.ok 1, .error .valueError, .ok 2] true :=
  cache_failure_partial (listIter_resumes _)

end Grain
