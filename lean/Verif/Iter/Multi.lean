import Verif.Iter.WindowShuffle
import Mathlib.Tactic.Choose
import Mathlib.Data.List.FinRange
/-
Lemmas about iterators with several parents.
-/
namespace Grain

section
variable {n : Nat} {ps : Fin n → Iter α} {xs : Fin n → List (Py α)} {ended : Bool}
  {At : ∀ i, (ps i).S → Nat → Prop} {Ck : ∀ i, (ps i).C → Nat → Prop}

theorem setAll_ok (h : ∀ i, Sim (ps i) (xs i) ended (At i) (Ck i)) (c : ∀ i, (ps i).C) (m : Fin n → Nat)
    (hm : ∀ i, m i < (xs i).length ∨ ended = true) (hc : ∀ i, Ck i (c i) (m i)) :
    ∀ (is : List (Fin n)) (s : ∀ i, (ps i).S), (∀ i, ∃ q, At i (s i) q) →
    ∃ s', Ev (fun F => setAll ps F c is s = some (s', none)) ∧ (∀ i ∈ is, At i (s' i) (m i)) ∧
      (∀ i, i ∉ is → s' i = s i) := by
  intro is
  induction is with
  | nil => intro s _; exact ⟨s, Ev.of_forall (fun F => rfl), by simp, by simp⟩
  | cons i is ih =>
    intro s hs
    obtain ⟨q, hq⟩ := hs i
    obtain ⟨si, e1, e2⟩ := (h i).set hq (hc i) (hm i)
    have hs' : ∀ j, ∃ q, At j (Function.update s i si j) q := by
      intro j
      by_cases hj : j = i
      · subst hj; exact ⟨m j, by rw [Function.update_self]; exact e2⟩
      · rw [Function.update_of_ne hj]; exact hs j
    obtain ⟨s', e3, e4, e5⟩ := ih (Function.update s i si) hs'
    refine ⟨s', e1.mono₂ e3 ?_, ?_, ?_⟩
    · intro F e e'
      simp only [setAll, e, Option.bind_eq_bind, Option.bind_some, e']
    · intro j hj
      by_cases hj' : j ∈ is
      · exact e4 j hj'
      · have : j = i := by simpa [hj'] using hj
        subst this
        rw [e5 j hj', Function.update_self]; exact e2
    · intro j hj
      simp only [List.mem_cons, not_or] at hj
      rw [e5 j hj.2, Function.update_of_ne hj.1]

variable {as : Fin n → List α}

theorem nextAll_items (h : ∀ i, Sim (ps i) ((as i).map Except.ok) ended (At i) (Ck i)) (k : Nat)
    (hk : ∀ i, k < (as i).length) :
    ∀ (is : List (Fin n)) (s : ∀ i, (ps i).S) (acc : List α), is.Nodup → (∀ i ∈ is, At i (s i) k) →
    ∃ s', Ev (fun F => nextAll ps F is s acc = some (s', acc ++ is.map (fun i => (as i)[k]'(hk i)), none)) ∧
      (∀ i ∈ is, At i (s' i) (k + 1)) ∧ (∀ i, i ∉ is → s' i = s i) := by
  intro is
  induction is with
  | nil => intro s acc _ _; exact ⟨s, Ev.of_forall (fun F => by simp [nextAll]), by simp, by simp⟩
  | cons i is ih =>
    intro s acc hnd hs
    obtain ⟨si, e1, e2⟩ := (h i).next_item (r := .ok ((as i)[k]'(hk i))) (hs i List.mem_cons_self) (by simp [hk i])
    rw [List.nodup_cons] at hnd
    obtain ⟨s', e3, e4, e5⟩ := ih (Function.update s i si) (acc ++ [(as i)[k]'(hk i)]) hnd.2 (by
      intro j hj
      have hji : j ≠ i := by rintro rfl; exact hnd.1 hj
      rw [Function.update_of_ne hji]
      exact hs j (List.mem_cons_of_mem _ hj))
    refine ⟨s', e1.mono₂ e3 ?_, ?_, ?_⟩
    · intro F e e'
      simp only [nextAll, e, Option.bind_eq_bind, Option.bind_some, toRes, e', List.append_assoc, List.singleton_append,
        List.map_cons]
    · intro j hj
      by_cases hj' : j ∈ is
      · exact e4 j hj'
      · have : j = i := by simpa [hj'] using hj
        subst this
        rw [e5 j hj', Function.update_self]; exact e2
    · intro j hj
      simp only [List.mem_cons, not_or] at hj
      rw [e5 j hj.2, Function.update_of_ne hj.1]

/-- If one of the parents is at its end, the round stops at the first such parent. -/
theorem nextAll_stop (h : ∀ i, Sim (ps i) ((as i).map Except.ok) true (At i) (Ck i)) :
    ∀ (is : List (Fin n)) (s : ∀ i, (ps i).S) (q : Fin n → Nat) (acc : List α), is.Nodup → (∀ i, At i (s i) (q i)) →
    (∃ i ∈ is, q i = (as i).length) →
    ∃ s' acc' pre i post, is = pre ++ i :: post ∧ q i = (as i).length ∧ (∀ j ∈ pre, q j < (as j).length) ∧
      Ev (fun F => nextAll ps F is s acc = some (s', acc', some (i, .stop))) ∧
      (∀ j, At j (s' j) (if j ∈ pre then q j + 1 else q j)) := by
  intro is
  induction is with
  | nil => intro s q acc _ _ hex; simp at hex
  | cons i is ih =>
    intro s q acc hnd hs hex
    have hb : q i ≤ (as i).length := by simpa using (h i).bound (hs i)
    rw [List.nodup_cons] at hnd
    by_cases hq : q i = (as i).length
    · have hl : ((as i).map (Except.ok (ε := Err))).length = (as i).length := by simp
      obtain ⟨si, e1, e2⟩ := (h i).next_stop (by rw [hl, ← hq]; exact hs i) rfl
      refine ⟨Function.update s i si, acc, [], i, is, rfl, hq, by simp, e1.mono ?_, ?_⟩
      · intro F e
        simp only [nextAll, e, Option.bind_eq_bind, Option.bind_some]
      · intro j
        simp only [List.not_mem_nil, if_false]
        by_cases hj : j = i
        · subst hj; rw [Function.update_self, hq, ← hl]; exact e2
        · rw [Function.update_of_ne hj]; exact hs j
    · have hlt : q i < (as i).length := by omega
      obtain ⟨si, e1, e2⟩ := (h i).next_item (r := .ok (as i)[q i]) (hs i) (by simp [hlt])
      obtain ⟨s', acc', pre, i', post, hsp, hqi, hpre, e3, e4⟩ := ih (Function.update s i si)
        (fun j => if j = i then q i + 1 else q j) (acc ++ [(as i)[q i]]) hnd.2 (by
          intro j
          by_cases hj : j = i
          · subst hj; rw [Function.update_self, if_pos rfl]; exact e2
          · rw [Function.update_of_ne hj, if_neg hj]; exact hs j) (by
          obtain ⟨j, hj, hqj⟩ := hex
          have hji : j ≠ i := by rintro rfl; exact hq hqj
          refine ⟨j, ?_, by rw [if_neg hji]; exact hqj⟩
          rcases List.mem_cons.1 hj with h1 | h1
          · exact absurd h1 hji
          · exact h1)
      have hnot : ∀ j ∈ is, j ≠ i := by rintro j hj rfl; exact hnd.1 hj
      have hmem : ∀ j ∈ pre, j ∈ is := by intro j hj; rw [hsp]; exact List.mem_append_left _ hj
      have hi' : i' ≠ i := hnot i' (by rw [hsp]; exact List.mem_append_right _ List.mem_cons_self)
      refine ⟨s', acc', i :: pre, i', post, by rw [hsp, List.cons_append], by rwa [if_neg hi'] at hqi, ?_, e1.mono₂ e3 ?_, ?_⟩
      · intro j hj
        rcases List.mem_cons.1 hj with h1 | h1
        · subst h1; exact hlt
        · have := hpre j h1
          rwa [if_neg (hnot j (hmem j h1))] at this
      · intro F e e'
        simp only [nextAll, e, Option.bind_eq_bind, Option.bind_some, toRes, e']
      · intro j
        have := e4 j
        by_cases hj : j = i
        · subst hj
          rw [if_pos rfl, if_neg (fun hc => hnot j (hmem j hc) rfl)] at this
          rw [if_pos List.mem_cons_self]; exact this
        · simp only [if_neg hj] at this
          simp only [List.mem_cons, hj, false_or]; exact this

theorem zipCheckRest_stop (h : ∀ i, Sim (ps i) ((as i).map Except.ok) true (At i) (Ck i)) :
    ∀ (is : List (Fin n)) (s : ∀ i, (ps i).S) (q : Fin n → Nat), (∀ i, At i (s i) (q i)) →
    (∀ i ∈ is, q i = (as i).length) →
    ∃ s', Ev (fun F => zipCheckRest ps F is s = some (s', .stop)) ∧ (∀ j, At j (s' j) (q j)) := by
  intro is
  induction is with
  | nil => intro s q hs _; exact ⟨s, Ev.of_forall (fun F => rfl), hs⟩
  | cons i is ih =>
    intro s q hs hall
    have hl : ((as i).map (Except.ok (ε := Err))).length = (as i).length := by simp
    have hq := hall i List.mem_cons_self
    obtain ⟨si, e1, e2⟩ := (h i).next_stop (by rw [hl, ← hq]; exact hs i) rfl
    obtain ⟨s', e3, e4⟩ := ih (Function.update s i si) q (by
      intro j
      by_cases hj : j = i
      · subst hj; rw [Function.update_self, hq, ← hl]; exact e2
      · rw [Function.update_of_ne hj]; exact hs j) (fun j hj => hall j (List.mem_cons_of_mem _ hj))
    refine ⟨s', e1.mono₂ e3 ?_, e4⟩
    intro F e e'
    simp only [zipCheckRest, e, Option.bind_eq_bind, Option.bind_some, e']

theorem zipCheckRest_fail (h : ∀ i, Sim (ps i) ((as i).map Except.ok) true (At i) (Ck i)) :
    ∀ (is : List (Fin n)) (s : ∀ i, (ps i).S) (q : Fin n → Nat), (∀ i, At i (s i) (q i)) →
    is.Nodup → (∃ i ∈ is, q i < (as i).length) →
    ∃ s', Ev (fun F => zipCheckRest ps F is s = some (s', .fail .valueError)) ∧ (∀ j, ∃ r, At j (s' j) r) := by
  intro is
  induction is with
  | nil => intro s q hs _ hex; simp at hex
  | cons i is ih =>
    intro s q hs hnd hex
    rw [List.nodup_cons] at hnd
    have hb : q i ≤ (as i).length := by simpa using (h i).bound (hs i)
    by_cases hq : q i = (as i).length
    · have hl : ((as i).map (Except.ok (ε := Err))).length = (as i).length := by simp
      obtain ⟨si, e1, e2⟩ := (h i).next_stop (by rw [hl, ← hq]; exact hs i) rfl
      obtain ⟨s', e3, e4⟩ := ih (Function.update s i si) q (by
        intro j
        by_cases hj : j = i
        · subst hj; rw [Function.update_self, hq, ← hl]; exact e2
        · rw [Function.update_of_ne hj]; exact hs j) hnd.2 (by
          obtain ⟨j, hj, hqj⟩ := hex
          rcases List.mem_cons.1 hj with h1 | h1
          · subst h1; omega
          · exact ⟨j, h1, hqj⟩)
      refine ⟨s', e1.mono₂ e3 ?_, e4⟩
      intro F e e'
      simp only [zipCheckRest, e, Option.bind_eq_bind, Option.bind_some, e']
    · have hlt : q i < (as i).length := by omega
      obtain ⟨si, e1, e2⟩ := (h i).next_item (r := .ok (as i)[q i]) (hs i) (by simp [hlt])
      refine ⟨Function.update s i si, e1.mono ?_, ?_⟩
      · intro F e
        simp only [zipCheckRest, e, Option.bind_eq_bind, Option.bind_some, toRes]
      · intro j
        by_cases hj : j = i
        · subst hj; exact ⟨_, by rw [Function.update_self]; exact e2⟩
        · rw [Function.update_of_ne hj]; exact ⟨_, hs j⟩
end
end Grain
