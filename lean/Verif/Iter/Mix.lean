import Verif.Iter.Zip
import Verif.MapDs.PropsMix
/-
Simulation for the mix iterator.
-/
namespace Grain

/-- Outcome of step `m` of mixing the streams `xs`: the next unused outcome of the component chosen for position `m`
(the choice is characterised by `mix_exact_per_period` and `mix_bounded_drift`); `none` if that component has no more. -/
def mixOutcome {n : Nat} (proportions : List Nat) (xs : Fin n → List (Py α)) (m : Nat) : Option (Py α) :=
  match datasetAndKey (m : Int) proportions with
  | .ok (d, _) => if h : d < n then (xs ⟨d, h⟩)[drawn proportions d 0 m]? else none
  | .error _ => none

theorem drawn_succ (ps : List Nat) (d m : Nat) (d' : Nat) (k : Int) (h : datasetAndKey (m : Int) ps = .ok (d', k)) :
    drawn ps d 0 (m + 1) = drawn ps d 0 m + (if d' = d then 1 else 0) := by
  unfold drawn
  rw [Nat.sub_zero, Nat.sub_zero, ← List.range_eq_range', ← List.range_eq_range', List.range_succ, List.filter_append,
    List.length_append]
  congr 1
  by_cases hd : d' = d
  · simp [h, hd]
  · simp [h, hd]

theorem drawn_mono (ps : List Nat) (d : Nat) {a b : Nat} (h : a ≤ b) : drawn ps d 0 a ≤ drawn ps d 0 b := by
  unfold drawn
  rw [Nat.sub_zero, Nat.sub_zero, ← List.range_eq_range', ← List.range_eq_range']
  exact ((List.range_sublist.2 h).filter _).length_le

theorem drawn_init (ps : List Nat) (d : Nat) : drawn ps d 0 0 = 0 := by simp [drawn]

theorem mixIter_resumes {n : Nat} (hn : 0 < n) {proportions : List Nat} (hlen : proportions.length = n)
    (hpos : ∀ p ∈ proportions, 0 < p) {ps : Fin n → Iter α} {xs : Fin n → List (Py α)} {ended ended' : Bool}
    (hp : ∀ i, Resumes (ps i) (xs i) ended) {ys : List (Py α)}
    (hys : ∀ m, m < ys.length → ys[m]? = mixOutcome proportions xs m)
    (herr : ∀ k e, ys[k]? = some (.error e) → k + 1 = ys.length ∧ ended' = true)
    (hend : ended' = true →
      (∃ e, ys.getLast? = some (.error e)) ∨ (ended = true ∧ mixOutcome proportions xs ys.length = none))
    (hpre : ended = false → ∀ i : Fin n, drawn proportions i 0 ys.length < (xs i).length) :
    Resumes (mixIter proportions ps) ys ended' := by
  choose At Ck h using hp
  have hne : proportions ≠ [] := by rintro rfl; simp at hlen; omega
  have hsel : ∀ m : Nat, ∃ d key, datasetAndKey (m : Int) proportions = .ok (d, key) ∧ d < n := by
    intro m
    obtain ⟨d, key, h1, h2⟩ := mix_select_total proportions hne hpos m
    exact ⟨d, key, h1, by omega⟩
  refine ⟨fun s m => m ≤ ys.length ∧ (∀ i, At i (s.parents i) (drawn proportions i 0 m)) ∧
      ((s.stop = false ∧ s.index = m ∧ ∀ k e, k < m → ys[k]? ≠ some (.error e)) ∨
       (s.stop = true ∧ m = ys.length ∧ ended' = true)),
    fun c m => m ≤ ys.length ∧ (∀ i, Ck i (c.1 i) (drawn proportions i 0 m)) ∧
      ((c.2.2 = false ∧ c.2.1 = m ∧ ∀ k e, k < m → ys[k]? ≠ some (.error e)) ∨
       (c.2.2 = true ∧ m = ys.length ∧ ended' = true)), ?_⟩
  refine { init := ⟨by omega, fun i => (by rw [drawn_init]; exact (h i).init), Or.inl ⟨rfl, rfl, fun k e hk => by omega⟩⟩,
           bound := fun hs => hs.1, next_item := ?_, next_stop := ?_, get := ?_, set := ?_,
           ck_bound := fun hs => hs.1 }
  · rintro s m r ⟨_, hat, hst⟩ hr
    have hm : m < ys.length := getElem?_lt hr
    rcases hst with ⟨h1, h2, h3⟩ | ⟨_, h2, _⟩
    swap
    · omega
    obtain ⟨d, key, hd, hdn⟩ := hsel m
    have hout := hys m hm
    simp only [mixOutcome, hd, dif_pos hdn] at hout
    rw [hr] at hout
    obtain ⟨si, e1, e2⟩ := (h ⟨d, hdn⟩).next_item (hat ⟨d, hdn⟩) hout.symm
    have hat' : ∀ i, At i (Function.update s.parents ⟨d, hdn⟩ si i) (drawn proportions i 0 (m + 1)) := by
      intro i
      rw [drawn_succ proportions i m d key hd]
      by_cases hi : i = ⟨d, hdn⟩
      · subst hi; rw [Function.update_self, if_pos rfl]; exact e2
      · have hne : d ≠ i.val := by rintro rfl; exact hi rfl
        rw [Function.update_of_ne hi, if_neg hne]; exact hat i
    cases r with
    | ok a =>
      refine ⟨{ index := m + 1, parents := Function.update s.parents ⟨d, hdn⟩ si, stop := false }, e1.mono ?_, hm, hat',
        Or.inl ⟨rfl, rfl, ?_⟩⟩
      · intro F e
        simp only [mixIter, h1, Bool.false_eq_true, if_false, h2, hd, dif_pos hdn, e, Option.bind_eq_bind,
          Option.bind_some, toRes]
      · intro k e hk hc
        by_cases hkm : k < m
        · exact h3 k e hkm hc
        · have : k = m := by omega
          subst this
          rw [hr] at hc
          cases Option.some.inj hc
    | error e0 =>
      obtain ⟨h4, h5⟩ := herr m e0 hr
      refine ⟨{ index := m + 1, parents := Function.update s.parents ⟨d, hdn⟩ si, stop := true }, e1.mono ?_, hm, hat',
        Or.inr ⟨rfl, h4, h5⟩⟩
      intro F e
      simp only [mixIter, h1, Bool.false_eq_true, if_false, h2, hd, dif_pos hdn, e, Option.bind_eq_bind,
        Option.bind_some, toRes]
  · rintro s ⟨_, hat, hst⟩ he
    rcases hst with ⟨h1, h2, h3⟩ | ⟨h1, h2, h3⟩
    · rcases hend he with ⟨e0, h4⟩ | ⟨h4, h5⟩
      · exfalso
        rw [List.getLast?_eq_getElem?] at h4
        have := getElem?_lt h4
        exact h3 _ e0 (by omega) h4
      · obtain ⟨d, key, hd, hdn⟩ := hsel ys.length
        simp only [mixOutcome, hd, dif_pos hdn] at h5
        have hb := (h ⟨d, hdn⟩).bound (hat ⟨d, hdn⟩)
        have hge : (xs ⟨d, hdn⟩).length ≤ drawn proportions d 0 ys.length := by
          by_contra hc
          rw [List.getElem?_eq_getElem (by omega)] at h5
          cases h5
        have heq : drawn proportions d 0 ys.length = (xs ⟨d, hdn⟩).length := by
          have : drawn proportions d 0 ys.length ≤ (xs ⟨d, hdn⟩).length := hb
          omega
        have hat0 := hat ⟨d, hdn⟩
        simp only [heq] at hat0
        obtain ⟨si, e1, e2⟩ := (h ⟨d, hdn⟩).next_stop hat0 h4
        refine ⟨{ index := s.index + 1, parents := Function.update s.parents ⟨d, hdn⟩ si, stop := true }, e1.mono ?_,
          Nat.le_refl _, ?_, Or.inr ⟨rfl, rfl, he⟩⟩
        · intro F e
          simp only [mixIter, h1, Bool.false_eq_true, if_false, h2, hd, dif_pos hdn, e, Option.bind_eq_bind,
            Option.bind_some]
        · intro i
          by_cases hi : i = ⟨d, hdn⟩
          · subst hi
            show At _ (Function.update s.parents _ si _) _
            rw [Function.update_self]
            simp only [heq]
            exact e2
          · show At _ (Function.update s.parents _ si _) _
            rw [Function.update_of_ne hi]; exact hat i
    · refine ⟨s, Ev.of_forall (fun F => ?_), Nat.le_refl _, hat, Or.inr ⟨h1, rfl, he⟩⟩
      simp only [mixIter, h1, if_true]
  · rintro s m ⟨hm, hat, hst⟩
    exact ⟨⟨hm, fun i => ((h i).get (hat i)).1, hst⟩, hm, fun i => ((h i).get (hat i)).2, hst⟩
  · rintro s m' c m ⟨_, hat, _⟩ ⟨hm, hc, hst⟩ hk
    obtain ⟨s', e1, e2, _⟩ := setAll_ok h c.1 (fun i => drawn proportions i 0 m) (by
        intro i
        cases he : ended with
        | true => exact Or.inr rfl
        | false =>
          left
          have h1 := hpre he i
          have h2 := drawn_mono proportions i.val hm
          show drawn proportions i 0 m < _
          omega) hc (List.finRange n) s.parents (fun i => ⟨_, hat i⟩)
    refine ⟨{ parents := s', index := c.2.1, stop := c.2.2 }, e1.mono ?_, hm, fun i => e2 i (List.mem_finRange i), hst⟩
    intro F e
    simp only [mixIter, e, Option.bind_eq_bind, Option.bind_some]

end Grain
