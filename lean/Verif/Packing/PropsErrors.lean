import Verif.Packing.Errors
import Verif.Packing.Props
/-
C85 for packing: what failing elements, and examples that do not fit into a row, do to the others.
-/
namespace Grain

variable {τ μ : Type}

open Classical in
/-- The examples among the outcomes that fit into an empty row. -/
noncomputable def packable (cfg : List (FeatCfg τ)) (xs : List (Py (Ex τ μ))) : List (Ex τ μ) := (elements xs).filter (fun e => decide (FitsEmpty cfg e))

open Classical in
/-- The exceptions a caller gets: those of the parent, and a `ValueError` for every example that does not fit into an empty row. -/
noncomputable def packFailures (cfg : List (FeatCfg τ)) (xs : List (Py (Ex τ μ))) : List Err :=
  xs.filterMap (fun x => match x with
    | .ok e => if FitsEmpty cfg e then none else some .valueError
    | .error e => some e)

open Classical in
private theorem packFailures_eq (cfg : List (FeatCfg τ)) (xs : List (Py (Ex τ μ))) :
    failures (xs.map (fun x => x.bind (fun a => if FitsEmpty cfg a then Except.ok a else .error .valueError))) = packFailures cfg xs := by
  unfold failures packFailures
  rw [List.filterMap_map]
  congr 1
  funext x
  cases x with
  | error e => rfl
  | ok a =>
    by_cases ha : FitsEmpty cfg a <;> simp [Except.bind, ha]

private theorem packing_failure {cfg : PkCfg τ} {choose : PkCfg τ → List (PkRow τ μ) → Ex τ μ → Option Nat}
    {ch : List (List (Ex τ μ)) → Ex τ μ → Option Nat → Prop} (hch : Chooses cfg choose ch (FitsEmpty cfg.feats))
    (ha : ∀ fc ∈ cfg.feats, 0 < fc.align) (hbins : 0 < cfg.bins) (hm : cfg.maxSeq ≠ some 0) {order : Nat → List (OutRow τ μ) → List Nat} (hord : IsOrder order)
    {p p' : Iter (Ex τ μ)} {xs : List (Py (Ex τ μ))} {ended : Bool} (hp : Resumes p xs ended) (hgood : packable cfg.feats xs ≠ [])
    (hp' : Resumes p' ((packable cfg.feats xs).map Except.ok) ended) :
    ∃ ys, YieldsOutcomes (packIter (packerOf choose cfg) order p) ys ended ∧ failures ys = packFailures cfg.feats xs ∧
      YieldsOutcomes (packIter (packerOf choose cfg) order p') ((elements ys).map Except.ok) ended := by
  have hf := packerOf_fine hch ha hbins hm
  have hg : ∃ a, .ok a ∈ xs ∧ FitsEmpty cfg.feats a := by
    obtain ⟨a, l, hl⟩ := List.exists_cons_of_ne_nil hgood
    have hmem : a ∈ packable cfg.feats xs := by rw [hl]; simp
    unfold packable at hmem
    rw [List.mem_filter] at hmem
    refine ⟨a, ?_, by simpa using hmem.2⟩
    have h1 := hmem.1
    unfold elements at h1
    rw [List.mem_filterMap] at h1
    obtain ⟨x, hx, hxa⟩ := h1
    cases x with
    | error e => cases hxa
    | ok b => cases hxa; exact hx
  refine ⟨_, packIter_yields hord hf hp (Or.inl hg), ?_, ?_⟩
  · rw [packRest_failures hf xs none 0 (Or.inl hg), packFailures_eq]
  · have hall : ∀ a, (.ok a : Py (Ex τ μ)) ∈ (packable cfg.feats xs).map Except.ok → FitsEmpty cfg.feats a := by
      intro a hmem
      rw [List.mem_map] at hmem
      obtain ⟨b, hb, hba⟩ := hmem
      cases hba
      unfold packable at hb
      rw [List.mem_filter] at hb
      simpa using hb.2
    have hy := packIter_yields hord hf hp' (Or.inr hall)
    have h1 : failures (packRest (packerOf choose cfg) order ended none 0 ((packable cfg.feats xs).map Except.ok)) = [] := by
      rw [packRest_failures hf _ none 0 (Or.inr hall), packFailures_eq]
      unfold packFailures
      rw [List.filterMap_eq_nil_iff]
      intro x hx
      cases x with
      | error e => simp at hx
      | ok a => simp [hall a hx]
    have h2 := packRest_elements (order := order) (ended := ended) hf xs none none 0 (Or.inl hg) (Or.inl rfl)
    rw [h2]
    unfold packable at h1 hy
    rw [← eq_map_ok_of_failures h1]
    exact hy

/-- First-fit packing over a parent whose elements may fail, and with examples that do not fit into a row (they raise `ValueError`): a caller
who goes on after exceptions gets every exception once, and the rows are exactly those of packing without the failing elements and without
the examples that do not fit (`p'`: any iterator over the others). -/
theorem first_fit_failure_partial {cfg : PkCfg τ} (hne : cfg.feats ≠ []) (ha : ∀ fc ∈ cfg.feats, 0 < fc.align) (hbins : 0 < cfg.bins)
    (hm : cfg.maxSeq ≠ some 0) (mode : ShuffleBins (OutRow τ μ)) {perm : Nat → Nat → List Nat} (hperm : ∀ s n, (perm s n).Perm (List.range n)) (seed : Nat)
    {p p' : Iter (Ex τ μ)} {xs : List (Py (Ex τ μ))} {ended : Bool} (hp : Resumes p xs ended) (hgood : packable cfg.feats xs ≠ [])
    (hp' : Resumes p' ((packable cfg.feats xs).map Except.ok) ended) :
    ∃ ys, YieldsOutcomes (packIter (firstFit cfg) (rowOrder mode perm seed) p) ys ended ∧ failures ys = packFailures cfg.feats xs ∧
      YieldsOutcomes (packIter (firstFit cfg) (rowOrder mode perm seed) p') ((elements ys).map Except.ok) ended :=
  packing_failure (firstFit_chooses (μ := μ) hne) ha hbins hm (rowOrder_isOrder mode perm seed hperm) hp hgood hp'

/-- The same for best fit. -/
theorem best_fit_failure_partial {cfg : PkCfg τ} (ha : ∀ fc ∈ cfg.feats, 0 < fc.align) (hbins : 0 < cfg.bins)
    (hm : cfg.maxSeq ≠ some 0) (mode : ShuffleBins (OutRow τ μ)) {perm : Nat → Nat → List Nat} (hperm : ∀ s n, (perm s n).Perm (List.range n)) (seed : Nat)
    {p p' : Iter (Ex τ μ)} {xs : List (Py (Ex τ μ))} {ended : Bool} (hp : Resumes p xs ended) (hgood : packable cfg.feats xs ≠ [])
    (hp' : Resumes p' ((packable cfg.feats xs).map Except.ok) ended) :
    ∃ ys, YieldsOutcomes (packIter (bestFit cfg) (rowOrder mode perm seed) p) ys ended ∧ failures ys = packFailures cfg.feats xs ∧
      YieldsOutcomes (packIter (bestFit cfg) (rowOrder mode perm seed) p') ((elements ys).map Except.ok) ended :=
  packing_failure (bestFit_chooses (μ := μ) ha (Good := FitsEmpty cfg.feats) (fits := RowFitsLoose cfg.feats cfg.maxSeq) (fun _ h => h)
      (fun _ _ _ => Iff.rfl) (fun _ _ h => h.2) (fun _ _ h => ⟨fun m hm => Or.inl (h.1 m hm), h.2⟩)) ha hbins hm (rowOrder_isOrder mode perm seed hperm) hp hgood hp'

/-- The hypotheses are met: a parent that fails, an example that is too long, and two that fit. -/
example : ∃ xs : List (Py (Ex Nat String)), .error .keyError ∈ xs ∧ (∃ e, .ok e ∈ xs ∧ ¬ FitsEmpty packExCfg.feats e) ∧ packable packExCfg.feats xs ≠ [] ∧
    Resumes (listIter xs) xs true := by
  refine ⟨[.ok ⟨[[1, 2, 3], [4]], "a"⟩, .error .keyError, .ok ⟨[[1, 2, 3, 4, 5, 6], [4]], "long"⟩, .ok ⟨[[5, 6], [7, 8]], "b"⟩], by simp,
    ⟨⟨[[1, 2, 3, 4, 5, 6], [4]], "long"⟩, by simp, ?_⟩, ?_, listIter_resumes _⟩
  · rintro ⟨_, h⟩
    have := h 0 [1, 2, 3, 4, 5, 6] ⟨5, 2, 0⟩ rfl rfl
    simp at this
  · have hfit : FitsEmpty packExCfg.feats (⟨[[1, 2, 3], [4]], "a"⟩ : Ex Nat String) := by
      refine ⟨rfl, ?_⟩
      intro i v fc h1 h2
      rcases i with _ | _ | i <;> simp [packExCfg] at h1 h2 <;> subst_vars <;> decide
    intro hc
    have : (⟨[[1, 2, 3], [4]], "a"⟩ : Ex Nat String) ∈ packable packExCfg.feats
        [.ok ⟨[[1, 2, 3], [4]], "a"⟩, .error .keyError, .ok ⟨[[1, 2, 3, 4, 5, 6], [4]], "long"⟩, .ok ⟨[[5, 6], [7, 8]], "b"⟩] := by
      unfold packable
      rw [List.mem_filter]
      exact ⟨by simp [elements, Except.toOption], by simpa using hfit⟩
    rw [hc] at this
    cases this

end Grain
