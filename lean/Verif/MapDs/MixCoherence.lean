import Verif.MapDs.Coherence
/- Helper lemmas for C11: `MixedMapDataset._getitems`. -/
namespace Grain
open List

theorem pyget_ok_iff {l : List α} {i : Nat} {a : α} : pyget l i = .ok a ↔ l[i]? = some a := by
  unfold pyget
  split
  · rename_i h; rw [h]; simp
  · rename_i h; rw [h]; simp

/-- What reading the pair `(dataset, key)` returns. -/
def readPair (parents : List (MapDs α)) (q : Nat × Int) : Py (Option α) := do
  let p ← pyget parents q.1
  p.getitem q.2

def Has (d : List (Nat × List (Nat × Int))) (q x : Nat) (k : Int) : Prop := ∃ g ∈ d, g.1 = q ∧ (x, k) ∈ g.2

theorem has_cons (g) (d : List (Nat × List (Nat × Int))) (q x : Nat) (k : Int) :
    Has (g :: d) q x k ↔ (g.1 = q ∧ (x, k) ∈ g.2) ∨ Has d q x k := by
  simp [Has]

theorem has_groupInsert (d : List (Nat × List (Nat × Int))) (p pos : Nat) (key : Int) (q x : Nat) (k : Int) :
    Has (groupInsert d p pos key) q x k ↔ (q = p ∧ x = pos ∧ k = key) ∨ Has d q x k := by
  induction d with
  | nil =>
    simp only [groupInsert, Has, List.mem_singleton, exists_eq_left, Prod.mk.injEq,
      List.not_mem_nil, false_and, exists_false, or_false]
    constructor
    · rintro ⟨rfl, rfl, rfl⟩; exact ⟨rfl, rfl, rfl⟩
    · rintro ⟨rfl, rfl, rfl⟩; exact ⟨rfl, rfl, rfl⟩
  | cons g d ih =>
    obtain ⟨gp, gl⟩ := g
    simp only [groupInsert]
    split
    · rename_i h; subst h
      rw [has_cons, has_cons]
      simp only [List.mem_append, List.mem_singleton, Prod.mk.injEq]
      constructor
      · rintro (⟨rfl, (h | ⟨rfl, rfl⟩)⟩ | h)
        · exact Or.inr (Or.inl ⟨rfl, h⟩)
        · exact Or.inl ⟨rfl, rfl, rfl⟩
        · exact Or.inr (Or.inr h)
      · rintro (⟨rfl, rfl, rfl⟩ | ⟨rfl, h⟩ | h)
        · exact Or.inl ⟨rfl, Or.inr ⟨rfl, rfl⟩⟩
        · exact Or.inl ⟨rfl, Or.inl h⟩
        · exact Or.inr h
    · rw [has_cons, has_cons, ih]
      tauto

theorem groupInsert_ne (d : List (Nat × List (Nat × Int))) (p pos : Nat) (key : Int)
    (h : ∀ g ∈ d, g.2 ≠ []) : ∀ g ∈ groupInsert d p pos key, g.2 ≠ [] := by
  induction d with
  | nil => intro g hg; simp [groupInsert] at hg; subst hg; simp
  | cons g d ih =>
    obtain ⟨gp, gl⟩ := g
    simp only [groupInsert]
    split
    · intro g hg
      rcases List.mem_cons.mp hg with rfl | hg
      · simp
      · exact h g (by simp [hg])
    · intro g hg
      rcases List.mem_cons.mp hg with rfl | hg
      · exact h _ (by simp)
      · exact ih (fun g hg => h g (by simp [hg])) g hg

theorem has_groupByParent : ∀ (pairs : List (Nat × Int)) (pos : Nat) d (q x : Nat) (k : Int),
    Has (groupByParent pairs pos d) q x k ↔ Has d q x k ∨ ∃ i, pairs[i]? = some (q, k) ∧ x = pos + i
  | [], pos, d, q, x, k => by simp [groupByParent]
  | (p, key) :: rest, pos, d, q, x, k => by
    rw [groupByParent, has_groupByParent rest, has_groupInsert]
    constructor
    · rintro ((⟨rfl, rfl, rfl⟩ | h) | ⟨i, hi, rfl⟩)
      · exact Or.inr ⟨0, by simp, by omega⟩
      · exact Or.inl h
      · exact Or.inr ⟨i + 1, by simpa using hi, by omega⟩
    · rintro (h | ⟨i, hi, rfl⟩)
      · exact Or.inl (Or.inr h)
      · rcases i with _ | i
        · simp at hi; exact Or.inl (Or.inl ⟨hi.1.symm, by omega, hi.2.symm⟩)
        · exact Or.inr ⟨i, by simpa using hi, by omega⟩

theorem groupByParent_ne : ∀ (pairs : List (Nat × Int)) (pos : Nat) d, (∀ g ∈ d, g.2 ≠ []) →
    ∀ g ∈ groupByParent pairs pos d, g.2 ≠ []
  | [], _, _, h => h
  | (p, key) :: rest, pos, d, h => groupByParent_ne rest _ _ (groupInsert_ne d p pos key h)

theorem scatter_spec (V : Nat → Py (Option α)) : ∀ (ps : List Nat) (es : List (Option α)) (mixed : List (Option α)),
    Forall₂ (fun pos e => V pos = .ok e) ps es →
    (scatter mixed ps es).length = mixed.length ∧
    ∀ x, x < mixed.length →
      (x ∈ ps → ∃ e, (scatter mixed ps es)[x]? = some e ∧ V x = .ok e) ∧
      (x ∉ ps → (scatter mixed ps es)[x]? = mixed[x]?) := by
  intro ps es mixed h
  induction h generalizing mixed with
  | nil => simp [scatter]
  | @cons pos e ps es hpe _ ih =>
    rw [scatter]
    obtain ⟨hl, hx⟩ := ih (mixed.set pos e)
    refine ⟨by simpa using hl, fun x hxl => ?_⟩
    obtain ⟨h1, h2⟩ := hx x (by simpa using hxl)
    by_cases hmem : x ∈ ps
    · exact ⟨fun _ => h1 hmem, fun hn => absurd (List.mem_cons_of_mem _ hmem) hn⟩
    · rw [h2 hmem]
      by_cases hxe : x = pos
      · subst hxe
        refine ⟨fun _ => ⟨e, ?_, hpe⟩, fun hn => absurd (by simp) hn⟩
        simp [hxl]
      · refine ⟨fun hm => ?_, fun _ => ?_⟩
        · rcases List.mem_cons.mp hm with rfl | hm
          · exact absurd rfl hxe
          · exact absurd hm hmem
        · rw [List.getElem?_set_ne (by omega)]

theorem mixFill_spec (parents : List (MapDs α)) (hc : ∀ p ∈ parents, Coherent p) (W : Nat → Nat × Int) :
    ∀ (gs : List (Nat × List (Nat × Int))) (mixed out : List (Option α)),
    (∀ q x k, Has gs q x k → W x = (q, k)) →
    mixFill parents gs mixed = .ok out →
    out.length = mixed.length ∧
    ∀ x, x < mixed.length →
      ((∃ q k, Has gs q x k) → ∃ e, out[x]? = some e ∧ readPair parents (W x) = .ok e) ∧
      ((¬ ∃ q k, Has gs q x k) → out[x]? = mixed[x]?) := by
  intro gs
  induction gs with
  | nil =>
    intro mixed out _ h
    simp only [mixFill, Except.ok.injEq] at h
    subst h
    exact ⟨rfl, fun x _ => ⟨fun ⟨q, k, h⟩ => by simp [Has] at h, fun _ => rfl⟩⟩
  | cons g gs ih =>
    obtain ⟨gp, entries⟩ := g
    intro mixed out hW h
    simp only [mixFill, bind_ok_iff] at h
    obtain ⟨p, hp, es, hes, h⟩ := h
    rw [hc p (List.mem_of_getElem? (pyget_ok_iff.mp hp))] at hes
    have hfa : Forall₂ (fun pos e => readPair parents (W pos) = .ok e) (entries.map (·.1)) es := by
      rw [forall₂_map_left_iff] at hes ⊢
      rw [forall₂_iff_get] at hes ⊢
      refine ⟨hes.1, fun i h1 h2 => ?_⟩
      have := hes.2 i h1 h2
      have hWi := hW gp (entries.get ⟨i, h1⟩).1 (entries.get ⟨i, h1⟩).2
        ⟨_, List.mem_cons_self .., rfl, List.get_mem ..⟩
      rw [hWi, readPair, bind_ok_iff]
      exact ⟨p, hp, this⟩
    obtain ⟨sl, sx⟩ := scatter_spec _ _ _ mixed hfa
    obtain ⟨hl, hx⟩ := ih _ out (fun q x k hh => hW q x k ((has_cons ..).mpr (Or.inr hh))) h
    refine ⟨by rw [hl, sl], fun x hxl => ?_⟩
    obtain ⟨h1, h2⟩ := hx x (by rw [sl]; exact hxl)
    obtain ⟨s1, s2⟩ := sx x hxl
    constructor
    · rintro ⟨q, k, hh⟩
      by_cases hgs : ∃ q k, Has gs q x k
      · exact h1 hgs
      · rw [h2 hgs]
        rw [has_cons] at hh
        rcases hh with ⟨_, hm⟩ | hh
        · exact s1 (List.mem_map.mpr ⟨_, hm, rfl⟩)
        · exact absurd ⟨q, k, hh⟩ hgs
    · intro hn
      have hngs : ¬ ∃ q k, Has gs q x k := fun ⟨q, k, hh⟩ => hn ⟨q, k, (has_cons ..).mpr (Or.inr hh)⟩
      rw [h2 hngs]
      apply s2
      intro hm
      obtain ⟨⟨x', k⟩, hm', rfl⟩ := List.mem_map.mp hm
      exact hn ⟨gp, k, (has_cons ..).mpr (Or.inl ⟨rfl, hm'⟩)⟩

theorem mixFill_total (parents : List (MapDs α)) (hc : ∀ p ∈ parents, Coherent p) :
    ∀ (gs : List (Nat × List (Nat × Int))) (mixed : List (Option α)),
    (∀ g ∈ gs, g.2 ≠ []) →
    (∀ q x k, Has gs q x k → ∃ e, readPair parents (q, k) = .ok e) →
    ∃ out, mixFill parents gs mixed = .ok out := by
  intro gs
  induction gs with
  | nil => intro mixed _ _; exact ⟨mixed, rfl⟩
  | cons g gs ih =>
    obtain ⟨gp, entries⟩ := g
    intro mixed hne hv
    have hread : ∀ e ∈ entries, ∃ p x, pyget parents gp = .ok p ∧ p.getitem e.2 = .ok x := by
      intro e he
      obtain ⟨x, hx⟩ := hv gp e.1 e.2 ((has_cons ..).mpr (Or.inl ⟨rfl, he⟩))
      rw [readPair, bind_ok_iff] at hx
      obtain ⟨p, hp, hx⟩ := hx
      exact ⟨p, x, hp, hx⟩
    obtain ⟨e0, he0⟩ := List.exists_mem_of_ne_nil _ (hne _ (List.mem_cons_self ..))
    obtain ⟨p, _, hp, _⟩ := hread e0 he0
    have hrow : ∃ es, Forall₂ (fun i x => p.getitem i = .ok x) (entries.map (·.2)) es := by
      apply exists_row
      intro i hi
      simp only [List.length_map] at hi
      obtain ⟨p', x, hp', hx⟩ := hread entries[i] (List.getElem_mem ..)
      rw [hp] at hp'
      cases hp'
      exact ⟨x, by simpa using hx⟩
    obtain ⟨es, hes⟩ := hrow
    rw [← hc p (List.mem_of_getElem? (pyget_ok_iff.mp hp))] at hes
    obtain ⟨out, hout⟩ := ih (scatter mixed (entries.map (·.1)) es) (fun g hg => hne g (by simp [hg]))
      (fun q x k hh => hv q x k ((has_cons ..).mpr (Or.inr hh)))
    refine ⟨out, ?_⟩
    simp only [mixFill, bind_ok_iff]
    exact ⟨p, hp, es, hes, hout⟩

theorem mixDs_coherent (sm : SelMap) (parents : List (MapDs α)) (hc : ∀ p ∈ parents, Coherent p) :
    Coherent (mixDs sm parents) := by
  intro is v
  have hgi : ∀ i x, (mixDs sm parents).getitem i = .ok x ↔
      ∃ q, sm.sel i = .ok q ∧ readPair parents q = .ok x := by
    intro i x
    simp only [mixDs, bind_ok_iff, readPair]
  simp only [hgi]
  rw [← forall₂_comp_iff (R := fun i q => sm.sel i = .ok q) (S := fun q x => readPair parents q = .ok x)]
  simp only [mixDs, bind_ok_iff, mapM_ok_iff]
  apply exists_congr
  intro pairs
  apply and_congr_right
  intro hpairs
  have hlen : pairs.length = is.length := hpairs.length_eq.symm
  let W : Nat → Nat × Int := fun x => pairs[x]?.getD (0, 0)
  have hhas : ∀ q x k, Has (groupByParent pairs 0 []) q x k ↔ pairs[x]? = some (q, k) := by
    intro q x k
    rw [has_groupByParent]
    constructor
    · rintro (h | ⟨i, hi, rfl⟩)
      · simp [Has] at h
      · simpa using hi
    · intro h; exact Or.inr ⟨x, h, by omega⟩
  have hW : ∀ q x k, Has (groupByParent pairs 0 []) q x k → W x = (q, k) := by
    intro q x k h
    rw [hhas] at h
    simp [W, h]
  constructor
  · intro h
    obtain ⟨hl, hx⟩ := mixFill_spec parents hc W _ _ v hW h
    rw [List.length_replicate] at hl
    rw [forall₂_iff_get]
    refine ⟨by omega, fun i h1 h2 => ?_⟩
    obtain ⟨e, he, hr⟩ := (hx i (by simp; omega)).1 ⟨pairs[i].1, pairs[i].2, by
      rw [hhas, List.getElem?_eq_getElem h1]⟩
    rw [List.getElem?_eq_getElem h2] at he
    simp only [List.get_eq_getElem]
    have : W i = pairs[i] := by simp [W, List.getElem?_eq_getElem h1]
    rw [this] at hr
    rw [hr, ← Option.some.inj he]
  · intro h
    have htot := mixFill_total parents hc (groupByParent pairs 0 []) (List.replicate is.length none)
      (groupByParent_ne pairs 0 [] (by simp)) (by
        intro q x k hh
        rw [hhas] at hh
        rw [forall₂_iff_get] at h
        have hxl : x < pairs.length := by
          by_contra hcon
          rw [List.getElem?_eq_none (by omega)] at hh
          cases hh
        have := h.2 x hxl (by rw [← h.1]; exact hxl)
        rw [List.getElem?_eq_getElem hxl] at hh
        have e := Option.some.inj hh
        simp only [List.get_eq_getElem] at this
        rw [e] at this
        exact ⟨_, this⟩)
    obtain ⟨out, hout⟩ := htot
    obtain ⟨hl, hx⟩ := mixFill_spec parents hc W _ _ out hW hout
    rw [hout]
    congr 1
    rw [List.length_replicate] at hl
    rw [forall₂_iff_get] at h
    apply List.ext_getElem
    · rw [hl, ← h.1, hlen]
    · intro i h1 h2
      obtain ⟨e, he, hr⟩ := (hx i (by simp; omega)).1 ⟨(pairs[i]'(by omega)).1, (pairs[i]'(by omega)).2, by
        rw [hhas, List.getElem?_eq_getElem (by omega)]⟩
      have hv := h.2 i (by omega) h2
      simp only [List.get_eq_getElem] at hv
      have hWi : W i = pairs[i]'(by omega) := by simp [W, List.getElem?_eq_getElem (show i < pairs.length by omega)]
      rw [hWi, hv] at hr
      rw [List.getElem?_eq_getElem h1] at he
      rw [Option.some.inj he, Except.ok.inj hr]

end Grain
