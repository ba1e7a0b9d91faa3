import Verif.MapDs.Model
import Mathlib.Data.List.Forall2
/- Helper lemmas for C11: every `_getitems` agrees with `__getitem__`. -/
namespace Grain
open List

theorem bind_ok_iff {m : Py α} {f : α → Py β} {v : β} :
    (m >>= f) = Except.ok v ↔ ∃ a, m = .ok a ∧ f a = .ok v := by
  cases m with
  | error e => simp [bind, Except.bind]
  | ok a => simp [bind, Except.bind]

theorem mapM_ok_iff {f : α → Py β} : ∀ {l : List α} {v : List β},
    l.mapM f = .ok v ↔ Forall₂ (fun a b => f a = .ok b) l v := by
  intro l
  induction l with
  | nil =>
    intro v
    rw [List.mapM_nil]
    constructor
    · intro h; cases h; exact .nil
    · intro h; cases h; rfl
  | cons a l ih =>
    intro v
    rw [List.mapM_cons, bind_ok_iff]
    constructor
    · rintro ⟨b, hb, h⟩
      rw [bind_ok_iff] at h
      obtain ⟨bs, hbs, h⟩ := h
      cases h
      exact .cons hb (ih.mp hbs)
    · intro h
      cases h with
      | cons hb hbs =>
        refine ⟨_, hb, ?_⟩
        rw [bind_ok_iff]
        exact ⟨_, ih.mpr hbs, rfl⟩

/-- `getitems` agrees with `getitem`: it returns `v` exactly when the single reads return the entries of `v`. -/
def Coherent (ds : MapDs α) : Prop :=
  ∀ is v, ds.getitems is = .ok v ↔ Forall₂ (fun i x => ds.getitem i = .ok x) is v

theorem coherent_of_mapM (ds : MapDs α) (h : ∀ is, ds.getitems is = is.mapM ds.getitem) : Coherent ds := by
  intro is v
  rw [h, mapM_ok_iff]

theorem forall₂_comp_iff {R : α → β → Prop} {S : β → γ → Prop} : ∀ {l : List α} {v : List γ},
    (∃ m, Forall₂ R l m ∧ Forall₂ S m v) ↔ Forall₂ (fun a c => ∃ b, R a b ∧ S b c) l v := by
  intro l
  induction l with
  | nil =>
    intro v
    constructor
    · rintro ⟨m, h1, h2⟩; cases h1; cases h2; exact .nil
    · intro h; cases h; exact ⟨[], .nil, .nil⟩
  | cons a l ih =>
    intro v
    constructor
    · rintro ⟨m, h1, h2⟩
      cases h1 with
      | cons ha hl =>
        cases h2 with
        | cons hb hm => exact .cons ⟨_, ha, hb⟩ (ih.mp ⟨_, hl, hm⟩)
    · intro h
      cases h with
      | cons hac hl =>
        obtain ⟨b, hb, hc⟩ := hac
        obtain ⟨m, h1, h2⟩ := ih.mpr hl
        exact ⟨b :: m, .cons hb h1, .cons hc h2⟩

theorem forall₂_zip_iff {R : α → β → Prop} {S : α → β → γ → Prop} : ∀ {l : List α} {v : List γ},
    (∃ m, Forall₂ R l m ∧ Forall₂ (fun (q : α × β) c => S q.1 q.2 c) (l.zip m) v) ↔
      Forall₂ (fun a c => ∃ b, R a b ∧ S a b c) l v := by
  intro l
  induction l with
  | nil =>
    intro v
    constructor
    · rintro ⟨m, h1, h2⟩; cases h1; cases h2; exact .nil
    · intro h; cases h; exact ⟨[], .nil, .nil⟩
  | cons a l ih =>
    intro v
    constructor
    · rintro ⟨m, h1, h2⟩
      cases h1 with
      | cons ha hl =>
        cases h2 with
        | cons hb hm => exact .cons ⟨_, ha, hb⟩ (ih.mp ⟨_, hl, hm⟩)
    · intro h
      cases h with
      | cons hac hl =>
        obtain ⟨b, hb, hc⟩ := hac
        obtain ⟨m, h1, h2⟩ := ih.mpr hl
        exact ⟨b :: m, .cons hb h1, .cons hc h2⟩

theorem forall₂_zip_iff' {R : α → β → Prop} {S : α → β → γ → Prop} : ∀ {l : List α} {v : List γ},
    (∃ m, Forall₂ R l m ∧ Forall₂ (fun (q : β × α) c => S q.2 q.1 c) (m.zip l) v) ↔
      Forall₂ (fun a c => ∃ b, R a b ∧ S a b c) l v := by
  intro l
  induction l with
  | nil =>
    intro v
    constructor
    · rintro ⟨m, h1, h2⟩; cases h1; cases h2; exact .nil
    · intro h; cases h; exact ⟨[], .nil, .nil⟩
  | cons a l ih =>
    intro v
    constructor
    · rintro ⟨m, h1, h2⟩
      cases h1 with
      | cons ha hl =>
        cases h2 with
        | cons hb hm => exact .cons ⟨_, ha, hb⟩ (ih.mp ⟨_, hl, hm⟩)
    · intro h
      cases h with
      | cons hac hl =>
        obtain ⟨b, hb, hc⟩ := hac
        obtain ⟨m, h1, h2⟩ := ih.mpr hl
        exact ⟨b :: m, .cons hb h1, .cons hc h2⟩

/-! ### one to one -/

theorem mapDs_coherent (f : α → Py (Option β)) {p : MapDs α} (h : Coherent p) : Coherent (mapDs f p) := by
  intro is v
  simp only [mapDs, bind_ok_iff, mapM_ok_iff]
  simp only [h is]
  rw [forall₂_comp_iff]

theorem mapWithIndexDs_coherent (f : Int → α → Py (Option β)) {p : MapDs α} (h : Coherent p) :
    Coherent (mapWithIndexDs f p) := by
  intro is v
  simp only [mapWithIndexDs, bind_ok_iff, mapM_ok_iff]
  simp only [h is]
  exact forall₂_zip_iff (S := fun i e c => (match e with | none => Except.ok none | some a => f i a) = .ok c)

theorem randomMapDs_coherent (f : α → Int → Py (Option β)) {p : MapDs α} (h : Coherent p) :
    Coherent (randomMapDs f p) := by
  intro is v
  simp only [randomMapDs, bind_ok_iff, mapM_ok_iff]
  simp only [h is]
  exact forall₂_zip_iff' (S := fun i e c => (match e with | none => Except.ok none | some a => f a i) = .ok c)

theorem filterDs_coherent (f : α → Py Bool) {p : MapDs α} (h : Coherent p) : Coherent (filterDs f p) := by
  intro is v
  simp only [filterDs]
  rw [bind_ok_iff]
  simp only [mapM_ok_iff, h is]
  rw [forall₂_comp_iff]
  simp only [bind_ok_iff]

theorem flatMapDs_coherent (n : Nat) (f : α → Py (List (Option β))) (p : MapDs α) :
    Coherent (flatMapDs n f p) := coherent_of_mapM _ (fun _ => rfl)

/-! ### index maps -/

theorem index_coherent {p : MapDs α} (h : Coherent p) (g : Int → Py Int) (n : Nat) :
    Coherent { len := n,
               getitem := fun i => do let j ← g i; p.getitem j,
               getitems := fun is => do let js ← is.mapM g; p.getitems js : MapDs α } := by
  intro is v
  simp only [bind_ok_iff, mapM_ok_iff, h _]
  rw [forall₂_comp_iff]

theorem sliceDs_coherent (s : SliceSpec) {p : MapDs α} (h : Coherent p) : Coherent (sliceDs s p) :=
  index_coherent h _ _

theorem reindexDs_coherent (ix : List Int) {p : MapDs α} (h : Coherent p) : Coherent (reindexDs ix p) :=
  index_coherent h _ _

theorem reindexByDs_coherent (ix : MapDs Int) {p : MapDs α} (h : Coherent p) : Coherent (reindexByDs ix p) :=
  index_coherent h _ _

theorem shuffleDs_coherent (k s) {p : MapDs α} (h : Coherent p) : Coherent (shuffleDs k s p) :=
  index_coherent h _ _

theorem windowShuffleDs_coherent (k s w) {p : MapDs α} (h : Coherent p) :
    Coherent (windowShuffleDs k s w p) := index_coherent h _ _

theorem shardDs_coherent (o) (p : MapDs α) : Coherent (shardDs o p) := coherent_of_mapM _ (fun _ => rfl)

theorem repeatDs_coherent (n) (r : Bool) {p : MapDs α} (h : Coherent p) : Coherent (repeatDs n r p) := by
  cases r
  · exact index_coherent h (fun i => pymod i p.len) n
  · intro is v
    exact h is v

theorem batchDs_coherent (b d pd) (f : List (Option α) → Py (Option β)) (p : MapDs α) :
    Coherent (batchDs b d pd f p) := coherent_of_mapM _ (fun _ => rfl)

theorem rangeDs_coherent (r : RangeDs) : Coherent r.toDs := coherent_of_mapM _ (fun _ => rfl)

/-- Sources: a batched read of the source must itself agree with single reads. -/
theorem sourceDs_coherent (n : Nat) (read : Int → Py (Option α)) (rm : Option (List Int → Py (List (Option α))))
    (h : ∀ f ∈ rm, ∀ is v, f is = .ok v ↔ Forall₂ (fun i x => read i = .ok x) is v) :
    Coherent (sourceDs n read rm) := by
  cases rm with
  | none => exact coherent_of_mapM _ (fun _ => rfl)
  | some f =>
    intro is v
    simp only [sourceDs, bind_ok_iff, mapM_ok_iff, h f rfl]
    rw [forall₂_comp_iff]

/-! ### zip -/

theorem foldl_min_const (n : Nat) : ∀ (rows : List (List α)), (∀ r ∈ rows, r.length = n) →
    ∀ m, m = n → rows.foldl (fun m r => min m r.length) m = n
  | [], _, m, hm => hm
  | r :: rs, h, m, hm => by
    rw [List.foldl_cons]
    exact foldl_min_const n rs (fun r hr => h r (by simp [hr])) _ (by rw [h r (by simp)]; omega)

theorem pyZipStar_eq (n : Nat) (rows : List (List α)) (hne : rows ≠ []) (h : ∀ r ∈ rows, r.length = n) :
    pyZipStar rows = (List.range n).map (fun i => rows.filterMap (fun r => r[i]?)) := by
  cases rows with
  | nil => exact absurd rfl hne
  | cons r rs =>
    simp only [pyZipStar, List.headD_cons]
    rw [foldl_min_const n (r :: rs) h r.length (h r (by simp))]

theorem filterMap_column {rows : List (List α)} {i n : Nat} (hi : i < n) (h : ∀ r ∈ rows, r.length = n)
    {col : List α} : rows.filterMap (fun r => r[i]?) = col ↔ Forall₂ (fun r x => r[i]? = some x) rows col := by
  induction rows generalizing col with
  | nil =>
    constructor
    · intro h; simp at h; subst h; exact .nil
    · intro h; cases h; rfl
  | cons r rs ih =>
    have hr : i < r.length := by rw [h r (by simp)]; exact hi
    rw [List.filterMap_cons, List.getElem?_eq_getElem hr]
    simp only
    constructor
    · intro e; subst e
      exact .cons (by rw [List.getElem?_eq_getElem hr]) ((ih (fun r hr => h r (by simp [hr]))).mp rfl)
    · intro e
      cases e with
      | cons h1 h2 =>
        rw [(ih (fun r hr => h r (by simp [hr]))).mpr h2]
        rw [List.getElem?_eq_getElem hr] at h1
        cases h1; rfl

theorem exists_row {R : α → β → Prop} : ∀ {is : List α}, (∀ i (hi : i < is.length), ∃ x, R is[i] x) →
    ∃ row, Forall₂ R is row
  | [], _ => ⟨[], .nil⟩
  | a :: is, h => by
    obtain ⟨x, hx⟩ := h 0 (by simp)
    obtain ⟨row, hrow⟩ := exists_row (is := is) (fun i hi => h (i+1) (by simp; exact hi))
    exact ⟨x :: row, .cons hx hrow⟩

theorem zipDs_coherent (n : Nat) (parents : List (MapDs α)) (hne : parents ≠ [])
    (h : ∀ p ∈ parents, Coherent p) : Coherent (zipDs n parents) := by
  intro is v
  simp only [zipDs, bind_ok_iff, mapM_ok_iff]
  constructor
  · rintro ⟨pes, hpes, hv⟩
    cases hv
    have hF : Forall₂ (fun p row => Forall₂ (fun i x => MapDs.getitem p i = .ok x) is row) parents pes := by
      rw [forall₂_iff_get] at hpes ⊢
      refine ⟨hpes.1, fun i h1 h2 => ?_⟩
      exact (h _ (List.get_mem _ _) _ _).mp (hpes.2 i h1 h2)
    have hlen : ∀ r ∈ pes, r.length = is.length := by
      intro r hr
      obtain ⟨i, hi, rfl⟩ := List.mem_iff_getElem.mp hr
      rw [forall₂_iff_get] at hF
      exact (hF.2 i (by rw [hF.1]; exact hi) hi).length_eq.symm
    have hpne : pes ≠ [] := by
      intro e; subst e; cases hF; exact hne rfl
    rw [pyZipStar_eq is.length pes hpne hlen]
    rw [forall₂_iff_get]
    refine ⟨by simp, fun i h1 h2 => ?_⟩
    simp only [List.get_eq_getElem, List.getElem_map, List.getElem_range]
    refine ⟨_, ?_, rfl⟩
    have hcol := (filterMap_column (rows := pes) h1 hlen).mp rfl
    rw [forall₂_iff_get] at hF hcol ⊢
    refine ⟨by rw [hF.1, hcol.1], fun j hj1 hj2 => ?_⟩
    have hjp : j < pes.length := by rw [← hF.1]; exact hj1
    have hrow := hF.2 j hj1 hjp
    have hc := hcol.2 j hjp hj2
    simp only [List.get_eq_getElem] at hrow hc ⊢
    rw [forall₂_iff_get] at hrow
    have hir : i < (pes[j]).length := by rw [← hrow.1]; exact h1
    have := hrow.2 i h1 hir
    simp only [List.get_eq_getElem] at this
    rw [List.getElem?_eq_getElem hir] at hc
    rw [this]; exact congrArg _ (Option.some.inj hc)
  · intro hv
    -- row of parent p = the values of p at the indices
    rw [forall₂_iff_get] at hv
    obtain ⟨hl, hv⟩ := hv
    choose! col hcol hvcol using fun i (hi : i < is.length ∧ i < v.length) => hv i hi.1 hi.2
    have hF : ∀ (ps : List (MapDs α)) (off : Nat), (∀ j, ps[j]? = parents[off + j]?) →
        ∃ pes, Forall₂ (fun p row => Forall₂ (fun i x => MapDs.getitem p i = .ok x) is row) ps pes := by
      intro ps
      induction ps with
      | nil => intro _ _; exact ⟨[], .nil⟩
      | cons p ps ih =>
        intro off hoff
        obtain ⟨pes, hpes⟩ := ih (off + 1) (fun j => by rw [show off + 1 + j = off + (j+1) by omega, ← hoff]; simp)
        have hp0 : parents[off]? = some p := by rw [← Nat.add_zero off, ← hoff]; simp
        have hoffl : off < parents.length := by
          by_contra hcon
          rw [List.getElem?_eq_none (by omega)] at hp0
          cases hp0
        have hrow : ∃ row, Forall₂ (fun i x => MapDs.getitem p i = .ok x) is row := by
          have : ∀ i (hi : i < is.length), ∃ x, MapDs.getitem p is[i] = .ok x := by
            intro i hi
            have hci := hcol i ⟨hi, by omega⟩
            rw [forall₂_iff_get] at hci
            have := hci.2 off hoffl (by rw [← hci.1]; exact hoffl)
            simp only [List.get_eq_getElem] at this
            rw [List.getElem?_eq_getElem hoffl] at hp0
            cases hp0
            exact ⟨_, this⟩
          exact exists_row this
        obtain ⟨row, hrow⟩ := hrow
        exact ⟨row :: pes, .cons hrow hpes⟩
    obtain ⟨pes, hpes⟩ := hF parents 0 (by simp)
    have hpes' : Forall₂ (fun p row => MapDs.getitems p is = .ok row) parents pes := by
      rw [forall₂_iff_get] at hpes ⊢
      exact ⟨hpes.1, fun i h1 h2 => (h _ (List.get_mem _ _) _ _).mpr (hpes.2 i h1 h2)⟩
    refine ⟨pes, hpes', ?_⟩
    have hlen : ∀ r ∈ pes, r.length = is.length := by
      intro r hr
      obtain ⟨i, hi, rfl⟩ := List.mem_iff_getElem.mp hr
      rw [forall₂_iff_get] at hpes
      exact (hpes.2 i (by rw [hpes.1]; exact hi) hi).length_eq.symm
    have hpne : pes ≠ [] := by
      intro e; subst e; cases hpes; exact hne rfl
    rw [pyZipStar_eq is.length pes hpne hlen]
    congr 1
    apply List.ext_getElem
    · simp [hl]
    · intro i h1 h2
      simp only [List.length_map, List.length_range] at h1
      simp only [List.getElem_map, List.getElem_range]
      have hci := hcol i ⟨h1, h2⟩
      have hvi := hvcol i ⟨h1, h2⟩
      simp only [List.get_eq_getElem] at hvi
      have : v[i] = some (col i) := (Except.ok.inj hvi).symm
      rw [this]
      congr 1
      rw [filterMap_column (rows := pes) h1 hlen]
      rw [forall₂_iff_get] at hpes hci ⊢
      refine ⟨by rw [← hpes.1, hci.1], fun j hj1 hj2 => ?_⟩
      have hjp : j < parents.length := by rw [hpes.1]; exact hj1
      have hrow := hpes.2 j hjp hj1
      have hc := hci.2 j hjp hj2
      simp only [List.get_eq_getElem] at hrow hc ⊢
      rw [forall₂_iff_get] at hrow
      have hir : i < (pes[j]).length := by rw [← hrow.1]; exact h1
      have := hrow.2 i h1 hir
      simp only [List.get_eq_getElem] at this
      rw [this] at hc
      rw [List.getElem?_eq_getElem hir]
      exact congrArg _ (Except.ok.inj hc)

end Grain
