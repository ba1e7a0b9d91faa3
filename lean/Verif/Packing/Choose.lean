import Verif.Packing.Lemmas
/-
The rows chosen by first fit and best fit, and the rows emitted for any choice.
-/
namespace Grain

variable {τ μ : Type}

theorem firstFitRow_iff {cfg : PkCfg τ} (hne : cfg.feats ≠ []) {row : PkRow τ μ} {es : List (Ex τ μ)} {e : Ex τ μ} (h : RowInv cfg row es)
    (he : e.feats.length = cfg.feats.length) : firstFitRow cfg e row = true ↔ RowFits cfg.feats cfg.maxSeq es e := by
  have key := h.zip_all he (fun fc free len => len + free ≤ fc.cap ∧ (∀ m, m ∈ cfg.maxSeq → row.num < m))
  have hf : firstFitRow cfg e row = (cfg.feats.zip (row.feats.zip e.feats)).all (fun x =>
      decide (x.2.2.length + x.2.1.free ≤ x.1.cap ∧ (∀ m, m ∈ cfg.maxSeq → row.num < m))) := by
    unfold firstFitRow
    congr 1
    funext x
    rw [Bool.decide_and]
    congr 1
    cases cfg.maxSeq with
    | none => simp
    | some m => simp
  rw [hf, key]
  unfold RowFits
  constructor
  · intro hall
    refine ⟨?_, fun i fc hi => by have := (hall i fc hi).1; omega⟩
    intro m hm
    obtain ⟨fc, hfc⟩ := List.exists_mem_of_ne_nil _ hne
    obtain ⟨i, hi⟩ := List.getElem?_of_mem hfc
    rw [← h.1]
    exact (hall i fc hi).2 m hm
  · rintro ⟨h1, h2⟩ i fc hi
    exact ⟨by have := h2 i fc hi; omega, fun m hm => by rw [h.1]; exact h1 m hm⟩

theorem endOf_eq_zero {align : Nat} (ha : 0 < align) (vals : List (List τ)) : endOf align vals = 0 ↔ ∀ v ∈ vals, v = [] := by
  induction vals using List.reverseRecOn with
  | nil => simp [endOf]
  | append_singleton l v ih =>
    rw [endOf_append_singleton]
    have hr := roundUp_spec (x := endOf align l + v.length) ha
    constructor
    · intro h w hw
      have h0 : endOf align l = 0 ∧ v.length = 0 := by omega
      rcases List.mem_append.1 hw with hw | hw
      · exact ih.1 h0.1 w hw
      · simp at hw; subst hw; exact List.length_eq_zero_iff.1 h0.2
    · intro h
      have h1 : endOf align l = 0 := ih.2 (fun w hw => h w (by simp [hw]))
      have h2 : v = [] := h v (by simp)
      subst h2
      rw [h1]
      simp only [List.length_nil, Nat.add_zero, Nat.zero_add]
      rw [Nat.div_eq_of_lt (by omega), Nat.zero_mul]

theorem bestFitRow_iff {cfg : PkCfg τ} (ha : ∀ fc ∈ cfg.feats, 0 < fc.align) {row : PkRow τ μ} {es : List (Ex τ μ)} {e : Ex τ μ}
    (h : RowInv cfg row es) (he : e.feats.length = cfg.feats.length) :
    bestFitRow cfg e row = true ↔ RowFitsLoose cfg.feats cfg.maxSeq es e := by
  have key := h.zip_all he (fun fc free len => free + len + maxSeqMask cfg row.num * fc.cap ≤ fc.cap)
  unfold bestFitRow
  rw [key]
  unfold RowFitsLoose
  constructor
  · intro hall
    refine ⟨?_, ?_⟩
    · intro m hm
      by_cases hge : es.length < m
      · exact Or.inl hge
      · right
        have hmask : maxSeqMask cfg row.num = 1 := by simp only [maxSeqMask, hm, h.1, hge, if_false]
        rw [hmask] at hall
        intro i hil
        have h1 := hall i _ (List.getElem?_eq_getElem hil)
        refine ⟨List.length_eq_zero_iff.1 (by omega), ?_⟩
        intro e' he'
        have h2 := (endOf_eq_zero (ha cfg.feats[i] (List.getElem_mem hil)) (es.map (·.feat i))).1 (by omega)
        exact h2 _ (List.mem_map_of_mem he')
    · intro i fc hi
      have := hall i fc hi
      omega
  · rintro ⟨h1, h2⟩ i fc hi
    have h3 := h2 i fc hi
    have hil := (List.getElem?_eq_some_iff.1 hi).1
    by_cases hmask : maxSeqMask cfg row.num = 0
    · rw [hmask]; omega
    · have h4 : ∃ m, cfg.maxSeq = some m ∧ ¬ es.length < m := by
        unfold maxSeqMask at hmask
        cases hms : cfg.maxSeq with
        | none => rw [hms] at hmask; exact absurd rfl hmask
        | some m =>
          rw [hms, h.1] at hmask
          exact ⟨m, rfl, fun hlt => hmask (if_pos hlt)⟩
      obtain ⟨m, hm, hge⟩ := h4
      have hone : maxSeqMask cfg row.num = 1 := by simp only [maxSeqMask, hm, h.1, hge, if_false]
      rw [hone]
      have h5 := (h1 m hm).resolve_left hge i hil
      have h6 : endOf fc.align (es.map (·.feat i)) = 0 := by
        rw [endOf_eq_zero (ha fc (List.mem_of_getElem? hi))]
        intro v hv
        obtain ⟨e', he', rfl⟩ := List.mem_map.1 hv
        exact h5.2 e' he'
      rw [h6, h5.1]
      simp

/-- The limits agree for examples with a token. -/
theorem rowFitsLoose_iff {cfg : List (FeatCfg τ)} {maxSeq : Option Nat} {es : List (Ex τ μ)} {e : Ex τ μ}
    (he : e.feats.length = cfg.length) (hlen : ∃ i, e.feat i ≠ []) :
    RowFitsLoose cfg maxSeq es e ↔ RowFits cfg maxSeq es e := by
  obtain ⟨i, hi⟩ := hlen
  have hil : i < cfg.length := by
    by_contra hge
    apply hi
    have : e.feats[i]? = none := List.getElem?_eq_none_iff.2 (by omega)
    simp [Ex.feat, this]
  constructor
  · rintro ⟨h1, h2⟩
    refine ⟨fun m hm => ?_, h2⟩
    rcases h1 m hm with h | h
    · exact h
    · exact absurd (h i hil).1 hi
  · rintro ⟨h1, h2⟩
    exact ⟨fun m hm => Or.inl (h1 m hm), h2⟩

theorem argmax_none : ∀ {l : List Int}, argmax l = none → l = [] := by
  intro l h
  cases l with
  | nil => rfl
  | cons a l =>
    simp only [argmax] at h
    cases hl : argmax l with
    | none => rw [hl] at h; cases h
    | some i =>
      rw [hl] at h
      simp only [] at h
      split at h <;> cases h

theorem argmax_spec : ∀ {l : List Int} {i : Nat}, argmax l = some i →
    ∃ x, l[i]? = some x ∧ ∀ (j : Nat) y, l[j]? = some y → y < x ∨ (y = x ∧ i ≤ j) := by
  intro l
  induction l with
  | nil => intro i h; cases h
  | cons a l ih =>
    intro i h
    simp only [argmax] at h
    cases hl : argmax l with
    | none =>
      rw [hl] at h
      cases h
      have := argmax_none hl
      subst this
      refine ⟨a, rfl, ?_⟩
      intro j y hj
      cases j with
      | zero => simp at hj; exact Or.inr ⟨hj.symm, by omega⟩
      | succ j => simp at hj
    | some k =>
      rw [hl] at h
      obtain ⟨x, hx, hmax⟩ := ih hl
      have hg : l.getD k 0 = x := by simp [List.getD, hx]
      simp only [hg] at h
      split at h
      · cases h
        refine ⟨x, hx, ?_⟩
        intro j y hj
        cases j with
        | zero => simp at hj; subst hj; exact Or.inl (by omega)
        | succ j =>
          rcases hmax j y (by simpa using hj) with h1 | ⟨h1, h2⟩
          · exact Or.inl h1
          · exact Or.inr ⟨h1, by omega⟩
      · cases h
        refine ⟨a, rfl, ?_⟩
        intro j y hj
        cases j with
        | zero => simp at hj; exact Or.inr ⟨hj.symm, by omega⟩
        | succ j =>
          rcases hmax j y (by simpa using hj) with h1 | ⟨h1, h2⟩
          · exact Or.inl (by omega)
          · by_cases hya : y < a
            · exact Or.inl hya
            · exact Or.inr ⟨by omega, by omega⟩

theorem firstFit_chooses {cfg : PkCfg τ} (hne : cfg.feats ≠ []) :
    Chooses (μ := μ) cfg chooseFirst (IsFirstFit (RowFits cfg.feats cfg.maxSeq)) (FitsEmpty cfg.feats) := by
  refine { spec := ?_, fits := fun h => ⟨h.1.choose, h.1.choose_spec.1, h.1.choose_spec.2.2⟩, none := fun h => h, first := ?_ }
  · intro rows a e hinv _ he
    obtain ⟨h1, h2, h3, _⟩ := hinv
    unfold chooseFirst
    cases hc : rows.findIdx? (firstFitRow cfg e) with
    | none =>
      intro es hes hfit
      obtain ⟨r, hr⟩ := List.getElem?_of_mem hes
      have hrl := (List.getElem?_eq_some_iff.1 hr).1
      have hrow : rows[r]? = some (rows[r]'(by omega)) := List.getElem?_eq_getElem _
      have := (firstFitRow_iff hne (h3 r _ es hrow hr) he.1).2 hfit
      rw [List.findIdx?_eq_none_iff] at hc
      have h5 := hc _ (List.mem_of_getElem? hrow)
      rw [this] at h5
      cases h5
    | some r =>
      rw [List.findIdx?_eq_some_iff_getElem] at hc
      obtain ⟨hr, hfit, hfirst⟩ := hc
      have hrow : rows[r]? = some rows[r] := List.getElem?_eq_getElem _
      have hes : a[r]? = some (a[r]'(by omega)) := List.getElem?_eq_getElem _
      refine ⟨⟨_, hes, (firstFitRow_iff hne (h3 r _ _ hrow hes) he.1).1 hfit⟩, ?_⟩
      intro r' es hlt hes' hf
      have hrow' : rows[r']? = some (rows[r']'(by omega)) := List.getElem?_eq_getElem _
      have := (firstFitRow_iff hne (h3 r' _ es hrow' hes') he.1).2 hf
      exact absurd this (by simpa using hfirst r' hlt)
  · intro a e r h hr r' hlt hr'
    obtain ⟨⟨es, hes, hf⟩, hno⟩ := h
    rw [hr] at hes
    cases hes
    exact hno r' [] hlt hr' hf

theorem bestFit_chooses {cfg : PkCfg τ} (ha : ∀ fc ∈ cfg.feats, 0 < fc.align) {Good : Ex τ μ → Prop} {fits : List (Ex τ μ) → Ex τ μ → Prop}
    (hG : ∀ e, Good e → FitsEmpty cfg.feats e) (hfits : ∀ es e, Good e → (RowFitsLoose cfg.feats cfg.maxSeq es e ↔ fits es e))
    (hlen : ∀ es e, fits es e → LenFits cfg es e) (hnone : ∀ es e, RowFits cfg.feats cfg.maxSeq es e → fits es e) :
    Chooses cfg chooseBest (IsBestFit (usedCells cfg.feats) fits) Good := by
  refine { spec := ?_, fits := fun h => ⟨h.choose, h.choose_spec.1, hlen _ _ h.choose_spec.2.1⟩,
           none := fun h es hes hf => h es hes (hnone _ _ hf), first := ?_ }
  · intro rows a e hinv _ he
    obtain ⟨h1, h2, h3, _⟩ := hinv
    have hiff : ∀ (r : Nat) row es, rows[r]? = some row → a[r]? = some es →
        (bestFitRow cfg e row = true ↔ fits es e) :=
      fun r row es hr hes => (bestFitRow_iff ha (h3 r row es hr hes) (hG e he).1).trans (hfits es e he)
    have hrowOf : ∀ (r : Nat) es, a[r]? = some es → ∃ row, rows[r]? = some row := by
      intro r es hr
      have hrl := (List.getElem?_eq_some_iff.1 hr).1
      exact ⟨_, List.getElem?_eq_getElem (by omega)⟩
    unfold chooseBest
    by_cases hany : rows.any (bestFitRow cfg e) = true
    · rw [if_pos hany]
      rw [List.any_eq_true] at hany
      obtain ⟨row0, hmem, hb0⟩ := hany
      obtain ⟨r0, hr0⟩ := List.getElem?_of_mem hmem
      cases hc : argmax (rows.map (bestFitScore cfg e)) with
      | none =>
        have := argmax_none hc
        rw [List.map_eq_nil_iff] at this
        rw [this] at hmem
        cases hmem
      | some r =>
        obtain ⟨x, hx, hmax⟩ := argmax_spec hc
        rw [List.getElem?_map, Option.map_eq_some_iff] at hx
        obtain ⟨row, hrow, rfl⟩ := hx
        have hrl := (List.getElem?_eq_some_iff.1 hrow).1
        have hes : a[r]? = some (a[r]'(by omega)) := List.getElem?_eq_getElem _
        have hbr : bestFitRow cfg e row = true := by
          by_contra hno
          have := hmax r0 _ (by rw [List.getElem?_map, hr0]; rfl)
          simp only [bestFitScore, hb0, if_true, hno, if_false, Int.ofNat_eq_natCast] at this
          omega
        refine ⟨_, hes, (hiff r row _ hrow hes).1 hbr, ?_⟩
        intro r' es' hes' hf'
        obtain ⟨row', hrow'⟩ := hrowOf r' es' hes'
        have hb' := (hiff r' row' es' hrow' hes').2 hf'
        have := hmax r' _ (by rw [List.getElem?_map, hrow']; rfl)
        simp only [bestFitScore, hb', if_true, hbr] at this
        rw [(h3 r row _ hrow hes).used, (h3 r' row' es' hrow' hes').used] at this
        simp only [Int.ofNat_eq_natCast] at this
        omega
    · rw [if_neg hany]
      intro es hes hf
      obtain ⟨r, hr⟩ := List.getElem?_of_mem hes
      obtain ⟨row, hrow⟩ := hrowOf r es hr
      apply hany
      rw [List.any_eq_true]
      exact ⟨row, List.mem_of_getElem? hrow, (hiff r row es hrow hr).2 hf⟩
  · intro a e r h hr r' hlt hr'
    obtain ⟨es, hes, hf, hbest⟩ := h
    rw [hr] at hes
    cases hes
    rcases hbest r' [] hr' hf with h1 | ⟨_, h1⟩ <;> omega

/-- The rows of each batch, in the order of emission. -/
def batchOuts (pk : Packer E R) (order : Nat → List R → List Nat) : Nat → List (List E) → List (List R)
  | _, [] => []
  | c, g :: gs => emitBatch order c (rowsOf pk g) :: batchOuts pk order (c + (rowsOf pk g).length) gs

theorem batchOuts_flatten (pk : Packer E R) (order : Nat → List R → List Nat) (gs : List (List E)) :
    ∀ c, (batchOuts pk order c gs).flatten = packStream pk order c gs := by
  induction gs with
  | nil => intro c; rfl
  | cons g gs ih => intro c; simp [batchOuts, packStream, ih]

theorem batchOuts_length (pk : Packer E R) (order : Nat → List R → List Nat) (gs : List (List E)) :
    ∀ c, (batchOuts pk order c gs).length = gs.length := by
  induction gs with
  | nil => intro c; rfl
  | cons g gs ih => intro c; simp [batchOuts, ih]

theorem batchOuts_get (pk : Packer E R) (order : Nat → List R → List Nat) (gs : List (List E)) :
    ∀ c (i : Nat) g out, gs[i]? = some g → (batchOuts pk order c gs)[i]? = some out → ∃ c', out = emitBatch order c' (rowsOf pk g) := by
  induction gs with
  | nil => intro c i g out h; simp at h
  | cons g0 gs ih =>
    intro c i g out h1 h2
    cases i with
    | zero =>
      simp only [List.getElem?_cons_zero, Option.some.injEq, batchOuts] at h1 h2
      exact ⟨c, by rw [← h2, ← h1]⟩
    | succ i => exact ih _ i g out (by simpa using h1) (by simpa [batchOuts] using h2)

theorem emitBatch_id {order : Nat → List R → List Nat} (c : Nat) (rows : List R) (h : order c rows = List.range rows.length) :
    emitBatch order c rows = rows := by
  unfold emitBatch
  rw [h]
  obtain ⟨_, h2⟩ := filterMap_all_some (rows := rows) (List.range rows.length) (by simp)
  apply List.ext_getElem?
  intro r
  rw [h2]
  by_cases hr : r < rows.length
  · simp [hr]
  · simp [hr]

theorem rowOrder_isOrder (mode : ShuffleBins R) (perm : Nat → Nat → List Nat) (seed : Nat) (hperm : ∀ s n, (perm s n).Perm (List.range n)) :
    IsOrder (rowOrder mode perm seed) := by
  intro c rows
  cases mode with
  | off => exact List.Perm.refl _
  | on => exact hperm _ _
  | grouped κ avg lt => exact List.mergeSort_perm _ _

section main
variable {cfg : PkCfg τ} {choose : PkCfg τ → List (PkRow τ μ) → Ex τ μ → Option Nat} {ch : List (List (Ex τ μ)) → Ex τ μ → Option Nat → Prop}
  {Good : Ex τ μ → Prop}

theorem Groups.greedy (hch : Chooses cfg choose ch Good) (ha : ∀ fc ∈ cfg.feats, 0 < fc.align) (hbins : 0 < cfg.bins) {ended : Bool}
    {rest : List (Ex τ μ)} : ∀ (gs : List (List (Ex τ μ))), (∀ e ∈ gs.flatten ++ rest, FitsEmpty cfg.feats e ∧ Good e) →
    Groups (packerOf choose cfg) ended gs rest → GreedyCut ch cfg.bins ended gs rest := by
  intro gs
  induction gs with
  | nil => intro _ _; trivial
  | cons g gs ih =>
    rintro hgood ⟨hne, ⟨b, hb, hfin, hcl⟩, hrest⟩
    have hgs : ∀ e ∈ gs.flatten ++ rest, FitsEmpty cfg.feats e ∧ Good e := fun e he => hgood e (by
      rw [List.flatten_cons, List.append_assoc]; exact List.mem_append_right _ he)
    refine ⟨hne, ?_, ih hgs hrest⟩
    obtain ⟨a, hinv, hass, hga⟩ := addAll_inv hch ha hbins g (fun e he => hgood e (by simp [he])) b hb
    refine ⟨a, hass, ?_⟩
    cases hf : gs.flatten ++ rest with
    | nil => rw [hf] at hcl; exact hcl
    | cons e t =>
      rw [hf] at hcl hgs
      obtain ⟨hno, _⟩ := hcl
      obtain ⟨hfe, hge⟩ := hgs e (by simp)
      have ht : (packerOf choose cfg).tryAdd b e = _ := tryAdd_eq (choose := choose) hfe hinv.1 hbins
      rw [ht] at hno
      have hspec := hch.spec hinv hga hge
      cases hc : choose cfg b e with
      | none => rw [hc] at hspec; exact hspec
      | some r => rw [hc] at hno; cases hno

/-- The batches of a list of examples. -/
theorem packing_batches (hch : Chooses cfg choose ch Good) (ha : ∀ fc ∈ cfg.feats, 0 < fc.align) (hbins : 0 < cfg.bins) (hm : cfg.maxSeq ≠ some 0)
    {order : Nat → List (OutRow τ μ) → List Nat} (hord : IsOrder order) {es : List (Ex τ μ)} (ended : Bool)
    (hes : ∀ e ∈ es, FitsEmpty cfg.feats e ∧ Good e) :
    ∃ (gs : List (List (Ex τ μ))) (rest : List (Ex τ μ)), es = gs.flatten ++ rest ∧ (ended = true → rest = []) ∧ GreedyCut ch cfg.bins ended gs rest ∧
      Groups (packerOf choose cfg) ended gs rest ∧
      (∀ (i : Nat) g out, gs[i]? = some g → (batchOuts (packerOf choose cfg) order 0 gs)[i]? = some out →
        ∃ a rows, Assigned ch cfg.bins g a ∧ BatchHolds cfg.feats rows a ∧
        out.Perm rows ∧ ((∀ c rows, order c rows = List.range rows.length) → out = rows)) := by
  have hlt : ∀ a e r, ch a e (some r) → r < a.length := by
    intro a e r h
    obtain ⟨es, he, _⟩ := hch.fits h
    exact (List.getElem?_eq_some_iff.1 he).1
  have hfin : ∀ g b, g ≠ [] → (∀ e ∈ g, e ∈ es) → addAll (packerOf choose cfg) (packerOf choose cfg).new g = some b →
      (packerOf choose cfg).finish b ≠ [] := by
    intro g b hne hge hb
    obtain ⟨a, hinv, hass, _⟩ := addAll_inv hch ha hbins g (fun e he => hes e (hge e he)) b hb
    apply (hinv.holds ha).2
    by_contra hno
    push Not at hno
    have hperm := hass.perm hlt
    have : a.flatten = [] := by
      rw [List.flatten_eq_nil_iff]
      exact hno
    rw [this] at hperm
    exact hne (List.nil_perm.1 hperm)
  obtain ⟨gs, rest, h1, h2, h3⟩ := groups_exist (packerOf choose cfg) ended es
    (fun e he => new_fits hch hbins hm (hes e he).1 (hes e he).2)
    (by
      intro g b hge hb e he
      obtain ⟨a, hinv, _⟩ := addAll_inv hch ha hbins g (fun e he => hes e (hge e he)) b hb
      exact ⟨_, tryAdd_eq (choose := choose) (hes e he).1 hinv.1 hbins⟩)
    hfin
  refine ⟨gs, rest, h1, h3, ?_, h2, ?_⟩
  · exact h2.greedy hch ha hbins gs (by rw [← h1]; exact hes)
  · intro i g out hg hout
    obtain ⟨c', rfl⟩ := batchOuts_get _ _ _ _ i g out hg hout
    have hmem : ∀ e ∈ g, e ∈ es := by
      intro e he
      rw [h1]
      exact List.mem_append_left _ (List.mem_flatten.2 ⟨g, List.mem_of_getElem? hg, he⟩)
    obtain ⟨b, hb⟩ : ∃ b, addAll (packerOf choose cfg) (packerOf choose cfg).new g = some b := by
      have hil := (List.getElem?_eq_some_iff.1 hg).1
      have hsplit : gs = gs.take i ++ g :: gs.drop (i + 1) := by
        rw [← (List.getElem?_eq_some_iff.1 hg).2]; simp
      rw [hsplit] at h2
      obtain ⟨_, ⟨b, hb, _⟩, _⟩ := h2.drop
      exact ⟨b, hb⟩
    obtain ⟨a, hinv, hass, _⟩ := addAll_inv hch ha hbins g (fun e he => hes e (hmem e he)) b hb
    refine ⟨a, packedRows b, hass, (hinv.holds ha).1, ?_, ?_⟩
    · have hr : rowsOf (packerOf choose cfg) g = packedRows b := by simp only [rowsOf, hb]; rfl
      rw [← hr]
      exact emitBatch_perm hord _ _
    · intro hid
      have hr : rowsOf (packerOf choose cfg) g = packedRows b := by simp only [rowsOf, hb]; rfl
      rw [← hr]
      exact emitBatch_id _ _ (hid _ _)

theorem packing_main (hch : Chooses cfg choose ch Good) (ha : ∀ fc ∈ cfg.feats, 0 < fc.align) (hbins : 0 < cfg.bins) (hm : cfg.maxSeq ≠ some 0)
    {order : Nat → List (OutRow τ μ) → List Nat} (hord : IsOrder order) {p : Iter (Ex τ μ)} {es : List (Ex τ μ)} {ended : Bool}
    (hes : ∀ e ∈ es, FitsEmpty cfg.feats e ∧ Good e) (hp : Resumes p (es.map Except.ok) ended) :
    ∃ (gs : List (List (Ex τ μ))) (rest : List (Ex τ μ)) (outs : List (List (OutRow τ μ))), es = gs.flatten ++ rest ∧ (ended = true → rest = []) ∧ GreedyCut ch cfg.bins ended gs rest ∧
      outs.length = gs.length ∧
      (∀ (i : Nat) g out, gs[i]? = some g → outs[i]? = some out → ∃ a rows, Assigned ch cfg.bins g a ∧ BatchHolds cfg.feats rows a ∧
        out.Perm rows ∧ ((∀ c rows, order c rows = List.range rows.length) → out = rows)) ∧
      Resumes (packIter (packerOf choose cfg) order p) (outs.flatten.map Except.ok) ended := by
  obtain ⟨pAt, pCk, hsim⟩ := hp
  obtain ⟨gs, rest, h1, h2, h3, h4, h5⟩ := packing_batches hch ha hbins hm hord ended hes
  refine ⟨gs, rest, batchOuts (packerOf choose cfg) order 0 gs, h1, h2, h3, batchOuts_length _ _ _ _, h5, ?_⟩
  rw [batchOuts_flatten]
  exact ⟨_, _, packIter_sim hord hsim h1 h4⟩

end main

end Grain
