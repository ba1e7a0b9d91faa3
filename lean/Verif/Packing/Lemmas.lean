import Verif.Packing.Sim
import Mathlib.Data.List.Induction
/-
Rows of a batch: what they hold, and which row is chosen.
-/
namespace Grain

theorem zip3_getElem? {xs : List α} {ys : List β} {zs : List γ} (h1 : ys.length = xs.length) (h2 : zs.length = xs.length) (i : Nat) {t : α × β × γ} :
    (xs.zip (ys.zip zs))[i]? = some t ↔ xs[i]? = some t.1 ∧ ys[i]? = some t.2.1 ∧ zs[i]? = some t.2.2 := by
  rw [List.getElem?_zip_eq_some, List.getElem?_zip_eq_some]

theorem writeAt_length {l : List α} {start : Nat} {vals : List α} (h : start + vals.length ≤ l.length) :
    (writeAt l start vals).length = l.length := by
  simp only [writeAt, List.length_append, List.length_take, List.length_drop]
  omega

theorem writeAt_getElem? {l : List α} {start : Nat} {vals : List α} (h : start + vals.length ≤ l.length) (c : Nat) :
    (writeAt l start vals)[c]? = if start ≤ c ∧ c < start + vals.length then vals[c - start]? else l[c]? := by
  unfold writeAt
  by_cases h1 : c < start
  · rw [if_neg (by omega), List.append_assoc, List.getElem?_append_left (by simp; omega), List.getElem?_take, if_pos h1]
  · have hl : (l.take start).length = start := by simp; omega
    rw [List.append_assoc, List.getElem?_append_right (by omega), hl]
    by_cases h2 : c < start + vals.length
    · rw [if_pos ⟨by omega, h2⟩, List.getElem?_append_left (by omega)]
    · rw [if_neg (by omega), List.getElem?_append_right (by omega), List.getElem?_drop]
      congr 1
      omega

theorem roundUp_spec {x a : Nat} (ha : 0 < a) : x ≤ (x + a - 1) / a * a ∧ (x + a - 1) / a * a < x + a ∧ (x + a - 1) / a * a % a = 0 := by
  have h1 := Nat.div_add_mod (x + a - 1) a
  have h2 := Nat.mod_lt (x + a - 1) ha
  have h3 : (x + a - 1) / a * a = a * ((x + a - 1) / a) := Nat.mul_comm _ _
  refine ⟨by omega, by omega, by simp⟩

theorem endOf_append_singleton (align : Nat) (vals : List (List τ)) (v : List τ) :
    endOf align (vals ++ [v]) = (endOf align vals + v.length + align - 1) / align * align := by
  simp [endOf, List.foldl_append]

theorem endOf_append_ge {align : Nat} (ha : 0 < align) (vals vals' : List (List τ)) : endOf align vals ≤ endOf align (vals ++ vals') := by
  induction vals' using List.reverseRecOn with
  | nil => simp
  | append_singleton l v ih =>
    rw [← List.append_assoc, endOf_append_singleton]
    have := (roundUp_spec (x := endOf align (vals ++ l) + v.length) ha).1
    omega

/-- What one feature of a row holds. -/
def BufHolds (fc : FeatCfg τ) (fb : FeatBuf τ) (vals : List (List τ)) : Prop :=
  fb.free = endOf fc.align vals ∧ fb.cells.length = fc.cap ∧
  (∀ (j : Nat) v, vals[j]? = some v → endOf fc.align (vals.take j) + v.length ≤ fc.cap ∧
    ∀ (k : Nat) t, v[k]? = some t → fb.cells[endOf fc.align (vals.take j) + k]? = some { tok := t, seg := j + 1, pos := k }) ∧
  (∀ c, c < fc.cap → (∀ (j : Nat) v, vals[j]? = some v → ¬ (endOf fc.align (vals.take j) ≤ c ∧ c < endOf fc.align (vals.take j) + v.length)) →
    fb.cells[c]? = some { tok := fc.pad, seg := 0, pos := 0 })

theorem BufHolds.feat {fc : FeatCfg τ} {fb : FeatBuf τ} {vals : List (List τ)} (ha : 0 < fc.align) (h : BufHolds fc fb vals) :
    FeatHolds fc fb.cells vals := by
  obtain ⟨_, h2, h3, h4⟩ := h
  refine ⟨h2, fun j => endOf fc.align (vals.take j), rfl, ?_, h4⟩
  intro j v hv
  obtain ⟨a1, a2⟩ := h3 j v hv
  have ht : vals.take (j + 1) = vals.take j ++ [v] := by rw [List.take_add_one, hv]; rfl
  have := roundUp_spec (x := endOf fc.align (vals.take j) + v.length) ha
  refine ⟨a1, a2, ?_⟩
  simp only [ht, endOf_append_singleton]
  exact this

theorem BufHolds.add {fc : FeatCfg τ} {fb : FeatBuf τ} {vals : List (List τ)} {v : List τ} (ha : 0 < fc.align) (h : BufHolds fc fb vals)
    (hfit : v.length + fb.free ≤ fc.cap) : BufHolds fc (addFeat fc (vals.length + 1) fb v) (vals ++ [v]) := by
  obtain ⟨h1, h2, h3, h4⟩ := h
  have hw : fb.free + (v.mapIdx (fun k t => (⟨t, vals.length + 1, k⟩ : Cell τ))).length ≤ fb.cells.length := by simp; omega
  have hold : ∀ (j : Nat) w, vals[j]? = some w → endOf fc.align (vals.take j) + w.length ≤ fb.free := by
    intro j w hj
    have ht : vals.take (j + 1) = vals.take j ++ [w] := by rw [List.take_add_one, hj]; rfl
    have e1 := endOf_append_singleton fc.align (vals.take j) w
    have e2 := (roundUp_spec (x := endOf fc.align (vals.take j) + w.length) ha).1
    have e3 := endOf_append_ge ha (vals.take (j + 1)) (vals.drop (j + 1))
    rw [List.take_append_drop, ht] at e3
    omega
  refine ⟨?_, ?_, ?_, ?_⟩
  · rw [endOf_append_singleton, ← h1]; rfl
  · exact (writeAt_length hw).trans h2
  · intro j w hj
    by_cases hlt : j < vals.length
    · rw [List.getElem?_append_left hlt] at hj
      rw [List.take_append_of_le_length (by omega)]
      refine ⟨(h3 j w hj).1, ?_⟩
      intro k t hk
      have hkl : k < w.length := (List.getElem?_eq_some_iff.1 hk).1
      have := hold j w hj
      rw [← (h3 j w hj).2 k t hk]
      exact (writeAt_getElem? hw _).trans (if_neg (by omega))
    · have hjl : j = vals.length := by
        have := (List.getElem?_eq_some_iff.1 hj).1
        simp at this; omega
      subst hjl
      simp at hj
      subst hj
      rw [List.take_left', ← h1]
      · refine ⟨by omega, ?_⟩
        intro k t hk
        have hkl : k < v.length := (List.getElem?_eq_some_iff.1 hk).1
        refine (writeAt_getElem? hw _).trans ((if_pos ⟨by omega, by simp; omega⟩).trans ?_)
        rw [Nat.add_sub_cancel_left, List.getElem?_mapIdx, hk]
        rfl
      · rfl
  · intro c hc hnot
    have hn1 := hnot vals.length v (by simp)
    rw [List.take_left' rfl, ← h1] at hn1
    refine (writeAt_getElem? hw _).trans ((if_neg (by simp; omega)).trans (h4 c hc ?_))
    intro j w hj
    have hjl := (List.getElem?_eq_some_iff.1 hj).1
    have := hnot j w (by rw [List.getElem?_append_left hjl]; exact hj)
    rwa [List.take_append_of_le_length (by omega)] at this

theorem BufHolds.empty (fc : FeatCfg τ) : BufHolds fc { cells := List.replicate fc.cap { tok := fc.pad, seg := 0, pos := 0 }, free := 0 } [] := by
  refine ⟨rfl, by simp, by simp, ?_⟩
  intro c hc _
  simp [hc]

/-- What a row of a batch under construction holds. -/
def RowInv (cfg : PkCfg τ) (row : PkRow τ μ) (es : List (Ex τ μ)) : Prop :=
  row.num = es.length ∧ row.metas = es.map (·.info) ∧ row.feats.length = cfg.feats.length ∧
  (∀ (i : Nat) fc, cfg.feats[i]? = some fc → ∃ fb, row.feats[i]? = some fb ∧ BufHolds fc fb (es.map (·.feat i))) ∧
  (es = [] → row = emptyRow cfg)

theorem RowInv.empty (cfg : PkCfg τ) : RowInv cfg (emptyRow cfg : PkRow τ μ) [] := by
  refine ⟨rfl, rfl, by simp [emptyRow], ?_, fun _ => rfl⟩
  intro i fc hi
  exact ⟨_, by simp [emptyRow, hi], BufHolds.empty fc⟩

theorem Ex.feat_eq {e : Ex τ μ} {i : Nat} {v : List τ} (h : e.feats[i]? = some v) : e.feat i = v := by simp [Ex.feat, h]

/-- Enough cells for every feature. -/
def LenFits (cfg : PkCfg τ) (es : List (Ex τ μ)) (e : Ex τ μ) : Prop :=
  ∀ (i : Nat) fc, cfg.feats[i]? = some fc → endOf fc.align (es.map (·.feat i)) + (e.feat i).length ≤ fc.cap

theorem RowInv.zip_all {cfg : PkCfg τ} {row : PkRow τ μ} {es : List (Ex τ μ)} {e : Ex τ μ} (h : RowInv cfg row es)
    (he : e.feats.length = cfg.feats.length) (P : FeatCfg τ → Nat → Nat → Prop) [∀ a b c, Decidable (P a b c)] :
    (cfg.feats.zip (row.feats.zip e.feats)).all (fun x => decide (P x.1 x.2.1.free x.2.2.length)) = true ↔
    ∀ (i : Nat) fc, cfg.feats[i]? = some fc → P fc (endOf fc.align (es.map (·.feat i))) (e.feat i).length := by
  obtain ⟨_, _, h3, h4, _⟩ := h
  rw [List.all_eq_true]
  constructor
  · intro hall i fc hi
    obtain ⟨fb, hfb, hb⟩ := h4 i fc hi
    have hil := (List.getElem?_eq_some_iff.1 hi).1
    have hev : e.feats[i]? = some (e.feats[i]'(by omega)) := List.getElem?_eq_getElem _
    have hm := hall (fc, fb, _) (List.mem_of_getElem? ((zip3_getElem? h3 he i).2 ⟨hi, hfb, hev⟩))
    rw [Ex.feat_eq hev, ← hb.1]
    exact of_decide_eq_true hm
  · intro hall x hx
    obtain ⟨i, hi⟩ := List.getElem?_of_mem hx
    obtain ⟨a1, a2, a3⟩ := (zip3_getElem? h3 he i).1 hi
    obtain ⟨fb, hfb, hb⟩ := h4 i _ a1
    rw [a2] at hfb
    cases hfb
    have := hall i _ a1
    rw [Ex.feat_eq a3, ← hb.1] at this
    exact decide_eq_true this

theorem RowInv.add {cfg : PkCfg τ} {row : PkRow τ μ} {es : List (Ex τ μ)} {e : Ex τ μ} (ha : ∀ fc ∈ cfg.feats, 0 < fc.align) (h : RowInv cfg row es)
    (he : e.feats.length = cfg.feats.length) (hfit : LenFits cfg es e) : RowInv cfg (addToRow cfg e row) (es ++ [e]) := by
  obtain ⟨h1, h2, h3, h4, _⟩ := h
  refine ⟨by simp [addToRow, h1], by simp [addToRow, h2], by simp [addToRow, h3, he], ?_, fun hh => by simp at hh⟩
  intro i fc hi
  obtain ⟨fb, hfb, hb⟩ := h4 i fc hi
  have hil := (List.getElem?_eq_some_iff.1 hi).1
  have hev : e.feats[i]? = some (e.feats[i]'(by omega)) := List.getElem?_eq_getElem _
  have hz := (zip3_getElem? h3 he i (t := (fc, fb, e.feats[i]'(by omega)))).2 ⟨hi, hfb, hev⟩
  refine ⟨addFeat fc (row.num + 1) fb (e.feats[i]'(by omega)), by simp only [addToRow, List.getElem?_map, hz]; rfl, ?_⟩
  have hf := hfit i fc hi
  rw [Ex.feat_eq hev, ← hb.1] at hf
  have := hb.add (v := e.feats[i]'(by omega)) (ha fc (List.mem_of_getElem? hi)) (by omega)
  rw [List.length_map, ← h1] at this
  rw [List.map_append, List.map_singleton, Ex.feat_eq hev]
  exact this

theorem RowInv.holds {cfg : PkCfg τ} {row : PkRow τ μ} {es : List (Ex τ μ)} (ha : ∀ fc ∈ cfg.feats, 0 < fc.align) (h : RowInv cfg row es) :
    RowHolds cfg.feats { feats := row.feats.map (·.cells), metas := row.metas } es := by
  obtain ⟨_, h2, h3, h4, _⟩ := h
  refine ⟨by simp [h3], h2, ?_⟩
  intro i fc hi
  obtain ⟨fb, hfb, hb⟩ := h4 i fc hi
  exact ⟨fb.cells, by simp [hfb], hb.feat (ha fc (List.mem_of_getElem? hi))⟩

theorem RowInv.used {cfg : PkCfg τ} {row : PkRow τ μ} {es : List (Ex τ μ)} (h : RowInv cfg row es) :
    (row.feats.map (·.free)).sum = usedCells cfg.feats es := by
  obtain ⟨_, _, h3, h4, _⟩ := h
  unfold usedCells
  congr 1
  apply List.ext_getElem?
  intro i
  rw [List.getElem?_map, List.getElem?_mapIdx]
  cases hi : cfg.feats[i]? with
  | none =>
    have : row.feats[i]? = none := by
      rw [List.getElem?_eq_none_iff] at hi ⊢; omega
    rw [this]; rfl
  | some fc =>
    obtain ⟨fb, hfb, hb⟩ := h4 i fc hi
    rw [hfb]
    simp [hb.1]

/-- The rows of a batch under construction and the examples in them. -/
def BatchInv (cfg : PkCfg τ) (rows : List (PkRow τ μ)) (a : List (List (Ex τ μ))) : Prop :=
  rows.length = cfg.bins ∧ a.length = cfg.bins ∧
  (∀ (r : Nat) row es, rows[r]? = some row → a[r]? = some es → RowInv cfg row es) ∧
  (∀ (r r' : Nat) es es', r < r' → a[r]? = some es → a[r']? = some es' → es' ≠ [] → es ≠ [])

theorem BatchInv.new (cfg : PkCfg τ) : BatchInv cfg (newBatch cfg : List (PkRow τ μ)) (List.replicate cfg.bins []) := by
  refine ⟨by simp [newBatch], by simp, ?_, ?_⟩
  · intro r row es h1 h2
    simp only [newBatch, List.getElem?_replicate] at h1 h2
    split at h1
    · cases h1; rw [if_pos (by assumption)] at h2; cases h2; exact RowInv.empty cfg
    · cases h1
  · intro r r' es es' _ _ h2 h3
    rw [List.getElem?_replicate] at h2
    split at h2
    · cases h2; exact absurd rfl h3
    · cases h2

/-- What we need of the choice of a row. -/
structure Chooses (cfg : PkCfg τ) (choose : PkCfg τ → List (PkRow τ μ) → Ex τ μ → Option Nat) (ch : List (List (Ex τ μ)) → Ex τ μ → Option Nat → Prop)
    (Good : Ex τ μ → Prop) : Prop where
  spec : ∀ {rows a e}, BatchInv cfg rows a → (∀ es ∈ a, ∀ e ∈ es, Good e) → Good e → ch a e (choose cfg rows e)
  fits : ∀ {a e r}, ch a e (some r) → ∃ es, a[r]? = some es ∧ LenFits cfg es e
  none : ∀ {a e}, ch a e none → ∀ es ∈ a, ¬ RowFits cfg.feats cfg.maxSeq es e
  first : ∀ {a : List (List (Ex τ μ))} {e r}, ch a e (some r) → a[r]? = some [] → ∀ r' < r, a[r']? ≠ some []

theorem BatchInv.add {cfg : PkCfg τ} {rows : List (PkRow τ μ)} {a : List (List (Ex τ μ))} {e : Ex τ μ} {r : Nat}
    (ha : ∀ fc ∈ cfg.feats, 0 < fc.align) (h : BatchInv cfg rows a) (he : e.feats.length = cfg.feats.length)
    (hfit : ∃ es, a[r]? = some es ∧ LenFits cfg es e) (hfirst : a[r]? = some [] → ∀ r' < r, a[r']? ≠ some []) :
    BatchInv cfg (rows.modify r (addToRow cfg e)) (a.modify r (· ++ [e])) := by
  obtain ⟨h1, h2, h3, h4⟩ := h
  obtain ⟨es, hes, hf⟩ := hfit
  refine ⟨by simp [h1], by simp [h2], ?_, ?_⟩
  · intro q row es' hr hs
    rw [List.getElem?_modify] at hr hs
    by_cases hq : r = q
    · subst hq
      simp only [if_true, Option.map_eq_map, Option.map_eq_some_iff] at hr hs
      obtain ⟨row0, hr0, rfl⟩ := hr
      obtain ⟨es0, hs0, rfl⟩ := hs
      rw [hes] at hs0
      cases hs0
      exact (h3 r row0 es hr0 hes).add ha he hf
    · simp only [hq, if_false, Option.map_eq_map, id_eq, Option.map_id_fun'] at hr hs
      exact h3 q row es' hr hs
  · intro q q' s s' hlt hs hs' hne
    rw [List.getElem?_modify] at hs hs'
    by_cases hq : r = q
    · simp only [hq, if_true, Option.map_eq_map, Option.map_eq_some_iff] at hs
      obtain ⟨_, _, rfl⟩ := hs
      simp
    · simp only [hq, if_false, Option.map_eq_map, id_eq, Option.map_id_fun'] at hs
      by_cases hq' : r = q'
      · subst hq'
        rintro rfl
        by_cases hes0 : es = []
        · subst hes0
          exact hfirst hes q hlt hs
        · exact h4 q r [] es hlt hs hes hes0 rfl
      · simp only [hq', if_false, Option.map_eq_map, id_eq, Option.map_id_fun'] at hs'
        exact h4 q q' s s' hlt hs hs' hne

theorem tryAdd_eq {choose : PkCfg τ → List (PkRow τ μ) → Ex τ μ → Option Nat} {cfg : PkCfg τ} {rows : List (PkRow τ μ)} {e : Ex τ μ}
    (he : FitsEmpty cfg.feats e) (hrows : rows.length = cfg.bins) (hbins : 0 < cfg.bins) :
    tryAdd choose cfg rows e = .ok ((choose cfg rows e).map (fun r => rows.modify r (addToRow cfg e))) := by
  unfold tryAdd
  rw [if_neg (by simp [he.1]), if_neg]
  · cases choose cfg rows e with
    | none =>
      have : rows.isEmpty = false := by
        cases rows with
        | nil => simp at hrows; omega
        | cons _ _ => rfl
      simp [this]
    | some r => rfl
  · intro hany
    rw [List.any_eq_true] at hany
    obtain ⟨x, hx, hlt⟩ := hany
    obtain ⟨i, hi⟩ := List.getElem?_of_mem hx
    obtain ⟨a1, a2⟩ := List.getElem?_zip_eq_some.1 hi
    have := he.2 i _ _ a2 a1
    have := of_decide_eq_true hlt
    omega

/-- The packer of a choice. -/
def packerOf (choose : PkCfg τ → List (PkRow τ μ) → Ex τ μ → Option Nat) (cfg : PkCfg τ) : Packer (Ex τ μ) (OutRow τ μ) where
  B := List (PkRow τ μ)
  new := newBatch cfg
  tryAdd := tryAdd choose cfg
  finish := packedRows

section packer
variable {cfg : PkCfg τ} {choose : PkCfg τ → List (PkRow τ μ) → Ex τ μ → Option Nat} {ch : List (List (Ex τ μ)) → Ex τ μ → Option Nat → Prop}
  {Good : Ex τ μ → Prop}

theorem addAll_inv (hch : Chooses cfg choose ch Good) (ha : ∀ fc ∈ cfg.feats, 0 < fc.align) (hbins : 0 < cfg.bins) (g : List (Ex τ μ))
    (hg : ∀ e ∈ g, FitsEmpty cfg.feats e ∧ Good e) :
    ∀ b, addAll (packerOf choose cfg) (packerOf choose cfg).new g = some b →
      ∃ a, BatchInv cfg b a ∧ Assigned ch cfg.bins g a ∧ (∀ es ∈ a, ∀ e ∈ es, Good e) := by
  induction g using List.reverseRecOn with
  | nil =>
    intro b hb
    cases hb
    exact ⟨_, BatchInv.new cfg, .nil, by intro es hes e he; rw [(List.mem_replicate.1 hes).2] at he; cases he⟩
  | append_singleton g e ih =>
    intro b hb
    rw [addAll_append] at hb
    cases hb0 : addAll (packerOf choose cfg) (packerOf choose cfg).new g with
    | none => rw [hb0] at hb; cases hb
    | some b0 =>
      rw [hb0, Option.bind_some] at hb
      obtain ⟨a, hinv, hass, hgood⟩ := ih (fun x hx => hg x (by simp [hx])) b0 hb0
      obtain ⟨hfe, hge⟩ := hg e (by simp)
      have hspec := hch.spec hinv hgood hge
      have ht : (packerOf choose cfg).tryAdd b0 e = _ := tryAdd_eq (choose := choose) hfe hinv.1 hbins
      simp only [addAll, ht] at hb
      cases hc : choose cfg b0 e with
      | none => rw [hc] at hb; cases hb
      | some r =>
        rw [hc] at hb hspec
        simp only [Option.map_some] at hb
        cases hb
        refine ⟨_, hinv.add ha hfe.1 (hch.fits hspec) (hch.first hspec), hass.snoc hspec, ?_⟩
        intro es hes x hx
        obtain ⟨q, hq⟩ := List.getElem?_of_mem hes
        rw [List.getElem?_modify] at hq
        by_cases hrq : r = q
        · simp only [hrq, if_true, Option.map_eq_map, Option.map_eq_some_iff] at hq
          obtain ⟨es0, h0, rfl⟩ := hq
          rcases List.mem_append.1 hx with hx | hx
          · exact hgood es0 (List.mem_of_getElem? h0) x hx
          · simp at hx; subst hx; exact hge
        · simp only [hrq, if_false, Option.map_eq_map, id_eq, Option.map_id_fun'] at hq
          exact hgood es (List.mem_of_getElem? hq) x hx

/-- An example alone fits into an empty row. -/
theorem fitsEmpty_rowFits {e : Ex τ μ} (he : FitsEmpty cfg.feats e) (hm : cfg.maxSeq ≠ some 0) : RowFits cfg.feats cfg.maxSeq [] e := by
  refine ⟨?_, ?_⟩
  · intro m hmm
    rw [List.length_nil]
    rcases Nat.eq_zero_or_pos m with rfl | h
    · exact absurd hmm hm
    · exact h
  · intro i fc hi
    have hil := (List.getElem?_eq_some_iff.1 hi).1
    have hev : e.feats[i]? = some (e.feats[i]'(by have := he.1; omega)) := List.getElem?_eq_getElem _
    have := he.2 i _ _ hev hi
    rw [Ex.feat_eq hev]
    simpa [endOf] using this

theorem new_fits (hch : Chooses cfg choose ch Good) (hbins : 0 < cfg.bins) (hm : cfg.maxSeq ≠ some 0) {e : Ex τ μ} (he : FitsEmpty cfg.feats e)
    (hg : Good e) : ∃ b, (packerOf choose cfg).tryAdd (packerOf choose cfg).new e = .ok (some b) := by
  have hinv := BatchInv.new (μ := μ) cfg
  have ht : (packerOf choose cfg).tryAdd (packerOf choose cfg).new e = _ := tryAdd_eq (choose := choose) he hinv.1 hbins
  have hspec := hch.spec hinv (by intro es hes e he; rw [(List.mem_replicate.1 hes).2] at he; cases he) hg
  rw [ht]
  cases hc : choose cfg (newBatch cfg) e with
  | some r => exact ⟨_, by rw [show choose cfg (packerOf choose cfg).new e = some r from hc]; rfl⟩
  | none =>
    rw [hc] at hspec
    exact absurd (fitsEmpty_rowFits he hm) (hch.none hspec [] (List.mem_replicate.2 ⟨by omega, rfl⟩))

theorem filter_length_prefix : ∀ (rows : List (PkRow τ μ)) (m : Nat), m ≤ rows.length →
    (∀ (r : Nat) row, rows[r]? = some row → (0 < row.num ↔ r < m)) → (rows.filter (fun r => r.num > 0)).length = m := by
  intro rows
  induction rows with
  | nil => intro m hm _; simp at hm; simp [hm]
  | cons row rows ih =>
    intro m hm h
    cases m with
    | zero =>
      have h0 : ¬ 0 < row.num := fun hh => by simpa using (h 0 row rfl).1 hh
      rw [List.filter_cons, if_neg (by simpa using h0)]
      exact ih 0 (by omega) (fun r row' hr => ⟨fun hh => by simpa using (h (r + 1) row' hr).1 hh, fun hh => by omega⟩)
    | succ m =>
      have h0 : 0 < row.num := (h 0 row rfl).2 (by omega)
      rw [List.filter_cons, if_pos (by simpa using h0), List.length_cons]
      rw [ih m (by simp at hm; omega) (fun r row' hr => by have := h (r + 1) row' hr; omega)]

/-- Examples in a prefix of the rows. -/
theorem prefix_split : ∀ (a : List (List X)), (∀ (r r' : Nat) es es', r < r' → a[r]? = some es → a[r']? = some es' → es' ≠ [] → es ≠ []) →
    ∃ used k, a = used ++ List.replicate k [] ∧ ∀ es ∈ used, es ≠ [] := by
  intro a
  induction a with
  | nil => intro _; exact ⟨[], 0, rfl, by simp⟩
  | cons x a ih =>
    intro h
    by_cases hx : x = []
    · refine ⟨[], a.length + 1, ?_, by simp⟩
      subst hx
      rw [List.nil_append, List.replicate_succ]
      congr 1
      apply List.eq_replicate_of_mem
      intro es hes
      obtain ⟨i, hi⟩ := List.getElem?_of_mem hes
      by_contra hne
      exact h 0 (i + 1) [] es (by omega) rfl hi hne rfl
    · obtain ⟨used, k, h1, h2⟩ := ih (fun r r' es es' hlt h1 h2 => h (r + 1) (r' + 1) es es' (by omega) h1 h2)
      exact ⟨x :: used, k, by rw [h1]; rfl, by intro es hes; rcases List.mem_cons.1 hes with rfl | hes; exacts [hx, h2 es hes]⟩

theorem BatchInv.holds (ha : ∀ fc ∈ cfg.feats, 0 < fc.align) {rows : List (PkRow τ μ)} {a : List (List (Ex τ μ))} (h : BatchInv cfg rows a) :
    BatchHolds cfg.feats (packedRows rows) a ∧ ((∃ es ∈ a, es ≠ []) → packedRows rows ≠ []) := by
  obtain ⟨h1, h2, h3, h4⟩ := h
  obtain ⟨used, k, hu, hne⟩ := prefix_split a h4
  have hul : used.length ≤ rows.length := by
    rw [h1, ← h2, hu]; simp
  have hcount : (rows.filter (fun r => r.num > 0)).length = used.length := by
    apply filter_length_prefix rows used.length hul
    intro r row hr
    have hrl := (List.getElem?_eq_some_iff.1 hr).1
    have hes : a[r]? = some (a[r]'(by omega)) := List.getElem?_eq_getElem _
    have hnum := (h3 r row _ hr hes).1
    by_cases hlt : r < used.length
    · have : a[r]'(by omega) ∈ used := by
        have hx := hes
        conv at hx => lhs; rw [hu]
        rw [List.getElem?_append_left hlt] at hx
        exact List.mem_of_getElem? hx
      have := List.length_pos_iff.2 (hne _ this)
      omega
    · have : a[r]'(by omega) = [] := by
        have hx := hes
        conv at hx => lhs; rw [hu]
        rw [List.getElem?_append_right (by omega), List.getElem?_replicate] at hx
        split at hx
        · exact (Option.some.inj hx).symm
        · cases hx
      rw [this] at hnum
      simp at hnum
      omega
  have hlen : (packedRows rows).length = used.length := by
    simp only [packedRows, List.length_map, List.length_take, hcount]
    omega
  refine ⟨⟨used, k, hu, hlen, ?_⟩, ?_⟩
  · intro r row es hr hes
    have hlt := (List.getElem?_eq_some_iff.1 hes).1
    refine ⟨hne es (List.mem_of_getElem? hes), ?_⟩
    simp only [packedRows, hcount, List.getElem?_map, List.getElem?_take, if_pos hlt, Option.map_eq_some_iff] at hr
    obtain ⟨row0, hr0, rfl⟩ := hr
    exact (h3 r row0 es hr0 (by rw [hu, List.getElem?_append_left hlt]; exact hes)).holds ha
  · rintro ⟨es, hes, hne0⟩ hnil
    rw [hnil] at hlen
    have : used = [] := List.length_eq_zero_iff.1 hlen.symm
    rw [hu, this, List.nil_append] at hes
    exact hne0 (List.mem_replicate.1 hes).2

end packer

theorem Assigned.perm {X : Type} {ch : List (List X) → X → Option Nat → Prop} {bins : Nat} {g : List X} {a : List (List X)}
    (hch : ∀ a e r, ch a e (some r) → r < a.length) (h : Assigned ch bins g a) : a.flatten.Perm g := by
  induction h with
  | nil =>
    rw [show (List.replicate bins ([] : List X)).flatten = [] by simp]
  | @snoc g a e r h1 h2 ih =>
    have hr := hch _ _ _ h2
    have hmod : a.modify r (· ++ [e]) = a.take r ++ (a[r] ++ [e]) :: a.drop (r + 1) := by
      rw [List.modify_eq_take_cons_drop hr]
    have hsplit : a = a.take r ++ a[r] :: a.drop (r + 1) := by simp
    rw [hmod]
    have h3 : (a.take r ++ (a[r] ++ [e]) :: a.drop (r + 1)).flatten = (a.take r).flatten ++ (a[r] ++ ([e] ++ (a.drop (r + 1)).flatten)) := by simp
    have h4 : a.flatten = (a.take r).flatten ++ (a[r] ++ (a.drop (r + 1)).flatten) := by
      have h8 := congrArg List.flatten hsplit
      rw [List.flatten_append, List.flatten_cons] at h8
      exact h8
    rw [h3]
    have h5 : ((a.take r).flatten ++ (a[r] ++ ([e] ++ (a.drop (r + 1)).flatten))).Perm (a.flatten ++ [e]) := by
      rw [h4]
      have h6 : ((a.drop (r + 1)).flatten ++ [e]).Perm ([e] ++ (a.drop (r + 1)).flatten) := List.perm_append_comm
      have h7 := ((h6.append_left a[r]).append_left (a.take r).flatten).symm
      simpa [List.append_assoc] using h7
    exact h5.trans (ih.append_right [e])

theorem Assigned.length {X : Type} {ch : List (List X) → X → Option Nat → Prop} {bins : Nat} {g : List X} {a : List (List X)}
    (h : Assigned ch bins g a) : a.length = bins := by
  induction h with
  | nil => simp
  | snoc _ _ ih => simpa using ih

theorem Assigned.sublist {X : Type} {ch : List (List X) → X → Option Nat → Prop} {bins : Nat} {g : List X} {a : List (List X)}
    (h : Assigned ch bins g a) : ∀ es ∈ a, es.Sublist g := by
  induction h with
  | nil => intro es hes; rw [(List.mem_replicate.1 hes).2]; exact List.nil_sublist _
  | @snoc g a e r h1 h2 ih =>
    intro es hes
    obtain ⟨q, hq⟩ := List.getElem?_of_mem hes
    rw [List.getElem?_modify] at hq
    by_cases hrq : r = q
    · simp only [hrq, if_true, Option.map_eq_map, Option.map_eq_some_iff] at hq
      obtain ⟨es0, h0, rfl⟩ := hq
      exact (ih es0 (List.mem_of_getElem? h0)).append (List.Sublist.refl _)
    · simp only [hrq, if_false, Option.map_eq_map, id_eq, Option.map_id_fun'] at hq
      exact (ih es (List.mem_of_getElem? hq)).trans (List.sublist_append_left _ _)

end Grain
