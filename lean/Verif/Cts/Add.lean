import Verif.Cts.Sim
/-
What adding an element to the buffer does (`maybeAdd`), in terms of tokens.
-/
namespace Grain

variable {τ : Type}

/-- `b` is what is left of its element after `off k` tokens of feature `k` have been used. -/
def RemAt (cfg : CtsCfg τ) (b : CtsBody τ) (off : Nat → Nat) : Prop :=
  b.vals.length = cfg.feats.length ∧ b.slices.length = cfg.feats.length ∧
  ∀ (k : Nat) f v, cfg.feats[k]? = some f → b.vals[k]? = some v →
    (f.isMeta = true → b.slices[k]? = some none) ∧
    (f.isMeta = false → v.scalar = false ∧ off k ≤ v.toks.length ∧ ∃ s, b.slices[k]? = some (some s) ∧
      (s = emptySlice ∧ off k = 0 ∨ s.start = off k ∧ s.stop = v.toks.length))

/-- The tokens of feature `k` that are left. -/
def leftToks (f : CtsFeat τ) (v : CtsVal τ) (off : Nat) : List τ := if f.isMeta then v.toks else v.toks.drop off

theorem pySub_nat (l : List α) (i j : Nat) : pySub l i j = (l.take j).drop i := by
  unfold pySub
  simp only []
  rw [if_neg (by omega), if_neg (by omega)]
  have h1 : (min (j : Int) (l.length : Int)).toNat = min j l.length := by omega
  have h2 : (min (i : Int) (l.length : Int)).toNat = min i l.length := by omega
  rw [h1, h2]
  rw [show l.take (min j l.length) = l.take j by
    rcases Nat.le_total j l.length with h | h
    · rw [Nat.min_eq_left h]
    · rw [Nat.min_eq_right h, List.take_of_length_le (Nat.le_refl _), List.take_of_length_le h]]
  rcases Nat.le_total i l.length with h | h
  · rw [Nat.min_eq_left h]
  · rw [Nat.min_eq_right h, List.drop_eq_nil_of_le (by simp; omega), List.drop_eq_nil_of_le (by simp; omega)]

theorem RemAt.cur {cfg : CtsCfg τ} {b : CtsBody τ} {off : Nat → Nat} (h : RemAt cfg b off) {k : Nat} {f : CtsFeat τ} {v : CtsVal τ}
    (hf : cfg.feats[k]? = some f) (hv : b.vals[k]? = some v) : b.cur[k]? = some (leftToks f v (off k)) := by
  obtain ⟨hlv, hls, hk⟩ := h
  obtain ⟨hm, hn⟩ := hk k f v hf hv
  unfold CtsBody.cur leftToks
  rw [List.getElem?_zipWith, hv]
  cases hmeta : f.isMeta with
  | true =>
    rw [hm hmeta]
    simp [sliceVal]
  | false =>
    obtain ⟨hsc, hoff, s, hs, hcase⟩ := hn hmeta
    rw [hs]
    simp only [sliceVal, hsc, Bool.false_eq_true, if_false]
    rcases hcase with ⟨h1, h2⟩ | ⟨h1, h2⟩
    · simp [h1, h2]
    · have hne : s ≠ emptySlice := by
        intro hh; rw [hh] at h1; simp only [emptySlice] at h1; omega
      rw [if_neg hne, h1, h2, pySub_nat, List.take_of_length_le (Nat.le_refl _)]

theorem RemAt.cur_length {cfg : CtsCfg τ} {b : CtsBody τ} {off : Nat → Nat} (h : RemAt cfg b off) : b.cur.length = cfg.feats.length := by
  simp [CtsBody.cur, h.1, h.2.1]

theorem RemAt.fresh {cfg : CtsCfg τ} {vals : List (CtsVal τ)} (hl : vals.length = cfg.feats.length)
    (hs : ∀ (k : Nat) f v, cfg.feats[k]? = some f → vals[k]? = some v → f.isMeta = false → v.scalar = false) :
    RemAt cfg ⟨vals, emptySlices cfg⟩ (fun _ => 0) := by
  refine ⟨hl, by simp [emptySlices], ?_⟩
  intro k f v hf hv
  simp only [emptySlices, List.getElem?_map, hf, Option.map_some]
  refine ⟨fun h => by simp [h], fun h => ⟨hs k f v hf hv h, by omega, emptySlice, by simp [h], Or.inl (by simp)⟩⟩

theorem fresh_cur {cfg : CtsCfg τ} {vals : List (CtsVal τ)} (hl : vals.length = cfg.feats.length) :
    (CtsBody.mk vals (emptySlices cfg)).cur = vals.map (·.toks) := by
  unfold CtsBody.cur
  apply List.ext_getElem?
  intro k
  rw [List.getElem?_zipWith, List.getElem?_map]
  simp only []
  by_cases hk : k < vals.length
  · rw [List.getElem?_eq_getElem hk]
    simp only [emptySlices, List.getElem?_map, List.getElem?_eq_getElem (show k < cfg.feats.length by omega), Option.map_some]
    split <;> simp [sliceVal]
  · rw [List.getElem?_eq_none (by omega)]; rfl

/-- Feature `k` does not fit after `t` tokens. -/
def exceeds (f : CtsFeat τ) (c : List τ) (t : Nat) : Prop := f.len - t < c.length

instance (f : CtsFeat τ) (c : List τ) (t : Nat) : Decidable (exceeds f c t) := inferInstanceAs (Decidable (_ < _))

theorem zip3_any {cfg : CtsCfg τ} {cur : List (List τ)} {tokens : List Nat} (_ : cur.length = cfg.feats.length) (_ : tokens.length = cfg.feats.length)
    (P : CtsFeat τ × List τ × Nat → Bool) :
    (cfg.feats.zip (cur.zip tokens)).any P = true ↔ ∃ (k : Nat) (f : CtsFeat τ) (c : List τ) (t : Nat), cfg.feats[k]? = some f ∧ cur[k]? = some c ∧ tokens[k]? = some t ∧ P (f, c, t) = true := by
  rw [List.any_eq_true]
  constructor
  · rintro ⟨⟨f, c, t⟩, hx, hp⟩
    obtain ⟨k, hk⟩ := List.getElem?_of_mem hx
    rw [List.getElem?_zip_eq_some] at hk
    simp only at hk
    rw [List.getElem?_zip_eq_some] at hk
    exact ⟨k, f, c, t, hk.1, hk.2.1, hk.2.2, hp⟩
  · rintro ⟨k, f, c, t, hf, hcc, htt, hp⟩
    refine ⟨(f, c, t), ?_, hp⟩
    apply List.mem_of_getElem? (i := k)
    rw [List.getElem?_zip_eq_some]
    refine ⟨hf, ?_⟩
    rw [List.getElem?_zip_eq_some]
    exact ⟨hcc, htt⟩

/-- The result of adding: refused because of a meta feature, added, nothing left to add, or split. -/
inductive AddCase (cfg : CtsCfg τ) (b : CtsBody τ) (off : Nat → Nat) (buffer : List (CtsBody τ)) (tokens : List Nat) : Prop
  | refused (k : Nat) (f : CtsFeat τ) (v : CtsVal τ) (t : Nat) (hf : cfg.feats[k]? = some f) (hv : b.vals[k]? = some v) (ht : tokens[k]? = some t)
      (hm : f.isMeta = true) (hx : f.len < t + v.toks.length) (heq : maybeAdd cfg b buffer tokens = (some b, buffer, tokens))
  | added (tokens' : List Nat)
      (hfit : ∀ (k : Nat) f v t, cfg.feats[k]? = some f → b.vals[k]? = some v → tokens[k]? = some t →
        t + (leftToks f v (off k)).length ≤ f.len ∧ tokens'[k]? = some (t + (leftToks f v (off k)).length))
      (hlen : tokens'.length = cfg.feats.length)
      (heq : maybeAdd cfg b buffer tokens = (none, buffer ++ [b], tokens'))
  | full (k : Nat) (f : CtsFeat τ) (hf : cfg.feats[k]? = some f) (ht : tokens[k]? = some f.len) (hm : f.isMeta = false)
      (tokens' : List Nat) (heq : maybeAdd cfg b buffer tokens = (some b, buffer, tokens'))
  | split (l r : CtsBody τ) (off' : Nat → Nat) (tokens' : List Nat) (heq : maybeAdd cfg b buffer tokens = (some r, buffer ++ [l], tokens'))
      (hr : RemAt cfg r off') (hrv : r.vals = b.vals) (hll : l.cur.length = cfg.feats.length)
      (hmeta : ∀ (k : Nat) f v t, cfg.feats[k]? = some f → b.vals[k]? = some v → tokens[k]? = some t → f.isMeta = true →
        t + v.toks.length ≤ f.len ∧ l.cur[k]? = some v.toks)
      (hpart : ∀ (k : Nat) f v t, cfg.feats[k]? = some f → b.vals[k]? = some v → tokens[k]? = some t → f.isMeta = false →
        off' k = off k + min (v.toks.length - off k) (f.len - t) ∧ l.cur[k]? = some ((v.toks.drop (off k)).take (f.len - t)))
      (hfull : ∃ (k : Nat) (f : CtsFeat τ) (v : CtsVal τ) (t : Nat), cfg.feats[k]? = some f ∧ b.vals[k]? = some v ∧ tokens[k]? = some t ∧ f.isMeta = false ∧
        f.len < t + (v.toks.length - off k))
      (hpos : ∃ (k : Nat) (f : CtsFeat τ) (v : CtsVal τ), cfg.feats[k]? = some f ∧ b.vals[k]? = some v ∧ f.isMeta = false ∧ 0 < off' k)

theorem maybeAdd_cases (cfg : CtsCfg τ) {b : CtsBody τ} {off : Nat → Nat} (h : RemAt cfg b off) (buffer : List (CtsBody τ)) {tokens : List Nat}
    (htl : tokens.length = cfg.feats.length) (hroom : ∀ (k : Nat) f t, cfg.feats[k]? = some f → tokens[k]? = some t → t ≤ f.len)
    (hgood : ∀ (k : Nat) f v t, cfg.feats[k]? = some f → b.vals[k]? = some v → tokens[k]? = some t → f.isMeta = false → off k = 0 ∨
      ((∃ (k : Nat) (f : CtsFeat τ) (v : CtsVal τ) (t : Nat), cfg.feats[k]? = some f ∧ b.vals[k]? = some v ∧ tokens[k]? = some t ∧ f.isMeta = false ∧
        f.len < t + (v.toks.length - off k)) → f.len < t + (v.toks.length - off k))) :
    AddCase cfg b off buffer tokens := by
  have hcl := h.cur_length
  obtain ⟨hlv, hls, hk⟩ := id h
  -- everything at index k
  have hat : ∀ (k : Nat) f, cfg.feats[k]? = some f → ∃ v t, b.vals[k]? = some v ∧ tokens[k]? = some t ∧ b.cur[k]? = some (leftToks f v (off k)) ∧ t ≤ f.len := by
    intro k f hf
    have hkl : k < cfg.feats.length := (List.getElem?_eq_some_iff.1 hf).1
    refine ⟨b.vals[k]'(by omega), tokens[k]'(by omega), List.getElem?_eq_getElem _, List.getElem?_eq_getElem _, ?_, ?_⟩
    · exact h.cur hf (List.getElem?_eq_getElem _)
    · exact hroom k f _ hf (List.getElem?_eq_getElem _)
  let z := cfg.feats.zip (b.cur.zip tokens)
  have hz : ∀ (k : Nat) f v t, cfg.feats[k]? = some f → b.vals[k]? = some v → tokens[k]? = some t → z[k]? = some (f, leftToks f v (off k), t) := by
    intro k f v t hf hv ht
    rw [List.getElem?_zip_eq_some]
    refine ⟨hf, ?_⟩
    rw [List.getElem?_zip_eq_some]
    exact ⟨h.cur hf hv, ht⟩
  have hzl : z.length = cfg.feats.length := by simp [z, hcl, htl]
  by_cases hA : z.any (fun x => x.1.isMeta && decide (x.2.1.length > x.1.len - x.2.2)) = true
  · have heq : maybeAdd cfg b buffer tokens = (some b, buffer, tokens) := by
      unfold maybeAdd
      simp only []
      rw [if_pos hA]
    rw [zip3_any hcl htl] at hA
    obtain ⟨k, f, c, t, hf, hc, ht, hP⟩ := hA
    obtain ⟨v, t', hv, ht', hc', hle⟩ := hat k f hf
    rw [ht] at ht'; cases ht'
    rw [hc] at hc'; cases hc'
    simp only [Bool.and_eq_true, decide_eq_true_eq] at hP
    have : leftToks f v (off k) = v.toks := by simp [leftToks, hP.1]
    rw [this] at hP
    exact .refused k f v t hf hv ht hP.1 (by omega) heq
  · have hmeta : ∀ (k : Nat) f v t, cfg.feats[k]? = some f → b.vals[k]? = some v → tokens[k]? = some t → f.isMeta = true → t + v.toks.length ≤ f.len := by
      intro k f v t hf hv ht hm
      by_contra hcon
      apply hA
      rw [zip3_any hcl htl]
      refine ⟨k, f, _, t, hf, h.cur hf hv, ht, ?_⟩
      have := hroom k f t hf ht
      simp only [hm, Bool.true_and, decide_eq_true_eq, leftToks, if_true]
      omega
    by_cases hB : z.any (fun x => !x.1.isMeta && decide (x.2.1.length > x.1.len - x.2.2)) = true
    · have hB' := hB
      rw [zip3_any hcl htl] at hB'
      obtain ⟨k0, f0, c0, t0, hf0, hc0, ht0, hP0⟩ := hB'
      obtain ⟨v0, t', hv0, ht', hc', hle0⟩ := hat k0 f0 hf0
      rw [ht0] at ht'; cases ht'
      rw [hc0] at hc'; cases hc'
      simp only [Bool.and_eq_true, Bool.not_eq_true', decide_eq_true_eq] at hP0
      obtain ⟨hm0, hx0⟩ := hP0
      have hlt0 : leftToks f0 v0 (off k0) = v0.toks.drop (off k0) := by simp [leftToks, hm0]
      rw [hlt0, List.length_drop] at hx0
      have hfull : ∃ (k : Nat) (f : CtsFeat τ) (v : CtsVal τ) (t : Nat), cfg.feats[k]? = some f ∧ b.vals[k]? = some v ∧ tokens[k]? = some t ∧ f.isMeta = false ∧
        f.len < t + (v.toks.length - off k) := ⟨k0, f0, v0, t0, hf0, hv0, ht0, hm0, by omega⟩
      let points := (z.zip b.slices).map (fun x => splitPoint x.1.1 x.1.2.1 x.2 x.1.2.2)
      have hpl : points.length = cfg.feats.length := by simp [points, hzl, hls]
      -- the split points
      have hpt : ∀ (k : Nat) f v t, cfg.feats[k]? = some f → b.vals[k]? = some v → tokens[k]? = some t →
          (f.isMeta = true → points[k]? = some none) ∧
          (f.isMeta = false → points[k]? = some (some ((off k + min (v.toks.length - off k) (f.len - t) : Nat) : Int))) := by
        intro k f v t hf hv ht
        obtain ⟨hkm, hkn⟩ := hk k f v hf hv
        have hkl : k < cfg.feats.length := (List.getElem?_eq_some_iff.1 hf).1
        have hsl : b.slices[k]? = some (b.slices[k]'(by omega)) := List.getElem?_eq_getElem _
        have hp : points[k]? = some (splitPoint f (leftToks f v (off k)) (b.slices[k]'(by omega)) t) := by
          simp only [points, List.getElem?_map]
          rw [show (z.zip b.slices)[k]? = some ((f, leftToks f v (off k), t), b.slices[k]'(by omega)) by
            rw [List.getElem?_zip_eq_some]; exact ⟨hz k f v t hf hv ht, hsl⟩]
          rfl
        rw [hp]
        refine ⟨fun hm => by simp [splitPoint, hm], fun hm => ?_⟩
        obtain ⟨hsc, hoff, s, hs, hcase⟩ := hkn hm
        rw [hsl] at hs
        have hs' := Option.some.inj hs
        rw [hs']
        have hlt : leftToks f v (off k) = v.toks.drop (off k) := by simp [leftToks, hm]
        have htf := hroom k f t hf ht
        rw [hlt]
        unfold splitPoint
        rw [if_neg (by simp [hm])]
        rw [List.length_drop]
        have hg := hgood k f v t hf hv ht hm
        split
        · rename_i hx
          have : (if s = emptySlice then (0 : Int) else s.start) = (off k : Int) := by
            rcases hcase with ⟨h1, h2⟩ | ⟨h1, h2⟩
            · simp [h1, h2]
            · have hne : s ≠ emptySlice := by
                intro hh; rw [hh] at h1; simp only [emptySlice] at h1; omega
              rw [if_neg hne, h1]
          simp only [this]
          rw [Option.some.injEq, Option.some.injEq]
          omega
        · rename_i hx
          congr 2
          rcases hg with hg | hg
          · omega
          · have := hg hfull
            omega
      by_cases hall : points.all (fun p => decide (p = none ∨ p = some 0)) = true
      · have heq : maybeAdd cfg b buffer tokens = (some b, buffer, z.map (fun x => x.2.2 + min x.2.1.length (x.1.len - x.2.2))) := by
          unfold maybeAdd
          simp only []
          rw [if_neg hA, if_pos hB]
          have : splitBody b points = (none, b) := by unfold splitBody; rw [if_pos hall]
          simp only [z, points] at this
          rw [this]
        have h0 := (hpt k0 f0 v0 t0 hf0 hv0 ht0).2 hm0
        have h1 := List.all_eq_true.1 hall _ (List.mem_of_getElem? h0)
        simp only [reduceCtorEq, Option.some.injEq, false_or, decide_eq_true_eq] at h1
        refine .full k0 f0 hf0 ?_ hm0 _ heq
        rw [ht0]
        congr 1
        obtain ⟨_, hoff0, _⟩ := (hk k0 f0 v0 hf0 hv0).2 hm0
        omega
      · let both := (b.vals.zip (b.slices.zip points)).map (fun x => splitOne x.1 x.2.1 x.2.2)
        have heq : maybeAdd cfg b buffer tokens = (some { b with slices := both.map (·.2) }, buffer ++ [{ b with slices := both.map (·.1) }],
            z.map (fun x => x.2.2 + min x.2.1.length (x.1.len - x.2.2))) := by
          unfold maybeAdd
          simp only []
          rw [if_neg hA, if_pos hB]
          have : splitBody b points = (some { b with slices := both.map (·.1) }, { b with slices := both.map (·.2) }) := by unfold splitBody; rw [if_neg hall]
          simp only [z, points] at this
          rw [this]
        have hbl : both.length = cfg.feats.length := by simp [both, hlv, hls, hpl]
        have hboth : ∀ (k : Nat) f v t, cfg.feats[k]? = some f → b.vals[k]? = some v → tokens[k]? = some t →
            (f.isMeta = true → both[k]? = some (none, none)) ∧
            (f.isMeta = false → both[k]? = some (some { isList := false, start := off k, stop := ((off k + min (v.toks.length - off k) (f.len - t) : Nat) : Int) },
              some { isList := false, start := ((off k + min (v.toks.length - off k) (f.len - t) : Nat) : Int), stop := v.toks.length })) := by
          intro k f v t hf hv ht
          obtain ⟨hkm, hkn⟩ := hk k f v hf hv
          have hkl : k < cfg.feats.length := (List.getElem?_eq_some_iff.1 hf).1
          obtain ⟨hp1, hp2⟩ := hpt k f v t hf hv ht
          refine ⟨fun hm => ?_, fun hm => ?_⟩
          · simp only [both, List.getElem?_map]
            rw [show (b.vals.zip (b.slices.zip points))[k]? = some (v, none, none) by
              rw [List.getElem?_zip_eq_some]; refine ⟨hv, ?_⟩
              rw [List.getElem?_zip_eq_some]; exact ⟨hkm hm, hp1 hm⟩]
            rfl
          · obtain ⟨hsc, hoff, s, hs, hcase⟩ := hkn hm
            simp only [both, List.getElem?_map]
            rw [show (b.vals.zip (b.slices.zip points))[k]? = some (v, some s, some ((off k + min (v.toks.length - off k) (f.len - t) : Nat) : Int)) by
              rw [List.getElem?_zip_eq_some]; refine ⟨hv, ?_⟩
              rw [List.getElem?_zip_eq_some]; exact ⟨hs, hp2 hm⟩]
            simp only [Option.map_some, splitOne]
            rcases hcase with ⟨h1, h2⟩ | ⟨h1, h2⟩
            · simp [h1, h2]
            · have hne : s ≠ emptySlice := by
                intro hh; rw [hh] at h1; simp only [emptySlice] at h1; omega
              simp [hne, h1, h2]
        refine .split _ _ (fun k =>
            match cfg.feats[k]?, b.vals[k]?, tokens[k]? with
            | some f, some v, some t => off k + min (v.toks.length - off k) (f.len - t)
            | _, _, _ => 0) _ heq ?_ rfl ?_ ?_ ?_ hfull ?_
        · refine ⟨hlv, by simp [hbl], ?_⟩
          intro k f v hf hv
          obtain ⟨v', t, hv', ht, _, htf⟩ := hat k f hf
          rw [hv] at hv'; cases hv'
          obtain ⟨hb1, hb2⟩ := hboth k f v t hf hv ht
          refine ⟨fun hm => by simp [hb1 hm], fun hm => ?_⟩
          obtain ⟨hsc, hoff, _⟩ := (hk k f v hf hv).2 hm
          simp only [hf, hv, ht]
          refine ⟨hsc, by omega, _, by rw [List.getElem?_map, hb2 hm]; rfl, Or.inr ⟨rfl, rfl⟩⟩
        · simp [CtsBody.cur, hlv, hbl]
        · intro k f v t hf hv ht hm
          refine ⟨hmeta k f v t hf hv ht hm, ?_⟩
          unfold CtsBody.cur
          rw [List.getElem?_zipWith, hv]
          simp only [List.getElem?_map, (hboth k f v t hf hv ht).1 hm, Option.map_some]
          simp [sliceVal]
        · intro k f v t hf hv ht hm
          simp only [hf, hv, ht, true_and]
          obtain ⟨hsc, hoff, _⟩ := (hk k f v hf hv).2 hm
          unfold CtsBody.cur
          rw [List.getElem?_zipWith, hv]
          simp only [List.getElem?_map, (hboth k f v t hf hv ht).2 hm, Option.map_some]
          simp only [sliceVal, hsc, Bool.false_eq_true, if_false]
          rw [if_neg (by
            intro hh
            have := congrArg CtsSlice.start hh
            simp only [emptySlice] at this
            omega), pySub_nat]
          congr 1
          rw [List.drop_take]
          rw [show off k + min (v.toks.length - off k) (f.len - t) - off k = min (v.toks.length - off k) (f.len - t) by omega]
          rcases Nat.le_total (v.toks.length - off k) (f.len - t) with hl | hl
          · rw [Nat.min_eq_left hl, List.take_of_length_le (by simp), List.take_of_length_le (by simp; omega)]
          · rw [Nat.min_eq_right hl]
        · rw [Bool.not_eq_true, List.all_eq_false] at hall
          obtain ⟨pp, hpm, hpn⟩ := hall
          obtain ⟨k, hkp⟩ := List.getElem?_of_mem hpm
          have hkl : k < cfg.feats.length := by
            have := (List.getElem?_eq_some_iff.1 hkp).1
            omega
          obtain ⟨v, t, hv, ht, _, htf⟩ := hat k _ (List.getElem?_eq_getElem hkl)
          obtain ⟨hp1, hp2⟩ := hpt k _ v t (List.getElem?_eq_getElem hkl) hv ht
          cases hm : (cfg.feats[k]).isMeta with
          | true =>
            rw [hp1 hm] at hkp
            rw [← Option.some.inj hkp] at hpn
            simp at hpn
          | false =>
            rw [hp2 hm] at hkp
            rw [← Option.some.inj hkp] at hpn
            refine ⟨k, _, v, List.getElem?_eq_getElem hkl, hv, hm, ?_⟩
            simp only [List.getElem?_eq_getElem hkl, hv, ht]
            by_contra hcon
            apply hpn
            simp only [decide_eq_true_eq]
            right
            congr 1
            omega
    · refine .added (z.map (fun x => x.2.2 + min x.2.1.length (x.1.len - x.2.2))) ?_ (by simp [hzl]) ?_
      · intro k f v t hf hv ht
        have hfit : t + (leftToks f v (off k)).length ≤ f.len := by
          have htf := hroom k f t hf ht
          cases hm : f.isMeta with
          | true => simpa [leftToks, hm] using hmeta k f v t hf hv ht hm
          | false =>
            by_contra hcon
            apply hB
            rw [zip3_any hcl htl]
            refine ⟨k, f, _, t, hf, h.cur hf hv, ht, ?_⟩
            simp only [hm, Bool.not_false, Bool.true_and, decide_eq_true_eq]
            omega
        refine ⟨hfit, ?_⟩
        rw [List.getElem?_map, hz k f v t hf hv ht]
        simp only [Option.map_some]
        congr 1
        omega
      · unfold maybeAdd
        simp only []
        rw [if_neg hA, if_neg hB]

end Grain
