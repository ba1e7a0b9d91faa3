import Verif.Packing.Legacy
import Verif.Packing.Choose
/-
C37: the pack-and-batch operation.
-/
namespace Grain

variable {τ μ : Type}

/-- The features as the specification sees them: no alignment, zeros for padding. -/
def OpCfg.feats (cfg : OpCfg τ) : List (FeatCfg τ) := cfg.caps.map (fun c => { cap := c, align := 1, pad := cfg.zero })

/-- A record of the output holds the examples `a` (one list for each row, also for rows without examples), which are the examples
`g` of the input, and carries the metadata of the last of them. -/
def OpHolds (cfg : OpCfg τ) (out : OpOut τ μ) (g : List (Ex τ μ)) (a : List (List (Ex τ μ))) : Prop :=
  out.rows.length = cfg.bins ∧ some out.info = g.getLast?.map (·.info) ∧
  ∀ (r : Nat) es, a[r]? = some es →
    ∃ row, out.rows[r]? = some row ∧ RowHolds cfg.feats { feats := row, metas := es.map (·.info) } es

/-- The corresponding arguments of the newer packers. -/
def OpCfg.toPk (cfg : OpCfg τ) : PkCfg τ := { feats := cfg.feats, bins := cfg.bins, maxSeq := cfg.maxSeq }

def PkRow.forget (r : PkRow τ μ) : OpRow τ := { feats := r.feats, num := r.num }

theorem zip_map_left_toPk (z : τ) (caps : List Nat) (l : List β) :
    (caps.map (fun c => ({ cap := c, align := 1, pad := z } : FeatCfg τ))).zip l =
      (caps.zip l).map (fun x => (({ cap := x.1, align := 1, pad := z } : FeatCfg τ), x.2)) := by
  induction caps generalizing l with
  | nil => rfl
  | cons c caps ih =>
    cases l with
    | nil => rfl
    | cons b l => simp [ih]

theorem opFits_eq (cfg : OpCfg τ) (hne : cfg.caps ≠ []) (e : Ex τ μ) (row : PkRow τ μ) (hr : row.feats.length = cfg.caps.length)
    (he : e.feats.length = cfg.caps.length) :
    ((match cfg.maxSeq with
      | none => true
      | some m => decide (row.forget.num < m)) &&
    (cfg.caps.zip (row.forget.feats.zip e.feats)).all (fun x => decide (x.2.2.length + x.2.1.free ≤ x.1))) = firstFitRow cfg.toPk e row := by
  unfold firstFitRow OpCfg.toPk OpCfg.feats PkRow.forget
  rw [zip_map_left_toPk, List.all_map]
  simp only
  have hz : cfg.caps.zip (row.feats.zip e.feats) ≠ [] := by
    intro h
    have := congrArg List.length h
    rw [List.length_zip, List.length_zip, hr, he, List.length_nil] at this
    have := List.length_pos_iff.2 hne
    omega
  generalize cfg.caps.zip (row.feats.zip e.feats) = l at hz
  cases cfg.maxSeq with
  | none => simp [Function.comp_def]
  | some m =>
    simp only [Function.comp_def]
    rw [Bool.eq_iff_iff]
    simp only [Bool.and_eq_true, decide_eq_true_eq, List.all_eq_true]
    constructor
    · rintro ⟨h1, h2⟩ x hx
      exact ⟨h2 x hx, h1⟩
    · intro h
      obtain ⟨x, hx⟩ := List.exists_mem_of_ne_nil l hz
      exact ⟨(h x hx).2, fun y hy => (h y hy).1⟩

theorem opAddRow_forget (cfg : OpCfg τ) (e : Ex τ μ) (row : PkRow τ μ) (hr : row.feats.length = cfg.caps.length) :
    opAddRow e row.forget = (addToRow cfg.toPk e row).forget := by
  unfold opAddRow addToRow OpCfg.toPk OpCfg.feats PkRow.forget
  rw [zip_map_left_toPk]
  simp only [List.map_map, Function.comp_def, addFeat]
  congr 1
  have : ∀ (caps : List Nat) (fs : List (FeatBuf τ)) (vs : List (List τ)) (f : FeatBuf τ → List τ → FeatBuf τ), fs.length = caps.length →
      (fs.zip vs).map (fun x => f x.1 x.2) = (caps.zip (fs.zip vs)).map (fun x => f x.2.1 x.2.2) := by
    intro caps
    induction caps with
    | nil =>
      intro fs vs f h
      have : fs = [] := List.length_eq_zero_iff.1 h
      subst this
      rfl
    | cons c caps ih =>
      intro fs vs f h
      cases fs with
      | nil => cases h
      | cons b fs =>
        cases vs with
        | nil => rfl
        | cons v vs =>
          simp only [List.zip_cons_cons, List.map_cons]
          rw [ih fs vs f (by simpa using h)]
  simp only [Nat.add_sub_cancel, Nat.div_one, Nat.mul_one]
  exact this _ _ _ (fun b v =>
    ⟨writeAt b.cells b.free (v.mapIdx (fun k t => { tok := t, seg := row.num + 1, pos := k })), b.free + v.length⟩) hr

/-- The batch under construction holds the examples `g`. -/
def OpMatch (cfg : OpCfg τ) (b : OpBatch τ μ) (g : List (Ex τ μ)) : Prop :=
  ∃ rows a, BatchInv cfg.toPk rows a ∧ Assigned (IsFirstFit (RowFits cfg.feats cfg.maxSeq)) cfg.bins g a ∧
    (∀ es ∈ a, ∀ e ∈ es, FitsEmpty cfg.feats e) ∧ b.rows = rows.map PkRow.forget ∧ b.last = g.getLast?.map (·.info)

theorem opNew_match (cfg : OpCfg τ) : OpMatch cfg (opNew cfg : OpBatch τ μ) [] := by
  refine ⟨newBatch cfg.toPk, _, BatchInv.new cfg.toPk, .nil, ?_, ?_, rfl⟩
  · intro es hes e he
    rw [(List.mem_replicate.1 hes).2] at he
    cases he
  · simp [opNew, newBatch, PkRow.forget, emptyRow, OpCfg.toPk, OpCfg.feats, Function.comp_def]

theorem OpMatch.tryAdd {cfg : OpCfg τ} (hne : cfg.caps ≠ []) {b : OpBatch τ μ} {g : List (Ex τ μ)} (h : OpMatch cfg b g) {e : Ex τ μ}
    (he : FitsEmpty cfg.feats e) :
    (∃ b', opTryAdd cfg b e = .ok (b', true) ∧ OpMatch cfg b' (g ++ [e])) ∨
    (opTryAdd cfg b e = .ok (b, false) ∧
      ∃ a, Assigned (IsFirstFit (RowFits cfg.feats cfg.maxSeq)) cfg.bins g a ∧ IsFirstFit (RowFits cfg.feats cfg.maxSeq) a e none) := by
  obtain ⟨rows, a, hinv, hass, hgood, hrows, hlast⟩ := h
  have hlen : e.feats.length = cfg.caps.length := by rw [he.1]; simp [OpCfg.feats]
  have hch := firstFit_chooses (μ := μ) (cfg := cfg.toPk) (by simpa [OpCfg.toPk, OpCfg.feats] using hne)
  have hrl : ∀ row ∈ rows, row.feats.length = cfg.caps.length := by
    intro row hm
    obtain ⟨r, hr⟩ := List.getElem?_of_mem hm
    have hlt := (List.getElem?_eq_some_iff.1 hr).1
    have h1 := hinv.1
    have h2 := hinv.2.1
    obtain ⟨es, hes⟩ : ∃ es, a[r]? = some es := ⟨_, List.getElem?_eq_getElem (by omega)⟩
    rw [(hinv.2.2.1 r row es hr hes).2.2.1]
    simp [OpCfg.toPk, OpCfg.feats]
  have hcan : opCanAdd cfg b e = .ok (chooseFirst cfg.toPk rows e) := by
    unfold opCanAdd
    rw [if_neg (by simp [hlen]), if_neg]
    · rw [hrows, List.findIdx?_map]
      unfold chooseFirst
      congr 1
      have : ∀ l : List (PkRow τ μ), (∀ row ∈ l, row.feats.length = cfg.caps.length) →
          l.findIdx? ((fun row : OpRow τ => (match cfg.maxSeq with
            | none => true
            | some m => decide (row.num < m)) &&
            (cfg.caps.zip (row.feats.zip e.feats)).all (fun x => decide (x.2.2.length + x.2.1.free ≤ x.1))) ∘ PkRow.forget) =
          l.findIdx? (firstFitRow cfg.toPk e) := by
        intro l hl
        induction l with
        | nil => rfl
        | cons row l ih =>
          rw [List.findIdx?_cons, List.findIdx?_cons, ih (fun r hr => hl r (List.mem_cons_of_mem _ hr))]
          rw [Function.comp_apply, opFits_eq cfg hne e row (hl row (List.mem_cons_self ..)) hlen]
      exact this rows hrl
    · intro hany
      rw [List.any_eq_true] at hany
      obtain ⟨x, hx, hlt⟩ := hany
      obtain ⟨i, hi⟩ := List.getElem?_of_mem hx
      obtain ⟨a1, a2⟩ := List.getElem?_zip_eq_some.1 hi
      have := he.2 i _ { cap := x.1, align := 1, pad := cfg.zero } a2 (by simp [OpCfg.feats, a1])
      have := of_decide_eq_true hlt
      dsimp only at *
      omega
  have hspec : IsFirstFit (RowFits cfg.feats cfg.maxSeq) a e (chooseFirst cfg.toPk rows e) := hch.spec hinv hgood he
  unfold opTryAdd
  rw [hcan]
  cases hc : chooseFirst cfg.toPk rows e with
  | none =>
    rw [hc] at hspec
    exact Or.inr ⟨rfl, a, hass, hspec⟩
  | some r =>
    rw [hc] at hspec
    refine Or.inl ⟨_, rfl, rows.modify r (addToRow cfg.toPk e), _, hinv.add ?_ he.1 (hch.fits hspec) (hch.first hspec), hass.snoc hspec,
      ?_, ?_, ?_⟩
    · intro fc hfc
      simp only [OpCfg.toPk, OpCfg.feats, List.mem_map] at hfc
      obtain ⟨c, _, rfl⟩ := hfc
      exact Nat.one_pos
    · intro es hes x hx
      obtain ⟨q, hq⟩ := List.getElem?_of_mem hes
      rw [List.getElem?_modify] at hq
      by_cases hrq : r = q
      · simp only [hrq, if_true, Option.map_eq_map, Option.map_eq_some_iff] at hq
        obtain ⟨es0, h0, rfl⟩ := hq
        rcases List.mem_append.1 hx with hx | hx
        · exact hgood es0 (List.mem_of_getElem? h0) x hx
        · rw [List.mem_singleton] at hx
          rw [hx]
          exact he
      · simp only [hrq, if_false, Option.map_eq_map, id_eq, Option.map_id_fun'] at hq
        exact hgood es (List.mem_of_getElem? hq) x hx
    · rw [hrows]
      apply List.ext_getElem?
      intro q
      rw [List.getElem?_map, List.getElem?_modify, List.getElem?_modify, List.getElem?_map]
      cases hq : rows[q]? with
      | none => simp
      | some row =>
        have := hrl row (List.mem_of_getElem? hq)
        by_cases hrq : r = q
        · simp [hrq, opAddRow_forget cfg e row this]
        · simp [hrq]
    · simp

theorem OpMatch.get {cfg : OpCfg τ} {b : OpBatch τ μ} {g : List (Ex τ μ)} (h : OpMatch cfg b g) (hg : g ≠ []) :
    ∃ out, opGet b = .ok out ∧ ∃ a, Assigned (IsFirstFit (RowFits cfg.feats cfg.maxSeq)) cfg.bins g a ∧ OpHolds cfg out g a := by
  obtain ⟨rows, a, hinv, hass, _, hrows, hlast⟩ := h
  cases hl : g.getLast? with
  | none => exact absurd (List.getLast?_eq_none_iff.1 hl) hg
  | some e =>
    rw [hl] at hlast
    refine ⟨_, by unfold opGet; rw [hlast]; rfl, a, hass, ?_, by rw [hl]; rfl, ?_⟩
    · simp [hrows, hinv.1, OpCfg.toPk]
    · intro r es hes
      have hlt := (List.getElem?_eq_some_iff.1 hes).1
      have h1 := hinv.1
      have h2 := hinv.2.1
      obtain ⟨row, hrow⟩ : ∃ row, rows[r]? = some row := ⟨_, List.getElem?_eq_getElem (by omega)⟩
      have hri := hinv.2.2.1 r row es hrow hes
      refine ⟨row.feats.map (·.cells), by simp [hrows, hrow, PkRow.forget], ?_⟩
      rw [← hri.2.1]
      refine hri.holds (cfg := cfg.toPk) ?_
      intro fc hfc
      simp only [OpCfg.toPk, OpCfg.feats, List.mem_map] at hfc
      obtain ⟨c, _, rfl⟩ := hfc
      exact Nat.one_pos

theorem opRun_main {cfg : OpCfg τ} (hne : cfg.caps ≠ []) (hbins : 0 < cfg.bins) (hm : cfg.maxSeq ≠ some 0) :
    ∀ (es : List (Ex τ μ)) (b : OpBatch τ μ) (g : List (Ex τ μ)), g ≠ [] → OpMatch cfg b g → (∀ e ∈ es, FitsEmpty cfg.feats e) →
    ∃ gs outs b', opRun cfg (some b) es = (outs, .ok (some b')) ∧ g ++ es = gs.flatten ∧
      GreedyCut (IsFirstFit (RowFits cfg.feats cfg.maxSeq)) cfg.bins true gs [] ∧ outs.length = gs.length ∧
      ∀ (i : Nat) g out, gs[i]? = some g → outs[i]? = some out →
        ∃ a, Assigned (IsFirstFit (RowFits cfg.feats cfg.maxSeq)) cfg.bins g a ∧ OpHolds cfg out g a
  | [], b, g, hg, hb, _ => by
    obtain ⟨out, h1, a, h2, h3⟩ := hb.get hg
    refine ⟨[g], [out], b, by simp only [opRun, h1], by simp, ⟨hg, ⟨a, h2, rfl⟩, trivial⟩, rfl, ?_⟩
    intro i g' out' hi ho
    cases i with
    | zero => cases hi; cases ho; exact ⟨a, h2, h3⟩
    | succ i => cases hi
  | e :: es, b, g, hg, hb, hes => by
    have he := hes e (List.mem_cons_self ..)
    have hes' : ∀ x ∈ es, FitsEmpty cfg.feats x := fun x hx => hes x (List.mem_cons_of_mem _ hx)
    rcases hb.tryAdd hne he with ⟨b', h1, h2⟩ | ⟨h1, a, h2, h3⟩
    · obtain ⟨gs, outs, b'', r1, r2, r3, r4, r5⟩ := opRun_main hne hbins hm es b' (g ++ [e]) (by simp) h2 hes'
      refine ⟨gs, outs, b'', ?_, by rw [← r2]; simp, r3, r4, r5⟩
      simp only [opRun, Option.getD_some, h1]
      exact r1
    · obtain ⟨out, g1, a', g2, g3⟩ := hb.get hg
      have hnew : ∃ b1, opTryAdd cfg (opNew cfg) e = .ok (b1, true) ∧ OpMatch cfg b1 [e] := by
        rcases (opNew_match cfg).tryAdd hne he with h | ⟨_, a0, ha0, hno⟩
        · exact h
        · have : a0 = List.replicate cfg.bins [] := by
            generalize hnil : ([] : List (Ex τ μ)) = l at ha0
            cases ha0 with
            | nil => rw [hnil]
            | snoc _ _ => simp at hnil
          subst this
          exact absurd (fitsEmpty_rowFits (cfg := cfg.toPk) he hm) (hno [] (List.mem_replicate.2 ⟨by omega, rfl⟩))
      obtain ⟨b1, n1, n2⟩ := hnew
      obtain ⟨gs, outs, b'', r1, r2, r3, r4, r5⟩ := opRun_main hne hbins hm es b1 [e] (by simp) n2 hes'
      refine ⟨g :: gs, out :: outs, b'', ?_, ?_, ⟨hg, ⟨a, h2, ?_⟩, r3⟩, by simp [r4], ?_⟩
      · simp only [opRun, Option.getD_some, h1, g1, n1, r1]
      · rw [List.flatten_cons, ← r2]
        rfl
      · rw [← r2]
        exact h3
      · intro i g' out' hi ho
        cases i with
        | zero => cases hi; cases ho; exact ⟨a', g2, g3⟩
        | succ i => exact r5 i g' out' (by simpa using hi) (by simpa using ho)

/-- C37.  A new `PackAndBatchOperation` called with any non-empty input of examples that fit into a row: the call ends without an
error; the examples are cut into batches `gs` in stream order, a batch is closed only when no row has room for the next example
(`GreedyCut`); every example is put into the first row with room for it (`Assigned`, and `first_fit_no_loss` for what that means:
each example exactly once); every output record holds the examples of its batch with the right segment ids and positions (`OpHolds`,
`RowHolds`).

Partial: the empty input and a second call are excluded, see `pack_and_batch_empty` and `pack_and_batch_second_call`. -/
theorem pack_and_batch_partial {cfg : OpCfg τ} (hne : cfg.caps ≠ []) (hbins : 0 < cfg.bins) (hm : cfg.maxSeq ≠ some 0)
    (es : List (Ex τ μ)) (hes : ∀ e ∈ es, FitsEmpty cfg.feats e) (hnil : es ≠ []) :
    ∃ gs outs b, opRun cfg none es = (outs, .ok b) ∧ es = gs.flatten ∧
      GreedyCut (IsFirstFit (RowFits cfg.feats cfg.maxSeq)) cfg.bins true gs [] ∧ outs.length = gs.length ∧
      ∀ (i : Nat) g out, gs[i]? = some g → outs[i]? = some out →
        ∃ a, Assigned (IsFirstFit (RowFits cfg.feats cfg.maxSeq)) cfg.bins g a ∧ OpHolds cfg out g a := by
  cases es with
  | nil => exact absurd rfl hnil
  | cons e es =>
    have he := hes e (List.mem_cons_self ..)
    rcases (opNew_match cfg).tryAdd hne he with ⟨b1, h1, h2⟩ | ⟨_, a0, ha0, hno⟩
    · obtain ⟨gs, outs, b, r1, r2, r3, r4, r5⟩ := opRun_main hne hbins hm es b1 [e] (by simp) h2
        (fun x hx => hes x (List.mem_cons_of_mem _ hx))
      refine ⟨gs, outs, some b, ?_, r2, r3, r4, r5⟩
      simp only [opRun, Option.getD_none, h1]
      exact r1
    · have : a0 = List.replicate cfg.bins [] := by
        generalize hl : ([] : List (Ex τ μ)) = l at ha0
        cases ha0 with
        | nil => rw [hl]
        | snoc _ _ => simp at hl
      subst this
      exact absurd (fitsEmpty_rowFits (cfg := cfg.toPk) he hm) (hno [] (List.mem_replicate.2 ⟨by omega, rfl⟩))

/-- The full claim is false: the empty input raises `AttributeError`, for every configuration. -/
theorem pack_and_batch_empty (cfg : OpCfg τ) : opRun (μ := μ) cfg none [] = ([], .error .attributeError) := rfl

/-- One feature with rows of length 3, two rows for a batch. -/
def opDemo : OpCfg Nat := { caps := [3], zero := 0, bins := 2, maxSeq := none }

def opEx (l : List Nat) (i : Nat) : Ex Nat Nat := { feats := [l], info := i }

/-- And a second call of the same operation (for the next epoch, say) starts with the last batch of the first call: the examples 5
and 6 come out of both calls. -/
theorem pack_and_batch_second_call : ∃ b, opRun opDemo none [opEx [1, 2] 0, opEx [3, 4] 1, opEx [5, 6] 2] =
      ([{ rows := [[[⟨1, 1, 0⟩, ⟨2, 1, 1⟩, ⟨0, 0, 0⟩]], [[⟨3, 1, 0⟩, ⟨4, 1, 1⟩, ⟨0, 0, 0⟩]]], info := 1 },
        { rows := [[[⟨5, 1, 0⟩, ⟨6, 1, 1⟩, ⟨0, 0, 0⟩]], [[⟨0, 0, 0⟩, ⟨0, 0, 0⟩, ⟨0, 0, 0⟩]]], info := 2 }], .ok b) ∧
    ∃ b', opRun opDemo b [opEx [7, 8] 3] =
      ([{ rows := [[[⟨5, 1, 0⟩, ⟨6, 1, 1⟩, ⟨0, 0, 0⟩]], [[⟨7, 1, 0⟩, ⟨8, 1, 1⟩, ⟨0, 0, 0⟩]]], info := 3 }], .ok b') :=
  ⟨_, rfl, _, rfl⟩

example : opDemo.caps ≠ [] ∧ 0 < opDemo.bins ∧ opDemo.maxSeq ≠ some 0 ∧
    ∀ e ∈ [opEx [1, 2] 0, opEx [3, 4] 1, opEx [5, 6] 2], FitsEmpty opDemo.feats e := by
  refine ⟨by decide, by decide, by decide, ?_⟩
  intro e he
  simp only [List.mem_cons, List.not_mem_nil, or_false] at he
  rcases he with rfl | rfl | rfl <;>
  · refine ⟨rfl, ?_⟩
    intro i v fc h1 h2
    cases i with
    | zero => cases h1; cases h2; decide
    | succ i => cases h1

end Grain
