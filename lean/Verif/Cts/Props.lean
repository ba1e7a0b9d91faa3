import Verif.Cts.Lemmas
import Verif.Cts.Run
import Verif.Iter.Example
/-
C35, C36: concat-then-split packing loses and repeats nothing; checkpoints.
-/
namespace Grain

variable {τ : Type}

/-- The token lists of the elements. -/
def ctsToks (es : List (List (CtsVal τ))) : List (List (List τ)) := es.map (fun e => e.map (·.toks))

theorem ctsToks_get (es : List (List (CtsVal τ))) (i : Nat) {e : List (List τ)} (h : (ctsToks es)[i]? = some e) :
    ∃ vals, es[i]? = some vals ∧ e = vals.map (·.toks) := by
  unfold ctsToks at h
  rw [List.getElem?_map] at h
  cases hv : es[i]? with
  | none => rw [hv] at h; cases h
  | some vals => rw [hv] at h; exact ⟨vals, rfl, (Option.some.inj h).symm⟩

theorem elemToks_ctsToks (es : List (List (CtsVal τ))) (i k : Nat) {e : List (List τ)} (h : (ctsToks es)[i]? = some e) : elemToks es k i = (e[k]?).getD [] := by
  obtain ⟨vals, hv, rfl⟩ := ctsToks_get es i h
  simp [elemToks, wholePiece, CtsPiece.feat, hv]

theorem map_range_get (l : List α) (g : Nat → β) (f : α → β) (h : ∀ (i : Nat) a, l[i]? = some a → g i = f a) : (List.range' 0 l.length).map g = l.map f := by
  apply List.ext_getElem?
  intro i
  by_cases hi : i < l.length
  · have hl : l[i]? = some l[i] := List.getElem?_eq_getElem hi
    simp [hi, h i _ hl]
  · simp [hi]

theorem CtsFull.fullLength {cfg : CtsCfg τ} {vals : List (CtsVal τ)} (hl : vals.length = cfg.feats.length) (h : CtsFull cfg.feats (vals.map (·.toks))) :
    fullLength cfg ⟨vals, emptySlices cfg⟩ = true := by
  obtain ⟨h1, k, f, v, hf, hv, hlen⟩ := h
  unfold Grain.fullLength
  rw [fresh_cur hl, Bool.and_eq_true, List.all_eq_true, List.any_eq_true]
  refine ⟨?_, (f, v), ?_, by simpa using hlen⟩
  · rintro ⟨f, v⟩ hmem
    obtain ⟨k, hk⟩ := List.getElem?_of_mem hmem
    rw [List.getElem?_zip_eq_some] at hk
    simpa using h1 k f v hk.1 hk.2
  · apply List.mem_of_getElem? (i := k)
    rw [List.getElem?_zip_eq_some]
    exact ⟨hf, hv⟩

theorem RowsFrom.spec {cfg : CtsCfg τ} {es : List (List (CtsVal τ))} (hgood : CtsGood cfg es) {rows : List (List (CtsPiece τ))}
    (h : RowsFrom cfg es 0 (elemToks es) rows) :
    CtsRowsFit cfg.feats rows ∧ CtsContent cfg.feats (ctsToks es) rows es.length ∧
    (cfg.splitFull = true → CtsConcat cfg.feats (ctsToks es) rows ∧ CtsTight cfg.feats rows) ∧
    (cfg.splitFull = false → ∀ (i : Nat) e, (ctsToks es)[i]? = some e → CtsFull cfg.feats e → [⟨i, e⟩] ∈ rows) := by
  refine ⟨fun row hrow => ?_, ⟨?_, ?_⟩, fun hs => ⟨?_, h.tight hs⟩, ?_⟩
  · obtain ⟨h1, h2, h3⟩ := h.fit row hrow
    exact ⟨h1, h2, fun k f hf => (h3 k f hf).1⟩
  · intro i e k f hi he hf hm
    rw [← elemToks_ctsToks es i k he]
    exact h.content i k f (Nat.zero_le _) hi hf hm
  · intro x hx
    obtain ⟨_, h1, h2⟩ := h.src x hx
    have he : (ctsToks es)[x.src]? = some ((es[x.src]'h1).map (·.toks)) := by
      simp [ctsToks, h1]
    exact ⟨_, he, fun k f hf hm => by rw [h2 k f hf hm, elemToks_ctsToks es x.src k he]⟩
  · intro k f hf hm
    rw [h.concat hs k f hf hm, Nat.sub_zero]
    have : es.length = (ctsToks es).length := by simp [ctsToks]
    rw [this, map_range_get (ctsToks es) (elemToks es k) (fun e => (e[k]?).getD []) (fun i a ha => elemToks_ctsToks es i k ha)]
  · intro hs i e he hfull
    obtain ⟨vals, hv, rfl⟩ := ctsToks_get es i he
    have hlt := (List.getElem?_eq_some_iff.1 hv).1
    have := h.alone i (Nat.zero_le _) hlt (by
      simp [passes, hs, hv, hfull.fullLength (hgood.1 _ (List.mem_of_getElem? hv)).1])
    simpa [wholePiece, hv] using this

theorem pureLoop_queue {cfg : CtsCfg τ} (hs : cfg.splitFull = true) {ended : Bool} : ∀ (rest : List (List (CtsVal τ))) (q : Nat) (buffer : List (CtsBody τ))
    (tokens : List Nat) (l : CtsLoop τ Nat Nat), pureLoop cfg ended rest q buffer tokens [] = some l → l.queue = [] := by
  intro rest
  induction rest with
  | nil =>
    intro q buffer tokens l h
    simp only [pureLoop] at h
    split at h
    · cases h; rfl
    · cases h
  | cons vals rest ih =>
    intro q buffer tokens l h
    simp only [pureLoop, hs, Bool.not_true, Bool.false_and, Bool.false_eq_true, if_false] at h
    split at h
    · exact ih _ _ _ _ h
    · cases h; rfl

theorem Refills.single {cfg : CtsCfg τ} {es : List (List (CtsVal τ))} (hs : cfg.splitFull = true) {ended : Bool} :
    ∀ {gs : List (List (List (CtsCol τ)))} {pt : CtsPt τ}, Refills cfg ended es pt gs → ∀ g ∈ gs, g.length ≤ 1 := by
  intro gs
  induction gs with
  | nil => intro pt _ g hg; cases hg
  | cons outs gs ih =>
    intro pt h g hg
    obtain ⟨hne, pt', st, hpr, hrest⟩ := h
    rcases List.mem_cons.1 hg with rfl | hg
    · unfold pureRefill at hpr
      cases hr : pureRead cfg ended es pt with
      | none => rw [hr] at hpr; cases hpr
      | some l =>
        have hq : l.queue = [] := by
          unfold pureRead at hr
          split at hr
          · exact pureLoop_queue hs _ _ _ _ _ hr
          · dsimp only at hr
            split at hr
            · exact pureLoop_queue hs _ _ _ _ _ hr
            · cases hr; rfl
        rw [hr] at hpr
        simp only [hq] at hpr
        split at hpr
        · cases hpr; simp
        · split at hpr
          · cases hpr
          · cases hpr; simp
    · split at hrest
      · subst hrest; cases hg
      · exact ih hrest g hg

/-- C35, partial: under `CtsGood` (missing: features of different lengths longer than their target, scalar features, and empty
sequences with BOS: see the counterexamples below).  There are rows of pieces, which depend on the configuration and the elements `es` only,
such that: every row has room for its pieces; concatenating the pieces of an element gives the element; when splitting everything, reading
the rows gives the concatenated input, and a row is closed only when it has to be; otherwise elements of full length are rows of
their own.  Every iterator over `es` that ends makes the packer output exactly these rows; when the input goes on after `es`, the packer
outputs these rows except the last ones (at most one when splitting everything), which may get more elements.  Both
with every history of saves and restores (C36). -/
theorem cts_content_partial {cfg : CtsCfg τ} {es : List (List (CtsVal τ))} (hgood : CtsGood cfg es) :
    ∃ rows last : List (List (CtsPiece τ)),
      CtsRowsFit cfg.feats (rows ++ last) ∧ CtsContent cfg.feats (ctsToks es) (rows ++ last) es.length ∧
      (cfg.splitFull = true → CtsConcat cfg.feats (ctsToks es) (rows ++ last) ∧ CtsTight cfg.feats (rows ++ last) ∧ last.length ≤ 1) ∧
      (cfg.splitFull = false → ∀ (i : Nat) e, (ctsToks es)[i]? = some e → CtsFull cfg.feats e → [⟨i, e⟩] ∈ rows ++ last) ∧
      (∀ p : Iter (List (CtsVal τ)), Resumes p (es.map .ok) true →
        ResumesExactly (ctsIter cfg p) ((rows ++ last).map (fun row => .ok (ctsRow cfg.zero cfg.feats row))) true) ∧
      (∀ p : Iter (List (CtsVal τ)), Resumes p (es.map .ok) false →
        ResumesExactly (ctsIter cfg p) (rows.map (fun row => .ok (ctsRow cfg.zero cfg.feats row))) false) := by
  obtain ⟨gr, href, hrows⟩ := all_rows hgood
  obtain ⟨hfit, hcont, hsplit, halone⟩ := hrows.spec hgood
  have hsplitgr : gr.flatten = gr.dropLast.flatten ++ (gr.getLast?.getD []) := by
    rcases List.eq_nil_or_concat gr with rfl | ⟨l, a, rfl⟩
    · rfl
    · simp
  have hlast : cfg.splitFull = true → (gr.getLast?.getD []).length ≤ 1 := by
    intro hs
    rcases List.eq_nil_or_concat gr with rfl | ⟨l, a, rfl⟩
    · simp
    · have := href.single hs (a.map (ctsRow cfg.zero cfg.feats)) (by simp)
      simpa using this
  refine ⟨gr.dropLast.flatten, gr.getLast?.getD [], ?_, ?_, ?_, ?_, ?_, ?_⟩
  · rw [← hsplitgr]; exact hfit
  · rw [← hsplitgr]; exact hcont
  · intro hs
    rw [← hsplitgr]
    exact ⟨(hsplit hs).1, (hsplit hs).2, hlast hs⟩
  · rw [← hsplitgr]; exact halone
  · rintro p ⟨pAt, pCk, hp⟩
    rw [← hsplitgr]
    have := (Resumes.exactly ⟨_, _, cts_sim hp href⟩)
    rw [← List.map_flatten, List.map_map] at this
    exact this
  · rintro p ⟨pAt, pCk, hp⟩
    have hpre := href.prefix
    rw [← List.map_dropLast] at hpre
    have := (Resumes.exactly ⟨_, _, cts_sim hp hpre⟩)
    rw [← List.map_flatten, List.map_map] at this
    exact this

/-- C36, in memory: whatever the configuration and the elements (also those for which the rows are wrong), if reading the
packer until it ends yields the rows `ys`, then so does reading with any history of saves and restores. -/
theorem cts_resumes_exactly {cfg : CtsCfg τ} {es : List (List (CtsVal τ))} {p : Iter (List (CtsVal τ))} (hp : Resumes p (es.map .ok) true)
    {ys : List (List (CtsCol τ))}
    (hrun : Ev (fun F => implRun (ctsIter cfg p) F (ctsIter cfg p).init [] (List.replicate (ys.length + 1) .next) = some (ys.map .item ++ [.stop]))) :
    ResumesExactly (ctsIter cfg p) (ys.map .ok) true := by
  obtain ⟨pAt, pCk, hp⟩ := hp
  obtain ⟨g1, _⟩ := hp.get hp.init
  obtain ⟨gs, href, rfl⟩ := refills_of_run hp ys.length (0, none) (ctsIter cfg p).init ys (Nat.le_refl _) ⟨Nat.zero_le _, trivial⟩ g1 trivial rfl rfl hrun
  exact Resumes.exactly ⟨_, _, cts_sim hp href⟩

theorem ctsJson_ckp {cfg : CtsCfg τ} {ended : Bool} {es : List (List (CtsVal τ))} {gs : List (List (List (CtsCol τ)))} {C : Type} {pCk : C → Nat → Prop}
    {c : CtsCk C} {m : Nat} (h : CtsCkp cfg ended es gs pCk c m) :
    CtsCkp cfg ended es gs pCk (if c.hasRemainder then ctsJson c else c) m := by
  cases hr : c.hasRemainder with
  | false => exact h
  | true =>
    simp only [if_true]
    obtain ⟨a, rest, ⟨q, rem⟩, hgs, href, hpt, hcr, hn, hcount⟩ := h
    refine ⟨a, rest, (q, rem), hgs, href, hpt, ?_, hn, hcount⟩
    cases rem with
    | none =>
      have : c.hasRemainder = false := by unfold CtsCk.hasRemainder; rw [hcr.2]; exact anySlice_empty cfg
      rw [this] at hr
      cases hr
    | some ib =>
      obtain ⟨i, b⟩ := ib
      obtain ⟨h1, h2, h3⟩ := hcr
      obtain ⟨_, _, _, hbo, hbn, _⟩ := hpt
      have hset : SlSet c.slices := by
        intro s hs
        have hs' : some s.norm ∈ b.slices := by
          rw [← h2]
          exact List.mem_map.2 ⟨some s, hs, rfl⟩
        rcases hbo.2 with hb | hb
        · have : b.slices.map normSl = b.slices := congrArg CtsBody.slices hbn
          rw [this, ← h2] at hb
          have h5 := anySlice_norm h3
          have h6 : anySlice c.slices = true := hr
          rw [hb, anySlice_empty, h6] at h5
          cases h5
        · exact hb.2 s.norm hs'
      refine ⟨h1, ?_, ?_⟩
      · rw [← h2]
        show (c.slices.map _).map normSl = _
        rw [List.map_map]
        apply List.map_congr_left
        intro o _
        cases o <;> rfl
      · intro o ho s hs
        subst hs
        obtain ⟨o', ho', ho''⟩ := List.mem_map.1 ho
        cases o' with
        | none => cases ho''
        | some s' =>
          simp only [Option.map_some, Option.some.injEq] at ho''
          subst ho''
          exact Or.inr (hset s' ho')

/-- C36, through JSON, partial: restoring also works from the JSON form of the states that have a remainder (missing: the other states,
see `cts_json_loses_element`). -/
theorem cts_json_resumes_partial {cfg : CtsCfg τ} {es : List (List (CtsVal τ))} {p : Iter (List (CtsVal τ))} (hp : Resumes p (es.map .ok) true)
    {ys : List (List (CtsCol τ))}
    (hrun : Ev (fun F => implRun (ctsIter cfg p) F (ctsIter cfg p).init [] (List.replicate (ys.length + 1) .next) = some (ys.map .item ++ [.stop]))) :
    ResumesExactly (ctsJsonRemIter cfg p) (ys.map .ok) true := by
  obtain ⟨pAt, pCk, hp⟩ := hp
  obtain ⟨g1, _⟩ := hp.get hp.init
  obtain ⟨gs, href, rfl⟩ := refills_of_run hp ys.length (0, none) (ctsIter cfg p).init ys (Nat.le_refl _) ⟨Nat.zero_le _, trivial⟩ g1 trivial rfl rfl hrun
  exact Resumes.exactly ⟨_, _, cts_sim_with hp href (fun c => if c.hasRemainder then ctsJson c else c) (fun c m h => ctsJson_ckp h)⟩

/-! ### The hypotheses are met -/

/-- Two features in lock step, the first with BOS, and a meta feature. -/
def exLockCfg : CtsCfg Nat := ⟨[⟨3, false, some 9⟩, ⟨3, false, none⟩, ⟨4, true, none⟩], true, 0⟩
def exLockEs : List (List (CtsVal Nat)) :=
  [[⟨false, [1, 2, 3, 4, 5]⟩, ⟨false, [11, 12, 13, 14, 15]⟩, ⟨true, [7]⟩], [⟨false, [6]⟩, ⟨false, [16]⟩, ⟨false, [8, 8]⟩],
   [⟨false, [20, 21, 22]⟩, ⟨false, [23, 24, 25]⟩, ⟨false, []⟩]]

example : CtsGood exLockCfg exLockEs := by
  refine ⟨?_, Or.inr ⟨⟨3, by decide⟩, ?_⟩⟩
  · intro e he
    simp only [exLockEs, List.mem_cons, List.not_mem_nil, or_false] at he
    rcases he with rfl | rfl | rfl
    all_goals
      refine ⟨rfl, ?_⟩
      intro k f v hf hv
      match k with
      | 0 => cases hf; cases hv; decide
      | 1 => cases hf; cases hv; decide
      | 2 => cases hf; cases hv; decide
      | n + 3 => cases hf
  · intro e he
    simp only [exLockEs, List.mem_cons, List.not_mem_nil, or_false] at he
    rcases he with rfl | rfl | rfl
    all_goals
      refine ⟨?_, ?_⟩
      · first
        | refine ⟨5, ?_⟩
          intro k f v hf hv hm
          match k with
          | 0 => cases hf; cases hv; rfl
          | 1 => cases hf; cases hv; rfl
          | 2 => cases hf; cases hm
          | n + 3 => cases hf
        | refine ⟨1, ?_⟩
          intro k f v hf hv hm
          match k with
          | 0 => cases hf; cases hv; rfl
          | 1 => cases hf; cases hv; rfl
          | 2 => cases hf; cases hm
          | n + 3 => cases hf
        | refine ⟨3, ?_⟩
          intro k f v hf hv hm
          match k with
          | 0 => cases hf; cases hv; rfl
          | 1 => cases hf; cases hv; rfl
          | 2 => cases hf; cases hm
          | n + 3 => cases hf
      · intro k f v hf hv hb
        match k with
        | 0 => cases hf; cases hv; simp
        | 1 => cases hf; exact absurd rfl hb
        | 2 => cases hf; exact absurd rfl hb
        | n + 3 => cases hf

/-- Two features of different lengths, none longer than its target; full-length elements are passed through. -/
def exWholeCfg : CtsCfg Nat := ⟨[⟨3, false, none⟩, ⟨2, false, none⟩], false, 0⟩
def exWholeEs : List (List (CtsVal Nat)) :=
  [[⟨false, [1, 2]⟩, ⟨false, [11]⟩], [⟨false, [3, 4, 5]⟩, ⟨false, []⟩], [⟨false, [6, 7]⟩, ⟨false, [16]⟩]]

example : CtsGood exWholeCfg exWholeEs := by
  refine ⟨?_, Or.inl ⟨by decide, ?_⟩⟩
  · intro e he
    simp only [exWholeEs, List.mem_cons, List.not_mem_nil, or_false] at he
    rcases he with rfl | rfl | rfl
    all_goals
      refine ⟨rfl, ?_⟩
      intro k f v hf hv
      match k with
      | 0 => cases hf; cases hv; decide
      | 1 => cases hf; cases hv; decide
      | n + 2 => cases hf
  · intro e he
    simp only [exWholeEs, List.mem_cons, List.not_mem_nil, or_false] at he
    rcases he with rfl | rfl | rfl
    all_goals
      intro k f v hf hv _
      match k with
      | 0 => cases hf; cases hv; decide
      | 1 => cases hf; cases hv; decide
      | n + 2 => cases hf

/-- What the packer makes of the second example: the element of full length comes after the row that was open, which is closed by the
third element (split into `[6]` and `[7]`). -/
example : Ev (fun F => implRun (ctsIter exWholeCfg (listIter (exWholeEs.map .ok))) F (ctsIter exWholeCfg (listIter (exWholeEs.map .ok))).init []
    (List.replicate 4 .next) = some [
      .item [⟨[1, 2, 6], some [(1, 0), (1, 1), (2, 0)]⟩, ⟨[11, 16], some [(1, 0), (2, 0)]⟩],
      .item [⟨[3, 4, 5], some [(1, 0), (1, 1), (1, 2)]⟩, ⟨[0, 0], some [(0, 0), (0, 0)]⟩],
      .item [⟨[7, 0, 0], some [(1, 0), (0, 0), (0, 0)]⟩, ⟨[0, 0], some [(0, 0), (0, 0)]⟩], .stop]) := by
  refine ⟨9, fun F hF => ?_⟩
  obtain ⟨k, rfl⟩ : ∃ k, F = k + 9 := ⟨F - 9, by omega⟩
  rfl

/-! ### C35 is false in general -/

/-- Two features, both with target length 2. -/
def dupCfg : CtsCfg Nat := ⟨[⟨2, false, none⟩, ⟨2, false, none⟩], true, 0⟩
def dupEs : List (List (CtsVal Nat)) := [[⟨false, [1, 2, 3, 4, 5]⟩, ⟨false, [6, 7, 8]⟩]]

/-- Features of different lengths: the element is split twice, and the token 7 of the second feature is output twice. -/
theorem cts_repeats_token : Ev (fun F => implRun (ctsIter dupCfg (listIter (dupEs.map .ok))) F (ctsIter dupCfg (listIter (dupEs.map .ok))).init []
    (List.replicate 4 .next) = some [
      .item [⟨[1, 2], some [(1, 0), (1, 1)]⟩, ⟨[6, 7], some [(1, 0), (1, 1)]⟩],
      .item [⟨[3, 4], some [(1, 0), (1, 1)]⟩, ⟨[0, 0], some [(0, 0), (0, 0)]⟩],
      .item [⟨[5, 0], some [(1, 0), (0, 0)]⟩, ⟨[7, 8], some [(1, 0), (1, 1)]⟩], .stop]) := by
  refine ⟨9, fun F hF => ?_⟩
  obtain ⟨k, rfl⟩ : ∃ k, F = k + 9 := ⟨F - 9, by omega⟩
  rfl

def scalarEs : List (List (CtsVal Nat)) := [[⟨false, [1, 2, 3]⟩, ⟨true, [7]⟩]]

/-- A scalar feature that is not a meta feature: its token is repeated in every part of a split element. -/
theorem cts_repeats_scalar : Ev (fun F => implRun (ctsIter dupCfg (listIter (scalarEs.map .ok))) F (ctsIter dupCfg (listIter (scalarEs.map .ok))).init []
    (List.replicate 3 .next) = some [
      .item [⟨[1, 2], some [(1, 0), (1, 1)]⟩, ⟨[7, 0], some [(1, 0), (0, 0)]⟩],
      .item [⟨[3, 0], some [(1, 0), (0, 0)]⟩, ⟨[7, 0], some [(1, 0), (0, 0)]⟩], .stop]) := by
  refine ⟨9, fun F hF => ?_⟩
  obtain ⟨k, rfl⟩ : ∃ k, F = k + 9 := ⟨F - 9, by omega⟩
  rfl

def bosCfg : CtsCfg Nat := ⟨[⟨3, false, some 99⟩], true, 0⟩
def bosEs : List (List (CtsVal Nat)) := [[⟨false, [1, 2, 3]⟩], [⟨false, []⟩], [⟨false, [4]⟩]]

/-- BOS with an empty sequence after a full row: `IndexError`, and the tokens 1, 2, 3 are lost. -/
theorem cts_bos_fails : Ev (fun F => implRun (ctsIter bosCfg (listIter (bosEs.map .ok))) F (ctsIter bosCfg (listIter (bosEs.map .ok))).init []
    (List.replicate 3 .next) = some [.fail .indexError, .item [⟨[99, 0, 0], some [(1, 0), (0, 0), (0, 0)]⟩], .stop]) := by
  refine ⟨9, fun F hF => ?_⟩
  obtain ⟨k, rfl⟩ : ∃ k, F = k + 9 := ⟨F - 9, by omega⟩
  rfl

def bosEs2 : List (List (CtsVal Nat)) := [[⟨false, [1]⟩], [⟨false, []⟩]]

/-- BOS with an empty sequence elsewhere: a BOS token that stands for nothing is output with segment id 0. -/
theorem cts_bos_in_padding : Ev (fun F => implRun (ctsIter bosCfg (listIter (bosEs2.map .ok))) F (ctsIter bosCfg (listIter (bosEs2.map .ok))).init []
    (List.replicate 2 .next) = some [.item [⟨[99, 99, 0], some [(1, 0), (0, 0), (0, 0)]⟩], .stop]) := by
  refine ⟨9, fun F hF => ?_⟩
  obtain ⟨k, rfl⟩ : ∃ k, F = k + 9 := ⟨F - 9, by omega⟩
  rfl

/-! ### C36 is false through JSON -/

def jsonCfg : CtsCfg Nat := ⟨[⟨2, false, none⟩], true, 0⟩
def jsonEs : List (List (CtsVal Nat)) := [[⟨false, [1, 2]⟩], [⟨false, [3, 4]⟩]]
def jsonRows : List (List (CtsCol Nat)) := [[⟨[1, 2], some [(1, 0), (1, 1)]⟩], [⟨[3, 4], some [(1, 0), (1, 1)]⟩]]

/-- The run without restores. -/
theorem cts_json_run : Ev (fun F => implRun (ctsIter jsonCfg (listIter (jsonEs.map .ok))) F (ctsIter jsonCfg (listIter (jsonEs.map .ok))).init []
    (List.replicate (jsonRows.length + 1) .next) = some (jsonRows.map .item ++ [.stop])) := by
  refine ⟨9, fun F hF => ?_⟩
  obtain ⟨k, rfl⟩ : ∃ k, F = k + 9 := ⟨F - 9, by omega⟩
  rfl

/-- Restoring the state of the beginning from its JSON form: `[-1, -1] != (-1, -1)`, the first element is taken for a remainder, and
sliced `[-1:-1]`, so that its tokens are lost. -/
theorem cts_json_loses_element : ¬ ResumesExactly (ctsJsonIter jsonCfg (listIter (jsonEs.map .ok))) (jsonRows.map .ok) true := by
  intro h
  obtain ⟨k, hk⟩ := h [.save, .restore 0, .next] [.item [⟨[1, 2], some [(1, 0), (1, 1)]⟩]] rfl
  have h1 := hk (k + 9) (by omega)
  have h2 : implRun (ctsJsonIter jsonCfg (listIter (jsonEs.map .ok))) (k + 9) (ctsJsonIter jsonCfg (listIter (jsonEs.map .ok))).init []
      [.save, .restore 0, .next] = some [.item [⟨[3, 4], some [(2, 0), (2, 1)]⟩]] := rfl
  cases h2.symm.trans h1

/-- And in the middle, after the first row: the second row is lost. -/
theorem cts_json_loses_row : ¬ ResumesExactly (ctsJsonIter jsonCfg (listIter (jsonEs.map .ok))) (jsonRows.map .ok) true := by
  intro h
  obtain ⟨k, hk⟩ := h [.next, .save, .restore 0, .next] [.item [⟨[1, 2], some [(1, 0), (1, 1)]⟩], .item [⟨[3, 4], some [(1, 0), (1, 1)]⟩]] rfl
  have h1 := hk (k + 9) (by omega)
  have h2 : implRun (ctsJsonIter jsonCfg (listIter (jsonEs.map .ok))) (k + 9) (ctsJsonIter jsonCfg (listIter (jsonEs.map .ok))).init []
      [.next, .save, .restore 0, .next] = some [.item [⟨[1, 2], some [(1, 0), (1, 1)]⟩], .stop] := rfl
  cases h2.symm.trans h1

/-- `cts_resumes_exactly` and `cts_json_resumes_partial` apply to this run, and to the wrong one above. -/
example := cts_resumes_exactly (listIter_resumes _) cts_json_run
example := cts_json_resumes_partial (listIter_resumes _) cts_json_run
example := cts_resumes_exactly (ys := [_, _, _]) (listIter_resumes _) cts_repeats_token

end Grain
