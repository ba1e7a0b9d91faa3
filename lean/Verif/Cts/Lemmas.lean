import Verif.Cts.Rows
/-
Concat-then-split: existence of the rows, and reading the rows off a run.
-/
namespace Grain

variable {τ : Type}

theorem le_sum_of_mem' {x : Nat} : ∀ {l : List Nat}, x ∈ l → x ≤ l.sum := by
  intro l
  induction l with
  | nil => intro h; cases h
  | cons a l ih =>
    intro h
    rw [List.sum_cons]
    rcases List.mem_cons.1 h with rfl | h
    · omega
    · have := ih h; omega

theorem LInv.empty (cfg : CtsCfg τ) (es : List (List (CtsVal τ))) : LInv cfg es [] [] (cfg.feats.map (fun _ => 0)) := by
  refine ⟨rfl, ?_, by simp, ?_, fun _ => ⟨0, fun _ _ _ _ => rfl⟩⟩
  · intro k f _
    exact ⟨Nat.zero_le _, fun _ x hx => by cases hx⟩
  · intro k f hf
    simp [hf, rowLen]

/-- The output of a row of pieces and of pieces passed through. -/
def groupOf (R Q : List (CtsPiece τ)) : List (List (CtsPiece τ)) := (if R = [] then [] else [R]) ++ Q.map (fun x => [x])

theorem pureRefill_of {cfg : CtsCfg τ} {es : List (List (CtsVal τ))} {pt : CtsPt τ} {l : CtsLoop τ Nat Nat} {R Q : List (CtsPiece τ)}
    (hread : pureRead cfg true es pt = some l) (hb : Bodies l.buffer R) (hok : RowOk cfg R)
    (hq : l.queue = Q.map (fun x => ctsRow cfg.zero cfg.feats [x])) :
    pureRefill cfg true es pt = some ((groupOf R Q).map (ctsRow cfg.zero cfg.feats), (l.parent, l.rem), l.stop) := by
  have hlen : l.buffer.length = R.length := by
    have := congrArg List.length hb
    simpa using this
  have hqm : (Q.map (fun x => [x])).map (ctsRow cfg.zero cfg.feats) = l.queue := by
    rw [hq, List.map_map]; rfl
  unfold pureRefill groupOf
  rw [hread]
  simp only [List.map_append, hqm]
  by_cases hR : R = []
  · have : l.buffer = [] := by rw [hR] at hlen; exact List.length_eq_zero_iff.1 hlen
    simp [hR, this]
  · have : l.buffer.isEmpty = false := by
      cases hbuf : l.buffer with
      | nil => rw [hbuf] at hlen; exact absurd (List.length_eq_zero_iff.1 hlen.symm) hR
      | cons _ _ => rfl
    rw [this, if_neg (by simp), packBodies_ok hb hR hok, if_neg hR]
    rfl

theorem closed_ne_nil {cfg : CtsCfg τ} {es : List (List (CtsVal τ))} (hgood : CtsGood cfg es) {vals : List (CtsVal τ)} (hmem : vals ∈ es) {R : List (CtsPiece τ)}
    (h : Closed cfg R vals) : R ≠ [] := by
  rintro rfl
  obtain ⟨hvl, hvk⟩ := hgood.1 _ hmem
  obtain ⟨k, f, hf, h | ⟨hm, v, hv, h⟩⟩ := h
  · have hkl := (List.getElem?_eq_some_iff.1 hf).1
    have := ((hvk k f _ hf (List.getElem?_eq_getElem (show k < vals.length by omega))).2 h.1).2
    have h2 : 0 = f.len := h.2
    omega
  · have := (hvk k f v hf hv).1 hm
    have h2 : f.len < 0 + v.toks.length := h
    omega

/-- What is left to output when `off k` tokens of feature `k` of element `i` have been output. -/
def needAt (es : List (List (CtsVal τ))) (i : Nat) (off : Nat → Nat) (k j : Nat) : List τ :=
  if j = i then (elemToks es k i).drop (off k) else elemToks es k j

theorem elemToks_eq {es : List (List (CtsVal τ))} {i : Nat} {vals : List (CtsVal τ)} (hi : es[i]? = some vals) {k : Nat} {v : CtsVal τ} (hv : vals[k]? = some v) :
    elemToks es k i = v.toks := by
  simp [elemToks, wholePiece, CtsPiece.feat, hi, hv]

theorem RowsFrom.nil (cfg : CtsCfg τ) (es : List (List (CtsVal τ))) (need : Nat → Nat → List τ) : RowsFrom cfg es es.length need [] where
  fit := by intro row h; cases h
  src := by intro x h; cases h
  content := by intro j k f h1 h2; omega
  concat := by intro _ k f _ _; simp
  tight := by intro _ j row next x h; cases h
  head := by intro h; omega
  alone := by intro j h1 h2; omega

/-- All rows from a remainder on. -/
def RemRows (cfg : CtsCfg τ) (es : List (List (CtsVal τ))) (i : Nat) (b : CtsBody τ) (off : Nat → Nat) : Prop :=
  ∃ gr : List (List (List (CtsPiece τ))), Refills cfg true es (i + 1, some (i, b)) (gr.map (List.map (ctsRow cfg.zero cfg.feats))) ∧
    RowsFrom cfg es i (needAt es i off) gr.flatten

theorem after_loop {cfg : CtsCfg τ} {es : List (List (CtsVal τ))} (hgood : CtsGood cfg es) {pt : CtsPt τ} {l : CtsLoop τ Nat Nat} {first q m : Nat}
    {need : Nat → Nat → List τ} {B : List (CtsPiece τ)} (hread : pureRead cfg true es pt = some l) (hqm : q ≤ m) (hml : m ≤ es.length)
    (hqueue : l.queue = (wholes cfg es true q m).map (fun x => ctsRow cfg.zero cfg.feats [x]))
    (hend : LoopEnd cfg es (B ++ wholes cfg es false q m) m l)
    (hB : (first = q ∧ B = []) ∨ (q = first + 1 ∧ passes cfg es first = false ∧ ∃ x, B = [x] ∧ x.src = first ∧ ∀ (k : Nat) f, cfg.feats[k]? = some f →
      x.feat k = if f.isMeta then elemToks es k first else need k first))
    (hneed : ∀ j (k : Nat) f, cfg.feats[k]? = some f → q ≤ j → need k j = elemToks es k j)
    (hih : ∀ vals r off', es[m]? = some vals → r.vals = vals → RemAt cfg r off' → (CtsLock cfg es → RemLock cfg vals off') → passes cfg es m = false →
      m < es.length → RemRows cfg es m r off') :
    ∃ gr : List (List (List (CtsPiece τ))), Refills cfg true es pt (gr.map (List.map (ctsRow cfg.zero cfg.feats))) ∧ RowsFrom cfg es first need gr.flatten := by
  have hpassok : ∀ x ∈ wholes cfg es true q m, RowOk cfg [x] := by
    intro x hx
    obtain ⟨i, h1, h2, h3, rfl⟩ := mem_wholes hx
    have hget : es[i]? = some (es[i]'(by omega)) := List.getElem?_eq_getElem _
    unfold passes at h3
    rw [Bool.and_eq_true, hget] at h3
    exact (passRow_ok hgood hget h3.2).2
  rcases hend with ⟨h1, h2, h3, h4, h5⟩ | ⟨vals, r, P, off', h1, h2, h3, h4, h5, h6, h7, h8, h9, h10, h11, h12, h13⟩
  · have hpr := pureRefill_of hread h4 h5 hqueue
    have hrows := RowsFrom.step (first := first) (q := q) (m := m) (need := need) (need' := elemToks es) (B := B) (P := [])
      (rows := []) (by rw [h1]; exact RowsFrom.nil cfg es _) hqm hml hB (fun j k f hf hj _ => hneed j k f hf hj) (fun _ _ _ _ _ => rfl)
      (Or.inl ⟨rfl, fun k f hf hlt _ => by omega⟩) (by simpa using h5) hpassok (fun hlt => by omega)
    rw [List.append_nil, List.append_nil] at hrows
    by_cases hg : groupOf (B ++ wholes cfg es false q m) (wholes cfg es true q m) = []
    · refine ⟨[], ?_, ?_⟩
      · intro _
        refine ⟨(l.parent, l.rem), ?_⟩
        rw [hpr, hg, h2]; rfl
      · unfold groupOf at hg
        rw [hg] at hrows
        exact hrows
    · refine ⟨[groupOf (B ++ wholes cfg es false q m) (wholes cfg es true q m)], ⟨by simpa using hg, _, _, hpr, by simp [h2]⟩, ?_⟩
      simpa [groupOf] using hrows
  · have hmem : vals ∈ es := List.mem_of_getElem? h6
    have hne := closed_ne_nil hgood hmem h12
    have hpr := pureRefill_of hread h8 h9 hqueue
    obtain ⟨gr, hgr, hrows'⟩ := hih vals r off' h6 h7 h10 h11 h2 h1
    have hvalk : ∀ (k : Nat) f, cfg.feats[k]? = some f → ∃ v, vals[k]? = some v := by
      intro k f hf
      have := (List.getElem?_eq_some_iff.1 hf).1
      have hvl := (hgood.1 _ hmem).1
      exact ⟨vals[k]'(by omega), List.getElem?_eq_getElem _⟩
    have hrows := RowsFrom.step (first := first) (q := q) (m := m) (need := need) (need' := needAt es m off') (B := B) (P := P)
      (rows := gr.flatten) hrows' hqm hml hB (fun j k f hf hj _ => hneed j k f hf hj) (fun j k f _ hj => by unfold needAt; rw [if_neg (by omega)])
      (by
        rcases h13 with ⟨rfl, rfl⟩ | ⟨x, rfl, hx1, hx2⟩
        · left
          refine ⟨rfl, fun k f hf _ _ => ?_⟩
          rw [hneed m k f hf hqm]
          simp [needAt]
        · right
          refine ⟨h1, x, rfl, hx1, fun k f hf => ?_⟩
          obtain ⟨v, hv⟩ := hvalk k f hf
          obtain ⟨g1, g2⟩ := hx2 k f v hf hv
          rw [hneed m k f hf hqm]
          unfold needAt
          rw [if_pos rfl, elemToks_eq h6 hv]
          refine ⟨g1, fun hm => ?_⟩
          simpa using (g2 hm).2) h9 hpassok (fun _ => ⟨hne, by rw [h6]; exact h12⟩)
    have hg : groupOf (B ++ wholes cfg es false q m ++ P) (wholes cfg es true q m) ≠ [] := by
      unfold groupOf
      rw [if_neg hne]
      simp
    refine ⟨groupOf (B ++ wholes cfg es false q m ++ P) (wholes cfg es true q m) :: gr, ⟨by simpa using hg, _, _, hpr, ?_⟩, ?_⟩
    · rw [h3, h4, h5]
      simpa using hgr
    · simpa [groupOf] using hrows

theorem rem_rows {cfg : CtsCfg τ} {es : List (List (CtsVal τ))} (hgood : CtsGood cfg es) : ∀ (D N i : Nat) (b : CtsBody τ) (off : Nat → Nat),
    es.length - i ≤ D → es[i]? = some b.vals → RemAt cfg b off → (CtsLock cfg es → RemLock cfg b.vals off) → passes cfg es i = false →
    (∀ (k : Nat) f v, cfg.feats[k]? = some f → b.vals[k]? = some v → f.isMeta = false → v.toks.length - off k ≤ N) → RemRows cfg es i b off := by
  intro D
  induction D with
  | zero =>
    intro N i b off hD hi
    have := (List.getElem?_eq_some_iff.1 hi).1
    omega
  | succ D ihD =>
    intro N
    induction N using Nat.strongRecOn with
    | _ N ihN =>
    intro i b off hD hi hr hlk hp hN
    have hil := (List.getElem?_eq_some_iff.1 hi).1
    have hmem : b.vals ∈ es := List.mem_of_getElem? hi
    have hvl := (hgood.1 _ hmem).1
    have hvalk : ∀ (k : Nat) f, cfg.feats[k]? = some f → ∃ v, b.vals[k]? = some v := by
      intro k f hf
      have := (List.getElem?_eq_some_iff.1 hf).1
      exact ⟨b.vals[k]'(by omega), List.getElem?_eq_getElem _⟩
    rcases add_step hgood hi hr hlk (LInv.empty cfg es) (Or.inr rfl) with
      ⟨tokens', heq, hinv⟩ | ⟨r, buffer', tokens', P, off', heq, hb', hrow', hra, hrl, hrv, hcl, hP⟩
    · rw [List.nil_append] at hinv heq
      obtain ⟨l, m, h1, h2, h3, h4, h5⟩ := pureLoop_content hgood _ (i + 1) _ _ tokens' [] rfl hil hinv
      have hread : pureRead cfg true es (i + 1, some (i, b)) = some l := by
        unfold pureRead
        simp only [heq]
        exact h3
      rw [List.nil_append] at h4
      obtain ⟨gr, hgr, hrows⟩ := after_loop hgood (first := i) (need := needAt es i off) hread h1 h2 h4 h5
        (Or.inr ⟨rfl, hp, ⟨i, b.cur⟩, rfl, rfl, fun k f hf => by
          obtain ⟨v, hv⟩ := hvalk k f hf
          simp only [CtsPiece.feat, hr.cur hf hv, Option.getD_some, leftToks, needAt, if_true, elemToks_eq hi hv]⟩)
        (fun j k f hf hj => by unfold needAt; rw [if_neg (by omega)])
        (fun vals r off' g1 g2 g3 g4 g5 g6 => by
          subst g2
          exact ihD ((cfg.feats.zip r.vals).map (fun x => x.2.toks.length)).sum m r off' (by omega) g1 g3 g4 g5 (by
            intro k f v hf hv hm
            have : v.toks.length ≤ ((cfg.feats.zip r.vals).map (fun x => x.2.toks.length)).sum := by
              apply le_sum_of_mem'
              refine List.mem_map.2 ⟨(f, v), ?_, rfl⟩
              apply List.mem_of_getElem? (i := k)
              rw [List.getElem?_zip_eq_some]
              exact ⟨hf, hv⟩
            omega))
      exact ⟨gr, hgr, hrows⟩
    · rcases hP with ⟨_, _, h⟩ | ⟨x, rfl, hx, hprog⟩
      · exact absurd rfl h
      · obtain ⟨hlock, hk0, hprog⟩ := hprog rfl
        rw [List.nil_append] at hb' hrow' hcl
        have hread : pureRead cfg true es (i + 1, some (i, b)) = some ⟨i + 1, some (i, r), buffer', [], false⟩ := by
          unfold pureRead
          simp only [heq]
        obtain ⟨k0, f0, v0, hf0, hv0, hm0⟩ := hk0
        have hN0 := hN k0 f0 v0 hf0 hv0 hm0
        obtain ⟨g1, g2⟩ := hprog k0 f0 v0 hf0 hv0 hm0
        obtain ⟨gr, hgr, hrows⟩ := ihN (N - 1) (by omega) i r off' hD (by rw [hrv]; exact hi) hra (by rw [hrv]; exact hrl) hp (by
          rw [hrv]
          intro k f v hf hv hm
          have a1 := hN k f v hf hv hm
          obtain ⟨a2, a3⟩ := hprog k f v hf hv hm
          omega)
        have hpr := pureRefill_of (Q := []) hread hb' hrow' rfl
        have hstep := RowsFrom.step (first := i) (q := i) (m := i) (need := needAt es i off) (need' := needAt es i off') (B := []) (P := [x])
          (rows := gr.flatten) hrows (Nat.le_refl _) (by omega) (Or.inl ⟨rfl, rfl⟩)
          (fun j k f _ _ hj => by unfold needAt; rw [if_neg hj]) (fun j k f _ hj => by unfold needAt; rw [if_neg (by omega)])
          (Or.inr ⟨hil, x, rfl, hx.1, fun k f hf => by
            obtain ⟨v, hv⟩ := hvalk k f hf
            obtain ⟨c1, c2⟩ := hx.2 k f v hf hv
            unfold needAt
            rw [if_pos rfl, if_pos rfl, elemToks_eq hi hv]
            exact ⟨c1, fun hm => (c2 hm).2⟩⟩)
          (by rw [wholes_self]; exact hrow') (by rw [wholes_self]; intro y hy; cases hy)
          (fun _ => by rw [wholes_self, hi]; exact ⟨by simp, hcl⟩)
        rw [wholes_self, wholes_self] at hstep
        refine ⟨[[x]] :: gr, ⟨by simp, (i + 1, some (i, r)), false, hpr.trans ?_, ?_⟩, ?_⟩
        · simp only [groupOf]
          rfl
        · simpa using hgr
        · simpa using hstep

/-- All rows of the input. -/
theorem all_rows {cfg : CtsCfg τ} {es : List (List (CtsVal τ))} (hgood : CtsGood cfg es) :
    ∃ gr : List (List (List (CtsPiece τ))), Refills cfg true es (0, none) (gr.map (List.map (ctsRow cfg.zero cfg.feats))) ∧
      RowsFrom cfg es 0 (elemToks es) gr.flatten := by
  obtain ⟨l, m, h1, h2, h3, h4, h5⟩ := pureLoop_content hgood _ 0 _ _ _ [] rfl (Nat.zero_le _) (LInv.empty cfg es)
  rw [List.nil_append] at h4
  refine after_loop hgood (pt := (0, none)) (q := 0) (m := m) (l := l) ?_ h1 h2 h4 h5 (Or.inl ⟨rfl, rfl⟩) (fun _ _ _ _ _ => rfl) ?_
  · unfold pureRead
    exact h3
  · intro vals r off' g1 g2 g3 g4 g5 g6
    subst g2
    exact rem_rows hgood es.length ((cfg.feats.zip r.vals).map (fun x => x.2.toks.length)).sum m r off' (by omega) g1 g3 g4 g5 (by
      intro k f v hf hv hm
      have : v.toks.length ≤ ((cfg.feats.zip r.vals).map (fun x => x.2.toks.length)).sum := by
        apply le_sum_of_mem'
        refine List.mem_map.2 ⟨(f, v), ?_, rfl⟩
        apply List.mem_of_getElem? (i := k)
        rw [List.getElem?_zip_eq_some]
        exact ⟨hf, hv⟩
      omega)

end Grain
