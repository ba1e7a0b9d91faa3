import Verif.Cts.Content
/-
The rows of concat-then-split: reading a row, and putting the rows together.
-/
namespace Grain

variable {τ : Type}

/-- Element `i` as one piece. -/
def wholePiece (es : List (List (CtsVal τ))) (i : Nat) : CtsPiece τ := ⟨i, (es[i]?.getD []).map (·.toks)⟩

/-- Element `i` is passed through as an output of its own. -/
def passes (cfg : CtsCfg τ) (es : List (List (CtsVal τ))) (i : Nat) : Bool :=
  !cfg.splitFull && fullLength cfg ⟨es[i]?.getD [], emptySlices cfg⟩

/-- The elements from `q` to `m` that are passed through (or not). -/
def wholes (cfg : CtsCfg τ) (es : List (List (CtsVal τ))) (pass : Bool) (q m : Nat) : List (CtsPiece τ) :=
  ((List.range' q (m - q)).filter (fun i => passes cfg es i == pass)).map (wholePiece es)

theorem wholes_self (cfg : CtsCfg τ) (es : List (List (CtsVal τ))) (pass : Bool) (q : Nat) : wholes cfg es pass q q = [] := by
  simp [wholes]

theorem wholes_step (cfg : CtsCfg τ) (es : List (List (CtsVal τ))) (pass : Bool) {q m : Nat} (h : q < m) :
    wholes cfg es pass q m = (if passes cfg es q == pass then [wholePiece es q] else []) ++ wholes cfg es pass (q + 1) m := by
  unfold wholes
  rw [show m - q = (m - (q + 1)) + 1 by omega, List.range'_succ, List.filter_cons]
  split <;> rfl

/-- What the loop leaves: it has reached element `m` (or the end), which was split or refused. -/
def LoopEnd (cfg : CtsCfg τ) (es : List (List (CtsVal τ))) (R : List (CtsPiece τ)) (m : Nat) (l : CtsLoop τ Nat Nat) : Prop :=
  (m = es.length ∧ l.stop = true ∧ l.rem = none ∧ Bodies l.buffer R ∧ RowOk cfg R) ∨
  (∃ vals r P off', m < es.length ∧ passes cfg es m = false ∧ l.stop = false ∧ l.parent = m + 1 ∧ l.rem = some (m, r) ∧ es[m]? = some vals ∧ r.vals = vals ∧
    Bodies l.buffer (R ++ P) ∧ RowOk cfg (R ++ P) ∧ RemAt cfg r off' ∧ (CtsLock cfg es → RemLock cfg vals off') ∧ Closed cfg (R ++ P) vals ∧
    ((P = [] ∧ off' = fun _ => 0) ∨ ∃ x, P = [x] ∧ PieceAt cfg vals m (fun _ => 0) off' x))

theorem passRow_ok {cfg : CtsCfg τ} {es : List (List (CtsVal τ))} (hgood : CtsGood cfg es) {i : Nat} {vals : List (CtsVal τ)} (hi : es[i]? = some vals)
    (hfull : fullLength cfg ⟨vals, emptySlices cfg⟩ = true) :
    packBodies cfg [⟨vals, emptySlices cfg⟩] = .ok (ctsRow cfg.zero cfg.feats [wholePiece es i]) ∧ RowOk cfg [wholePiece es i] := by
  have hmem : vals ∈ es := List.mem_of_getElem? hi
  have hvl := (hgood.1 _ hmem).1
  have hok : RowOk cfg [wholePiece es i] := by
    intro k f hf
    have hkl := (List.getElem?_eq_some_iff.1 hf).1
    have hv : vals[k]? = some (vals[k]'(by omega)) := List.getElem?_eq_getElem _
    have hfeat : (wholePiece es i).feat k = (vals[k]'(by omega)).toks := by
      simp [wholePiece, CtsPiece.feat, hi, hv]
    refine ⟨?_, ?_⟩
    · unfold fullLength at hfull
      rw [Bool.and_eq_true, List.all_eq_true] at hfull
      have h1 := hfull.1 (f, (vals[k]'(by omega)).toks) (by
        apply List.mem_of_getElem? (i := k)
        rw [List.getElem?_zip_eq_some]
        refine ⟨hf, ?_⟩
        simp [fresh_cur hvl, hv])
      rw [rowLen_single, hfeat]
      simpa using h1
    · intro hbos x hx
      simp only [List.mem_singleton] at hx
      subst hx
      rw [hfeat]
      rcases hgood.2 with hmode | hmode
      · exact absurd (hmode.1 f (List.mem_of_getElem? hf)) hbos
      · exact (hmode.2 _ hmem).2 k f _ hf hv hbos
  refine ⟨packBodies_ok ?_ (by simp) hok, hok⟩
  simp [Bodies, wholePiece, hi, fresh_cur hvl]

theorem fresh_remLock {cfg : CtsCfg τ} {es : List (List (CtsVal τ))} {vals : List (CtsVal τ)} (hmem : vals ∈ es) (hlock : CtsLock cfg es) :
    RemLock cfg vals (fun _ => 0) := by
  obtain ⟨n, hn⟩ := (hlock.2 _ hmem).1
  exact ⟨n, 0, fun k f v hf hv hm => ⟨hn k f v hf hv hm, rfl⟩, Or.inl rfl⟩

theorem fresh_remAt {cfg : CtsCfg τ} {es : List (List (CtsVal τ))} (hgood : CtsGood cfg es) {vals : List (CtsVal τ)} (hmem : vals ∈ es) :
    RemAt cfg ⟨vals, emptySlices cfg⟩ (fun _ => 0) :=
  RemAt.fresh (hgood.1 _ hmem).1 (fun k f v hf hv hm => (((hgood.1 _ hmem).2 k f v hf hv).2 hm).1)

theorem pureLoop_content {cfg : CtsCfg τ} {es : List (List (CtsVal τ))} (hgood : CtsGood cfg es) : ∀ (rest : List (List (CtsVal τ))) (q : Nat)
    (buffer : List (CtsBody τ)) (B : List (CtsPiece τ)) (tokens : List Nat) (queue : List (List (CtsCol τ))), es.drop q = rest → q ≤ es.length →
    LInv cfg es buffer B tokens →
    ∃ l m, q ≤ m ∧ m ≤ es.length ∧ pureLoop cfg true rest q buffer tokens queue = some l ∧
      l.queue = queue ++ (wholes cfg es true q m).map (fun x => ctsRow cfg.zero cfg.feats [x]) ∧
      LoopEnd cfg es (B ++ wholes cfg es false q m) m l := by
  intro rest
  induction rest with
  | nil =>
    intro q buffer B tokens queue hd hq hinv
    have hq' : q = es.length := by
      have : es.length ≤ q := by simpa using hd
      omega
    subst hq'
    refine ⟨_, es.length, Nat.le_refl _, Nat.le_refl _, rfl, by simp [wholes_self], Or.inl ⟨rfl, rfl, rfl, ?_, ?_⟩⟩
    · rw [wholes_self, List.append_nil]; exact hinv.1
    · rw [wholes_self, List.append_nil]; exact hinv.2.1
  | cons vals rest ih =>
    intro q buffer B tokens queue hd hq hinv
    have hlt : q < es.length := by
      have := congrArg List.length hd
      simp at this; omega
    have hget : es[q]? = some vals := by
      have := congrArg (fun l => l[0]?) hd
      simpa using this
    have hmem : vals ∈ es := List.mem_of_getElem? hget
    have hd' : es.drop (q + 1) = rest := by
      rw [← List.tail_drop, hd]; rfl
    have hpass : passes cfg es q = (!cfg.splitFull && fullLength cfg ⟨vals, emptySlices cfg⟩) := by
      simp [passes, hget]
    cases hp : passes cfg es q with
    | true =>
      rw [hp] at hpass
      have hfull : fullLength cfg ⟨vals, emptySlices cfg⟩ = true := by
        have := hpass.symm
        rw [Bool.and_eq_true] at this
        exact this.2
      obtain ⟨hpk, _⟩ := passRow_ok hgood hget hfull
      obtain ⟨l, m, h1, h2, h3, h4, h5⟩ := ih (q + 1) buffer B tokens (queue ++ [ctsRow cfg.zero cfg.feats [wholePiece es q]]) hd' hlt hinv
      refine ⟨l, m, by omega, h2, ?_, ?_, ?_⟩
      · simp only [pureLoop, hpass.symm, if_true, hpk]
        exact h3
      · rw [h4, wholes_step cfg es true (q := q) (by omega)]
        simp [hp]
      · rw [wholes_step cfg es false (q := q) (by omega)]
        simpa [hp] using h5
    | false =>
      rw [hp] at hpass
      rcases add_step hgood (b := ⟨vals, emptySlices cfg⟩) hget (fresh_remAt hgood hmem) (fresh_remLock hmem) hinv (Or.inl (fun _ => rfl)) with
        ⟨tokens', heq, hinv'⟩ | ⟨r, buffer', tokens', P, off', heq, hb', hrow', hra, hrl, hrv, hcl, hP⟩
      · have hw : (⟨q, (CtsBody.mk vals (emptySlices cfg)).cur⟩ : CtsPiece τ) = wholePiece es q := by
          rw [fresh_cur (hgood.1 _ hmem).1]
          simp [wholePiece, hget]
        rw [hw] at hinv'
        obtain ⟨l, m, h1, h2, h3, h4, h5⟩ := ih (q + 1) _ _ tokens' queue hd' hlt hinv'
        refine ⟨l, m, by omega, h2, ?_, ?_, ?_⟩
        · simp only [pureLoop, hpass.symm, Bool.false_eq_true, if_false, heq]
          exact h3
        · rw [h4, wholes_step cfg es true (q := q) (by omega)]
          simp [hp]
        · rw [wholes_step cfg es false (q := q) (by omega)]
          simpa [hp] using h5
      · refine ⟨⟨q + 1, some (q, r), buffer', queue, false⟩, q, Nat.le_refl _, hq, ?_, by simp [wholes_self], Or.inr ?_⟩
        · simp only [pureLoop, hpass.symm, Bool.false_eq_true, if_false, heq]
        · refine ⟨vals, r, P, off', hlt, hp, rfl, rfl, rfl, hget, hrv, ?_, ?_, hra, hrl, ?_, ?_⟩
          · rw [wholes_self, List.append_nil]; exact hb'
          · rw [wholes_self, List.append_nil]; exact hrow'
          · rw [wholes_self, List.append_nil]; exact hcl
          · rcases hP with ⟨h1, h2, _⟩ | ⟨x, h1, h2, _⟩
            · exact Or.inl ⟨h1, h2⟩
            · exact Or.inr ⟨x, h1, h2⟩

/-! ### All rows -/

/-- Tokens of feature `k` of element `j` in a list of pieces. -/
def contOf (k j : Nat) (l : List (CtsPiece τ)) : List τ := ((l.filter (fun x => decide (x.src = j))).map (·.feat k)).flatten

theorem contOf_append (k j : Nat) (l m : List (CtsPiece τ)) : contOf k j (l ++ m) = contOf k j l ++ contOf k j m := by
  simp [contOf]

theorem contOf_nil_of {k j : Nat} {l : List (CtsPiece τ)} (h : ∀ x ∈ l, x.src ≠ j) : contOf k j l = [] := by
  unfold contOf
  rw [List.filter_eq_nil_iff.2 (by intro x hx; simp [h x hx])]
  rfl

theorem contOf_single (k : Nat) (x : CtsPiece τ) : contOf k x.src [x] = x.feat k := by
  simp [contOf]

theorem mem_wholes {cfg : CtsCfg τ} {es : List (List (CtsVal τ))} {pass : Bool} {q m : Nat} {x : CtsPiece τ} (h : x ∈ wholes cfg es pass q m) :
    ∃ i, q ≤ i ∧ i < m ∧ passes cfg es i = pass ∧ x = wholePiece es i := by
  obtain ⟨i, hi, rfl⟩ := List.mem_map.1 h
  rw [List.mem_filter, List.mem_range'] at hi
  obtain ⟨⟨d, hd, rfl⟩, hp⟩ := hi
  exact ⟨q + 1 * d, by omega, by omega, by simpa using hp, rfl⟩

/-- Tokens of feature `k` of element `j`. -/
def elemToks (es : List (List (CtsVal τ))) (k j : Nat) : List τ := (wholePiece es j).feat k

theorem contOf_wholes (cfg : CtsCfg τ) (es : List (List (CtsVal τ))) (k j : Nat) (q m : Nat) (hq : q ≤ j) (hm : j < m) (pass : Bool) :
    contOf k j (wholes cfg es pass q m) = if passes cfg es j = pass then elemToks es k j else [] := by
  obtain ⟨d, hd⟩ : ∃ d, m - q = d := ⟨_, rfl⟩
  induction d generalizing q with
  | zero => omega
  | succ d ih =>
    rw [wholes_step cfg es pass (by omega), contOf_append]
    by_cases hj : j = q
    · subst hj
      rw [contOf_nil_of (l := wholes cfg es pass (j + 1) m) (by
        intro x hx
        obtain ⟨i, hi, _, _, rfl⟩ := mem_wholes hx
        simp [wholePiece]; omega), List.append_nil]
      by_cases hp : passes cfg es j = pass
      · rw [if_pos hp, if_pos (by simpa using hp)]
        exact contOf_single k (wholePiece es j)
      · rw [if_neg hp, if_neg (by simpa using hp)]
        rfl
    · rw [ih (q + 1) (by omega) (by omega)]
      rw [contOf_nil_of (l := if (passes cfg es q == pass) = true then [wholePiece es q] else []) (by
        intro x hx
        split at hx
        · simp only [List.mem_singleton] at hx
          subst hx
          simp [wholePiece]; omega
        · cases hx), List.nil_append]

theorem wholes_sorted (cfg : CtsCfg τ) (es : List (List (CtsVal τ))) (pass : Bool) (q m : Nat) :
    ((wholes cfg es pass q m).map (·.src)).Pairwise (· < ·) := by
  unfold wholes
  rw [List.map_map]
  have : ((fun x : CtsPiece τ => x.src) ∘ wholePiece es) = id := rfl
  rw [this, List.map_id]
  exact List.Pairwise.filter _ (List.pairwise_lt_range')

theorem wholes_all {cfg : CtsCfg τ} (hs : cfg.splitFull = true) (es : List (List (CtsVal τ))) (q m : Nat) :
    wholes cfg es false q m = (List.range' q (m - q)).map (wholePiece es) ∧ wholes cfg es true q m = [] := by
  have hp : ∀ i, passes cfg es i = false := by intro i; simp [passes, hs]
  refine ⟨?_, ?_⟩
  · unfold wholes
    rw [List.filter_eq_self.2 (by intro i _; simp [hp])]
  · unfold wholes
    rw [List.filter_eq_nil_iff.2 (by intro i _; simp [hp])]
    rfl

/-- The rows contain, from element `first` on, the tokens `need k j` of feature `k` of element `j`. -/
structure RowsFrom (cfg : CtsCfg τ) (es : List (List (CtsVal τ))) (first : Nat) (need : Nat → Nat → List τ) (rows : List (List (CtsPiece τ))) : Prop where
  fit : ∀ row ∈ rows, row ≠ [] ∧ (row.map (·.src)).Pairwise (· < ·) ∧ RowOk cfg row
  src : ∀ x ∈ rows.flatten, first ≤ x.src ∧ x.src < es.length ∧ ∀ (k : Nat) f, cfg.feats[k]? = some f → f.isMeta = true → x.feat k = elemToks es k x.src
  content : ∀ j (k : Nat) f, first ≤ j → j < es.length → cfg.feats[k]? = some f → f.isMeta = false → contOf k j rows.flatten = need k j
  concat : cfg.splitFull = true → ∀ (k : Nat) f, cfg.feats[k]? = some f → f.isMeta = false →
    (rows.flatten.map (·.feat k)).flatten = ((List.range' first (es.length - first)).map (need k)).flatten
  tight : cfg.splitFull = true → ∀ (j : Nat) row next x, rows[j]? = some row → rows[j + 1]? = some next → next.head? = some x →
    ∃ (k : Nat) (f : CtsFeat τ), cfg.feats[k]? = some f ∧
      (f.isMeta = false ∧ rowLen row k = f.len ∨ f.isMeta = true ∧ f.len < rowLen row k + (x.feat k).length)
  head : first < es.length → cfg.splitFull = true → ∃ row x, rows.head? = some row ∧ row.head? = some x ∧ x.src = first
  alone : ∀ j, first ≤ j → j < es.length → passes cfg es j = true → [wholePiece es j] ∈ rows

/-- One more refill: the row `B ++ … ++ P`, the elements passed through, and the rows of the later refills. -/
theorem RowsFrom.step {cfg : CtsCfg τ} {es : List (List (CtsVal τ))} {first q m : Nat} {need need' : Nat → Nat → List τ} {B P : List (CtsPiece τ)}
    {rows : List (List (CtsPiece τ))} (hrest : RowsFrom cfg es m need' rows) (hqm : q ≤ m) (hml : m ≤ es.length)
    (hB : (first = q ∧ B = []) ∨ (q = first + 1 ∧ passes cfg es first = false ∧ ∃ x, B = [x] ∧ x.src = first ∧ ∀ (k : Nat) f, cfg.feats[k]? = some f →
      x.feat k = if f.isMeta then elemToks es k first else need k first))
    (hneed : ∀ j (k : Nat) f, cfg.feats[k]? = some f → q ≤ j → j ≠ m → need k j = elemToks es k j)
    (hneed' : ∀ j (k : Nat) f, cfg.feats[k]? = some f → m < j → need' k j = elemToks es k j)
    (hP : (P = [] ∧ ∀ (k : Nat) f, cfg.feats[k]? = some f → m < es.length → f.isMeta = false → need' k m = need k m) ∨
      (m < es.length ∧ ∃ x, P = [x] ∧ x.src = m ∧ ∀ (k : Nat) f, cfg.feats[k]? = some f →
      (f.isMeta = true → x.feat k = elemToks es k m) ∧ (f.isMeta = false → x.feat k ++ need' k m = need k m)))
    (hrow : RowOk cfg (B ++ wholes cfg es false q m ++ P))
    (hpassok : ∀ x ∈ wholes cfg es true q m, RowOk cfg [x])
    (hclosed : m < es.length → B ++ wholes cfg es false q m ++ P ≠ [] ∧ Closed cfg (B ++ wholes cfg es false q m ++ P) (es[m]?.getD [])) :
    RowsFrom cfg es first need
      ((if B ++ wholes cfg es false q m ++ P = [] then [] else [B ++ wholes cfg es false q m ++ P]) ++ (wholes cfg es true q m).map (fun x => [x]) ++ rows) := by
  generalize hR : B ++ wholes cfg es false q m ++ P = R at *
  have hfm : first ≤ q := by
    rcases hB with ⟨h1, _⟩ | ⟨h1, _⟩ <;> omega
  have hBsrc : ∀ x ∈ B, x.src = first ∧ first < q := by
    intro x hx
    rcases hB with ⟨_, rfl⟩ | ⟨h1, _, y, rfl, h2, _⟩
    · cases hx
    · simp only [List.mem_singleton] at hx
      subst hx
      exact ⟨h2, by omega⟩
  have hPsrc : ∀ x ∈ P, x.src = m ∧ m < es.length := by
    intro x hx
    rcases hP with ⟨rfl, _⟩ | ⟨hm, y, rfl, h2, _⟩
    · cases hx
    · simp only [List.mem_singleton] at hx
      subst hx
      exact ⟨h2, hm⟩
  have hmetaW : ∀ i, i < es.length → ∀ (k : Nat) (f : CtsFeat τ), cfg.feats[k]? = some f → f.isMeta = true → (wholePiece es i).feat k = elemToks es k (wholePiece es i).src := by
    intro i _ k f _ _; rfl
  have hRmem : ∀ x ∈ R, first ≤ x.src ∧ x.src < es.length ∧ ∀ (k : Nat) f, cfg.feats[k]? = some f → f.isMeta = true → x.feat k = elemToks es k x.src := by
    intro x hx
    rw [← hR] at hx
    rcases List.mem_append.1 hx with hx | hx
    · rcases List.mem_append.1 hx with hx | hx
      · rcases hB with ⟨_, rfl⟩ | ⟨h1, _, y, rfl, h2, h3⟩
        · cases hx
        · simp only [List.mem_singleton] at hx
          subst hx
          refine ⟨by omega, by omega, ?_⟩
          intro k f hf hm
          rw [h3 k f hf, if_pos hm, h2]
      · obtain ⟨i, h1, h2, _, rfl⟩ := mem_wholes hx
        exact ⟨by simp [wholePiece]; omega, by simp [wholePiece]; omega, hmetaW i (by omega)⟩
    · rcases hP with ⟨rfl, _⟩ | ⟨hm, y, rfl, h2, h3⟩
      · cases hx
      · simp only [List.mem_singleton] at hx
        subst hx
        refine ⟨by omega, by omega, ?_⟩
        intro k f hf hmm
        rw [(h3 k f hf).1 hmm, h2]
  have hflat : ((if R = [] then [] else [R]) ++ (wholes cfg es true q m).map (fun x => [x]) ++ rows).flatten = R ++ wholes cfg es true q m ++ rows.flatten := by
    rw [List.flatten_append, List.flatten_append]
    congr 1
    congr 1
    · split
      · rename_i h; rw [h]; rfl
      · simp
    · generalize wholes cfg es true q m = l
      induction l with
      | nil => rfl
      | cons a l ih => simp [ih]
  refine ⟨?_, ?_, ?_, ?_, ?_, ?_, ?_⟩
  · intro row hmem
    rcases List.mem_append.1 hmem with hmem | hmem
    · rcases List.mem_append.1 hmem with hmem | hmem
      · split at hmem
        · cases hmem
        · simp only [List.mem_singleton] at hmem
          subst hmem
          refine ⟨by assumption, ?_, hrow⟩
          rw [← hR, List.map_append, List.map_append, List.pairwise_append, List.pairwise_append]
          refine ⟨⟨?_, wholes_sorted _ _ _ _ _, ?_⟩, ?_, ?_⟩
          · rcases hB with ⟨_, rfl⟩ | ⟨_, _, y, rfl, _⟩ <;> simp
          · intro a ha b hb
            obtain ⟨x, hx, rfl⟩ := List.mem_map.1 ha
            obtain ⟨y, hy, rfl⟩ := List.mem_map.1 hb
            obtain ⟨i, hi, _, _, rfl⟩ := mem_wholes hy
            have := hBsrc x hx
            simp [wholePiece]; omega
          · rcases hP with ⟨rfl, _⟩ | ⟨_, y, rfl, _⟩ <;> simp
          · intro a ha b hb
            obtain ⟨y, hy, rfl⟩ := List.mem_map.1 hb
            have hy' := hPsrc y hy
            rcases List.mem_append.1 ha with ha | ha
            · obtain ⟨x, hx, rfl⟩ := List.mem_map.1 ha
              have := hBsrc x hx
              omega
            · obtain ⟨x, hx, rfl⟩ := List.mem_map.1 ha
              obtain ⟨i, _, hi, _, rfl⟩ := mem_wholes hx
              simp [wholePiece]; omega
      · obtain ⟨x, hx, rfl⟩ := List.mem_map.1 hmem
        exact ⟨by simp, by simp, hpassok x hx⟩
    · exact hrest.fit row hmem
  · intro x hx
    rw [hflat] at hx
    rcases List.mem_append.1 hx with hx | hx
    · rcases List.mem_append.1 hx with hx | hx
      · exact hRmem x hx
      · obtain ⟨i, h1, h2, _, rfl⟩ := mem_wholes hx
        exact ⟨by simp [wholePiece]; omega, by simp [wholePiece]; omega, hmetaW i (by omega)⟩
    · obtain ⟨h1, h2, h3⟩ := hrest.src x hx
      exact ⟨by omega, h2, h3⟩
  · intro j k f hj hjl hf hm
    rw [hflat, contOf_append, contOf_append, ← hR, contOf_append, contOf_append]
    have hnB : j ≠ first ∨ q = first → contOf k j B = [] := by
      intro h
      apply contOf_nil_of
      intro x hx
      have := hBsrc x hx
      omega
    have hnP : j ≠ m → contOf k j P = [] := by
      intro h
      apply contOf_nil_of
      intro x hx
      have := hPsrc x hx
      omega
    have hnW : ∀ pass, (j < q ∨ m ≤ j) → contOf k j (wholes cfg es pass q m) = [] := by
      intro pass h
      apply contOf_nil_of
      intro x hx
      obtain ⟨i, h1, h2, _, rfl⟩ := mem_wholes hx
      simp [wholePiece]; omega
    have hnR : j < m → contOf k j rows.flatten = [] := by
      intro h
      apply contOf_nil_of
      intro x hx
      have := (hrest.src x hx).1
      omega
    rcases Nat.lt_or_ge j q with h1 | h1
    · rw [hnW _ (Or.inl h1), hnW _ (Or.inl h1), hnP (by omega), hnR (by omega)]
      rcases hB with ⟨h2, _⟩ | ⟨h2, _, x, rfl, h3, h4⟩
      · omega
      · have : j = x.src := by omega
        subst this
        rw [contOf_single, h4 k f hf, hm, h3]
        simp
    · rw [hnB (by omega)]
      rcases Nat.lt_trichotomy j m with h2 | h2 | h2
      · rw [contOf_wholes cfg es k j q m h1 h2, contOf_wholes cfg es k j q m h1 h2, hnP (by omega), hnR h2, hneed j k f hf h1 (by omega)]
        cases passes cfg es j <;> simp
      · subst h2
        rw [hnW _ (Or.inr (Nat.le_refl _)), hnW _ (Or.inr (Nat.le_refl _)), hrest.content j k f (Nat.le_refl _) hjl hf hm]
        rcases hP with ⟨rfl, h3⟩ | ⟨_, x, rfl, h3, h4⟩
        · simp [contOf, h3 k f hf hjl hm]
        · subst h3
          rw [contOf_single, ← (h4 k f hf).2 hm]
          simp
      · rw [hnW _ (Or.inr (by omega)), hnW _ (Or.inr (by omega)), hnP (by omega), hrest.content j k f (by omega) hjl hf hm, hneed' j k f hf h2,
          hneed j k f hf (by omega) (by omega)]
        simp
  · intro hs k f hf hm
    rw [hflat, ← hR, (wholes_all hs es q m).1, (wholes_all hs es q m).2]
    simp only [List.map_append, List.flatten_append, List.append_nil]
    rw [hrest.concat hs k f hf hm]
    have hsplit : List.range' first (es.length - first) = List.range' first (q - first) ++ List.range' q (m - q) ++ List.range' m (es.length - m) := by
      have e1 : List.range' first (q - first) ++ List.range' q (m - q) = List.range' first (m - first) := by
        have := List.range'_append (s := first) (m := q - first) (n := m - q) (step := 1)
        rw [show first + 1 * (q - first) = q by omega, show q - first + (m - q) = m - first by omega] at this
        exact this
      have e2 : List.range' first (m - first) ++ List.range' m (es.length - m) = List.range' first (es.length - first) := by
        have := List.range'_append (s := first) (m := m - first) (n := es.length - m) (step := 1)
        rw [show first + 1 * (m - first) = m by omega, show m - first + (es.length - m) = es.length - first by omega] at this
        exact this
      rw [e1, e2]
    rw [hsplit]
    simp only [List.map_append, List.flatten_append]
    have hBk : (B.map (·.feat k)).flatten = ((List.range' first (q - first)).map (need k)).flatten := by
      rcases hB with ⟨h1, rfl⟩ | ⟨h1, _, x, rfl, _, h3⟩
      · simp [h1]
      · rw [h1, show first + 1 - first = 1 by omega]
        simp [h3 k f hf, hm]
    have hWk : (((List.range' q (m - q)).map (wholePiece es)).map (·.feat k)).flatten = ((List.range' q (m - q)).map (need k)).flatten := by
      rw [List.map_map]
      congr 1
      apply List.map_congr_left
      intro i hi
      rw [List.mem_range'] at hi
      obtain ⟨d, hd, rfl⟩ := hi
      rw [hneed _ k f hf (by omega) (by omega)]
      rfl
    have hPk : (P.map (·.feat k)).flatten ++ ((List.range' m (es.length - m)).map (need' k)).flatten = ((List.range' m (es.length - m)).map (need k)).flatten := by
      rcases Nat.lt_or_ge m es.length with hlt | hge
      · rw [show es.length - m = (es.length - (m + 1)) + 1 by omega, List.range'_succ]
        simp only [List.map_cons, List.flatten_cons]
        have htail : (List.range' (m + 1) (es.length - (m + 1))).map (need' k) = (List.range' (m + 1) (es.length - (m + 1))).map (need k) := by
          apply List.map_congr_left
          intro i hi
          rw [List.mem_range'] at hi
          obtain ⟨d, hd, rfl⟩ := hi
          rw [hneed _ k f hf (by omega) (by omega), hneed' _ k f hf (by omega)]
        rw [htail, ← List.append_assoc]
        congr 1
        rcases hP with ⟨rfl, h3⟩ | ⟨_, x, rfl, _, h4⟩
        · simp [h3 k f hf hlt hm]
        · simpa using (h4 k f hf).2 hm
      · rw [show es.length - m = 0 by omega]
        rcases hP with ⟨rfl, _⟩ | ⟨h, _⟩
        · rfl
        · omega
    rw [hBk, hWk, List.append_assoc, List.append_assoc, hPk, ← List.append_assoc]
  · intro hs j row next x hj hj1 hx
    rw [(wholes_all hs es q m).2] at hj hj1
    simp only [List.map_nil, List.append_nil] at hj hj1
    by_cases hRe : R = []
    · rw [if_pos hRe] at hj hj1
      exact hrest.tight hs j row next x hj hj1 hx
    · rw [if_neg hRe] at hj hj1
      simp only [List.cons_append, List.nil_append] at hj hj1
      cases j with
      | succ j => exact hrest.tight hs j row next x (by simpa using hj) (by simpa using hj1) hx
      | zero =>
        simp only [List.getElem?_cons_zero, Option.some.injEq] at hj
        subst hj
        simp only [Nat.zero_add, List.getElem?_cons_succ] at hj1
        have hmem : next ∈ rows := List.mem_of_getElem? hj1
        have hxm : x ∈ rows.flatten := List.mem_flatten.2 ⟨next, hmem, List.mem_of_mem_head? hx⟩
        have hlt : m < es.length := by
          have := hrest.src x hxm
          omega
        obtain ⟨row', x', hr', hx', hsrc⟩ := hrest.head hlt hs
        have : row' = next := by
          rw [List.head?_eq_getElem?, hj1] at hr'
          exact (Option.some.inj hr').symm
        subst this
        rw [hx] at hx'
        cases hx'
        obtain ⟨k, f, hf, hc⟩ := (hclosed hlt).2
        refine ⟨k, f, hf, ?_⟩
        rcases hc with hc | ⟨hc1, v, hv, hc2⟩
        · exact Or.inl hc
        · right
          refine ⟨hc1, ?_⟩
          rw [(hrest.src x hxm).2.2 k f hf hc1, hsrc]
          simp only [elemToks, wholePiece, CtsPiece.feat, List.getElem?_map, hv, Option.map_some, Option.getD_some]
          exact hc2
  · intro hlt hs
    have hRne : R ≠ [] := by
      rcases Nat.lt_or_ge m es.length with h | h
      · exact (hclosed h).1
      · rw [← hR, (wholes_all hs es q m).1]
        rcases hB with ⟨h1, rfl⟩ | ⟨_, _, x, rfl, _⟩
        · rw [show m - q = (m - q - 1) + 1 by omega, List.range'_succ]
          simp
        · simp
    rw [if_neg hRne]
    have hhead : ∃ x, R.head? = some x ∧ x.src = first := by
      rw [← hR, (wholes_all hs es q m).1]
      rcases hB with ⟨h1, rfl⟩ | ⟨_, _, x, rfl, h2, _⟩
      · rcases Nat.lt_or_ge q m with h | h
        · rw [show m - q = (m - q - 1) + 1 by omega, List.range'_succ]
          exact ⟨wholePiece es q, by simp, by simp [wholePiece, h1]⟩
        · have hqm' : m = q := by omega
          rcases hP with ⟨rfl, _⟩ | ⟨_, x, rfl, h2, _⟩
          · rw [← hR, (wholes_all hs es q m).1, hqm'] at hRne
            simp at hRne
          · rw [hqm']
            exact ⟨x, by simp, by omega⟩
      · exact ⟨x, by simp, h2⟩
    obtain ⟨x, h1, h2⟩ := hhead
    exact ⟨R, x, by simp, h1, h2⟩
  · intro j hj hjl hp
    rcases Nat.lt_or_ge j m with h | h
    · have hqj : q ≤ j := by
        rcases hB with ⟨h1, _⟩ | ⟨h1, h2, _⟩
        · omega
        · by_contra hc
          have : j = first := by omega
          rw [this, h2] at hp
          cases hp
      apply List.mem_append_left
      apply List.mem_append_right
      refine List.mem_map.2 ⟨wholePiece es j, List.mem_map.2 ⟨j, List.mem_filter.2 ⟨?_, by simp [hp]⟩, rfl⟩, rfl⟩
      rw [List.mem_range']
      exact ⟨j - q, by omega, by omega⟩
    · exact List.mem_append_right _ (hrest.alone j h hjl hp)

end Grain
