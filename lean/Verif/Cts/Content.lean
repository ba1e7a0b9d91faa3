import Verif.Cts.Add
import Verif.ListUtil
/-
The tokens in the rows of concat-then-split: lemmas.
-/
namespace Grain

variable {τ : Type}

/-! ### Packing a row -/

theorem packColGo_ok (zero : τ) (f : CtsFeat τ) : ∀ (vs : List (List τ)) (seg : Nat) (pre : List τ) (apre : List (Nat × Nat)),
    apre.length = pre.length → pre.length + vs.flatten.length ≤ f.len → (f.bos ≠ none → ∀ v ∈ vs, v ≠ []) →
    packColGo f seg pre.length (pre ++ List.replicate (f.len - pre.length) zero) (apre ++ List.replicate (f.len - pre.length) (0, 0)) vs =
      .ok (pre ++ (vs.map (withBos f.bos)).flatten ++ List.replicate (f.len - (pre.length + vs.flatten.length)) zero,
        apre ++ (vs.mapIdx (fun j v => (List.range v.length).map (fun k => (seg + j, k)))).flatten ++ List.replicate (f.len - (pre.length + vs.flatten.length)) (0, 0)) := by
  intro vs
  induction vs with
  | nil => intro seg pre apre ha hl hb; simp [packColGo]
  | cons v vs ih =>
    intro seg pre apre ha hl hb
    simp only [List.flatten_cons, List.length_append] at hl
    simp only [packColGo]
    rw [if_neg (by omega)]
    have e1 : (pre ++ List.replicate (f.len - pre.length) zero).take pre.length ++ v ++ (pre ++ List.replicate (f.len - pre.length) zero).drop (pre.length + v.length) =
        (pre ++ v) ++ List.replicate (f.len - (pre ++ v).length) zero := by
      rw [List.take_left, ← List.drop_drop, List.drop_left, List.drop_replicate, List.length_append]
      congr 2
      omega
    have e2 : (apre ++ List.replicate (f.len - pre.length) ((0 : Nat), (0 : Nat))).take pre.length ++ (List.range v.length).map (fun k => (seg, k)) ++
        (apre ++ List.replicate (f.len - pre.length) (0, 0)).drop (pre.length + v.length) =
        (apre ++ (List.range v.length).map (fun k => (seg, k))) ++ List.replicate (f.len - (pre ++ v).length) (0, 0) := by
      rw [← ha, List.take_left, ← List.drop_drop, List.drop_left, List.drop_replicate, List.length_append, ha]
      congr 2
      omega
    rw [e1, e2]
    have hidx : (vs.mapIdx (fun j v => (List.range v.length).map (fun k => (seg + 1 + j, k)))) =
        vs.mapIdx (fun j v => (List.range v.length).map (fun k => (seg + (j + 1), k))) := by
      congr 1
      funext j v
      congr 1
      funext k
      congr 1
      omega
    cases hbos : f.bos with
    | none =>
      simp only []
      have := ih (seg + 1) (pre ++ v) (apre ++ (List.range v.length).map (fun k => (seg, k))) (by simp [ha])
        (by rw [List.length_append]; omega) (fun hb' => absurd hbos hb')
      rw [List.length_append] at this ⊢
      rw [this, hidx, List.flatten_cons, List.length_append, ← Nat.add_assoc]
      simp only [List.map_cons, List.flatten_cons, List.mapIdx_cons, hbos, withBos, List.append_assoc, Nat.add_zero]
    | some b =>
      have hv : v ≠ [] := hb (by rw [hbos]; simp) v (by simp)
      obtain ⟨t, v', rfl⟩ := List.exists_cons_of_ne_nil hv
      simp only []
      rw [if_pos (by simp at hl; omega)]
      have e3 : ((pre ++ t :: v') ++ List.replicate (f.len - (pre ++ t :: v').length) zero).set pre.length b =
          (pre ++ b :: v') ++ List.replicate (f.len - (pre ++ b :: v').length) zero := by
        rw [List.append_assoc, List.set_append_right _ _ (Nat.le_refl _)]
        simp
      rw [e3]
      have := ih (seg + 1) (pre ++ b :: v') (apre ++ (List.range (t :: v').length).map (fun k => (seg, k))) (by simp [ha])
        (by rw [List.length_append]; simp at hl ⊢; omega) (fun hb' w hw => hb hb' w (by simp [hw]))
      have hlen : (pre ++ b :: v').length = pre.length + (t :: v').length := by simp
      rw [hlen] at this
      rw [show (pre ++ t :: v').length = pre.length + (t :: v').length by simp, hlen]
      rw [this, hidx, List.flatten_cons, List.length_append, ← Nat.add_assoc]
      simp only [List.map_cons, List.flatten_cons, List.mapIdx_cons, hbos, withBos, List.append_assoc, Nat.add_zero, List.cons_append]

theorem packCol_ok (zero : τ) (f : CtsFeat τ) (vs : List (List τ)) (hl : vs.flatten.length ≤ f.len) (hb : f.bos ≠ none → ∀ v ∈ vs, v ≠ []) :
    packCol zero f vs = .ok (ctsCol zero f vs) := by
  have := packColGo_ok zero f vs 1 [] [] rfl (by simpa using hl) hb
  simp only [List.length_nil, List.nil_append, Nat.sub_zero, Nat.zero_add] at this
  unfold packCol
  rw [this]
  simp only [ctsCol, Nat.add_comm]

/-- Bodies and the pieces they are. -/
def Bodies (buffer : List (CtsBody τ)) (B : List (CtsPiece τ)) : Prop := buffer.map CtsBody.cur = B.map CtsPiece.toks

/-- Tokens of feature `k` in a row. -/
def rowLen (R : List (CtsPiece τ)) (k : Nat) : Nat := (R.map (·.feat k)).flatten.length

theorem rowLen_append (R S : List (CtsPiece τ)) (k : Nat) : rowLen (R ++ S) k = rowLen R k + rowLen S k := by
  simp [rowLen]

theorem rowLen_single (x : CtsPiece τ) (k : Nat) : rowLen [x] k = (x.feat k).length := by
  simp [rowLen]

def RowOk (cfg : CtsCfg τ) (R : List (CtsPiece τ)) : Prop :=
  ∀ (k : Nat) f, cfg.feats[k]? = some f → rowLen R k ≤ f.len ∧ (f.bos ≠ none → ∀ x ∈ R, x.feat k ≠ [])

theorem packBodies_ok {cfg : CtsCfg τ} {buffer : List (CtsBody τ)} {R : List (CtsPiece τ)} (hb : Bodies buffer R) (hne : R ≠ []) (hok : RowOk cfg R) :
    packBodies cfg buffer = .ok (ctsRow cfg.zero cfg.feats R) := by
  have hne' : buffer.isEmpty = false := by
    cases buffer with
    | nil =>
      have := congrArg List.length hb
      simp only [List.map_nil, List.length_nil, List.length_map] at this
      exact absurd (List.length_eq_zero_iff.1 this.symm) hne
    | cons _ _ => rfl
  unfold packBodies
  rw [hne', if_neg (by simp)]
  rw [mapM_ok_of_forall (g := fun x => ctsCol cfg.zero x.2 (R.map (·.feat x.1)))]
  · unfold ctsRow
    congr 1
    apply List.ext_getElem?
    intro k
    simp only [List.getElem?_map, List.getElem?_mapIdx, Option.map_map]
    rfl
  · intro x hx
    obtain ⟨k, hk⟩ := List.getElem?_of_mem hx
    rw [List.getElem?_mapIdx] at hk
    cases hf : cfg.feats[k]? with
    | none => rw [hf] at hk; cases hk
    | some f =>
      rw [hf] at hk
      cases hk
      have hmap : buffer.map (fun b => (b.cur[k]?).getD []) = R.map (·.feat k) := by
        have := congrArg (List.map (fun (c : List (List τ)) => (c[k]?).getD [])) hb
        rw [List.map_map, List.map_map] at this
        exact this
      simp only [hmap]
      obtain ⟨h1, h2⟩ := hok k f hf
      apply packCol_ok
      · exact h1
      · intro hbos v hv
        obtain ⟨x, hx, rfl⟩ := List.mem_map.1 hv
        exact h2 hbos x hx

/-! ### Adding -/

def RowLock (cfg : CtsCfg τ) (R : List (CtsPiece τ)) : Prop := ∃ T, ∀ (k : Nat) f, cfg.feats[k]? = some f → f.isMeta = false → rowLen R k = T

/-- The state of the loop: the row collected so far. -/
def LInv (cfg : CtsCfg τ) (es : List (List (CtsVal τ))) (buffer : List (CtsBody τ)) (B : List (CtsPiece τ)) (tokens : List Nat) : Prop :=
  Bodies buffer B ∧ RowOk cfg B ∧ tokens.length = cfg.feats.length ∧ (∀ (k : Nat) f, cfg.feats[k]? = some f → tokens[k]? = some (rowLen B k)) ∧
  (CtsLock cfg es → RowLock cfg B)

/-- In lock step, all features have the same number of tokens used, and there are tokens left if some were used. -/
def RemLock (cfg : CtsCfg τ) (vals : List (CtsVal τ)) (off : Nat → Nat) : Prop :=
  ∃ n o, (∀ (k : Nat) f v, cfg.feats[k]? = some f → vals[k]? = some v → f.isMeta = false → v.toks.length = n ∧ off k = o) ∧ (o = 0 ∨ o < n)

/-- Why a row was closed before an element with these values: a feature is full, or a meta feature does not fit. -/
def Closed (cfg : CtsCfg τ) (R : List (CtsPiece τ)) (vals : List (CtsVal τ)) : Prop :=
  ∃ (k : Nat) (f : CtsFeat τ), cfg.feats[k]? = some f ∧
    (f.isMeta = false ∧ rowLen R k = f.len ∨ f.isMeta = true ∧ ∃ v, vals[k]? = some v ∧ f.len < rowLen R k + v.toks.length)

/-- The piece of a split element. -/
def PieceAt (cfg : CtsCfg τ) (vals : List (CtsVal τ)) (i : Nat) (off off' : Nat → Nat) (x : CtsPiece τ) : Prop :=
  x.src = i ∧ ∀ (k : Nat) f v, cfg.feats[k]? = some f → vals[k]? = some v →
    (f.isMeta = true → x.feat k = v.toks) ∧ (f.isMeta = false → off k ≤ off' k ∧ x.feat k ++ v.toks.drop (off' k) = v.toks.drop (off k))

theorem add_step {cfg : CtsCfg τ} {es : List (List (CtsVal τ))} (hgood : CtsGood cfg es) {i : Nat} {b : CtsBody τ} {off : Nat → Nat}
    (hi : es[i]? = some b.vals) (hr : RemAt cfg b off) (hlk : CtsLock cfg es → RemLock cfg b.vals off) {buffer : List (CtsBody τ)} {B : List (CtsPiece τ)}
    {tokens : List Nat} (hinv : LInv cfg es buffer B tokens) (hz : (∀ k, off k = 0) ∨ B = []) :
    (∃ tokens', maybeAdd cfg b buffer tokens = (none, buffer ++ [b], tokens') ∧ LInv cfg es (buffer ++ [b]) (B ++ [⟨i, b.cur⟩]) tokens') ∨
    (∃ r buffer' tokens' P off', maybeAdd cfg b buffer tokens = (some r, buffer', tokens') ∧ Bodies buffer' (B ++ P) ∧ RowOk cfg (B ++ P) ∧
      RemAt cfg r off' ∧ (CtsLock cfg es → RemLock cfg b.vals off') ∧ r.vals = b.vals ∧ Closed cfg (B ++ P) b.vals ∧
      ((P = [] ∧ off' = off ∧ B ≠ []) ∨ ∃ x, P = [x] ∧ PieceAt cfg b.vals i off off' x ∧
        (B = [] → CtsLock cfg es ∧ (∃ (k : Nat) (f : CtsFeat τ) (v : CtsVal τ), cfg.feats[k]? = some f ∧ b.vals[k]? = some v ∧ f.isMeta = false) ∧ ∀ (k : Nat) f v, cfg.feats[k]? = some f → b.vals[k]? = some v → f.isMeta = false → off k < off' k ∧ off' k ≤ v.toks.length))) := by
  obtain ⟨hbod, hrow, htl, htok, hrl⟩ := hinv
  obtain ⟨hbase, hmode⟩ := hgood
  have hmem : b.vals ∈ es := List.mem_of_getElem? hi
  obtain ⟨hvl, hvk⟩ := hbase _ hmem
  have hroom : ∀ (k : Nat) f t, cfg.feats[k]? = some f → tokens[k]? = some t → t ≤ f.len := by
    intro k f t hf ht
    rw [htok k f hf] at ht
    cases ht
    exact (hrow k f hf).1
  have hval : ∀ (k : Nat) f, cfg.feats[k]? = some f → ∃ v, b.vals[k]? = some v := by
    intro k f hf
    have := (List.getElem?_eq_some_iff.1 hf).1
    exact ⟨b.vals[k]'(by omega), List.getElem?_eq_getElem _⟩
  have hB0 : B = [] → ∀ k, rowLen B k = 0 := by rintro rfl k; rfl
  have hcases := maybeAdd_cases cfg hr buffer htl hroom (by
    intro k f v t hf hv ht hm
    rcases hz with hz | hz
    · exact Or.inl (hz k)
    · right
      rw [htok k f hf, hB0 hz] at ht
      cases ht
      rintro ⟨k0, f0, v0, t0, hf0, hv0, ht0, hm0, hx0⟩
      rw [htok k0 f0 hf0, hB0 hz] at ht0
      cases ht0
      rcases hmode with hmode | hmode
      · have := hmode.2 _ hmem k0 f0 v0 hf0 hv0 hm0
        omega
      · obtain ⟨n, o, hno, _⟩ := hlk hmode
        obtain ⟨L, hL⟩ := hmode.1
        obtain ⟨h1, h2⟩ := hno k f v hf hv hm
        obtain ⟨h3, h4⟩ := hno k0 f0 v0 hf0 hv0 hm0
        have h5 := hL f (List.mem_of_getElem? hf) hm
        have h6 := hL f0 (List.mem_of_getElem? hf0) hm0
        omega)
  cases hcases with
  | refused k f v t hf hv ht hm hx heq =>
    right
    rw [htok k f hf] at ht
    cases ht
    have hne : B ≠ [] := by
      intro hB
      rw [hB0 hB] at hx
      have := (hvk k f v hf hv).1 hm
      omega
    refine ⟨b, buffer, tokens, [], off, heq, by simpa using hbod, by simpa using hrow, hr, hlk, rfl, ?_, Or.inl ⟨rfl, rfl, hne⟩⟩
    exact ⟨k, f, hf, Or.inr ⟨hm, v, hv, by simpa using hx⟩⟩
  | full k f hf ht hm tokens' heq =>
    right
    rw [htok k f hf] at ht
    have ht' := Option.some.inj ht
    have hne : B ≠ [] := by
      intro hB
      rw [hB0 hB] at ht'
      obtain ⟨v, hv⟩ := hval k f hf
      have := ((hvk k f v hf hv).2 hm).2
      omega
    refine ⟨b, buffer, tokens', [], off, heq, by simpa using hbod, by simpa using hrow, hr, hlk, rfl, ?_, Or.inl ⟨rfl, rfl, hne⟩⟩
    exact ⟨k, f, hf, Or.inl ⟨hm, by simpa using ht'⟩⟩
  | added tokens' hfit hlen heq =>
    left
    refine ⟨tokens', heq, ?_, ?_, hlen, ?_, ?_⟩
    · unfold Bodies at hbod ⊢
      simp [hbod]
    · intro k f hf
      obtain ⟨v, hv⟩ := hval k f hf
      obtain ⟨h1, h2⟩ := hfit k f v _ hf hv (htok k f hf)
      have hfeat : (CtsPiece.mk i b.cur).feat k = leftToks f v (off k) := by
        simp [CtsPiece.feat, hr.cur hf hv]
      refine ⟨by rw [rowLen_append, rowLen_single, hfeat]; exact h1, ?_⟩
      intro hbos x hx
      rcases List.mem_append.1 hx with hx | hx
      · exact (hrow k f hf).2 hbos x hx
      · simp only [List.mem_singleton] at hx
        subst hx
        rw [hfeat]
        rcases hmode with hmode | hmode
        · exact absurd (hmode.1 f (List.mem_of_getElem? hf)) hbos
        · have hvne := (hmode.2 _ hmem).2 k f v hf hv hbos
          unfold leftToks
          cases hm : f.isMeta with
          | true => simpa using hvne
          | false =>
            obtain ⟨n, o, hno, hpos⟩ := hlk hmode
            obtain ⟨h3, h4⟩ := hno k f v hf hv hm
            have := List.length_pos_iff.2 hvne
            simp only [Bool.false_eq_true, if_false, ne_eq, List.drop_eq_nil_iff]
            omega
    · intro k f hf
      obtain ⟨v, hv⟩ := hval k f hf
      obtain ⟨h1, h2⟩ := hfit k f v _ hf hv (htok k f hf)
      have hfeat : (CtsPiece.mk i b.cur).feat k = leftToks f v (off k) := by
        simp [CtsPiece.feat, hr.cur hf hv]
      rw [rowLen_append, rowLen_single, hfeat]
      exact h2
    · intro hlock
      obtain ⟨T, hT⟩ := hrl hlock
      obtain ⟨n, o, hno, _⟩ := hlk hlock
      refine ⟨T + (n - o), ?_⟩
      intro k f hf hm
      obtain ⟨v, hv⟩ := hval k f hf
      have hfeat : (CtsPiece.mk i b.cur).feat k = leftToks f v (off k) := by
        simp [CtsPiece.feat, hr.cur hf hv]
      obtain ⟨h3, h4⟩ := hno k f v hf hv hm
      rw [rowLen_append, rowLen_single, hfeat, hT k f hf hm]
      simp [leftToks, hm, h3, h4]
  | split l r off' tokens' heq hra hrv hll hmeta hpart hfull hpos =>
    right
    have hfm : ∀ (k : Nat) f v, cfg.feats[k]? = some f → b.vals[k]? = some v → f.isMeta = true →
        rowLen B k + v.toks.length ≤ f.len ∧ (CtsPiece.mk i l.cur).feat k = v.toks := by
      intro k f v hf hv hm
      obtain ⟨h1, h2⟩ := hmeta k f v _ hf hv (htok k f hf) hm
      exact ⟨h1, by simp [CtsPiece.feat, h2]⟩
    have hfp : ∀ (k : Nat) f v, cfg.feats[k]? = some f → b.vals[k]? = some v → f.isMeta = false →
        off' k = off k + min (v.toks.length - off k) (f.len - rowLen B k) ∧ (CtsPiece.mk i l.cur).feat k = (v.toks.drop (off k)).take (f.len - rowLen B k) := by
      intro k f v hf hv hm
      obtain ⟨h1, h2⟩ := hpart k f v _ hf hv (htok k f hf) hm
      exact ⟨h1, by simp [CtsPiece.feat, h2]⟩
    obtain ⟨k0, f0, v0, t0, hf0, hv0, ht0, hm0, hx0⟩ := hfull
    rw [htok k0 f0 hf0] at ht0
    cases ht0
    -- in lock step every feature exceeds
    have hall : CtsLock cfg es → ∀ (k : Nat) f v, cfg.feats[k]? = some f → b.vals[k]? = some v → f.isMeta = false →
        f.len < rowLen B k + (v.toks.length - off k) ∧ f.len = f0.len ∧ v.toks.length = v0.toks.length ∧ off k = off k0 ∧ rowLen B k = rowLen B k0 := by
      intro hlock k f v hf hv hm
      obtain ⟨T, hT⟩ := hrl hlock
      obtain ⟨n, o, hno, _⟩ := hlk hlock
      obtain ⟨L, hL⟩ := hlock.1
      obtain ⟨h1, h2⟩ := hno k f v hf hv hm
      obtain ⟨h3, h4⟩ := hno k0 f0 v0 hf0 hv0 hm0
      have h5 := hL f (List.mem_of_getElem? hf) hm
      have h6 := hL f0 (List.mem_of_getElem? hf0) hm0
      have h7 := hT k f hf hm
      have h8 := hT k0 f0 hf0 hm0
      omega
    have hroomk : ∀ (k : Nat) f, cfg.feats[k]? = some f → rowLen B k ≤ f.len := fun k f hf => (hrow k f hf).1
    -- in lock step, some tokens are taken
    have htaken : CtsLock cfg es → ∀ (k : Nat) f, cfg.feats[k]? = some f → f.isMeta = false → rowLen B k < f.len := by
      intro hlock k f hf hm
      obtain ⟨k1, f1, v1, hf1, hv1, hm1, hp1⟩ := hpos
      obtain ⟨v, hv⟩ := hval k f hf
      obtain ⟨a1, a2, a3, a4, a5⟩ := hall hlock k f v hf hv hm
      obtain ⟨b1, b2, b3, b4, b5⟩ := hall hlock k1 f1 v1 hf1 hv1 hm1
      have h1 := (hfp k1 f1 v1 hf1 hv1 hm1).1
      rcases hz with hz | hz
      · have := hz k1
        omega
      · have := hB0 hz k
        have := ((hvk k f v hf hv).2 hm).2
        omega
    refine ⟨r, buffer ++ [l], tokens', [⟨i, l.cur⟩], off', heq, ?_, ?_, hra, ?_, hrv, ?_, Or.inr ⟨_, rfl, ⟨rfl, ?_⟩, ?_⟩⟩
    · unfold Bodies at hbod ⊢
      simp [hbod]
    · intro k f hf
      obtain ⟨v, hv⟩ := hval k f hf
      have hle := hroomk k f hf
      refine ⟨?_, ?_⟩
      · rw [rowLen_append, rowLen_single]
        cases hm : f.isMeta with
        | true =>
          obtain ⟨h1, h2⟩ := hfm k f v hf hv hm
          rw [h2]; exact h1
        | false =>
          rw [(hfp k f v hf hv hm).2, List.length_take]
          omega
      · intro hbos x hx
        rcases List.mem_append.1 hx with hx | hx
        · exact (hrow k f hf).2 hbos x hx
        · simp only [List.mem_singleton] at hx
          subst hx
          rcases hmode with hmode | hmode
          · exact absurd (hmode.1 f (List.mem_of_getElem? hf)) hbos
          · cases hm : f.isMeta with
            | true =>
              rw [(hfm k f v hf hv hm).2]
              exact (hmode.2 _ hmem).2 k f v hf hv hbos
            | false =>
              rw [(hfp k f v hf hv hm).2]
              have h1 := htaken hmode k f hf hm
              have h2 := (hall hmode k f v hf hv hm).1
              intro hnil
              have := congrArg List.length hnil
              simp only [List.length_take, List.length_drop, List.length_nil] at this
              omega
    · intro hlock
      refine ⟨v0.toks.length, off k0 + (f0.len - rowLen B k0), ?_, ?_⟩
      · intro k f v hf hv hm
        obtain ⟨h1, h2, h3, h4, h5⟩ := hall hlock k f v hf hv hm
        have := (hfp k f v hf hv hm).1
        omega
      · have := hroomk k0 f0 hf0
        omega
    · refine ⟨k0, f0, hf0, Or.inl ⟨hm0, ?_⟩⟩
      rw [rowLen_append, rowLen_single, (hfp k0 f0 v0 hf0 hv0 hm0).2, List.length_take, List.length_drop]
      have := hroomk k0 f0 hf0
      omega
    · intro k f v hf hv
      refine ⟨fun hm => (hfm k f v hf hv hm).2, fun hm => ?_⟩
      obtain ⟨h1, h2⟩ := hfp k f v hf hv hm
      refine ⟨by omega, ?_⟩
      rw [h2, h1]
      rw [← List.drop_drop]
      rcases Nat.le_total (v.toks.length - off k) (f.len - rowLen B k) with hl | hl
      · rw [Nat.min_eq_left hl, ← List.length_drop, List.drop_length, List.take_of_length_le (by rw [List.length_drop]; exact hl), List.append_nil]
      · rw [Nat.min_eq_right hl, List.take_append_drop]
    · intro hB
      have hlock : CtsLock cfg es := by
        rcases hmode with hmode | hmode
        · have h1 := hmode.2 _ hmem k0 f0 v0 hf0 hv0 hm0
          have h2 := hB0 hB k0
          omega
        · exact hmode
      refine ⟨hlock, ⟨k0, f0, v0, hf0, hv0, hm0⟩, ?_⟩
      intro k f v hf hv hm
      obtain ⟨h1, _⟩ := hall hlock k f v hf hv hm
      have h2 := (hfp k f v hf hv hm).1
      have h3 := htaken hlock k f hf hm
      omega

end Grain
