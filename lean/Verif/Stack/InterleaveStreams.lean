import Verif.Stack.InterleaveLemmas
import Verif.Stack.MultiStreams
import Mathlib.Data.Finset.Card
/-
Interleave of iterators that follow streams: the stream that it computes.
-/
namespace Grain

/-- One call of a transformation with several inputs. -/
def CallTo (T : MultiTrans n α β) (x : Fin n → Nat → Option α) (p : Fin n → Nat) (l : T.L) (r : Option β) (q : Fin n → Nat)
    (l' : T.L) : Prop :=
  (T.start l = .inr (r, l') ∧ q = p) ∨ ∃ i k d, T.start l = .inl (i, k) ∧ MtEval T x d i k p r q l'

theorem mtEval_unique {T : MultiTrans n α β} {x : Fin n → Nat → Option α} : ∀ {d i k p r q l}, MtEval T x d i k p r q l →
    ∀ {d' r' q' l'}, MtEval T x d' i k p r' q' l' → r = r' ∧ q = q' ∧ l = l' := by
  intro d i k p r q l h
  induction h with
  | last h1 =>
    intro d' r' q' l' h'
    cases h' with
    | last h2 =>
      rw [h1] at h2
      cases h2
      exact ⟨rfl, rfl, rfl⟩
    | more h2 h3 =>
      rw [h1] at h2
      cases h2
  | more h1 _ ih =>
    intro d' r' q' l' h'
    cases h' with
    | last h2 =>
      rw [h1] at h2
      cases h2
    | more h2 h3 =>
      rw [h1] at h2
      cases h2
      exact ih h3

theorem callTo_unique {T : MultiTrans n α β} {x : Fin n → Nat → Option α} {p : Fin n → Nat} {l : T.L} {r r' : Option β}
    {q q' : Fin n → Nat} {l1 l2 : T.L} (h : CallTo T x p l r q l1) (h' : CallTo T x p l r' q' l2) :
    r = r' ∧ q = q' ∧ l1 = l2 := by
  rcases h with ⟨h1, rfl⟩ | ⟨i, k, d, h1, h2⟩ <;> rcases h' with ⟨h3, rfl⟩ | ⟨i', k', d', h3, h4⟩
  · rw [h1] at h3
    cases h3
    exact ⟨rfl, rfl, rfl⟩
  · rw [h1] at h3
    cases h3
  · rw [h1] at h3
    cases h3
  · rw [h1] at h3
    cases h3
    exact mtEval_unique h2 h4

theorem start_of_call {T : MultiTrans n α β} {x : Fin n → Nat → Option α} {y : Nat → Option β}
    {At : Nat → (Fin n → Nat) → T.L → Prop} {m : Nat} {p : Fin n → Nat} {l : T.L}
    (h : ∃ q l', CallTo T x p l (y m) q l' ∧ At (nextPos y m) q l') :
    (∃ l', T.start l = .inr (y m, l') ∧ At (nextPos y m) p l') ∨
    (∃ i k d q l', T.start l = .inl (i, k) ∧ MtEval T x d i k p (y m) q l' ∧ At (nextPos y m) q l') := by
  obtain ⟨q, l', ⟨h1, rfl⟩ | ⟨i, k, d, h1, h2⟩, h3⟩ := h
  · exact Or.inl ⟨l', h1, h3⟩
  · exact Or.inr ⟨i, k, d, q, l', h1, h2, h3⟩

section
variable {n L : Nat} {x : Fin n → Nat → Option α}

theorem il_call (hL : L < n) {l : IlLoc n L} {p p' : Fin n → Nat} (hw : IlWF x p' l) (hf : IlFirst l) (hag : IlAgree l p p') :
    ∃ r q q', ∃ l' : IlLoc n L, CallTo (ilTrans (α := α) n L) x p l r q l' ∧
      CallTo (ilTrans (α := α) n L) x p' (ilNorm hL l) r q' (ilNorm hL l') ∧ IlAfter x p' r q' l' ∧ IlAgree l' q q' ∧
      IlNearer x p' l q' l' ∧ (IlOpened x p' l → IlOpened x q' l') := by
  rcases ilSeek_cases (β := α) hL hw hf with ⟨d, l1, e1, e2, e3, e4, e5, e6, e7, e8⟩ | ⟨e1, e2, e3⟩
  · have hag' : IlAgree l1 p p' := fun e he => hag e ((e6 e).1 he)
    obtain ⟨k, k', r, q, q', l', f1, f2, f3, f4, f5, f6⟩ := il_ask hL _ l1 d p p' rfl e3 e4 e5 hag'
    refine ⟨r, q, q', l', Or.inr ⟨d, l1, k, e1, f1⟩, Or.inr ⟨d, ilNorm hL l1, k', e2, f2⟩, f3, f4, ?_,
      fun hop => f6 (fun e h1 h2 => hop e (e8 e h1 h2))⟩
    intro j e hj hx
    obtain ⟨g1, g2⟩ := e7 j e hj
    rcases f5 j e g1 hx with g3 | ⟨g3, g4⟩
    · exact Or.inl g3
    · exact Or.inr ⟨g3, by omega⟩
  · have hdead : ∀ e, ¬ IlLive l e := by
      rintro e (h | ⟨i, hi⟩)
      · have := e3.1
        omega
      · rw [e3.2 i] at hi
        cases hi
    refine ⟨none, p, p', l, Or.inl ⟨e1, rfl⟩, Or.inl ⟨e2, rfl⟩, Or.inr ⟨rfl, rfl, fun e => hw.over (hdead e), e3⟩, hag, ?_, fun h => h⟩
    intro j e hj _
    rw [e3.2 j] at hj
    cases hj

theorem ilNorm_idem (hL : L < n) (l : IlLoc n L) : ilNorm hL (ilNorm hL l) = ilNorm hL l :=
  ilNorm_of_le hL (by unfold ilNorm; dsimp only; omega)

theorem ilNorm_live (hL : L < n) {p : Fin n → Nat} {l : IlLoc n L} (hw : IlWF x p l) (d : Fin n) :
    IlLive (ilNorm hL l) d ↔ IlLive l d := by
  unfold IlLive ilNorm
  dsimp only
  constructor
  · rintro (h | ⟨i, hi⟩)
    · exact Or.inl (by omega)
    · split at hi
      · cases hi
        exact Or.inl ‹_›
      · exact Or.inr ⟨i, hi⟩
  · rintro (h | ⟨i, hi⟩)
    · by_cases hd : d.val < L + 1
      · refine Or.inr ⟨⟨d.val, hd⟩, ?_⟩
        rw [if_pos h]
      · exact Or.inl (by omega)
    · refine Or.inr ⟨i, ?_⟩
      rw [if_neg]
      · exact hi
      · intro h
        rw [(hw.used h).1] at hi
        cases hi

theorem ilNorm_wf (hL : L < n) {p : Fin n → Nat} {l : IlLoc n L} (hw : IlWF x p l) : IlWF x p (ilNorm hL l) := by
  refine ⟨?_, ?_, ?_, ?_, ?_, ?_, ?_⟩
  · have := hw.le
    unfold ilNorm
    dsimp only
    omega
  · intro i d hi
    unfold ilNorm at hi ⊢
    dsimp only at hi ⊢
    split at hi
    · cases hi
      dsimp only
      omega
    · have := hw.below hi
      omega
  · intro i j d hi hj
    unfold ilNorm at hi hj
    dsimp only at hi hj
    split at hi <;> split at hj
    · rw [← hj] at hi
      simp only [Option.some.injEq, Fin.mk.injEq] at hi
      exact Fin.ext hi
    · cases hi
      have := hw.below hj
      dsimp only at this
      omega
    · cases hj
      have := hw.below hi
      dsimp only at this
      omega
    · exact hw.inj hi hj
  · intro d hd
    exact hw.over (fun h => hd ((ilNorm_live hL hw d).2 h))
  · intro d hd
    unfold ilNorm at hd
    dsimp only at hd
    exact hw.zero (by omega)
  · intro i hi
    unfold ilNorm at hi
    dsimp only at hi
    omega
  · intro i h1 h2
    unfold ilNorm at h1 h2
    dsimp only at h1 h2
    split at h1
    · cases h1
    · exact absurd (hw.unused h1 h2) ‹_›

/-- `get_state` opens the first slots. -/
theorem ilFill_norm (hL : L < n) {p : Fin n → Nat} {l : IlLoc n L} (hw : IlWF x p l) :
    ilFill (List.finRange (L + 1)) l = ilNorm hL l := by
  have key : ∀ (m : Nat) (l' : IlLoc n L), m ≤ L + 1 → l'.cyc = l.cyc → l'.exh = l.exh →
      l'.nextDs = max l.nextDs (L + 1 - m) →
      (l'.slots = fun i => if l.nextDs ≤ i.val ∧ i.val < L + 1 - m then some ⟨i.val, by omega⟩ else l.slots i) →
      ilFill ((List.finRange (L + 1)).drop (L + 1 - m)) l' = ilNorm hL l := by
    intro m
    induction m with
    | zero =>
      intro l' _ h1 h2 h3 h4
      rw [List.drop_eq_nil_of_le (by simp)]
      rcases l' with ⟨cyc, nextDs, slots, exh⟩
      dsimp only at h1 h2 h3 h4
      subst h1 h2 h3 h4
      unfold ilFill ilNorm
      congr 1
      funext i
      have : i.val < L + 1 - 0 := i.isLt
      simp only [this, and_true]
    | succ m ih =>
      intro l' hm h1 h2 h3 h4
      have hlt : L + 1 - (m + 1) < (List.finRange (L + 1)).length := by simp; omega
      rw [List.drop_eq_getElem_cons hlt]
      have hidx : L + 1 - (m + 1) + 1 = L + 1 - m := by omega
      rw [hidx]
      have hel : (List.finRange (L + 1))[L + 1 - (m + 1)] = ⟨L + 1 - (m + 1), by omega⟩ := by simp
      rw [hel]
      unfold ilFill
      have hsl : l'.slots ⟨L + 1 - (m + 1), by omega⟩ = l.slots ⟨L + 1 - (m + 1), by omega⟩ := by
        rw [h4]
        dsimp only
        rw [if_neg (by omega)]
      by_cases hnew : l.nextDs ≤ L + 1 - (m + 1)
      · obtain ⟨u1, u2⟩ := hw.used (i := ⟨L + 1 - (m + 1), by omega⟩) hnew
        have hcond : ((l'.slots ⟨L + 1 - (m + 1), by omega⟩).isSome || l'.exh ⟨L + 1 - (m + 1), by omega⟩) = false := by
          rw [hsl, u1, h2, u2]
          rfl
        have hds : l'.nextDs = L + 1 - (m + 1) := by omega
        rw [if_neg (by rw [hcond]; simp), dif_pos (by omega)]
        refine ih _ (by omega) h1 h2 ?_ ?_
        · dsimp only
          omega
        · dsimp only
          funext i
          by_cases hi : i.val = L + 1 - (m + 1)
          · have hi' : i = ⟨L + 1 - (m + 1), by omega⟩ := Fin.ext hi
            rw [hi', Function.update_self, if_pos (by dsimp only; omega)]
            simp only [hds]
          · have hi' : i ≠ ⟨L + 1 - (m + 1), by omega⟩ := fun h => hi (by rw [h])
            rw [Function.update_of_ne hi', h4]
            dsimp only
            by_cases hc : l.nextDs ≤ i.val ∧ i.val < L + 1 - (m + 1)
            · rw [if_pos hc, if_pos (by omega)]
            · rw [if_neg hc, if_neg (by omega)]
      · have hcond : ((l'.slots ⟨L + 1 - (m + 1), by omega⟩).isSome || l'.exh ⟨L + 1 - (m + 1), by omega⟩) = true := by
          rw [hsl, h2]
          cases hs : l.slots ⟨L + 1 - (m + 1), by omega⟩ with
          | some d => simp
          | none =>
            cases he : l.exh ⟨L + 1 - (m + 1), by omega⟩ with
            | true => simp
            | false => exact absurd (hw.unused hs he) hnew
        rw [if_pos hcond]
        refine ih _ (by omega) h1 h2 (by omega) ?_
        rw [h4]
        funext i
        by_cases hc : l.nextDs ≤ i.val ∧ i.val < L + 1 - (m + 1)
        · rw [if_pos hc, if_pos (by omega)]
        · rw [if_neg hc, if_neg (by omega)]
  have := key (L + 1) l (le_refl _) rfl rfl (by omega) (by funext i; rw [if_neg (by omega)])
  simpa using this

theorem ilFill_over {l : IlLoc n L} (h : n ≤ l.nextDs) : ∀ is, ilFill is l = l := by
  intro is
  induction is with
  | nil => rfl
  | cons i is ih =>
    unfold ilFill
    split
    · exact ih
    · rw [dif_neg (by omega)]

/-- A state between two calls: the positions, and the local state with the first slots opened. -/
structure IlCfg (x : Fin n → Nat → Option α) (hL : L < n) where
  p : Fin n → Nat
  g : IlLoc n L
  ex : ∃ l, IlWF x p l ∧ IlFirst l ∧ ilNorm hL l = g ∧ IlOpened x p l

/-- What one call does. -/
def IlStepTo {hL : L < n} (c : IlCfg x hL) (r : Option α) (d : Fin n) (c' : IlCfg x hL) : Prop :=
  ∃ q, ∃ g' : IlLoc n L, CallTo (ilTrans (α := α) n L) x c.p c.g r q g' ∧
    ((∃ a, r = some a ∧ x d (c.p d) = some a ∧ q = Function.update c.p d (c.p d + 1) ∧ c'.p = q ∧ c'.g = g' ∧
        IlNearer x c.p c.g q g') ∨
      (r = none ∧ c' = c ∧ (∀ e, x e (c.p e) = none) ∧ IlOver g'))

theorem IlCfg.wf {hL : L < n} (c : IlCfg x hL) : IlWF x c.p c.g ∧ ilNorm hL c.g = c.g := by
  obtain ⟨l, h1, -, h3, -⟩ := c.ex
  rw [← h3]
  exact ⟨ilNorm_wf hL h1, ilNorm_idem hL l⟩

theorem ilNorm_full (hL : L < n) (l : IlLoc n L) : L + 1 ≤ (ilNorm hL l).nextDs := by
  unfold ilNorm
  dsimp only
  omega

theorem ilStep_exists {hL : L < n} (c : IlCfg x hL) : ∃ s : Option α × Fin n × IlCfg x hL, IlStepTo c s.1 s.2.1 s.2.2 := by
  obtain ⟨l, h1, h2, h3, h4⟩ := c.ex
  obtain ⟨r, q, q', l', f1, f2, f3, f4, -, f6⟩ := il_call hL (p := c.p) h1 h2 (fun _ _ => rfl)
  rw [h3] at f2
  -- the same call from the state with the slots opened, for `IlNearer`
  have hnear : IlNearer x c.p c.g q' (ilNorm hL l') := by
    obtain ⟨hw, hid⟩ := c.wf
    have hfull : L + 1 ≤ c.g.nextDs := by rw [← hid]; exact ilNorm_full hL _
    -- a call from an opened state whose datasets need not have been read
    rcases ilSeek_cases (β := α) hL hw (fun h => by omega) with ⟨d, l1, e1, e2, e3, e4, e5, e6, e7, e8⟩ | ⟨e1, e2, e3⟩
    · obtain ⟨k, k', r2, q2, q2', l2, g1, g2, g3, g4, g5, -⟩ := il_ask hL _ l1 d c.p c.p rfl e3 e4 e5 (fun _ _ => rfl)
      have hc : CallTo (ilTrans (α := α) n L) x c.p c.g r2 q2 l2 := Or.inr ⟨d, l1, k, e1, g1⟩
      have hc' : CallTo (ilTrans (α := α) n L) x c.p c.g r2 q2' (ilNorm hL l2) := by
        rw [hid] at e2
        exact Or.inr ⟨d, ilNorm hL l1, k', e2, g2⟩
      obtain ⟨-, u2, u3⟩ := callTo_unique hc hc'
      obtain ⟨-, v2, v3⟩ := callTo_unique hc f2
      rw [← v2, ← v3]
      rw [← u2] at g5
      intro j e hj hx
      obtain ⟨w1, w2⟩ := e7 j e hj
      rcases g5 j e w1 hx with w3 | ⟨w3, w4⟩
      · exact Or.inl w3
      · exact Or.inr ⟨w3, by omega⟩
    · intro j e hj _
      rw [e3.2 j] at hj
      cases hj
  rcases f3 with ⟨a, d, rfl, f8, rfl, f9, f10⟩ | ⟨rfl, rfl, f8, f9⟩
  · exact ⟨(some a, d, ⟨_, ilNorm hL l', l', f9, f10, rfl, f6 h4⟩), _, _, f2, Or.inl ⟨a, rfl, f8, rfl, rfl, rfl, hnear⟩⟩
  · refine ⟨(none, ⟨0, by omega⟩, c), _, _, f2, Or.inr ⟨rfl, rfl, f8, ?_⟩⟩
    rw [ilNorm_of_le hL (by have := f9.1; omega)]
    exact f9

noncomputable def ilStep {hL : L < n} (c : IlCfg x hL) : Option α × Fin n × IlCfg x hL := (ilStep_exists c).choose

theorem ilStep_spec {hL : L < n} (c : IlCfg x hL) : IlStepTo c (ilStep c).1 (ilStep c).2.1 (ilStep c).2.2 :=
  (ilStep_exists c).choose_spec

theorem ilInit_wf : IlWF x (fun _ => 0) (ilTrans (α := α) n L).l0 := by
  refine ⟨Nat.zero_le _, ?_, ?_, ?_, fun _ => rfl, fun _ => ⟨rfl, rfl⟩, fun _ _ => Nat.zero_le _⟩
  · intro i d h
    cases h
  · intro i j d h
    cases h
  · intro d h
    exact absurd (Or.inl (Nat.zero_le _)) h

/-- The states after 0, 1, … calls. -/
noncomputable def ilSeq (x : Fin n → Nat → Option α) (hL : L < n) : Nat → IlCfg x hL
  | 0 => ⟨fun _ => 0, ilNorm hL (ilTrans (α := α) n L).l0, _, ilInit_wf, fun _ => rfl, rfl, fun _ h => absurd h (Nat.not_lt_zero _)⟩
  | m + 1 => (ilStep (ilSeq x hL m)).2.2

/-- The stream, and where its elements come from. -/
noncomputable def streamInterleave (x : Fin n → Nat → Option α) (hL : L < n) (m : Nat) : Option α := (ilStep (ilSeq x hL m)).1

noncomputable def interleaveWho (x : Fin n → Nat → Option α) (hL : L < n) (m : Nat) : Fin n := (ilStep (ilSeq x hL m)).2.1

theorem ilSeq_step (x : Fin n → Nat → Option α) (hL : L < n) (m : Nat) :
    IlStepTo (ilSeq x hL m) (streamInterleave x hL m) (interleaveWho x hL m) (ilSeq x hL (m + 1)) := ilStep_spec _

/-- After `m` elements the inputs may be at `p` and the local state be `l`. -/
def ilAt (x : Fin n → Nat → Option α) (hL : L < n) (m : Nat) (p : Fin n → Nat) (l : (ilTrans (α := α) n L).L) : Prop :=
  (IlWF (L := L) x (ilSeq x hL m).p l ∧ IlFirst (n := n) (L := L) l ∧ ilNorm hL l = (ilSeq x hL m).g ∧
    IlAgree (L := L) l p (ilSeq x hL m).p) ∨
  (IlOver (n := n) (L := L) l ∧ streamInterleave x hL m = none)

theorem ilTrans_computes (x : Fin n → Nat → Option α) (hL : L < n) :
    MultiComputes (ilTrans (α := α) n L) x (streamInterleave x hL) (ilAt x hL) := by
  refine ⟨?_, ?_, ?_, ?_⟩
  · exact Or.inl ⟨ilInit_wf, fun _ => rfl, rfl, fun _ _ => rfl⟩
  · intro m p (l : IlLoc n L) hl
    refine start_of_call (T := ilTrans (α := α) n L) (x := x) (y := streamInterleave x hL) (At := ilAt x hL) (m := m) (p := p) (l := l) ?_
    rcases hl with ⟨h1, h2, h3, h4⟩ | ⟨h1, h2⟩
    · obtain ⟨r, q, q', l', f1, f2, f3, f4, -⟩ := il_call hL h1 h2 h4
      rw [h3] at f2
      obtain ⟨q2, g2, s1, s2⟩ := ilSeq_step x hL m
      obtain ⟨u1, u2, u3⟩ := callTo_unique f2 s1
      refine ⟨q, l', by rw [← u1]; exact f1, ?_⟩
      rcases s2 with ⟨a, v1, v2, v3, v4, v5, -⟩ | ⟨v1, v2, v3, v4⟩
      · left
        have hn : nextPos (streamInterleave x hL) m = m + 1 := by simp [nextPos, v1]
        rw [hn]
        rw [v1] at u1
        subst u1
        rcases f3 with ⟨a', d', w1, w2, w3, w4, w5⟩ | ⟨w1, -⟩
        · rw [v4, ← u2]
          exact ⟨w4, w5, by rw [v5]; exact u3, f4⟩
        · cases w1
      · right
        have hn : nextPos (streamInterleave x hL) m = m := by simp [nextPos, v1]
        rw [hn]
        rw [v1] at u1
        subst u1
        rcases f3 with ⟨a', d', w1, -⟩ | ⟨w1, w2, w3, w4⟩
        · cases w1
        · exact ⟨w4, v1⟩
    · refine ⟨p, l, Or.inl ⟨?_, rfl⟩, ?_⟩
      · rw [h2]
        show ilSeek (L + 1) l = _
        unfold ilSeek
        rw [h1.2 l.cyc]
        dsimp only
        rw [dif_neg (by have := h1.1; omega), if_neg (by simp [h1.2])]
        rfl
      · right
        have hn : nextPos (streamInterleave x hL) m = m := by simp [nextPos, h2]
        rw [hn]
        exact ⟨h1, h2⟩
  · intro m p (l : IlLoc n L) hl
    rcases hl with ⟨h1, h2, h3, h4⟩ | ⟨h1, h2⟩
    · left
      have he : (ilTrans (α := α) n L).onGet l = ilNorm hL l := ilFill_norm hL h1
      rw [he]
      refine ⟨ilNorm_wf hL h1, fun h => ?_, by rw [ilNorm_idem, h3], ?_⟩
      · have := ilNorm_full hL l
        omega
      · intro d hd
        exact h4 d ((ilNorm_live hL h1 d).1 hd)
    · right
      have he : (ilTrans (α := α) n L).onGet l = l := ilFill_over h1.1 _
      rw [he]
      exact ⟨h1, h2⟩
  · intro m p (l : IlLoc n L) hl
    rcases hl with ⟨h1, h2, h3, h4⟩ | h
    · left
      refine ⟨h1, h2, h3, ?_⟩
      intro d hd
      cases hs : (ilTrans (α := α) n L).sets l d with
      | true => exact (if_pos hs).trans (h4 d hd)
      | false =>
        refine (if_neg (by rw [hs]; simp)).trans ?_
        rcases hd with hd | ⟨i, hi⟩
        · exact (h1.zero hd).symm
        · exfalso
          have : (ilTrans (α := α) n L).sets l d = true := by
            show (List.finRange (L + 1)).any (fun j => l.slots j == some d) = true
            rw [List.any_eq_true]
            exact ⟨i, List.mem_finRange i, by simp [hi]⟩
          rw [this] at hs
          cases hs
    · exact Or.inr h

theorem streamInterleave_staysOver (x : Fin n → Nat → Option α) (hL : L < n) : StaysOver (streamInterleave x hL) := by
  intro m hm
  obtain ⟨q, g', s1, s2⟩ := ilSeq_step x hL m
  rcases s2 with ⟨a, v1, -⟩ | ⟨v1, v2, v3, v4⟩
  · rw [hm] at v1
    cases v1
  · obtain ⟨q2, g2, t1, t2⟩ := ilSeq_step x hL (m + 1)
    rcases t2 with ⟨a, -, w2, -⟩ | ⟨w1, -⟩
    · rw [v2, v3] at w2
      cases w2
    · exact w1

theorem ilSeq_times (x : Fin n → Nat → Option α) (hL : L < n) : ∀ m, (∀ k < m, (streamInterleave x hL k).isSome) →
    ∀ d, (ilSeq x hL m).p d = timesChosen (interleaveWho x hL) d m := by
  intro m
  induction m with
  | zero => intro _ d; rfl
  | succ m ih =>
    intro h d
    have hm := h m (Nat.lt_succ_self m)
    obtain ⟨q, g', s1, s2⟩ := ilSeq_step x hL m
    rw [timesChosen_succ, ← ih (fun k hk => h k (by omega)) d]
    rcases s2 with ⟨a, v1, v2, v3, v4, v5, -⟩ | ⟨v1, -⟩
    · rw [v4, v3]
      by_cases hd : interleaveWho x hL m = d
      · subst hd
        rw [Function.update_self, if_pos rfl]
      · rw [Function.update_of_ne (fun h => hd h.symm), if_neg hd]
        rfl
    · rw [v1] at hm
      cases hm

theorem ilSeq_slot (x : Fin n → Nat → Option α) (hL : L < n) (m : Nat) {a : α} (h : streamInterleave x hL m = some a) :
    x (interleaveWho x hL m) ((ilSeq x hL m).p (interleaveWho x hL m)) = some a ∧
    (ilSeq x hL (m + 1)).p = Function.update (ilSeq x hL m).p (interleaveWho x hL m)
      ((ilSeq x hL m).p (interleaveWho x hL m) + 1) ∧
    IlNearer x (ilSeq x hL m).p (ilSeq x hL m).g (ilSeq x hL (m + 1)).p (ilSeq x hL (m + 1)).g := by
  obtain ⟨q, g', s1, s2⟩ := ilSeq_step x hL m
  rcases s2 with ⟨b, v1, v2, v3, v4, v5, v6⟩ | ⟨v1, -⟩
  · rw [h] at v1
    cases v1
    refine ⟨v2, by rw [v4, v3], ?_⟩
    rw [v4, v5]
    exact v6
  · rw [h] at v1
    cases v1

/-- Nothing is over while a dataset has an element. -/
theorem ilSeq_some (x : Fin n → Nat → Option α) (hL : L < n) (m : Nat) {d : Fin n} (h : (x d ((ilSeq x hL m).p d)).isSome) :
    (streamInterleave x hL m).isSome := by
  obtain ⟨q, g', s1, s2⟩ := ilSeq_step x hL m
  rcases s2 with ⟨b, v1, -⟩ | ⟨v1, v2, v3, -⟩
  · rw [v1]
    rfl
  · rw [v3 d] at h
    cases h

/-- A dataset in slot `j` that has an element is read within as many calls as the slot is away. -/
theorem ilSeq_reached (x : Fin n → Nat → Option α) (hL : L < n) : ∀ (D m : Nat) (j : Fin (L + 1)) (e : Fin n),
    (ilSeq x hL m).g.slots j = some e → (x e ((ilSeq x hL m).p e)).isSome → (j - (ilSeq x hL m).g.cyc).val ≤ D →
    ∃ k, k ≤ D ∧ interleaveWho x hL (m + k) = e ∧ (streamInterleave x hL (m + k)).isSome := by
  intro D
  induction D with
  | zero =>
    intro m j e hj hx hD
    have hs := ilSeq_some x hL m hx
    obtain ⟨a, ha⟩ := Option.isSome_iff_exists.1 hs
    obtain ⟨h1, h2, h3⟩ := ilSeq_slot x hL m ha
    refine ⟨0, le_refl _, ?_, hs⟩
    rcases h3 j e hj (by intro h; rw [h] at hx; cases hx) with h4 | ⟨-, h5⟩
    · by_contra hne
      change ¬ interleaveWho x hL m = e at hne
      rw [h2, Function.update_of_ne (fun h => hne h.symm)] at h4
      omega
    · omega
  | succ D ih =>
    intro m j e hj hx hD
    have hs := ilSeq_some x hL m hx
    obtain ⟨a, ha⟩ := Option.isSome_iff_exists.1 hs
    obtain ⟨h1, h2, h3⟩ := ilSeq_slot x hL m ha
    by_cases he : interleaveWho x hL m = e
    · exact ⟨0, Nat.zero_le _, he, hs⟩
    · have hp : (ilSeq x hL (m + 1)).p e = (ilSeq x hL m).p e := by
        rw [h2, Function.update_of_ne (fun h => he h.symm)]
      rcases h3 j e hj (by intro h; rw [h] at hx; cases hx) with h4 | ⟨h4, h5⟩
      · omega
      · obtain ⟨k, k1, k2, k3⟩ := ih (m + 1) j e h4 (by rw [hp]; exact hx) (by omega)
        refine ⟨k + 1, by omega, ?_, ?_⟩
        · rw [← k2]
          congr 1
          omega
        · have : m + (k + 1) = m + 1 + k := by omega
          rw [this]
          exact k3

theorem streamInterleave_interleaves (x : Fin n → Nat → Option α) (hL : L < n) :
    Interleaves x (L + 1) (streamInterleave x hL) (interleaveWho x hL) := by
  have hsome : ∀ m a, streamInterleave x hL m = some a → ∀ k < m, (streamInterleave x hL k).isSome := by
    intro m a hm k hk
    by_contra hnot
    have h0 : streamInterleave x hL k = none := by simpa using hnot
    have : ∀ j, streamInterleave x hL (k + j) = none := by
      intro j
      induction j with
      | zero => exact h0
      | succ j ih => exact streamInterleave_staysOver x hL _ ih
    have := this (m - k)
    rw [show k + (m - k) = m by omega, hm] at this
    cases this
  -- datasets that are started and not used up are in slots
  have hslot : ∀ m d, 0 < (ilSeq x hL m).p d → (x d ((ilSeq x hL m).p d)).isSome → ∃ i, (ilSeq x hL m).g.slots i = some d := by
    intro m d h1 h2
    obtain ⟨hw, -⟩ := (ilSeq x hL m).wf
    by_contra hno
    have hlive : IlLive (ilSeq x hL m).g d := by
      by_contra hl
      rw [hw.over hl] at h2
      cases h2
    rcases hlive with hl | hl
    · have := hw.zero hl
      omega
    · exact hno hl
  refine ⟨?_, ?_, ?_, ?_, ?_⟩
  · intro m a hm
    rw [← ilSeq_times x hL m (hsome m a hm)]
    exact (ilSeq_slot x hL m hm).1
  · intro m hk hm d
    rw [← ilSeq_times x hL m hk]
    obtain ⟨q, g', s1, s2⟩ := ilSeq_step x hL m
    rcases s2 with ⟨a, v1, -⟩ | ⟨v1, v2, v3, v4⟩
    · rw [hm] at v1
      cases v1
    · exact v3 d
  · intro m hk ds hnd hds
    have hmem : ∀ d ∈ ds, ∃ i, (ilSeq x hL m).g.slots i = some d := by
      intro d hd
      obtain ⟨h1, h2⟩ := hds d hd
      rw [← ilSeq_times x hL m hk] at h1 h2
      exact hslot m d h1 h2
    have hsub : ds.toFinset.image some ⊆ Finset.univ.image (ilSeq x hL m).g.slots := by
      intro o ho
      rw [Finset.mem_image] at ho
      obtain ⟨d, hd, rfl⟩ := ho
      obtain ⟨i, hi⟩ := hmem d (List.mem_toFinset.1 hd)
      exact Finset.mem_image.2 ⟨i, Finset.mem_univ _, hi⟩
    have h1 := Finset.card_le_card hsub
    rw [Finset.card_image_of_injective _ (Option.some_injective _), List.toFinset_card_of_nodup hnd] at h1
    have h2 := Finset.card_image_le (s := (Finset.univ : Finset (Fin (L + 1)))) (f := (ilSeq x hL m).g.slots)
    simp only [Finset.card_univ, Fintype.card_fin] at h2
    omega
  · intro m hk d e hde he
    rw [← ilSeq_times x hL m hk] at he ⊢
    obtain ⟨l, h1, h2, h3, h4⟩ := (ilSeq x hL m).ex
    have : e.val < l.nextDs := by
      by_contra h
      have := h1.zero (d := e) (by omega)
      omega
    exact h4 d (by have : d.val < e.val := hde; omega)
  · intro m hk hx
    have hk' : ∀ k < m, (streamInterleave x hL k).isSome := fun k h => hk k (by omega)
    have hk'' : ∀ k < m + 1, (streamInterleave x hL k).isSome := fun k h => hk k (by omega)
    rw [← ilSeq_times x hL (m + 1) hk''] at hx
    obtain ⟨a, ha⟩ := Option.isSome_iff_exists.1 (hk m (le_refl m))
    obtain ⟨h1, h2, -⟩ := ilSeq_slot x hL m ha
    have hpos : 0 < (ilSeq x hL (m + 1)).p (interleaveWho x hL m) := by
      rw [h2, Function.update_self]
      omega
    obtain ⟨i, hi⟩ := hslot (m + 1) _ hpos hx
    obtain ⟨k, k1, k2, k3⟩ := ilSeq_reached x hL L (m + 1) i _ hi hx (by have := (i - (ilSeq x hL (m + 1)).g.cyc).isLt; omega)
    refine ⟨k + 1, by omega, by omega, ?_, ?_⟩
    · rw [← k2]
      congr 1
      omega
    · have : m + (k + 1) = m + 1 + k := by omega
      rw [this]
      exact k3

theorem eq_of_mod_window {a m n : Nat} (h : a % n = m % n) (h1 : m ≤ a) (h2 : a < m + n) : a = m := by
  have ha := Nat.div_add_mod a n
  have hm := Nat.div_add_mod m n
  have hq : a / n = m / n := by
    apply Nat.le_antisymm
    · by_contra hc
      have : n * (m / n + 1) ≤ n * (a / n) := Nat.mul_le_mul_left _ (by omega)
      rw [Nat.mul_add] at this
      omega
    · exact Nat.div_le_div_right h1
  rw [hq, h] at ha
  omega

/-- The interleave of the slices of one stream is that stream. -/
theorem streamInterleave_slices {z : Nat → Option α} (hz : StaysOver z) (hL : L < n) (hn : L + 1 = n) :
    streamInterleave (fun (i : Fin n) m => z (m * n + i.val)) hL = z := by
  have hover : ∀ m j, z m = none → z (m + j) = none := by
    intro m j h
    induction j with
    | zero => exact h
    | succ j ih => exact hz _ ih
  have hover' : ∀ m k, m ≤ k → z m = none → z k = none := by
    intro m k hk h
    have := hover m (k - m) h
    rwa [Nat.add_sub_cancel' hk] at this
  have hseq : ∀ m, (∀ k < m, (z k).isSome) →
      (∀ d, m ≤ (ilSeq (fun (i : Fin n) m => z (m * n + i.val)) hL m).p d * n + d.val ∧
        (ilSeq (fun (i : Fin n) m => z (m * n + i.val)) hL m).p d * n + d.val < m + n) ∧
      (ilSeq (fun (i : Fin n) m => z (m * n + i.val)) hL m).g.cyc.val = m % n ∧
      (∀ i, (ilSeq (fun (i : Fin n) m => z (m * n + i.val)) hL m).g.slots i = some ⟨i.val, by omega⟩) ∧
      (∀ a, z m = some a → streamInterleave (fun (i : Fin n) m => z (m * n + i.val)) hL m = some a) := by
    have hcall : ∀ m, (∀ d, m ≤ (ilSeq (fun (i : Fin n) m => z (m * n + i.val)) hL m).p d * n + d.val ∧
          (ilSeq (fun (i : Fin n) m => z (m * n + i.val)) hL m).p d * n + d.val < m + n) →
        (ilSeq (fun (i : Fin n) m => z (m * n + i.val)) hL m).g.cyc.val = m % n →
        (∀ i, (ilSeq (fun (i : Fin n) m => z (m * n + i.val)) hL m).g.slots i = some ⟨i.val, by omega⟩) →
        ∀ a, z m = some a → streamInterleave (fun (i : Fin n) m => z (m * n + i.val)) hL m = some a ∧
          (ilSeq (fun (i : Fin n) m => z (m * n + i.val)) hL (m + 1)).p =
            Function.update (ilSeq (fun (i : Fin n) m => z (m * n + i.val)) hL m).p ⟨m % n, Nat.mod_lt _ (by omega)⟩
              ((ilSeq (fun (i : Fin n) m => z (m * n + i.val)) hL m).p ⟨m % n, Nat.mod_lt _ (by omega)⟩ + 1) ∧
          (ilSeq (fun (i : Fin n) m => z (m * n + i.val)) hL (m + 1)).g =
            ilTurn (ilSeq (fun (i : Fin n) m => z (m * n + i.val)) hL m).g := by
      intro m h1 h2 h3 a ha
      obtain ⟨q, g', s1, s2⟩ := ilSeq_step (fun (i : Fin n) m => z (m * n + i.val)) hL m
      generalize ilSeq (fun (i : Fin n) m => z (m * n + i.val)) hL m = s at *
      generalize ilSeq (fun (i : Fin n) m => z (m * n + i.val)) hL (m + 1) = s' at *
      have hdm : n * (m / n) + m % n = m := Nat.div_add_mod m n
      have hd := h1 ⟨m % n, Nat.mod_lt _ (by omega)⟩
      dsimp only at hd
      have hp : s.p ⟨m % n, Nat.mod_lt _ (by omega)⟩ = m / n := by
        rw [Nat.mul_comm n] at hdm
        apply Nat.le_antisymm
        · by_contra hc
          have : (m / n + 1) * n ≤ s.p ⟨m % n, Nat.mod_lt _ (by omega)⟩ * n := Nat.mul_le_mul_right _ (by omega)
          rw [Nat.add_mul] at this
          omega
        · by_contra hc
          have : (s.p ⟨m % n, Nat.mod_lt _ (by omega)⟩ + 1) * n ≤ m / n * n := Nat.mul_le_mul_right _ (by omega)
          rw [Nat.add_mul] at this
          omega
      have hx : z (s.p ⟨m % n, Nat.mod_lt _ (by omega)⟩ * n + m % n) = some a := by
        rw [hp, Nat.mul_comm, hdm]
        exact ha
      have hstart : (ilTrans (α := α) n L).start s.g = .inl (⟨m % n, Nat.mod_lt _ (by omega)⟩, s.g) := by
        show ilSeek (L + 1) s.g = _
        unfold ilSeek
        rw [h3]
        simp only [h2]
        rfl
      have hc : CallTo (ilTrans (α := α) n L) (fun (i : Fin n) m => z (m * n + i.val)) s.p s.g (some a)
          (Function.update s.p ⟨m % n, Nat.mod_lt _ (by omega)⟩ (s.p ⟨m % n, Nat.mod_lt _ (by omega)⟩ + 1)) (ilTurn s.g) := by
        refine Or.inr ⟨_, _, 1, hstart, ?_⟩
        have := MtEval.last (T := ilTrans (α := α) n L) (x := fun (i : Fin n) m => z (m * n + i.val))
          (i := ⟨m % n, Nat.mod_lt _ (by omega)⟩) (k := s.g) (p := s.p) (r := some a) (l := ilTurn s.g)
          (by dsimp only; rw [hx]; rfl)
        have hnp : nextPos (fun k => z (k * n + m % n)) (s.p ⟨m % n, Nat.mod_lt _ (by omega)⟩) =
            s.p ⟨m % n, Nat.mod_lt _ (by omega)⟩ + 1 := by
          unfold nextPos
          dsimp only
          rw [hx]
        dsimp only at this
        rw [hnp] at this
        exact this
      obtain ⟨u1, u2, u3⟩ := callTo_unique hc s1
      rcases s2 with ⟨b, v1, v2, v3, v4, v5, -⟩ | ⟨v1, -⟩
      · exact ⟨u1.symm, by rw [v4, ← u2], by rw [v5]; exact u3.symm⟩
      · rw [v1] at u1
        cases u1
    intro m
    induction m with
    | zero =>
      intro _
      have h1 : ∀ d, 0 ≤ (ilSeq (fun (i : Fin n) m => z (m * n + i.val)) hL 0).p d * n + d.val ∧
          (ilSeq (fun (i : Fin n) m => z (m * n + i.val)) hL 0).p d * n + d.val < 0 + n := by
        intro d
        have : (ilSeq (fun (i : Fin n) m => z (m * n + i.val)) hL 0).p d = 0 := rfl
        rw [this]
        omega
      have h2 : (ilSeq (fun (i : Fin n) m => z (m * n + i.val)) hL 0).g.cyc.val = 0 % n := by
        rw [Nat.zero_mod]
        rfl
      have h3 : ∀ i, (ilSeq (fun (i : Fin n) m => z (m * n + i.val)) hL 0).g.slots i = some ⟨i.val, by omega⟩ := by
        intro i
        exact (if_pos (Nat.zero_le i.val) : (if 0 ≤ i.val then some (⟨i.val, by omega⟩ : Fin n) else none) = _)
      exact ⟨h1, h2, h3, fun a ha => (hcall 0 h1 h2 h3 a ha).1⟩
    | succ m ih =>
      intro hk
      obtain ⟨h1, h2, h3, h4⟩ := ih (fun k h => hk k (by omega))
      obtain ⟨a, ha⟩ := Option.isSome_iff_exists.1 (hk m (by omega))
      obtain ⟨-, g1, g2⟩ := hcall m h1 h2 h3 a ha
      have hdm : n * (m / n) + m % n = m := Nat.div_add_mod m n
      have i1 : ∀ d, m + 1 ≤ (ilSeq (fun (i : Fin n) m => z (m * n + i.val)) hL (m + 1)).p d * n + d.val ∧
          (ilSeq (fun (i : Fin n) m => z (m * n + i.val)) hL (m + 1)).p d * n + d.val < m + 1 + n := by
        intro d
        rw [g1]
        have hd := h1 d
        by_cases hdm' : d = ⟨m % n, Nat.mod_lt _ (by omega)⟩
        · rw [hdm'] at hd ⊢
          rw [Function.update_self, Nat.add_mul]
          have hmod : ((ilSeq (fun (i : Fin n) m => z (m * n + i.val)) hL m).p ⟨m % n, Nat.mod_lt _ (by omega)⟩ * n + m % n) % n = m % n := by
            rw [Nat.mul_add_mod_self_right, Nat.mod_mod]
          dsimp only at hd ⊢
          have : (ilSeq (fun (i : Fin n) m => z (m * n + i.val)) hL m).p ⟨m % n, Nat.mod_lt _ (by omega)⟩ * n + m % n = m :=
            eq_of_mod_window hmod hd.1 hd.2
          omega
        · rw [Function.update_of_ne hdm']
          have : (ilSeq (fun (i : Fin n) m => z (m * n + i.val)) hL m).p d * n + d.val ≠ m := by
            intro he
            apply hdm'
            apply Fin.ext
            dsimp only
            rw [← he, Nat.mul_add_mod_self_right, Nat.mod_eq_of_lt d.isLt]
          omega
      have i2 : (ilSeq (fun (i : Fin n) m => z (m * n + i.val)) hL (m + 1)).g.cyc.val = (m + 1) % n := by
        rw [g2]
        show (_ + 1 : Fin (L + 1)).val = _
        rw [Fin.val_add, h2, Fin.val_one', Nat.add_mod_mod, hn, Nat.mod_add_mod]
      have i3 : ∀ i, (ilSeq (fun (i : Fin n) m => z (m * n + i.val)) hL (m + 1)).g.slots i = some ⟨i.val, by omega⟩ := by
        intro i
        rw [g2]
        exact h3 i
      exact ⟨i1, i2, i3, fun a ha => (hcall (m + 1) i1 i2 i3 a ha).1⟩
  funext m
  by_cases hall : ∀ k < m, (z k).isSome
  · obtain ⟨h1, -, -, h4⟩ := hseq m hall
    cases hzm : z m with
    | some a => exact h4 a hzm
    | none =>
      cases hy : streamInterleave (fun (i : Fin n) m => z (m * n + i.val)) hL m with
      | none => rfl
      | some a =>
        have := (ilSeq_slot _ hL m hy).1
        have hd := (h1 (interleaveWho (fun (i : Fin n) m => z (m * n + i.val)) hL m)).1
        rw [hover' m _ hd hzm] at this
        cases this
  · -- over already
    have hex : ∃ k, k < m ∧ z k = none ∧ ∀ j < k, (z j).isSome := by
      have hex' : ∃ k, z k = none := by
        by_contra hc
        exact hall (fun k _ => by
          cases h : z k with
          | some a => rfl
          | none => exact absurd ⟨k, h⟩ hc)
      classical
      refine ⟨Nat.find hex', ?_, Nat.find_spec hex', ?_⟩
      · by_contra hc
        refine hall (fun k hk => ?_)
        have := Nat.find_min hex' (m := k) (by omega)
        cases h : z k with
        | some a => rfl
        | none => exact absurd h this
      · intro j hj
        have := Nat.find_min hex' hj
        cases h : z j with
        | some a => rfl
        | none => exact absurd h this
    obtain ⟨k, k1, k2, k3⟩ := hex
    obtain ⟨h1, -, -, -⟩ := hseq k k3
    have hk : streamInterleave (fun (i : Fin n) m => z (m * n + i.val)) hL k = none := by
      cases hy : streamInterleave (fun (i : Fin n) m => z (m * n + i.val)) hL k with
      | none => rfl
      | some a =>
        have := (ilSeq_slot _ hL k hy).1
        have hd := (h1 (interleaveWho (fun (i : Fin n) m => z (m * n + i.val)) hL k)).1
        rw [hover' k _ hd k2] at this
        cases this
    have hy : ∀ j, streamInterleave (fun (i : Fin n) m => z (m * n + i.val)) hL (k + j) = none := by
      intro j
      induction j with
      | zero => exact hk
      | succ j ih => exact streamInterleave_staysOver _ hL _ ih
    have e1 := hy (m - k)
    have e2 := hover k (m - k) k2
    rw [Nat.add_sub_cancel' (by omega)] at e1 e2
    rw [e1, e2]

theorem renewed_follows {c : ConcIter α} {x : Nat → Option α} {I : Nat → CMode → c.S → Prop} {K : Nat → c.C → Prop}
    (h : Follows c x I K) : Follows (renewed c) x I K :=
  ⟨h.init, h.step, h.call, h.ret, h.get, fun _ h2 h3 => h.setCall h.init h2 h3, h.setRet, h.canCall,
    fun _ h2 => h.canSet h.init h2, h.live, h.liveSet, h.acc⟩

end
end Grain
