import Verif.Stack.Interleave
import Verif.Stack.MultiLemmas
import Mathlib.Algebra.Group.Fin.Basic
import Mathlib.Data.Fintype.Card
import Mathlib.Data.Fintype.Basic
/-
Interleave of iterators that follow streams: one call.
-/
namespace Grain

section
variable {n L : Nat} {x : Fin n → Nat → Option α}

/-- Dataset `d` is in a slot or not yet opened. -/
def IlLive (l : IlLoc n L) (d : Fin n) : Prop := l.nextDs ≤ d.val ∨ ∃ i, l.slots i = some d

/-- The invariant; `p` are the positions of the datasets. -/
structure IlWF (x : Fin n → Nat → Option α) (p : Fin n → Nat) (l : IlLoc n L) : Prop where
  le : l.nextDs ≤ n
  below : ∀ {i d}, l.slots i = some d → d.val < l.nextDs
  inj : ∀ {i j d}, l.slots i = some d → l.slots j = some d → i = j
  over : ∀ {d}, ¬ IlLive l d → x d (p d) = none
  zero : ∀ {d : Fin n}, l.nextDs ≤ d.val → p d = 0
  used : ∀ {i : Fin (L + 1)}, l.nextDs ≤ i.val → l.slots i = none ∧ l.exh i = false
  unused : ∀ {i}, l.slots i = none → l.exh i = false → l.nextDs ≤ i.val

/-- In the first round the slots are opened one after the other. -/
def IlFirst (l : IlLoc n L) : Prop := l.nextDs < L + 1 → l.cyc.val = l.nextDs

/-- The same when the slot of the turn was just opened. -/
def IlFirstAsk (l : IlLoc n L) : Prop := l.nextDs < L + 1 → l.cyc.val + 1 = l.nextDs

/-- The same state with the first slots already opened, as after `get_state`. -/
def ilNorm (hL : L < n) (l : IlLoc n L) : IlLoc n L :=
  { l with nextDs := max l.nextDs (L + 1)
           slots := fun i => if l.nextDs ≤ i.val then some ⟨i.val, by omega⟩ else l.slots i }

/-- Nothing is left. -/
def IlOver (l : IlLoc n L) : Prop := n ≤ l.nextDs ∧ ∀ i, l.slots i = none

theorem ilNorm_of_le (hL : L < n) {l : IlLoc n L} (h : L + 1 ≤ l.nextDs) : ilNorm hL l = l := by
  rcases l with ⟨cyc, nextDs, slots, exh⟩
  simp only [ilNorm, IlLoc.mk.injEq, true_and, and_true] at h ⊢
  refine ⟨by omega, ?_⟩
  funext i
  rw [if_neg (by omega)]

theorem any_live {l : IlLoc n L} : (List.finRange (L + 1)).any (fun i => (l.slots i).isSome) = true ↔ ∃ i, (l.slots i).isSome := by
  simp

theorem dist_lt {j c : Fin (L + 1)} (h : j ≠ c) : (j - (c + 1)).val < (j - c).val := by
  have hne : j - c ≠ 0 := fun h1 => h (sub_eq_zero.1 h1)
  have h1 : (j - (c + 1)).val = (j - c).val - 1 := by
    rw [sub_add_eq_sub_sub, Fin.val_sub_one_of_ne_zero hne]
  have h2 : (j - c).val ≠ 0 := fun h => hne (Fin.ext (by simpa using h))
  omega

/-- The loop finds the next slot that is in use. -/
theorem ilSeek_live {β : Type} : ∀ (k : Nat) (l : IlLoc n L), n ≤ l.nextDs → ∀ j, (l.slots j).isSome → (j - l.cyc).val < k →
    ∃ d i, ilSeek (β := β) k l = .inl (d, { l with cyc := i }) ∧ l.slots i = some d ∧
      ∀ j', (l.slots j').isSome → (j' - i).val ≤ (j' - l.cyc).val := by
  intro k
  induction k with
  | zero => intro l _ j _ h; omega
  | succ k ih =>
    intro l hn j hj hk
    unfold ilSeek
    cases hs : l.slots l.cyc with
    | some d => exact ⟨d, l.cyc, rfl, hs, fun _ _ => le_refl _⟩
    | none =>
      dsimp only
      rw [dif_neg (by omega), if_pos (any_live.2 ⟨j, hj⟩)]
      have hdec : ∀ j', (l.slots j').isSome → (j' - (l.cyc + 1)).val < (j' - l.cyc).val := by
        intro j' hj'
        refine dist_lt ?_
        rintro rfl
        rw [hs] at hj'
        simp at hj'
      have hjd := hdec j hj
      obtain ⟨d, i, h1, h2, h3⟩ := ih { l with cyc := l.cyc + 1 } hn j hj (by dsimp only; omega)
      refine ⟨d, i, h1, h2, fun j' hj' => ?_⟩
      have := h3 j' hj'
      have := hdec j' hj'
      dsimp only at *
      omega

/-- A slot is opened. -/
def ilOpen (l : IlLoc n L) (h : l.nextDs < n) : IlLoc n L :=
  { l with slots := Function.update l.slots l.cyc (some ⟨l.nextDs, h⟩)
           exh := Function.update l.exh l.cyc false
           nextDs := l.nextDs + 1 }

theorem ilOpen_live {l : IlLoc n L} (h : l.nextDs < n) (hs : l.slots l.cyc = none) (d : Fin n) :
    IlLive (ilOpen l h) d ↔ IlLive l d := by
  unfold IlLive ilOpen
  dsimp only
  constructor
  · rintro (h1 | ⟨i, hi⟩)
    · exact Or.inl (by omega)
    · by_cases hic : i = l.cyc
      · subst hic
        rw [Function.update_self] at hi
        cases hi
        exact Or.inl (le_refl _)
      · rw [Function.update_of_ne hic] at hi
        exact Or.inr ⟨i, hi⟩
  · rintro (h1 | ⟨i, hi⟩)
    · by_cases he : l.nextDs = d.val
      · refine Or.inr ⟨l.cyc, ?_⟩
        rw [Function.update_self]
        congr
      · exact Or.inl (by omega)
    · refine Or.inr ⟨i, ?_⟩
      rw [Function.update_of_ne (by rintro rfl; rw [hs] at hi; cases hi)]
      exact hi

theorem ilOpen_keeps {l : IlLoc n L} (h : l.nextDs < n) (hs : l.slots l.cyc = none) {j : Fin (L + 1)} {e : Fin n}
    (hj : l.slots j = some e) : (ilOpen l h).slots j = some e ∧ (j - (ilOpen l h).cyc).val ≤ (j - l.cyc).val := by
  refine ⟨?_, le_refl _⟩
  unfold ilOpen
  dsimp only
  rw [Function.update_of_ne]
  · exact hj
  · rintro rfl
    rw [hs] at hj
    cases hj

theorem ilOpen_new {l : IlLoc n L} (h : l.nextDs < n) {e : Fin n} (he : e.val < (ilOpen l h).nextDs)
    (hne : e ≠ ⟨l.nextDs, h⟩) : e.val < l.nextDs := by
  unfold ilOpen at he
  dsimp only at he
  have : e.val ≠ l.nextDs := fun h1 => hne (Fin.ext h1)
  omega

theorem ilOpen_wf {p : Fin n → Nat} {l : IlLoc n L} (h : l.nextDs < n) (hw : IlWF x p l) (hf : IlFirst l)
    (hs : l.slots l.cyc = none) : IlWF x p (ilOpen l h) ∧ IlFirstAsk (ilOpen l h) := by
  refine ⟨⟨h, ?_, ?_, ?_, ?_, ?_, ?_⟩, ?_⟩
  · intro i d hi
    unfold ilOpen at hi ⊢
    dsimp only at hi ⊢
    by_cases hic : i = l.cyc
    · subst hic
      rw [Function.update_self] at hi
      cases hi
      exact Nat.lt_succ_self _
    · rw [Function.update_of_ne hic] at hi
      have := hw.below hi
      omega
  · intro i j d hi hj
    unfold ilOpen at hi hj
    dsimp only at hi hj
    by_cases hic : i = l.cyc <;> by_cases hjc : j = l.cyc
    · rw [hic, hjc]
    · subst hic
      rw [Function.update_self] at hi
      rw [Function.update_of_ne hjc] at hj
      cases hi
      have := hw.below hj
      simp at this
    · subst hjc
      rw [Function.update_self] at hj
      rw [Function.update_of_ne hic] at hi
      cases hj
      have := hw.below hi
      simp at this
    · rw [Function.update_of_ne hic] at hi
      rw [Function.update_of_ne hjc] at hj
      exact hw.inj hi hj
  · intro d hd
    exact hw.over (fun h1 => hd ((ilOpen_live h hs d).2 h1))
  · intro d hd
    unfold ilOpen at hd
    dsimp only at hd
    exact hw.zero (by omega)
  · intro i hi
    unfold ilOpen at hi ⊢
    dsimp only at hi ⊢
    have hic : i ≠ l.cyc := by
      rintro rfl
      have := hf (by omega)
      omega
    rw [Function.update_of_ne hic, Function.update_of_ne hic]
    exact hw.used (by omega)
  · intro i h1 h2
    unfold ilOpen at h1 h2 ⊢
    dsimp only at h1 h2 ⊢
    by_cases hic : i = l.cyc
    · subst hic
      rw [Function.update_self] at h1
      cases h1
    · rw [Function.update_of_ne hic] at h1 h2
      have := hw.unused h1 h2
      have hne : l.nextDs ≠ i.val := by
        intro he
        have := hf (by omega)
        exact hic (Fin.ext (by omega))
      omega
  · intro h1
    unfold ilOpen at h1 ⊢
    dsimp only at h1 ⊢
    have := hf (by omega)
    omega

/-- The search for the next input, from a state and from the same state with the slots opened. -/
theorem ilSeek_cases {β : Type} (hL : L < n) {p : Fin n → Nat} {l : IlLoc n L} (hw : IlWF x p l) (hf : IlFirst l) :
    (∃ d l', ilSeek (β := β) (L + 1) l = .inl (d, l') ∧ ilSeek (β := β) (L + 1) (ilNorm hL l) = .inl (d, ilNorm hL l') ∧
      IlWF x p l' ∧ IlFirstAsk l' ∧ l'.slots l'.cyc = some d ∧ (∀ e, IlLive l' e ↔ IlLive l e) ∧
      (∀ j e, l.slots j = some e → l'.slots j = some e ∧ (j - l'.cyc).val ≤ (j - l.cyc).val) ∧
      ∀ e : Fin n, e.val < l'.nextDs → e ≠ d → e.val < l.nextDs) ∨
    (ilSeek (β := β) (L + 1) l = .inr (none, l) ∧ ilSeek (β := β) (L + 1) (ilNorm hL l) = .inr (none, ilNorm hL l) ∧ IlOver l) := by
  by_cases hfirst : l.nextDs < L + 1
  · left
    have hcyc := hf hfirst
    have hs : l.slots l.cyc = none := (hw.used (by omega)).1
    have hn : l.nextDs < n := by omega
    obtain ⟨h1, h2⟩ := ilOpen_wf hn hw hf hs
    refine ⟨⟨l.nextDs, hn⟩, ilOpen l hn, ?_, ?_, h1, h2, ?_, ilOpen_live hn hs, fun j e => ilOpen_keeps hn hs, ?_⟩
    · unfold ilSeek
      rw [hs]
      dsimp only
      rw [dif_pos hn]
      rfl
    · unfold ilSeek
      have hc : (ilNorm hL l).slots (ilNorm hL l).cyc = some ⟨l.nextDs, hn⟩ := by
        unfold ilNorm
        dsimp only
        rw [if_pos (by omega)]
        congr
      rw [hc]
      dsimp only
      congr 2
      rcases l with ⟨cyc, nextDs, slots, exh⟩
      unfold ilNorm ilOpen
      dsimp only at hcyc hfirst ⊢
      have hexh : exh cyc = false := (hw.used (i := cyc) (by dsimp only; omega)).2
      congr 1
      · omega
      · funext i
        by_cases hic : i = cyc
        · subst hic
          rw [if_pos (by omega), if_neg (by omega), Function.update_self]
          congr
        · have : i.val ≠ cyc.val := fun h => hic (Fin.ext h)
          rw [Function.update_of_ne hic]
          by_cases h : nextDs ≤ i.val
          · rw [if_pos h, if_pos (by omega)]
          · rw [if_neg h, if_neg (by omega)]
      · rw [← hexh, Function.update_eq_self]
    · unfold ilOpen
      dsimp only
      rw [Function.update_self]
    · exact fun e => ilOpen_new hn
  · have hnorm := ilNorm_of_le hL (l := l) (by omega)
    rw [hnorm]
    cases hs : l.slots l.cyc with
    | some d =>
      left
      refine ⟨d, l, ?_, ?_, hw, fun h => absurd h hfirst, hs, fun _ => Iff.rfl, fun j e h => ⟨h, le_refl _⟩,
        fun _ h _ => h⟩
      · unfold ilSeek
        rw [hs]
      · unfold ilSeek
        rw [hs, hnorm]
    | none =>
      by_cases hn : l.nextDs < n
      · left
        obtain ⟨h1, h2⟩ := ilOpen_wf hn hw hf hs
        have he : ilSeek (β := β) (L + 1) l = .inl (⟨l.nextDs, hn⟩, ilOpen l hn) := by
          unfold ilSeek
          rw [hs]
          dsimp only
          rw [dif_pos hn]
          rfl
        refine ⟨⟨l.nextDs, hn⟩, ilOpen l hn, he, ?_, h1, h2, ?_, ilOpen_live hn hs, fun j e => ilOpen_keeps hn hs, ?_⟩
        · rw [he, ilNorm_of_le hL]
          unfold ilOpen
          dsimp only
          omega
        · unfold ilOpen
          dsimp only
          rw [Function.update_self]
        · exact fun e => ilOpen_new hn
      · by_cases hlive : ∃ j, (l.slots j).isSome
        · left
          obtain ⟨j, hj⟩ := hlive
          obtain ⟨d, i, h1, h2, h3⟩ := ilSeek_live (β := β) (L + 1) l (by omega) j hj (Fin.isLt _)
          refine ⟨d, { l with cyc := i }, h1, ?_, ?_, fun h => absurd h hfirst, h2, fun _ => Iff.rfl,
            fun j e h => ⟨h, h3 j (by simp [h])⟩, fun _ h _ => h⟩
          · rw [h1, ilNorm_of_le hL]
            dsimp only
            omega
          · exact ⟨hw.le, hw.below, hw.inj, hw.over, hw.zero, hw.used, hw.unused⟩
        · right
          have he : ilSeek (β := β) (L + 1) l = .inr (none, l) := by
            unfold ilSeek
            rw [hs]
            dsimp only
            rw [dif_neg hn, if_neg (by rw [any_live]; exact hlive)]
          refine ⟨he, he, by omega, fun i => ?_⟩
          cases h : l.slots i with
          | none => rfl
          | some d => exact absurd ⟨i, by simp [h]⟩ hlive

/-- The slot of the turn is found to be used up. -/
def ilDrop (l : IlLoc n L) : IlLoc n L :=
  { l with slots := Function.update l.slots l.cyc none
           exh := Function.update l.exh l.cyc true
           cyc := l.cyc + 1 }

/-- The slot of the turn has returned an element. -/
def ilTurn (l : IlLoc n L) : IlLoc n L := { l with cyc := l.cyc + 1 }

theorem cyc_lt {p : Fin n → Nat} {l : IlLoc n L} {d : Fin n} (hw : IlWF x p l) (hs : l.slots l.cyc = some d) :
    l.cyc.val < l.nextDs := by
  by_contra h
  rw [(hw.used (by omega)).1] at hs
  cases hs

theorem first_succ {l : IlLoc n L} (hf : IlFirstAsk l) (h : l.nextDs < L + 1) : (l.cyc + 1).val = l.nextDs := by
  have h1 := hf h
  rw [Fin.val_add_one_of_lt']
  · exact h1
  · omega

theorem ilTurn_wf (hL : L < n) {p : Fin n → Nat} {l : IlLoc n L} {d : Fin n} (hw : IlWF x p l) (hf : IlFirstAsk l)
    (hs : l.slots l.cyc = some d) (q : Nat) :
    IlWF x (Function.update p d q) (ilTurn l) ∧ IlFirst (ilTurn l) ∧ ilNorm hL (ilTurn l) = ilTurn (ilNorm hL l) := by
  refine ⟨⟨hw.le, hw.below, hw.inj, ?_, ?_, hw.used, hw.unused⟩, ?_, rfl⟩
  · intro e he
    by_cases hed : e = d
    · subst hed
      exact absurd (Or.inr ⟨l.cyc, hs⟩) he
    · rw [Function.update_of_ne hed]
      exact hw.over he
  · intro e he
    have hed : e ≠ d := by
      rintro rfl
      have := hw.below hs
      change l.nextDs ≤ e.val at he
      omega
    rw [Function.update_of_ne hed]
    exact hw.zero he
  · intro h
    exact first_succ hf h

theorem ilDrop_live {p : Fin n → Nat} {l : IlLoc n L} {d : Fin n} (hw : IlWF x p l) (hs : l.slots l.cyc = some d) (e : Fin n) :
    IlLive (ilDrop l) e ↔ (IlLive l e ∧ e ≠ d) := by
  unfold IlLive ilDrop
  dsimp only
  constructor
  · rintro (h1 | ⟨i, hi⟩)
    · refine ⟨Or.inl h1, ?_⟩
      rintro rfl
      have := hw.below hs
      omega
    · by_cases hic : i = l.cyc
      · subst hic
        rw [Function.update_self] at hi
        cases hi
      · rw [Function.update_of_ne hic] at hi
        refine ⟨Or.inr ⟨i, hi⟩, ?_⟩
        rintro rfl
        exact hic (hw.inj hi hs)
  · rintro ⟨h1 | ⟨i, hi⟩, hne⟩
    · exact Or.inl h1
    · refine Or.inr ⟨i, ?_⟩
      rw [Function.update_of_ne]
      · exact hi
      · rintro rfl
        rw [hs] at hi
        cases hi
        exact hne rfl

theorem ilDrop_wf (hL : L < n) {p : Fin n → Nat} {l : IlLoc n L} {d : Fin n} (hw : IlWF x p l) (hf : IlFirstAsk l)
    (hs : l.slots l.cyc = some d) (hx : x d (p d) = none) :
    IlWF x p (ilDrop l) ∧ IlFirst (ilDrop l) ∧ ilNorm hL (ilDrop l) = ilDrop (ilNorm hL l) := by
  have hlt := cyc_lt hw hs
  refine ⟨⟨hw.le, ?_, ?_, ?_, hw.zero, ?_, ?_⟩, ?_, ?_⟩
  · intro i e hi
    unfold ilDrop at hi ⊢
    dsimp only at hi ⊢
    by_cases hic : i = l.cyc
    · subst hic
      rw [Function.update_self] at hi
      cases hi
    · rw [Function.update_of_ne hic] at hi
      exact hw.below hi
  · intro i j e hi hj
    unfold ilDrop at hi hj
    dsimp only at hi hj
    by_cases hic : i = l.cyc
    · subst hic
      rw [Function.update_self] at hi
      cases hi
    · by_cases hjc : j = l.cyc
      · subst hjc
        rw [Function.update_self] at hj
        cases hj
      · rw [Function.update_of_ne hic] at hi
        rw [Function.update_of_ne hjc] at hj
        exact hw.inj hi hj
  · intro e he
    by_cases hed : e = d
    · subst hed
      exact hx
    · exact hw.over (fun h => he ((ilDrop_live hw hs e).2 ⟨h, hed⟩))
  · intro i hi
    unfold ilDrop at hi ⊢
    dsimp only at hi ⊢
    have hic : i ≠ l.cyc := by rintro rfl; omega
    rw [Function.update_of_ne hic, Function.update_of_ne hic]
    exact hw.used hi
  · intro i h1 h2
    unfold ilDrop at h1 h2 ⊢
    dsimp only at h1 h2 ⊢
    by_cases hic : i = l.cyc
    · subst hic
      rw [Function.update_self] at h2
      cases h2
    · rw [Function.update_of_ne hic] at h1 h2
      exact hw.unused h1 h2
  · intro h
    exact first_succ hf h
  · unfold ilNorm ilDrop
    dsimp only
    congr 1
    funext i
    by_cases hic : i = l.cyc
    · subst hic
      rw [Function.update_self, Function.update_self, if_neg (by omega)]
    · rw [Function.update_of_ne hic, Function.update_of_ne hic]

/-- The positions agree where it matters. -/
def IlAgree (l : IlLoc n L) (p p' : Fin n → Nat) : Prop := ∀ d, IlLive l d → p d = p' d

/-- What a call has done to the positions `p`: it returned the next element of a dataset, or there was none. -/
def IlAfter (x : Fin n → Nat → Option α) (p : Fin n → Nat) (r : Option α) (q : Fin n → Nat) (l : IlLoc n L) : Prop :=
  (∃ a d, r = some a ∧ x d (p d) = some a ∧ q = Function.update p d (p d + 1) ∧ IlWF x q l ∧ IlFirst l) ∨
  (r = none ∧ q = p ∧ (∀ d, x d (p d) = none) ∧ IlOver l)

/-- Whoever has an element and is in a slot comes nearer. -/
def IlNearer (x : Fin n → Nat → Option α) (p : Fin n → Nat) (l : IlLoc n L) (q : Fin n → Nat) (l' : IlLoc n L) : Prop :=
  ∀ j e, l.slots j = some e → x e (p e) ≠ none → q e = p e + 1 ∨ (l'.slots j = some e ∧ (j - l'.cyc).val < (j - l.cyc).val)

/-- Every dataset that was opened was read. -/
def IlOpened (x : Fin n → Nat → Option α) (p : Fin n → Nat) (l : IlLoc n L) : Prop :=
  ∀ e : Fin n, e.val < l.nextDs → 0 < p e ∨ x e 0 = none

open Classical in
/-- A call that asks dataset `d`. -/
theorem il_ask (hL : L < n) : ∀ (M : Nat) (l : IlLoc n L) (d : Fin n) (p p' : Fin n → Nat),
    (Finset.univ.filter (fun e => IlLive l e)).card = M → IlWF x p' l → IlFirstAsk l → l.slots l.cyc = some d →
    IlAgree l p p' →
    ∃ k k' r q q', ∃ l' : IlLoc n L, MtEval (ilTrans (α := α) n L) x k d l p r q l' ∧
      MtEval (ilTrans (α := α) n L) x k' d (ilNorm hL l) p' r q' (ilNorm hL l') ∧ IlAfter x p' r q' l' ∧ IlAgree l' q q' ∧
      IlNearer x p' l q' l' ∧
      ((∀ e : Fin n, e.val < l.nextDs → e ≠ d → 0 < p' e ∨ x e 0 = none) → IlOpened x q' l') := by
  intro M
  induction M using Nat.strong_induction_on with
  | _ M ih =>
    intro l d p p' hM hw hf hs hag
    have hpd : p d = p' d := hag d (Or.inr ⟨_, hs⟩)
    cases hx : x d (p' d) with
    | some a =>
      obtain ⟨h1, h2, h3⟩ := ilTurn_wf hL hw hf hs (p' d + 1)
      have hn : nextPos (x d) (p' d) = p' d + 1 := by simp [nextPos, hx]
      refine ⟨1, 1, some a, Function.update p d (nextPos (x d) (p d)), Function.update p' d (p' d + 1), ilTurn l,
        MtEval.last (T := ilTrans (α := α) n L) (k := l) ?_, ?_, Or.inl ⟨a, d, rfl, hx, rfl, h1, h2⟩, ?_, ?_, ?_⟩
      · rw [hpd, hx]
        rfl
      · rw [h3, ← hn]
        refine MtEval.last (T := ilTrans (α := α) n L) (k := ilNorm hL l) ?_
        rw [hx]
        rfl
      · intro e he
        by_cases hed : e = d
        · subst hed
          rw [Function.update_self, Function.update_self, hpd, hn]
        · rw [Function.update_of_ne hed, Function.update_of_ne hed]
          exact hag e he
      · intro j e hj _
        by_cases hjc : j = l.cyc
        · subst hjc
          rw [hs] at hj
          cases hj
          left
          rw [Function.update_self]
        · exact Or.inr ⟨hj, dist_lt hjc⟩
      · intro hop e he
        by_cases hed : e = d
        · subst hed
          rw [Function.update_self]
          exact Or.inl (by omega)
        · rw [Function.update_of_ne hed]
          exact hop e he hed
    | none =>
      obtain ⟨h1, h2, h3⟩ := ilDrop_wf hL hw hf hs hx
      have hup : Function.update p' d (nextPos (x d) (p' d)) = p' := by
        have : nextPos (x d) (p' d) = p' d := by simp [nextPos, hx]
        rw [this, Function.update_eq_self]
      have hup' : Function.update p d (nextPos (x d) (p d)) = p := by
        have : nextPos (x d) (p d) = p d := by rw [hpd]; simp [nextPos, hx]
        rw [this, Function.update_eq_self]
      have hr : (ilTrans (α := α) n L).resume d l (x d (p d)) = ilSeek (L + 1) (ilDrop l) := by
        rw [hpd, hx]
        rfl
      have hr' : (ilTrans (α := α) n L).resume d (ilNorm hL l) (x d (p' d)) = ilSeek (L + 1) (ilNorm hL (ilDrop l)) := by
        rw [h3, hx]
        rfl
      have hop' : (∀ e : Fin n, e.val < l.nextDs → e ≠ d → 0 < p' e ∨ x e 0 = none) → IlOpened x p' (ilDrop l) := by
        intro hop e he
        by_cases hed : e = d
        · subst hed
          by_cases h0 : p' e = 0
          · rw [h0] at hx
            exact Or.inr hx
          · exact Or.inl (by omega)
        · exact hop e he hed
      have hkeep : ∀ j e, l.slots j = some e → x e (p' e) ≠ none →
          (ilDrop l).slots j = some e ∧ (j - (ilDrop l).cyc).val < (j - l.cyc).val := by
        intro j e hj hxe
        have hjc : j ≠ l.cyc := by
          rintro rfl
          rw [hs] at hj
          cases hj
          exact hxe hx
        refine ⟨?_, dist_lt hjc⟩
        unfold ilDrop
        dsimp only
        rw [Function.update_of_ne hjc]
        exact hj
      rcases ilSeek_cases (β := α) hL h1 h2 with ⟨e, l', e1, e2, e3, e4, e5, e6, e7, e8⟩ | ⟨e1, e2, e3⟩
      · have hlt : (Finset.univ.filter (fun e => IlLive l' e)).card < M := by
          rw [← hM]
          apply Finset.card_lt_card
          rw [Finset.ssubset_iff_of_subset]
          · refine ⟨d, ?_, ?_⟩
            · simp only [Finset.mem_filter, Finset.mem_univ, true_and]
              exact Or.inr ⟨_, hs⟩
            · simp only [Finset.mem_filter, Finset.mem_univ, true_and]
              rw [e6, ilDrop_live hw hs]
              simp
          · intro e
            simp only [Finset.mem_filter, Finset.mem_univ, true_and]
            rw [e6, ilDrop_live hw hs]
            exact fun h => h.1
        have hag' : IlAgree l' p p' := by
          intro e he
          rw [e6, ilDrop_live hw hs] at he
          exact hag e he.1
        obtain ⟨k, k', r, q, q', l'', f1, f2, f3, f4, f5, f6⟩ := ih _ hlt l' e p p' rfl e3 e4 e5 hag'
        refine ⟨k + 1, k' + 1, r, q, q', l'', ?_, ?_, f3, f4, ?_, fun hop => f6 (fun e' h1 h2 => hop' hop e' (e8 e' h1 h2))⟩
        · refine MtEval.more (T := ilTrans (α := α) n L) (i' := e) (k' := l') ?_ ?_
          · rw [hr]
            exact e1
          · rw [hup']
            exact f1
        · refine MtEval.more (T := ilTrans (α := α) n L) (i' := e) (k' := ilNorm hL l') ?_ ?_
          · rw [hr']
            exact e2
          · rw [hup]
            exact f2
        · intro j e hj hxe
          obtain ⟨g1, g2⟩ := hkeep j e hj hxe
          obtain ⟨g3, g4⟩ := e7 j e g1
          rcases f5 j e g3 hxe with g5 | ⟨g5, g6⟩
          · exact Or.inl g5
          · exact Or.inr ⟨g5, by omega⟩
      · have hdead : ∀ e, ¬ IlLive (ilDrop l) e := by
          rintro e (h | ⟨i, hi⟩)
          · have := e3.1
            omega
          · rw [e3.2 i] at hi
            cases hi
        refine ⟨1, 1, none, p, p', ilDrop l, ?_, ?_, Or.inr ⟨rfl, rfl, fun e => h1.over (hdead e), e3⟩,
          fun e he => absurd he (hdead e), ?_, hop'⟩
        · have := MtEval.last (T := ilTrans (α := α) n L) (x := x) (i := d) (k := l) (p := p) (r := none) (l := ilDrop l)
            (by rw [hr]; exact e1)
          rwa [hup'] at this
        · have := MtEval.last (T := ilTrans (α := α) n L) (x := x) (i := d) (k := ilNorm hL l) (p := p') (r := none)
            (l := ilNorm hL (ilDrop l)) (by rw [hr']; exact e2)
          rwa [hup] at this
        · intro j e hj hxe
          obtain ⟨g1, -⟩ := hkeep j e hj hxe
          rw [e3.2 j] at g1
          cases g1

end
end Grain
