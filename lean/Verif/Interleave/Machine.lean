import Verif.Interleave.Model
import Mathlib.Logic.Function.Basic
import Mathlib.Tactic.ByContra
/-
Abstract interleaving machine: positions instead of iterators.  Used in the proofs only.
-/
namespace Grain

/-- A slot holds (dataset, position); `starts d` is the position at which dataset `d` will be opened. -/
structure AIL where
  slots : Nat → Option (Nat × Nat)
  cyc : Nat
  nextDs : Nat
  starts : Nat → Nat

inductive AOut (α : Type) where
  | silent
  | yield (d : Nat) (r : Py α)
  | finished
  | stuck

/-- One turn of the loop. -/
def aTurn (xs : Nat → List (Py α)) (ended : Bool) (n L : Nat) (A : AIL) : AIL × AOut α :=
  match A.slots A.cyc with
  | some (d, p) =>
    match (xs d)[p]? with
    | some (.ok a) =>
      ({ A with slots := Function.update A.slots A.cyc (some (d, p + 1)), cyc := (A.cyc + 1) % L }, .yield d (.ok a))
    | some (.error e) => ({ A with slots := Function.update A.slots A.cyc (some (d, p + 1)) }, .yield d (.error e))
    | none =>
      if ended then ({ A with slots := Function.update A.slots A.cyc none, cyc := (A.cyc + 1) % L }, .silent)
      else (A, .stuck)
  | none =>
    if A.nextDs < n then
      ({ A with slots := Function.update A.slots A.cyc (some (A.nextDs, A.starts A.nextDs)), nextDs := A.nextDs + 1 },
        .silent)
    else if anyLive L A.slots then ({ A with cyc := (A.cyc + 1) % L }, .silent)
    else (A, .finished)

/-- Turns until something happens. -/
inductive ANext (xs : Nat → List (Py α)) (ended : Bool) (n L : Nat) : AIL → AIL → AOut α → Prop
  | done {A A' o} : aTurn xs ended n L A = (A', o) → o ≠ .silent → ANext xs ended n L A A' o
  | step {A A1 A' o} : aTurn xs ended n L A = (A1, .silent) → ANext xs ended n L A1 A' o → ANext xs ended n L A A' o

/-- The elements yielded from `A` on, each with its dataset. -/
inductive ATrace (xs : Nat → List (Py α)) (ended : Bool) (n L : Nat) : AIL → List (Nat × Py α) → Prop
  | fin {A A'} : ANext xs ended n L A A' .finished → ended = true → ATrace xs ended n L A []
  | limit {A i d p} : ended = false → i < L → A.slots i = some (d, p) → (xs d).length ≤ p → ATrace xs ended n L A []
  | cons {A A' d r t} : (ended = true ∨ ∀ i d p, i < L → A.slots i = some (d, p) → p < (xs d).length) →
      ANext xs ended n L A A' (.yield d r) → ATrace xs ended n L A' t → ATrace xs ended n L A ((d, r) :: t)

structure AWF (n L : Nat) (A : AIL) : Prop where
  cyc : A.cyc < L
  below : ∀ i d p, i < L → A.slots i = some (d, p) → d < A.nextDs
  inj : ∀ i j d p q, i < L → j < L → A.slots i = some (d, p) → A.slots j = some (d, q) → i = j

theorem anyLive_iff {β : Type} {L : Nat} {slots : Nat → Option β} :
    anyLive L slots = true ↔ ∃ i, i < L ∧ (slots i).isSome = true := by
  simp [anyLive]

theorem upd_same {β : Type} (f : Nat → β) (i : Nat) (v : β) : Function.update f i v i = v := by simp
theorem upd_ne {β : Type} (f : Nat → β) {i j : Nat} (v : β) (h : j ≠ i) : Function.update f i v j = f j := by
  simp [Function.update_of_ne h]

/-- All cases of a turn. -/
inductive TurnCase (xs : Nat → List (Py α)) (ended : Bool) (n L : Nat) (A : AIL) : Prop
  | ok (d p a) : A.slots A.cyc = some (d, p) → (xs d)[p]? = some (.ok a) →
      aTurn xs ended n L A =
        ({ A with slots := Function.update A.slots A.cyc (some (d, p + 1)), cyc := (A.cyc + 1) % L }, .yield d (.ok a)) →
      TurnCase xs ended n L A
  | err (d p e) : A.slots A.cyc = some (d, p) → (xs d)[p]? = some (.error e) →
      aTurn xs ended n L A =
        ({ A with slots := Function.update A.slots A.cyc (some (d, p + 1)) }, .yield d (.error e)) →
      TurnCase xs ended n L A
  | exh (d p) : A.slots A.cyc = some (d, p) → (xs d).length ≤ p → ended = true →
      aTurn xs ended n L A =
        ({ A with slots := Function.update A.slots A.cyc none, cyc := (A.cyc + 1) % L }, .silent) →
      TurnCase xs ended n L A
  | stuck (d p) : A.slots A.cyc = some (d, p) → (xs d).length ≤ p → ended = false →
      aTurn xs ended n L A = (A, .stuck) → TurnCase xs ended n L A
  | opn : A.slots A.cyc = none → A.nextDs < n →
      aTurn xs ended n L A =
        ({ A with slots := Function.update A.slots A.cyc (some (A.nextDs, A.starts A.nextDs)), nextDs := A.nextDs + 1 },
          .silent) →
      TurnCase xs ended n L A
  | skip (i) : A.slots A.cyc = none → n ≤ A.nextDs → i < L → (A.slots i).isSome = true →
      aTurn xs ended n L A = ({ A with cyc := (A.cyc + 1) % L }, .silent) → TurnCase xs ended n L A
  | fin : (∀ i, i < L → A.slots i = none) → A.slots A.cyc = none → n ≤ A.nextDs →
      aTurn xs ended n L A = (A, .finished) → TurnCase xs ended n L A

theorem length_le_of_getElem?_none {l : List β} {p : Nat} (h : l[p]? = none) : l.length ≤ p := by
  by_contra hc
  rw [List.getElem?_eq_getElem (by omega)] at h
  cases h

theorem aTurn_cases (xs : Nat → List (Py α)) (ended : Bool) (n L : Nat) (A : AIL) : TurnCase xs ended n L A := by
  cases hs : A.slots A.cyc with
  | some dp =>
    obtain ⟨d, p⟩ := dp
    cases hx : (xs d)[p]? with
    | some r =>
      cases r with
      | ok a => exact .ok d p a hs hx (by simp only [aTurn, hs, hx])
      | error e => exact .err d p e hs hx (by simp only [aTurn, hs, hx])
    | none =>
      cases he : ended with
      | true => exact .exh d p hs (length_le_of_getElem?_none hx) rfl (by simp only [aTurn, hs, hx, if_pos])
      | false =>
        exact .stuck d p hs (length_le_of_getElem?_none hx) rfl (by simp [aTurn, hs, hx])
  | none =>
    by_cases hn : A.nextDs < n
    · exact .opn hs hn (by simp only [aTurn, hs, if_pos hn])
    · by_cases ha : anyLive L A.slots = true
      · obtain ⟨i, hi, hl⟩ := anyLive_iff.1 ha
        exact .skip i hs (by omega) hi hl (by simp only [aTurn, hs, if_neg hn, if_pos ha])
      · refine .fin ?_ hs (by omega) (by simp only [aTurn, hs, if_neg hn, if_neg ha])
        intro i hi
        cases h : A.slots i with
        | none => rfl
        | some v => exact absurd (anyLive_iff.2 ⟨i, hi, by simp [h]⟩) ha

theorem aTurn_wf {xs : Nat → List (Py α)} {ended : Bool} {n L : Nat} {A : AIL} (hL : 0 < L) (h : AWF n L A) :
    AWF n L (aTurn xs ended n L A).1 := by
  have hmod : (A.cyc + 1) % L < L := Nat.mod_lt _ hL
  have upd : ∀ d p q, A.slots A.cyc = some (d, p) →
      (∀ i d' p', i < L → Function.update A.slots A.cyc (some (d, q)) i = some (d', p') → d' < A.nextDs) ∧
      (∀ i j d' p' q', i < L → j < L → Function.update A.slots A.cyc (some (d, q)) i = some (d', p') →
        Function.update A.slots A.cyc (some (d, q)) j = some (d', q') → i = j) := by
    intro d p q hs
    refine ⟨?_, ?_⟩
    · intro i d' p' hi hu
      by_cases hic : i = A.cyc
      · subst hic
        rw [upd_same] at hu
        cases hu
        exact h.below _ _ _ hi hs
      · rw [upd_ne _ _ hic] at hu
        exact h.below _ _ _ hi hu
    · intro i j d' p' q' hi hj h1 h2
      by_cases hic : i = A.cyc
      · by_cases hjc : j = A.cyc
        · omega
        · rw [hic, upd_same] at h1
          rw [upd_ne _ _ hjc] at h2
          cases h1
          have := h.inj _ _ _ _ _ h.cyc hj hs h2
          omega
      · rw [upd_ne _ _ hic] at h1
        by_cases hjc : j = A.cyc
        · rw [hjc, upd_same] at h2
          cases h2
          have := h.inj _ _ _ _ _ hi h.cyc h1 hs
          omega
        · rw [upd_ne _ _ hjc] at h2
          exact h.inj _ _ _ _ _ hi hj h1 h2
  cases aTurn_cases xs ended n L A with
  | ok d p a hs hx he =>
    rw [he]
    exact ⟨hmod, (upd d p (p + 1) hs).1, (upd d p (p + 1) hs).2⟩
  | err d p e hs hx he =>
    rw [he]
    exact ⟨h.cyc, (upd d p (p + 1) hs).1, (upd d p (p + 1) hs).2⟩
  | exh d p hs hx hend he =>
    rw [he]
    refine ⟨hmod, ?_, ?_⟩
    · intro i d' p' hi hu
      by_cases hic : i = A.cyc
      · subst hic
        simp only [upd_same] at hu
        cases hu
      · simp only [upd_ne _ _ hic] at hu
        exact h.below _ _ _ hi hu
    · intro i j d' p' q' hi hj h1 h2
      by_cases hic : i = A.cyc
      · subst hic
        simp only [upd_same] at h1
        cases h1
      · by_cases hjc : j = A.cyc
        · subst hjc
          simp only [upd_same] at h2
          cases h2
        · simp only [upd_ne _ _ hic] at h1
          simp only [upd_ne _ _ hjc] at h2
          exact h.inj _ _ _ _ _ hi hj h1 h2
  | stuck d p hs hx hend he => rw [he]; exact h
  | opn hs hn he =>
    rw [he]
    refine ⟨h.cyc, ?_, ?_⟩
    · intro i d' p' hi hu
      by_cases hic : i = A.cyc
      · subst hic
        simp only [upd_same] at hu
        cases hu
        simp
      · simp only [upd_ne _ _ hic] at hu
        have := h.below _ _ _ hi hu
        simp only
        omega
    · intro i j d' p' q' hi hj h1 h2
      by_cases hic : i = A.cyc
      · by_cases hjc : j = A.cyc
        · omega
        · subst hic
          simp only [upd_same] at h1
          simp only [upd_ne _ _ hjc] at h2
          cases h1
          have := h.below _ _ _ hj h2
          omega
      · by_cases hjc : j = A.cyc
        · subst hjc
          simp only [upd_same] at h2
          simp only [upd_ne _ _ hic] at h1
          cases h2
          have := h.below _ _ _ hi h1
          omega
        · simp only [upd_ne _ _ hic] at h1
          simp only [upd_ne _ _ hjc] at h2
          exact h.inj _ _ _ _ _ hi hj h1 h2
  | skip i hs hn hi hl he => rw [he]; exact ⟨hmod, h.below, h.inj⟩
  | fin hall hs hn he => rw [he]; exact h

theorem ANext.wf {xs : Nat → List (Py α)} {ended : Bool} {n L : Nat} {A A' : AIL} {o : AOut α} (hL : 0 < L)
    (hn : ANext xs ended n L A A' o) : AWF n L A → AWF n L A' := by
  induction hn with
  | done h _ => intro hw; have := aTurn_wf (xs := xs) (ended := ended) hL hw; rw [h] at this; exact this
  | step h _ ih => intro hw; have := aTurn_wf (xs := xs) (ended := ended) hL hw; rw [h] at this; exact ih this

/-! ### Termination -/

def sumTo (L : Nat) (g : Nat → Nat) : Nat := ((List.range L).map g).sum

theorem sumTo_succ (L : Nat) (g : Nat → Nat) : sumTo (L + 1) g = sumTo L g + g L := by
  simp [sumTo, List.range_succ]

theorem sumTo_congr {L : Nat} {g h : Nat → Nat} (he : ∀ i, i < L → g i = h i) : sumTo L g = sumTo L h := by
  unfold sumTo
  congr 1
  apply List.map_congr_left
  intro i hi
  exact he i (List.mem_range.1 hi)

theorem sumTo_update {L i : Nat} {g h : Nat → Nat} (hi : i < L) (he : ∀ j, j < L → j ≠ i → g j = h j) :
    sumTo L g + h i = sumTo L h + g i := by
  induction L with
  | zero => omega
  | succ L ih =>
    rw [sumTo_succ, sumTo_succ]
    by_cases hc : i = L
    · subst hc
      rw [sumTo_congr (fun j hj => he j (by omega) (by omega))]
      omega
    · have h1 := ih (by omega) (fun j hj hne => he j (by omega) hne)
      have h2 := he L (by omega) (by omega)
      omega

def slotW (xs : Nat → List (Py α)) : Option (Nat × Nat) → Nat
  | some (d, p) => ((xs d).length - p) + 1
  | none => 0

theorem slotW_some (xs : Nat → List (Py α)) (d p : Nat) : slotW xs (some (d, p)) = ((xs d).length - p) + 1 := rfl
theorem slotW_none (xs : Nat → List (Py α)) : slotW xs none = 0 := rfl

def restW (xs : Nat → List (Py α)) (A : AIL) (d : Nat) : Nat :=
  if A.nextDs ≤ d then ((xs d).length - A.starts d) + 2 else 0

def aWeight (xs : Nat → List (Py α)) (n L : Nat) (A : AIL) : Nat :=
  sumTo L (fun i => slotW xs (A.slots i)) + sumTo n (restW xs A)

theorem slotW_update {xs : Nat → List (Py α)} {L : Nat} {slots : Nat → Option (Nat × Nat)} {i : Nat}
    {v : Option (Nat × Nat)} (hi : i < L) :
    sumTo L (fun j => slotW xs (Function.update slots i v j)) + slotW xs (slots i) =
      sumTo L (fun j => slotW xs (slots j)) + slotW xs v := by
  have := sumTo_update (L := L) (i := i) (g := fun j => slotW xs (Function.update slots i v j))
    (h := fun j => slotW xs (slots j)) hi (fun j _ hne => by simp only [upd_ne _ _ hne])
  simpa only [upd_same] using this

theorem lt_of_getElem?_some {l : List β} {p : Nat} {a : β} (h : l[p]? = some a) : p < l.length := by
  by_contra hc
  rw [List.getElem?_eq_none (by omega)] at h
  cases h

/-- What a turn does to the weight. -/
theorem aTurn_weight {xs : Nat → List (Py α)} {ended : Bool} {n L : Nat} {A : AIL} (hw : AWF n L A) :
    aWeight xs n L (aTurn xs ended n L A).1 < aWeight xs n L A ∨
      ((aTurn xs ended n L A).2 = .stuck ∨ (aTurn xs ended n L A).2 = .finished) ∨
      (A.slots A.cyc = none ∧ n ≤ A.nextDs ∧ (∃ i, i < L ∧ (A.slots i).isSome = true) ∧
        aTurn xs ended n L A = ({ A with cyc := (A.cyc + 1) % L }, .silent)) := by
  cases aTurn_cases xs ended n L A with
  | ok d p a hs hx he =>
    left
    rw [he]
    have h1 := slotW_update (xs := xs) (slots := A.slots) (v := some (d, p + 1)) hw.cyc
    have hlt := lt_of_getElem?_some hx
    rw [hs] at h1
    simp only [slotW_some, slotW_none] at h1
    have h9 : sumTo n (restW xs A) = sumTo n (restW xs (aTurn xs ended n L A).1) := by rw [he]; rfl
    rw [he] at h9
    dsimp only at h9
    simp only [aWeight]
    omega
  | err d p e hs hx he =>
    left
    rw [he]
    have h1 := slotW_update (xs := xs) (slots := A.slots) (v := some (d, p + 1)) hw.cyc
    have hlt := lt_of_getElem?_some hx
    rw [hs] at h1
    simp only [slotW_some, slotW_none] at h1
    have h9 : sumTo n (restW xs A) = sumTo n (restW xs (aTurn xs ended n L A).1) := by rw [he]; rfl
    rw [he] at h9
    dsimp only at h9
    simp only [aWeight]
    omega
  | exh d p hs hx hend he =>
    left
    rw [he]
    have h1 := slotW_update (xs := xs) (slots := A.slots) (v := none) hw.cyc
    rw [hs] at h1
    simp only [slotW_some, slotW_none] at h1
    have h9 : sumTo n (restW xs A) = sumTo n (restW xs (aTurn xs ended n L A).1) := by rw [he]; rfl
    rw [he] at h9
    dsimp only at h9
    simp only [aWeight]
    omega
  | stuck d p hs hx hend he => right; left; rw [he]; exact Or.inl rfl
  | opn hs hn he =>
    left
    rw [he]
    have h1 := slotW_update (xs := xs) (slots := A.slots) (v := some (A.nextDs, A.starts A.nextDs)) hw.cyc
    rw [hs] at h1
    have h2 := sumTo_update (L := n) (i := A.nextDs)
      (g := fun d => if A.nextDs + 1 ≤ d then ((xs d).length - A.starts d) + 2 else 0) (h := restW xs A) hn (by
        intro j hj hne
        simp only [restW]
        by_cases hc : A.nextDs ≤ j
        · rw [if_pos hc, if_pos (by omega)]
        · rw [if_neg hc, if_neg (by omega)])
    have h3 : restW xs A A.nextDs = ((xs A.nextDs).length - A.starts A.nextDs) + 2 := by simp [restW]
    rw [h3] at h2
    simp only [slotW_some, slotW_none] at h1
    simp only [aWeight]
    have h4 : sumTo n (restW xs { slots := Function.update A.slots A.cyc (some (A.nextDs, A.starts A.nextDs)), cyc := A.cyc, nextDs := A.nextDs + 1, starts := A.starts }) = sumTo n (fun d => if A.nextDs + 1 ≤ d then ((xs d).length - A.starts d) + 2 else 0) := rfl
    rw [h4]
    simp only [show ¬ (A.nextDs + 1 ≤ A.nextDs) by omega, if_false] at h2
    omega
  | skip i hs hn hi hl he => right; right; exact ⟨hs, hn, ⟨i, hi, hl⟩, he⟩
  | fin hall hs hn he => right; left; rw [he]; exact Or.inr rfl

/-- Skipping empty slots reaches a used one. -/
theorem skip_to_live {xs : Nat → List (Py α)} {ended : Bool} {n L : Nat} (i : Nat) : ∀ (k : Nat) (A : AIL), A.cyc < L →
    n ≤ A.nextDs → i < L → (A.slots i).isSome = true → (A.cyc + k) % L = i →
    ∃ c, c < L ∧ (A.slots c).isSome = true ∧
      ∀ A' o, ANext xs ended n L { A with cyc := c } A' o → ANext xs ended n L A A' o := by
  intro k
  induction k with
  | zero =>
    intro A hc hn hi hl hk
    rw [Nat.add_zero, Nat.mod_eq_of_lt hc] at hk
    refine ⟨A.cyc, hc, by rw [hk]; exact hl, fun A' o h => h⟩
  | succ k ih =>
    intro A hc hn hi hl hk
    cases hs : A.slots A.cyc with
    | some v => exact ⟨A.cyc, hc, by simp [hs], fun A' o h => h⟩
    | none =>
      have hmod : (A.cyc + 1) % L < L := Nat.mod_lt _ (by omega)
      obtain ⟨c, h1, h2, h3⟩ := ih { A with cyc := (A.cyc + 1) % L } hmod hn hi hl (by
        simp only
        rw [Nat.mod_add_mod, ← hk]
        congr 1
        omega)
      refine ⟨c, h1, h2, ?_⟩
      intro A' o h
      refine .step ?_ (h3 A' o h)
      have ha : anyLive L A.slots = true := anyLive_iff.2 ⟨i, hi, hl⟩
      simp only [aTurn, hs, if_neg (show ¬ A.nextDs < n by omega), if_pos ha]

theorem aNext_total {xs : Nat → List (Py α)} {ended : Bool} {n L : Nat} (hL : 0 < L) : ∀ (w : Nat) (A : AIL),
    AWF n L A → aWeight xs n L A ≤ w → ∃ A' o, ANext xs ended n L A A' o ∧ o ≠ .silent ∧
      (aWeight xs n L A' < aWeight xs n L A ∨ o = .stuck ∨ o = .finished) := by
  intro w
  induction w with
  | zero =>
    intro A hw hle
    rcases aTurn_weight (xs := xs) (ended := ended) hw with h | h | ⟨_, _, ⟨i, hi, hl⟩, _⟩
    · omega
    · cases ht : aTurn xs ended n L A with
      | mk A' o =>
        rw [ht] at h
        have hne : o ≠ .silent := by
          intro hc
          subst hc
          rcases h with h | h <;> cases h
        exact ⟨A', o, .done ht hne, hne, Or.inr h⟩
    · exfalso
      cases hv : A.slots i with
      | none => rw [hv] at hl; cases hl
      | some v =>
        have := slotW_update (xs := xs) (L := L) (slots := A.slots) (v := none) hi
        rw [hv] at this
        obtain ⟨d, p⟩ := v
        simp only [slotW_some, slotW_none, aWeight] at *
        omega
  | succ w ih =>
    have key : ∀ B, AWF n L B → aWeight xs n L B ≤ w + 1 →
        ¬ (B.slots B.cyc = none ∧ n ≤ B.nextDs ∧ (∃ i, i < L ∧ (B.slots i).isSome = true)) →
        ∃ A' o, ANext xs ended n L B A' o ∧ o ≠ .silent ∧
          (aWeight xs n L A' < aWeight xs n L B ∨ o = .stuck ∨ o = .finished) := by
      intro B hwB hle hns
      cases ht : aTurn xs ended n L B with
      | mk A1 o =>
        have hwt := aTurn_weight (xs := xs) (ended := ended) hwB
        rw [ht] at hwt
        by_cases hne : o = .silent
        · subst hne
          rcases hwt with h | h | h
          · have hw1 := aTurn_wf (xs := xs) (ended := ended) hL hwB
            rw [ht] at hw1
            obtain ⟨A', o, h1, h2, h3⟩ := ih A1 hw1 (by simp only at h; omega)
            refine ⟨A', o, .step ht h1, h2, ?_⟩
            rcases h3 with h3 | h3
            · left; simp only at h; omega
            · exact Or.inr h3
          · rcases h with h | h <;> cases h
          · exact absurd ⟨h.1, h.2.1, h.2.2.1⟩ hns
        · refine ⟨A1, o, .done ht hne, hne, ?_⟩
          rcases hwt with h | h | h
          · exact Or.inl h
          · exact Or.inr h
          · exact absurd ⟨h.1, h.2.1, h.2.2.1⟩ hns
    intro A hw hle
    by_cases hns : A.slots A.cyc = none ∧ n ≤ A.nextDs ∧ (∃ i, i < L ∧ (A.slots i).isSome = true)
    · obtain ⟨hs, hn, i, hi, hl⟩ := hns
      obtain ⟨c, h1, h2, h3⟩ := skip_to_live (xs := xs) (ended := ended) i (i + L - A.cyc) A hw.cyc hn hi hl (by
        have := hw.cyc
        rw [show A.cyc + (i + L - A.cyc) = i + L by omega, Nat.add_mod_right, Nat.mod_eq_of_lt hi])
      obtain ⟨A', o, g1, g2, g3⟩ := key { A with cyc := c } ⟨h1, hw.below, hw.inj⟩ hle (by
        intro hc
        have := hc.1
        simp only at this
        rw [this] at h2
        cases h2)
      exact ⟨A', o, h3 A' o g1, g2, g3⟩
    · exact key A hw hle hns

theorem ANext.stuck_not_ended {xs : Nat → List (Py α)} {ended : Bool} {n L : Nat} {A A' : AIL} {o : AOut α}
    (h : ANext xs ended n L A A' o) : o = .stuck → ended = false := by
  induction h with
  | @done A A' o ht hne =>
    intro ho
    subst ho
    cases aTurn_cases xs ended n L A with
    | ok d p a hs hx he => rw [ht] at he; cases he
    | err d p e hs hx he => rw [ht] at he; cases he
    | exh d p hs hx hend he => rw [ht] at he; cases he
    | stuck d p hs hx hend he => exact hend
    | opn hs hn he => rw [ht] at he; cases he
    | skip i hs hn hi hl he => rw [ht] at he; cases he
    | fin hall hs hn he => rw [ht] at he; cases he
  | step _ _ ih => exact ih

theorem aTrace_exists {xs : Nat → List (Py α)} {ended : Bool} {n L : Nat} (hL : 0 < L) : ∀ (w : Nat) (A : AIL),
    AWF n L A → (ended = true ∨ ∀ i, i < L → (A.slots i).isSome = true) → aWeight xs n L A ≤ w →
    ∃ t, ATrace xs ended n L A t := by
  intro w
  induction w using Nat.strong_induction_on with
  | _ w ih =>
    intro A hw hend hle
    by_cases he : ended = true
    · obtain ⟨A', o, h1, h2, h3⟩ := aNext_total (xs := xs) (ended := ended) hL _ A hw (Nat.le_refl _)
      cases o with
      | silent => exact absurd rfl h2
      | stuck => rw [h1.stuck_not_ended rfl] at he; cases he
      | finished => exact ⟨[], .fin h1 he⟩
      | yield d r =>
        have hlt : aWeight xs n L A' < aWeight xs n L A := by
          rcases h3 with h | h | h
          · exact h
          · cases h
          · cases h
        obtain ⟨t, ht⟩ := ih (aWeight xs n L A') (by omega) A' (h1.wf hL hw) (Or.inl he) (Nat.le_refl _)
        exact ⟨(d, r) :: t, .cons (Or.inl he) h1 ht⟩
    · have hf : ended = false := by simpa using he
      have hlive := hend.resolve_left he
      by_cases hlim : ∃ i d p, i < L ∧ A.slots i = some (d, p) ∧ (xs d).length ≤ p
      · obtain ⟨i, d, p, h1, h2, h3⟩ := hlim
        exact ⟨[], .limit hf h1 h2 h3⟩
      · have hall : ∀ i d p, i < L → A.slots i = some (d, p) → p < (xs d).length := by
          intro i d p hi hs
          by_contra hc
          exact hlim ⟨i, d, p, hi, hs, by omega⟩
        have hwt := aTurn_weight (xs := xs) (ended := ended) hw
        have hw1 := aTurn_wf (xs := xs) (ended := ended) hL hw
        have live' : ∀ v c, ∀ i, i < L → (Function.update A.slots c (some v) i).isSome = true := by
          intro v c i hi
          by_cases hic : i = c
          · subst hic; rw [upd_same]; rfl
          · rw [upd_ne _ _ hic]; exact hlive i hi
        have hcl := hlive A.cyc hw.cyc
        cases aTurn_cases xs ended n L A with
        | ok d p a hs hx ht =>
          rw [ht] at hwt hw1
          have hlt := hwt.resolve_right (by
            rintro ((h | h) | h)
            · cases h
            · cases h
            · rw [h.1] at hcl; cases hcl)
          obtain ⟨t, ht'⟩ := ih _ (by omega) _ hw1 (Or.inr (live' _ _)) (Nat.le_refl _)
          exact ⟨(d, .ok a) :: t, .cons (Or.inr hall) (.done ht (by simp)) ht'⟩
        | err d p e hs hx ht =>
          rw [ht] at hwt hw1
          have hlt := hwt.resolve_right (by
            rintro ((h | h) | h)
            · cases h
            · cases h
            · rw [h.1] at hcl; cases hcl)
          obtain ⟨t, ht'⟩ := ih _ (by omega) _ hw1 (Or.inr (live' _ _)) (Nat.le_refl _)
          exact ⟨(d, .error e) :: t, .cons (Or.inr hall) (.done ht (by simp)) ht'⟩
        | exh d p hs hx hend he => have := hall _ _ _ hw.cyc hs; omega
        | stuck d p hs hx hend he => have := hall _ _ _ hw.cyc hs; omega
        | opn hs hn he => rw [hs] at hcl; cases hcl
        | skip i hs hn hi hl he => rw [hs] at hcl; cases hcl
        | fin hall hs hn he => rw [hs] at hcl; cases hcl

/-! ### Contents -/

/-- What is left of dataset `d`. -/
inductive Left (xs : Nat → List (Py α)) (L : Nat) (A : AIL) (d : Nat) : List (Py α) → Prop
  | slot (i p) : i < L → A.slots i = some (d, p) → Left xs L A d ((xs d).drop p)
  | later : A.nextDs ≤ d → Left xs L A d ((xs d).drop (A.starts d))
  | over : d < A.nextDs → (∀ i p, i < L → A.slots i ≠ some (d, p)) → Left xs L A d []

theorem left_silent {xs : Nat → List (Py α)} {ended : Bool} {n L : Nat} {A A1 : AIL} {d : Nat} {l : List (Py α)}
    (hw : AWF n L A) (ht : aTurn xs ended n L A = (A1, .silent)) (hl : Left xs L A d l) : Left xs L A1 d l := by
  cases aTurn_cases xs ended n L A with
  | ok d p a hs hx he => rw [ht] at he; cases he
  | err d p e hs hx he => rw [ht] at he; cases he
  | exh d0 p0 hs hx hend he =>
    rw [ht] at he
    cases he
    cases hl with
    | slot i p hi h =>
      by_cases hic : i = A.cyc
      · subst hic
        rw [hs] at h
        cases h
        rw [List.drop_eq_nil_of_le hx]
        refine .over (hw.below _ _ _ hi hs) ?_
        intro j q hj hc
        dsimp only at hc
        by_cases hjc : j = A.cyc
        · subst hjc; rw [upd_same] at hc; cases hc
        · rw [upd_ne _ _ hjc] at hc
          exact hjc (hw.inj _ _ _ _ _ hj hw.cyc hc hs)
      · exact .slot i p hi (by dsimp only; rw [upd_ne _ _ hic]; exact h)
    | later h => exact .later h
    | over h h' =>
      refine .over h ?_
      intro j q hj hc
      dsimp only at hc
      by_cases hjc : j = A.cyc
      · subst hjc; rw [upd_same] at hc; cases hc
      · rw [upd_ne _ _ hjc] at hc
        exact h' j q hj hc
  | stuck d p hs hx hend he => rw [ht] at he; cases he
  | opn hs hn he =>
    rw [ht] at he
    cases he
    cases hl with
    | slot i p hi h =>
      have hic : i ≠ A.cyc := by
        rintro rfl
        rw [hs] at h
        cases h
      exact .slot i p hi (by dsimp only; rw [upd_ne _ _ hic]; exact h)
    | later h =>
      by_cases hd : d = A.nextDs
      · subst hd
        exact .slot A.cyc _ hw.cyc (by dsimp only; rw [upd_same])
      · exact .later (by dsimp only; omega)
    | over h h' =>
      refine .over (by dsimp only; omega) ?_
      intro j q hj hc
      dsimp only at hc
      by_cases hjc : j = A.cyc
      · subst hjc
        rw [upd_same] at hc
        cases hc
        omega
      · rw [upd_ne _ _ hjc] at hc
        exact h' j q hj hc
  | skip i hs hn hi hl' he =>
    rw [ht] at he
    cases he
    cases hl with
    | slot i p hi h => exact .slot i p hi h
    | later h => exact .later h
    | over h h' => exact .over h h'
  | fin hall hs hn he => rw [ht] at he; cases he

theorem left_yield {xs : Nat → List (Py α)} {ended : Bool} {n L : Nat} {A A1 : AIL} {d d0 : Nat} {r : Py α}
    {l : List (Py α)} (hw : AWF n L A) (ht : aTurn xs ended n L A = (A1, .yield d0 r)) (hl : Left xs L A d l) :
    if d0 = d then ∃ l', l = r :: l' ∧ Left xs L A1 d l' else Left xs L A1 d l := by
  have main : ∀ p c, A.slots A.cyc = some (d0, p) → (xs d0)[p]? = some r →
      if d0 = d then ∃ l', l = r :: l' ∧
        Left xs L { A with slots := Function.update A.slots A.cyc (some (d0, p + 1)), cyc := c } d l'
      else Left xs L { A with slots := Function.update A.slots A.cyc (some (d0, p + 1)), cyc := c } d l := by
    intro p c hs hx
    have hlt := lt_of_getElem?_some hx
    have hdrop : (xs d0).drop p = r :: (xs d0).drop (p + 1) := by
      rw [List.drop_eq_getElem_cons hlt]
      rw [List.getElem?_eq_getElem hlt] at hx
      cases hx
      rfl
    have hb := hw.below _ _ _ hw.cyc hs
    by_cases hd : d0 = d
    · subst hd
      rw [if_pos rfl]
      refine ⟨(xs d0).drop (p + 1), ?_, .slot A.cyc _ hw.cyc (by dsimp only; rw [upd_same])⟩
      cases hl with
      | slot i q hi h =>
        have := hw.inj _ _ _ _ _ hi hw.cyc h hs
        subst this
        rw [hs] at h
        cases h
        exact hdrop
      | later h => omega
      | over h h' => exact absurd hs (h' _ _ hw.cyc)
    · rw [if_neg hd]
      cases hl with
      | slot i q hi h =>
        have hic : i ≠ A.cyc := by
          rintro rfl
          rw [hs] at h
          cases h
          exact hd rfl
        exact .slot i q hi (by dsimp only; rw [upd_ne _ _ hic]; exact h)
      | later h => exact .later h
      | over h h' =>
        refine .over h ?_
        intro j q hj hc
        dsimp only at hc
        by_cases hjc : j = A.cyc
        · subst hjc
          rw [upd_same] at hc
          cases hc
          exact hd rfl
        · rw [upd_ne _ _ hjc] at hc
          exact h' j q hj hc
  cases aTurn_cases xs ended n L A with
  | ok d p a hs hx he => rw [ht] at he; cases he; exact main p _ hs hx
  | err d p e hs hx he => rw [ht] at he; cases he; exact main p _ hs hx
  | exh d0 p0 hs hx hend he => rw [ht] at he; cases he
  | stuck d p hs hx hend he => rw [ht] at he; cases he
  | opn hs hn he => rw [ht] at he; cases he
  | skip i hs hn hi hl' he => rw [ht] at he; cases he
  | fin hall hs hn he => rw [ht] at he; cases he

theorem left_finished {xs : Nat → List (Py α)} {ended : Bool} {n L : Nat} {A A1 : AIL} {d : Nat} {l : List (Py α)}
    (hd : d < n) (ht : aTurn xs ended n L A = (A1, .finished)) (hl : Left xs L A d l) : l = [] := by
  cases aTurn_cases xs ended n L A with
  | ok d p a hs hx he => rw [ht] at he; cases he
  | err d p e hs hx he => rw [ht] at he; cases he
  | exh d0 p0 hs hx hend he => rw [ht] at he; cases he
  | stuck d p hs hx hend he => rw [ht] at he; cases he
  | opn hs hn he => rw [ht] at he; cases he
  | skip i hs hn hi hl' he => rw [ht] at he; cases he
  | fin hall hs hn he =>
    cases hl with
    | slot i p hi h => rw [hall i hi] at h; cases h
    | later h => omega
    | over h h' => rfl

def LeftAfter (xs : Nat → List (Py α)) (L : Nat) (A' : AIL) (d : Nat) (l : List (Py α)) : AOut α → Prop
  | .yield d0 r => d0 < A'.nextDs ∧ if d0 = d then ∃ l', l = r :: l' ∧ Left xs L A' d l' else Left xs L A' d l
  | .finished => l = []
  | _ => True

theorem ANext.left {xs : Nat → List (Py α)} {ended : Bool} {n L : Nat} {A A' : AIL} {o : AOut α} (hL : 0 < L)
    (h : ANext xs ended n L A A' o) : AWF n L A → ∀ d l, d < n → Left xs L A d l →
      LeftAfter xs L A' d l o := by
  induction h with
  | @done A A' o ht hne =>
    intro hw d l hd hl
    cases o with
    | silent => trivial
    | stuck => trivial
    | finished => exact left_finished hd ht hl
    | yield d0 r =>
      refine ⟨?_, left_yield hw ht hl⟩
      cases aTurn_cases xs ended n L A with
      | ok d p a hs hx he => rw [ht] at he; cases he; exact hw.below _ _ _ hw.cyc hs
      | err d p e hs hx he => rw [ht] at he; cases he; exact hw.below _ _ _ hw.cyc hs
      | exh d0 p0 hs hx hend he => rw [ht] at he; cases he
      | stuck d p hs hx hend he => rw [ht] at he; cases he
      | opn hs hn he => rw [ht] at he; cases he
      | skip i hs hn hi hl' he => rw [ht] at he; cases he
      | fin hall hs hn he => rw [ht] at he; cases he
  | @step A A1 A' o ht _ ih =>
    intro hw d l hd hl
    have hw1 := aTurn_wf (xs := xs) (ended := ended) hL hw
    rw [ht] at hw1
    exact ih hw1 d l hd (left_silent hw ht hl)

theorem aTurn_nextDs {xs : Nat → List (Py α)} {ended : Bool} {n L : Nat} {A : AIL} (h : A.nextDs ≤ n) :
    (aTurn xs ended n L A).1.nextDs ≤ n := by
  cases aTurn_cases xs ended n L A with
  | ok d p a hs hx he => rw [he]; exact h
  | err d p e hs hx he => rw [he]; exact h
  | exh d0 p0 hs hx hend he => rw [he]; exact h
  | stuck d p hs hx hend he => rw [he]; exact h
  | opn hs hn he => rw [he]; exact hn
  | skip i hs hn hi hl' he => rw [he]; exact h
  | fin hall hs hn he => rw [he]; exact h

theorem ANext.nextDs {xs : Nat → List (Py α)} {ended : Bool} {n L : Nat} {A A' : AIL} {o : AOut α}
    (h : ANext xs ended n L A A' o) : A.nextDs ≤ n → A'.nextDs ≤ n := by
  induction h with
  | done ht _ => intro h; have := aTurn_nextDs (xs := xs) (ended := ended) (L := L) h; rw [ht] at this; exact this
  | step ht _ ih => intro h; have := aTurn_nextDs (xs := xs) (ended := ended) (L := L) h; rw [ht] at this; exact ih this

/-- The elements of one dataset in a trace are what was left of it, in order. -/
theorem ATrace.contents {xs : Nat → List (Py α)} {ended : Bool} {n L : Nat} {A : AIL} {t : List (Nat × Py α)}
    (hL : 0 < L) (h : ATrace xs ended n L A t) : AWF n L A → A.nextDs ≤ n →
      (∀ d r, (d, r) ∈ t → d < n) ∧
      (∀ d l, d < n → Left xs L A d l →
        if ended then (t.filter (fun q => q.1 = d)).map (·.2) = l
        else (t.filter (fun q => q.1 = d)).map (·.2) <+: l) ∧
      (ended = false → ∃ d, d < n ∧ ∀ l, Left xs L A d l → (t.filter (fun q => q.1 = d)).map (·.2) = l) := by
  induction h with
  | fin hn he =>
    intro hw hle
    refine ⟨by simp, ?_, by rw [he]; simp⟩
    intro d l hd hl
    have := hn.left hL hw d l hd hl
    simp only [LeftAfter] at this
    rw [if_pos he, this]
    rfl
  | @limit A i d p hf hi hs hp =>
    intro hw hle
    refine ⟨by simp, ?_, ?_⟩
    · intro d l hd hl
      rw [hf]
      simp
    · intro _
      have hb := hw.below _ _ _ hi hs
      refine ⟨d, by omega, ?_⟩
      intro l hl
      cases hl with
      | slot j q hj h =>
        have := hw.inj _ _ _ _ _ hi hj hs h
        subst this
        rw [hs] at h
        cases h
        rw [List.drop_eq_nil_of_le hp]
        rfl
      | later h => omega
      | over h h' => exact absurd hs (h' _ _ hi)
  | @cons A A' d0 r t hc hn ht ih =>
    intro hw hle
    have hle' := hn.nextDs hle
    obtain ⟨h1, h2, h3⟩ := ih (hn.wf hL hw) hle'
    have hd0 : d0 < n ∨ n = 0 := by
      by_cases hz : n = 0
      · exact Or.inr hz
      · left
        have : ∃ l, Left xs L A 0 l := by
          by_cases hz' : A.nextDs ≤ 0
          · exact ⟨_, .later hz'⟩
          · by_cases hex : ∃ i p, i < L ∧ A.slots i = some (0, p)
            · obtain ⟨i, p, hi, hs⟩ := hex
              exact ⟨_, .slot i p hi hs⟩
            · exact ⟨_, .over (by omega) (fun i p hi hs => hex ⟨i, p, hi, hs⟩)⟩
        obtain ⟨l, hl⟩ := this
        have := (hn.left hL hw 0 l (by omega) hl).1
        omega
    have hd0' : d0 < n := by
      rcases hd0 with h | h
      · exact h
      · exfalso
        subst h
        clear ih h1 h2 h3 ht hc
        have aux : ∀ {A A' : AIL} {o : AOut α}, ANext xs ended 0 L A A' o → AWF 0 L A → A.nextDs ≤ 0 →
            ∀ d r, o ≠ .yield d r := by
          intro A A' o h
          induction h with
          | @done A A' o ht hne =>
            intro hw hle d r ho
            subst ho
            cases aTurn_cases xs ended 0 L A with
            | ok d p a hs hx he => have := hw.below _ _ _ hw.cyc hs; omega
            | err d p e hs hx he => have := hw.below _ _ _ hw.cyc hs; omega
            | exh d0 p0 hs hx hend he => rw [ht] at he; cases he
            | stuck d p hs hx hend he => rw [ht] at he; cases he
            | opn hs hn he => rw [ht] at he; cases he
            | skip i hs hn hi hl' he => rw [ht] at he; cases he
            | fin hall hs hn he => rw [ht] at he; cases he
          | @step A A1 A' o ht _ ih =>
            intro hw hle
            have hw1 := aTurn_wf (xs := xs) (ended := ended) hL hw
            have hn1 := aTurn_nextDs (xs := xs) (ended := ended) (L := L) hle
            rw [ht] at hw1 hn1
            exact ih hw1 hn1
        exact aux hn hw hle _ _ rfl
    refine ⟨?_, ?_, ?_⟩
    · intro d q hm
      rcases List.mem_cons.1 hm with h | h
      · cases h; exact hd0'
      · exact h1 d q h
    · intro d l hd hl
      have hy := (hn.left hL hw d l hd hl).2
      by_cases hdd : d0 = d
      · rw [if_pos hdd] at hy
        obtain ⟨l', rfl, hl'⟩ := hy
        have := h2 d l' hd hl'
        subst hdd
        split
        · rename_i he
          rw [if_pos he] at this
          simp [this]
        · rename_i he
          rw [if_neg he] at this
          simpa using this
      · rw [if_neg hdd] at hy
        have := h2 d l hd hy
        simpa [hdd] using this
    · intro hf
      obtain ⟨d, hd, hdl⟩ := h3 hf
      refine ⟨d, hd, ?_⟩
      intro l hl
      have hy := (hn.left hL hw d l hd hl).2
      by_cases hdd : d0 = d
      · rw [if_pos hdd] at hy
        obtain ⟨l', rfl, hl'⟩ := hy
        have := hdl l' hl'
        subst hdd
        simp [this]
      · rw [if_neg hdd] at hy
        have := hdl l hy
        simpa [hdd] using this

/-- The machine at the start: the first `L` datasets are open. -/
def aStart (L : Nat) : AIL :=
  { slots := fun i => if i < L then some (i, 0) else none, cyc := 0, nextDs := L, starts := fun _ => 0 }

theorem aStart_wf {n L : Nat} (hL : 0 < L) : AWF n L (aStart L) := by
  refine ⟨hL, ?_, ?_⟩
  · intro i d p hi h
    simp only [aStart, if_pos hi, Option.some.injEq, Prod.mk.injEq] at h
    simp only [aStart]
    omega
  · intro i j d p q hi hj h1 h2
    simp only [aStart, if_pos hi, Option.some.injEq, Prod.mk.injEq] at h1
    simp only [aStart, if_pos hj, Option.some.injEq, Prod.mk.injEq] at h2
    omega

theorem aStart_left (xs : Nat → List (Py α)) {L d : Nat} : Left xs L (aStart L) d (xs d) := by
  by_cases h : d < L
  · exact .slot (xs := xs) (A := aStart L) (d := d) d 0 h (by simp [aStart, h])
  · exact .later (xs := xs) (A := aStart L) (d := d) (by simp only [aStart]; omega)

end Grain
