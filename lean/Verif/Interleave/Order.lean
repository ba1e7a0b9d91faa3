import Verif.Interleave.Sim
import Mathlib.Data.List.Perm.Subperm
import Mathlib.Data.List.Nodup
/-
Traces of the abstract machine: how many datasets are open, and the exact order in the two extreme cases.
-/
namespace Grain

/-! ### Open datasets -/

theorem aTurn_nextDs_mono {xs : Nat → List (Py α)} {ended : Bool} {n L : Nat} {A : AIL} :
    A.nextDs ≤ (aTurn xs ended n L A).1.nextDs := by
  cases aTurn_cases xs ended n L A with
  | ok d p a hs hx he => rw [he]
  | err d p e hs hx he => rw [he]
  | exh d0 p0 hs hx hend he => rw [he]
  | stuck d p hs hx hend he => rw [he]
  | opn hs hn he => rw [he]; simp
  | skip i hs hn hi hl' he => rw [he]
  | fin hall hs hn he => rw [he]

theorem ANext.nextDs_mono {xs : Nat → List (Py α)} {ended : Bool} {n L : Nat} {A A' : AIL} {o : AOut α}
    (h : ANext xs ended n L A A' o) : A.nextDs ≤ A'.nextDs := by
  induction h with
  | @done A A' o ht _ => have := aTurn_nextDs_mono (xs := xs) (ended := ended) (n := n) (L := L) (A := A); rw [ht] at this; exact this
  | @step A A1 A' o ht _ ih =>
    have := aTurn_nextDs_mono (xs := xs) (ended := ended) (n := n) (L := L) (A := A)
    rw [ht] at this
    exact Nat.le_trans this ih

theorem ANext.yield_lt {xs : Nat → List (Py α)} {ended : Bool} {n L : Nat} {A A' : AIL} {o : AOut α} (hL : 0 < L)
    (h : ANext xs ended n L A A' o) : AWF n L A → ∀ d r, o = .yield d r → d < A'.nextDs := by
  induction h with
  | @done A A' o ht _ =>
    intro hw d r ho
    subst ho
    cases aTurn_cases xs ended n L A with
    | ok d p a hs hx he => rw [ht] at he; cases he; exact hw.below _ _ _ hw.cyc hs
    | err d p e hs hx he => rw [ht] at he; cases he; exact hw.below _ _ _ hw.cyc hs
    | exh d0 p0 hs hx hend he => rw [ht] at he; cases he
    | stuck d p hs hx hend he => rw [ht] at he; cases he
    | opn hs hn he => rw [ht] at he; cases he
    | skip i hs hn hi hl' he => rw [ht] at he; cases he
    | fin hall hs hn he => rw [ht] at he; cases he
  | @step A A1 A' o ht _ ih =>
    intro hw
    have hw1 := aTurn_wf (xs := xs) (ended := ended) hL hw
    rw [ht] at hw1
    exact ih hw1

/-- State of the machine after a part of the trace. -/
theorem ATrace.split {xs : Nat → List (Py α)} {ended : Bool} {n L : Nat} (hL : 0 < L) : ∀ (a b : List (Nat × Py α)) (A : AIL),
    ATrace xs ended n L A (a ++ b) → AWF n L A → A.nextDs ≤ n →
    ∃ B, ATrace xs ended n L B b ∧ AWF n L B ∧ B.nextDs ≤ n ∧ A.nextDs ≤ B.nextDs ∧ ∀ d r, (d, r) ∈ a → d < B.nextDs := by
  intro a
  induction a with
  | nil =>
    intro b A h hw hn
    exact ⟨A, h, hw, hn, Nat.le_refl _, by simp⟩
  | cons q a ih =>
    intro b A h hw hn
    obtain ⟨d, r⟩ := q
    rw [List.cons_append] at h
    cases h with
    | cons h1 h2 h3 =>
      obtain ⟨B, g1, g2, g3, g4, g5⟩ := ih b _ h3 (h2.wf hL hw) (h2.nextDs hn)
      refine ⟨B, g1, g2, g3, Nat.le_trans h2.nextDs_mono g4, ?_⟩
      intro d' r' hm
      rcases List.mem_cons.1 hm with h | h
      · cases h
        have := h2.yield_lt hL hw d r rfl
        omega
      · exact g5 d' r' h

theorem left_total (xs : Nat → List (Py α)) (L : Nat) (A : AIL) (d : Nat) : ∃ l, Left xs L A d l := by
  by_cases hz : A.nextDs ≤ d
  · exact ⟨_, .later hz⟩
  · by_cases hex : ∃ i p, i < L ∧ A.slots i = some (d, p)
    · obtain ⟨i, p, hi, hs⟩ := hex
      exact ⟨_, .slot i p hi hs⟩
    · exact ⟨_, .over (by omega) (fun i p hi hs => hex ⟨i, p, hi, hs⟩)⟩

/-- At any point, the datasets read before and read again later are at most `L`. -/
theorem ATrace.open_le {xs : Nat → List (Py α)} {ended : Bool} {n L : Nat} (hL : 0 < L) {a b : List (Nat × Py α)} {A : AIL}
    (h : ATrace xs ended n L A (a ++ b)) (hw : AWF n L A) (hn : A.nextDs ≤ n) :
    ((List.range n).filter (fun d => a.any (fun q => q.1 = d) && b.any (fun q => q.1 = d))).length ≤ L := by
  obtain ⟨B, h1, h2, h3, _, h5⟩ := h.split hL a b A hw hn
  obtain ⟨_, hcont, _⟩ := h1.contents hL h2 h3
  have hsub : ((List.range n).filter (fun d => a.any (fun q => q.1 = d) && b.any (fun q => q.1 = d))) ⊆
      (List.range L).filterMap (fun i => (B.slots i).map (·.1)) := by
    intro d hd
    rw [List.mem_filter, List.mem_range, Bool.and_eq_true, List.any_eq_true, List.any_eq_true] at hd
    obtain ⟨hdn, ⟨⟨da, ra⟩, hma, hea⟩, ⟨⟨db, rb⟩, hmb, heb⟩⟩ := hd
    simp only [decide_eq_true_eq] at hea heb
    subst hea
    subst heb
    have hlt := h5 _ _ hma
    obtain ⟨l, hl⟩ := left_total xs L B db
    have hc := hcont db l hdn hl
    have hmem : rb ∈ (b.filter (fun q => q.1 = db)).map (·.2) := by
      rw [List.mem_map]
      exact ⟨(db, rb), by rw [List.mem_filter]; exact ⟨hmb, by simp⟩, rfl⟩
    have hne : l ≠ [] := by
      rintro rfl
      split at hc
      · rw [hc] at hmem; cases hmem
      · rw [List.prefix_nil.1 hc] at hmem; cases hmem
    cases hl with
    | slot i p hi hs =>
      rw [List.mem_filterMap]
      exact ⟨i, List.mem_range.2 hi, by rw [hs]; rfl⟩
    | later hh => omega
    | over _ _ => exact absurd rfl hne
  have hnd : ((List.range n).filter (fun d => a.any (fun q => q.1 = d) && b.any (fun q => q.1 = d))).Nodup :=
    List.Nodup.filter _ List.nodup_range
  have := (hnd.subperm hsub).length_le
  have h6 := List.length_filterMap_le (fun i => (B.slots i).map (·.1)) (List.range L)
  rw [List.length_range] at h6
  omega

/-! ### One dataset at a time -/

theorem ATrace.silent {xs : Nat → List (Py α)} {n L : Nat} {A A1 : AIL} {t : List (Nat × Py α)}
    (ht : aTurn xs true n L A = (A1, .silent)) (h : ATrace xs true n L A1 t) : ATrace xs true n L A t := by
  cases h with
  | fin h1 h2 => exact .fin (.step ht h1) h2
  | limit h1 => cases h1
  | cons h1 h2 h3 => exact .cons (Or.inl rfl) (.step ht h2) h3

theorem drop_cons_getElem? {l : List β} {p : Nat} {a : β} (h : l[p]? = some a) : l.drop p = a :: l.drop (p + 1) := by
  have hlt := lt_of_getElem?_some h
  rw [List.drop_eq_getElem_cons hlt]
  rw [List.getElem?_eq_getElem hlt] at h
  rw [Option.some.inj h]

theorem trace_one {xs : Nat → List (Py α)} {n : Nat} : ∀ (w : Nat) (A : AIL) (d p : Nat), A.cyc = 0 →
    A.slots 0 = some (d, p) → d < n → A.nextDs = d + 1 → A.starts = (fun _ => 0) → p ≤ (xs d).length →
    aWeight xs n 1 A ≤ w →
    ATrace xs true n 1 A (((xs d).drop p).map (fun r => (d, r)) ++
      (List.range' (d + 1) (n - (d + 1))).flatMap (fun e => (xs e).map (fun r => (e, r)))) := by
  intro w
  induction w using Nat.strong_induction_on with
  | _ w ih =>
    intro A d p hc hs hd hn hst hp hw
    have hwf : AWF n 1 A := ⟨by omega, by
      intro i d' p' hi h
      have : i = 0 := by omega
      subst this
      rw [hs] at h
      cases h
      omega, by intros; omega⟩
    have hwt := aTurn_weight (xs := xs) (ended := true) hwf
    cases aTurn_cases xs true n 1 A with
    | ok d' p' a hs' hx he =>
      rw [hc, hs] at hs'
      cases hs'
      rw [drop_cons_getElem? hx, List.map_cons, List.cons_append]
      refine .cons (Or.inl rfl) (.done he (by simp)) ?_
      rw [he] at hwt
      have hlt := hwt.resolve_right (by
        rintro ((h | h) | h)
        · cases h
        · cases h
        · rw [hc, hs] at h; cases h.1)
      dsimp only at hlt
      refine ih _ (by omega) _ d (p + 1) ?_ ?_ hd hn hst ?_ (Nat.le_refl _)
      · simp [Nat.mod_one]
      · dsimp only; rw [hc, upd_same]
      · have := lt_of_getElem?_some hx; omega
    | err d' p' e hs' hx he =>
      rw [hc, hs] at hs'
      cases hs'
      rw [drop_cons_getElem? hx, List.map_cons, List.cons_append]
      refine .cons (Or.inl rfl) (.done he (by simp)) ?_
      rw [he] at hwt
      have hlt := hwt.resolve_right (by
        rintro ((h | h) | h)
        · cases h
        · cases h
        · rw [hc, hs] at h; cases h.1)
      dsimp only at hlt
      refine ih _ (by omega) _ d (p + 1) hc ?_ hd hn hst ?_ (Nat.le_refl _)
      · dsimp only; rw [hc, upd_same]
      · have := lt_of_getElem?_some hx; omega
    | exh d' p' hs' hx hend he =>
      rw [hc, hs] at hs'
      cases hs'
      rw [List.drop_eq_nil_of_le hx, List.map_nil, List.nil_append]
      refine ATrace.silent he ?_
      have h0 : ({ A with slots := Function.update A.slots A.cyc none, cyc := (A.cyc + 1) % 1 } : AIL).cyc = 0 := by
        simp [Nat.mod_one]
      rw [he] at hwt
      have hlt := hwt.resolve_right (by
        rintro ((h | h) | h)
        · cases h
        · cases h
        · rw [hc, hs] at h; cases h.1)
      dsimp only at hlt
      clear hwt he
      generalize hB : ({ A with slots := Function.update A.slots A.cyc none, cyc := (A.cyc + 1) % 1 } : AIL) = B at *
      have hBs : B.slots 0 = none := by rw [← hB]; dsimp only; rw [hc, upd_same]
      have hBn : B.nextDs = d + 1 := by rw [← hB]; exact hn
      have hBst : B.starts = fun _ => 0 := by rw [← hB]; exact hst
      have hBwf : AWF n 1 B := ⟨by omega, (by
        intro i d' p' hi h
        have : i = 0 := by omega
        subst this
        rw [hBs] at h
        cases h), by intros; omega⟩
      have hwt := aTurn_weight (xs := xs) (ended := true) hBwf
      cases aTurn_cases xs true n 1 B with
      | ok d' p' a hs' hx he => rw [h0, hBs] at hs'; cases hs'
      | err d' p' e hs' hx he => rw [h0, hBs] at hs'; cases hs'
      | exh d' p' hs' hx hend he => rw [h0, hBs] at hs'; cases hs'
      | stuck d' p' hs' hx hend he => cases hend
      | opn hs' hlt' he =>
        refine ATrace.silent he ?_
        rw [he] at hwt
        have hlt2 := hwt.resolve_right (by
          rintro ((h | h) | h)
          · cases h
          · cases h
          · omega)
        dsimp only at hlt2
        rw [show n - (d + 1) = (n - (d + 1 + 1)) + 1 by omega, List.range'_succ, List.flatMap_cons]
        have := ih _ (Nat.lt_of_lt_of_le (Nat.lt_trans hlt2 hlt) hw) { B with slots := Function.update B.slots B.cyc (some (B.nextDs, B.starts B.nextDs)), nextDs := B.nextDs + 1 } (d + 1) 0
          h0 (by dsimp only; rw [h0, upd_same, hBst, hBn]) (by omega) (by dsimp only; omega) hBst (by omega) (Nat.le_refl _)
        exact this
      | skip i hs' hn' hi hl he =>
        have : i = 0 := by omega
        subst this
        rw [hBs] at hl
        cases hl
      | fin hall hs' hn' he =>
        rw [show n - (d + 1) = 0 by omega]
        exact .fin (.done he (by simp)) rfl
    | stuck d' p' hs' hx hend he => cases hend
    | opn hs' hlt' he => rw [hc, hs] at hs'; cases hs'
    | skip i hs' hn' hi hl he => rw [hc, hs] at hs'; cases hs'
    | fin hall hs' hn' he => rw [hc, hs] at hs'; cases hs'

theorem trace_concat {xs : Nat → List (Py α)} {n : Nat} (hn : 0 < n) :
    ATrace xs true n 1 (aStart 1) ((List.range n).flatMap (fun e => (xs e).map (fun r => (e, r)))) := by
  have := trace_one (xs := xs) (n := n) _ (aStart 1) 0 0 rfl (by simp [aStart]) hn rfl rfl (by omega) (Nat.le_refl _)
  have e : List.range n = 0 :: List.range' 1 (n - 1) := by
    rw [List.range_eq_range', show List.range' 0 n = List.range' 0 ((n - 1) + 1) by congr 1; omega, List.range'_succ]
  rw [e, List.flatMap_cons]
  simpa using this

/-! ### All datasets at once -/

theorem div_mod_step (q n : Nat) (hn : 0 < n) :
    (q % n + 1 < n → (q + 1) / n = q / n ∧ (q + 1) % n = q % n + 1) ∧
    (¬ q % n + 1 < n → (q + 1) / n = q / n + 1 ∧ (q + 1) % n = 0) := by
  have h1 := Nat.div_add_mod q n
  have h2 := Nat.mod_lt q hn
  constructor
  · intro h
    have e : q + 1 = n * (q / n) + (q % n + 1) := by omega
    rw [e]
    constructor
    · rw [Nat.mul_add_div hn, Nat.div_eq_of_lt h, Nat.add_zero]
    · rw [Nat.mul_add_mod, Nat.mod_eq_of_lt h]
  · intro h
    have e : q + 1 = n * (q / n + 1) := by rw [Nat.mul_add]; omega
    rw [e]
    constructor
    · rw [Nat.mul_div_cancel_left _ hn]
    · rw [Nat.mul_mod_right]

/-- Number of visits to slot `i` before visit number `q`. -/
def visits (n q i : Nat) : Nat := q / n + if i < q % n then 1 else 0

theorem visits_step (n q i : Nat) (hn : 0 < n) (hi : i < n) :
    visits n (q + 1) i = visits n q i + if i = q % n then 1 else 0 := by
  obtain ⟨h1, h2⟩ := div_mod_step q n hn
  have h3 := Nat.mod_lt q hn
  unfold visits
  by_cases hc : q % n + 1 < n
  · obtain ⟨e1, e2⟩ := h1 hc
    rw [e1, e2]
    split <;> split <;> split <;> omega
  · obtain ⟨e1, e2⟩ := h2 hc
    rw [e1, e2]
    split <;> split <;> split <;> omega

/-- The machine before visit number `q`. -/
def rowState (lens : Nat → Nat) (n q : Nat) : AIL :=
  { slots := fun i => if i < n then (if visits n q i ≤ lens i then some (i, visits n q i) else none) else none
    cyc := q % n, nextDs := n, starts := fun _ => 0 }

theorem rowState_step (lens : Nat → Nat) (n q : Nat) (hn : 0 < n) :
    rowState lens n (q + 1) = { slots := Function.update (rowState lens n q).slots (q % n) (if q / n + 1 ≤ lens (q % n) then some (q % n, q / n + 1) else none), cyc := (q % n + 1) % n, nextDs := n, starts := fun _ => 0 } := by
  have h3 := Nat.mod_lt q hn
  unfold rowState
  congr 1
  · funext i
    by_cases hi : i = q % n
    · subst hi
      rw [upd_same, if_pos h3, visits_step n q _ hn h3, if_pos rfl]
      have : visits n q (q % n) = q / n := by simp [visits]
      rw [this]
    · rw [upd_ne _ _ hi]
      dsimp only
      by_cases hin : i < n
      · rw [if_pos hin, if_pos hin, visits_step n q i hn hin, if_neg hi, Nat.add_zero]
      · rw [if_neg hin, if_neg hin]
  · obtain ⟨h1, h2⟩ := div_mod_step q n hn
    by_cases hc : q % n + 1 < n
    · rw [(h1 hc).2, Nat.mod_eq_of_lt hc]
    · rw [(h2 hc).2, show q % n + 1 = n by omega, Nat.mod_self]

theorem trace_dead {xs : Nat → List (Py α)} {n L : Nat} {A : AIL} {t : List (Nat × Py α)} (h : ATrace xs true n L A t)
    (hs : ∀ i, i < L → A.slots i = none) (hc : A.cyc < L) (hn : n ≤ A.nextDs) : t = [] := by
  have hfin : aTurn xs true n L A = (A, .finished) := by
    have hal : ¬ anyLive L A.slots = true := by
      rw [anyLive_iff]
      rintro ⟨i, hi, h⟩
      rw [hs i hi] at h
      cases h
    simp only [aTurn, hs _ hc, if_neg (show ¬ A.nextDs < n by omega), if_neg hal]
  cases h with
  | fin _ _ => rfl
  | limit h1 => cases h1
  | cons h1 h2 h3 =>
    cases h2 with
    | done ht hne => rw [hfin] at ht; cases ht
    | step ht _ => rw [hfin] at ht; cases ht

theorem trace_rows_aux {vs : Nat → List α} {n K : Nat} (hn : 0 < n) (hK : ∀ d, d < n → (vs d).length < K) :
    ∀ (m q : Nat), q + m = K * n →
      ATrace (fun d => (vs d).map Except.ok) true n n (rowState (fun d => (vs d).length) n q)
        ((List.range' q m).filterMap (fun q => (vs (q % n))[q / n]?.map (fun a => (q % n, .ok a)))) := by
  intro m
  induction m with
  | zero =>
    intro q hq
    have hnone : ∀ i, i < n → (rowState (fun d => (vs d).length) n q).slots i = none := by
      intro i hi
      have hq' : q = n * K := by rw [Nat.mul_comm]; omega
      subst hq'
      have hv : visits n (n * K) i = K := by simp [visits, Nat.mul_div_cancel_left _ hn]
      have := hK i hi
      simp only [rowState, if_pos hi, hv]
      rw [if_neg (by omega)]
    have hal : ¬ anyLive n (rowState (fun d => (vs d).length) n q).slots = true := by
      rw [anyLive_iff]
      rintro ⟨i, hi, h⟩
      rw [hnone i hi] at h
      cases h
    have hmod := Nat.mod_lt q hn
    refine .fin (.done (A' := rowState (fun d => (vs d).length) n q) ?_ (by simp)) rfl
    have hc : (rowState (fun d => (vs d).length) n q).cyc = q % n := rfl
    have hnd : (rowState (fun d => (vs d).length) n q).nextDs = n := rfl
    simp only [aTurn, hc, hnone _ hmod, hnd, Nat.lt_irrefl, if_false, if_neg hal]
  | succ m ih =>
    intro q hq
    have hmod := Nat.mod_lt q hn
    have ihq := ih (q + 1) (by omega)
    rw [List.range'_succ]
    have hstep := rowState_step (fun d => (vs d).length) n q hn
    generalize hA : rowState (fun d => (vs d).length) n q = A at *
    generalize hB : rowState (fun d => (vs d).length) n (q + 1) = B at *
    have hc : A.cyc = q % n := by rw [← hA]; rfl
    have hnd : A.nextDs = n := by rw [← hA]; rfl
    have hst : A.starts = fun _ => 0 := by rw [← hA]; rfl
    have hsl : A.slots (q % n) = if q / n ≤ (vs (q % n)).length then some (q % n, q / n) else none := by
      have : visits n q (q % n) = q / n := by simp [visits]
      rw [← hA]
      simp only [rowState, if_pos hmod, this]
    by_cases hlt : q / n < (vs (q % n)).length
    · rw [if_pos (by omega)] at hsl
      have hx : (vs (q % n))[q / n]? = some (vs (q % n))[q / n] := List.getElem?_eq_getElem hlt
      rw [List.filterMap_cons, hx]
      refine .cons (A' := B) (Or.inl rfl) (.done ?_ (by simp)) ihq
      simp only [aTurn, hc, hsl, List.getElem?_map, hx, Option.map_some]
      rw [hstep]
      simp only [if_pos (show q / n + 1 ≤ (vs (q % n)).length by omega), hnd, hst]
    · have hx : (vs (q % n))[q / n]? = none := List.getElem?_eq_none (by omega)
      rw [List.filterMap_cons, hx]
      by_cases heq : q / n = (vs (q % n)).length
      · rw [if_pos (by omega)] at hsl
        refine ATrace.silent (A1 := B) ?_ ihq
        simp only [aTurn, hc, hsl, List.getElem?_map, hx, Option.map_none, if_true]
        rw [hstep]
        simp only [if_neg (show ¬ q / n + 1 ≤ (vs (q % n)).length by omega), hnd, hst]
      · rw [if_neg (by omega)] at hsl
        have hBA : B.slots = A.slots := by
          rw [hstep]
          funext i
          dsimp only
          by_cases hi : i = q % n
          · subst hi
            rw [upd_same, if_neg (by omega), hsl]
          · rw [upd_ne _ _ hi]
        by_cases hal : anyLive n A.slots = true
        · refine ATrace.silent (A1 := B) ?_ ihq
          simp only [aTurn, hc, hsl, hnd, Nat.lt_irrefl, if_false, if_pos hal]
          have e : B = { slots := B.slots, cyc := (q % n + 1) % n, nextDs := n, starts := fun _ => 0 } := by rw [hstep]
          rw [e, hBA, hst]
        · have hnone : ∀ i, i < n → A.slots i = none := by
            intro i hi
            cases h : A.slots i with
            | none => rfl
            | some v => exact absurd (anyLive_iff.2 ⟨i, hi, by simp [h]⟩) hal
          have hBc : B.cyc < n := by rw [hstep]; exact Nat.mod_lt _ hn
          have hBn : B.nextDs = n := by rw [hstep]
          have := trace_dead ihq (by rw [hBA]; exact hnone) hBc (by omega)
          simp only [Option.map_none]
          rw [this]
          refine .fin (.done (A' := A) ?_ (by simp)) rfl
          simp only [aTurn, hc, hsl, hnd, Nat.lt_irrefl, if_false, if_neg hal]

theorem trace_rows {vs : Nat → List α} {n K : Nat} (hn : 0 < n) (hK : ∀ d, d < n → (vs d).length ≤ K) :
    ATrace (fun d => (vs d).map Except.ok) true n n (aStart n)
      ((List.range (K * n)).filterMap (fun q => (vs (q % n))[q / n]?.map (fun a => (q % n, .ok a)))) := by
  have h := trace_rows_aux (vs := vs) (n := n) (K := K + 1) hn (fun d hd => Nat.lt_succ_of_le (hK d hd)) ((K + 1) * n) 0 (by omega)
  have hs : rowState (fun d => (vs d).length) n 0 = aStart n := by
    unfold rowState aStart
    simp [visits]
  rw [hs, ← List.range_eq_range', Nat.add_mul, Nat.one_mul, List.range_add, List.filterMap_append] at h
  have : (List.map (fun x => K * n + x) (List.range n)).filterMap
      (fun q => (vs (q % n))[q / n]?.map (fun a => (q % n, (Except.ok a : Py α)))) = [] := by
    rw [List.filterMap_eq_nil_iff]
    intro q hq
    rw [List.mem_map] at hq
    obtain ⟨x, hx, rfl⟩ := hq
    rw [List.mem_range] at hx
    have e1 : (K * n + x) % n = x := by rw [Nat.mul_comm, Nat.mul_add_mod, Nat.mod_eq_of_lt hx]
    have e2 : (K * n + x) / n = K := by rw [Nat.mul_comm, Nat.mul_add_div hn, Nat.div_eq_of_lt hx, Nat.add_zero]
    rw [e1, e2, List.getElem?_eq_none (hK x hx)]
    rfl
  rw [this, List.append_nil] at h
  exact h

end Grain
