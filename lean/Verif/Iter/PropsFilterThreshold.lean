import Verif.Iter.FilterBatch
import Verif.Iter.Example
/-
Property C45: when the filter threshold checker warns and raises.
-/
namespace Grain

/-! ### Specification -/

/-- The share of dropped (`false`) elements among `w` is at least the threshold.  No threshold (`None`) is never reached,
and the code takes `0` for `None`. -/
def reaches (w : List Bool) : Option Threshold → Prop
  | none => False
  | some t => t.num ≠ 0 ∧ t.num * w.length ≤ w.count false * t.den

instance (w : List Bool) (t : Option Threshold) : Decidable (reaches w t) := by
  unfold reaches; split <;> infer_instance

/-- What should happen at element number `k` of the outcomes `outs` (`true`: kept, `false`: dropped): only at the last
element of a complete window of 1000 elements, depending on this window alone. -/
def thresholdSpec (warn raise : Option Threshold) (outs : List Bool) (k : Nat) : CheckOut :=
  if (k + 1) % 1000 = 0 then
    if reaches ((outs.take (k + 1)).drop (k + 1 - 1000)) raise then .error
    else if reaches ((outs.take (k + 1)).drop (k + 1 - 1000)) warn then .warning
    else .quiet
  else .quiet

/-- The calls of `check` for all elements in turn (the checker is used on after an error). -/
def checkAll (warn raise : Option Threshold) : Checker → List Bool → List CheckOut
  | _, [] => []
  | c, b :: bs => (c.checkFull warn raise b).2 :: checkAll warn raise (c.checkFull warn raise b).1 bs

/-! ### Lemmas -/

theorem over_iff {c : Checker} {w : List Bool} (h1 : c.passed = w.count true) (h2 : c.skipped = w.count false) (t : Option Threshold) :
    c.over t = decide (reaches w t) := by
  have hl : w.length = w.count true + w.count false := by
    clear h1 h2
    induction w with
    | nil => rfl
    | cons b w ih => cases b <;> simp [ih] <;> omega
  cases t with
  | none => exact (decide_eq_false (fun h => h)).symm
  | some t =>
    simp only [Checker.over, reaches]
    congr 1
    rw [h1, h2, ← hl]
    apply propext
    constructor
    · intro h; exact ⟨h.2, h.1⟩
    · intro h; exact ⟨h.2, h.1⟩

/-- The counters hold the outcomes since the last complete window. -/
def Counts (c : Checker) (outs : List Bool) (k : Nat) : Prop :=
  c.passed = ((outs.take k).drop (k / 1000 * 1000)).count true ∧ c.skipped = ((outs.take k).drop (k / 1000 * 1000)).count false

theorem counts_step {c : Checker} {outs : List Bool} {k : Nat} (hc : Counts c outs k) (hk : k < outs.length)
    (warn raise : Option Threshold) :
    (c.checkFull warn raise outs[k]).2 = thresholdSpec warn raise outs k ∧
    ((c.checkFull warn raise outs[k]).2 ≠ .error → Counts (c.checkFull warn raise outs[k]).1 outs (k + 1)) := by
  obtain ⟨h1, h2⟩ := hc
  have htake : outs.take (k + 1) = outs.take k ++ [outs[k]] := List.take_succ_eq_append_getElem hk
  have hle : k / 1000 * 1000 ≤ (outs.take k).length := by rw [List.length_take]; omega
  have hdrop : (outs.take (k + 1)).drop (k / 1000 * 1000) = (outs.take k).drop (k / 1000 * 1000) ++ [outs[k]] := by
    rw [htake, List.drop_append_of_le_length hle]
  have hlen : ((outs.take (k + 1)).drop (k / 1000 * 1000)).length = k % 1000 + 1 := by
    rw [List.length_drop, List.length_take]; omega
  -- the counters after counting this element
  let c' : Checker := if outs[k] then { c with passed := c.passed + 1 } else { c with skipped := c.skipped + 1 }
  have hp : c'.passed = ((outs.take (k + 1)).drop (k / 1000 * 1000)).count true := by
    rw [hdrop, List.count_append, ← h1]
    show (if outs[k] then _ else _ : Checker).passed = _
    cases outs[k] <;> simp
  have hs : c'.skipped = ((outs.take (k + 1)).drop (k / 1000 * 1000)).count false := by
    rw [hdrop, List.count_append, ← h2]
    show (if outs[k] then _ else _ : Checker).skipped = _
    cases outs[k] <;> simp
  have hsum : c'.passed + c'.skipped = k % 1000 + 1 := by
    rw [hp, hs, ← hlen]
    generalize (outs.take (k + 1)).drop (k / 1000 * 1000) = w
    induction w with
    | nil => rfl
    | cons b w ih => cases b <;> simp <;> omega
  have hfull : c.checkFull warn raise outs[k] = if c'.passed + c'.skipped ≥ checkInterval then
    if c'.over raise then (c', .error) else if c'.over warn then (⟨0, 0⟩, .warning) else (⟨0, 0⟩, .quiet) else (c', .quiet) := rfl
  rw [hfull, hsum]
  by_cases hw : (k + 1) % 1000 = 0
  · have ha : k % 1000 + 1 ≥ checkInterval := by unfold checkInterval; omega
    have hb : k + 1 - 1000 = k / 1000 * 1000 := by omega
    rw [if_pos ha, over_iff hp hs, over_iff hp hs]
    unfold thresholdSpec
    rw [if_pos hw, hb]
    have hz : Counts ⟨0, 0⟩ outs (k + 1) := by
      unfold Counts
      rw [List.drop_eq_nil_of_le (by rw [List.length_take]; omega)]
      exact ⟨rfl, rfl⟩
    by_cases hr : reaches ((outs.take (k + 1)).drop (k / 1000 * 1000)) raise
    · simp [hr]
    · by_cases hv : reaches ((outs.take (k + 1)).drop (k / 1000 * 1000)) warn
      · simp [hr, hv, hz]
      · simp [hr, hv, hz]
  · have ha : ¬ k % 1000 + 1 ≥ checkInterval := by unfold checkInterval; omega
    rw [if_neg ha]
    unfold thresholdSpec
    rw [if_neg hw]
    refine ⟨rfl, fun _ => ?_⟩
    have hb : (k + 1) / 1000 * 1000 = k / 1000 * 1000 := by omega
    unfold Counts
    rw [hb]
    exact ⟨hp, hs⟩

theorem checkAll_spec (warn raise : Option Threshold) (outs : List Bool) : ∀ (n k : Nat) (c : Checker), outs.length - k = n → Counts c outs k →
    ∀ j, k + j < outs.length → (∀ i, k ≤ i → i < k + j → thresholdSpec warn raise outs i ≠ .error) →
    (checkAll warn raise c (outs.drop k))[j]? = some (thresholdSpec warn raise outs (k + j)) := by
  intro n
  induction n with
  | zero => intro k c h _ j hj; omega
  | succ n ih =>
    intro k c h hc j hj hq
    have hk : k < outs.length := by omega
    rw [List.drop_eq_getElem_cons hk]
    obtain ⟨e1, e2⟩ := counts_step hc hk warn raise
    cases j with
    | zero => simp [checkAll, e1]
    | succ j =>
      have hne : (c.checkFull warn raise outs[k]).2 ≠ .error := by
        rw [e1]; exact hq k (Nat.le_refl _) (by omega)
      have := ih (k + 1) _ (by omega) (e2 hne) j (by omega) (fun i hi hi' => hq i (by omega) (by omega))
      rw [show k + (j + 1) = k + 1 + j by omega]
      simpa [checkAll] using this

/-! ### The checker -/

/-- C45: for every sequence of outcomes and all thresholds, a new checker warns and raises exactly where it should: at the
elements that end a complete window of 1000 elements in which the share of dropped ones reaches the threshold (up to and
including the first error). -/
theorem threshold_exact_partial (warn raise : Option Threshold) (outs : List Bool) (k : Nat) (hk : k < outs.length)
    (hfirst : ∀ i, i < k → thresholdSpec warn raise outs i ≠ .error) :
    (checkAll warn raise ⟨0, 0⟩ outs)[k]? = some (thresholdSpec warn raise outs k) := by
  have := checkAll_spec warn raise outs _ 0 ⟨0, 0⟩ rfl (by unfold Counts; simp) k (by simpa using hk) (fun i _ hi => hfirst i (by simpa using hi))
  simpa using this

theorem checkAll_replicate_false (raise : Threshold) (hr : raise.num ≠ 0) (hle : raise.num ≤ raise.den) (p : Nat) :
    ∀ (m : Nat) (c : Checker), c.passed = p → p + c.skipped ≥ 1000 → raise.num * (p + c.skipped) ≤ c.skipped * raise.den →
    checkAll none (some raise) c (List.replicate m false) = List.replicate m .error := by
  intro m
  induction m with
  | zero => intro c _ _ _; rfl
  | succ m ih =>
    intro c hp h1 h2
    have hstep : c.checkFull none (some raise) false = (⟨c.passed, c.skipped + 1⟩, .error) := by
      unfold Checker.checkFull Checker.over checkInterval
      have h3 : raise.num * (c.passed + (c.skipped + 1)) ≤ (c.skipped + 1) * raise.den := by
        rw [← Nat.add_assoc, Nat.mul_add, Nat.add_mul, hp]; omega
      simp only [Bool.false_eq_true, if_false]
      rw [if_pos (by omega)]
      simp [h3, hr]
    rw [List.replicate_succ, checkAll, hstep, List.replicate_succ, ih ⟨c.passed, c.skipped + 1⟩ hp (by show p + (c.skipped + 1) ≥ 1000; omega) (by
      show raise.num * (p + (c.skipped + 1)) ≤ (c.skipped + 1) * raise.den
      rw [← Nat.add_assoc, Nat.mul_add, Nat.add_mul]; omega)]

/-- The full property is false after an error: the counters are not reset, so a caller who goes on gets an error at every
further dropped element, not only at the end of a window. -/
theorem threshold_error_repeats (m : Nat) :
    checkAll none (some ⟨1, 2⟩) ⟨0, 999⟩ (List.replicate (m + 1) false) = List.replicate (m + 1) .error := by
  have hstep : (⟨0, 999⟩ : Checker).checkFull none (some ⟨1, 2⟩) false = (⟨0, 1000⟩, .error) := by decide
  rw [List.replicate_succ, checkAll, hstep, List.replicate_succ,
    checkAll_replicate_false ⟨1, 2⟩ (by decide) (by decide) 0 m ⟨0, 1000⟩ rfl (by decide) (by decide)]

/-- A threshold of `0` is taken for `None`: nothing is ever reported, even when everything is dropped. -/
theorem threshold_zero_disables (outs : List Bool) (d d' : Nat) (k : Nat) (hk : k < outs.length) :
    (checkAll (some ⟨0, d⟩) (some ⟨0, d'⟩) ⟨0, 0⟩ outs)[k]? = some .quiet := by
  have hz : ∀ i, thresholdSpec (some ⟨0, d⟩) (some ⟨0, d'⟩) outs i = .quiet := by
    intro i
    unfold thresholdSpec
    split
    · simp [reaches]
    · rfl
  rw [threshold_exact_partial _ _ _ _ hk (by intro i _; rw [hz]; decide), hz]

/-! ### The filter iterator -/

/-- The checker of the iterator model is the one above, without the warning. -/
theorem check_eq_checkFull (warn thr : Option Threshold) (c : Checker) (b : Bool) :
    c.check thr b = ((c.checkFull warn thr b).1, if (c.checkFull warn thr b).2 = .error then some .valueError else none) := by
  unfold Checker.check Checker.checkFull
  simp only
  generalize (if b then ({ c with passed := c.passed + 1 } : Checker) else { c with skipped := c.skipped + 1 }) = c'
  by_cases hf : c'.passed + c'.skipped ≥ checkInterval
  · rw [if_pos hf, if_pos hf]
    have hv : ∀ r : Bool, (if c'.over warn = true then ((⟨0, 0⟩ : Checker), CheckOut.warning) else (⟨0, 0⟩, .quiet)) =
        (⟨0, 0⟩, if c'.over warn = true then .warning else .quiet) := by intro _; split <;> rfl
    cases ho : c'.over thr with
    | true =>
      cases thr with
      | none => cases ho
      | some t =>
        have := of_decide_eq_true ho
        simp only [if_pos this, if_true]
    | false =>
      simp only [Bool.false_eq_true, if_false, hv true]
      have hne : (if c'.over warn = true then CheckOut.warning else .quiet) ≠ .error := by split <;> decide
      rw [if_neg hne]
      cases thr with
      | none => rfl
      | some t =>
        have := of_decide_eq_false ho
        simp only [if_neg this]
  · rw [if_neg hf, if_neg hf]
    rfl

/-- What the filter iterator yields from counters `c` on for the remaining elements: the outcomes, and whether they end with
`StopIteration` (`false`: with an error). -/
def filterOuts (thr : Option Threshold) (keep : α → Bool) : Checker → List α → List (Py α) × Bool
  | _, [] => ([], true)
  | c, a :: as =>
    match c.check thr (keep a) with
    | (_, some e) => ([.error e], false)
    | (c, none) => ((if keep a then [.ok a] else []) ++ (filterOuts thr keep c as).1, (filterOuts thr keep c as).2)

theorem filterLoop_outs {p : Iter α} {keep : α → Bool} {thr : Option Threshold} {xs : List α} {At : p.S → Nat → Prop} {Ck : p.C → Nat → Prop}
    (h : Sim p (xs.map Except.ok) true At Ck) : ∀ (k q : Nat) (s : p.S × Checker), xs.length - q = k → At s.1 q →
    (∀ r rest, (filterOuts thr keep s.2 (xs.drop q)).1 = r :: rest → ∃ s' q', Ev (fun F => ∀ n, k ≤ n →
        filterLoop p (fun a => .ok (keep a)) thr F n s = some (s', toRes r)) ∧
      ((∃ e, r = .error e) ∨ (At s'.1 q' ∧ (filterOuts thr keep s'.2 (xs.drop q')).1 = rest ∧
        (filterOuts thr keep s'.2 (xs.drop q')).2 = (filterOuts thr keep s.2 (xs.drop q)).2))) ∧
    ((filterOuts thr keep s.2 (xs.drop q)) = ([], true) → ∃ s', Ev (fun F => ∀ n, k + 1 ≤ n →
        filterLoop p (fun a => .ok (keep a)) thr F n s = some (s', .stop)) ∧ At s'.1 xs.length) := by
  intro k
  induction k with
  | zero =>
    intro q s hk hat
    have hq : q = xs.length := by
      have := h.bound hat
      rw [List.length_map] at this
      omega
    subst hq
    refine ⟨?_, ?_⟩
    · intro r rest hr
      rw [List.drop_length] at hr
      simp [filterOuts] at hr
    · intro _
      obtain ⟨s', e1, e2⟩ := h.next_stop (by simpa using hat) rfl
      refine ⟨(s', s.2), e1.mono ?_, by simpa using e2⟩
      intro F e n hn
      obtain ⟨m, rfl⟩ : ∃ m, n = m + 1 := ⟨n - 1, by omega⟩
      simp only [filterLoop, e, Option.bind_eq_bind, Option.bind_some]
  | succ k ih =>
    intro q s hk hat
    have hq : q < xs.length := by omega
    rw [List.drop_eq_getElem_cons hq]
    have hx : (xs.map (Except.ok (ε := Err)))[q]? = some (.ok xs[q]) := by
      rw [List.getElem?_map, List.getElem?_eq_getElem hq]; rfl
    obtain ⟨ps', e1, e2⟩ := h.next_item hat hx
    cases hc : s.2.check thr (keep xs[q]) with
    | mk c' o =>
      cases o with
      | some e =>
        simp only [filterOuts, hc]
        refine ⟨?_, ?_⟩
        · intro r rest hr
          cases hr
          refine ⟨(ps', c'), q + 1, e1.mono ?_, Or.inl ⟨e, rfl⟩⟩
          intro F ef n hn
          obtain ⟨m, rfl⟩ : ∃ m, n = m + 1 := ⟨n - 1, by omega⟩
          simp only [filterLoop, ef, Option.bind_eq_bind, Option.bind_some, toRes, hc]
        · intro hr; cases hr
      | none =>
        simp only [filterOuts, hc]
        cases hkp : keep xs[q] with
        | true =>
          rw [hkp] at hc
          refine ⟨?_, ?_⟩
          · intro r rest hr
            simp only [if_true, List.cons_append, List.nil_append, List.cons.injEq] at hr
            obtain ⟨rfl, rfl⟩ := hr
            refine ⟨(ps', c'), q + 1, e1.mono ?_, Or.inr ⟨e2, rfl, rfl⟩⟩
            intro F ef n hn
            obtain ⟨m, rfl⟩ : ∃ m, n = m + 1 := ⟨n - 1, by omega⟩
            simp only [filterLoop, ef, Option.bind_eq_bind, Option.bind_some, toRes, hkp, hc, if_true]
          · intro hr
            simp at hr
        | false =>
          rw [hkp] at hc
          obtain ⟨i1, i2⟩ := ih (q + 1) (ps', c') (by omega) e2
          simp only [Bool.false_eq_true, if_false, List.nil_append]
          refine ⟨?_, ?_⟩
          · intro r rest hr
            obtain ⟨s', q', hev, hrest⟩ := i1 r rest hr
            refine ⟨s', q', e1.mono₂ hev ?_, hrest⟩
            intro F ef eg n hn
            obtain ⟨m, rfl⟩ : ∃ m, n = m + 1 := ⟨n - 1, by omega⟩
            simp only [filterLoop, ef, Option.bind_eq_bind, Option.bind_some, toRes, hkp, hc]
            exact eg m (by omega)
          · intro hr
            obtain ⟨s', hev, hat'⟩ := i2 hr
            refine ⟨s', e1.mono₂ hev ?_, hat'⟩
            intro F ef eg n hn
            obtain ⟨m, rfl⟩ : ∃ m, n = m + 1 := ⟨n - 1, by omega⟩
            simp only [filterLoop, ef, Option.bind_eq_bind, Option.bind_some, toRes, hkp, hc]
            exact eg m (by omega)

/-- `next` called `n` times from state `s` on. -/
def nexts (it : Iter α) (F : Nat) (s : it.S) (n : Nat) : Option (List (Res α)) := implRun it F s [] (List.replicate n .next)

theorem nexts_succ {it : Iter α} {F : Nat} {s s' : it.S} {r : Res α} {n : Nat} {l : List (Res α)} (h : it.next F s = some (s', r))
    (hl : nexts it F s' n = some l) : nexts it F s (n + 1) = some (r :: l) := by
  unfold nexts at hl ⊢
  rw [List.replicate_succ, implRun, h, Option.bind_eq_bind, Option.bind_some]
  simp only [hl, Option.bind_some, Option.bind_eq_bind]

theorem filter_nexts {p : Iter α} {keep : α → Bool} {thr : Option Threshold} {xs : List α} {At : p.S → Nat → Prop} {Ck : p.C → Nat → Prop}
    (h : Sim p (xs.map Except.ok) true At Ck) : ∀ (n q : Nat) (s : p.S × Checker), At s.1 q →
    (n ≤ (filterOuts thr keep s.2 (xs.drop q)).1.length ∨ (filterOuts thr keep s.2 (xs.drop q)).2 = true) →
    Ev (fun F => nexts (filterIter (fun a => .ok (keep a)) thr p) F s n =
      some (((filterOuts thr keep s.2 (xs.drop q)).1.map toRes ++ List.replicate n Res.stop).take n)) := by
  intro n
  induction n with
  | zero => intro q s _ _; exact Ev.of_forall (fun F => by simp [nexts, implRun])
  | succ n ih =>
    intro q s hat hn
    obtain ⟨h1, h2⟩ := filterLoop_outs (keep := keep) (thr := thr) h (xs.length - q) q s rfl hat
    cases hr : (filterOuts thr keep s.2 (xs.drop q)).1 with
    | nil =>
      have hend : (filterOuts thr keep s.2 (xs.drop q)).2 = true := by
        rcases hn with hn | hn
        · rw [hr] at hn; simp at hn
        · exact hn
      obtain ⟨s', e1, e2⟩ := h2 (Prod.ext hr hend)
      have hz : filterOuts thr keep s'.2 (xs.drop xs.length) = ([], true) := by rw [List.drop_length]; rfl
      have h3 := ih xs.length s' e2 (Or.inr (by rw [hz]))
      rw [hz] at h3
      refine (e1.ge (xs.length - q + 1)).mono₂ h3 ?_
      rintro F ⟨hF, a⟩ b
      rw [nexts_succ (it := filterIter (fun a => .ok (keep a)) thr p) (a F hF) b]
      simp [List.replicate_succ]
    | cons r rest =>
      obtain ⟨s', q', e1, e2⟩ := h1 r rest hr
      rcases e2 with ⟨e, rfl⟩ | ⟨e2, e3, e4⟩
      · -- an error is the last known outcome
        have hlast : ∀ (as : List α) (c : Checker) e rest, (filterOuts thr keep c as).1 = .error e :: rest → rest = [] ∧ (filterOuts thr keep c as).2 = false := by
          intro as
          induction as with
          | nil => intro c e rest hh; simp [filterOuts] at hh
          | cons a as iha =>
            intro c e rest hh
            simp only [filterOuts] at hh ⊢
            cases hc : c.check thr (keep a) with
            | mk c' o =>
              rw [hc] at hh
              cases o with
              | some e' => simp at hh ⊢; exact hh.2
              | none =>
                cases hk : keep a with
                | true => rw [hk] at hh; simp at hh
                | false => rw [hk] at hh; simp at hh ⊢; exact iha c' e rest hh
        obtain ⟨l1, l2⟩ := hlast _ _ _ _ hr
        subst l1
        have hn0 : n = 0 := by
          rcases hn with hn | hn
          · rw [hr] at hn; simp at hn; omega
          · rw [l2] at hn; cases hn
        subst hn0
        refine (e1.ge (xs.length - q)).mono ?_
        rintro F ⟨hF, a⟩
        simp only [nexts, List.replicate_succ, implRun, filterIter, a F hF, Option.bind_eq_bind, Option.bind_some]
        simp [implRun]
      · have h3 := ih q' s' e2 (by
          rcases hn with hn | hn
          · left; rw [hr] at hn; rw [e3]; simp at hn; omega
          · right; rw [e4]; exact hn)
        rw [e3] at h3
        refine (e1.ge (xs.length - q)).mono₂ h3 ?_
        rintro F ⟨hF, a⟩ b
        rw [nexts_succ (it := filterIter (fun a => .ok (keep a)) thr p) (a F hF) b]
        have ht : ∀ l : List (Res α), (l ++ List.replicate (n + 1) Res.stop).take n = (l ++ List.replicate n Res.stop).take n := by
          intro l
          rw [List.replicate_succ', ← List.append_assoc, List.take_append_of_le_length (by simp)]
        rw [List.map_cons, List.cons_append, List.take_succ_cons, ht]

theorem filterOuts_spec (thr : Option Threshold) (keep : α → Bool) (xs : List α) : ∀ (n k : Nat) (c : Checker), xs.length - k = n →
    Counts c (xs.map keep) k →
    ((∀ i, k ≤ i → i < xs.length → thresholdSpec none thr (xs.map keep) i ≠ .error) →
      filterOuts thr keep c (xs.drop k) = (((xs.drop k).filter keep).map Except.ok, true)) ∧
    (∀ j, k ≤ j → j < xs.length → (∀ i, k ≤ i → i < j → thresholdSpec none thr (xs.map keep) i ≠ .error) →
      thresholdSpec none thr (xs.map keep) j = .error →
      filterOuts thr keep c (xs.drop k) = ((((xs.take j).drop k).filter keep).map Except.ok ++ [.error .valueError], false)) := by
  intro n
  induction n with
  | zero =>
    intro k c h _
    refine ⟨?_, ?_⟩
    · intro _
      rw [List.drop_eq_nil_of_le (by omega)]
      rfl
    · intro j h1 h2; omega
  | succ n ih =>
    intro k c h hc
    have hk : k < xs.length := by omega
    obtain ⟨e1, e2⟩ := counts_step hc (by simpa using hk) none thr
    simp only [List.getElem_map] at e1 e2
    rw [List.drop_eq_getElem_cons hk]
    have hck := check_eq_checkFull none thr c (keep xs[k])
    rw [e1] at hck e2
    by_cases hb : thresholdSpec none thr (xs.map keep) k = .error
    · rw [if_pos hb] at hck
      refine ⟨?_, ?_⟩
      · intro hall
        exact absurd hb (hall k (Nat.le_refl _) hk)
      · intro j hj hj' hall _
        have : j = k := by
          by_contra hne
          exact hall k (Nat.le_refl _) (by omega) hb
        subst this
        simp only [filterOuts, hck]
        rw [List.drop_eq_nil_of_le (by rw [List.length_take]; omega)]
        rfl
    · rw [if_neg hb] at hck
      obtain ⟨i1, i2⟩ := ih (k + 1) _ (by omega) (e2 hb)
      refine ⟨?_, ?_⟩
      · intro hall
        have := i1 (fun i hi hi' => hall i (by omega) hi')
        simp only [filterOuts, hck, this, List.filter_cons]
        cases keep xs[k] <;> simp
      · intro j hj hj' hall hbad
        have hne : j ≠ k := by rintro rfl; exact hb hbad
        have := i2 j (by omega) hj' (fun i hi hi' => hall i (by omega) hi') hbad
        have hdr : (xs.take j).drop k = xs[k] :: (xs.take j).drop (k + 1) := by
          have hl : k < (xs.take j).length := by rw [List.length_take]; omega
          rw [List.drop_eq_getElem_cons hl, List.getElem_take]
        simp only [filterOuts, hck, this, hdr, List.filter_cons]
        cases keep xs[k] <;> simp

/-- C45 at the level of the iterator: filtering the elements `xs` with any threshold, if no complete window of 1000 elements
reaches it then any number of `next` calls return the elements that pass the filter and then `StopIteration`. -/
theorem filter_below_threshold {p : Iter α} {xs : List α} (hp : Resumes p (xs.map Except.ok) true) (keep : α → Bool) (thr : Option Threshold)
    (hok : ∀ i, i < xs.length → (i + 1) % 1000 = 0 → ¬ reaches (((xs.take (i + 1)).drop (i + 1 - 1000)).map keep) thr) (n : Nat) :
    Ev (fun F => nexts (filterIter (fun a => .ok (keep a)) thr p) F (filterIter (fun a => .ok (keep a)) thr p).init n =
      some ((((xs.filter keep).map Res.item) ++ List.replicate n Res.stop).take n)) := by
  obtain ⟨At, Ck, h⟩ := hp
  have h0 := (filterOuts_spec thr keep xs _ 0 ⟨0, 0⟩ rfl (by unfold Counts; simp)).1 (by
    intro i _ hi hbad
    unfold thresholdSpec at hbad
    split at hbad
    · rename_i hw
      split at hbad
      · rename_i hr
        apply hok i hi hw
        simpa [List.map_take, List.map_drop] using hr
      · simp [reaches] at hbad
    · cases hbad)
  have h1 := filter_nexts (keep := keep) (thr := thr) h n 0 (p.init, ⟨0, 0⟩) h.init (by right; rw [h0])
  rw [h0] at h1
  simp only [List.drop_zero, List.map_map] at h1
  exact h1

/-- C45 at the level of the iterator: if the first window that reaches the threshold ends with element number `j`, the
elements that pass the filter before element `j` are returned, and the next `next` call, which reads element `j`, raises
`ValueError` (also if element `j` passes the filter: then it is lost). -/
theorem filter_raises_at_threshold {p : Iter α} {xs : List α} (hp : Resumes p (xs.map Except.ok) true) (keep : α → Bool)
    (thr : Option Threshold) (j : Nat) (hj : j < xs.length) (hw : (j + 1) % 1000 = 0)
    (hbad : reaches (((xs.take (j + 1)).drop (j + 1 - 1000)).map keep) thr)
    (hok : ∀ i, i < j → (i + 1) % 1000 = 0 → ¬ reaches (((xs.take (i + 1)).drop (i + 1 - 1000)).map keep) thr) :
    Ev (fun F => nexts (filterIter (fun a => .ok (keep a)) thr p) F (filterIter (fun a => .ok (keep a)) thr p).init
        (((xs.take j).filter keep).length + 1) = some (((xs.take j).filter keep).map Res.item ++ [.fail .valueError])) := by
  obtain ⟨At, Ck, h⟩ := hp
  have h0 := (filterOuts_spec thr keep xs _ 0 ⟨0, 0⟩ rfl (by unfold Counts; simp)).2 j (by omega) hj (by
    intro i _ hi hbad
    unfold thresholdSpec at hbad
    split at hbad
    · rename_i hw
      split at hbad
      · rename_i hr
        apply hok i hi hw
        simpa [List.map_take, List.map_drop] using hr
      · simp [reaches] at hbad
    · cases hbad) (by
    unfold thresholdSpec
    rw [if_pos hw, if_pos]
    simpa [List.map_take, List.map_drop] using hbad)
  have h1 := filter_nexts (keep := keep) (thr := thr) h (((xs.take j).filter keep).length + 1) 0 (p.init, ⟨0, 0⟩) h.init (by left; rw [h0]; simp)
  rw [h0] at h1
  simp only [List.drop_zero] at h1
  refine h1.mono ?_
  intro F e
  generalize hys : (xs.take j).filter keep = ys at e ⊢
  rw [List.take_append_of_le_length (by simp)] at e
  simp only [List.map_append, List.map_map, List.map_cons, List.map_nil] at e
  rw [List.take_of_length_le (by simp)] at e
  exact e

/-- 2500 elements of which those below 1500 are dropped, threshold 90 percent: the error comes at element 999, before any
element was returned. -/
example : Ev (fun F => nexts (filterIter (fun (a : Nat) => .ok (decide (1500 ≤ a))) (some ⟨9, 10⟩) (listIter ((List.range 2500).map Except.ok))) F
    (filterIter (fun (a : Nat) => .ok (decide (1500 ≤ a))) (some ⟨9, 10⟩) (listIter ((List.range 2500).map Except.ok))).init 1 = some [.fail .valueError]) := by
  have := filter_raises_at_threshold (listIter_resumes (xs := (List.range 2500).map Except.ok)) (fun a => decide (1500 ≤ a)) (some ⟨9, 10⟩) 999
    (by simp) (by decide) (by
      refine ⟨by decide, ?_⟩
      have : ((List.range 2500).take 1000).map (fun a => decide (1500 ≤ a)) = List.replicate 1000 false := by
        rw [List.take_range]
        apply List.eq_replicate_iff.2
        constructor
        · simp
        · intro b hb
          simp at hb
          obtain ⟨a, ha, rfl⟩ := hb
          simp; omega
      show _ ≤ _
      rw [show 999 + 1 - 1000 = 0 from rfl, List.drop_zero, this]
      rw [List.count_replicate_self, List.length_replicate]
      decide) (by intro i hi hw; omega)
  have he : ((List.range 2500).take 999).filter (fun a => decide (1500 ≤ a)) = [] := by
    rw [List.take_range]
    apply List.filter_eq_nil_iff.2
    intro a ha
    simp at ha ⊢
    omega
  rw [he] at this
  exact this

/-! ### The counters are not part of the checkpoint -/

/-- One element that passes the filter and 999 that do not. -/
def oneKept : List Nat := 0 :: List.replicate 999 1

theorem run_restart {it : Iter α} {F : Nat} {s1 s2 s3 : it.S} {r1 r2 : Res α} (h1 : it.next F it.init = some (s1, r1))
    (h2 : it.set F it.init (it.get s1).2 = some (s2, none)) (h3 : it.next F s2 = some (s3, r2)) :
    implRun it F it.init [] [.next, .save, .fresh 0, .next] = some [r1, r2] := by
  simp [implRun, h1, h2, h3]

theorem filter_next_kept {p : Iter α} {keep : α → Bool} {thr : Option Threshold} {k : Nat} {s s' : p.S} {a : α} {c c' : Checker}
    (h : p.next (k + 1) s = some (s', .item a)) (hk : keep a = true) (hc : c.check thr true = (c', none)) :
    (filterIter (fun a => .ok (keep a)) thr p).next (k + 1) (s, c) = some ((s', c'), .item a) := by
  simp only [filterIter, filterLoop, h, Option.bind_eq_bind, Option.bind_some, hk, hc, if_true]

/-- The error depends on where the iterator was restored: reading `oneKept` in one go raises `ValueError` at the end (99.9
percent of the window were dropped), but after a restore from the checkpoint taken behind the first element the same
`next` call ends with `StopIteration`. -/
theorem filter_threshold_not_checkpointed :
    let it := filterIter (fun a => .ok (a == 0)) (some ⟨9, 10⟩) (listIter (oneKept.map Except.ok))
    Ev (fun F => implRun it F it.init [] [.next, .next] = some [.item 0, .fail .valueError]) ∧
    Ev (fun F => implRun it F it.init [] [.next, .save, .fresh 0, .next] = some [.item 0, .stop]) := by
  obtain ⟨At, Ck, h⟩ := listIter_resumes (oneKept.map (Except.ok (ε := Err)))
  have hlen : oneKept.length = 1000 := by rw [oneKept, List.length_cons, List.length_replicate]
  have hmap : oneKept.map (fun a => a == 0) = true :: List.replicate 999 false := by
    rw [oneKept, List.map_cons, List.map_replicate]; rfl
  have hfilt : (oneKept.take 999).filter (fun a => a == 0) = [0] := by
    rw [oneKept, List.take_succ_cons, List.filter_cons]
    rw [List.take_replicate]
    rw [if_pos (by decide), List.filter_replicate_of_neg (by decide)]
  refine ⟨?_, ?_⟩
  · have h1 := filter_raises_at_threshold (listIter_resumes (oneKept.map Except.ok)) (fun a => a == 0) (some ⟨9, 10⟩) 999 (by rw [hlen]; decide)
      (by decide) (by
        rw [show 999 + 1 - 1000 = 0 from rfl, List.drop_zero, List.take_of_length_le (by rw [hlen]), hmap]
        refine ⟨by decide, ?_⟩
        rw [List.length_cons, List.length_replicate, List.count_cons_of_ne (by decide), List.count_replicate_self]
        decide) (by intro i hi hw; omega)
    rw [hfilt] at h1
    exact h1
  · -- the first element
    have hx : (oneKept.map (Except.ok (ε := Err)))[0]? = some (.ok 0) := rfl
    obtain ⟨s1, e1, a1⟩ := h.next_item h.init hx
    obtain ⟨g1, g2⟩ := h.get a1
    obtain ⟨s2, e2, a2⟩ := h.set h.init g2 (Or.inr rfl)
    have hspec := (filterOuts_spec (some ⟨9, 10⟩) (fun a => a == 0) (List.replicate 999 1) _ 0 ⟨0, 0⟩ rfl (by unfold Counts; rw [List.take_zero, List.drop_nil]; exact ⟨rfl, rfl⟩)).1 (by
      intro i _ hi hbad
      rw [List.length_replicate] at hi
      unfold thresholdSpec at hbad
      rw [if_neg (by omega)] at hbad
      cases hbad)
    rw [List.drop_zero, List.filter_replicate_of_neg (by decide)] at hspec
    obtain ⟨s3, e3, _⟩ := (filterLoop_outs (keep := fun a => a == 0) (thr := some ⟨9, 10⟩) h (oneKept.length - 1) 1 (s2, ⟨0, 0⟩) rfl a2).2 hspec
    refine ((e1.and e2).and (e3.ge (oneKept.length + 1))).mono ?_
    rintro F ⟨⟨f1, f2⟩, hF, f3⟩
    obtain ⟨k, rfl⟩ : ∃ k, F = k + 1 := ⟨F - 1, by omega⟩
    have n1 : (filterIter (fun a => .ok (a == 0)) (some ⟨9, 10⟩) (listIter (oneKept.map Except.ok))).next (k + 1)
        (filterIter (fun a => .ok (a == 0)) (some ⟨9, 10⟩) (listIter (oneKept.map Except.ok))).init = some ((s1, ⟨1, 0⟩), .item 0) :=
      filter_next_kept f1 rfl (by decide)
    have n2 : (filterIter (fun a => .ok (a == 0)) (some ⟨9, 10⟩) (listIter (oneKept.map Except.ok))).set (k + 1)
        (filterIter (fun a => .ok (a == 0)) (some ⟨9, 10⟩) (listIter (oneKept.map Except.ok))).init
        ((listIter (oneKept.map Except.ok)).get s1).2 = some ((s2, ⟨0, 0⟩), none) := by
      show (do let (ps, e) ← (listIter (oneKept.map Except.ok)).set (k + 1) (listIter (oneKept.map Except.ok)).init ((listIter (oneKept.map Except.ok)).get s1).2; some ((ps, _), e)) = _
      rw [f2]
      rfl
    have n3 : (filterIter (fun a => .ok (a == 0)) (some ⟨9, 10⟩) (listIter (oneKept.map Except.ok))).next (k + 1) (s2, ⟨0, 0⟩) = some (s3, .stop) :=
      f3 _ (by omega)
    exact run_restart n1 n2 n3

end Grain
