import Verif.Interleave.ModelSparse
import Verif.Interleave.Props
/-
Property C82: interleaving a dataset of datasets from which some were filtered out.
-/
namespace Grain

/-! ### With nothing filtered out -/

theorem nextPresent_all (n pf : Nat) : nextPresent (fun _ => true) n pf = if pf < n then some pf else none := by
  unfold nextPresent
  split
  · next h =>
    rw [List.find?_range_eq_some]
    simp
    omega
  · next h =>
    rw [List.find?_eq_none]
    intro x hx
    rw [List.mem_range] at hx
    simp
    omega

theorem ilLoopSparse_all {f : IterFam α} {n L F : Nat} : ∀ (k : Nat) (s : ILState f.S f.C), (∀ d, s.future d = none) → s.pf ≤ n →
    ilLoopSparse f (fun _ => true) n L F k s = ilLoop f n L false F k s := by
  intro k
  induction k with
  | zero => intro s _ _; rfl
  | succ k ih =>
    intro s hf hp
    rw [ilLoopSparse, ilLoop]
    cases hs : s.slots s.cyc with
    | some q =>
      obtain ⟨d, st⟩ := q
      simp only
      cases hn : f.next d F st with
      | none => rfl
      | some q =>
        obtain ⟨st', r⟩ := q
        cases r with
        | item a => rfl
        | fail e => rfl
        | stop =>
          simp only [Option.bind_eq_bind, Option.bind_some]
          exact ih _ hf hp
    | none =>
      simp only [nextPresent_all]
      by_cases hn : s.nextDs < n
      · rw [if_pos hn, if_pos hn]
        by_cases hpn : s.pf < n
        · rw [if_pos hpn, if_pos hpn]
          simp only [hf s.nextDs]
          exact ih _ hf (by dsimp only; omega)
        · rw [if_neg hpn, if_neg hpn]
          have : n = s.pf := by omega
          subst this
          rfl
      · rw [if_neg hn, if_neg hn]
        by_cases ha : anyLive L s.slots
        · rw [if_pos ha, if_pos ha]
          exact ih _ hf hp
        · rw [if_neg ha, if_neg ha]

/-! ### What comes out -/

/-- How many outcomes are of dataset `d`. -/
def readOf (d : Nat) (out : List (Nat × Py α)) : Nat := (out.filter (fun q => q.1 = d)).length

structure SparseInv {f : IterFam α} (present : Nat → Bool) (n L : Nat) (xs : Nat → List (Py α)) (At : Nat → f.S → Nat → Prop)
    (s : ILState f.S f.C) (out : List (Nat × Py α)) : Prop where
  cyc : s.cyc < L
  slot : ∀ i d st, i < L → s.slots i = some (d, st) → d < s.pf ∧ present d = true ∧ At d st (readOf d out)
  inj : ∀ i j d st st', i < L → j < L → s.slots i = some (d, st) → s.slots j = some (d, st') → i = j
  unopened : ∀ d, s.pf ≤ d → readOf d out = 0
  vals : ∀ d, d < n → (out.filter (fun q => q.1 = d)).map (·.2) <+: xs d
  mem : ∀ d r, (d, r) ∈ out → d < n ∧ present d = true
  over : ∀ d, d < s.pf → present d = true → (∀ i st, i < L → s.slots i ≠ some (d, st)) → readOf d out = (xs d).length
  pf_le : s.pf ≤ n
  count : s.nextDs = ((List.range s.pf).filter present).length

/-- Turns that are left before an outcome. -/
def sparseW {S : Type} (n L : Nat) (pf : Nat) (slots : Nat → Option (Nat × S)) : Nat :=
  2 * (n - pf) + sumTo L (fun i => if (slots i).isSome then 1 else 0)

theorem sparse_loop {f : IterFam α} {present : Nat → Bool} {n L : Nat} {xs : Nat → List (Py α)} {At : Nat → f.S → Nat → Prop}
    {Ck : Nat → f.C → Nat → Prop} (hs : ∀ d, d < n → present d = true → SimWhen (fun _ => false) (f.iter d) (xs d) true (At d) (Ck d))
    (hL : 0 < L) (hhole : ∃ d, d < n ∧ present d = false) : ∀ (w : Nat) (s : ILState f.S f.C) (out : List (Nat × Py α)),
    SparseInv present n L xs At s out → sparseW n L s.pf s.slots ≤ w →
    ∃ s' r, Ev (fun F => ∀ k, w + 1 ≤ k → ilLoopSparse f present n L F k s = some (s', r)) ∧
      ((∃ d q, r = toRes q ∧ SparseInv present n L xs At s' (out ++ [(d, q)])) ∨
       (r = .stop ∧ SparseInv present n L xs At s' out ∧ s'.slots s'.cyc = none ∧ s'.pf = n)) := by
  intro w
  induction w using Nat.strong_induction_on with
  | _ w ih =>
  intro s out h hw
  have hmod : (s.cyc + 1) % L < L := Nat.mod_lt _ hL
  cases hsl : s.slots s.cyc with
  | some p =>
    obtain ⟨d, st⟩ := p
    obtain ⟨hdp, hpr, hat⟩ := h.slot _ d st h.cyc hsl
    have hdn : d < n := Nat.lt_of_lt_of_le hdp h.pf_le
    have hsim := hs d hdn hpr
    cases hx : (xs d)[readOf d out]? with
    | some q =>
      obtain ⟨st', h1, h2⟩ := hsim.next_item hat hx
      have hro : ∀ d', readOf d' (out ++ [(d, q)]) = if d' = d then readOf d out + 1 else readOf d' out := by
        intro d'
        unfold readOf
        rw [List.filter_append]
        by_cases hd' : d' = d
        · subst hd'; simp
        · rw [if_neg hd']
          simp [Ne.symm hd']
      have hinv : ∀ c, c < L → SparseInv present n L xs At
          { s with slots := Function.update s.slots s.cyc (some (d, st')), cyc := c } (out ++ [(d, q)]) := by
        intro c hc
        refine ⟨hc, ?_, ?_, ?_, ?_, ?_, ?_, h.pf_le, h.count⟩
        · intro i d' st'' hi hi'
          dsimp only at hi' ⊢
          by_cases hic : i = s.cyc
          · subst hic
            rw [upd_same] at hi'
            cases hi'
            rw [hro, if_pos rfl]
            exact ⟨hdp, hpr, h2⟩
          · rw [upd_ne _ _ hic] at hi'
            have hne : d' ≠ d := by
              rintro rfl
              exact hic (h.inj _ _ _ _ _ hi h.cyc hi' hsl)
            rw [hro, if_neg hne]
            exact h.slot _ _ _ hi hi'
        · intro i j d' a b hi hj h1 h2
          dsimp only at h1 h2
          have key : ∀ k e, k < L → Function.update s.slots s.cyc (some (d, st')) k = some (d', e) → ∃ e', s.slots k = some (d', e') := by
            intro k e hk hh
            by_cases hkc : k = s.cyc
            · subst hkc; rw [upd_same] at hh; cases hh; exact ⟨_, hsl⟩
            · rw [upd_ne _ _ hkc] at hh; exact ⟨_, hh⟩
          obtain ⟨a', ha⟩ := key _ _ hi h1
          obtain ⟨b', hb⟩ := key _ _ hj h2
          exact h.inj _ _ _ _ _ hi hj ha hb
        · intro d' hd'
          dsimp only at hd'
          rw [hro, if_neg (by omega)]
          exact h.unopened d' hd'
        · intro d' hd'
          rw [List.filter_append, List.map_append]
          by_cases he : d' = d
          · subst he
            have hv := h.vals d' hd'
            rw [List.prefix_iff_eq_take] at hv
            simp only [List.length_map] at hv
            rw [hv]
            have : List.map (fun x => x.2) (List.filter (fun q => decide (q.1 = d')) [(d', q)]) = [q] := by simp
            rw [this]
            have e1 : (out.filter (fun q => decide (q.1 = d'))).length = readOf d' out := rfl
            rw [e1]
            have hlt := lt_of_getElem?_some hx
            have e2 : (xs d').take (readOf d' out) ++ [q] = (xs d').take (readOf d' out + 1) := by
              rw [List.take_add_one, hx]; rfl
            rw [e2]
            exact List.take_prefix _ _
          · have : List.filter (fun q => decide (q.1 = d')) [(d, q)] = [] := by simp [Ne.symm he]
            rw [this, List.map_nil, List.append_nil]
            exact h.vals d' hd'
        · intro d' r hm
          rw [List.mem_append, List.mem_singleton] at hm
          rcases hm with hm | hm
          · exact h.mem d' r hm
          · cases hm; exact ⟨hdn, hpr⟩
        · intro d' hd' hp' hno
          dsimp only at hd' hno
          have hne : d' ≠ d := by
            rintro rfl
            exact hno s.cyc st' h.cyc (upd_same _ _ _)
          rw [hro, if_neg hne]
          refine h.over d' hd' hp' ?_
          intro i st'' hi hc'
          by_cases hic : i = s.cyc
          · subst hic; rw [hsl] at hc'; cases hc'; exact hne rfl
          · exact hno i st'' hi (by rw [upd_ne _ _ hic]; exact hc')
      cases q with
      | ok a =>
        refine ⟨_, .item a, h1.mono ?_, Or.inl ⟨d, .ok a, rfl, hinv _ hmod⟩⟩
        intro F e k hk
        obtain ⟨k, rfl⟩ : ∃ k', k = k' + 1 := ⟨k - 1, by omega⟩
        have e' : f.next d F st = some (st', .item a) := e
        simp only [ilLoopSparse, hsl, e']
      | error e0 =>
        refine ⟨_, .fail e0, h1.mono ?_, Or.inl ⟨d, .error e0, rfl, hinv _ h.cyc⟩⟩
        intro F e k hk
        obtain ⟨k, rfl⟩ : ∃ k', k = k' + 1 := ⟨k - 1, by omega⟩
        have e' : f.next d F st = some (st', .fail e0) := e
        simp only [ilLoopSparse, hsl, e']
    | none =>
      have hlen : readOf d out = (xs d).length := by
        have := length_le_of_getElem?_none hx
        have := hsim.bound hat
        omega
      rw [hlen] at hat
      obtain ⟨st', h1, h2⟩ := hsim.next_stop hat rfl
      have hsum := sumTo_update (L := L) (i := s.cyc) (g := fun i => if (Function.update s.slots s.cyc (none : Option (Nat × f.S)) i).isSome then 1 else 0)
        (h := fun i => if (s.slots i).isSome then 1 else 0) h.cyc (fun j _ hne => by simp only [upd_ne _ _ hne])
      simp only [upd_same, hsl, Option.isSome_none, Option.isSome_some] at hsum
      simp only [sparseW] at hw
      have hlt : sparseW n L s.pf (Function.update s.slots s.cyc (none : Option (Nat × f.S))) < w := by
        simp only [sparseW]
        simp at hsum
        omega
      obtain ⟨s', r, g1, g2⟩ := ih (w - 1) (by omega)
        { s with exState := Function.update s.exState s.cyc (some (f.get d st').2)
                 slots := Function.update s.slots s.cyc none
                 cyc := (s.cyc + 1) % L } out (by
        refine ⟨hmod, ?_, ?_, h.unopened, h.vals, h.mem, ?_, h.pf_le, h.count⟩
        · intro i d' a hi hh
          dsimp only at hh ⊢
          by_cases hic : i = s.cyc
          · subst hic; rw [upd_same] at hh; cases hh
          · rw [upd_ne _ _ hic] at hh; exact h.slot _ _ _ hi hh
        · intro i j d' a b hi hj ha hb
          dsimp only at ha hb
          by_cases hic : i = s.cyc
          · subst hic; rw [upd_same] at ha; cases ha
          · by_cases hjc : j = s.cyc
            · subst hjc; rw [upd_same] at hb; cases hb
            · rw [upd_ne _ _ hic] at ha; rw [upd_ne _ _ hjc] at hb; exact h.inj _ _ _ _ _ hi hj ha hb
        · intro d' hd' hp' hno
          dsimp only at hd' hno
          by_cases he : d' = d
          · subst he; exact hlen
          · refine h.over d' hd' hp' ?_
            intro i a hi hh
            by_cases hic : i = s.cyc
            · subst hic; rw [hsl] at hh; cases hh; exact he rfl
            · exact hno i a hi (by rw [upd_ne _ _ hic]; exact hh)) (by dsimp only; omega)
      refine ⟨s', r, h1.mono₂ g1 ?_, g2⟩
      intro F e1 e2 k hk
      obtain ⟨k, rfl⟩ : ∃ k', k = k' + 1 := ⟨k - 1, by omega⟩
      have e' : f.next d F st = some (st', .stop) := e1
      simp only [ilLoopSparse, hsl, e']
      exact e2 k (by omega)
  | none =>
    have hcn : s.nextDs < n := by
      obtain ⟨d0, hd0, hp0⟩ := hhole
      have h1 : ((List.range s.pf).filter present).length ≤ ((List.range n).filter present).length :=
        ((List.range_sublist.2 h.pf_le).filter present).length_le
      have h2 : ((List.range n).filter present).length < (List.range n).length := by
        rw [List.length_filter_lt_length_iff_exists]
        exact ⟨d0, List.mem_range.2 hd0, by simp [hp0]⟩
      rw [List.length_range] at h2
      have := h.count
      omega
    cases hp : nextPresent present n s.pf with
    | none =>
      have hnone : ∀ x, x < n → s.pf ≤ x → present x = false := by
        intro x hxn hpx
        unfold nextPresent at hp
        rw [List.find?_eq_none] at hp
        have := hp x (List.mem_range.2 hxn)
        simp [hpx] at this
        exact this
      refine ⟨{ s with pf := n }, .stop, Ev.of_forall ?_, Or.inr ⟨rfl, ?_, hsl, rfl⟩⟩
      · intro F k hk
        obtain ⟨k, rfl⟩ : ∃ k', k = k' + 1 := ⟨k - 1, by omega⟩
        simp only [ilLoopSparse, hsl, if_pos hcn, hp]
      · refine ⟨h.cyc, ?_, h.inj, ?_, h.vals, h.mem, ?_, Nat.le_refl _, ?_⟩
        · intro i d st hi hh
          obtain ⟨a, b, c⟩ := h.slot i d st hi hh
          exact ⟨Nat.lt_of_lt_of_le a h.pf_le, b, c⟩
        · intro d hd
          exact h.unopened d (Nat.le_trans h.pf_le hd)
        · intro d hd hpd hno
          by_cases hc : d < s.pf
          · exact h.over d hc hpd hno
          · have := hnone d hd (by omega)
            rw [hpd] at this
            cases this
        · dsimp only
          rw [h.count]
          have : n = s.pf + (n - s.pf) := by have := h.pf_le; omega
          conv_rhs => rw [this, List.range_add, List.filter_append]
          have h0 : List.filter present (List.map (fun x => s.pf + x) (List.range (n - s.pf))) = [] := by
            rw [List.filter_eq_nil_iff]
            intro x hx
            rw [List.mem_map] at hx
            obtain ⟨y, hy, rfl⟩ := hx
            rw [List.mem_range] at hy
            rw [hnone _ (by omega) (by omega)]
            simp
          rw [h0, List.append_nil]
    | some p =>
      have hp' := hp
      unfold nextPresent at hp
      rw [List.find?_range_eq_some] at hp
      obtain ⟨hpp, hpn, hmin⟩ := hp
      simp only [Bool.and_eq_true, decide_eq_true_eq] at hpp
      rw [List.mem_range] at hpn
      have hbetween : ∀ x, s.pf ≤ x → x < p → present x = false := by
        intro x h1 h2
        have := hmin x h2
        simp [h1] at this
        exact this
      have hsum := sumTo_update (L := L) (i := s.cyc) (g := fun i => if (Function.update s.slots s.cyc (some (p, f.init p)) i).isSome then 1 else 0)
        (h := fun i => if (s.slots i).isSome then 1 else 0) h.cyc (fun j _ hne => by simp only [upd_ne _ _ hne])
      simp only [upd_same, hsl, Option.isSome_none, Option.isSome_some] at hsum
      simp only [sparseW] at hw
      have hlt : sparseW n L (p + 1) (Function.update s.slots s.cyc (some (p, f.init p))) < w := by
        simp only [sparseW]
        simp at hsum
        omega
      obtain ⟨s', r, g1, g2⟩ := ih (w - 1) (by omega)
        { s with pf := p + 1
                 slots := Function.update s.slots s.cyc (some (p, f.init p))
                 exState := Function.update s.exState s.cyc none
                 indices := Function.update s.indices s.cyc s.nextDs
                 nextDs := s.nextDs + 1 } out (by
        refine ⟨h.cyc, ?_, ?_, ?_, h.vals, h.mem, ?_, by dsimp only; omega, ?_⟩
        · intro i d st hi hh
          dsimp only at hh ⊢
          by_cases hic : i = s.cyc
          · subst hic
            rw [upd_same] at hh
            cases hh
            refine ⟨by omega, hpp.2, ?_⟩
            rw [h.unopened p hpp.1]
            exact (hs p hpn hpp.2).init
          · rw [upd_ne _ _ hic] at hh
            obtain ⟨a, b, c⟩ := h.slot i d st hi hh
            exact ⟨by omega, b, c⟩
        · intro i j d a b hi hj ha hb
          dsimp only at ha hb
          by_cases hic : i = s.cyc
          · by_cases hjc : j = s.cyc
            · omega
            · subst hic
              rw [upd_same] at ha
              rw [upd_ne _ _ hjc] at hb
              cases ha
              have := (h.slot _ _ _ hj hb).1
              omega
          · rw [upd_ne _ _ hic] at ha
            by_cases hjc : j = s.cyc
            · subst hjc
              rw [upd_same] at hb
              cases hb
              have := (h.slot _ _ _ hi ha).1
              omega
            · rw [upd_ne _ _ hjc] at hb
              exact h.inj _ _ _ _ _ hi hj ha hb
        · intro d hd
          dsimp only at hd
          exact h.unopened d (by omega)
        · intro d hd hpd hno
          dsimp only at hd hno
          by_cases hc : d < s.pf
          · refine h.over d hc hpd ?_
            intro i st hi hh
            by_cases hic : i = s.cyc
            · subst hic; rw [hsl] at hh; cases hh
            · exact hno i st hi (by rw [upd_ne _ _ hic]; exact hh)
          · by_cases hdp : d = p
            · subst hdp
              exact absurd (upd_same _ _ _) (hno s.cyc _ h.cyc)
            · have := hbetween d (by omega) (by omega)
              rw [hpd] at this
              cases this
        · dsimp only
          rw [h.count, List.range_succ, List.filter_append]
          have : p = s.pf + (p - s.pf) := by omega
          conv_rhs => rw [this, List.range_add, List.filter_append]
          have h0 : List.filter present (List.map (fun x => s.pf + x) (List.range (p - s.pf))) = [] := by
            rw [List.filter_eq_nil_iff]
            intro x hx
            rw [List.mem_map] at hx
            obtain ⟨y, hy, rfl⟩ := hx
            rw [List.mem_range] at hy
            rw [hbetween _ (by omega) (by omega)]
            simp
          rw [h0, List.append_nil, ← this]
          simp [hpp.2]) (by dsimp only; omega)
      refine ⟨s', r, g1.mono ?_, g2⟩
      intro F e2 k hk
      obtain ⟨k, rfl⟩ : ∃ k', k = k' + 1 := ⟨k - 1, by omega⟩
      simp only [ilLoopSparse, hsl, if_pos hcn, hp']
      exact e2 k (by omega)

theorem sparse_nexts {f : IterFam α} {present : Nat → Bool} {n cycle : Nat} {xs : Nat → List (Py α)} {At : Nat → f.S → Nat → Prop}
    {Ck : Nat → f.C → Nat → Prop} (hs : ∀ d, d < n → present d = true → SimWhen (fun _ => false) (f.iter d) (xs d) true (At d) (Ck d))
    (hL : 0 < min cycle n) (hhole : ∃ d, d < n ∧ present d = false) : ∀ (k : Nat) (s : ILState f.S f.C) (out : List (Nat × Py α))
    (stopped : Bool), SparseInv present n (min cycle n) xs At s out → (stopped = true → s.slots s.cyc = none ∧ s.pf = n) →
    ∃ (more : List (Nat × Py α)) (stops : Nat) (s' : ILState f.S f.C), more.length + stops = k ∧ (stopped = true → more = []) ∧
      Ev (fun F => sparseNexts f present n cycle F k s = some (more.map (fun q => toRes q.2) ++ List.replicate stops .stop)) ∧
      SparseInv present n (min cycle n) xs At s' (out ++ more) ∧ (stopped = true ∨ 0 < stops → s'.slots s'.cyc = none ∧ s'.pf = n) := by
  intro k
  induction k with
  | zero =>
    intro s out stopped h hst
    refine ⟨[], 0, s, rfl, fun _ => rfl, Ev.of_forall (fun F => rfl), by rw [List.append_nil]; exact h, ?_⟩
    rintro (h | h)
    · exact hst h
    · omega
  | succ k ih =>
    intro s out stopped h hst
    have h' : SparseInv present n (min cycle n) xs At { s with started := true } out :=
      ⟨h.cyc, h.slot, h.inj, h.unopened, h.vals, h.mem, h.over, h.pf_le, h.count⟩
    obtain ⟨s1, r, g1, g2⟩ := sparse_loop hs hL hhole _ _ out h' (Nat.le_refl _)
    have g1' := Ev.ge (sparseW n (min cycle n) s.pf s.slots + 1) g1
    rcases g2 with ⟨d, q, rfl, hi⟩ | ⟨rfl, hi, e1, e2⟩
    · have hns : stopped = false := by
        cases stopped with
        | false => rfl
        | true =>
          exfalso
          obtain ⟨a, b⟩ := hst rfl
          obtain ⟨kk, hkk⟩ := g1'
          obtain ⟨hge, hall⟩ := hkk kk (Nat.le_refl _)
          have := hall (sparseW n (min cycle n) s.pf s.slots + 1) (Nat.le_refl _)
          rw [ilLoopSparse] at this
          simp only [a] at this
          have hnp : nextPresent present n s.pf = none := by
            unfold nextPresent
            rw [List.find?_eq_none]
            intro x hx
            rw [List.mem_range] at hx
            simp
            omega
          rw [hnp] at this
          split at this
          · cases q <;> cases this
          · have hcn := h.count
            obtain ⟨d0, hd0, hp0⟩ := hhole
            have h2 : ((List.range n).filter present).length < (List.range n).length := by
              rw [List.length_filter_lt_length_iff_exists]
              exact ⟨d0, List.mem_range.2 hd0, by simp [hp0]⟩
            rw [List.length_range] at h2
            rw [b] at hcn
            omega
      subst hns
      obtain ⟨more, stops, s', a1, a2, a3, a4, a5⟩ := ih s1 _ false hi (by intro hc; cases hc)
      refine ⟨(d, q) :: more, stops, s', by simp; omega, (by intro hc; cases hc), ?_, ?_, a5⟩
      · refine g1'.mono₂ a3 ?_
        intro F e1 e2
        have e3 := e1.2 F e1.1
        simp only [sparseNexts, e3, e2]
        rfl
      · rw [List.append_assoc] at a4
        exact a4
    · obtain ⟨more, stops, s', a1, a2, a3, a4, a5⟩ := ih s1 _ true hi (fun _ => ⟨e1, e2⟩)
      have hm := a2 rfl
      subst hm
      refine ⟨[], stops + 1, s', by simp at a1 ⊢; omega, fun _ => rfl, ?_, a4, fun _ => a5 (Or.inl rfl)⟩
      refine g1'.mono₂ a3 ?_
      intro F e1 e2
      have e3 := e1.2 F e1.1
      simp only [sparseNexts, e3, e2]
      rfl

/-- C82 as far as it goes.  When entries were filtered out, what comes out is an interleaving of *beginnings* of the streams of
the entries that are left, each in its order and nothing else; and when `StopIteration` is raised, fewer than `cycle` of
them have not been read to their end.  What is missing is that none of them is cut off: false of the code,
`interleave_filtered_loses`. -/
theorem interleave_filtered_partial {f : IterFam α} {present : Nat → Bool} {n cycle : Nat} {xs : Nat → List (Py α)}
    (hcyc : 0 < cycle) (hhole : ∃ d, d < n ∧ present d = false)
    (h : ∀ d, d < n → present d = true → ResumesFresh (f.iter d) (xs d) true) (k : Nat) :
    ∃ (tagged : List (Nat × Py α)) (stops : Nat), tagged.length + stops = k ∧
      Ev (fun F => sparseNexts f present n cycle F k (ilInit f.S f.C) =
        some (tagged.map (fun q => toRes q.2) ++ List.replicate stops .stop)) ∧
      (∀ d r, (d, r) ∈ tagged → d < n ∧ present d = true) ∧
      (∀ d, d < n → (tagged.filter (fun q => q.1 = d)).map (·.2) <+: xs d) ∧
      (0 < stops → ((List.range n).filter (fun d => present d &&
        decide ((tagged.filter (fun q => q.1 = d)).length < (xs d).length))).length < cycle) := by
  have hch : ∀ d, ∃ p : (f.S → Nat → Prop) × (f.C → Nat → Prop), d < n → present d = true →
      SimWhen (fun _ => false) (f.iter d) (xs d) true p.1 p.2 := by
    intro d
    by_cases hd : d < n ∧ present d = true
    · obtain ⟨A, C, hs⟩ := h d hd.1 hd.2
      exact ⟨(A, C), fun _ _ => hs⟩
    · exact ⟨(fun _ _ => False, fun _ _ => False), fun h1 h2 => absurd ⟨h1, h2⟩ hd⟩
  have hs : ∀ d, d < n → present d = true → SimWhen (fun _ => false) (f.iter d) (xs d) true (hch d).choose.1 (hch d).choose.2 :=
    fun d => (hch d).choose_spec
  have hL : 0 < min cycle n := by
    obtain ⟨d, hd, _⟩ := hhole
    omega
  obtain ⟨tagged, stops, s', a1, _, a3, a4, a5⟩ := sparse_nexts (At := fun d => (hch d).choose.1) (Ck := fun d => (hch d).choose.2)
    hs hL hhole k (ilInit f.S f.C) [] false
    ⟨hL, fun i d st _ hh => (by cases hh), fun i j d a b _ _ hh _ => (by cases hh), fun d _ => rfl, fun d _ => List.nil_prefix,
      fun d r hm => (by cases hm), fun d hd => (by cases hd), Nat.zero_le _, rfl⟩ (by intro hc; cases hc)
  rw [List.nil_append] at a4
  refine ⟨tagged, stops, a1, a3, a4.mem, a4.vals, ?_⟩
  intro hst
  obtain ⟨b1, b2⟩ := a5 (Or.inr hst)
  have hsub : ((List.range n).filter (fun d => present d &&
        decide ((tagged.filter (fun q => q.1 = d)).length < (xs d).length))) ⊆
      ((List.range (min cycle n)).erase s'.cyc).filterMap (fun i => (s'.slots i).map (·.1)) := by
    intro d hd
    rw [List.mem_filter, List.mem_range, Bool.and_eq_true, decide_eq_true_eq] at hd
    obtain ⟨hdn, hpd, hlt⟩ := hd
    by_cases hex : ∃ i st, i < min cycle n ∧ s'.slots i = some (d, st)
    · obtain ⟨i, st, hi, hsl⟩ := hex
      rw [List.mem_filterMap]
      refine ⟨i, ?_, by rw [hsl]; rfl⟩
      rw [List.mem_erase_of_ne]
      · exact List.mem_range.2 hi
      · rintro rfl
        rw [b1] at hsl
        cases hsl
    · have := a4.over d (by omega) hpd (fun i st hi hsl => hex ⟨i, st, hi, hsl⟩)
      unfold readOf at this
      omega
  have hnd : ((List.range n).filter (fun d => present d &&
        decide ((tagged.filter (fun q => q.1 = d)).length < (xs d).length))).Nodup := List.Nodup.filter _ List.nodup_range
  have h1 := (hnd.subperm hsub).length_le
  have h2 := List.length_filterMap_le (fun i => (s'.slots i).map (·.1)) ((List.range (min cycle n)).erase s'.cyc)
  rw [List.length_erase_of_mem (List.mem_range.2 a4.cyc), List.length_range] at h2
  omega

/-- With cycle length 1 every entry that is left is read to its end before `StopIteration`. -/
theorem interleave_filtered_chained {f : IterFam α} {present : Nat → Bool} {n : Nat} {xs : Nat → List (Py α)}
    (hhole : ∃ d, d < n ∧ present d = false) (h : ∀ d, d < n → present d = true → ResumesFresh (f.iter d) (xs d) true) (k : Nat) :
    ∃ (tagged : List (Nat × Py α)) (stops : Nat), tagged.length + stops = k ∧
      Ev (fun F => sparseNexts f present n 1 F k (ilInit f.S f.C) =
        some (tagged.map (fun q => toRes q.2) ++ List.replicate stops .stop)) ∧
      (∀ d r, (d, r) ∈ tagged → d < n ∧ present d = true) ∧
      (0 < stops → ∀ d, d < n → present d = true → (tagged.filter (fun q => q.1 = d)).map (·.2) = xs d) := by
  obtain ⟨tagged, stops, a1, a2, a3, a4, a5⟩ := interleave_filtered_partial (by decide : 0 < 1) hhole h k
  refine ⟨tagged, stops, a1, a2, a3, ?_⟩
  intro hst d hd hp
  have h0 := a5 hst
  have hnil := List.eq_nil_of_length_eq_zero (Nat.lt_one_iff.1 h0)
  rw [List.filter_eq_nil_iff] at hnil
  have := hnil d (List.mem_range.2 hd)
  simp [hp] at this
  refine (a4 d hd).eq_of_length_le ?_
  rw [List.length_map]
  exact this

/-- With nothing filtered out this is the iterator of C26. -/
theorem interleave_nothing_filtered {f : IterFam α} {n cycle F k : Nat} (hn : 0 < n) (hcyc : 0 < cycle) :
    sparseNexts f (fun _ => true) n cycle F k (ilInit f.S f.C) =
      implRun (interleaveIter f n cycle false) F (interleaveIter f n cycle false).init [] (List.replicate k .next) := by
  suffices hgen : ∀ (s : ILState f.S f.C), (∀ d, s.future d = none) → s.pf ≤ n →
      sparseNexts f (fun _ => true) n cycle F k s =
        implRun (interleaveIter f n cycle false) F s [] (List.replicate k .next) from
    hgen _ (fun _ => rfl) (Nat.zero_le _)
  induction k with
  | zero => intro s _ _; rfl
  | succ k ih =>
    intro s hf hp
    have e0 : ∀ (s : (interleaveIter f n cycle false).S) (ops : List Op), implRun (interleaveIter f n cycle false) F s [] (.next :: ops) =
        match (interleaveIter f n cycle false).next F s with
        | none => none
        | some (s, r) => (implRun (interleaveIter f n cycle false) F s [] ops).map (r :: ·) := by
      intro s ops
      rw [implRun.eq_def]
      dsimp only
      cases (interleaveIter f n cycle false).next F s with
      | none => rfl
      | some q =>
        simp only [Option.bind_eq_bind, Option.bind_some]
        cases implRun (interleaveIter f n cycle false) F q.1 [] ops <;> rfl
    refine Eq.trans ?_ (e0 s _).symm
    rw [sparseNexts, ilLoopSparse_all F { s with started := true } hf hp]
    have e : (interleaveIter f n cycle false).next F s = ilLoop f n (min cycle n) false F F { s with started := true } := by
      exact if_neg (by omega : ¬ min cycle n = 0)
    have hkeep : ∀ (j : Nat) (s s' : ILState f.S f.C) (r : Res α), (∀ d, s.future d = none) → s.pf ≤ n →
        ilLoopSparse f (fun _ => true) n (min cycle n) F j s = some (s', r) → (∀ d, s'.future d = none) ∧ s'.pf ≤ n := by
      intro j
      induction j with
      | zero => intro s s' r _ _ h; cases h
      | succ j ihj =>
        intro s s' r hf hp h
        rw [ilLoopSparse] at h
        split at h
        · split at h
          · cases h
          · cases h; exact ⟨hf, hp⟩
          · cases h; exact ⟨hf, hp⟩
          · refine ihj _ _ _ ?_ ?_ h
            · exact hf
            · exact hp
        · split at h
          · rw [nextPresent_all] at h
            by_cases hpn : s.pf < n
            · rw [if_pos hpn] at h
              refine ihj _ _ _ ?_ ?_ h
              · exact hf
              · dsimp only; omega
            · rw [if_neg hpn] at h
              cases h
              exact ⟨hf, Nat.le_refl _⟩
          · split at h
            · refine ihj _ _ _ ?_ ?_ h
              · exact hf
              · exact hp
            · cases h; exact ⟨hf, hp⟩
    cases hl : ilLoop f n (min cycle n) false F F { s with started := true } with
    | none =>
      rw [hl] at e
      simp only [e]
    | some q =>
      obtain ⟨s', r⟩ := q
      rw [hl] at e
      rw [← ilLoopSparse_all F { s with started := true } hf hp] at hl
      obtain ⟨h1, h2⟩ := hkeep _ { s with started := true } _ _ hf hp hl
      simp only [e]
      rw [ih s' h1 h2]

/-- C82 is false: of four entries the second was filtered out; with cycle length 4 reading ends after the first element of
each of the other three, and five elements are lost. -/
theorem interleave_filtered_loses : ∃ (xs : Nat → List (Py Nat)) (present : Nat → Bool),
    (∀ F, 9 ≤ F → sparseNexts (listFam xs) present 4 4 F 6 (ilInit _ _) =
      some [.item 1, .item 100, .item 1000, .stop, .stop, .stop]) ∧
    present 0 = true ∧ present 1 = false ∧ present 2 = true ∧ present 3 = true ∧
    xs 0 = [.ok 1, .ok 2, .ok 3] ∧ xs 2 = [.ok 100, .ok 101] ∧ xs 3 = [.ok 1000, .ok 1001, .ok 1002] := by
  refine ⟨fun d => if d = 0 then [.ok 1, .ok 2, .ok 3] else if d = 2 then [.ok 100, .ok 101] else [.ok 1000, .ok 1001, .ok 1002],
    fun d => d != 1, ?_, by decide, by decide, by decide, by decide, rfl, rfl, rfl⟩
  intro F hF
  obtain ⟨F, rfl⟩ : ∃ F', F = F' + 9 := ⟨F - 9, by omega⟩
  rfl

example : ∃ (tagged : List (Nat × Py Nat)) (stops : Nat), tagged.length + stops = 9 ∧
    Ev (fun F => sparseNexts (listFam threeLists) (fun d => d != 1) 3 2 F 9 (ilInit _ _) =
      some (tagged.map (fun q => toRes q.2) ++ List.replicate stops .stop)) ∧
    (∀ d, d < 3 → (tagged.filter (fun q => q.1 = d)).map (·.2) <+: threeLists d) := by
  obtain ⟨t, k, h1, h2, _, h3, _⟩ := interleave_filtered_partial (f := listFam threeLists) (present := fun d => d != 1) (n := 3) (cycle := 2)
    (by decide) ⟨1, by decide, by decide⟩ (fun d _ _ => (listFam_resumes threeLists d).fresh) 9
  exact ⟨t, k, h1, h2, h3⟩

example : ∃ d, d < 3 ∧ (fun d => d != 1) d = false := ⟨1, by decide, by decide⟩

end Grain
