import Verif.Stack.Loader
import Verif.Stack.InterleaveStreams
import Verif.Loader.Sim
import Mathlib.Data.Fintype.Card
/-
Lemmas for C105: the interleave of as many datasets as its cycle length, also from states in which used-up datasets are open
again.
-/
namespace Grain

section
variable {α : Type} {w : Nat} (vs : Fin (w + 1) → List α)

theorem wpos (w : Nat) : 0 < w + 1 := Nat.succ_pos w

/-- How often worker `i` was asked in the first `q` turns. -/
def askedOf (w q : Nat) (i : Fin (w + 1)) : Nat := (q + w - i.val) / (w + 1)

/-- What turn `t` gives. -/
def turnOf (t : Nat) : Option α := (vs ⟨t % (w + 1), Nat.mod_lt _ (wpos w)⟩)[t / (w + 1)]?

/-- Number of elements of the first `q` turns. -/
def turnsLen (q : Nat) : Nat := ((List.range q).filterMap (turnOf vs)).length

def turnsStream (K m : Nat) : Option α := ((List.range (K * (w + 1))).filterMap (turnOf vs))[m]?

theorem askedOf_self (q : Nat) : askedOf w q ⟨q % (w + 1), Nat.mod_lt _ (wpos w)⟩ = q / (w + 1) := by
  unfold askedOf
  dsimp only
  have h := Nat.div_add_mod q (w + 1)
  have hlt := Nat.mod_lt q (wpos w)
  have : q + w - q % (w + 1) = w + (w + 1) * (q / (w + 1)) := by omega
  rw [this, Nat.add_mul_div_left _ _ (wpos w), Nat.div_eq_of_lt (by omega), Nat.zero_add]

theorem askedOf_succ (q : Nat) (i : Fin (w + 1)) :
    askedOf w (q + 1) i = if i.val = q % (w + 1) then askedOf w q i + 1 else askedOf w q i := by
  unfold askedOf
  have h := Nat.div_add_mod q (w + 1)
  have hlt := Nat.mod_lt q (wpos w)
  have hi := i.isLt
  generalize q / (w + 1) = k at h
  generalize q % (w + 1) = r at h hlt
  split
  · have e1 : q + 1 + w - i.val = 0 + (w + 1) * (k + 1) := by rw [Nat.mul_add]; omega
    have e2 : q + w - i.val = w + (w + 1) * k := by omega
    rw [e1, e2, Nat.add_mul_div_left _ _ (wpos w), Nat.add_mul_div_left _ _ (wpos w), Nat.zero_div,
      Nat.div_eq_of_lt (by omega : w < w + 1)]
    omega
  · rename_i hne
    by_cases hlt' : i.val < r
    · have e1 : q + 1 + w - i.val = (r - i.val) + (w + 1) * (k + 1) := by rw [Nat.mul_add]; omega
      have e2 : q + w - i.val = (r - i.val - 1) + (w + 1) * (k + 1) := by rw [Nat.mul_add]; omega
      rw [e1, e2, Nat.add_mul_div_left _ _ (wpos w), Nat.add_mul_div_left _ _ (wpos w),
        Nat.div_eq_of_lt (by omega), Nat.div_eq_of_lt (by omega)]
    · have e1 : q + 1 + w - i.val = (r + 1 + w - i.val) + (w + 1) * k := by omega
      have e2 : q + w - i.val = (r + w - i.val) + (w + 1) * k := by omega
      rw [e1, e2, Nat.add_mul_div_left _ _ (wpos w), Nat.add_mul_div_left _ _ (wpos w),
        Nat.div_eq_of_lt (by omega), Nat.div_eq_of_lt (by omega)]

theorem askedOf_zero (i : Fin (w + 1)) : askedOf w 0 i = 0 := by
  unfold askedOf
  exact Nat.div_eq_of_lt (by omega)

theorem askedOf_first {q : Nat} {i : Fin (w + 1)} (h : q ≤ i.val) : askedOf w q i = 0 := by
  unfold askedOf
  exact Nat.div_eq_of_lt (by omega)

theorem turnsLen_some {q : Nat} {a : α} (h : turnOf vs q = some a) : turnsLen vs (q + 1) = turnsLen vs q + 1 := by
  unfold turnsLen
  rw [List.range_succ, List.filterMap_append]
  simp [h]

theorem turnsLen_none {q : Nat} (h : turnOf vs q = none) : turnsLen vs (q + 1) = turnsLen vs q := by
  unfold turnsLen
  rw [List.range_succ, List.filterMap_append]
  simp [h]

theorem turnsStream_some {K q : Nat} (hK : ∀ i, (vs i).length ≤ K) {a : α} (h : turnOf vs q = some a) :
    turnsStream vs K (turnsLen vs q) = some a := by
  have hq : q < K * (w + 1) := by
    obtain ⟨hlt, -⟩ := List.getElem?_eq_some_iff.1 h
    have := hK ⟨q % (w + 1), Nat.mod_lt _ (wpos w)⟩
    exact (Nat.div_lt_iff_lt_mul (wpos w)).1 (by omega)
  unfold turnsStream turnsLen
  obtain ⟨d, hd⟩ : ∃ d, K * (w + 1) = q + (d + 1) := ⟨K * (w + 1) - q - 1, by omega⟩
  rw [hd, List.range_add, List.filterMap_append, List.getElem?_append_right (Nat.le_refl _), Nat.sub_self, List.range_succ_eq_map]
  simp [h]

theorem turnsStream_none {K q : Nat} (h : ∀ t, q ≤ t → turnOf vs t = none) : turnsStream vs K (turnsLen vs q) = none := by
  unfold turnsStream turnsLen
  rw [List.getElem?_eq_none_iff]
  by_cases hq : K * (w + 1) ≤ q
  · obtain ⟨d, hd⟩ : ∃ d, q = K * (w + 1) + d := ⟨q - K * (w + 1), by omega⟩
    rw [hd, List.range_add, List.filterMap_append, List.length_append]
    omega
  · obtain ⟨d, hd⟩ : ∃ d, K * (w + 1) = q + d := ⟨K * (w + 1) - q, by omega⟩
    rw [hd, List.range_add, List.filterMap_append, List.length_append]
    have : ((List.range d).map (fun x => q + x)).filterMap (turnOf vs) = [] := by
      rw [List.filterMap_eq_nil_iff]
      intro t ht
      obtain ⟨e, -, rfl⟩ := List.mem_map.1 ht
      exact h _ (by omega)
    rw [this]
    simp

/-- Slots at turn `q`. -/
structure LdSlots (q : Nat) (l : IlLoc (w + 1) w) : Prop where
  cyc : l.cyc.val = q % (w + 1)
  unused : ∀ i : Fin (w + 1), l.nextDs ≤ i.val → l.slots i = none ∧ l.exh i = false
  used : ∀ i : Fin (w + 1), i.val < l.nextDs → l.slots i = some i ∨ (l.slots i = none ∧ l.exh i = true ∧ (vs i).length ≤ askedOf w q i)

/-- Between two calls. -/
def LdLoc (q : Nat) (l : IlLoc (w + 1) w) : Prop := LdSlots vs q l ∧ (l.nextDs = w + 1 ∨ (l.nextDs = q ∧ q < w + 1))

/-- About to ask. -/
def LdAsk (q : Nat) (l : IlLoc (w + 1) w) : Prop :=
  LdSlots vs q l ∧ l.slots l.cyc = some l.cyc ∧ (l.nextDs = w + 1 ∨ (l.nextDs = q + 1 ∧ q < w + 1))

def LdPos (q : Nat) (p : Fin (w + 1) → Nat) : Prop := ∀ i, p i = min (askedOf w q i) (vs i).length

def ldAt (m : Nat) (p : Fin (w + 1) → Nat) (l : (ilTrans (α := α) (w + 1) w).L) : Prop :=
  ∃ q, m = turnsLen vs q ∧ LdPos vs q p ∧ LdLoc (w := w) vs q l

def LdOpen (l : IlLoc (w + 1) w) (i : Fin (w + 1)) : Prop := l.slots i ≠ none ∨ l.nextDs ≤ i.val

theorem cyc_succ (q : Nat) (c : Fin (w + 1)) (h : c.val = q % (w + 1)) : (c + 1).val = (q + 1) % (w + 1) := by
  rw [Fin.val_add, h]
  rcases w with _ | w
  · simp [Nat.mod_one]
  · rw [Fin.val_one, Nat.mod_add_mod]

theorem turn_over {q : Nat} {l : IlLoc (w + 1) w} (hl : LdSlots vs q l) (h : l.slots l.cyc = none) (hn : l.cyc.val < l.nextDs) :
    turnOf vs q = none ∧ (vs l.cyc).length ≤ askedOf w q l.cyc := by
  have hc : l.cyc = ⟨q % (w + 1), Nat.mod_lt _ (wpos w)⟩ := Fin.ext hl.cyc
  rcases hl.used l.cyc hn with h1 | ⟨-, -, h1⟩
  · rw [h] at h1; cases h1
  · refine ⟨?_, h1⟩
    rw [hc, askedOf_self] at h1
    unfold turnOf
    rw [List.getElem?_eq_none_iff]
    exact h1

theorem ldSlots_succ {q : Nat} {l : IlLoc (w + 1) w} (hl : LdSlots vs q l) : LdSlots vs (q + 1) { l with cyc := l.cyc + 1 } := by
  refine ⟨cyc_succ q _ hl.cyc, hl.unused, ?_⟩
  intro i hi
  rcases hl.used i hi with h | ⟨h1, h2, h3⟩
  · exact Or.inl h
  · refine Or.inr ⟨h1, h2, ?_⟩
    rw [askedOf_succ]
    split <;> omega

theorem ldPos_succ_over {q : Nat} {p : Fin (w + 1) → Nat} (hp : LdPos vs q p)
    (h : ∀ i : Fin (w + 1), i.val = q % (w + 1) → (vs i).length ≤ askedOf w q i) : LdPos vs (q + 1) p := by
  intro i
  rw [hp i, askedOf_succ]
  split
  · have := h i ‹_›
    omega
  · rfl

theorem ldSeek {β : Type} : ∀ (k q : Nat) (l : IlLoc (w + 1) w) (p : Fin (w + 1) → Nat), 0 < k → LdLoc vs q l → LdPos vs q p →
    ((∀ i, l.slots i = none) ∨ ∃ j, j < k ∧ l.slots ⟨(q + j) % (w + 1), Nat.mod_lt _ (wpos w)⟩ ≠ none) →
    (∃ q' l', ilSeek (β := β) k l = .inl (l'.cyc, l') ∧ LdAsk vs q' l' ∧ LdPos vs q' p ∧ turnsLen vs q' = turnsLen vs q ∧
      ∀ i, LdOpen l' i ↔ LdOpen l i) ∨
    (ilSeek (β := β) k l = .inr (none, l) ∧ l.nextDs = w + 1 ∧ ∀ i, l.slots i = none) := by
  intro k
  induction k with
  | zero => intro q l p h; omega
  | succ k ih =>
    intro q l p _ hl hp hop
    unfold ilSeek
    cases hs : l.slots l.cyc with
    | some d =>
      left
      have hd : d = l.cyc := by
        by_cases hlt : l.cyc.val < l.nextDs
        · rcases hl.1.used _ hlt with h | ⟨h, -⟩
          · rw [hs] at h; cases h; rfl
          · rw [hs] at h; cases h
        · rw [(hl.1.unused _ (by omega)).1] at hs; cases hs
      subst hd
      refine ⟨q, l, rfl, ⟨hl.1, hs, ?_⟩, hp, rfl, fun i => Iff.rfl⟩
      rcases hl.2 with h | ⟨h1, h2⟩
      · exact Or.inl h
      · exfalso
        have hc : l.cyc.val = q := by rw [hl.1.cyc, Nat.mod_eq_of_lt h2]
        rw [(hl.1.unused l.cyc (by omega)).1] at hs
        cases hs
    | none =>
      dsimp only
      by_cases hn : l.nextDs < w + 1
      · left
        have hq : l.nextDs = q := by rcases hl.2 with h | ⟨h1, h2⟩ <;> omega
        have hc : l.cyc.val = l.nextDs := by rw [hl.1.cyc, ← hq, Nat.mod_eq_of_lt hn]
        have hc' : (⟨l.nextDs, hn⟩ : Fin (w + 1)) = l.cyc := Fin.ext hc.symm
        rw [dif_pos hn, hc']
        refine ⟨q, { l with slots := Function.update l.slots l.cyc (some l.cyc)
                            exh := Function.update l.exh l.cyc false
                            nextDs := l.nextDs + 1 }, rfl, ⟨⟨hl.1.cyc, ?_, ?_⟩, by simp, Or.inr ⟨by dsimp only; omega, by omega⟩⟩, hp, rfl, ?_⟩
        · intro i hi
          dsimp only at hi ⊢
          have hne : i ≠ l.cyc := by rintro rfl; omega
          rw [Function.update_of_ne hne, Function.update_of_ne hne]
          exact hl.1.unused i (by omega)
        · intro i hi
          dsimp only at hi ⊢
          by_cases hne : i = l.cyc
          · subst hne
            left
            rw [Function.update_self]
          · have : i.val ≠ l.cyc.val := fun h => hne (Fin.ext h)
            rw [Function.update_of_ne hne, Function.update_of_ne hne]
            exact hl.1.used i (by omega)
        · intro i
          unfold LdOpen
          dsimp only
          by_cases hne : i = l.cyc
          · subst hne
            simp [hc]
          · have : i.val ≠ l.cyc.val := fun h => hne (Fin.ext h)
            rw [Function.update_of_ne hne]
            constructor
            · rintro (h | h)
              · exact Or.inl h
              · exact Or.inr (by omega)
            · rintro (h | h)
              · exact Or.inl h
              · exact Or.inr (by omega)
      · have hnd : l.nextDs = w + 1 := by rcases hl.2 with h | ⟨h1, h2⟩ <;> omega
        rw [dif_neg hn]
        obtain ⟨ht, hlen⟩ := turn_over vs hl.1 hs (by have := l.cyc.isLt; omega)
        by_cases hany : (List.finRange (w + 1)).any (fun i => (l.slots i).isSome) = true
        · rw [if_pos hany]
          obtain ⟨i0, -, hi0⟩ := List.any_eq_true.1 hany
          rcases hop with hall | ⟨j, hj, hsj⟩
          · rw [hall i0] at hi0; cases hi0
          · have hj0 : j ≠ 0 := by
              rintro rfl
              apply hsj
              rw [← hs]
              congr 1
              exact Fin.ext (by simp [hl.1.cyc])
            rcases ih (q + 1) { l with cyc := l.cyc + 1 } p (by omega) ⟨ldSlots_succ vs hl.1, Or.inl hnd⟩
              (ldPos_succ_over vs hp (fun i hi => by
                have : i = l.cyc := Fin.ext (by rw [hi, hl.1.cyc])
                rw [this]; exact hlen))
              (Or.inr ⟨j - 1, by omega, by
                have : q + 1 + (j - 1) = q + j := by omega
                dsimp only
                simp only [this]
                exact hsj⟩) with ⟨q', l', h1, h2, h3, h4, h5⟩ | ⟨-, -, h3⟩
            · exact Or.inl ⟨q', l', h1, h2, h3, by rw [h4, turnsLen_none vs ht], h5⟩
            · exact absurd (h3 i0) (by intro h; dsimp only at h; rw [h] at hi0; cases hi0)
        · rw [if_neg hany]
          right
          refine ⟨rfl, hnd, ?_⟩
          intro i
          cases h : l.slots i with
          | none => rfl
          | some d => exact absurd (List.any_eq_true.2 ⟨i, List.mem_finRange i, by simp [h]⟩) hany

/-- The loop finds an open slot within a round. -/
theorem open_ahead (q : Nat) (l : IlLoc (w + 1) w) :
    (∀ i, l.slots i = none) ∨ ∃ j, j < w + 1 ∧ l.slots ⟨(q + j) % (w + 1), Nat.mod_lt _ (wpos w)⟩ ≠ none := by
  by_cases h : ∀ i, l.slots i = none
  · exact Or.inl h
  · right
    simp only [not_forall] at h
    obtain ⟨i, hi⟩ := h
    refine ⟨(i.val + (w + 1) - q % (w + 1)) % (w + 1), Nat.mod_lt _ (wpos w), ?_⟩
    have : (q + (i.val + (w + 1) - q % (w + 1)) % (w + 1)) % (w + 1) = i.val := by
      have hlt := Nat.mod_lt q (wpos w)
      have hd := Nat.div_add_mod q (w + 1)
      rw [Nat.add_mod_mod]
      have e : q + (i.val + (w + 1) - q % (w + 1)) = i.val + (w + 1) * (q / (w + 1) + 1) := by rw [Nat.mul_add]; omega
      rw [e, Nat.add_mul_mod_self_left, Nat.mod_eq_of_lt i.isLt]
    simp only [this]
    exact hi

theorem all_over {q : Nat} {l : IlLoc (w + 1) w} (hl : LdSlots vs q l) (hn : l.nextDs = w + 1) (h : ∀ i, l.slots i = none) :
    ∀ t, q ≤ t → turnOf vs t = none := by
  intro t ht
  have key : ∀ d, ∀ i : Fin (w + 1), (vs i).length ≤ askedOf w (q + d) i := by
    intro d
    induction d with
    | zero =>
      intro i
      rcases hl.used i (by omega) with h1 | ⟨-, -, h1⟩
      · rw [h i] at h1; cases h1
      · exact h1
    | succ d ih =>
      intro i
      rw [← Nat.add_assoc, askedOf_succ]
      have := ih i
      split <;> omega
  obtain ⟨d, rfl⟩ : ∃ d, t = q + d := ⟨t - q, by omega⟩
  have := key d ⟨(q + d) % (w + 1), Nat.mod_lt _ (wpos w)⟩
  rw [askedOf_self] at this
  unfold turnOf
  rw [List.getElem?_eq_none_iff]
  exact this

theorem nextPos_some {x : Nat → Option α} {n : Nat} {a : α} (h : x n = some a) : nextPos x n = n + 1 := by
  unfold nextPos; rw [h]

theorem nextPos_none {x : Nat → Option α} {n : Nat} (h : x n = none) : nextPos x n = n := by
  unfold nextPos; rw [h]

open Classical in
theorem ld_eval {K : Nat} (hK : ∀ i, (vs i).length ≤ K) : ∀ (c q : Nat) (l : IlLoc (w + 1) w) (p : Fin (w + 1) → Nat), LdAsk vs q l →
    LdPos vs q p → (Finset.univ.filter (fun i => LdOpen l i)).card ≤ c →
    ∃ d p' l', MtEval (ilTrans (α := α) (w + 1) w) (fun i m => (vs i)[m]?) d l.cyc l p (turnsStream vs K (turnsLen vs q)) p' l' ∧
      ldAt vs (nextPos (turnsStream vs K) (turnsLen vs q)) p' l' := by
  intro c
  induction c with
  | zero =>
    intro q l p hl hp hc
    exfalso
    have hmem : l.cyc ∈ Finset.univ.filter (fun i => LdOpen l i) := by
      rw [Finset.mem_filter]
      exact ⟨Finset.mem_univ _, Or.inl (by rw [hl.2.1]; simp)⟩
    have := Finset.card_pos.2 ⟨_, hmem⟩
    omega
  | succ c ih =>
    intro q l p hl hp hc
    have hcyc : l.cyc = ⟨q % (w + 1), Nat.mod_lt _ (wpos w)⟩ := Fin.ext hl.1.cyc
    have hpc : p l.cyc = min (q / (w + 1)) (vs l.cyc).length := by rw [hp, hcyc, askedOf_self]
    have hturn : turnOf vs q = (vs l.cyc)[q / (w + 1)]? := by rw [hcyc]; rfl
    cases ht : turnOf vs q with
    | some a =>
      have hlt : q / (w + 1) < (vs l.cyc).length := by
        rw [hturn] at ht
        exact (List.getElem?_eq_some_iff.1 ht).1
      have hpe : p l.cyc = q / (w + 1) := by omega
      have hx : (vs l.cyc)[p l.cyc]? = some a := by rw [hpe, ← hturn, ht]
      have hy := turnsStream_some vs hK ht
      refine ⟨1, _, { l with cyc := l.cyc + 1 }, .last ?_, ?_⟩
      · rw [hy]
        show (ilTrans (α := α) (w + 1) w).resume l.cyc l ((vs l.cyc)[p l.cyc]?) = _
        rw [hx]
        rfl
      · refine ⟨q + 1, ?_, ?_, ⟨ldSlots_succ vs hl.1, ?_⟩⟩
        · rw [nextPos_some hy, turnsLen_some vs ht]
        · intro i
          rw [askedOf_succ]
          by_cases hi : i = l.cyc
          · subst hi
            rw [Function.update_self, nextPos_some (x := fun m => (vs l.cyc)[m]?) hx, if_pos hl.1.cyc, hpe]
            have : askedOf w q l.cyc = q / (w + 1) := by rw [hcyc, askedOf_self]
            omega
          · have : i.val ≠ q % (w + 1) := fun h => hi (Fin.ext (by rw [h, hl.1.cyc]))
            rw [Function.update_of_ne hi, if_neg this]
            exact hp i
        · dsimp only
          rcases hl.2.2 with h | ⟨h1, h2⟩
          · exact Or.inl h
          · by_cases h3 : q + 1 = w + 1
            · exact Or.inl (by omega)
            · exact Or.inr ⟨h1, by omega⟩
    | none =>
      have hge : (vs l.cyc).length ≤ q / (w + 1) := by
        rw [hturn] at ht
        exact List.getElem?_eq_none_iff.1 ht
      have hx : (vs l.cyc)[p l.cyc]? = none := by
        rw [List.getElem?_eq_none_iff]
        omega
      have hself : askedOf w q l.cyc = q / (w + 1) := by rw [hcyc, askedOf_self]
      have hupd : Function.update p l.cyc (nextPos (fun m => (vs l.cyc)[m]?) (p l.cyc)) = p := by
        rw [nextPos_none (x := fun m => (vs l.cyc)[m]?) hx, Function.update_eq_self]
      -- the slot is closed
      let l1 : IlLoc (w + 1) w := { l with slots := Function.update l.slots l.cyc none
                                           exh := Function.update l.exh l.cyc true
                                           cyc := l.cyc + 1 }
      have hcn : l.cyc.val < l.nextDs := by
        have h1 := l.cyc.isLt
        rcases hl.2.2 with h | ⟨h2, h3⟩
        · omega
        · have := hl.1.cyc
          rw [Nat.mod_eq_of_lt h3] at this
          omega
      have hl1 : LdLoc vs (q + 1) l1 := by
        refine ⟨⟨cyc_succ q _ hl.1.cyc, ?_, ?_⟩, ?_⟩
        · intro i hi
          have hne : i ≠ l.cyc := by
            rintro rfl
            have : l.nextDs ≤ l.cyc.val := hi
            omega
          show Function.update l.slots l.cyc none i = none ∧ Function.update l.exh l.cyc true i = false
          rw [Function.update_of_ne hne, Function.update_of_ne hne]
          exact hl.1.unused i hi
        · intro i hi
          show Function.update l.slots l.cyc none i = some i ∨ (Function.update l.slots l.cyc none i = none ∧
            Function.update l.exh l.cyc true i = true ∧ _)
          by_cases hne : i = l.cyc
          · subst hne
            right
            rw [Function.update_self, Function.update_self]
            refine ⟨rfl, rfl, ?_⟩
            rw [askedOf_succ]
            split <;> omega
          · rw [Function.update_of_ne hne, Function.update_of_ne hne]
            exact (ldSlots_succ vs hl.1).used i hi
        · show l.nextDs = w + 1 ∨ (l.nextDs = q + 1 ∧ q + 1 < w + 1)
          rcases hl.2.2 with h | ⟨h1, h2⟩
          · exact Or.inl h
          · by_cases h3 : q + 1 = w + 1
            · exact Or.inl (by omega)
            · exact Or.inr ⟨h1, by omega⟩
      have hp1 : LdPos vs (q + 1) p := ldPos_succ_over vs hp (fun i hi => by
        have : i = l.cyc := Fin.ext (by rw [hi, hl.1.cyc])
        rw [this]; omega)
      have hlen := turnsLen_none vs ht
      have hres : (ilTrans (α := α) (w + 1) w).resume l.cyc l ((vs l.cyc)[p l.cyc]?) = ilSeek (w + 1) l1 := by
        rw [hx]; rfl
      rcases ldSeek vs (β := α) (w + 1) (q + 1) l1 p (wpos w) hl1 hp1 (open_ahead (q + 1) l1) with
        ⟨q', l', h1, h2, h3, h4, h5⟩ | ⟨h1, h2, h3⟩
      · have hcard : (Finset.univ.filter (fun i => LdOpen l' i)).card ≤ c := by
          have hsub : Finset.univ.filter (fun i => LdOpen l' i) ⊂ Finset.univ.filter (fun i => LdOpen l i) := by
            rw [Finset.ssubset_iff_of_subset]
            · refine ⟨l.cyc, ?_, ?_⟩
              · rw [Finset.mem_filter]
                exact ⟨Finset.mem_univ _, Or.inl (by rw [hl.2.1]; simp)⟩
              · rw [Finset.mem_filter]
                rintro ⟨-, h⟩
                rw [h5] at h
                rcases h with h | h
                · exact h (Function.update_self _ _ _)
                · have : l.nextDs ≤ l.cyc.val := h
                  omega
            · intro i
              rw [Finset.mem_filter, Finset.mem_filter, h5]
              rintro ⟨-, h⟩
              refine ⟨Finset.mem_univ _, ?_⟩
              rcases h with h | h
              · left
                intro h0
                apply h
                show Function.update l.slots l.cyc none i = none
                by_cases hi : i = l.cyc
                · subst hi; exact Function.update_self _ _ _
                · rw [Function.update_of_ne hi, h0]
              · exact Or.inr h
          have := Finset.card_lt_card hsub
          omega
        obtain ⟨d, p', l2, e1, e2⟩ := ih q' l' p h2 h3 hcard
        rw [h4, hlen] at e1 e2
        refine ⟨d + 1, p', l2, .more (i' := l'.cyc) (k' := l') ?_ ?_, e2⟩
        · show (ilTrans (α := α) (w + 1) w).resume l.cyc l ((vs l.cyc)[p l.cyc]?) = _
          exact hres.trans h1
        · show MtEval (ilTrans (α := α) (w + 1) w) (fun i m => (vs i)[m]?) d l'.cyc l' (Function.update p l.cyc (nextPos (fun m => (vs l.cyc)[m]?) (p l.cyc))) _ _ _
          rw [hupd]
          exact e1
      · have hy : turnsStream vs K (turnsLen vs q) = none := by
          rw [← hlen]
          exact turnsStream_none vs (all_over vs hl1.1 h2 h3)
        refine ⟨1, _, l1, .last ?_, ?_⟩
        · show (ilTrans (α := α) (w + 1) w).resume l.cyc l ((vs l.cyc)[p l.cyc]?) = _
          rw [hy]
          exact hres.trans h1
        · refine ⟨q + 1, ?_, ?_, hl1⟩
          · rw [nextPos_none hy, hlen]
          · show LdPos vs (q + 1) (Function.update p l.cyc (nextPos (fun m => (vs l.cyc)[m]?) (p l.cyc)))
            rw [hupd]
            exact hp1

theorem ld_wf {q : Nat} {l : IlLoc (w + 1) w} (h : LdLoc vs q l) :
    IlWF (L := w) (fun (_ : Fin (w + 1)) (_ : Nat) => (none : Option α)) (fun _ => 0) l := by
  have hle : l.nextDs ≤ w + 1 := by rcases h.2 with h | h <;> omega
  have hsome : ∀ {i d}, l.slots i = some d → d = i ∧ i.val < l.nextDs := by
    intro i d hi
    by_cases hlt : i.val < l.nextDs
    · rcases h.1.used i hlt with h1 | ⟨h1, -⟩
      · rw [h1] at hi; cases hi; exact ⟨rfl, hlt⟩
      · rw [h1] at hi; cases hi
    · rw [(h.1.unused i (by omega)).1] at hi; cases hi
  refine ⟨hle, ?_, ?_, fun _ => rfl, fun _ => rfl, fun {i} hi => h.1.unused i hi, ?_⟩
  · intro i d hi
    obtain ⟨rfl, h2⟩ := hsome hi
    exact h2
  · intro i j d hi hj
    rw [← (hsome hi).1, ← (hsome hj).1]
  · intro i h1 h2
    by_contra hc
    rcases h.1.used i (by omega) with h3 | ⟨-, h3, -⟩
    · rw [h1] at h3; cases h3
    · rw [h2] at h3; cases h3

theorem ld_fill {q : Nat} {l : IlLoc (w + 1) w} (h : LdLoc vs q l) : LdLoc vs q (ilFill (List.finRange (w + 1)) l) := by
  rw [ilFill_norm (L := w) (Nat.lt_succ_self w) (ld_wf vs h)]
  have hle : l.nextDs ≤ w + 1 := by rcases h.2 with h | h <;> omega
  refine ⟨⟨h.1.cyc, ?_, ?_⟩, Or.inl ?_⟩
  · intro i hi
    have : max l.nextDs (w + 1) ≤ i.val := hi
    have := i.isLt
    omega
  · intro i _
    show (if l.nextDs ≤ i.val then some _ else l.slots i) = some i ∨ _
    by_cases hi : l.nextDs ≤ i.val
    · rw [if_pos hi]; exact Or.inl rfl
    · rw [if_neg hi]
      rcases h.1.used i (by omega) with h1 | ⟨h1, h2, h3⟩
      · exact Or.inl h1
      · right
        refine ⟨?_, h2, h3⟩
        show (if l.nextDs ≤ i.val then some _ else l.slots i) = none
        rw [if_neg hi]
        exact h1
  · show max l.nextDs (w + 1) = w + 1
    omega

/-- `sets` of a state in which worker `i` is in slot `i` or used up. -/
theorem ld_sets {q : Nat} {l : IlLoc (w + 1) w} (h : LdLoc vs q l) (i : Fin (w + 1)) :
    (ilTrans (α := α) (w + 1) w).sets l i = (l.slots i).isSome := by
  show (List.finRange (w + 1)).any (fun j => l.slots j == some i) = _
  have hsome : ∀ {j d}, l.slots j = some d → d = j := by
    intro j d hj
    by_cases hlt : j.val < l.nextDs
    · rcases h.1.used j hlt with h1 | ⟨h1, -⟩
      · rw [h1] at hj; cases hj; rfl
      · rw [h1] at hj; cases hj
    · rw [(h.1.unused j (by omega)).1] at hj; cases hj
  cases hi : l.slots i with
  | none =>
    rw [Option.isSome_none, List.any_eq_false]
    intro j _ hj
    rw [beq_iff_eq] at hj
    have := hsome hj
    subst this
    rw [hi] at hj
    cases hj
  | some d =>
    have := hsome hi
    subst this
    rw [Option.isSome_some, List.any_eq_true]
    exact ⟨d, List.mem_finRange d, by rw [hi]; simp⟩

/-- One call of the interleave. -/
theorem ld_start {K : Nat} (hK : ∀ i, (vs i).length ≤ K) {m : Nat} {p : Fin (w + 1) → Nat} {l : (ilTrans (α := α) (w + 1) w).L}
    (h : ldAt vs m p l) :
    (∃ l', (ilTrans (α := α) (w + 1) w).start l = .inr (turnsStream vs K m, l') ∧ ldAt vs (nextPos (turnsStream vs K) m) p l') ∨
    (∃ i k d q l', (ilTrans (α := α) (w + 1) w).start l = .inl (i, k) ∧
      MtEval (ilTrans (α := α) (w + 1) w) (fun i m => (vs i)[m]?) d i k p (turnsStream vs K m) q l' ∧
      ldAt vs (nextPos (turnsStream vs K) m) q l') := by
  classical
  obtain ⟨q, rfl, hp, hl⟩ := h
  rcases ldSeek vs (β := α) (w + 1) q l p (wpos w) hl hp (open_ahead q l) with ⟨q', l', h1, h2, h3, h4, -⟩ | ⟨h1, h2, h3⟩
  · right
    obtain ⟨d, p', l2, e1, e2⟩ := ld_eval vs hK _ q' l' p h2 h3 (Nat.le_refl _)
    rw [h4] at e1 e2
    exact ⟨l'.cyc, l', d, p', l2, h1, e1, e2⟩
  · left
    have hy : turnsStream vs K (turnsLen vs q) = none := turnsStream_none vs (all_over vs hl.1 h2 h3)
    refine ⟨l, ?_, q, ?_, hp, hl⟩
    · rw [hy]; exact h1
    · rw [nextPos_none hy]

theorem ld_init : ldAt vs 0 (fun _ => 0) (ilTrans (α := α) (w + 1) w).l0 := by
  refine ⟨0, rfl, ?_, ⟨?_, ?_, ?_⟩, Or.inr ⟨rfl, wpos w⟩⟩
  · intro i
    rw [askedOf_zero]
    simp
  · exact (Nat.zero_mod _).symm
  · intro i _
    exact ⟨rfl, rfl⟩
  · intro i hi
    exact absurd hi (Nat.not_lt_zero _)

/-- A state of the data loader of position `m`. -/
def LdCk {c : Fin (w + 1) → ConcIter α} (conf : LoaderConf) (ofNum : ∀ i, Int → (c i).C) (Kc : (i : Fin (w + 1)) → Nat → (c i).C → Prop)
    (m : Nat) (st : LoaderState) : Prop :=
  conf.validate st = none ∧ ∃ q p, ∃ next : Fin (w + 1) → Int, m = turnsLen vs q ∧ LdPos vs q p ∧ (conf.decode st).cyc = q % (w + 1) ∧
    ∀ i, (conf.decode st).states i.val = some (next i) ∧ Kc i (p i) (ofNum i (next i))

theorem loader_follows {K : Nat} (hK : ∀ i, (vs i).length ≤ K) {c : Fin (w + 1) → ConcIter α}
    {I : (i : Fin (w + 1)) → Nat → CMode → (c i).S → Prop} {Kc : (i : Fin (w + 1)) → Nat → (c i).C → Prop}
    (h : ∀ i, Follows (c i) (fun m => (vs i)[m]?) (I i) (Kc i)) (conf : LoaderConf) (hconf : conf.workers = w + 1)
    (hsc : 0 < conf.shard.shardCount) (num : ∀ i, (c i).C → Int) (ofNum : ∀ i, Int → (c i).C)
    (hnum : ∀ i k, ofNum i (num i k) = k) :
    Follows (loaderOver conf w c num ofNum) (turnsStream vs K)
      (fun m md s => ∃ r, MtInv (T := ilTrans (α := α) (w + 1) w) (fun i m => (vs i)[m]?) (turnsStream vs K) I Kc (ldAt vs) m md r s)
      (LdCk vs conf ofNum Kc) := by
  have hget : ∀ (m : Nat) (p : Fin (w + 1) → Nat) (cs : (i : Fin (w + 1)) → (c i).S) (loc : IlLoc (w + 1) w), ldAt vs m p loc →
      (∀ i, I i (p i) .idle (cs i)) → LdCk vs conf ofNum Kc m ((loaderOver conf w c num ofNum).get ⟨cs, loc, .idle⟩).2 := by
    rintro m p cs loc ⟨q, rfl, hp, hl⟩ hi
    refine ⟨encode_validate _ _ _ _, q, p, fun i => num i ((c i).get (cs i)).2, rfl, hp, ?_, ?_⟩
    · have hl' := ld_fill vs hl
      refine Eq.trans (decode_encode_cyc conf _ _ _ ?_) hl'.1.cyc
      rw [hconf]
      exact Fin.isLt _
    · intro i
      refine ⟨?_, ?_⟩
      · have hlt : i.val < conf.workers := by rw [hconf]; exact i.isLt
        have := decode_encode_states conf hsc (by omega) (ilFill (List.finRange (w + 1)) loc).cyc.val
          (fun j => if h : j < w + 1 then some (num ⟨j, h⟩ ((c ⟨j, h⟩).get (cs ⟨j, h⟩)).2) else none) hlt
          (x := num i ((c i).get (cs i)).2) (by rw [dif_pos i.isLt])
        rw [hconf] at this
        exact this
      · rw [hnum]
        exact ((h i).get (hi i)).2
  have hset : ∀ (st : LoaderState) (k q : Nat) (p q0 : Fin (w + 1) → Nat) (next : Fin (w + 1) → Int)
      (cs : (i : Fin (w + 1)) → (c i).S) (slots : Fin (w + 1) → Option (Fin (w + 1))) (old : IlLoc (w + 1) w),
      k = turnsLen vs q → LdPos vs q p → (conf.decode st).cyc = q % (w + 1) → (∀ i, Kc i (p i) (ofNum i (next i))) →
      (∀ i, I i (q0 i) .idle (cs i)) → (∀ i, slots i = some i) →
      MtInv (T := ilTrans (α := α) (w + 1) w) (c := c) (fun i m => (vs i)[m]?) (turnsStream vs K) I Kc (ldAt vs) k .set (2 * (w + 1 - 0) + 1)
        { cs := cs, loc := { cyc := Fin.ofNat (w + 1) (conf.decode st).cyc, nextDs := (conf.decode st).nextDs, slots := slots, exh := old.exh },
          pc := .setPar 0 (fun i => ofNum i (next i)) } := by
    intro st k q p q0 next cs slots old hk hp hcyc hKc hi hslots
    have hnext : (conf.decode st).nextDs = w + 1 := hconf
    have hl : LdLoc vs q (l := { cyc := Fin.ofNat (w + 1) (conf.decode st).cyc, nextDs := (conf.decode st).nextDs, slots := slots, exh := old.exh }) := by
      refine ⟨⟨?_, ?_, fun i _ => Or.inl (hslots i)⟩, Or.inl hnext⟩
      · rw [Fin.val_ofNat, hcyc, Nat.mod_mod]
      · intro i hi'
        have hlt := i.isLt
        dsimp only at hi'
        omega
    refine ⟨rfl, Nat.zero_le _, p, q0, ⟨q, hk, hp, hl⟩, fun i _ => hKc i, hi, ?_⟩
    rintro i (hlt | hs)
    · exact absurd hlt (Nat.not_lt_zero _)
    · have := ld_sets vs hl i
      rw [hs] at this
      dsimp only at this
      rw [hslots i] at this
      cases this
  constructor
  · exact ⟨0, rfl, _, ld_init vs, fun i => (h i).init⟩
  · rintro m md s t ⟨r, hs⟩ ht
    rcases mtInv_step h hs ht with ⟨-, h1⟩ | ⟨w', -, h1⟩
    · exact ⟨r, h1⟩
    · exact ⟨w', h1⟩
  · rintro m s t ⟨r, hs⟩ ⟨hpc, rfl⟩
    rcases s with ⟨cs, loc, pc⟩
    dsimp only at hpc
    subst hpc
    obtain ⟨rfl, p, h1, hi⟩ := hs
    dsimp only
    rcases ld_start vs hK h1 with ⟨l', e1, e2⟩ | ⟨i, k, d, q, l', e1, e2, e3⟩
    · rw [e1]
      exact ⟨0, rfl, rfl, p, e2, hi⟩
    · rw [e1]
      exact ⟨2 * d + 1, d, p, q, l', rfl, e2, e3, hi⟩
  · rintro m s a t ⟨r, hs⟩ ⟨hpc, rfl⟩
    rcases s with ⟨cs, loc, pc⟩
    dsimp only at hpc
    subst hpc
    obtain ⟨rfl, rfl, p, h1, hi⟩ := hs
    exact ⟨rfl, 0, rfl, p, h1, hi⟩
  · rintro m s ⟨r, hs⟩
    rcases s with ⟨cs, loc, pc⟩
    cases pc <;> try exact hs.elim
    obtain ⟨rfl, p, h1, hi⟩ := hs
    refine ⟨⟨0, rfl, p, ?_, fun i => ((h i).get (hi i)).1⟩, hget m p cs loc h1 hi⟩
    obtain ⟨q, e1, e2, e3⟩ := h1
    exact ⟨q, e1, e2, ld_fill vs e3⟩
  · rintro m s k st t ⟨r, hs⟩ ⟨hv, q, p, next, hk, hp, hcyc, hst⟩ ⟨hpc, -, next', hn', rfl⟩
    rcases s with ⟨cs, loc, pc⟩
    dsimp only at hpc
    subst hpc
    obtain ⟨rfl, q1, h3, hi⟩ := hs
    have he : next' = next := by
      funext i
      have h1 := hn' i
      rw [(hst i).1] at h1
      exact (Option.some.inj h1).symm
    subst he
    have hi' : ∀ (b : Fin (w + 1) → Prop) [DecidablePred b], ∀ i, I i (if b i then q1 i else 0) .idle (if b i then cs i else (c i).init) := by
      intro b _ i
      split
      · exact hi i
      · exact (h i).init
    refine ⟨_, hset st k q p _ next' _ _ _ hk hp hcyc (fun i => (hst i).2) (hi' _) ?_⟩
    intro i
    exact dif_pos ⟨i.isLt, rfl⟩
  · rintro m s t ⟨r, hs⟩ ⟨hpc, rfl⟩
    rcases s with ⟨cs, loc, pc⟩
    dsimp only at hpc
    subst hpc
    obtain ⟨rfl, p, h1, hi⟩ := hs
    exact ⟨0, rfl, p, h1, hi⟩
  · rintro m s ⟨r, hs⟩
    rcases s with ⟨cs, loc, pc⟩
    cases pc <;> try exact hs.elim
    exact ⟨_, rfl, rfl⟩
  · rintro m s k st ⟨r, hs⟩ ⟨hv, q, p, next, hk, hp, hcyc, hst⟩
    rcases s with ⟨cs, loc, pc⟩
    cases pc <;> try exact hs.elim
    exact ⟨_, rfl, hv, next, fun i => (hst i).1, rfl⟩
  · rintro m s ⟨r, hs⟩
    rcases s with ⟨cs, loc, pc⟩
    cases pc <;> try exact hs.elim
    · obtain ⟨d, p, q, l, rfl, h1, h2, hi⟩ := hs
      rename_i i k
      obtain ⟨t, ht⟩ := (h i).canCall (hi i)
      exact Or.inl ⟨_, .ask _ _ _ t rfl ht⟩
    · obtain ⟨d, p, q, l, rfl, h1, h2, hi⟩ := hs
      rename_i i k
      rcases (h i).live hi.1 with ⟨t, ht⟩ | ⟨r, t, ht⟩
      · exact Or.inl ⟨_, .below _ i t ht⟩
      · exact Or.inl ⟨_, .got _ _ _ r t rfl ht⟩
    · exact Or.inr ⟨_, _, rfl, rfl⟩
  · rintro m s ⟨r, hs⟩
    rcases s with ⟨cs, loc, pc⟩
    cases pc <;> try exact hs.elim
    · obtain ⟨rfl, hj, p, q, h1, h2, hq, h3⟩ := hs
      rename_i j ck
      by_cases hjn : j = w + 1
      · subst hjn
        exact Or.inl ⟨_, .setEnd _ ck rfl⟩
      · cases hset : (ilTrans (α := α) (w + 1) w).sets loc ⟨j, by omega⟩ with
        | true =>
          obtain ⟨t, ht⟩ := (h ⟨j, by omega⟩).canSet (hq ⟨j, by omega⟩) (h2 ⟨j, by omega⟩ hset)
          exact Or.inl ⟨_, .setPar _ ⟨j, by omega⟩ ck t rfl hset ht⟩
        | false => exact Or.inl ⟨_, .setSkip _ ⟨j, by omega⟩ ck rfl hset⟩
    · obtain ⟨rfl, p, q, h1, h2, hq, h3⟩ := hs
      rename_i i ck
      rcases (h i).liveSet hq.1 with ⟨t, ht⟩ | ⟨t, ht⟩
      · exact Or.inl ⟨_, .below _ i t ht⟩
      · exact Or.inl ⟨_, .setBack _ i ck t rfl ht⟩
    · exact Or.inr ⟨_, rfl, rfl⟩
  · rintro m md s ⟨r, hs⟩
    exact acc_of_rank (proj := MtState.cs) (R := MtInv (T := ilTrans (α := α) (w + 1) w) (fun i m => (vs i)[m]?) (turnsStream vs K) I Kc (ldAt vs) m md)
      (mtInv_step h) (mtInv_acc h) r s hs

end
end Grain
