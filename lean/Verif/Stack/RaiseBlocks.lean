import Verif.Stack.RaiseTurns
/-
The interleave of as many inputs as its cycle length, where an input may go on after its exceptions.
-/
namespace Grain
namespace Raise

variable {α : Type}

/-! ### Turns of one input -/

theorem turnsOfInput_flatten : ∀ l : List (Py α), (turnsOfInput l).flatten = l := by
  intro l
  induction l with
  | nil => rfl
  | cons r l ih =>
    cases r with
    | ok a => simp [turnsOfInput, ih]
    | error e =>
      rw [turnsOfInput.eq_def]
      dsimp only
      cases h : turnsOfInput l with
      | nil =>
        rw [h] at ih
        simp only [List.flatten_nil] at ih
        rw [← ih]
        rfl
      | cons b bs =>
        rw [h] at ih
        simp only [List.flatten_cons, List.cons_append] at ih ⊢
        rw [ih]

/-- A turn of exceptions only is the last one. -/
theorem turn_all_raise : ∀ (l : List (Py α)) {a : Nat} {b : List (Py α)}, (turnsOfInput l)[a]? = some b →
    (∀ j, j < b.length → Raises b[j]?) → a + 1 = (turnsOfInput l).length := by
  intro l
  induction l with
  | nil => intro a b h; simp [turnsOfInput] at h
  | cons r l ih =>
    intro a b h hb
    cases r with
    | ok x =>
      simp only [turnsOfInput] at h ⊢
      cases a with
      | zero =>
        simp only [List.getElem?_cons_zero, Option.some.injEq] at h
        subst h
        obtain ⟨e, he⟩ := hb 0 (by simp)
        simp at he
      | succ a =>
        rw [List.getElem?_cons_succ] at h
        rw [List.length_cons, ih h hb]
    | error e =>
      rw [turnsOfInput.eq_def] at h ⊢
      dsimp only at h ⊢
      cases ht : turnsOfInput l with
      | nil =>
        rw [ht] at h
        cases a with
        | zero => rfl
        | succ a => simp at h
      | cons b' bs =>
        rw [ht] at h ih
        dsimp only at h ⊢
        cases a with
        | zero =>
          simp only [List.getElem?_cons_zero, Option.some.injEq] at h
          subst h
          have := ih (a := 0) (b := b') rfl (fun j hj => by
            have := hb (j + 1) (by rw [List.length_cons]; omega)
            rwa [List.getElem?_cons_succ] at this)
          simpa using this
        | succ a =>
          rw [List.getElem?_cons_succ] at h
          have := ih (a := a + 1) (b := b) (by rw [List.getElem?_cons_succ]; exact h) hb
          simpa using this

/-- An element ends its turn. -/
theorem turn_ok_last : ∀ (l : List (Py α)) {a : Nat} {b : List (Py α)}, (turnsOfInput l)[a]? = some b →
    ∀ {j x}, b[j]? = some (.ok x) → j + 1 = b.length := by
  intro l
  induction l with
  | nil => intro a b h; simp [turnsOfInput] at h
  | cons r l ih =>
    intro a b h j x hb
    cases r with
    | ok y =>
      simp only [turnsOfInput] at h
      cases a with
      | zero =>
        simp only [List.getElem?_cons_zero, Option.some.injEq] at h
        subst h
        cases j with
        | zero => rfl
        | succ j => simp at hb
      | succ a =>
        rw [List.getElem?_cons_succ] at h
        exact ih h hb
    | error e =>
      rw [turnsOfInput.eq_def] at h
      dsimp only at h
      cases ht : turnsOfInput l with
      | nil =>
        rw [ht] at h
        cases a with
        | zero =>
          simp only [List.getElem?_cons_zero, Option.some.injEq] at h
          subst h
          cases j <;> simp at hb
        | succ a => simp at h
      | cons b' bs =>
        rw [ht] at h ih
        dsimp only at h
        cases a with
        | zero =>
          simp only [List.getElem?_cons_zero, Option.some.injEq] at h
          subst h
          cases j with
          | zero => simp at hb
          | succ j =>
            rw [List.getElem?_cons_succ] at hb
            rw [List.length_cons, ih (a := 0) (b := b') rfl hb]
        | succ a =>
          rw [List.getElem?_cons_succ] at h
          exact ih (a := a + 1) (b := b) (by rw [List.getElem?_cons_succ]; exact h) hb

/-- Where turn `a` starts. -/
def turnStart (l : List (Py α)) (a : Nat) : Nat := ((turnsOfInput l).take a).flatten.length

theorem turnStart_succ {l : List (Py α)} {a : Nat} {b : List (Py α)} (h : (turnsOfInput l)[a]? = some b) :
    turnStart l (a + 1) = turnStart l a + b.length := by
  unfold turnStart
  rw [List.take_add_one, h]
  simp

theorem turnStart_over {l : List (Py α)} {a : Nat} (h : (turnsOfInput l).length ≤ a) : turnStart l a = l.length := by
  unfold turnStart
  rw [List.take_of_length_le h, turnsOfInput_flatten]

theorem flatten_get {β : Type} {L : List (List β)} {a : Nat} {b : List β} (h : L[a]? = some b) {j : Nat} (hj : j < b.length) :
    L.flatten[(L.take a).flatten.length + j]? = b[j]? := by
  obtain ⟨hlt, rfl⟩ := List.getElem?_eq_some_iff.1 h
  have hsplit : L.flatten = (L.take a).flatten ++ (L[a] ++ (L.drop (a + 1)).flatten) := by
    conv_lhs => rw [← List.take_append_drop a L, List.drop_eq_getElem_cons hlt]
    rw [List.flatten_append, List.flatten_cons]
  rw [hsplit, List.getElem?_append_right (by omega), Nat.add_sub_cancel_left, List.getElem?_append_left hj]

theorem turn_get {l : List (Py α)} {a : Nat} {b : List (Py α)} (h : (turnsOfInput l)[a]? = some b) {j : Nat} (hj : j < b.length) :
    l[turnStart l a + j]? = b[j]? := by
  have := flatten_get h hj
  rwa [turnsOfInput_flatten] at this

/-- Before a turn there is an element. -/
theorem before_turn {l : List (Py α)} {a : Nat} {b : List (Py α)} (h : (turnsOfInput l)[a]? = some b) {j : Nat}
    (hj : j + 1 = turnStart l a) : ¬ Raises l[j]? := by
  cases a with
  | zero => simp [turnStart] at hj
  | succ a =>
    have hlt := (List.getElem?_eq_some_iff.1 h).1
    have ha : (turnsOfInput l)[a]? = some (turnsOfInput l)[a] := List.getElem?_eq_getElem (by omega)
    generalize (turnsOfInput l)[a] = b' at ha
    have hex : ∃ t, t < b'.length ∧ ¬ Raises b'[t]? := by
      by_contra hc
      have := turn_all_raise l ha (fun t ht => by
        by_contra hr
        exact hc ⟨t, ht, hr⟩)
      omega
    obtain ⟨t, ht, hr⟩ := hex
    cases hb : b'[t] with
    | error e => exact absurd ⟨e, by rw [List.getElem?_eq_getElem ht, hb]⟩ hr
    | ok x =>
      have hlast := turn_ok_last l ha (j := t) (x := x) (by rw [List.getElem?_eq_getElem ht, hb])
      rw [turnStart_succ ha] at hj
      have : j = turnStart l a + t := by omega
      rw [this, turn_get ha ht]
      exact hr

section
variable {w : Nat} (vs : Fin (w + 1) → List (Py α))

/-- Turns of all inputs. -/
def bl (i : Fin (w + 1)) : List (List (Py α)) := turnsOfInput (vs i)

def blLen (q : Nat) : Nat := ((List.range q).flatMap (fun t => (turnOf (bl vs) t).getD [])).length

def blStream (K m : Nat) : Option (Py α) := ((List.range (K * (w + 1))).flatMap (fun t => (turnOf (bl vs) t).getD []))[m]?

theorem blLen_succ (q : Nat) : blLen vs (q + 1) = blLen vs q + ((turnOf (bl vs) q).getD []).length := by
  unfold blLen
  rw [List.range_succ, List.flatMap_append, List.length_append]
  simp

theorem blLen_none {q : Nat} (h : turnOf (bl vs) q = none) : blLen vs (q + 1) = blLen vs q := by
  rw [blLen_succ, h]
  rfl

theorem blStream_some {K q : Nat} (hK : ∀ i, (vs i).length ≤ K) {b : List (Py α)} (h : turnOf (bl vs) q = some b) {j : Nat}
    (hj : j < b.length) : blStream vs K (blLen vs q + j) = b[j]? := by
  have hturns : ∀ l : List (Py α), (turnsOfInput l).length ≤ l.length := by
    intro l
    induction l with
    | nil => simp [turnsOfInput]
    | cons r l ih =>
      cases r with
      | ok a => simpa [turnsOfInput] using ih
      | error e =>
        rw [turnsOfInput.eq_def]
        dsimp only
        cases ht : turnsOfInput l with
        | nil => simp
        | cons b bs =>
          rw [ht] at ih
          simp only [List.length_cons] at ih ⊢
          omega
  have hq : q < K * (w + 1) := by
    obtain ⟨hlt, -⟩ := List.getElem?_eq_some_iff.1 h
    have h1 := hK ⟨q % (w + 1), Nat.mod_lt _ (wpos w)⟩
    have h2 := hturns (vs ⟨q % (w + 1), Nat.mod_lt _ (wpos w)⟩)
    have h3 : q / (w + 1) < (turnsOfInput (vs ⟨q % (w + 1), Nat.mod_lt _ (wpos w)⟩)).length := hlt
    exact (Nat.div_lt_iff_lt_mul (wpos w)).1 (by omega)
  unfold blStream blLen
  obtain ⟨d, hd⟩ : ∃ d, K * (w + 1) = q + (d + 1) := ⟨K * (w + 1) - q - 1, by omega⟩
  rw [hd, List.range_add, List.flatMap_append, List.getElem?_append_right (by omega), Nat.add_sub_cancel_left,
    List.range_succ_eq_map, List.map_cons, List.flatMap_cons, Nat.add_zero, h, Option.getD_some,
    List.getElem?_append_left hj]

theorem blStream_none {K q : Nat} (h : ∀ t, q ≤ t → turnOf (bl vs) t = none) : blStream vs K (blLen vs q) = none := by
  unfold blStream blLen
  rw [List.getElem?_eq_none_iff]
  by_cases hq : K * (w + 1) ≤ q
  · obtain ⟨d, hd⟩ : ∃ d, q = K * (w + 1) + d := ⟨q - K * (w + 1), by omega⟩
    rw [hd, List.range_add, List.flatMap_append, List.length_append]
    omega
  · obtain ⟨d, hd⟩ : ∃ d, K * (w + 1) = q + d := ⟨K * (w + 1) - q, by omega⟩
    rw [hd, List.range_add, List.flatMap_append, List.length_append]
    have : ((List.range d).map (fun x => q + x)).flatMap (fun t => (turnOf (bl vs) t).getD []) = [] := by
      rw [List.flatMap_eq_nil_iff]
      intro t ht
      obtain ⟨e, -, rfl⟩ := List.mem_map.1 ht
      rw [h _ (by omega)]
      rfl
    rw [this]
    simp

/-- Positions of the inputs that are not closed, without input `b`, which is in the middle of its turn. -/
def BlPos (q : Nat) (b : Option (Fin (w + 1))) (l : IlLoc (w + 1) w) (p : Fin (w + 1) → Nat) : Prop :=
  ∀ i, LdOpen l i → b = some i ∨ (p i = turnStart (vs i) (askedOf w q i) ∧ ∀ j, j + 1 = p i → ¬ Raises ((vs i)[j]?))

/-- Input `l.cyc` has given `j` exceptions in turn `q`. -/
structure Mid (q j : Nat) (l : IlLoc (w + 1) w) (p : Fin (w + 1) → Nat) : Prop where
  ask : LdAsk (bl vs) q l
  others : BlPos vs q (some l.cyc) l p
  pos : p l.cyc = turnStart (vs l.cyc) (q / (w + 1)) + j
  le : j ≤ ((turnOf (bl vs) q).getD []).length
  raised : ∀ t, t < j → Raises (((turnOf (bl vs) q).getD [])[t]?)

/-- Between two calls. -/
def blAt (m : Nat) (p : Fin (w + 1) → Nat) (l : (ilTrans (α := α) (w + 1) w).L) : Prop :=
  (∃ q, m = blLen vs q ∧ BlPos vs q none l p ∧ LdLoc (w := w) (bl vs) q l) ∨
  (∃ q j, 0 < j ∧ m = blLen vs q + j ∧ Mid vs q j l p)

theorem blPos_succ_over {q : Nat} {l : IlLoc (w + 1) w} {p : Fin (w + 1) → Nat} (hp : BlPos vs q none l p)
    (h : ∀ i : Fin (w + 1), i.val = q % (w + 1) → ¬ LdOpen l i) : BlPos vs (q + 1) none l p := by
  intro i ho
  right
  obtain ⟨h1, h2⟩ := (hp i ho).resolve_left (by simp)
  refine ⟨?_, h2⟩
  rw [h1, askedOf_succ]
  split
  · exact absurd ho (h i ‹_›)
  · rfl

theorem blSeek {β : Type} : ∀ (k q : Nat) (l : IlLoc (w + 1) w) (p : Fin (w + 1) → Nat), 0 < k → LdLoc (bl vs) q l → BlPos vs q none l p →
    ((∀ i, l.slots i = none) ∨ ∃ j, j < k ∧ l.slots ⟨(q + j) % (w + 1), Nat.mod_lt _ (wpos w)⟩ ≠ none) →
    (∃ q' l', ilSeek (β := β) k l = .inl (l'.cyc, l') ∧ LdAsk (bl vs) q' l' ∧ BlPos vs q' none l' p ∧ blLen vs q' = blLen vs q ∧
      ∀ i, LdOpen l' i ↔ LdOpen l i) ∨
    (ilSeek (β := β) k l = .inr (none, l) ∧ l.nextDs = w + 1 ∧ ∀ i, l.slots i = none) := by
  intro k
  induction k with
  | zero => intro q l p h; omega
  | succ k ih =>
    intro q l p _ hl hp hop
    unfold ilSeek
    cases hs : l.slots l.cyc with
    | some d =>
      left
      have hd : d = l.cyc := by
        by_cases hlt : l.cyc.val < l.nextDs
        · rcases hl.1.used _ hlt with h | ⟨h, -⟩
          · rw [hs] at h; cases h; rfl
          · rw [hs] at h; cases h
        · rw [(hl.1.unused _ (by omega)).1] at hs; cases hs
      subst hd
      refine ⟨q, l, rfl, ⟨hl.1, hs, ?_⟩, hp, rfl, fun i => Iff.rfl⟩
      rcases hl.2 with h | ⟨h1, h2⟩
      · exact Or.inl h
      · exfalso
        have hc : l.cyc.val = q := by rw [hl.1.cyc, Nat.mod_eq_of_lt h2]
        rw [(hl.1.unused l.cyc (by omega)).1] at hs
        cases hs
    | none =>
      dsimp only
      by_cases hn : l.nextDs < w + 1
      · left
        have hq : l.nextDs = q := by rcases hl.2 with h | ⟨h1, h2⟩ <;> omega
        have hc : l.cyc.val = l.nextDs := by rw [hl.1.cyc, ← hq, Nat.mod_eq_of_lt hn]
        have hc' : (⟨l.nextDs, hn⟩ : Fin (w + 1)) = l.cyc := Fin.ext hc.symm
        rw [dif_pos hn, hc']
        have hiff : ∀ i, LdOpen { l with slots := Function.update l.slots l.cyc (some l.cyc)
                                         exh := Function.update l.exh l.cyc false
                                         nextDs := l.nextDs + 1 } i ↔ LdOpen l i := by
          intro i
          unfold LdOpen
          dsimp only
          by_cases hne : i = l.cyc
          · subst hne
            simp [hc]
          · have : i.val ≠ l.cyc.val := fun h => hne (Fin.ext h)
            rw [Function.update_of_ne hne]
            constructor
            · rintro (h | h)
              · exact Or.inl h
              · exact Or.inr (by omega)
            · rintro (h | h)
              · exact Or.inl h
              · exact Or.inr (by omega)
        refine ⟨q, { l with slots := Function.update l.slots l.cyc (some l.cyc)
                            exh := Function.update l.exh l.cyc false
                            nextDs := l.nextDs + 1 }, rfl, ⟨⟨hl.1.cyc, ?_, ?_⟩, by simp, Or.inr ⟨by dsimp only; omega, by omega⟩⟩,
                            fun i hi => hp i ((hiff i).1 hi), rfl, hiff⟩
        · intro i hi
          dsimp only at hi ⊢
          have hne : i ≠ l.cyc := by rintro rfl; omega
          rw [Function.update_of_ne hne, Function.update_of_ne hne]
          exact hl.1.unused i (by omega)
        · intro i hi
          dsimp only at hi ⊢
          by_cases hne : i = l.cyc
          · subst hne
            left
            rw [Function.update_self]
          · have : i.val ≠ l.cyc.val := fun h => hne (Fin.ext h)
            rw [Function.update_of_ne hne, Function.update_of_ne hne]
            exact hl.1.used i (by omega)
      · have hnd : l.nextDs = w + 1 := by rcases hl.2 with h | ⟨h1, h2⟩ <;> omega
        rw [dif_neg hn]
        obtain ⟨ht, -⟩ := turn_over (bl vs) hl.1 hs (by have := l.cyc.isLt; omega)
        by_cases hany : (List.finRange (w + 1)).any (fun i => (l.slots i).isSome) = true
        · rw [if_pos hany]
          obtain ⟨i0, -, hi0⟩ := List.any_eq_true.1 hany
          rcases hop with hall | ⟨j, hj, hsj⟩
          · rw [hall i0] at hi0; cases hi0
          · have hj0 : j ≠ 0 := by
              rintro rfl
              apply hsj
              rw [← hs]
              congr 1
              exact Fin.ext (by simp [hl.1.cyc])
            rcases ih (q + 1) { l with cyc := l.cyc + 1 } p (by omega) ⟨ldSlots_succ (bl vs) hl.1, Or.inl hnd⟩
              (blPos_succ_over (l := l) vs hp (fun i hi => by
                have : i = l.cyc := Fin.ext (by rw [hi, hl.1.cyc])
                rw [this]
                rintro (h | h)
                · exact h hs
                · have := l.cyc.isLt
                  omega))
              (Or.inr ⟨j - 1, by omega, by
                have : q + 1 + (j - 1) = q + j := by omega
                dsimp only
                simp only [this]
                exact hsj⟩) with ⟨q', l', h1, h2, h3, h4, h5⟩ | ⟨-, -, h3⟩
            · exact Or.inl ⟨q', l', h1, h2, h3, by rw [h4, blLen_none vs ht], h5⟩
            · exact absurd (h3 i0) (by intro h; dsimp only at h; rw [h] at hi0; cases hi0)
        · rw [if_neg hany]
          right
          refine ⟨rfl, hnd, ?_⟩
          intro i
          cases h : l.slots i with
          | none => rfl
          | some d => exact absurd (List.any_eq_true.2 ⟨i, List.mem_finRange i, by simp [h]⟩) hany

theorem mid_start {q : Nat} {l : IlLoc (w + 1) w} {p : Fin (w + 1) → Nat} (hl : LdAsk (bl vs) q l) (hp : BlPos vs q none l p) :
    Mid vs q 0 l p := by
  have hcyc : l.cyc = ⟨q % (w + 1), Nat.mod_lt _ (wpos w)⟩ := Fin.ext hl.1.cyc
  have hself : askedOf w q l.cyc = q / (w + 1) := by rw [hcyc, askedOf_self]
  have hopen : LdOpen l l.cyc := Or.inl (by rw [hl.2.1]; simp)
  refine ⟨hl, fun i hi => Or.inr ((hp i hi).resolve_left (by simp)), ?_, Nat.zero_le _, fun t ht => by omega⟩
  rw [((hp _ hopen).resolve_left (by simp)).1, hself]; rfl

open Classical in
theorem bl_eval {K : Nat} (hK : ∀ i, (vs i).length ≤ K) : ∀ (c q j : Nat) (l : IlLoc (w + 1) w)
    (p : Fin (w + 1) → Nat), Mid vs q j l p → (Finset.univ.filter (fun i => LdOpen l i)).card ≤ c →
    ∃ d p' l', MtEval (ilTrans (α := α) (w + 1) w) (fun i m => (vs i)[m]?) d l.cyc l p (blStream vs K (blLen vs q + j)) p' l' ∧
      blAt vs (nextPos (blStream vs K) (blLen vs q + j)) p' l' := by
  intro c
  induction c with
  | zero =>
    intro q j l p hm hc
    exfalso
    have hmem : l.cyc ∈ Finset.univ.filter (fun i => LdOpen l i) := by
      rw [Finset.mem_filter]
      exact ⟨Finset.mem_univ _, Or.inl (by rw [hm.ask.2.1]; simp)⟩
    have := Finset.card_pos.2 ⟨_, hmem⟩
    omega
  | succ c ih =>
    intro q j l p hm hc
    have hl := hm.ask
    have hcyc : l.cyc = ⟨q % (w + 1), Nat.mod_lt _ (wpos w)⟩ := Fin.ext hl.1.cyc
    have hopen : LdOpen l l.cyc := Or.inl (by rw [hl.2.1]; simp)
    have hself : askedOf w q l.cyc = q / (w + 1) := by rw [hcyc, askedOf_self]
    have hturn : turnOf (bl vs) q = (turnsOfInput (vs l.cyc))[q / (w + 1)]? := by rw [hcyc]; rfl
    have hsucc : askedOf w (q + 1) l.cyc = q / (w + 1) + 1 := by rw [askedOf_succ, if_pos hl.1.cyc, hself]
    have hcn := ask_used (bl vs) hl
    -- the other inputs after turn q
    have hothers : ∀ i, LdOpen l i → i ≠ l.cyc → p i = turnStart (vs i) (askedOf w (q + 1) i) ∧
        ∀ t, t + 1 = p i → ¬ Raises ((vs i)[t]?) := by
      intro i ho hi
      have : i.val ≠ q % (w + 1) := fun h => hi (Fin.ext (by rw [h, hl.1.cyc]))
      rw [askedOf_succ, if_neg this]
      exact (hm.others i ho).resolve_left (fun h => hi (Option.some.inj h).symm)
    by_cases hj : j < ((turnOf (bl vs) q).getD []).length
    · obtain ⟨b, hb⟩ : ∃ b, turnOf (bl vs) q = some b := by
        cases h : turnOf (bl vs) q with
        | none => rw [h] at hj; simp at hj
        | some b => exact ⟨b, rfl⟩
      rw [hb, Option.getD_some] at hj
      have hbt : (turnsOfInput (vs l.cyc))[q / (w + 1)]? = some b := by rw [← hturn, hb]
      have hget : (vs l.cyc)[p l.cyc]? = b[j]? := by rw [hm.pos, turn_get hbt hj]
      have hy := blStream_some vs hK hb hj
      cases hr : b[j] with
      | ok a =>
        have hbj : b[j]? = some (.ok a) := by rw [List.getElem?_eq_getElem hj, hr]
        rw [hbj] at hget hy
        have hlast := turn_ok_last _ hbt hbj
        refine ⟨1, _, { l with cyc := l.cyc + 1 }, .last ?_, Or.inl ?_⟩
        · rw [hy]
          show (ilTrans (α := α) (w + 1) w).resume l.cyc l ((vs l.cyc)[p l.cyc]?) = _
          rw [hget]
          rfl
        · refine ⟨q + 1, ?_, ?_, ⟨ldSlots_succ (bl vs) hl.1, ?_⟩⟩
          · rw [nextPos_some hy, blLen_succ, hb, Option.getD_some]
            omega
          · intro i ho
            right
            by_cases hi : i = l.cyc
            · subst hi
              rw [Function.update_self, nextPos_some (x := fun m => (vs l.cyc)[m]?) hget, hsucc, turnStart_succ hbt, hm.pos]
              refine ⟨by omega, ?_⟩
              intro t ht
              have : t = p l.cyc := by rw [hm.pos]; omega
              subst this
              rw [hget]
              rintro ⟨e, he⟩
              cases he
            · rw [Function.update_of_ne hi]
              exact hothers i ho hi
          · dsimp only
            rcases hl.2.2 with h | ⟨h1, h2⟩
            · exact Or.inl h
            · by_cases h3 : q + 1 = w + 1
              · exact Or.inl (by omega)
              · exact Or.inr ⟨h1, by omega⟩
      | error e =>
        have hbj : b[j]? = some (.error e) := by rw [List.getElem?_eq_getElem hj, hr]
        rw [hbj] at hget hy
        refine ⟨1, _, l, .last ?_, Or.inr ⟨q, j + 1, Nat.succ_pos _, ?_, hl, ?_, ?_, ?_, ?_⟩⟩
        · rw [hy]
          show (ilTrans (α := α) (w + 1) w).resume l.cyc l ((vs l.cyc)[p l.cyc]?) = _
          rw [hget]
          rfl
        · rw [nextPos_some hy, Nat.add_assoc]
        · intro i ho
          by_cases hi : i = l.cyc
          · exact Or.inl (by rw [hi])
          · rw [Function.update_of_ne hi]
            exact hm.others i ho
        · rw [Function.update_self, nextPos_some (x := fun m => (vs l.cyc)[m]?) hget, hm.pos, Nat.add_assoc]
        · rw [hb, Option.getD_some]
          omega
        · intro t ht
          by_cases htj : t < j
          · exact hm.raised t htj
          · obtain rfl : t = j := by omega
            rw [hb, Option.getD_some]
            exact ⟨e, hbj⟩
    · -- the input is over
      have hje : j = ((turnOf (bl vs) q).getD []).length := Nat.le_antisymm hm.le (by omega)
      have hend : turnStart (vs l.cyc) (q / (w + 1)) + j = (vs l.cyc).length ∧ (bl vs l.cyc).length ≤ askedOf w (q + 1) l.cyc := by
        cases hb : turnOf (bl vs) q with
        | none =>
          rw [hb] at hje
          have hge : (turnsOfInput (vs l.cyc)).length ≤ q / (w + 1) := by
            rw [hturn] at hb
            exact List.getElem?_eq_none_iff.1 hb
          have h2 : (bl vs l.cyc).length ≤ q / (w + 1) := hge
          have h3 : j = 0 := hje
          rw [turnStart_over hge]
          exact ⟨by omega, by omega⟩
        | some b =>
          have hbt : (turnsOfInput (vs l.cyc))[q / (w + 1)]? = some b := by rw [← hturn, hb]
          rw [hb, Option.getD_some] at hje
          have hall := turn_all_raise _ hbt (fun t ht => by
            have := hm.raised t (by omega)
            rwa [hb, Option.getD_some] at this)
          have h2 : (bl vs l.cyc).length = (turnsOfInput (vs l.cyc)).length := rfl
          have h3 := turnStart_over (l := vs l.cyc) (a := q / (w + 1) + 1) (by omega)
          rw [turnStart_succ hbt] at h3
          exact ⟨by omega, by omega⟩
      have hx : (vs l.cyc)[p l.cyc]? = none := by
        rw [List.getElem?_eq_none_iff, hm.pos]
        omega
      have hge := hend.2
      have hlenq : blLen vs q + j = blLen vs (q + 1) := by rw [blLen_succ, ← hje]
      rw [hlenq]
      have hupd : Function.update p l.cyc (nextPos (fun m => (vs l.cyc)[m]?) (p l.cyc)) = p := by
        rw [nextPos_none (x := fun m => (vs l.cyc)[m]?) hx, Function.update_eq_self]
      -- the slot is closed
      let l1 : IlLoc (w + 1) w := { l with slots := Function.update l.slots l.cyc none
                                           exh := Function.update l.exh l.cyc true
                                           cyc := l.cyc + 1 }
      have hl1 : LdLoc (bl vs) (q + 1) l1 := by
        refine ⟨⟨cyc_succ q _ hl.1.cyc, ?_, ?_⟩, ?_⟩
        · intro i hi
          have hne : i ≠ l.cyc := by
            rintro rfl
            have : l.nextDs ≤ l.cyc.val := hi
            omega
          show Function.update l.slots l.cyc none i = none ∧ Function.update l.exh l.cyc true i = false
          rw [Function.update_of_ne hne, Function.update_of_ne hne]
          exact hl.1.unused i hi
        · intro i hi
          show Function.update l.slots l.cyc none i = some i ∨ (Function.update l.slots l.cyc none i = none ∧
            Function.update l.exh l.cyc true i = true ∧ _)
          by_cases hne : i = l.cyc
          · subst hne
            right
            rw [Function.update_self, Function.update_self]
            exact ⟨rfl, rfl, hge⟩
          · rw [Function.update_of_ne hne, Function.update_of_ne hne]
            exact (ldSlots_succ (bl vs) hl.1).used i hi
        · show l.nextDs = w + 1 ∨ (l.nextDs = q + 1 ∧ q + 1 < w + 1)
          rcases hl.2.2 with h | ⟨h1, h2⟩
          · exact Or.inl h
          · by_cases h3 : q + 1 = w + 1
            · exact Or.inl (by omega)
            · exact Or.inr ⟨h1, by omega⟩
      have hclosed : ¬ LdOpen l1 l.cyc := by
        rintro (h | h)
        · exact h (Function.update_self _ _ _)
        · have : l.nextDs ≤ l.cyc.val := h
          omega
      have hmono : ∀ i, LdOpen l1 i → LdOpen l i ∧ i ≠ l.cyc := by
        intro i hi
        have hne : i ≠ l.cyc := by
          rintro rfl
          exact hclosed hi
        refine ⟨?_, hne⟩
        rcases hi with h | h
        · left
          intro h0
          apply h
          show Function.update l.slots l.cyc none i = none
          rw [Function.update_of_ne hne, h0]
        · exact Or.inr h
      have hp1 : BlPos vs (q + 1) none l1 p := by
        intro i hi
        obtain ⟨h1, h2⟩ := hmono i hi
        exact Or.inr (hothers i h1 h2)
      have hres : (ilTrans (α := α) (w + 1) w).resume l.cyc l ((vs l.cyc)[p l.cyc]?) = ilSeek (w + 1) l1 := by
        rw [hx]; rfl
      rcases blSeek vs (β := Py α) (w + 1) (q + 1) l1 p (wpos w) hl1 hp1 (open_ahead (q + 1) l1) with
        ⟨q', l', h1, h2, h3, h4, h5⟩ | ⟨h1, h2, h3⟩
      · have hcard : (Finset.univ.filter (fun i => LdOpen l' i)).card ≤ c := by
          have hsub : Finset.univ.filter (fun i => LdOpen l' i) ⊂ Finset.univ.filter (fun i => LdOpen l i) := by
            rw [Finset.ssubset_iff_of_subset]
            · refine ⟨l.cyc, ?_, ?_⟩
              · rw [Finset.mem_filter]
                exact ⟨Finset.mem_univ _, hopen⟩
              · rw [Finset.mem_filter]
                rintro ⟨-, h⟩
                rw [h5] at h
                exact hclosed h
            · intro i
              rw [Finset.mem_filter, Finset.mem_filter, h5]
              rintro ⟨-, h⟩
              exact ⟨Finset.mem_univ _, (hmono i h).1⟩
          have := Finset.card_lt_card hsub
          omega
        obtain ⟨d, p', l2, e1, e2⟩ := ih q' 0 l' p (mid_start vs h2 h3) hcard
        have e0 : blLen vs q' + 0 = blLen vs (q + 1) := h4
        rw [e0] at e1 e2
        refine ⟨d + 1, p', l2, .more (i' := l'.cyc) (k' := l') ?_ ?_, e2⟩
        · show (ilTrans (α := α) (w + 1) w).resume l.cyc l ((vs l.cyc)[p l.cyc]?) = _
          exact hres.trans h1
        · show MtEval (ilTrans (α := α) (w + 1) w) (fun i m => (vs i)[m]?) d l'.cyc l' (Function.update p l.cyc (nextPos (fun m => (vs l.cyc)[m]?) (p l.cyc))) _ _ _
          rw [hupd]
          exact e1
      · have hy : blStream vs K (blLen vs (q + 1)) = none :=
          blStream_none vs (all_over (bl vs) hl1.1 h2 h3)
        refine ⟨1, _, l1, .last ?_, Or.inl ?_⟩
        · show (ilTrans (α := α) (w + 1) w).resume l.cyc l ((vs l.cyc)[p l.cyc]?) = _
          rw [hy]
          exact hres.trans h1
        · refine ⟨q + 1, ?_, ?_, hl1⟩
          · rw [nextPos_none hy]
          · show BlPos vs (q + 1) none l1 (Function.update p l.cyc (nextPos (fun m => (vs l.cyc)[m]?) (p l.cyc)))
            rw [hupd]
            exact hp1

theorem blPos_sets {q : Nat} {l : IlLoc (w + 1) w} {p : Fin (w + 1) → Nat} (h : LdSlots (bl vs) q l) {b : Option (Fin (w + 1))}
    (hq : l.nextDs = w + 1 ∨ q ≤ l.nextDs) (hp : BlPos vs q b l p) :
    BlPos vs q b l (fun i => if (ilTrans (α := α) (w + 1) w).sets l i then p i else 0) := by
  intro i hi
  rcases hp i hi with hb | ⟨h1, h2⟩
  · exact Or.inl hb
  right
  dsimp only
  by_cases hs : l.slots i = none
  · have hn : l.nextDs ≤ i.val := hi.resolve_left (fun h => h hs)
    have hlt := i.isLt
    have h0 : askedOf w q i = 0 := askedOf_first (by omega)
    have hz : turnStart (vs i) 0 = 0 := by simp [turnStart]
    rw [h0, hz] at h1 ⊢
    refine ⟨by split <;> simp [h1], ?_⟩
    intro j hj
    split at hj <;> omega
  · rw [tn_sets (bl vs) h i hs, if_pos rfl]
    exact ⟨h1, h2⟩

theorem mid_fill {q j : Nat} {l : IlLoc (w + 1) w} {p : Fin (w + 1) → Nat} (h : Mid vs q j l p) :
    Mid vs q j (ilFill (List.finRange (w + 1)) l) p := by
  obtain ⟨h1, h2, h3, h4, h5⟩ := tn_fill (bl vs) h.ask.1 (ask_le (bl vs) h.ask)
  refine ⟨⟨h1, ?_, Or.inl h2⟩, ?_, ?_, h.le, h.raised⟩
  · rw [h3]
    exact h5 h.ask.2.1
  · rw [h3]
    exact fun i hi => h.others i (h4 i hi)
  · rw [h3]
    exact h.pos

theorem mid_lag {K : Nat} (hK : ∀ i, (vs i).length ≤ K) {q j : Nat} (hj : 0 < j) {l : IlLoc (w + 1) w} {p k : Fin (w + 1) → Nat}
    (h : Mid vs q j l p) (hk : ∀ i, Lagging (fun m => (vs i)[m]?) (k i) (p i)) :
    ∃ m', Lagging (blStream vs K) m' (blLen vs q + j) ∧ blAt vs m' k (ilFill (List.finRange (w + 1)) l) := by
  have hl := h.ask
  have hcyc : l.cyc = ⟨q % (w + 1), Nat.mod_lt _ (wpos w)⟩ := Fin.ext hl.1.cyc
  have hself : askedOf w q l.cyc = q / (w + 1) := by rw [hcyc, askedOf_self]
  have hturn : turnOf (bl vs) q = (turnsOfInput (vs l.cyc))[q / (w + 1)]? := by rw [hcyc]; rfl
  obtain ⟨b, hb⟩ : ∃ b, turnOf (bl vs) q = some b := by
    cases ht : turnOf (bl vs) q with
    | none =>
      have := h.le
      rw [ht] at this
      exact absurd this (by simp; omega)
    | some b => exact ⟨b, rfl⟩
  have hbt : (turnsOfInput (vs l.cyc))[q / (w + 1)]? = some b := by rw [← hturn, hb]
  have hle : j ≤ b.length := by
    have := h.le
    rwa [hb, Option.getD_some] at this
  have hraised : ∀ t, t < j → Raises b[t]? := by
    intro t ht
    have := h.raised t ht
    rwa [hb, Option.getD_some] at this
  have hge : turnStart (vs l.cyc) (q / (w + 1)) ≤ k l.cyc := by
    by_contra hc
    have hp := h.pos
    exact before_turn hbt (j := turnStart (vs l.cyc) (q / (w + 1)) - 1) (by omega)
      ((hk l.cyc).2 _ (by omega) (by omega))
  obtain ⟨j', hj'⟩ : ∃ j', k l.cyc = turnStart (vs l.cyc) (q / (w + 1)) + j' := ⟨_, (Nat.add_sub_cancel' hge).symm⟩
  have hjj : j' ≤ j := by
    have h1 := (hk l.cyc).1
    have h2 := h.pos
    omega
  have hne : ∀ i, LdOpen l i → i ≠ l.cyc → k i = p i := by
    intro i hi hc
    exact not_lagging (hk i) ((h.others i hi).resolve_left (fun h => hc (Option.some.inj h).symm)).2
  refine ⟨blLen vs q + j', ⟨by omega, ?_⟩, ?_⟩
  · intro m h1 h2
    obtain ⟨t, rfl⟩ : ∃ t, m = blLen vs q + t := ⟨m - blLen vs q, by omega⟩
    rw [blStream_some vs hK hb (by omega)]
    exact hraised t (by omega)
  · by_cases h0 : j' = 0
    · subst h0
      left
      obtain ⟨h1, h2, h3, h4, -⟩ := tn_fill (bl vs) hl.1 (ask_le (bl vs) hl)
      refine ⟨q, rfl, ?_, h1, Or.inl h2⟩
      intro i hi
      have hi := h4 i hi
      right
      by_cases hc : i = l.cyc
      · subst hc
        rw [hself, hj']
        exact ⟨rfl, fun t ht => before_turn hbt (by omega)⟩
      · rw [hne i hi hc]
        exact (h.others i hi).resolve_left (fun h => hc (Option.some.inj h).symm)
    · right
      refine ⟨q, j', by omega, rfl, mid_fill vs ⟨hl, ?_, hj', ?_, fun t ht => h.raised t (by omega)⟩⟩
      · intro i hi
        by_cases hc : i = l.cyc
        · exact Or.inl (by rw [hc])
        · rw [hne i hi hc]
          exact h.others i hi
      · have := h.le
        omega

theorem blocks_computes {K : Nat} (hK : ∀ i, (vs i).length ≤ K) :
    MultiComputes (ilTrans (α := α) (w + 1) w) (fun i m => (vs i)[m]?) (blStream vs K) (blAt vs) := by
  have hget : ∀ {m p} {l : IlLoc (w + 1) w}, blAt vs m p l → blAt vs m p (ilFill (List.finRange (w + 1)) l) := by
    rintro m p l (⟨q, rfl, hp, hl⟩ | ⟨q, j, hj, rfl, hm⟩)
    · obtain ⟨h1, h2, h3, h4, -⟩ := tn_fill (bl vs) hl.1 (loc_le (bl vs) hl)
      exact Or.inl ⟨q, rfl, fun i hi => hp i (h4 i hi), h1, Or.inl h2⟩
    · exact Or.inr ⟨q, j, hj, rfl, mid_fill vs hm⟩
  constructor
  · left
    refine ⟨0, rfl, ?_, ⟨?_, ?_, ?_⟩, Or.inr ⟨rfl, wpos w⟩⟩
    · intro i _
      rw [askedOf_zero]
      exact Or.inr ⟨by simp [turnStart], fun j hj => by dsimp only at hj; omega⟩
    · exact (Nat.zero_mod _).symm
    · intro i _
      exact ⟨rfl, rfl⟩
    · intro i hi
      exact absurd hi (Nat.not_lt_zero _)
  · classical
    intro m p l h
    rcases h with ⟨q, rfl, hp, hl⟩ | ⟨q, j, hj, rfl, hm⟩
    · rcases blSeek vs (β := Py α) (w + 1) q l p (wpos w) hl hp (open_ahead q l) with ⟨q', l', h1, h2, h3, h4, -⟩ | ⟨h1, h2, h3⟩
      · right
        obtain ⟨d, p', l2, e1, e2⟩ := bl_eval vs hK _ q' 0 l' p (mid_start vs h2 h3) (Nat.le_refl _)
        have e0 : blLen vs q' + 0 = blLen vs q := h4
        rw [e0] at e1 e2
        exact ⟨l'.cyc, l', d, p', l2, h1, e1, e2⟩
      · left
        have hy : blStream vs K (blLen vs q) = none := blStream_none vs (all_over (bl vs) hl.1 h2 h3)
        refine ⟨l, ?_, Or.inl ⟨q, ?_, hp, hl⟩⟩
        · rw [hy]; exact h1
        · rw [nextPos_none hy]
    · right
      obtain ⟨d, p', l2, e1, e2⟩ := bl_eval vs hK _ q j l p hm (Nat.le_refl _)
      exact ⟨(l : IlLoc (w + 1) w).cyc, l, d, p', l2, seek_open hm.ask.2.1, e1, e2⟩
  · exact hget
  · intro m p l k h hk
    rcases h with ⟨q, rfl, hp, hl⟩ | ⟨q, j, hj, rfl, hm⟩
    · refine ⟨_, .refl, hget (l := l) (Or.inl ⟨q, rfl, ?_, hl⟩)⟩
      intro i hi
      obtain ⟨h1, h2⟩ := (hp i hi).resolve_left (by simp)
      rw [not_lagging (hk i) h2]
      exact Or.inr ⟨h1, h2⟩
    · exact mid_lag vs hK hj hm hk
  · intro m p l h
    rcases h with ⟨q, rfl, hp, hl⟩ | ⟨q, j, hj, rfl, hm⟩
    · refine Or.inl ⟨q, rfl, blPos_sets vs hl.1 ?_ hp, hl⟩
      rcases hl.2 with h | h
      · exact Or.inl h
      · exact Or.inr (by omega)
    · refine Or.inr ⟨q, j, hj, rfl, hm.ask, blPos_sets vs hm.ask.1 ?_ hm.others, ?_, hm.le, hm.raised⟩
      · rcases hm.ask.2.2 with h | h
        · exact Or.inl h
        · exact Or.inr (by omega)
      · rw [tn_sets (bl vs) hm.ask.1 _ (by rw [hm.ask.2.1]; simp), if_pos rfl]
        exact hm.pos

end
end Raise
end Grain
