import Verif.Stack.LoaderLemmas
import Verif.Stack.RaiseMultiLemmas
/-
The interleave of as many inputs as its cycle length, where each input is over after its first exception.
-/
namespace Grain
namespace Raise

section
variable {α : Type} {w : Nat} (vs : Fin (w + 1) → List (Py α))

/-- Each input is over after its first exception. -/
def LastRaises : Prop := ∀ i j e, (vs i)[j]? = some (.error e) → j + 1 = (vs i).length

/-- Positions of the inputs that are not closed, of which input `b` may have raised its exception. -/
def TnPos (q : Nat) (b : Option (Fin (w + 1))) (l : IlLoc (w + 1) w) (p : Fin (w + 1) → Nat) : Prop :=
  ∀ i, LdOpen l i → p i = min (askedOf w q i) (vs i).length ∧
    (b = some i ∨ ∀ j, j + 1 = p i → ¬ Raises ((vs i)[j]?))

/-- Between two calls; in the second case the last call raised the exception of the input in use, which is asked again. -/
def tnAt (m : Nat) (p : Fin (w + 1) → Nat) (l : (ilTrans (α := α) (w + 1) w).L) : Prop :=
  (∃ q, m = turnsLen vs q ∧ TnPos vs q none l p ∧ LdLoc (w := w) vs q l) ∨
  (∃ q e, m = turnsLen vs (q + 1) ∧ turnOf vs q = some (.error e) ∧ TnPos vs (q + 1) (some (l : IlLoc (w + 1) w).cyc) l p ∧
    LdAsk (w := w) vs q l)

theorem tnPos_succ_over {q : Nat} {l : IlLoc (w + 1) w} {p : Fin (w + 1) → Nat} (hp : TnPos vs q none l p)
    (h : ∀ i : Fin (w + 1), i.val = q % (w + 1) → ¬ LdOpen l i ∨ (vs i).length ≤ askedOf w q i) : TnPos vs (q + 1) none l p := by
  intro i ho
  refine ⟨?_, (hp i ho).2⟩
  rw [(hp i ho).1, askedOf_succ]
  split
  · rcases h i ‹_› with h | h
    · exact absurd ho h
    · omega
  · rfl

theorem tnSeek {β : Type} : ∀ (k q : Nat) (l : IlLoc (w + 1) w) (p : Fin (w + 1) → Nat), 0 < k → LdLoc vs q l → TnPos vs q none l p →
    ((∀ i, l.slots i = none) ∨ ∃ j, j < k ∧ l.slots ⟨(q + j) % (w + 1), Nat.mod_lt _ (wpos w)⟩ ≠ none) →
    (∃ q' l', ilSeek (β := β) k l = .inl (l'.cyc, l') ∧ LdAsk vs q' l' ∧ TnPos vs q' none l' p ∧ turnsLen vs q' = turnsLen vs q ∧
      ∀ i, LdOpen l' i ↔ LdOpen l i) ∨
    (ilSeek (β := β) k l = .inr (none, l) ∧ l.nextDs = w + 1 ∧ ∀ i, l.slots i = none) := by
  intro k
  induction k with
  | zero => intro q l p h; omega
  | succ k ih =>
    intro q l p _ hl hp hop
    unfold ilSeek
    cases hs : l.slots l.cyc with
    | some d =>
      left
      have hd : d = l.cyc := by
        by_cases hlt : l.cyc.val < l.nextDs
        · rcases hl.1.used _ hlt with h | ⟨h, -⟩
          · rw [hs] at h; cases h; rfl
          · rw [hs] at h; cases h
        · rw [(hl.1.unused _ (by omega)).1] at hs; cases hs
      subst hd
      refine ⟨q, l, rfl, ⟨hl.1, hs, ?_⟩, hp, rfl, fun i => Iff.rfl⟩
      rcases hl.2 with h | ⟨h1, h2⟩
      · exact Or.inl h
      · exfalso
        have hc : l.cyc.val = q := by rw [hl.1.cyc, Nat.mod_eq_of_lt h2]
        rw [(hl.1.unused l.cyc (by omega)).1] at hs
        cases hs
    | none =>
      dsimp only
      by_cases hn : l.nextDs < w + 1
      · left
        have hq : l.nextDs = q := by rcases hl.2 with h | ⟨h1, h2⟩ <;> omega
        have hc : l.cyc.val = l.nextDs := by rw [hl.1.cyc, ← hq, Nat.mod_eq_of_lt hn]
        have hc' : (⟨l.nextDs, hn⟩ : Fin (w + 1)) = l.cyc := Fin.ext hc.symm
        rw [dif_pos hn, hc']
        have hiff : ∀ i, LdOpen { l with slots := Function.update l.slots l.cyc (some l.cyc)
                                         exh := Function.update l.exh l.cyc false
                                         nextDs := l.nextDs + 1 } i ↔ LdOpen l i := by
          intro i
          unfold LdOpen
          dsimp only
          by_cases hne : i = l.cyc
          · subst hne
            simp [hc]
          · have : i.val ≠ l.cyc.val := fun h => hne (Fin.ext h)
            rw [Function.update_of_ne hne]
            constructor
            · rintro (h | h)
              · exact Or.inl h
              · exact Or.inr (by omega)
            · rintro (h | h)
              · exact Or.inl h
              · exact Or.inr (by omega)
        refine ⟨q, { l with slots := Function.update l.slots l.cyc (some l.cyc)
                            exh := Function.update l.exh l.cyc false
                            nextDs := l.nextDs + 1 }, rfl, ⟨⟨hl.1.cyc, ?_, ?_⟩, by simp, Or.inr ⟨by dsimp only; omega, by omega⟩⟩,
                            fun i hi => hp i ((hiff i).1 hi), rfl, hiff⟩
        · intro i hi
          dsimp only at hi ⊢
          have hne : i ≠ l.cyc := by rintro rfl; omega
          rw [Function.update_of_ne hne, Function.update_of_ne hne]
          exact hl.1.unused i (by omega)
        · intro i hi
          dsimp only at hi ⊢
          by_cases hne : i = l.cyc
          · subst hne
            left
            rw [Function.update_self]
          · have : i.val ≠ l.cyc.val := fun h => hne (Fin.ext h)
            rw [Function.update_of_ne hne, Function.update_of_ne hne]
            exact hl.1.used i (by omega)
      · have hnd : l.nextDs = w + 1 := by rcases hl.2 with h | ⟨h1, h2⟩ <;> omega
        rw [dif_neg hn]
        obtain ⟨ht, hlen⟩ := turn_over vs hl.1 hs (by have := l.cyc.isLt; omega)
        by_cases hany : (List.finRange (w + 1)).any (fun i => (l.slots i).isSome) = true
        · rw [if_pos hany]
          obtain ⟨i0, -, hi0⟩ := List.any_eq_true.1 hany
          rcases hop with hall | ⟨j, hj, hsj⟩
          · rw [hall i0] at hi0; cases hi0
          · have hj0 : j ≠ 0 := by
              rintro rfl
              apply hsj
              rw [← hs]
              congr 1
              exact Fin.ext (by simp [hl.1.cyc])
            rcases ih (q + 1) { l with cyc := l.cyc + 1 } p (by omega) ⟨ldSlots_succ vs hl.1, Or.inl hnd⟩
              (tnPos_succ_over (l := l) vs hp (fun i hi => by
                have : i = l.cyc := Fin.ext (by rw [hi, hl.1.cyc])
                rw [this]; exact Or.inr hlen))
              (Or.inr ⟨j - 1, by omega, by
                have : q + 1 + (j - 1) = q + j := by omega
                dsimp only
                simp only [this]
                exact hsj⟩) with ⟨q', l', h1, h2, h3, h4, h5⟩ | ⟨-, -, h3⟩
            · exact Or.inl ⟨q', l', h1, h2, h3, by rw [h4, turnsLen_none vs ht], h5⟩
            · exact absurd (h3 i0) (by intro h; dsimp only at h; rw [h] at hi0; cases hi0)
        · rw [if_neg hany]
          right
          refine ⟨rfl, hnd, ?_⟩
          intro i
          cases h : l.slots i with
          | none => rfl
          | some d => exact absurd (List.any_eq_true.2 ⟨i, List.mem_finRange i, by simp [h]⟩) hany

theorem ask_used {β : Type} (vs : Fin (w + 1) → List β) {q : Nat} {l : IlLoc (w + 1) w} (hl : LdAsk vs q l) : l.cyc.val < l.nextDs := by
  have h1 := l.cyc.isLt
  rcases hl.2.2 with h | ⟨h2, h3⟩
  · omega
  · have := hl.1.cyc
    rw [Nat.mod_eq_of_lt h3] at this
    omega

open Classical in
theorem tn_eval {K : Nat} (hK : ∀ i, (vs i).length ≤ K) (hv : LastRaises vs) : ∀ (c q m : Nat) (l : IlLoc (w + 1) w)
    (p : Fin (w + 1) → Nat), LdAsk vs q l →
    ((m = turnsLen vs q ∧ TnPos vs q none l p) ∨
     (m = turnsLen vs (q + 1) ∧ TnPos vs (q + 1) (some l.cyc) l p ∧ (vs l.cyc).length ≤ askedOf w (q + 1) l.cyc)) →
    (Finset.univ.filter (fun i => LdOpen l i)).card ≤ c →
    ∃ d p' l', MtEval (ilTrans (α := α) (w + 1) w) (fun i m => (vs i)[m]?) d l.cyc l p (turnsStream vs K m) p' l' ∧
      tnAt vs (nextPos (turnsStream vs K) m) p' l' := by
  intro c
  induction c with
  | zero =>
    intro q m l p hl hp hc
    exfalso
    have hmem : l.cyc ∈ Finset.univ.filter (fun i => LdOpen l i) := by
      rw [Finset.mem_filter]
      exact ⟨Finset.mem_univ _, Or.inl (by rw [hl.2.1]; simp)⟩
    have := Finset.card_pos.2 ⟨_, hmem⟩
    omega
  | succ c ih =>
    intro q m l p hl hp hc
    have hcyc : l.cyc = ⟨q % (w + 1), Nat.mod_lt _ (wpos w)⟩ := Fin.ext hl.1.cyc
    have hopen : LdOpen l l.cyc := Or.inl (by rw [hl.2.1]; simp)
    have hself : askedOf w q l.cyc = q / (w + 1) := by rw [hcyc, askedOf_self]
    have hturn : turnOf vs q = (vs l.cyc)[q / (w + 1)]? := by rw [hcyc]; rfl
    have hsucc : askedOf w (q + 1) l.cyc = q / (w + 1) + 1 := by rw [askedOf_succ, if_pos hl.1.cyc, hself]
    have hcn := ask_used vs hl
    -- an outcome, or the input is over
    have hcase : (∃ a, m = turnsLen vs q ∧ TnPos vs q none l p ∧ turnOf vs q = some a) ∨
        (m = turnsLen vs (q + 1) ∧ TnPos vs (q + 1) (some l.cyc) l p ∧ (vs l.cyc).length ≤ askedOf w (q + 1) l.cyc) := by
      rcases hp with ⟨hm, hp⟩ | hp
      · cases ht : turnOf vs q with
        | some a => exact Or.inl ⟨a, hm, hp, rfl⟩
        | none =>
          have hge : (vs l.cyc).length ≤ q / (w + 1) := by
            rw [hturn] at ht
            exact List.getElem?_eq_none_iff.1 ht
          refine Or.inr ⟨by rw [turnsLen_none vs ht, hm], ?_, by omega⟩
          intro i hi
          obtain ⟨h1, h2⟩ := tnPos_succ_over (l := l) vs hp (fun i hi => by
            have : i = l.cyc := Fin.ext (by rw [hi, hl.1.cyc])
            rw [this]; exact Or.inr (by omega)) i hi
          exact ⟨h1, h2.elim (fun h => by cases h) Or.inr⟩
      · exact Or.inr hp
    rcases hcase with ⟨r, rfl, hp, ht⟩ | ⟨rfl, hp, hge⟩
    · have hlt : q / (w + 1) < (vs l.cyc).length := by
        rw [hturn] at ht
        exact (List.getElem?_eq_some_iff.1 ht).1
      have hpe : p l.cyc = q / (w + 1) := by
        have := (hp l.cyc hopen).1
        omega
      have hx : (vs l.cyc)[p l.cyc]? = some r := by rw [hpe, ← hturn, ht]
      have hy := turnsStream_some vs hK ht
      have hpos : ∀ i, LdOpen l i → Function.update p l.cyc (nextPos (fun m => (vs l.cyc)[m]?) (p l.cyc)) i =
          min (askedOf w (q + 1) i) (vs i).length ∧ (i ≠ l.cyc → ∀ j, j + 1 =
            Function.update p l.cyc (nextPos (fun m => (vs l.cyc)[m]?) (p l.cyc)) i → ¬ Raises ((vs i)[j]?)) := by
        intro i ho
        rw [askedOf_succ]
        by_cases hi : i = l.cyc
        · subst hi
          refine ⟨?_, fun h => absurd rfl h⟩
          rw [Function.update_self, nextPos_some (x := fun m => (vs l.cyc)[m]?) hx, if_pos hl.1.cyc, hpe]
          omega
        · have : i.val ≠ q % (w + 1) := fun h => hi (Fin.ext (by rw [h, hl.1.cyc]))
          rw [Function.update_of_ne hi, if_neg this]
          exact ⟨(hp i ho).1, fun _ => (hp i ho).2.elim (fun h => by cases h) id⟩
      cases r with
      | ok a =>
        refine ⟨1, _, { l with cyc := l.cyc + 1 }, .last ?_, Or.inl ?_⟩
        · rw [hy]
          show (ilTrans (α := α) (w + 1) w).resume l.cyc l ((vs l.cyc)[p l.cyc]?) = _
          rw [hx]
          rfl
        · refine ⟨q + 1, ?_, ?_, ⟨ldSlots_succ vs hl.1, ?_⟩⟩
          · rw [nextPos_some hy, turnsLen_some vs ht]
          · intro i ho
            refine ⟨(hpos i ho).1, Or.inr ?_⟩
            by_cases hi : i = l.cyc
            · subst hi
              intro j hj
              rw [Function.update_self, nextPos_some (x := fun m => (vs l.cyc)[m]?) hx] at hj
              have : j = p l.cyc := by omega
              subst this
              rw [hx]
              rintro ⟨e, he⟩
              cases he
            · exact (hpos i ho).2 hi
          · dsimp only
            rcases hl.2.2 with h | ⟨h1, h2⟩
            · exact Or.inl h
            · by_cases h3 : q + 1 = w + 1
              · exact Or.inl (by omega)
              · exact Or.inr ⟨h1, by omega⟩
      | error e =>
        refine ⟨1, _, l, .last ?_, Or.inr ⟨q, e, ?_, ht, ?_, hl⟩⟩
        · rw [hy]
          show (ilTrans (α := α) (w + 1) w).resume l.cyc l ((vs l.cyc)[p l.cyc]?) = _
          rw [hx]
          rfl
        · rw [nextPos_some hy, turnsLen_some vs ht]
        · intro i ho
          refine ⟨(hpos i ho).1, ?_⟩
          by_cases hi : i = l.cyc
          · exact Or.inl (by rw [hi])
          · exact Or.inr ((hpos i ho).2 hi)
    · have hx : (vs l.cyc)[p l.cyc]? = none := by
        rw [List.getElem?_eq_none_iff, (hp l.cyc hopen).1]
        omega
      have hupd : Function.update p l.cyc (nextPos (fun m => (vs l.cyc)[m]?) (p l.cyc)) = p := by
        rw [nextPos_none (x := fun m => (vs l.cyc)[m]?) hx, Function.update_eq_self]
      -- the slot is closed
      let l1 : IlLoc (w + 1) w := { l with slots := Function.update l.slots l.cyc none
                                           exh := Function.update l.exh l.cyc true
                                           cyc := l.cyc + 1 }
      have hl1 : LdLoc vs (q + 1) l1 := by
        refine ⟨⟨cyc_succ q _ hl.1.cyc, ?_, ?_⟩, ?_⟩
        · intro i hi
          have hne : i ≠ l.cyc := by
            rintro rfl
            have : l.nextDs ≤ l.cyc.val := hi
            omega
          show Function.update l.slots l.cyc none i = none ∧ Function.update l.exh l.cyc true i = false
          rw [Function.update_of_ne hne, Function.update_of_ne hne]
          exact hl.1.unused i hi
        · intro i hi
          show Function.update l.slots l.cyc none i = some i ∨ (Function.update l.slots l.cyc none i = none ∧
            Function.update l.exh l.cyc true i = true ∧ _)
          by_cases hne : i = l.cyc
          · subst hne
            right
            rw [Function.update_self, Function.update_self]
            exact ⟨rfl, rfl, hge⟩
          · rw [Function.update_of_ne hne, Function.update_of_ne hne]
            exact (ldSlots_succ vs hl.1).used i hi
        · show l.nextDs = w + 1 ∨ (l.nextDs = q + 1 ∧ q + 1 < w + 1)
          rcases hl.2.2 with h | ⟨h1, h2⟩
          · exact Or.inl h
          · by_cases h3 : q + 1 = w + 1
            · exact Or.inl (by omega)
            · exact Or.inr ⟨h1, by omega⟩
      have hclosed : ¬ LdOpen l1 l.cyc := by
        rintro (h | h)
        · exact h (Function.update_self _ _ _)
        · have : l.nextDs ≤ l.cyc.val := h
          omega
      have hmono : ∀ i, LdOpen l1 i → LdOpen l i ∧ i ≠ l.cyc := by
        intro i hi
        have hne : i ≠ l.cyc := by
          rintro rfl
          exact hclosed hi
        refine ⟨?_, hne⟩
        rcases hi with h | h
        · left
          intro h0
          apply h
          show Function.update l.slots l.cyc none i = none
          rw [Function.update_of_ne hne, h0]
        · exact Or.inr h
      have hp1 : TnPos vs (q + 1) none l1 p := by
        intro i hi
        obtain ⟨h1, h2⟩ := hmono i hi
        refine ⟨(hp i h1).1, Or.inr ?_⟩
        rcases (hp i h1).2 with h | h
        · exact absurd (Option.some.inj h).symm h2
        · exact h
      have hres : (ilTrans (α := α) (w + 1) w).resume l.cyc l ((vs l.cyc)[p l.cyc]?) = ilSeek (w + 1) l1 := by
        rw [hx]; rfl
      rcases tnSeek vs (β := Py α) (w + 1) (q + 1) l1 p (wpos w) hl1 hp1 (open_ahead (q + 1) l1) with
        ⟨q', l', h1, h2, h3, h4, h5⟩ | ⟨h1, h2, h3⟩
      · have hcard : (Finset.univ.filter (fun i => LdOpen l' i)).card ≤ c := by
          have hsub : Finset.univ.filter (fun i => LdOpen l' i) ⊂ Finset.univ.filter (fun i => LdOpen l i) := by
            rw [Finset.ssubset_iff_of_subset]
            · refine ⟨l.cyc, ?_, ?_⟩
              · rw [Finset.mem_filter]
                exact ⟨Finset.mem_univ _, hopen⟩
              · rw [Finset.mem_filter]
                rintro ⟨-, h⟩
                rw [h5] at h
                exact hclosed h
            · intro i
              rw [Finset.mem_filter, Finset.mem_filter, h5]
              rintro ⟨-, h⟩
              exact ⟨Finset.mem_univ _, (hmono i h).1⟩
          have := Finset.card_lt_card hsub
          omega
        obtain ⟨d, p', l2, e1, e2⟩ := ih q' _ l' p h2 (Or.inl ⟨h4.symm, h3⟩) hcard
        refine ⟨d + 1, p', l2, .more (i' := l'.cyc) (k' := l') ?_ ?_, e2⟩
        · show (ilTrans (α := α) (w + 1) w).resume l.cyc l ((vs l.cyc)[p l.cyc]?) = _
          exact hres.trans h1
        · show MtEval (ilTrans (α := α) (w + 1) w) (fun i m => (vs i)[m]?) d l'.cyc l' (Function.update p l.cyc (nextPos (fun m => (vs l.cyc)[m]?) (p l.cyc))) _ _ _
          rw [hupd]
          exact e1
      · have hy : turnsStream vs K (turnsLen vs (q + 1)) = none :=
          turnsStream_none vs (all_over vs hl1.1 h2 h3)
        refine ⟨1, _, l1, .last ?_, Or.inl ?_⟩
        · show (ilTrans (α := α) (w + 1) w).resume l.cyc l ((vs l.cyc)[p l.cyc]?) = _
          rw [hy]
          exact hres.trans h1
        · refine ⟨q + 1, ?_, ?_, hl1⟩
          · rw [nextPos_none hy]
          · show TnPos vs (q + 1) none l1 (Function.update p l.cyc (nextPos (fun m => (vs l.cyc)[m]?) (p l.cyc)))
            rw [hupd]
            exact hp1

theorem tn_wf {β : Type} (vs : Fin (w + 1) → List β) {q : Nat} {l : IlLoc (w + 1) w} (h : LdSlots vs q l) (hle : l.nextDs ≤ w + 1) :
    IlWF (L := w) (fun (_ : Fin (w + 1)) (_ : Nat) => (none : Option α)) (fun _ => 0) l := by
  have hsome : ∀ {i d}, l.slots i = some d → d = i ∧ i.val < l.nextDs := by
    intro i d hi
    by_cases hlt : i.val < l.nextDs
    · rcases h.used i hlt with h1 | ⟨h1, -⟩
      · rw [h1] at hi; cases hi; exact ⟨rfl, hlt⟩
      · rw [h1] at hi; cases hi
    · rw [(h.unused i (by omega)).1] at hi; cases hi
  refine ⟨hle, ?_, ?_, fun _ => rfl, fun _ => rfl, fun {i} hi => h.unused i hi, ?_⟩
  · intro i d hi
    obtain ⟨rfl, h2⟩ := hsome hi
    exact h2
  · intro i j d hi hj
    rw [← (hsome hi).1, ← (hsome hj).1]
  · intro i h1 h2
    by_contra hc
    rcases h.used i (by omega) with h3 | ⟨-, h3, -⟩
    · rw [h1] at h3; cases h3
    · rw [h2] at h3; cases h3

/-- What `get_state` does: all inputs are open or closed for good. -/
theorem tn_fill {β : Type} (vs : Fin (w + 1) → List β) {q : Nat} {l : IlLoc (w + 1) w} (h : LdSlots vs q l) (hle : l.nextDs ≤ w + 1) :
    let l' := ilFill (List.finRange (w + 1)) l
    LdSlots vs q l' ∧ l'.nextDs = w + 1 ∧ l'.cyc = l.cyc ∧ (∀ i, LdOpen l' i → LdOpen l i) ∧ (l.slots l.cyc = some l.cyc → l'.slots l.cyc = some l.cyc) := by
  rw [ilFill_norm (L := w) (Nat.lt_succ_self w) (tn_wf (α := Unit) vs h hle)]
  dsimp only
  refine ⟨⟨h.cyc, ?_, ?_⟩, ?_, rfl, ?_, ?_⟩
  · intro i hi
    have : max l.nextDs (w + 1) ≤ i.val := hi
    have := i.isLt
    omega
  · intro i _
    show (if l.nextDs ≤ i.val then some _ else l.slots i) = some i ∨ _
    by_cases hi : l.nextDs ≤ i.val
    · rw [if_pos hi]; exact Or.inl rfl
    · rw [if_neg hi]
      rcases h.used i (by omega) with h1 | ⟨h1, h2, h3⟩
      · exact Or.inl h1
      · right
        refine ⟨?_, h2, h3⟩
        show (if l.nextDs ≤ i.val then some _ else l.slots i) = none
        rw [if_neg hi]
        exact h1
  · show max l.nextDs (w + 1) = w + 1
    omega
  · rintro i (h1 | h1)
    · by_cases hi : l.nextDs ≤ i.val
      · exact Or.inr hi
      · left
        have : (if l.nextDs ≤ i.val then some _ else l.slots i) ≠ none := h1
        rwa [if_neg hi] at this
    · have : max l.nextDs (w + 1) ≤ i.val := h1
      have := i.isLt
      omega
  · intro h1
    show (if l.nextDs ≤ l.cyc.val then some _ else l.slots l.cyc) = some l.cyc
    split
    · rfl
    · exact h1

theorem tn_sets {β : Type} (vs : Fin (w + 1) → List β) {q : Nat} {l : IlLoc (w + 1) w} (h : LdSlots vs q l) (i : Fin (w + 1)) (hi : l.slots i ≠ none) :
    (ilTrans (α := α) (w + 1) w).sets l i = true := by
  show (List.finRange (w + 1)).any (fun j => l.slots j == some i) = _
  rw [List.any_eq_true]
  refine ⟨i, List.mem_finRange i, ?_⟩
  by_cases hlt : i.val < l.nextDs
  · rcases h.used i hlt with h1 | ⟨h1, -⟩
    · rw [h1]; simp
    · exact absurd h1 hi
  · exact absurd (h.unused i (by omega)).1 hi

theorem tnPos_sets {q : Nat} {b : Option (Fin (w + 1))} {l : IlLoc (w + 1) w} {p : Fin (w + 1) → Nat} (h : LdSlots vs q l)
    {q' : Nat} (hq : l.nextDs = w + 1 ∨ q' ≤ l.nextDs) (hp : TnPos vs q' b l p) :
    TnPos vs q' b l (fun i => if (ilTrans (α := α) (w + 1) w).sets l i then p i else 0) := by
  intro i hi
  by_cases hs : l.slots i = none
  · have hn : l.nextDs ≤ i.val := hi.resolve_left (fun h => h hs)
    have hlt := i.isLt
    have h0 : askedOf w q' i = 0 := askedOf_first (by omega)
    have hp0 := hp i hi
    rw [h0, Nat.zero_min] at hp0
    dsimp only
    rw [h0, Nat.zero_min]
    refine ⟨by split <;> simp [hp0.1], Or.inr ?_⟩
    intro j hj
    split at hj <;> omega
  · dsimp only
    rw [tn_sets vs h i hs, if_pos rfl]
    exact hp i hi

theorem ask_le {β : Type} (vs : Fin (w + 1) → List β) {q : Nat} {l : IlLoc (w + 1) w} (hl : LdAsk vs q l) : l.nextDs ≤ w + 1 := by
  rcases hl.2.2 with h | h <;> omega

theorem loc_le {β : Type} (vs : Fin (w + 1) → List β) {q : Nat} {l : IlLoc (w + 1) w} (hl : LdLoc vs q l) : l.nextDs ≤ w + 1 := by
  rcases hl.2 with h | h <;> omega

/-- An input that has not raised does not lag. -/
theorem not_lagging {v : List (Py α)} {k p : Nat} (h : Lagging (fun m => v[m]?) k p) (hp : ∀ j, j + 1 = p → ¬ Raises (v[j]?)) :
    k = p := by
  have h1 := h.1
  by_contra hne
  exact hp (p - 1) (by omega) (h.2 (p - 1) (by omega) (by omega))

theorem seek_open {β : Type} {l : IlLoc (w + 1) w} (h : l.slots l.cyc = some l.cyc) :
    ilSeek (β := β) (w + 1) l = .inl (l.cyc, l) := by
  unfold ilSeek
  rw [h]

theorem ilTrans_computes {K : Nat} (hK : ∀ i, (vs i).length ≤ K) (hv : LastRaises vs) :
    MultiComputes (ilTrans (α := α) (w + 1) w) (fun i m => (vs i)[m]?) (turnsStream vs K) (tnAt vs) := by
  have hget : ∀ {m p} {l : IlLoc (w + 1) w}, tnAt vs m p l → tnAt vs m p (ilFill (List.finRange (w + 1)) l) := by
    rintro m p l (⟨q, rfl, hp, hl⟩ | ⟨q, e, rfl, ht, hp, hl⟩)
    · obtain ⟨h1, h2, h3, h4, -⟩ := tn_fill vs hl.1 (loc_le vs hl)
      exact Or.inl ⟨q, rfl, fun i hi => hp i (h4 i hi), h1, Or.inl h2⟩
    · obtain ⟨h1, h2, h3, h4, h5⟩ := tn_fill vs hl.1 (ask_le vs hl)
      refine Or.inr ⟨q, e, rfl, ht, ?_, h1, ?_, Or.inl h2⟩
      · rw [h3]
        exact fun i hi => hp i (h4 i hi)
      · rw [h3]
        exact h5 hl.2.1
  constructor
  · left
    refine ⟨0, rfl, ?_, ⟨?_, ?_, ?_⟩, Or.inr ⟨rfl, wpos w⟩⟩
    · intro i _
      rw [askedOf_zero]
      exact ⟨by simp, Or.inr (fun j hj => by dsimp only at hj; omega)⟩
    · exact (Nat.zero_mod _).symm
    · intro i _
      exact ⟨rfl, rfl⟩
    · intro i hi
      exact absurd hi (Nat.not_lt_zero _)
  · classical
    intro m p l h
    rcases h with ⟨q, rfl, hp, hl⟩ | ⟨q, e, rfl, ht, hp, hl⟩
    · rcases tnSeek vs (β := Py α) (w + 1) q l p (wpos w) hl hp (open_ahead q l) with ⟨q', l', h1, h2, h3, h4, -⟩ | ⟨h1, h2, h3⟩
      · right
        obtain ⟨d, p', l2, e1, e2⟩ := tn_eval vs hK hv _ q' _ l' p h2 (Or.inl ⟨h4.symm, h3⟩) (Nat.le_refl _)
        exact ⟨l'.cyc, l', d, p', l2, h1, e1, e2⟩
      · left
        have hy : turnsStream vs K (turnsLen vs q) = none := turnsStream_none vs (all_over vs hl.1 h2 h3)
        refine ⟨l, ?_, Or.inl ⟨q, ?_, hp, hl⟩⟩
        · rw [hy]; exact h1
        · rw [nextPos_none hy]
    · right
      have hcyc : (l : IlLoc (w + 1) w).cyc = ⟨q % (w + 1), Nat.mod_lt _ (wpos w)⟩ := Fin.ext hl.1.cyc
      have hge : (vs (l : IlLoc (w + 1) w).cyc).length ≤ askedOf w (q + 1) (l : IlLoc (w + 1) w).cyc := by
        have hself : askedOf w q (l : IlLoc (w + 1) w).cyc = q / (w + 1) := by rw [hcyc, askedOf_self]
        rw [askedOf_succ, if_pos hl.1.cyc, hself, hcyc]
        exact Nat.le_of_eq (hv _ _ _ ht).symm
      obtain ⟨d, p', l2, e1, e2⟩ := tn_eval vs hK hv _ q _ l p hl (Or.inr ⟨rfl, hp, hge⟩) (Nat.le_refl _)
      refine ⟨(l : IlLoc (w + 1) w).cyc, l, d, p', l2, ?_, e1, e2⟩
      exact seek_open hl.2.1
  · exact hget
  · intro m p l k h hk
    rcases h with ⟨q, rfl, hp, hl⟩ | ⟨q, e, rfl, ht, hp, hl⟩
    · refine ⟨_, .refl, hget (l := l) (Or.inl ⟨q, rfl, ?_, hl⟩)⟩
      intro i hi
      have := hp i hi
      have he := not_lagging (hk i) (this.2.elim (fun h => by cases h) id)
      rw [he]
      exact this
    · have hne : ∀ i, LdOpen (l : IlLoc (w + 1) w) i → i ≠ (l : IlLoc (w + 1) w).cyc → k i = p i := by
        intro i hi hc
        refine not_lagging (hk i) ((hp i hi).2.elim (fun h => absurd (Option.some.inj h).symm hc) id)
      have hopen : LdOpen (l : IlLoc (w + 1) w) (l : IlLoc (w + 1) w).cyc := Or.inl (by rw [hl.2.1]; simp)
      by_cases hkc : k (l : IlLoc (w + 1) w).cyc = p (l : IlLoc (w + 1) w).cyc
      · refine ⟨_, .refl, hget (l := l) (Or.inr ⟨q, e, rfl, ht, ?_, hl⟩)⟩
        intro i hi
        by_cases hc : i = (l : IlLoc (w + 1) w).cyc
        · subst hc
          rw [hkc]
          exact hp _ hi
        · rw [hne i hi hc]
          exact hp i hi
      · -- the exception is raised again
        have hcyc : (l : IlLoc (w + 1) w).cyc = ⟨q % (w + 1), Nat.mod_lt _ (wpos w)⟩ := Fin.ext hl.1.cyc
        have hself : askedOf w q (l : IlLoc (w + 1) w).cyc = q / (w + 1) := by rw [hcyc, askedOf_self]
        have hlen : q / (w + 1) + 1 = (vs (l : IlLoc (w + 1) w).cyc).length := by
          rw [hcyc]
          exact hv _ _ _ ht
        have hpc : p (l : IlLoc (w + 1) w).cyc = q / (w + 1) + 1 := by
          have := (hp _ hopen).1
          rw [askedOf_succ, if_pos hl.1.cyc, hself] at this
          omega
        have hkv : k (l : IlLoc (w + 1) w).cyc = q / (w + 1) := by
          have h1 := (hk (l : IlLoc (w + 1) w).cyc).1
          by_contra hc
          obtain ⟨e', he'⟩ := (hk (l : IlLoc (w + 1) w).cyc).2 (q / (w + 1) - 1) (by omega) (by omega)
          have := hv _ _ _ he'
          omega
        have hy := turnsStream_some vs hK ht
        obtain ⟨h1, h2, h3, h4, h5⟩ := tn_fill vs hl.1 (ask_le vs hl)
        refine ⟨turnsLen vs q, ⟨?_, ?_⟩, Or.inl ⟨q, rfl, ?_, h1, Or.inl h2⟩⟩
        · rw [turnsLen_some vs ht]; omega
        · intro j hj1 hj2
          rw [turnsLen_some vs ht] at hj2
          obtain rfl : j = turnsLen vs q := by omega
          exact ⟨e, hy⟩
        · intro i hi
          have hi := h4 i hi
          by_cases hc : i = (l : IlLoc (w + 1) w).cyc
          · subst hc
            rw [hkv, hself]
            refine ⟨by omega, Or.inr ?_⟩
            rintro j hj ⟨e', he'⟩
            have := hv _ _ _ he'
            omega
          · have h6 := hp i hi
            have hc' : i.val ≠ q % (w + 1) := fun h => hc (Fin.ext (by rw [h, hl.1.cyc]))
            rw [hne i hi hc]
            rw [askedOf_succ, if_neg hc'] at h6
            exact ⟨h6.1, Or.inr (h6.2.elim (fun h => absurd (Option.some.inj h).symm hc) id)⟩
  · intro m p l h
    rcases h with ⟨q, rfl, hp, hl⟩ | ⟨q, e, rfl, ht, hp, hl⟩
    · refine Or.inl ⟨q, rfl, tnPos_sets vs hl.1 ?_ hp, hl⟩
      rcases hl.2 with h | h
      · exact Or.inl h
      · exact Or.inr (by omega)
    · refine Or.inr ⟨q, e, rfl, ht, tnPos_sets vs hl.1 ?_ hp, hl⟩
      rcases hl.2.2 with h | h
      · exact Or.inl h
      · exact Or.inr (by omega)

end
end Raise
end Grain
