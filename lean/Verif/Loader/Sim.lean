import Verif.Loader.Ops
import Verif.Interleave.Props
/-
The data loader's own checkpoint format over the interleaving iterator.

A loader state does not say which workers are exhausted: after a restore an exhausted worker is in its slot again, at its
end.  `Ghost` relates the machine with such slots to the one without.
-/
namespace Grain

structure Ghost (xs : Nat → List (Py α)) (n L : Nat) (A B : AIL) : Prop where
  cyc : A.cyc = B.cyc
  na : n ≤ A.nextDs
  nb : n ≤ B.nextDs
  slot : ∀ i, i < L → A.slots i = B.slots i ∨ (A.slots i = none ∧ ∃ d p, B.slots i = some (d, p) ∧ (xs d).length ≤ p)

/-- No slot has anything left. -/
def AllOver (xs : Nat → List (Py α)) (n L : Nat) (B : AIL) : Prop :=
  n ≤ B.nextDs ∧ B.cyc < L ∧ ∀ i, i < L → B.slots i = none ∨ ∃ d p, B.slots i = some (d, p) ∧ (xs d).length ≤ p

theorem getElem?_none_of_le {l : List β} {p : Nat} (h : l.length ≤ p) : l[p]? = none := List.getElem?_eq_none h

theorem allOver_finished {xs : Nat → List (Py α)} {n L : Nat} {B B' : AIL} {o : AOut α} (hL : 0 < L) (h : ANext xs true n L B B' o) :
    AllOver xs n L B → o = .finished := by
  induction h with
  | @done B B' o ht hne =>
    rintro ⟨h1, h2, h3⟩
    cases aTurn_cases xs true n L B with
    | ok d p a hs hx he =>
      rcases h3 _ h2 with h | ⟨d', p', h, hle⟩
      · rw [h] at hs; cases hs
      · rw [h] at hs; cases hs; rw [getElem?_none_of_le hle] at hx; cases hx
    | err d p e hs hx he =>
      rcases h3 _ h2 with h | ⟨d', p', h, hle⟩
      · rw [h] at hs; cases hs
      · rw [h] at hs; cases hs; rw [getElem?_none_of_le hle] at hx; cases hx
    | exh d p hs hx hend he => rw [ht] at he; cases he; exact absurd rfl hne
    | stuck d p hs hx hend he => cases hend
    | opn hs hn he => omega
    | skip i hs hn hi hl he => rw [ht] at he; cases he; exact absurd rfl hne
    | fin hall hs hn he => rw [ht] at he; exact (Prod.mk.inj he).2
  | @step B B1 B' o ht _ ih =>
    rintro ⟨h1, h2, h3⟩
    apply ih
    cases aTurn_cases xs true n L B with
    | ok d p a hs hx he => rw [ht] at he; cases he
    | err d p e hs hx he => rw [ht] at he; cases he
    | exh d p hs hx hend he =>
      rw [ht] at he
      cases he
      refine ⟨h1, Nat.mod_lt _ hL, ?_⟩
      intro i hi
      dsimp only
      by_cases hic : i = B.cyc
      · subst hic; rw [upd_same]; exact Or.inl rfl
      · rw [upd_ne _ _ hic]; exact h3 i hi
    | stuck d p hs hx hend he => cases hend
    | opn hs hn he => omega
    | skip i hs hn hi hl he => rw [ht] at he; cases he; exact ⟨h1, Nat.mod_lt _ hL, h3⟩
    | fin hall hs hn he => rw [ht] at he; cases he

theorem Ghost.upd {xs : Nat → List (Py α)} {n L : Nat} {A B : AIL} (h : Ghost xs n L A B) (v : Option (Nat × Nat)) (c : Nat) :
    Ghost xs n L { A with slots := Function.update A.slots A.cyc v, cyc := c } { B with slots := Function.update B.slots B.cyc v, cyc := c } := by
  refine ⟨rfl, h.na, h.nb, ?_⟩
  intro i hi
  dsimp only
  by_cases hic : i = A.cyc
  · subst hic
    rw [upd_same]
    conv => lhs; rhs; rw [h.cyc]
    rw [upd_same]
    exact Or.inl rfl
  · rw [upd_ne _ _ hic, upd_ne _ _ (by rw [← h.cyc]; exact hic)]
    exact h.slot i hi

theorem ghost_next {xs : Nat → List (Py α)} {n L : Nat} (hL : 0 < L) {A A' : AIL} {o : AOut α} (h : ANext xs true n L A A' o) :
    ∀ {B : AIL}, Ghost xs n L A B → AWF n L B → ∃ B', ANext xs true n L B B' o ∧ (o ≠ .finished → Ghost xs n L A' B') := by
  induction h with
  | @done A A' o ht hne =>
    intro B hg hw
    have hcl : A.cyc < L := by rw [hg.cyc]; exact hw.cyc
    have hsl := hg.slot A.cyc hcl
    cases aTurn_cases xs true n L A with
    | ok d p a hs hx he =>
      rw [ht] at he
      cases he
      have hb : B.slots B.cyc = some (d, p) := by
        rcases hsl with h | ⟨h, _⟩
        · rw [← hg.cyc, ← h]; exact hs
        · rw [h] at hs; cases hs
      refine ⟨_, .done (by simp only [aTurn, hb, hx]; rfl) (by simp), fun _ => ?_⟩
      have := hg.upd (some (d, p + 1)) ((A.cyc + 1) % L)
      rw [← hg.cyc] at this ⊢
      exact this
    | err d p e hs hx he =>
      rw [ht] at he
      cases he
      have hb : B.slots B.cyc = some (d, p) := by
        rcases hsl with h | ⟨h, _⟩
        · rw [← hg.cyc, ← h]; exact hs
        · rw [h] at hs; cases hs
      refine ⟨_, .done (by simp only [aTurn, hb, hx]; rfl) (by simp), fun _ => ?_⟩
      have := hg.upd (some (d, p + 1)) A.cyc
      rw [← hg.cyc] at this ⊢
      obtain ⟨a1, a2, a3, a4⟩ := this
      exact ⟨rfl, a2, a3, a4⟩
    | exh d p hs hx hend he => rw [ht] at he; cases he; exact absurd rfl hne
    | stuck d p hs hx hend he => cases hend
    | opn hs hn he => have := hg.na; omega
    | skip i hs hn hi hl he => rw [ht] at he; cases he; exact absurd rfl hne
    | fin hall hs hn he =>
      have ho : o = .finished := by rw [ht] at he; exact (Prod.mk.inj he).2
      subst ho
      obtain ⟨B', o', g1, g2, _⟩ := aNext_total (xs := xs) (ended := true) hL _ B hw (Nat.le_refl _)
      have : o' = .finished := allOver_finished hL g1 ⟨hg.nb, hw.cyc, by
        intro i hi
        rcases hg.slot i hi with h | ⟨_, h⟩
        · left; rw [← h]; exact hall i hi
        · exact Or.inr h⟩
      subst this
      exact ⟨B', g1, fun h => absurd rfl h⟩
  | @step A A1 A' o ht _ ih =>
    intro B hg hw
    have hcl : A.cyc < L := by rw [hg.cyc]; exact hw.cyc
    have hsl := hg.slot A.cyc hcl
    have hstep : ∃ B1, aTurn xs true n L B = (B1, .silent) ∧ Ghost xs n L A1 B1 := by
      cases aTurn_cases xs true n L A with
      | ok d p a hs hx he => rw [ht] at he; cases he
      | err d p e hs hx he => rw [ht] at he; cases he
      | exh d p hs hx hend he =>
        rw [ht] at he
        cases he
        have hb : B.slots B.cyc = some (d, p) := by
          rcases hsl with h | ⟨h, _⟩
          · rw [← hg.cyc, ← h]; exact hs
          · rw [h] at hs; cases hs
        refine ⟨_, by simp only [aTurn, hb, getElem?_none_of_le hx, if_true]; rfl, ?_⟩
        have := hg.upd none ((A.cyc + 1) % L)
        rw [← hg.cyc] at this ⊢
        exact this
      | stuck d p hs hx hend he => cases hend
      | opn hs hn he => have := hg.na; omega
      | skip i hs hn hi hl he =>
        rw [ht] at he
        cases he
        rcases hsl with h | ⟨_, d, p, h, hle⟩
        · have hb : B.slots B.cyc = none := by rw [← hg.cyc, ← h]; exact hs
          have hlive : anyLive L B.slots = true := by
            refine anyLive_iff.2 ⟨i, hi, ?_⟩
            rcases hg.slot i hi with h | ⟨h, _⟩
            · rw [← h]; exact hl
            · rw [h] at hl; cases hl
          refine ⟨_, by simp only [aTurn, hb, if_neg (show ¬ B.nextDs < n by have := hg.nb; omega), hlive, if_true]; rfl, ?_⟩
          exact ⟨by dsimp only; rw [hg.cyc], hg.na, hg.nb, hg.slot⟩
        · have hb : B.slots B.cyc = some (d, p) := by rw [← hg.cyc]; exact h
          refine ⟨_, by simp only [aTurn, hb, getElem?_none_of_le hle, if_true]; rfl, ?_⟩
          refine ⟨by dsimp only; rw [hg.cyc], hg.na, hg.nb, ?_⟩
          intro i' hi'
          dsimp only
          by_cases hic : i' = B.cyc
          · subst hic; rw [upd_same, ← hg.cyc]; exact Or.inl hs
          · rw [upd_ne _ _ hic]; exact hg.slot i' hi'
      | fin hall hs hn he => rw [ht] at he; cases he
    obtain ⟨B1, e1, e2⟩ := hstep
    have hw1 : AWF n L B1 := by
      have := aTurn_wf (xs := xs) (ended := true) hL hw
      rw [e1] at this
      exact this
    obtain ⟨B', g1, g2⟩ := ih e2 hw1
    exact ⟨B', .step e1 g1, g2⟩

/-- Slots of exhausted workers do not change what is yielded. -/
theorem ghost_trace {xs : Nat → List (Py α)} {n L : Nat} (hL : 0 < L) {A : AIL} {t : List (Nat × Py α)} (h : ATrace xs true n L A t) :
    ∀ {B : AIL}, Ghost xs n L A B → AWF n L B → ATrace xs true n L B t := by
  generalize hen : true = ended at h
  induction h with
  | fin h1 h2 =>
    subst hen
    intro B hg hw
    obtain ⟨B', g1, _⟩ := ghost_next hL h1 hg hw
    exact .fin g1 rfl
  | limit h1 => subst hen; cases h1
  | cons h1 h2 h3 ih =>
    subst hen
    intro B hg hw
    obtain ⟨B', g1, g2⟩ := ghost_next hL h2 hg hw
    exact .cons (Or.inl rfl) g1 (ih (g2 (by simp)) (g1.wf hL hw))

/-! ### The state encoding -/

theorem nextIndex_encode (c : LoaderConf) (hc : 0 < c.shard.shardCount) (hw : 0 < c.workers) (i : Nat) (x : Int) :
    c.nextIndex i (((c.shard.shardIndex : Int) - (c.workers : Int) * (c.shard.shardCount : Int)) + (i : Int) * (c.shard.shardCount : Int) +
      x * ((c.workers : Int) * (c.shard.shardCount : Int))) = x := by
  unfold LoaderConf.nextIndex
  rw [if_neg (by omega)]
  dsimp only
  have hg : (0 : Int) < (c.workers : Int) * (c.shard.shardCount : Int) := Int.mul_pos (by omega) (by omega)
  generalize (c.workers : Int) * (c.shard.shardCount : Int) = g at hg ⊢
  generalize (i : Int) * (c.shard.shardCount : Int) = y
  have : (c.shard.shardIndex : Int) - g + y + x * g + g - (c.shard.shardIndex : Int) - y = x * g := by omega
  rw [this, Int.mul_ediv_cancel _ (by omega)]

theorem nextIndex_encode0 (c : LoaderConf) (hc : 0 < c.shard.shardCount) (hw : c.workers = 0) (x : Int) :
    c.nextIndex 0 (((c.shard.shardIndex : Int) - (1 : Nat) * (c.shard.shardCount : Int)) + ((0 : Nat) : Int) * (c.shard.shardCount : Int) +
      x * (((1 : Nat) : Int) * (c.shard.shardCount : Int))) = x := by
  unfold LoaderConf.nextIndex
  rw [if_pos hw]
  have : (c.shard.shardIndex : Int) - (1 : Nat) * (c.shard.shardCount : Int) + ((0 : Nat) : Int) * (c.shard.shardCount : Int) +
      x * (((1 : Nat) : Int) * (c.shard.shardCount : Int)) + (c.shard.shardCount : Int) - (c.shard.shardIndex : Int) =
      x * (c.shard.shardCount : Int) := by
    simp only [Int.natCast_one, Int.one_mul, Int.natCast_zero, Int.zero_mul]
    omega
  rw [this, Int.mul_ediv_cancel _ (by omega)]

theorem encode_validate (c : LoaderConf) (m cyc : Nat) (next : Nat → Option Int) : c.validate (c.encode m cyc next) = none := by
  unfold LoaderConf.validate LoaderConf.encode
  simp

theorem decode_encode_states (c : LoaderConf) (hc : 0 < c.shard.shardCount) (hw : 0 < c.workers) (cyc : Nat) (next : Nat → Option Int) {i : Nat}
    (hi : i < c.workers) {x : Int} (hx : next i = some x) : (c.decode (c.encode c.workers cyc next)).states i = some x := by
  simp only [LoaderConf.decode, LoaderConf.encode, if_pos hi, hx, Option.map_some, Option.some.injEq]
  exact nextIndex_encode c hc hw i x

theorem encode_seen (c : LoaderConf) (m cyc : Nat) (next : Nat → Option Int) {i : Nat} (hi : i < m) {x : Int} (hx : next i = some x) :
    ∃ l, (c.encode m cyc next).lastSeen i = some l ∧
      l = ((c.shard.shardIndex : Int) - (m : Int) * (c.shard.shardCount : Int)) + (i : Int) * (c.shard.shardCount : Int) +
        x * ((m : Int) * (c.shard.shardCount : Int)) := by
  simp [LoaderConf.encode, hi, hx]

theorem decode_encode_cyc (c : LoaderConf) (m cyc : Nat) (next : Nat → Option Int) (h : cyc < c.workers) :
    (c.decode (c.encode m cyc next)).cyc = cyc := by
  simp only [LoaderConf.decode, LoaderConf.encode]
  rw [Int.sub_add_cancel, Int.emod_eq_of_lt (by omega) (by omega)]
  simp

theorem loaderIterN_set (c : LoaderConf) (f : IdxFam α) (F : Nat) (s : (loaderIterN c f).S) (st : LoaderState) (hval : c.validate st = none)
    (hseen : ∀ i, i < c.workers → st.lastSeen i ≠ none) :
    (loaderIterN c f).set F s st = (interleaveIter f.fam c.workers c.workers false).set F s (c.decode st) := by
  have : ¬ ∃ i ∈ List.range c.workers, st.lastSeen i = none := by
    rintro ⟨i, hi, hn⟩
    exact hseen i (List.mem_range.1 hi) hn
  simp only [loaderIterN, hval]
  exact if_neg this

theorem loaderIter0_set (c : LoaderConf) (f : IdxFam α) (F : Nat) (s : (loaderIter0 c f).S) (st : LoaderState) (hval : c.validate st = none)
    {l : Int} (hl : st.lastSeen 0 = some l) : (loaderIter0 c f).set F s st = f.set 0 F s (c.nextIndex 0 l) := by
  simp only [loaderIter0, hval, hl]

/-- Checkpoint relation of the loader with workers. -/
def LoaderCk (c : LoaderConf) {f : IdxFam α} (xs : Nat → List (Py α)) (Ck : Nat → Int → Nat → Prop) (t : List (Nat × Py α)) (st : LoaderState)
    (m : Nat) : Prop :=
  m ≤ t.length ∧ c.validate st = none ∧ (∀ i, i < c.workers → st.lastSeen i ≠ none) ∧
    ∃ A, ILCkRel (f := f.fam) xs true Ck (endCk xs Ck) true c.workers c.workers false (c.decode st) A ∧ ATrace xs true c.workers c.workers A (t.drop m)

theorem loaderN_simWhen {c : LoaderConf} {f : IdxFam α} {u : Bool} (hc : 0 < c.shard.shardCount) (hw : 0 < c.workers) {xs : Nat → List (Py α)}
    {At : Nat → f.S → Nat → Prop} {Ck : Nat → Int → Nat → Prop}
    (hsim : ∀ d, d < c.workers → SimWhen (fun _ => u) (f.fam.iter d) (xs d) true (At d) (Ck d))
    {t : List (Nat × Py α)} (ht : ATrace xs true c.workers c.workers (aStart c.workers) t) :
    SimWhen (fun _ => u) (loaderIterN c f) (t.map (·.2)) true
      (fun s m => ∃ tn, m ≤ t.length ∧ ∃ A, ILRel xs true At Ck (endCk xs Ck) true c.workers (min c.workers c.workers) tn s A ∧
        ATrace xs true c.workers (min c.workers c.workers) A (t.drop m))
      (LoaderCk c (f := f) xs Ck t) := by
  have hmin : min c.workers c.workers = c.workers := Nat.min_self _
  have hI := interleave_sim (f := f.fam) (cycle := c.workers) (keep := false) (u := u) hsim (by omega) (t := t) (by rw [hmin]; exact ht)
  refine { init := ?_, bound := ?_, next_item := ?_, next_stop := ?_, get := ?_, set := ?_, set_init := ?_ }
  · exact ⟨false, hI.init⟩
  · rintro s m ⟨tn, h⟩
    exact hI.bound h
  · rintro s m r ⟨tn, h⟩ hr
    obtain ⟨s', g1, g2⟩ := hI.next_item h hr
    exact ⟨s', g1, tn, g2⟩
  · rintro s ⟨tn, h⟩ hend
    obtain ⟨s', g1, g2⟩ := hI.next_stop h hend
    exact ⟨s', g1, tn, g2⟩
  · rintro s m ⟨tn, hm, A, hrel, htr⟩
    have hg := il_get (f := f.fam) hsim (Nat.min_le_right _ _) (fun _ _ _ h => h) hrel
    refine ⟨⟨tn, hm, A, hg.1, htr⟩, ?_⟩
    have hget : (loaderIterN c f).get s = ((ilGet f.fam c.workers (min c.workers c.workers) s).1,
      c.encode c.workers (ilGet f.fam c.workers (min c.workers c.workers) s).2.cyc (ilGet f.fam c.workers (min c.workers c.workers) s).2.states) := rfl
    rw [hget]
    obtain ⟨_, hck⟩ := hg
    generalize (ilGet f.fam c.workers (min c.workers c.workers) s).2 = k at hck
    simp only [hmin] at hck htr
    have hidx := hck.idx.own rfl (by rw [hck.nds]; exact hck.nds_le)
    have hst : ∀ i, i < c.workers → ∃ x p, k.states i = some x ∧ Ck i x p ∧
        (A.slots i = some (i, p) ∨ (A.slots i = none ∧ p = (xs i).length)) := by
      intro i hi
      have hsl := hck.slot i hi
      rw [hidx i hi] at hsl
      generalize A.slots i = v at hsl
      cases hsl with
      | live x p h1 h2 h3 h4 => exact ⟨x, p, h1, h3, Or.inl rfl⟩
      | over x h1 h2 h3 h4 => exact ⟨x, _, h1, h3, Or.inr ⟨rfl, rfl⟩⟩
    have hdec : ∀ i, i < c.workers → ∀ x, k.states i = some x → (c.decode (c.encode c.workers k.cyc k.states)).states i = some x := by
      intro i hi x hx
      exact decode_encode_states c hc hw k.cyc k.states hi hx
    have hcyc := hck.cyc_lt
    have hcyc' := hck.cyc
    refine ⟨hm, encode_validate .., ?_, ?_⟩
    · intro i hi
      obtain ⟨x, p, hx, _⟩ := hst i hi
      obtain ⟨l, hl, _⟩ := encode_seen c c.workers k.cyc k.states hi hx
      intro hn
      exact absurd (hl.symm.trans hn) (by simp)
    · refine ⟨{ slots := fun i => match A.slots i with | some v => some v | none => some (i, (xs i).length), cyc := A.cyc,
                nextDs := c.workers, starts := fun _ => 0 }, ?_, ?_⟩
      · refine ⟨?_, hcyc, ?_, rfl, Nat.le_refl _, Nat.le_refl _, fun d _ => Or.inl ⟨rfl, rfl⟩, ⟨fun i hi => Nat.lt_of_lt_of_le hi (Nat.le_max_right _ _), fun i j _ _ h => h, fun i _ _ => rfl, fun _ _ i _ => rfl⟩⟩
        · exact (decode_encode_cyc c c.workers k.cyc k.states (by omega)).trans hcyc'
        · intro i hi
          obtain ⟨x, p, hx, h2, h3⟩ := hst i hi
          have hd := hdec i hi x hx
          dsimp only
          rcases h3 with h3 | ⟨h3, rfl⟩
          · rw [h3]
            exact .live x p hd (Or.inl rfl) h2 hi
          · rw [h3]
            exact .live x _ hd (Or.inl rfl) h2 hi
      · refine ghost_trace hw htr ⟨rfl, hck.nds_ge, Nat.le_refl _, ?_⟩ ⟨hcyc, ?_, ?_⟩
        · intro i hi
          dsimp only
          cases hA : A.slots i with
          | some v => exact Or.inl rfl
          | none => exact Or.inr ⟨rfl, i, _, rfl, Nat.le_refl _⟩
        · intro i d p hi hs
          obtain ⟨x, p', _, _, h3⟩ := hst i hi
          dsimp only at hs ⊢
          rcases h3 with h3 | ⟨h3, _⟩ <;> (rw [h3] at hs; cases hs; exact hi)
        · intro i j d p q hi hj h1 h2
          obtain ⟨x, p', _, _, h3⟩ := hst i hi
          obtain ⟨y, q', _, _, h4⟩ := hst j hj
          dsimp only at h1 h2
          have e1 : d = i := by rcases h3 with h3 | ⟨h3, _⟩ <;> (rw [h3] at h1; cases h1; rfl)
          have e2 : d = j := by rcases h4 with h4 | ⟨h4, _⟩ <;> (rw [h4] at h2; cases h2; rfl)
          omega
  · rintro s n' st m ⟨tn, _, A0, hrel, _⟩ ⟨hm, hval, hseen, A, hck, htr⟩ _ hu
    have hset := fun F => loaderIterN_set c f F s st hval hseen
    obtain ⟨s', g1, g2⟩ := hI.set (b := tn) (s := s) (n := n') (c := c.decode st) (m := m) hu ⟨by assumption, A0, hrel, by assumption⟩
      ⟨hm, A, by rw [hmin]; exact hck, by rw [hmin]; exact htr⟩ (Or.inr rfl)
    exact ⟨s', g1.mono (fun F e => (hset F).trans e), true, g2⟩
  · rintro st m ⟨hm, hval, hseen, A, hck, htr⟩ _
    have hset := fun F => loaderIterN_set c f F (loaderIterN c f).init st hval hseen
    obtain ⟨s', g1, g2⟩ := hI.set_init (c := c.decode st) (m := m) ⟨hm, A, by rw [hmin]; exact hck, by rw [hmin]; exact htr⟩ (Or.inr rfl)
    exact ⟨s', g1.mono (fun F e => (hset F).trans e), false, g2⟩

theorem loaderN_sim {c : LoaderConf} {f : IdxFam α} (hc : 0 < c.shard.shardCount) (hw : 0 < c.workers) {xs : Nat → List (Py α)}
    {At : Nat → f.S → Nat → Prop} {Ck : Nat → Int → Nat → Prop}
    (hsim : ∀ d, d < c.workers → SimWhen (fun _ => true) (f.fam.iter d) (xs d) true (At d) (Ck d))
    {t : List (Nat × Py α)} (ht : ATrace xs true c.workers c.workers (aStart c.workers) t) :
    Sim (loaderIterN c f) (t.map (·.2)) true
      (fun s m => ∃ tn, m ≤ t.length ∧ ∃ A, ILRel xs true At Ck (endCk xs Ck) true c.workers (min c.workers c.workers) tn s A ∧
        ATrace xs true c.workers (min c.workers c.workers) A (t.drop m))
      (LoaderCk c (f := f) xs Ck t) := by
  have h := loaderN_simWhen hc hw hsim ht
  exact { init := h.init, bound := h.bound, next_item := h.next_item, next_stop := h.next_stop, get := h.get,
          set := fun hs hk hm => h.set hs hk hm rfl, ck_bound := fun hk => by simpa using hk.1 }

theorem loader0_sim {c : LoaderConf} {f : IdxFam α} (hc : 0 < c.shard.shardCount) (hw : c.workers = 0) {xs : List (Py α)} {ended : Bool}
    {At : f.S → Nat → Prop} {Ck : Int → Nat → Prop} (hsim : Sim (f.fam.iter 0) xs ended At Ck) :
    Sim (loaderIter0 c f) xs ended At
      (fun st m => c.validate st = none ∧ ∃ l, st.lastSeen 0 = some l ∧ Ck (c.nextIndex 0 l) m) := by
  refine { init := hsim.init, bound := hsim.bound, next_item := hsim.next_item, next_stop := hsim.next_stop, get := ?_, set := ?_,
           ck_bound := fun ⟨_, l, _, h⟩ => hsim.ck_bound h }
  · intro s m h
    obtain ⟨g1, g2⟩ := hsim.get h
    obtain ⟨l, hl, he⟩ := encode_seen c 1 0 (fun _ => some (f.get 0 s).2) (i := 0) (by decide) rfl
    refine ⟨g1, encode_validate .., l, hl, ?_⟩
    rw [he, nextIndex_encode0 c hc hw]
    exact g2
  · rintro s n' st m hs ⟨hv, l, hl, hck⟩ hm
    obtain ⟨s', g1, g2⟩ := hsim.set hs hck hm
    refine ⟨s', g1.mono ?_, g2⟩
    intro F e
    exact (loaderIter0_set c f F s st hv hl).trans e

end Grain
