import Verif.Interleave.Machine
/-
The interleaving iterator follows the abstract machine.
-/
namespace Grain

/-- `tn` says that a state was restored into the used object: then the state kept for an exhausted iterator may be out of
date.  Slot of the iterator (`idx` its entry of `_iterators_in_use_indices`) against slot `i` of the machine. -/
inductive SlotRel {S C : Type} (At : Nat → S → Nat → Prop) (En : Nat → C → Prop) (n idx : Nat) (slot : Option (Nat × S)) (ex : Option C)
    (i nextDs : Nat) (tn : Bool) : Option (Nat × Nat) → Prop
  | live (st : S) (p : Nat) : slot = some (idx, st) → (ex = none ∨ tn = true) → At idx st p → idx < n → SlotRel At En n idx slot ex i nextDs tn (some (idx, p))
  | over (c : C) : slot = none → ex = some c → En idx c → idx < n → SlotRel At En n idx slot ex i nextDs tn none
  | new : slot = none → ex = none → nextDs ≤ i → SlotRel At En n idx slot ex i nextDs tn (some (i, 0))

/-- A state of dataset `d` at its end. -/
def endCk {C : Type} (xs : Nat → List (Py α)) (Ck : Nat → C → Nat → Prop) (d : Nat) (c : C) : Prop := Ck d c (xs d).length

/-- `_iterators_in_use_indices`: different datasets, already opened; the slots not used yet have their own numbers.  If `ow`,
all slots have their own numbers while no dataset took the place of another. -/
structure IdxOk (ow : Bool) (L nextDs : Nat) (ix : Nat → Nat) : Prop where
  lt : ∀ i, i < L → ix i < max nextDs L
  inj : ∀ i j, i < L → j < L → ix i = ix j → i = j
  fresh : ∀ i, i < L → nextDs ≤ i → ix i = i
  own : ow = true → nextDs ≤ L → ∀ i, i < L → ix i = i

theorem IdxOk.first {ow : Bool} {L nextDs i : Nat} {ix : Nat → Nat} (h : IdxOk ow L nextDs ix) (hi : i < L) (hn : nextDs = i) :
    IdxOk ow L (nextDs + 1) (Function.update ix i nextDs) := by
  have he : Function.update ix i nextDs = ix := by
    funext j
    by_cases hj : j = i
    · subst hj; rw [upd_same, h.fresh j hi (by omega), hn]
    · rw [upd_ne _ _ hj]
  rw [he]
  refine ⟨fun j hj => ?_, h.inj, fun j hj hle => h.fresh j hj (by omega), fun hw _ => h.own hw (by omega)⟩
  have := h.lt j hj
  omega

theorem IdxOk.later {ow : Bool} {L nextDs i : Nat} {ix : Nat → Nat} (h : IdxOk ow L nextDs ix) (hn : L ≤ nextDs) :
    IdxOk ow L (nextDs + 1) (Function.update ix i nextDs) := by
  refine ⟨fun j hj => ?_, fun j k hj hk => ?_, fun j hj hle => by omega, fun _ hle => by omega⟩
  · by_cases hji : j = i
    · subst hji; rw [upd_same]; omega
    · rw [upd_ne _ _ hji]
      have := h.lt j hj
      omega
  · have h1 := h.lt j hj
    have h2 := h.lt k hk
    have h3 := h.inj j k hj hk
    by_cases hji : j = i
    · by_cases hki : k = i
      · omega
      · subst hji; rw [upd_same, upd_ne _ _ hki]; omega
    · by_cases hki : k = i
      · subst hki; rw [upd_same, upd_ne _ _ hji]; omega
      · rw [upd_ne _ _ hji, upd_ne _ _ hki]; exact h3

structure ILCore {S C : Type} (xs : Nat → List (Py α)) (ended : Bool) (At : Nat → S → Nat → Prop) (Ck : Nat → C → Nat → Prop)
    (En : Nat → C → Prop) (ow : Bool) (n L : Nat) (tn : Bool) (s : ILState S C) (A : AIL) : Prop where
  cyc : s.cyc = A.cyc
  cyc_lt : A.cyc < L
  slot : ∀ i, i < L → SlotRel At En n (s.indices i) (s.slots i) (s.exState i) i s.nextDs tn (A.slots i)
  pass : s.nextDs < L → A.cyc ≤ s.nextDs ∧ (∀ i, i < L → A.slots i = none → i < A.cyc) ∧
    (∀ i, i < L → s.nextDs ≤ i → s.slots i = none ∧ s.exState i = none ∧ s.future i = none)
  kept : ∀ i d o, s.kept i = some (d, o) → o.1 = d ∧ d < n ∧ ∃ p, At d o.2 p
  nds : A.nextDs = max s.nextDs L
  nds_le : s.nextDs ≤ n
  fut : ∀ d, s.nextDs ≤ d → (s.future d = none ∧ A.starts d = 0) ∨
    ∃ c, s.future d = some c ∧ Ck d c (A.starts d) ∧ (A.starts d < (xs d).length ∨ ended = true)
  idx : IdxOk ow L s.nextDs s.indices

structure ILRel {S C : Type} (xs : Nat → List (Py α)) (ended : Bool) (At : Nat → S → Nat → Prop) (Ck : Nat → C → Nat → Prop)
    (En : Nat → C → Prop) (ow : Bool) (n L : Nat) (tn : Bool) (s : ILState S C) (A : AIL) : Prop where
  core : ILCore xs ended At Ck En ow n L tn s A
  pf : s.pf = s.nextDs

/-- What the loop does after a turn with outcome `o`. -/
def turnRes (f : IterFam α) (n L : Nat) (keep : Bool) (F k : Nat) (s : ILState f.S f.C) :
    AOut α → Option (ILState f.S f.C × Res α)
  | .silent => ilLoop f n L keep F k s
  | .yield _ r => some (s, toRes r)
  | .finished => some (s, .stop)
  | .stuck => none

section
variable {f : IterFam α} {xs : Nat → List (Py α)} {ended : Bool} {n L : Nat} {keep : Bool} {tn u : Bool}
  {At : Nat → f.S → Nat → Prop} {Ck : Nat → f.C → Nat → Prop} {En : Nat → f.C → Prop} {ow : Bool}
  (hsim : ∀ d, d < n → SimWhen (fun _ => u) (f.iter d) (xs d) ended (At d) (Ck d)) (hLn : L ≤ n)
  (hEn : ∀ d c, d < n → endCk xs Ck d c → En d c)

include hsim hLn hEn

theorem il_open_new {s : ILState f.S f.C} {A : AIL} (h : ILRel xs ended At Ck En ow n L tn s A)
    (hs : s.slots A.cyc = none) (hx : s.exState A.cyc = none) (hnd : s.nextDs ≤ A.cyc) (ha : A.slots A.cyc = some (A.cyc, 0)) :
    ∃ s0, (∀ F k, ilLoop f n L keep F (k + 1) s = ilLoop f n L keep F k s0) ∧ ILRel xs ended At Ck En ow n L tn s0 A ∧
      (s0.slots A.cyc).isSome = true := by
  obtain ⟨hc, hpf⟩ := h
  have hlt := hc.cyc_lt
  obtain ⟨p1, p2, p3⟩ := hc.pass (by omega)
  have hnd' : s.nextDs = A.cyc := by omega
  obtain ⟨q1, q2, q3⟩ := p3 A.cyc hlt (by omega)
  refine ⟨{ s with pf := s.pf + 1, slots := Function.update s.slots s.cyc (some (s.pf, f.init s.pf)), exState := Function.update s.exState s.cyc none, indices := Function.update s.indices s.cyc s.nextDs, nextDs := s.nextDs + 1 }, ?_, ?_, ?_⟩
  · intro F k
    rw [ilLoop]
    have e1 : s.slots s.cyc = none := by rw [hc.cyc]; exact hs
    have e2 : s.nextDs < n := by omega
    have e3 : s.pf < n := by omega
    have e4 : s.future s.nextDs = none := by rw [hnd']; exact q3
    simp only [e1, if_pos e2, if_pos e3, e4]
  · refine ⟨⟨hc.cyc, hlt, ?_, ?_, ?_, ?_, ?_, ?_, ?_⟩, ?_⟩
    · intro i hi
      dsimp only
      by_cases hic : i = A.cyc
      · subst hic
        rw [hc.cyc, upd_same, upd_same, upd_same, hpf, hnd', ha]
        exact .live (f.init A.cyc) 0 rfl (Or.inl rfl) (hsim A.cyc (by omega)).init (by omega)
      · rw [hc.cyc, upd_ne _ _ hic, upd_ne _ _ hic, upd_ne _ _ hic]
        have hsl := hc.slot i hi
        generalize A.slots i = v at hsl ⊢
        cases hsl with
        | live st p h1 h2 h3 h4 => exact .live st p h1 h2 h3 h4
        | over c h1 h2 h3 h4 => exact .over c h1 h2 h3 h4
        | new h1 h2 h3 => exact .new h1 h2 (by omega)
    · intro hh
      dsimp only at hh ⊢
      refine ⟨by omega, p2, ?_⟩
      intro i hi hle
      rw [hc.cyc, upd_ne _ _ (by omega), upd_ne _ _ (by omega)]
      exact p3 i hi (by omega)
    · exact hc.kept
    · dsimp only
      rw [hc.nds]
      omega
    · dsimp only; omega
    · intro d hd
      exact hc.fut d (by dsimp only at hd; omega)
    · dsimp only
      rw [hc.cyc]
      exact hc.idx.first hlt hnd'
    · dsimp only; omega
  · dsimp only
    rw [hc.cyc, upd_same]
    rfl

theorem il_turn_live {s : ILState f.S f.C} {A A1 : AIL} {o : AOut α} (h : ILRel xs ended At Ck En ow n L tn s A)
    (hlive : (s.slots A.cyc).isSome = true) (ht : aTurn xs ended n L A = (A1, o)) (ho : o ≠ .stuck) :
    ∃ s1, Ev (fun F => ∀ k, ilLoop f n L keep F (k + 1) s = turnRes f n L keep F k s1 o) ∧
      ILRel xs ended At Ck En ow n L tn s1 A1 := by
  obtain ⟨hc, hpf⟩ := h
  have hlt := hc.cyc_lt
  have hsl := hc.slot A.cyc hlt
  -- facts about the slot
  have hfacts : ∃ d st p, s.slots A.cyc = some (d, st) ∧ (s.exState A.cyc = none ∨ tn = true) ∧ At d st p ∧ d < n ∧ s.indices A.cyc = d ∧
      A.slots A.cyc = some (d, p) := by
    generalize hv : A.slots A.cyc = v at hsl
    cases hsl with
    | live st p h1 h2 h3 h4 => exact ⟨_, st, p, h1, h2, h3, h4, rfl, rfl⟩
    | over c h1 h2 h3 h4 => rw [h1] at hlive; cases hlive
    | new h1 h2 h3 => rw [h1] at hlive; cases hlive
  obtain ⟨d, st, p, e1, e2, e3, e4, e5, e6⟩ := hfacts
  have e1' : s.slots s.cyc = some (d, st) := by rw [hc.cyc]; exact e1
  have hnd : s.nextDs < L → A.cyc < s.nextDs := by
    intro hh
    by_contra hcon
    have := ((hc.pass hh).2.2 A.cyc hlt (by omega)).1
    rw [this] at e1
    cases e1
  have hmodlt : (A.cyc + 1) % L < L := Nat.mod_lt _ (by omega)
  have hmod : s.nextDs < L → (A.cyc + 1) % L = A.cyc + 1 := fun hh => Nat.mod_eq_of_lt (by have := hnd hh; omega)
  -- slots after replacing the current one by a live one
  have slots_live : ∀ st' q, At d st' q → ∀ i, i < L →
      SlotRel At En n (s.indices i) (Function.update s.slots A.cyc (some (d, st')) i) (s.exState i) i s.nextDs tn
        (Function.update A.slots A.cyc (some (d, q)) i) := by
    intro st' q hat i hi
    by_cases hic : i = A.cyc
    · subst hic
      rw [upd_same, upd_same, e5]
      exact .live st' q rfl e2 hat e4
    · rw [upd_ne _ _ hic, upd_ne _ _ hic]
      exact hc.slot i hi
  have pass_live : ∀ st' q c, (c = A.cyc ∨ c = (A.cyc + 1) % L) → s.nextDs < L → c ≤ s.nextDs ∧
      (∀ i, i < L → Function.update A.slots A.cyc (some (d, q)) i = none → i < c) ∧
      (∀ i, i < L → s.nextDs ≤ i → Function.update s.slots A.cyc (some (d, st')) i = none ∧ s.exState i = none ∧ s.future i = none) := by
    intro st' q c hcc hh
    obtain ⟨p1, p2, p3⟩ := hc.pass hh
    have h1 := hnd hh
    have h2 := hmod hh
    refine ⟨by omega, ?_, ?_⟩
    · intro i hi hu
      by_cases hic : i = A.cyc
      · subst hic; rw [upd_same] at hu; cases hu
      · rw [upd_ne _ _ hic] at hu
        have := p2 i hi hu
        omega
    · intro i hi hle
      rw [upd_ne _ _ (by omega)]
      exact p3 i hi hle
  cases aTurn_cases xs ended n L A with
  | ok d' p' a hs hx he =>
    rw [ht] at he
    cases he
    rw [e6] at hs
    cases hs
    obtain ⟨st', hn, hat⟩ := (hsim d e4).next_item e3 hx
    refine ⟨{ s with slots := Function.update s.slots s.cyc (some (d, st')), cyc := (s.cyc + 1) % L }, ?_, ?_⟩
    · refine hn.mono ?_
      intro F hF k
      have hF' : f.next d F st = some (st', .item a) := hF
      rw [ilLoop]
      simp only [e1', hF', Option.bind_eq_bind, turnRes, toRes]
      rfl
    · rw [hc.cyc]
      refine ⟨⟨rfl, hmodlt, slots_live st' _ hat, ?_, hc.kept, hc.nds, hc.nds_le, hc.fut, hc.idx⟩, hpf⟩
      exact pass_live st' (p + 1) _ (Or.inr rfl)
  | err d' p' e hs hx he =>
    rw [ht] at he
    cases he
    rw [e6] at hs
    cases hs
    obtain ⟨st', hn, hat⟩ := (hsim d e4).next_item e3 hx
    refine ⟨{ s with slots := Function.update s.slots s.cyc (some (d, st')) }, ?_, ?_⟩
    · refine hn.mono ?_
      intro F hF k
      have hF' : f.next d F st = some (st', .fail e) := hF
      rw [ilLoop]
      simp only [e1', hF', Option.bind_eq_bind, turnRes, toRes]
      rfl
    · rw [hc.cyc]
      refine ⟨⟨rfl, hlt, slots_live st' _ hat, ?_, hc.kept, hc.nds, hc.nds_le, hc.fut, hc.idx⟩, hpf⟩
      exact pass_live st' (p + 1) _ (Or.inl rfl)
  | exh d' p' hs hx hend he =>
    rw [ht] at he
    cases he
    rw [e6] at hs
    cases hs
    have hp : p = (xs d).length := by
      have := (hsim d e4).bound e3
      omega
    subst hp
    obtain ⟨st', hn, hat⟩ := (hsim d e4).next_stop e3 hend
    refine ⟨{ s with exState := Function.update s.exState s.cyc (some (f.get d st').2)
                     kept := if keep then Function.update s.kept s.cyc (some (s.indices s.cyc, (d, (f.get d st').1))) else s.kept
                     slots := Function.update s.slots s.cyc none
                     cyc := (s.cyc + 1) % L }, ?_, ?_⟩
    · refine hn.mono ?_
      intro F hF k
      have hF' : f.next d F st = some (st', .stop) := hF
      rw [ilLoop]
      simp only [e1', hF', Option.bind_eq_bind, turnRes]
      rfl
    · rw [hc.cyc]
      refine ⟨⟨rfl, hmodlt, ?_, ?_, ?_, hc.nds, hc.nds_le, hc.fut, hc.idx⟩, hpf⟩
      · intro i hi
        dsimp only
        by_cases hic : i = A.cyc
        · subst hic
          rw [upd_same, upd_same, upd_same]
          exact .over _ rfl rfl (by rw [e5]; exact hEn d _ e4 ((hsim d e4).get hat).2) (by rw [e5]; exact e4)
        · rw [upd_ne _ _ hic, upd_ne _ _ hic, upd_ne _ _ hic]
          exact hc.slot i hi
      · intro hh
        dsimp only at hh ⊢
        obtain ⟨p1, p2, p3⟩ := hc.pass hh
        have h1 := hnd hh
        have h2 := hmod hh
        refine ⟨by omega, ?_, ?_⟩
        · intro i hi hu
          by_cases hic : i = A.cyc
          · omega
          · rw [upd_ne _ _ hic] at hu
            have := p2 i hi hu
            omega
        · intro i hi hle
          rw [upd_ne _ _ (by omega), upd_ne _ _ (by omega)]
          exact p3 i hi hle
      · intro i d' o' hk
        dsimp only at hk
        split at hk
        · by_cases hic : i = A.cyc
          · subst hic
            rw [upd_same] at hk
            cases hk
            rw [e5]
            exact ⟨rfl, e4, _, ((hsim d e4).get hat).1⟩
          · rw [upd_ne _ _ hic] at hk
            exact hc.kept i d' o' hk
        · exact hc.kept i d' o' hk
  | stuck d' p' hs hx hend he => rw [ht] at he; cases he; exact absurd rfl ho
  | opn hs hn he => rw [e6] at hs; cases hs
  | skip i hs hn hi hl he => rw [e6] at hs; cases hs
  | fin hall hs hn he => rw [e6] at hs; cases hs

theorem il_turn_none {s : ILState f.S f.C} {A A1 : AIL} {o : AOut α} (h : ILRel xs ended At Ck En ow n L tn s A)
    (hnone : A.slots A.cyc = none) (ht : aTurn xs ended n L A = (A1, o)) :
    ∃ s1, Ev (fun F => ∀ k, ilLoop f n L keep F (k + 1) s = turnRes f n L keep F k s1 o) ∧
      ILRel xs ended At Ck En ow n L tn s1 A1 := by
  obtain ⟨hc, hpf⟩ := h
  have hlt := hc.cyc_lt
  have hge : L ≤ s.nextDs := by
    by_contra hh
    have := (hc.pass (by omega)).2.1 A.cyc hlt hnone
    omega
  have hndA : A.nextDs = s.nextDs := by rw [hc.nds]; omega
  have e1 : s.slots s.cyc = none := by
    rw [hc.cyc]
    have hsl := hc.slot A.cyc hlt
    rw [hnone] at hsl
    cases hsl with
    | over c h1 h2 => exact h1
  have hmodlt : (A.cyc + 1) % L < L := Nat.mod_lt _ (by omega)
  have hlive : anyLive L s.slots = anyLive L A.slots := by
    have : ∀ i, i < L → (s.slots i).isSome = (A.slots i).isSome := by
      intro i hi
      have hsl := hc.slot i hi
      generalize A.slots i = v at hsl ⊢
      cases hsl with
      | live st p h1 h2 h3 h4 => rw [h1]; rfl
      | over c h1 h2 => rw [h1]; rfl
      | new h1 h2 h3 => omega
    rw [Bool.eq_iff_iff, anyLive_iff, anyLive_iff]
    constructor
    · rintro ⟨i, hi, h⟩
      exact ⟨i, hi, by rw [← this i hi]; exact h⟩
    · rintro ⟨i, hi, h⟩
      exact ⟨i, hi, by rw [this i hi]; exact h⟩
  cases aTurn_cases xs ended n L A with
  | ok d' p' a hs hx he => rw [hnone] at hs; cases hs
  | err d' p' e hs hx he => rw [hnone] at hs; cases hs
  | exh d' p' hs hx hend he => rw [hnone] at hs; cases hs
  | stuck d' p' hs hx hend he => rw [hnone] at hs; cases hs
  | opn hs hn he =>
    rw [ht] at he
    cases he
    have hn' : s.nextDs < n := by omega
    have hpf' : s.pf < n := by omega
    -- the iterator put into the slot
    have hopen : ∃ st fut', At s.nextDs st (A.starts s.nextDs) ∧ (∀ d, s.nextDs + 1 ≤ d → fut' d = s.future d) ∧
        Ev (fun F => ∀ k, ilLoop f n L keep F (k + 1) s =
          ilLoop f n L keep F k { s with pf := s.pf + 1, slots := Function.update s.slots s.cyc (some (s.pf, st)), exState := Function.update s.exState s.cyc none, indices := Function.update s.indices s.cyc s.nextDs, future := fut', nextDs := s.nextDs + 1 }) := by
      rcases hc.fut s.nextDs (by omega) with ⟨h1, h2⟩ | ⟨c, h1, h2, h3⟩
      · refine ⟨f.init s.nextDs, s.future, ?_, fun _ _ => rfl, ?_⟩
        · rw [h2]
          exact (hsim _ hn').init
        · refine Ev.of_forall ?_
          intro F k
          rw [ilLoop]
          simp only [e1, if_pos hn', if_pos hpf', h1]
          rw [hpf]
      · obtain ⟨st', hset, hat⟩ := (hsim _ hn').set_init h2 h3
        refine ⟨st', Function.update s.future s.nextDs none, hat, ?_, ?_⟩
        · intro d hd
          rw [upd_ne _ _ (by omega)]
        · refine hset.mono ?_
          intro F hF k
          have hF' : f.set s.nextDs F (f.init s.nextDs) c = some (st', none) := hF
          rw [ilLoop]
          simp only [e1, if_pos hn', if_pos hpf', h1]
          rw [hpf]
          simp only [hF', Option.bind_eq_bind]
          rfl
    obtain ⟨st, fut', hat, hfut, hev⟩ := hopen
    refine ⟨_, hev, ?_⟩
    rw [hc.cyc, hndA]
    refine ⟨⟨rfl, hlt, ?_, ?_, hc.kept, ?_, ?_, ?_, ?_⟩, ?_⟩
    · intro i hi
      dsimp only
      by_cases hic : i = A.cyc
      · subst hic
        rw [upd_same, upd_same, upd_same, upd_same, hpf]
        exact .live st _ rfl (Or.inl rfl) hat hn'
      · rw [upd_ne _ _ hic, upd_ne _ _ hic, upd_ne _ _ hic, upd_ne _ _ hic]
        have hsl := hc.slot i hi
        generalize A.slots i = v at hsl ⊢
        cases hsl with
        | live st p h1 h2 h3 h4 => exact .live st p h1 h2 h3 h4
        | over c h1 h2 h3 h4 => exact .over c h1 h2 h3 h4
        | new h1 h2 h3 => omega
    · intro hh
      dsimp only at hh
      omega
    · dsimp only; omega
    · dsimp only; omega
    · intro d hd
      dsimp only at hd ⊢
      rw [hfut d hd]
      exact hc.fut d (by omega)
    · exact hc.idx.later hge
    · dsimp only; omega
  | skip i hs hn hi hl he =>
    rw [ht] at he
    cases he
    refine ⟨{ s with cyc := (s.cyc + 1) % L }, Ev.of_forall ?_, ?_⟩
    · intro F k
      rw [ilLoop]
      have hal : anyLive L s.slots = true := by rw [hlive]; exact anyLive_iff.2 ⟨i, hi, hl⟩
      simp only [e1, if_neg (show ¬ s.nextDs < n by omega), if_pos hal, turnRes]
    · rw [hc.cyc]
      exact ⟨⟨rfl, hmodlt, hc.slot, fun hh => absurd hh (Nat.not_lt.2 hge), hc.kept, hc.nds, hc.nds_le, hc.fut, hc.idx⟩, hpf⟩
  | fin hall hs hn he =>
    rw [ht] at he
    cases he
    refine ⟨s, Ev.of_forall ?_, ⟨hc, hpf⟩⟩
    intro F k
    rw [ilLoop]
    have hal : ¬ anyLive L s.slots = true := by
      rw [hlive, anyLive_iff]
      rintro ⟨i, hi, h⟩
      rw [hall i hi] at h
      cases h
    simp only [e1, if_neg (show ¬ s.nextDs < n by omega), if_neg hal, turnRes]

theorem il_turn {s : ILState f.S f.C} {A A1 : AIL} {o : AOut α} (h : ILRel xs ended At Ck En ow n L tn s A)
    (ht : aTurn xs ended n L A = (A1, o)) (ho : o ≠ .stuck) :
    ∃ s1 k0, Ev (fun F => ∀ k, ilLoop f n L keep F (k + (k0 + 1)) s = turnRes f n L keep F k s1 o) ∧
      ILRel xs ended At Ck En ow n L tn s1 A1 := by
  have hsl := h.core.slot A.cyc h.core.cyc_lt
  generalize hv : A.slots A.cyc = v at hsl
  cases hsl with
  | live st p h1 h2 h3 h4 =>
    obtain ⟨s1, g1, g2⟩ := il_turn_live hsim hLn hEn (keep := keep) h (by rw [h1]; rfl) ht ho
    exact ⟨s1, 0, g1, g2⟩
  | over c h1 h2 =>
    obtain ⟨s1, g1, g2⟩ := il_turn_none hsim hLn hEn (keep := keep) h hv ht
    exact ⟨s1, 0, g1, g2⟩
  | new h1 h2 h3 =>
    obtain ⟨s0, g1, g2, g3⟩ := il_open_new hsim hLn hEn (keep := keep) h h1 h2 h3 hv
    obtain ⟨s1, g4, g5⟩ := il_turn_live hsim hLn hEn (keep := keep) g2 g3 ht ho
    refine ⟨s1, 1, g4.mono ?_, g5⟩
    intro F hF k
    rw [show k + (1 + 1) = (k + 1) + 1 by omega, g1, hF]

theorem il_next {A A' : AIL} {o : AOut α} (hn : ANext xs ended n L A A' o) : o ≠ .stuck →
    ∀ {s : ILState f.S f.C}, ILRel xs ended At Ck En ow n L tn s A →
    ∃ s1 k0, Ev (fun F => ∀ k, ilLoop f n L keep F (k + k0) s = turnRes f n L keep F k s1 o) ∧ o ≠ .silent ∧
      ILRel xs ended At Ck En ow n L tn s1 A' := by
  induction hn with
  | done ht hne =>
    intro ho s h
    obtain ⟨s1, k0, g1, g2⟩ := il_turn hsim hLn hEn (keep := keep) h ht ho
    exact ⟨s1, k0 + 1, g1, hne, g2⟩
  | step ht _ ih =>
    intro ho s h
    obtain ⟨s1, k0, g1, g2⟩ := il_turn hsim hLn hEn (keep := keep) h ht (by simp)
    obtain ⟨s2, k1, g3, g4, g5⟩ := ih ho g2
    refine ⟨s2, k1 + (k0 + 1), g1.mono₂ g3 ?_, g4, g5⟩
    intro F e1 e2 k
    rw [← Nat.add_assoc, e1]
    simp only [turnRes]
    exact e2 k

/-! ### Checkpoints -/

omit hsim hLn hEn in
inductive CkSlot {C : Type} (Ck : Nat → C → Nat → Prop) (En : Nat → C → Prop) (n : Nat) (tn : Bool) (idx : Nat) (exh : Bool)
    (st : Option C) : Option (Nat × Nat) → Prop
  | live (c : C) (p : Nat) : st = some c → (exh = false ∨ tn = true) → Ck idx c p → idx < n →
      CkSlot Ck En n tn idx exh st (some (idx, p))
  | over (c : C) : st = some c → exh = true → En idx c → idx < n → CkSlot Ck En n tn idx exh st none

theorem il_getLoop : ∀ (k i : Nat) (s : ILState f.S f.C) (states : Nat → Option f.C) (A : AIL), i + k = L →
    ILCore xs ended At Ck En ow n L tn s A → (s.started = true → s.pf = s.nextDs) → i ≤ s.nextDs →
    (∀ j, j < i → CkSlot Ck En n tn (s.indices j) (s.exState j).isSome (states j) (A.slots j)) →
    ILCore xs ended At Ck En ow n L tn (ilGetLoop f n (List.range' i k) s states).1 A ∧
      (ilGetLoop f n (List.range' i k) s states).1.started = s.started ∧
      (s.started = true → (ilGetLoop f n (List.range' i k) s states).1.pf = (ilGetLoop f n (List.range' i k) s states).1.nextDs) ∧
      L ≤ (ilGetLoop f n (List.range' i k) s states).1.nextDs ∧
      ∀ j, j < L → CkSlot Ck En n tn ((ilGetLoop f n (List.range' i k) s states).1.indices j)
        ((ilGetLoop f n (List.range' i k) s states).1.exState j).isSome ((ilGetLoop f n (List.range' i k) s states).2 j) (A.slots j) := by
  intro k
  induction k with
  | zero =>
    intro i s states A hik hc hpf hle hck
    have : i = L := by omega
    subst this
    exact ⟨hc, rfl, hpf, hle, hck⟩
  | succ k ih =>
    intro i s states A hik hc hpf hle hck
    have hi : i < L := by omega
    rw [List.range'_succ]
    have hsl := hc.slot i hi
    generalize hv : A.slots i = v at hsl
    cases hsl with
    | live st p h1 h2 h3 h4 =>
      obtain ⟨ga, gc⟩ := (hsim _ h4).get h3
      simp only [ilGetLoop, h1]
      have hnd : i + 1 ≤ s.nextDs := by
        by_contra hcon
        have hz : s.nextDs < L := by omega
        have := ((hc.pass hz).2.2 i hi (by omega)).1
        rw [this] at h1
        cases h1
      refine ih (i + 1) { s with slots := Function.update s.slots i (some (s.indices i, (f.get (s.indices i) st).1)) } _ A (by omega) ?_ hpf hnd ?_
      · refine ⟨hc.cyc, hc.cyc_lt, ?_, ?_, hc.kept, hc.nds, hc.nds_le, hc.fut, hc.idx⟩
        · intro j hj
          dsimp only
          by_cases hji : j = i
          · subst hji
            rw [upd_same, hv]
            exact .live _ p rfl h2 ga h4
          · rw [upd_ne _ _ hji]
            exact hc.slot j hj
        · intro hh
          dsimp only at hh ⊢
          obtain ⟨p1, p2, p3⟩ := hc.pass hh
          refine ⟨p1, p2, ?_⟩
          intro j hj hl
          rw [upd_ne _ _ (by omega)]
          exact p3 j hj hl
      · intro j hj
        dsimp only
        by_cases hji : j = i
        · subst hji
          rw [upd_same, hv]
          exact .live _ p rfl (h2.imp (fun h => by rw [h]; rfl) id) gc h4
        · rw [upd_ne _ _ hji]
          exact hck j (by omega)
    | over c h1 hcx h3 h4 =>
      simp only [ilGetLoop, h1, hcx]
      have hnd : i + 1 ≤ s.nextDs := by
        by_contra hcon
        have hz : s.nextDs < L := by omega
        have := ((hc.pass hz).2.2 i hi (by omega)).2.1
        rw [this] at hcx
        cases hcx
      refine ih (i + 1) s _ A (by omega) hc hpf hnd ?_
      intro j hj
      by_cases hji : j = i
      · subst hji
        rw [upd_same, hv, hcx]
        exact .over c rfl rfl h3 h4
      · rw [upd_ne _ _ hji]
        exact hck j (by omega)
    | new h1 h2 h3 =>
      have hnd : s.nextDs = i := by omega
      have hd : (if s.started = true then s.pf else s.nextDs) = i := by
        split
        · rename_i hst; rw [hpf hst, hnd]
        · exact hnd
      obtain ⟨ga, gc⟩ := (hsim i (by omega)).get (hsim i (by omega)).init
      simp only [ilGetLoop, h1, h2, if_neg (show ¬ s.nextDs ≥ n by omega), hd]
      obtain ⟨p1, p2, p3⟩ := hc.pass (by omega)
      refine ih (i + 1) { s with pf := if s.started then s.pf + 1 else s.pf, slots := Function.update s.slots i (some (i, (f.get i (f.init i)).1)), indices := Function.update s.indices i s.nextDs, nextDs := s.nextDs + 1 } _ A (by omega) ?_ ?_ (by dsimp only; omega) ?_
      · refine ⟨hc.cyc, hc.cyc_lt, ?_, ?_, hc.kept, ?_, ?_, ?_, ?_⟩
        · intro j hj
          dsimp only
          by_cases hji : j = i
          · subst hji
            rw [upd_same, upd_same, hv, hnd]
            exact .live _ 0 rfl (Or.inl h2) ga (by omega)
          · rw [upd_ne _ _ hji, upd_ne _ _ hji]
            have hslj := hc.slot j hj
            generalize A.slots j = w at hslj ⊢
            cases hslj with
            | live st p h1 h2 h3 h4 => exact .live st p h1 h2 h3 h4
            | over c h1 h2 h3 h4 => exact .over c h1 h2 h3 h4
            | new h1 h2 h3 => exact .new h1 h2 (by omega)
        · intro hh
          dsimp only at hh ⊢
          refine ⟨by omega, p2, ?_⟩
          intro j hj hl
          rw [upd_ne _ _ (by omega)]
          exact p3 j hj (by omega)
        · dsimp only
          rw [hc.nds]
          omega
        · dsimp only; omega
        · intro d hd'
          exact hc.fut d (by dsimp only at hd'; omega)
        · exact hc.idx.first hi hnd
      · intro hst
        dsimp only at hst ⊢
        rw [if_pos hst, hpf hst]
      · intro j hj
        dsimp only
        by_cases hji : j = i
        · subst hji
          rw [upd_same, upd_same, hv, h2, hnd]
          exact .live _ 0 rfl (Or.inl rfl) gc (by omega)
        · rw [upd_ne _ _ hji, upd_ne _ _ hji]
          exact hck j (by omega)

omit hsim hLn hEn in
structure ILCkRel (xs : Nat → List (Py α)) (ended : Bool) (Ck : Nat → f.C → Nat → Prop) (En : Nat → f.C → Prop) (ow : Bool) (n L : Nat) (tn : Bool) (c : ILCk f.C)
    (A : AIL) : Prop where
  cyc : c.cyc = A.cyc
  cyc_lt : A.cyc < L
  slot : ∀ i, i < L → CkSlot Ck En n tn (c.indices i) (c.exhausted i) (c.states i) (A.slots i)
  nds : c.nextDs = A.nextDs
  nds_ge : L ≤ A.nextDs
  nds_le : A.nextDs ≤ n
  fut : ∀ d, A.nextDs ≤ d → (c.future d = none ∧ A.starts d = 0) ∨
    ∃ k, c.future d = some k ∧ Ck d k (A.starts d) ∧ (A.starts d < (xs d).length ∨ ended = true)
  idx : IdxOk ow L c.nextDs c.indices

theorem il_get {s : ILState f.S f.C} {A : AIL} (h : ILRel xs ended At Ck En ow n L tn s A) :
    ILRel xs ended At Ck En ow n L tn (ilGet f n L s).1 A ∧ ILCkRel xs ended Ck En ow n L tn (ilGet f n L s).2 A := by
  obtain ⟨hc, hpf⟩ := h
  obtain ⟨g1, g2, g3, g4, g5⟩ := il_getLoop hsim hLn hEn L 0 s (fun _ => none) A (by omega) hc (fun _ => hpf) (by omega) (by intro j hj; omega)
  rw [← List.range_eq_range'] at g1 g2 g3 g4 g5
  unfold ilGet
  generalize ilGetLoop f n (List.range L) s (fun _ => none) = r at *
  obtain ⟨s', states⟩ := r
  dsimp only at *
  have hnds : A.nextDs = s'.nextDs := by rw [g1.nds]; omega
  by_cases hst : s'.started = true
  · rw [if_pos hst]
    refine ⟨⟨g1, g3 (by rw [← g2]; exact hst)⟩, ⟨g1.cyc, g1.cyc_lt, g5, hnds.symm, by omega, ?_, ?_, g1.idx⟩⟩
    · have := g1.nds_le; omega
    · intro d hd; exact g1.fut d (by omega)
  · rw [if_neg hst]
    refine ⟨⟨⟨g1.cyc, g1.cyc_lt, g1.slot, g1.pass, g1.kept, g1.nds, g1.nds_le, g1.fut, g1.idx⟩, rfl⟩, ⟨g1.cyc, g1.cyc_lt, g5, hnds.symm, by omega, ?_, ?_, g1.idx⟩⟩
    · have := g1.nds_le; omega
    · intro d hd; exact g1.fut d (by omega)

/-- Restoring; `tn'` is false when the object is new.  `R d st`: states can be restored into the iterator of dataset `d` in state `st`. -/
theorem il_setLoop {tn' : Bool} {R : Nat → f.S → Prop}
    (hR : ∀ d st ck m, d < n → R d st → Ck d ck m → m < (xs d).length ∨ ended = true →
      ∃ st', Ev (fun F => f.set d F st ck = some (st', none)) ∧ At d st' m) {c : ILCk f.C} {A : AIL} (hck : ILCkRel xs ended Ck En ow n L false c A)
    (hpos : ∀ i d p, i < L → A.slots i = some (d, p) → p < (xs d).length ∨ ended = true) :
    ∀ (k i : Nat) (s : ILState f.S f.C), i + k = L →
    (∀ j d o, s.kept j = some (d, o) → R d o.2 ∧ o.1 = d ∧ d < n ∧ ∃ p, At d o.2 p) →
    (∀ j, i ≤ j → j < L → (s.slots j = none ∨ (∃ st, s.slots j = some (s.indices j, st) ∧ R (s.indices j) st ∧ s.indices j < n)) ∧ (s.exState j = none ∨ tn' = true)) →
    (∀ j, j < i → SlotRel At En n (c.indices j) (s.slots j) (s.exState j) j A.nextDs tn' (A.slots j)) →
    ∃ s', Ev (fun F => ilSetLoop f n keep F c (List.range' i k) s = some (s', none)) ∧
      (∀ j d o, s'.kept j = some (d, o) → o.1 = d ∧ d < n ∧ ∃ p, At d o.2 p) ∧
      (∀ j, j < L → SlotRel At En n (c.indices j) (s'.slots j) (s'.exState j) j A.nextDs tn' (A.slots j)) := by
  intro k
  induction k with
  | zero =>
    intro i s hik hk _ hd
    have : i = L := by omega
    subst this
    exact ⟨s, Ev.of_forall (fun F => rfl), fun j d o h => (hk j d o h).2, hd⟩
  | succ k ih =>
    intro i s hik hkept hrest hd
    have hi : i < L := by omega
    obtain ⟨hs, hx⟩ := hrest i (Nat.le_refl _) hi
    have hsl := hck.slot i hi
    generalize hv : A.slots i = v at hsl
    rw [List.range'_succ]
    cases hsl with
    | live ck p h1 h2' h3 h4 =>
      have h2 : c.exhausted i = false := h2'.resolve_right (by simp)
      -- the iterator object that receives the state
      have hchoice : ∃ kept' st0, ilPick f n keep s i (c.indices i) =
            (kept', some (c.indices i, st0)) ∧
          (st0 = f.init (c.indices i) ∨ R (c.indices i) st0) ∧
          (∀ j d o, kept' j = some (d, o) → R d o.2 ∧ o.1 = d ∧ d < n ∧ ∃ p, At d o.2 p) := by
        unfold ilPick
        have hnew : ∀ kept' : Nat → Option (Nat × (Nat × f.S)), (∀ j d o, kept' j = some (d, o) → R d o.2 ∧ o.1 = d ∧ d < n ∧ ∃ p, At d o.2 p) →
            ∃ (kept'' : Nat → Option (Nat × (Nat × f.S))) (st0 : f.S), (kept', if c.indices i < n then some (c.indices i, f.init (c.indices i)) else none) =
              (kept'', some (c.indices i, st0)) ∧ (st0 = f.init (c.indices i) ∨ R (c.indices i) st0) ∧
              (∀ j d o, kept'' j = some (d, o) → R d o.2 ∧ o.1 = d ∧ d < n ∧ ∃ p, At d o.2 p) :=
          fun kept' hk => ⟨kept', _, by rw [if_pos h4], Or.inl rfl, hk⟩
        have hlater : (if c.indices i = s.indices i then s.slots i else none) = none →
            ∃ kept' st0, (match s.kept i with
            | some (d, o) =>
              if keep ∧ d = c.indices i then (Function.update s.kept i none, some o)
              else (s.kept, if c.indices i < n then some (c.indices i, f.init (c.indices i)) else none)
            | none => (s.kept, if c.indices i < n then some (c.indices i, f.init (c.indices i)) else none)) =
            (kept', some (c.indices i, st0)) ∧
            (st0 = f.init (c.indices i) ∨ R (c.indices i) st0) ∧
            (∀ j d o, kept' j = some (d, o) → R d o.2 ∧ o.1 = d ∧ d < n ∧ ∃ p, At d o.2 p) := by
          intro _
          cases hk : s.kept i with
          | none => exact hnew s.kept hkept
          | some kd =>
            obtain ⟨d, o1, o2⟩ := kd
            by_cases hcond : keep = true ∧ d = c.indices i
            · simp only [if_pos hcond]
              obtain ⟨k1, k2, k3, q, k4⟩ := hkept i d (o1, o2) hk
              dsimp only at k2 k4
              subst k2
              obtain ⟨_, rfl⟩ := hcond
              refine ⟨_, o2, rfl, Or.inr k1, ?_⟩
              intro j d' o' hj
              by_cases hji : j = i
              · subst hji; rw [upd_same] at hj; cases hj
              · rw [upd_ne _ _ hji] at hj
                exact hkept j d' o' hj
            · simp only [if_neg hcond]
              exact hnew s.kept hkept
        by_cases hidx : c.indices i = s.indices i
        · rcases hs with hs | ⟨st, hs, hat, hlt⟩
          · have : (if c.indices i = s.indices i then s.slots i else none) = none := by rw [hs, ite_self]
            rw [this]
            exact hlater this
          · rw [if_pos hidx, hs]
            dsimp only
            rw [hidx]
            exact ⟨s.kept, st, rfl, Or.inr hat, hkept⟩
        · have : (if c.indices i = s.indices i then s.slots i else none) = none := if_neg hidx
          rw [this]
          exact hlater this
      obtain ⟨kept', st0, hch, hst0, hkept'⟩ := hchoice
      have hset : ∃ st, Ev (fun F => f.set (c.indices i) F st0 ck = some (st, none)) ∧ At (c.indices i) st p := by
        rcases hst0 with h | hat
        · subst h
          exact (hsim _ h4).set_init h3 (hpos i _ _ hi hv)
        · exact hR _ _ _ _ h4 hat h3 (hpos i _ _ hi hv)
      obtain ⟨st, hset, hat⟩ := hset
      obtain ⟨s', g1, g2⟩ := ih (i + 1) { s with kept := kept', slots := Function.update s.slots i (some (c.indices i, st)) } (by omega) hkept' (by
        intro j hj hjL
        dsimp only
        rw [upd_ne _ _ (by omega)]
        exact hrest j (by omega) hjL) (by
        intro j hj
        dsimp only
        by_cases hji : j = i
        · subst hji
          rw [upd_same, hv]
          exact .live st p rfl hx hat h4
        · rw [upd_ne _ _ hji]
          exact hd j (by omega))
      refine ⟨s', hset.mono₂ g1 ?_, g2⟩
      intro F e1 e2
      rw [ilSetLoop]
      simp only [h1, h2, Bool.false_eq_true, if_false, hch, e1, Option.bind_eq_bind, Option.bind_some]
      exact e2
    | over ck h1 h2 h3 h4 =>
      obtain ⟨s', g1, g2⟩ := ih (i + 1) { s with exState := Function.update s.exState i (some ck), slots := Function.update s.slots i none } (by omega) hkept (by
        intro j hj hjL
        dsimp only
        rw [upd_ne _ _ (by omega), upd_ne _ _ (by omega)]
        exact hrest j (by omega) hjL) (by
        intro j hj
        dsimp only
        by_cases hji : j = i
        · subst hji
          rw [upd_same, upd_same, hv]
          exact .over ck rfl rfl h3 h4
        · rw [upd_ne _ _ hji, upd_ne _ _ hji]
          exact hd j (by omega))
      refine ⟨s', g1.mono ?_, g2⟩
      intro F e2
      rw [ilSetLoop]
      simp only [h1, h2, if_pos]
      exact e2

theorem il_setR {tn' : Bool} {R : Nat → f.S → Prop}
    (hR : ∀ d st ck m, d < n → R d st → Ck d ck m → m < (xs d).length ∨ ended = true →
      ∃ st', Ev (fun F => f.set d F st ck = some (st', none)) ∧ At d st' m) {c : ILCk f.C} {A : AIL} {s : ILState f.S f.C} (hck : ILCkRel xs ended Ck En ow n L false c A)
    (hpos : ∀ i d p, i < L → A.slots i = some (d, p) → p < (xs d).length ∨ ended = true)
    (hkept : ∀ j d o, s.kept j = some (d, o) → R d o.2 ∧ o.1 = d ∧ d < n ∧ ∃ p, At d o.2 p)
    (hslots : ∀ j, j < L → (s.slots j = none ∨ (∃ st, s.slots j = some (s.indices j, st) ∧ R (s.indices j) st ∧ s.indices j < n)) ∧ (s.exState j = none ∨ tn' = true)) :
    ∃ s', Ev (fun F => ilSet f n L keep F s c = some (s', none)) ∧ ILRel xs ended At Ck En ow n L tn' s' A := by
  obtain ⟨s', g1, gk, g2⟩ := il_setLoop hsim hLn hEn (keep := keep) (tn' := tn') hR hck hpos L 0 s (by omega) hkept
    (fun j _ hj => hslots j hj) (by intro j hj; omega)
  rw [← List.range_eq_range'] at g1
  refine ⟨{ s' with pf := c.nextDs, cyc := c.cyc, nextDs := c.nextDs, indices := c.indices, future := c.future }, ?_, ?_⟩
  · refine g1.mono ?_
    intro F e
    have h1 := hck.nds_le
    have h2 := hck.nds
    simp only [ilSet, e, Option.bind_eq_bind, Option.bind_some, if_neg (show ¬ c.nextDs > n by omega)]
  · have h1 := hck.nds_le
    have h2 := hck.nds
    have h3 := hck.nds_ge
    refine ⟨⟨hck.cyc, hck.cyc_lt, ?_, ?_, gk, ?_, ?_, ?_, hck.idx⟩, rfl⟩
    · intro i hi
      dsimp only
      rw [h2]
      exact g2 i hi
    · intro hh
      dsimp only at hh
      omega
    · dsimp only; omega
    · dsimp only; omega
    · intro d hd
      dsimp only at hd ⊢
      rw [h2] at hd
      exact hck.fut d hd

theorem il_set {tn' : Bool} {c : ILCk f.C} {A : AIL} {s : ILState f.S f.C} (hck : ILCkRel xs ended Ck En ow n L false c A)
    (hpos : ∀ i d p, i < L → A.slots i = some (d, p) → p < (xs d).length ∨ ended = true)
    (hkept : ∀ j d o, s.kept j = some (d, o) → u = true ∧ o.1 = d ∧ d < n ∧ ∃ p, At d o.2 p)
    (hslots : ∀ j, j < L → (s.slots j = none ∨ (u = true ∧ ∃ st p, s.slots j = some (s.indices j, st) ∧
      At (s.indices j) st p ∧ s.indices j < n)) ∧ (s.exState j = none ∨ tn' = true)) :
    ∃ s', Ev (fun F => ilSet f n L keep F s c = some (s', none)) ∧ ILRel xs ended At Ck En ow n L tn' s' A := by
  refine il_setR hsim hLn hEn (R := fun d st => u = true ∧ ∃ q, At d st q) ?_ hck hpos ?_ ?_
  · rintro d st ck m hd ⟨hu, q, hat⟩ hc hm
    exact (hsim d hd).set hat hc hm hu
  · intro j d o h
    obtain ⟨h1, h2, h3, h4⟩ := hkept j d o h
    exact ⟨⟨h1, h4⟩, h2, h3, h4⟩
  · intro j hj
    obtain ⟨h1, h2⟩ := hslots j hj
    refine ⟨h1.imp_right ?_, h2⟩
    rintro ⟨hu, st, q, h3, h4, h5⟩
    exact ⟨st, h3, ⟨hu, q, h4⟩, h5⟩

omit hsim hLn hEn in
theorem il_init (hL : 0 < L) : ILRel xs ended At Ck En ow n L tn (ilInit f.S f.C) (aStart L) := by
  refine ⟨⟨rfl, hL, ?_, ?_, ?_, ?_, ?_, ?_, ⟨fun i hi => by simp only [ilInit]; omega, fun _ _ _ _ h => h, fun _ _ _ => rfl, fun _ _ _ _ => rfl⟩⟩, rfl⟩
  · intro i hi
    simp only [ilInit, aStart, if_pos hi]
    exact .new rfl rfl (by omega)
  · intro _
    refine ⟨by simp [aStart], ?_, ?_⟩
    · intro i hi h
      simp only [aStart, if_pos hi] at h
      cases h
    · intro i hi _
      exact ⟨rfl, rfl, rfl⟩
  · intro i d o h
    cases h
  · simp [aStart, ilInit]
  · simp [ilInit]
  · intro d _
    exact Or.inl ⟨rfl, rfl⟩

end

theorem ANext.finished_fix {xs : Nat → List (Py α)} {ended : Bool} {n L : Nat} {A A' : AIL} {o : AOut α}
    (h : ANext xs ended n L A A' o) : o = .finished → ANext xs ended n L A' A' .finished := by
  induction h with
  | @done A A' o ht hne =>
    intro ho
    subst ho
    cases aTurn_cases xs ended n L A with
    | ok d p a hs hx he => rw [ht] at he; cases he
    | err d p e hs hx he => rw [ht] at he; cases he
    | exh d p hs hx hend he => rw [ht] at he; cases he
    | stuck d p hs hx hend he => rw [ht] at he; cases he
    | opn hs hn he => rw [ht] at he; cases he
    | skip i hs hn hi hl he => rw [ht] at he; cases he
    | fin hall hs hn he =>
      have hAA : A' = A := by rw [ht] at he; exact (Prod.mk.inj he).1
      subst hAA
      exact .done he (by simp)
  | step _ _ ih => exact ih

/-- Like `SimWhen`, with a flag: set when a state was restored into a used object, cleared in a new object; nothing is
said about states taken while the flag is set. -/
structure SimTaint (u : Bool) (it : Iter α) (xs : List (Py α)) (ended : Bool) (At : Bool → it.S → Nat → Prop)
    (Ck : it.C → Nat → Prop) : Prop where
  init : At false it.init 0
  bound : ∀ {b s n}, At b s n → n ≤ xs.length
  next_item : ∀ {b s n r}, At b s n → xs[n]? = some r →
    ∃ s', Ev (fun F => it.next F s = some (s', toRes r)) ∧ At b s' (n + 1)
  next_stop : ∀ {b s}, At b s xs.length → ended = true →
    ∃ s', Ev (fun F => it.next F s = some (s', .stop)) ∧ At b s' xs.length
  get : ∀ {s n}, At false s n → At false (it.get s).1 n ∧ Ck (it.get s).2 n
  set : ∀ {b s n c m}, u = true → At b s n → Ck c m → m < xs.length ∨ ended = true →
    ∃ s', Ev (fun F => it.set F s c = some (s', none)) ∧ At true s' m
  set_init : ∀ {c m}, Ck c m → m < xs.length ∨ ended = true →
    ∃ s', Ev (fun F => it.set F it.init c = some (s', none)) ∧ At false s' m

theorem SimTaint.when {u : Bool} {it : Iter α} {xs : List (Py α)} {ended : Bool} {At : Bool → it.S → Nat → Prop}
    {Ck : it.C → Nat → Prop} (h : SimTaint u it xs ended At Ck) : SimWhen (fun _ => false) it xs ended (At false) Ck :=
  { init := h.init, bound := h.bound, next_item := h.next_item, next_stop := h.next_stop, get := h.get,
    set := (fun _ _ _ hu => by cases hu), set_init := h.set_init }

/-- The iterator yields the machine's trace. -/
theorem interleave_sim {f : IterFam α} {xs : Nat → List (Py α)} {ended : Bool} {n cycle : Nat} {keep u : Bool}
    {At : Nat → f.S → Nat → Prop} {Ck : Nat → f.C → Nat → Prop}
    (hsim : ∀ d, d < n → SimWhen (fun _ => u) (f.iter d) (xs d) ended (At d) (Ck d)) (hL : 0 < min cycle n)
    {t : List (Nat × Py α)} (ht : ATrace xs ended n (min cycle n) (aStart (min cycle n)) t) :
    SimTaint u (interleaveIter f n cycle keep) (t.map (·.2)) ended
      (fun tn s m => m ≤ t.length ∧ ∃ A, ILRel xs ended At Ck (endCk xs Ck) true n (min cycle n) tn s A ∧ ATrace xs ended n (min cycle n) A (t.drop m))
      (fun c m => m ≤ t.length ∧ ∃ A, ILCkRel xs ended Ck (endCk xs Ck) true n (min cycle n) false c A ∧ ATrace xs ended n (min cycle n) A (t.drop m)) := by
  have hLn : min cycle n ≤ n := Nat.min_le_right _ _
  generalize hLe : min cycle n = L at *
  have hbegin : ∀ s : ILState f.S f.C, ∀ F, (interleaveIter f n cycle keep).next F s = ilLoop f n L keep F F { s with started := true } := by
    intro s F
    simp only [interleaveIter, hLe, if_neg (show ¬ L = 0 by omega)]
  have hstart : ∀ {tn} {s : ILState f.S f.C} {A}, ILRel xs ended At Ck (endCk xs Ck) true n L tn s A → ILRel xs ended At Ck (endCk xs Ck) true n L tn { s with started := true } A :=
    fun h => ⟨⟨h.core.cyc, h.core.cyc_lt, h.core.slot, h.core.pass, h.core.kept, h.core.nds, h.core.nds_le, h.core.fut, h.core.idx⟩, h.pf⟩
  have hpos : ∀ {A m}, ATrace xs ended n L A (t.drop m) → m < (t.map (·.2)).length ∨ ended = true →
      ∀ i d p, i < L → A.slots i = some (d, p) → p < (xs d).length ∨ ended = true := by
    intro A m htr hlt i d p hi hs
    by_cases he : ended = true
    · exact Or.inr he
    · left
      have hmlt : m < t.length := by
        rcases hlt with h | h
        · simpa using h
        · exact absurd h he
      obtain ⟨⟨d', r'⟩, l, hl⟩ : ∃ a l, t.drop m = a :: l := ⟨_, _, List.drop_eq_getElem_cons hmlt⟩
      rw [hl] at htr
      cases htr with
      | cons h1 h2 h3 => exact (h1.resolve_left he) i d p hi hs
  have hsetEq : ∀ (F : Nat) (s : ILState f.S f.C) (c : ILCk f.C), (interleaveIter f n cycle keep).set F s c = ilSet f n L keep F s c := by
    intro F s c
    simp only [interleaveIter, hLe]
  refine { init := ?_, bound := ?_, next_item := ?_, next_stop := ?_, get := ?_, set := ?_, set_init := ?_ }
  · exact ⟨Nat.zero_le _, aStart L, il_init hL, ht⟩
  · intro b s m h
    simpa using h.1
  · rintro b s m r ⟨hm, A, hrel, htr⟩ hr
    rw [List.getElem?_map] at hr
    cases htm : t[m]? with
    | none => rw [htm] at hr; cases hr
    | some dr =>
      rw [htm] at hr
      obtain ⟨d, r'⟩ := dr
      cases hr
      have hlt := lt_of_getElem?_some htm
      have hdrop : t.drop m = (d, r') :: t.drop (m + 1) := by
        rw [List.drop_eq_getElem_cons hlt]
        rw [List.getElem?_eq_getElem hlt] at htm
        rw [Option.some.inj htm]
      rw [hdrop] at htr
      cases htr with
      | cons h1 h2 h3 =>
        obtain ⟨s1, k0, g1, _, g2⟩ := il_next hsim hLn (fun _ _ _ h => h) (keep := keep) h2 (by simp) (hstart hrel)
        refine ⟨s1, (g1.ge k0).mono ?_, by omega, _, g2, h3⟩
        rintro F ⟨hF, e⟩
        have := e (F - k0)
        rw [Nat.sub_add_cancel hF] at this
        exact (hbegin s F).trans this
  · rintro b s ⟨hm, A, hrel, htr⟩ hend
    rw [List.length_map, List.drop_length] at htr
    cases htr with
    | fin h1 h2 =>
      obtain ⟨s1, k0, g1, _, g2⟩ := il_next hsim hLn (fun _ _ _ h => h) (keep := keep) h1 (by simp) (hstart hrel)
      refine ⟨s1, (g1.ge k0).mono ?_, by simp, _, g2, ?_⟩
      · rintro F ⟨hF, e⟩
        have := e (F - k0)
        rw [Nat.sub_add_cancel hF] at this
        exact (hbegin s F).trans this
      · rw [List.length_map, List.drop_length]
        exact .fin (h1.finished_fix rfl) h2
    | limit h1 => rw [h1] at hend; cases hend
  · rintro s m ⟨hm, A, hrel, htr⟩
    have hg := il_get hsim hLn (fun _ _ _ h => h) hrel
    have he : (interleaveIter f n cycle keep).get s = ilGet f n L s := by
      simp only [interleaveIter, hLe]
    rw [he]
    exact ⟨⟨hm, A, hg.1, htr⟩, ⟨hm, A, hg.2, htr⟩⟩
  · rintro b s n' c m hu ⟨_, A0, hrel, _⟩ ⟨hm, A, hck, htr⟩ hlt
    obtain ⟨s', g1, g2⟩ := il_set hsim hLn (fun _ _ _ h => h) (keep := keep) (tn' := true) (s := s) hck (hpos htr hlt)
      (fun j d o h => ⟨hu, hrel.core.kept j d o h⟩) (by
        intro j hj
        refine ⟨?_, Or.inr rfl⟩
        have hsl := hrel.core.slot j hj
        generalize A0.slots j = v at hsl
        cases hsl with
        | live st p h1 h2 h3 h4 => exact Or.inr ⟨hu, st, p, h1, h3, h4⟩
        | over c' h1 h2 => exact Or.inl h1
        | new h1 h2 h3 => exact Or.inl h1)
    exact ⟨s', g1.mono (fun F e => (hsetEq F s c).trans e), hm, A, g2, htr⟩
  · rintro c m ⟨hm, A, hck, htr⟩ hlt
    obtain ⟨s', g1, g2⟩ := il_set hsim hLn (fun _ _ _ h => h) (keep := keep) (tn' := false) (s := ilInit f.S f.C) hck (hpos htr hlt)
      (fun j d o h => by cases h) (fun j _ => ⟨Or.inl rfl, Or.inl rfl⟩)
    exact ⟨s', g1.mono (fun F e => (hsetEq F (ilInit f.S f.C) c).trans e), hm, A, g2, htr⟩

/-- No state is taken between a restore into the used object and the next crash.  `b`: such a restore was just made. -/
def cleanSaves : Bool → List Op → Bool
  | _, [] => true
  | b, .next :: ops => cleanSaves b ops
  | b, .save :: ops => !b && cleanSaves b ops
  | _, .restore _ :: ops => cleanSaves true ops
  | _, .fresh _ :: ops => cleanSaves false ops

private theorem forall₂_getElem?' {R : α → β → Prop} {l : List α} {v : List β}
    (hlen : l.length = v.length) (h : ∀ (i : Nat) a b, l[i]? = some a → v[i]? = some b → R a b) (k : Nat) (b : β)
    (hb : v[k]? = some b) : ∃ a, l[k]? = some a ∧ R a b := by
  have hk := lt_of_getElem?_some hb
  have : l[k]? = some (l[k]'(by omega)) := List.getElem?_eq_getElem _
  exact ⟨_, this, h k _ b this hb⟩

theorem simTaint_run {it : Iter α} {xs : List (Py α)} {ended : Bool} {At : Bool → it.S → Nat → Prop} {Ck : it.C → Nat → Prop}
    (sim : SimTaint true it xs ended At Ck) : ∀ (ops : List Op) (b : Bool) (s : it.S) (pos : Nat) (saved : List it.C)
    (sp : List Nat) (outs : List (Res α)), At b s pos → saved.length = sp.length →
    (∀ (i : Nat) c p, saved[i]? = some c → sp[i]? = some p → Ck c p) → cleanSaves b ops = true →
    specRun xs ended (fun _ => true) pos sp ops = some outs → Ev (fun F => implRun it F s saved ops = some outs) := by
  intro ops
  induction ops with
  | nil =>
    intro b s pos saved sp outs _ _ _ _ h
    simp only [specRun] at h
    exact Ev.of_forall (fun F => by simpa [implRun] using h)
  | cons op ops ih =>
    intro b s pos saved sp outs hat hlen hck hcl h
    cases op with
    | next =>
      simp only [specRun, Option.bind_eq_bind] at h
      cases ho : outcome xs ended pos with
      | none => rw [ho] at h; cases h
      | some r =>
        rw [ho, Option.bind_some] at h
        cases hr : specRun xs ended (fun _ => true) (min xs.length (pos + 1)) sp ops with
        | none => rw [hr] at h; cases h
        | some rest =>
          rw [hr, Option.bind_some] at h
          cases h
          have hb := sim.bound hat
          cases hx : xs[pos]? with
          | some q =>
            have hlt := lt_of_getElem?_some hx
            rw [outcome_lt hx] at ho
            cases ho
            obtain ⟨s', h1, h2⟩ := sim.next_item hat hx
            rw [Nat.min_eq_right (by omega)] at hr
            have h3 := ih b s' (pos + 1) saved sp rest h2 hlen hck hcl hr
            refine h1.mono₂ h3 ?_
            intro F e1 e2
            simp only [implRun, e1, Option.bind_eq_bind, Option.bind_some, e2]
          | none =>
            have hge := length_le_of_getElem?_none hx
            have hpos : pos = xs.length := by omega
            subst hpos
            unfold outcome at ho
            rw [hx] at ho
            cases ended with
            | false => simp at ho
            | true =>
              simp at ho
              subst ho
              obtain ⟨s', h1, h2⟩ := sim.next_stop hat rfl
              rw [Nat.min_eq_left (by omega)] at hr
              have h3 := ih b s' _ saved sp rest h2 hlen hck hcl hr
              refine h1.mono₂ h3 ?_
              intro F e1 e2
              simp only [implRun, e1, Option.bind_eq_bind, Option.bind_some, e2]
    | save =>
      simp only [cleanSaves, Bool.and_eq_true, Bool.not_eq_true'] at hcl
      obtain ⟨rfl, hcl⟩ := hcl
      simp only [specRun] at h
      obtain ⟨g1, g2⟩ := sim.get hat
      have h3 := ih false (it.get s).1 pos (saved ++ [(it.get s).2]) (sp ++ [pos]) outs g1 (by simp [hlen]) (by
        intro i c p hc hp
        by_cases hi : i < saved.length
        · rw [List.getElem?_append_left hi] at hc
          rw [List.getElem?_append_left (by omega)] at hp
          exact hck i c p hc hp
        · rw [List.getElem?_append_right (by omega)] at hc
          rw [List.getElem?_append_right (by omega)] at hp
          by_cases hi' : i - saved.length = 0
          · rw [hi'] at hc
            rw [← hlen, hi'] at hp
            cases hc; cases hp
            exact g2
          · rw [List.getElem?_eq_none (by simp; omega)] at hc
            cases hc) hcl h
      refine h3.mono ?_
      intro F e
      simpa [implRun] using e
    | restore k =>
      simp only [specRun, Option.bind_eq_bind] at h
      cases hp : sp[k]? with
      | none => rw [hp] at h; cases h
      | some p =>
        rw [hp, Option.bind_some] at h
        split at h
        · rename_i hk
          obtain ⟨c, hc, hcp⟩ := forall₂_getElem?' hlen hck k p hp
          obtain ⟨s', h1, h2⟩ := sim.set rfl hat hcp hk.1
          have h3 := ih true s' p saved sp outs h2 hlen hck hcl h
          refine h1.mono₂ h3 ?_
          intro F e1 e2
          simp only [implRun, hc, e1, Option.bind_eq_bind, Option.bind_some, e2]
        · cases h
    | fresh k =>
      simp only [specRun, Option.bind_eq_bind] at h
      cases hp : sp[k]? with
      | none => rw [hp] at h; cases h
      | some p =>
        rw [hp, Option.bind_some] at h
        split at h
        · rename_i hk
          obtain ⟨c, hc, hcp⟩ := forall₂_getElem?' hlen hck k p hp
          obtain ⟨s', h1, h2⟩ := sim.set_init hcp hk
          have h3 := ih false s' p saved sp outs h2 hlen hck hcl h
          refine h1.mono₂ h3 ?_
          intro F e1 e2
          simp only [implRun, hc, e1, Option.bind_eq_bind, Option.bind_some, e2]
        · cases h

end Grain
