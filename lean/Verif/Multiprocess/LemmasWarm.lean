import Verif.Multiprocess.LemmasLazy
/-
Lemmas for C107: two interleave iterators that differ in `get_state` of the datasets that have not delivered yet behave the same once
all have.
-/
namespace Grain

/-- The same iterators with another `get_state`. -/
abbrev IterFam.withGet (f : IterFam α) (g : Nat → f.S → f.S × f.C) : IterFam α :=
  { S := f.S, C := f.C, init := f.init, next := f.next, get := g, set := f.set }

/-- What is needed of the iterators: once `W` holds it stays, the two `get_state` agree, and the first element or a restore makes it hold. -/
structure Warms (f : IterFam α) (g : Nat → f.S → f.S × f.C) (W : f.S → Prop) : Prop where
  next : ∀ {d F s s' r}, W s → f.next d F s = some (s', r) → W s'
  get : ∀ {d s}, W s → g d s = f.get d s ∧ W (f.get d s).1
  set : ∀ {d F s c s'}, f.set d F s c = some (s', none) → W s'
  first : ∀ {d F s' a}, f.next d F (f.init d) = some (s', .item a) → W s'

section warm
variable {f : IterFam α} {g : Nat → f.S → f.S × f.C} {W : f.S → Prop} {L : Nat}

/-- Slot `i` holds an iterator that has delivered, or one that is exhausted. -/
def WarmSlot (W : f.S → Prop) (s : ILState f.S f.C) (i : Nat) : Prop :=
  (∃ d st, s.slots i = some (d, st) ∧ W st) ∨ (s.slots i = none ∧ (s.exState i).isSome)

/-- All slots are in use or exhausted, and there are no further datasets. -/
def WarmAll (W : f.S → Prop) (L : Nat) (s : ILState f.S f.C) : Prop := s.nextDs = L ∧ s.cyc < L ∧ ∀ i, i < L → WarmSlot W s i

/-- The other iterator: another record of the states of exhausted ones. -/
def SameEx (s : ILState f.S f.C) (e : Nat → Option f.C) : Prop := ∀ i, (s.exState i).isSome = (e i).isSome

theorem sameEx_update {s : ILState f.S f.C} {e : Nat → Option f.C} (h : SameEx s e) (i : Nat) {a b : Option f.C} (hab : a.isSome = b.isSome) :
    ∀ j, (Function.update s.exState i a j).isSome = (Function.update e i b j).isSome := by
  intro j
  by_cases hj : j = i
  · subst hj; rw [Function.update_self, Function.update_self, hab]
  · rw [Function.update_of_ne hj, Function.update_of_ne hj]; exact h j

/-- `next` of the two. -/
theorem ilLoop_same {n F : Nat} : ∀ (k : Nat) (s : ILState f.S f.C) (e : Nat → Option f.C), SameEx s e →
    ∀ t r, ilLoop (f.withGet g) n L false F k { s with exState := e } = some (t, r) →
      ∃ s' e', ilLoop f n L false F k s = some (s', r) ∧ t = { s' with exState := e' } ∧ SameEx s' e'
  | 0, s, e, h, t, r, hr => by cases hr
  | k + 1, s, e, h, t, r, hr => by
    rw [ilLoop] at hr ⊢
    dsimp only at hr
    cases hs : s.slots s.cyc with
    | some q =>
      obtain ⟨d, st⟩ := q
      rw [hs] at hr
      simp only at hr ⊢
      have hfn : (f.withGet g).next d F st = f.next d F st := rfl
      cases hn : f.next d F st with
      | none => simp only [hfn, hn, Option.bind_eq_bind, Option.bind_none] at hr; cases hr
      | some q =>
        obtain ⟨st', r'⟩ := q
        simp only [hfn, hn, Option.bind_eq_bind, Option.bind_some] at hr ⊢
        cases r' with
        | item a =>
          simp only at hr ⊢
          cases hr
          exact ⟨_, e, rfl, rfl, h⟩
        | fail er =>
          simp only at hr ⊢
          cases hr
          exact ⟨_, e, rfl, rfl, h⟩
        | stop =>
          simp only [Bool.false_eq_true, if_false] at hr ⊢
          exact ilLoop_same k
            { s with exState := Function.update s.exState s.cyc (some (f.get d st').2)
                     slots := Function.update s.slots s.cyc none
                     cyc := (s.cyc + 1) % L } _ (sameEx_update h s.cyc (a := some _) (b := some ((f.withGet g).get d st').2) rfl) t r hr
    | none =>
      rw [hs] at hr
      simp only at hr ⊢
      split at hr
      · rename_i h1
        rw [if_pos h1]
        split at hr
        · rename_i h2
          rw [if_pos h2]
          cases hf : s.future s.nextDs with
          | none =>
            rw [hf] at hr
            simp only at hr ⊢
            exact ilLoop_same k
              { s with pf := s.pf + 1
                       slots := Function.update s.slots s.cyc (some (s.pf, f.init s.pf))
                       exState := Function.update s.exState s.cyc none
                       indices := Function.update s.indices s.cyc s.nextDs
                       nextDs := s.nextDs + 1 } _ (sameEx_update h s.cyc (a := none) (b := none) rfl) t r hr
          | some c =>
            rw [hf] at hr
            have hfs : (f.withGet g).set s.pf F ((f.withGet g).init s.pf) c = f.set s.pf F (f.init s.pf) c := rfl
            simp only [hfs] at hr ⊢
            cases hn : f.set s.pf F (f.init s.pf) c with
            | none => simp only [hn, Option.bind_eq_bind, Option.bind_none] at hr; cases hr
            | some q =>
              obtain ⟨st', _ | er⟩ := q
              · simp only [hn, Option.bind_eq_bind, Option.bind_some] at hr ⊢
                exact ilLoop_same k
                  { s with pf := s.pf + 1
                           slots := Function.update s.slots s.cyc (some (s.pf, st'))
                           exState := Function.update s.exState s.cyc none
                           indices := Function.update s.indices s.cyc s.nextDs
                           future := Function.update s.future s.nextDs none
                           nextDs := s.nextDs + 1 } _ (sameEx_update h s.cyc (a := none) (b := none) rfl) t r hr
              · simp only [hn, Option.bind_eq_bind, Option.bind_some] at hr ⊢
                cases hr
                exact ⟨_, _, rfl, rfl, sameEx_update h s.cyc (a := none) (b := none) rfl⟩
        · rename_i h2
          rw [if_neg h2]
          cases hr
          exact ⟨s, e, rfl, rfl, h⟩
      · rename_i h1
        rw [if_neg h1]
        split at hr
        · rename_i h2
          rw [if_pos (show anyLive L s.slots = true from h2)]
          exact ilLoop_same k { s with cyc := (s.cyc + 1) % L } e h t r hr
        · rename_i h2
          rw [if_neg (show ¬ anyLive L s.slots = true from h2)]
          cases hr
          exact ⟨s, e, rfl, rfl, h⟩

/-- Once all slots have delivered they stay so. -/
theorem ilLoop_warm {n F : Nat} (hw : Warms f g W) (hn : n = L) : ∀ (k : Nat) (s : ILState f.S f.C), WarmAll W L s →
    ∀ s' r, ilLoop f n L false F k s = some (s', r) → WarmAll W L s'
  | 0, s, h, s', r, hr => by cases hr
  | k + 1, s, ⟨h1, h2, h3⟩, s', r, hr => by
    have hmod : (s.cyc + 1) % L < L := Nat.mod_lt _ (by omega)
    have hupd : ∀ (d : Nat) (st : f.S), W st → ∀ i, i < L →
        (∃ d' st', Function.update s.slots s.cyc (some (d, st)) i = some (d', st') ∧ W st') ∨
        (Function.update s.slots s.cyc (some (d, st)) i = none ∧ (s.exState i).isSome) := by
      intro d st hst i hi
      by_cases hj : i = s.cyc
      · subst hj; rw [Function.update_self]; exact Or.inl ⟨d, st, rfl, hst⟩
      · rw [Function.update_of_ne hj]; exact h3 i hi
    rw [ilLoop] at hr
    cases hs : s.slots s.cyc with
    | some q =>
      obtain ⟨d, st⟩ := q
      have hst : W st := by
        rcases h3 s.cyc h2 with ⟨d', st', e, w⟩ | ⟨e, _⟩
        · rw [hs] at e; cases e; exact w
        · rw [hs] at e; cases e
      rw [hs] at hr
      simp only at hr
      cases hn : f.next d F st with
      | none => simp only [hn, Option.bind_eq_bind, Option.bind_none] at hr; cases hr
      | some q =>
        obtain ⟨st', r'⟩ := q
        have hst' := hw.next hst hn
        simp only [hn, Option.bind_eq_bind, Option.bind_some] at hr
        cases r' with
        | item a =>
          simp only at hr
          cases hr
          exact ⟨h1, hmod, hupd d st' hst'⟩
        | fail er =>
          simp only at hr
          cases hr
          exact ⟨h1, h2, hupd d st' hst'⟩
        | stop =>
          simp only [Bool.false_eq_true, if_false] at hr
          refine ilLoop_warm hw ‹_› k _ ?_ s' r hr
          refine ⟨h1, hmod, ?_⟩
          intro i hi
          unfold WarmSlot
          dsimp only
          by_cases hj : i = s.cyc
          · subst hj; rw [Function.update_self, Function.update_self]; exact Or.inr ⟨rfl, rfl⟩
          · rw [Function.update_of_ne hj, Function.update_of_ne hj]; exact h3 i hi
    | none =>
      rw [hs] at hr
      simp only [if_neg (show ¬ s.nextDs < n by omega)] at hr
      split at hr
      · refine ilLoop_warm hw hn k _ ?_ s' r hr
        exact ⟨h1, hmod, h3⟩
      · cases hr
        exact ⟨h1, h2, h3⟩

/-- The first round: the slots before `j` have had their turn, the others are empty. -/
structure FirstRound (W : f.S → Prop) (L j : Nat) (s : ILState f.S f.C) : Prop where
  lt : j < L
  cyc : s.cyc = j
  nextDs : s.nextDs = j
  pf : s.pf = j
  before : ∀ i, i < j → WarmSlot W s i
  after : ∀ i, j ≤ i → s.slots i = none
  future : ∀ i, s.future i = none

/-- A call during the first round: an element comes from slot `j` or a later one; without an element the round is over. -/
theorem ilLoop_first {n F : Nat} (hw : Warms f g W) (hn : n = L) : ∀ (k j : Nat) (s : ILState f.S f.C), FirstRound W L j s →
    ∀ s' r, ilLoop f n L false F k s = some (s', r) →
      (∃ e, r = .fail e) ∨ WarmAll W L s' ∨ ((∃ a, r = .item a) ∧ ∃ j', j < j' ∧ FirstRound W L j' s') := by
  intro k
  induction k using Nat.strong_induction_on with
  | _ k ih =>
    intro j s h s' r hr
    obtain _ | k := k
    · cases hr
    rw [ilLoop] at hr
    have hj := h.lt
    rw [h.cyc, h.after j (Nat.le_refl _)] at hr
    simp only [h.nextDs, h.pf, if_pos (show j < n by omega), h.future j] at hr
    obtain _ | k := k
    · cases hr
    rw [ilLoop] at hr
    simp only [h.cyc, Function.update_self] at hr
    have hother : ∀ (x : Option (Nat × f.S)) (y : Option (Nat × f.S)) (ex : Nat → Option f.C) i, i < j → ex i = s.exState i →
        (∃ d st, Function.update (Function.update s.slots j x) j y i = some (d, st) ∧ W st) ∨
        (Function.update (Function.update s.slots j x) j y i = none ∧ (ex i).isSome) := by
      intro x y ex i hi he
      rw [Function.update_of_ne (by omega), Function.update_of_ne (by omega), he]
      exact h.before i hi
    cases hnx : f.next j F (f.init j) with
    | none => simp only [hnx, Option.bind_eq_bind, Option.bind_none] at hr; cases hr
    | some q =>
      obtain ⟨st', r'⟩ := q
      simp only [hnx, Option.bind_eq_bind, Option.bind_some] at hr
      cases r' with
      | fail er =>
        simp only at hr
        cases hr
        exact Or.inl ⟨_, rfl⟩
      | item a =>
        simp only at hr
        cases hr
        have hslot : ∀ i, i < j + 1 → (∃ d st, Function.update (Function.update s.slots j (some (j, f.init j))) j (some (j, st')) i = some (d, st) ∧ W st) ∨
            (Function.update (Function.update s.slots j (some (j, f.init j))) j (some (j, st')) i = none ∧ (Function.update s.exState j none i).isSome) := by
          intro i hi
          by_cases hij : i = j
          · subst hij
            rw [Function.update_self]
            exact Or.inl ⟨_, _, rfl, hw.first hnx⟩
          · exact hother _ _ _ i (by omega) (Function.update_of_ne hij _ _)
        by_cases hlast : j + 1 = L
        · exact Or.inr (Or.inl ⟨hlast, Nat.mod_lt _ (by omega), fun i hi => hslot i (by omega)⟩)
        · refine Or.inr (Or.inr ⟨⟨a, rfl⟩, j + 1, by omega, ⟨by omega, Nat.mod_eq_of_lt (by omega), rfl, rfl, hslot, ?_, h.future⟩⟩)
          intro i hi
          show Function.update (Function.update s.slots j _) j _ i = none
          rw [Function.update_of_ne (by omega), Function.update_of_ne (by omega)]
          exact h.after i (by omega)
      | stop =>
        simp only [Bool.false_eq_true, if_false] at hr
        have hslot : ∀ i, i < j + 1 → (∃ d st, Function.update (Function.update s.slots j (some (j, f.init j))) j none i = some (d, st) ∧ W st) ∨
            (Function.update (Function.update s.slots j (some (j, f.init j))) j none i = none ∧
              (Function.update (Function.update s.exState j none) j (some (f.get j st').2) i).isSome) := by
          intro i hi
          by_cases hij : i = j
          · subst hij
            rw [Function.update_self, Function.update_self]
            exact Or.inr ⟨rfl, rfl⟩
          · exact hother _ _ _ i (by omega) (by rw [Function.update_of_ne hij, Function.update_of_ne hij])
        by_cases hlast : j + 1 = L
        · refine Or.inr (Or.inl (ilLoop_warm hw hn k _ ?_ s' r hr))
          exact ⟨hlast, Nat.mod_lt _ (by omega), fun i hi => hslot i (by omega)⟩
        · have h' := ih k (by omega) (j + 1) _ ?_ s' r hr
          · rcases h' with h' | h' | ⟨h', j', hj', h''⟩
            · exact Or.inl h'
            · exact Or.inr (Or.inl h')
            · exact Or.inr (Or.inr ⟨h', j', by omega, h''⟩)
          · refine ⟨by omega, Nat.mod_eq_of_lt (by omega), rfl, rfl, hslot, ?_, h.future⟩
            intro i hi
            show Function.update (Function.update s.slots j _) j _ i = none
            rw [Function.update_of_ne (by omega), Function.update_of_ne (by omega)]
            exact h.after i (by omega)

/-- The states agree, but for those of exhausted iterators. -/
def SameStates (ex : Nat → Bool) (a b : Nat → Option f.C) : Prop := ∀ i, (a i).isSome = (b i).isSome ∧ (ex i = false → a i = b i)

theorem ilGetLoop_same {n : Nat} (hw : Warms f g W) : ∀ (is : List Nat) (s : ILState f.S f.C) (e : Nat → Option f.C)
    (states states' : Nat → Option f.C), (∀ i ∈ is, i < L) → WarmAll W L s → SameEx s e →
    SameStates (fun i => (s.exState i).isSome) states states' →
    let r := ilGetLoop f n is s states
    let r' := ilGetLoop (f.withGet g) n is { s with exState := e } states'
    r'.1 = { r.1 with exState := e } ∧ r.1.exState = s.exState ∧ WarmAll W L r.1 ∧
    SameStates (fun i => (s.exState i).isSome) r.2 r'.2 ∧ ∀ i, (i ∈ is ∨ (states i).isSome) → (r.2 i).isSome
  | [], s, e, states, states', hi, h, hs, hst => ⟨rfl, rfl, h, hst, fun i hi => by simpa [ilGetLoop] using hi⟩
  | i :: is, s, e, states, states', hi, ⟨h1, h2, h3⟩, hs, hst => by
    intro r r'
    have hr : r = ilGetLoop f n (i :: is) s states := rfl
    have hr' : r' = ilGetLoop (f.withGet g) n (i :: is) { s with exState := e } states' := rfl
    have hiL := hi i (by simp)
    rw [ilGetLoop.eq_def] at hr hr'
    dsimp only at hr hr'
    have hput : ∀ (a b : f.C), (((s.exState i).isSome = false) → a = b) →
        SameStates (fun i => (s.exState i).isSome) (Function.update states i (some a)) (Function.update states' i (some b)) := by
      intro a b hab j
      by_cases hj : j = i
      · subst hj
        rw [Function.update_self, Function.update_self]
        exact ⟨rfl, fun he => by rw [hab he]⟩
      · rw [Function.update_of_ne hj, Function.update_of_ne hj]
        exact hst j
    have hfin : ∀ (a : f.C) (q : Nat → Option f.C), (∀ j, (j ∈ is ∨ (Function.update states i (some a) j).isSome) → (q j).isSome) →
        ∀ j, (j ∈ i :: is ∨ (states j).isSome) → (q j).isSome := by
      intro a q hq j hj
      apply hq
      by_cases hji : j = i
      · subst hji; rw [Function.update_self]; exact Or.inr rfl
      · rw [Function.update_of_ne hji]
        rcases hj with hj | hj
        · rcases List.mem_cons.1 hj with hj | hj
          · exact absurd hj hji
          · exact Or.inl hj
        · exact Or.inr hj
    rcases h3 i hiL with ⟨d, st, hsl, hW⟩ | ⟨hsl, hex⟩
    · obtain ⟨g1, g2⟩ := hw.get (d := d) hW
      simp only [hsl] at hr hr'
      rw [g1] at hr'
      have ih := ilGetLoop_same (n := n) hw is { s with slots := Function.update s.slots i (some (d, (f.get d st).1)) } e
        (Function.update states i (some (f.get d st).2)) (Function.update states' i (some (f.get d st).2))
        (fun j hj => hi j (by simp [hj])) ⟨h1, h2, ?_⟩ hs (hput _ _ (fun _ => rfl))
      · dsimp only at ih
        rw [← hr, ← hr'] at ih
        obtain ⟨a1, a2, a3, a4, a5⟩ := ih
        exact ⟨a1, a2, a3, a4, hfin _ _ a5⟩
      · intro j hj
        unfold WarmSlot
        dsimp only
        by_cases hji : j = i
        · subst hji; rw [Function.update_self]; exact Or.inl ⟨_, _, rfl, g2⟩
        · rw [Function.update_of_ne hji]; exact h3 j hj
    · obtain ⟨ck, hck⟩ := Option.isSome_iff_exists.1 hex
      obtain ⟨ck', hck'⟩ := Option.isSome_iff_exists.1 ((hs i).symm.trans hex)
      simp only [hsl, hck, hck'] at hr hr'
      have ih := ilGetLoop_same (n := n) hw is s e (Function.update states i (some ck)) (Function.update states' i (some ck'))
        (fun j hj => hi j (by simp [hj])) ⟨h1, h2, h3⟩ hs (hput _ _ (fun he => by rw [hex] at he; cases he))
      dsimp only at ih
      rw [← hr, ← hr'] at ih
      obtain ⟨a1, a2, a3, a4, a5⟩ := ih
      exact ⟨a1, a2, a3, a4, hfin _ _ a5⟩

/-- Saved states of the two. -/
structure SameCk (L : Nat) (c c' : ILCk f.C) : Prop where
  cyc : c.cyc < L
  nextDs : c.nextDs = L
  some : ∀ i, i < L → (c.states i).isSome
  same : ∃ st, c' = { c with states := st } ∧ SameStates c.exhausted c.states st

/-- `get_state` of the two. -/
theorem ilGet_same {n : Nat} (hw : Warms f g W) {s : ILState f.S f.C} {e : Nat → Option f.C} (h : WarmAll W L s)
    (hs : SameEx s e) : (ilGet (f.withGet g) n L { s with exState := e }).1 = { (ilGet f n L s).1 with exState := e } ∧
      SameEx (ilGet f n L s).1 e ∧ WarmAll W L (ilGet f n L s).1 ∧
      SameCk L (ilGet f n L s).2 (ilGet (f.withGet g) n L { s with exState := e }).2 := by
  obtain ⟨a1, a2, a3, a4, a5⟩ := ilGetLoop_same (n := n) hw (List.range L) s e (fun _ => none) (fun _ => none)
    (fun i hi => List.mem_range.1 hi) h hs (fun i => ⟨rfl, fun _ => rfl⟩)
  unfold ilGet
  dsimp only at a1 a2 a3 a4 a5 ⊢
  generalize ilGetLoop f n (List.range L) s (fun _ => none) = r at *
  generalize ilGetLoop (f.withGet g) n (List.range L) { s with exState := e } (fun _ => none) = r' at *
  obtain ⟨r1, r2⟩ := r
  obtain ⟨r1', r2'⟩ := r'
  dsimp only at a1 a2 a3 a4 a5
  subst a1
  dsimp only
  obtain ⟨b1, b2, b3⟩ := a3
  have hs' : ∀ i, (r1.exState i).isSome = (e i).isSome := by rw [a2]; exact hs
  have hfun : (fun i => (e i).isSome) = fun i => (r1.exState i).isSome := funext (fun i => (hs' i).symm)
  by_cases hst : r1.started = true
  · simp only [hst, if_true]
    refine ⟨trivial, hs', ⟨b1, b2, b3⟩, ⟨b2, b1, fun i hi => a5 i (Or.inl (List.mem_range.2 hi)), r2', ?_, ?_⟩⟩
    · rw [hfun]
    · rw [a2]; exact a4
  · simp only [hst, Bool.false_eq_true, if_false]
    refine ⟨trivial, hs', ⟨b1, b2, b3⟩, ⟨b2, b1, fun i hi => a5 i (Or.inl (List.mem_range.2 hi)), r2', ?_, ?_⟩⟩
    · rw [hfun]
    · rw [a2]; exact a4

/-- The loop of `set_state` of the two. -/
theorem ilSetLoop_same {n F : Nat} {keep : Bool} (hw : Warms f g W) {c : ILCk f.C} {st : Nat → Option f.C}
    (hc : SameStates c.exhausted c.states st) (hsome : ∀ i, i < L → (c.states i).isSome) :
    ∀ (is : List Nat) (s : ILState f.S f.C) (e : Nat → Option f.C), (∀ i ∈ is, i < L) → SameEx s e →
    ∀ t r, ilSetLoop (f.withGet g) n keep F { c with states := st } is { s with exState := e } = some (t, r) →
      ∃ s' e', ilSetLoop f n keep F c is s = some (s', r) ∧ t = { s' with exState := e' } ∧ SameEx s' e' ∧
        (r = none → ∀ i, (i ∈ is ∨ WarmSlot W s i) → WarmSlot W s' i)
  | [], s, e, hi, h, t, r, hr => by
    cases hr
    exact ⟨s, e, rfl, rfl, h, fun _ i hi => by simpa using hi⟩
  | i :: is, s, e, hi, h, t, r, hr => by
    have hiL := hi i (by simp)
    obtain ⟨ck, hck⟩ := Option.isSome_iff_exists.1 (hsome i hiL)
    obtain ⟨ck', hck'⟩ := Option.isSome_iff_exists.1 ((hc i).1.symm.trans (hsome i hiL))
    rw [ilSetLoop] at hr ⊢
    simp only [hck, hck'] at hr ⊢
    have hfin : ∀ (s1 s' : ILState f.S f.C), WarmSlot W s1 i → (∀ j, j ≠ i → WarmSlot W s j → WarmSlot W s1 j) →
        (r = none → ∀ j, (j ∈ is ∨ WarmSlot W s1 j) → WarmSlot W s' j) →
        (r = none → ∀ j, (j ∈ i :: is ∨ WarmSlot W s j) → WarmSlot W s' j) := by
      intro s1 s' hi1 hoth hq hrn j hj
      apply hq hrn
      by_cases hji : j = i
      · subst hji; exact Or.inr hi1
      · rcases hj with hj | hj
        · rcases List.mem_cons.1 hj with hj | hj
          · exact absurd hj hji
          · exact Or.inl hj
        · exact Or.inr (hoth j hji hj)
    cases hx : c.exhausted i with
    | true =>
      simp only [hx, if_true] at hr ⊢
      obtain ⟨s', e', a1, a2, a3, a4⟩ := ilSetLoop_same (n := n) (F := F) (keep := keep) hw hc hsome is
        { s with exState := Function.update s.exState i (some ck), slots := Function.update s.slots i none }
        (Function.update e i (some ck')) (fun j hj => hi j (by simp [hj])) (sameEx_update h i (a := some ck) (b := some ck') rfl) t r hr
      refine ⟨s', e', a1, a2, a3, hfin _ s' ?_ ?_ a4⟩
      · unfold WarmSlot
        dsimp only
        rw [Function.update_self, Function.update_self]
        exact Or.inr ⟨rfl, rfl⟩
      · intro j hji hj
        unfold WarmSlot
        dsimp only
        rw [Function.update_of_ne hji, Function.update_of_ne hji]
        exact hj
    | false =>
      have hee : ck = ck' := by
        have := (hc i).2 hx
        rw [hck, hck'] at this
        exact Option.some.inj this
      subst hee
      have hp : ilPick (f.withGet g) n keep { s with exState := e } i (c.indices i) = ilPick f n keep s i (c.indices i) := by
        unfold ilPick
        dsimp only
        by_cases h1 : c.indices i = s.indices i <;> cases h2 : s.slots i <;> cases h3 : s.kept i <;> simp [h1, h2, h3]
      simp only [hx, Bool.false_eq_true, if_false, hp] at hr ⊢
      generalize hq : ilPick f n keep s i (c.indices i) = q at hr ⊢
      obtain ⟨kept, _ | ⟨d, o⟩⟩ := q
      · simp only at hr ⊢
        cases hr
        exact ⟨s, e, rfl, rfl, h, fun hn => by cases hn⟩
      · simp only at hr ⊢
        have hfs : (f.withGet g).set d F o ck = f.set d F o ck := rfl
        rw [hfs] at hr
        cases hset : f.set d F o ck with
        | none => simp only [hset, Option.bind_eq_bind, Option.bind_none] at hr; cases hr
        | some q =>
          obtain ⟨o', _ | er⟩ := q
          · simp only [hset, Option.bind_eq_bind, Option.bind_some] at hr ⊢
            obtain ⟨s', e', a1, a2, a3, a4⟩ := ilSetLoop_same (n := n) (F := F) (keep := keep) hw hc hsome is
              { s with kept := kept, slots := Function.update s.slots i (some (d, o')) } e (fun j hj => hi j (by simp [hj])) h t r hr
            refine ⟨s', e', a1, a2, a3, hfin _ s' ?_ ?_ a4⟩
            · unfold WarmSlot
              dsimp only
              rw [Function.update_self]
              exact Or.inl ⟨_, _, rfl, hw.set hset⟩
            · intro j hji hj
              unfold WarmSlot
              dsimp only
              rw [Function.update_of_ne hji]
              exact hj
          · simp only [hset, Option.bind_eq_bind, Option.bind_some] at hr ⊢
            cases hr
            exact ⟨_, e, rfl, rfl, h, fun hn => by cases hn⟩

/-- `set_state` of the two. -/
theorem ilSet_same {n F : Nat} {keep : Bool} (hw : Warms f g W) {c c' : ILCk f.C} (hc : SameCk L c c') {s : ILState f.S f.C}
    {e : Nat → Option f.C} (h : SameEx s e) {t : ILState f.S f.C}
    (hr : ilSet (f.withGet g) n L keep F { s with exState := e } c' = some (t, none)) :
    ∃ s' e', ilSet f n L keep F s c = some (s', none) ∧ t = { s' with exState := e' } ∧ SameEx s' e' ∧ WarmAll W L s' := by
  obtain ⟨h1, h2, h3, st, rfl, h4⟩ := hc
  unfold ilSet at hr ⊢
  cases hl : ilSetLoop (f.withGet g) n keep F { c with states := st } (List.range L) { s with exState := e } with
  | none =>
    rw [hl] at hr
    cases hr
  | some q =>
    obtain ⟨t1, r⟩ := q
    rw [hl] at hr
    obtain ⟨s', e', a1, rfl, a3, a4⟩ := ilSetLoop_same (n := n) (F := F) (keep := keep) hw h4 h3 (List.range L) s e
      (fun i hi => List.mem_range.1 hi) h t1 r hl
    rw [a1]
    cases r with
    | some er => simp only [Option.bind_eq_bind, Option.bind_some] at hr; cases hr
    | none =>
      simp only [Option.bind_eq_bind, Option.bind_some] at hr ⊢
      split at hr
      · cases hr
      · rename_i hle
        rw [if_neg hle]
        cases hr
        exact ⟨_, e', rfl, rfl, a3, h2, h1, fun i hi => a4 rfl i (Or.inl (List.mem_range.2 hi))⟩

end warm

theorem implRun_next_cases (it : Iter α) {F : Nat} {s : it.S} {saved : List it.C} {ops : List Op} {outs : List (Res α)}
    (h : implRun it F s saved (.next :: ops) = some outs) :
    ∃ s' r rest, it.next F s = some (s', r) ∧ implRun it F s' saved ops = some rest ∧ outs = r :: rest := by
  rw [implRun] at h
  cases hn : it.next F s with
  | none => rw [hn] at h; cases h
  | some q =>
    obtain ⟨s', r⟩ := q
    rw [hn] at h
    simp only [Option.bind_eq_bind, Option.bind_some] at h
    cases hrest : implRun it F s' saved ops with
    | none => rw [hrest] at h; cases h
    | some rest =>
      rw [hrest] at h
      cases h
      exact ⟨s', r, rest, rfl, hrest, rfl⟩

theorem implRun_next_intro (it : Iter α) {F : Nat} {s s' : it.S} {r : Res α} {saved : List it.C} {ops : List Op} {rest : List (Res α)}
    (h1 : it.next F s = some (s', r)) (h2 : implRun it F s' saved ops = some rest) :
    implRun it F s saved (.next :: ops) = some (r :: rest) := by
  rw [implRun, h1]
  simp only [Option.bind_eq_bind, Option.bind_some, h2]

/-- `it` does whatever `jt` does, for states related by `R`. -/
structure Matches (it jt : Iter α) (R : it.S → jt.S → Prop) (RC : it.C → jt.C → Prop) : Prop where
  next : ∀ {F s t t' r}, R s t → jt.next F t = some (t', r) → ∃ s', it.next F s = some (s', r) ∧ R s' t'
  get : ∀ {s t}, R s t → R (it.get s).1 (jt.get t).1 ∧ RC (it.get s).2 (jt.get t).2
  set : ∀ {F s t c d t'}, R s t → RC c d → jt.set F t d = some (t', none) → ∃ s', it.set F s c = some (s', none) ∧ R s' t'
  fresh : ∀ {F c d t'}, RC c d → jt.set F jt.init d = some (t', none) → ∃ s', it.set F it.init c = some (s', none) ∧ R s' t'

theorem Matches.run {it jt : Iter α} {R : it.S → jt.S → Prop} {RC : it.C → jt.C → Prop} (h : Matches it jt R RC) {F : Nat} :
    ∀ (ops : List Op) (s : it.S) (t : jt.S) (saved : List it.C) (saved' : List jt.C) (outs : List (Res α)),
    R s t → (∀ (k : Nat) d, saved'[k]? = some d → ∃ c, saved[k]? = some c ∧ RC c d) → saved.length = saved'.length →
    implRun jt F t saved' ops = some outs → implRun it F s saved ops = some outs
  | [], _, _, _, _, _, _, _, _, hr => hr
  | .next :: ops, s, t, saved, saved', outs, hR, hS, hl, hr => by
    rw [implRun] at hr ⊢
    cases hn : jt.next F t with
    | none => rw [hn] at hr; cases hr
    | some q =>
      obtain ⟨t', r⟩ := q
      obtain ⟨s', e, hR'⟩ := h.next hR hn
      rw [hn] at hr
      rw [e]
      simp only [Option.bind_eq_bind, Option.bind_some] at hr ⊢
      cases hrest : implRun jt F t' saved' ops with
      | none => rw [hrest] at hr; cases hr
      | some rest =>
        rw [hrest] at hr
        rw [h.run ops s' t' saved saved' rest hR' hS hl hrest]
        exact hr
  | .save :: ops, s, t, saved, saved', outs, hR, hS, hl, hr => by
    rw [implRun] at hr ⊢
    obtain ⟨h1, h2⟩ := h.get hR
    refine h.run ops _ _ _ _ outs h1 ?_ (by simp [hl]) hr
    intro k d hd
    rw [List.getElem?_append] at hd ⊢
    rw [hl]
    split at hd
    · rename_i hk
      rw [if_pos hk]
      exact hS k d hd
    · rename_i hk
      rw [if_neg hk]
      obtain ⟨hk0, hd⟩ := List.getElem?_eq_some_iff.1 hd
      simp only [List.length_singleton] at hk0
      have hz : k - saved'.length = 0 := by omega
      simp only [hz, List.getElem_cons_zero] at hd
      rw [hz]
      exact ⟨_, rfl, hd ▸ h2⟩
  | .restore k :: ops, s, t, saved, saved', outs, hR, hS, hl, hr => by
    rw [implRun] at hr ⊢
    cases hd : saved'[k]? with
    | none => rw [hd] at hr; cases hr
    | some d =>
      obtain ⟨c, hc, hcd⟩ := hS k d hd
      rw [hd] at hr
      rw [hc]
      simp only [Option.bind_eq_bind, Option.bind_some] at hr ⊢
      cases hset : jt.set F t d with
      | none => rw [hset] at hr; cases hr
      | some q =>
        obtain ⟨t', _ | er⟩ := q
        · obtain ⟨s', e, hR'⟩ := h.set hR hcd hset
          rw [hset] at hr
          rw [e]
          simp only [Option.bind_some] at hr ⊢
          exact h.run ops s' t' saved saved' outs hR' hS hl hr
        · rw [hset] at hr; cases hr
  | .fresh k :: ops, s, t, saved, saved', outs, hR, hS, hl, hr => by
    rw [implRun] at hr ⊢
    cases hd : saved'[k]? with
    | none => rw [hd] at hr; cases hr
    | some d =>
      obtain ⟨c, hc, hcd⟩ := hS k d hd
      rw [hd] at hr
      rw [hc]
      simp only [Option.bind_eq_bind, Option.bind_some] at hr ⊢
      cases hset : jt.set F jt.init d with
      | none => rw [hset] at hr; cases hr
      | some q =>
        obtain ⟨t', _ | er⟩ := q
        · obtain ⟨s', e, hR'⟩ := h.fresh hcd hset
          rw [hset] at hr
          rw [e]
          simp only [Option.bind_some] at hr ⊢
          exact h.run ops s' t' saved saved' outs hR' hS hl hr
        · rw [hset] at hr; cases hr

section warm
variable {f : IterFam α} {g : Nat → f.S → f.S × f.C} {W : f.S → Prop} {L : Nat}

/-- The two iterators, once all slots have delivered. -/
def WarmSame (W : f.S → Prop) (L : Nat) (s t : ILState f.S f.C) : Prop :=
  WarmAll W L s ∧ ∃ e, t = { s with exState := e } ∧ SameEx s e

theorem interleave_next_loop {f : IterFam α} (hpos : 0 < L) (F : Nat) (s : ILState f.S f.C) :
    (interleaveIter f L L false).next F s = ilLoop f L L false F F { s with started := true } := by
  simp only [interleaveIter, Nat.min_self, if_neg (show ¬ L = 0 by omega)]

theorem interleave_matches (hw : Warms f g W) (hpos : 0 < L) :
    Matches (interleaveIter f L L false) (interleaveIter (f.withGet g) L L false) (WarmSame W L) (SameCk (f := f) L) := by
  have hset : ∀ {F : Nat} {s : ILState f.S f.C} {e : Nat → Option f.C} {c d : ILCk f.C} {t' : ILState f.S f.C}, SameEx s e → SameCk L c d →
      (interleaveIter (f.withGet g) L L false).set F { s with exState := e } d = some (t', none) →
      ∃ s', (interleaveIter f L L false).set F s c = some (s', none) ∧ WarmSame W L s' t' := by
    intro F s e c d t' hs hc hr
    have hr' : ilSet (f.withGet g) L (min L L) false F { s with exState := e } d = some (t', none) := hr
    rw [Nat.min_self] at hr'
    obtain ⟨s', e', a1, a2, a3, a4⟩ := ilSet_same hw hc hs hr'
    refine ⟨s', ?_, a4, e', a2, a3⟩
    show ilSet f L (min L L) false F s c = _
    rw [Nat.min_self]
    exact a1
  refine { next := ?_, get := ?_, set := ?_, fresh := ?_ }
  · rintro F s t t' r ⟨hA, e, rfl, hs⟩ hr
    have hr' := (interleave_next_loop (f := f.withGet g) hpos F _).symm.trans hr
    obtain ⟨s', e', a1, a2, a3⟩ := ilLoop_same (g := g) F { s with started := true } e hs t' r hr'
    exact ⟨s', (interleave_next_loop hpos F s).trans a1, ilLoop_warm hw rfl F { s with started := true } hA s' r a1, e', a2, a3⟩
  · rintro s t ⟨hA, e, rfl, hs⟩
    obtain ⟨a1, a2, a3, a4⟩ := ilGet_same (n := L) hw hA hs
    show WarmSame W L (ilGet f L (min L L) s).1 (ilGet (f.withGet g) L (min L L) _).1 ∧
      SameCk L (ilGet f L (min L L) s).2 (ilGet (f.withGet g) L (min L L) _).2
    rw [Nat.min_self]
    exact ⟨⟨a3, e, a1, a2⟩, a4⟩
  · rintro F s t c d t' ⟨hA, e, rfl, hs⟩ hc hr
    exact hset hs hc hr
  · intro F c d t' hc hr
    exact hset (s := ilInit f.S f.C) (e := fun _ => none) (fun _ => rfl) hc hr

/-- The first elements, one from each slot at least; then everything else. -/
theorem run_after_first_round (hw : Warms f g W) (hpos : 0 < L) {F : Nat} {ops : List Op} :
    ∀ (m j : Nat) (s : ILState f.S f.C) (e : Nat → Option f.C) (outs : List (Res α)), L ≤ m + j → SameEx s e →
    (WarmAll W L s ∨ FirstRound W L j s) → (∀ er, Res.fail er ∉ outs) →
    implRun (interleaveIter (f.withGet g) L L false) F { s with exState := e } [] (List.replicate m .next ++ ops) = some outs →
    implRun (interleaveIter f L L false) F s [] (List.replicate m .next ++ ops) = some outs
  | m, j, s, e, outs, hm, hs, Or.inl hA, hf, hr =>
    (interleave_matches hw hpos).run _ s _ [] [] outs ⟨hA, e, rfl, hs⟩ (fun k d hd => by simp at hd) rfl hr
  | 0, j, s, e, outs, hm, hs, Or.inr hA, hf, hr => by
    have := hA.lt
    omega
  | m + 1, j, s, e, outs, hm, hs, Or.inr hA, hf, hr => by
    rw [List.replicate_succ, List.cons_append] at hr ⊢
    obtain ⟨t, r, rest, hl, hrest, rfl⟩ := implRun_next_cases (interleaveIter (f.withGet g) L L false) hr
    have hl := (interleave_next_loop (f := f.withGet g) hpos F _).symm.trans hl
    obtain ⟨s', e', a1, rfl, a3⟩ := ilLoop_same (g := g) F { s with started := true } e hs t r hl
    have hA' : FirstRound W L j { s with started := true } := ⟨hA.lt, hA.cyc, hA.nextDs, hA.pf, hA.before, hA.after, hA.future⟩
    have hfr := ilLoop_first hw rfl F j _ hA' s' r a1
    have hf' : ∀ er, Res.fail er ∉ rest := fun er he => hf er (List.mem_cons_of_mem _ he)
    refine implRun_next_intro (interleaveIter f L L false) ((interleave_next_loop hpos F s).trans a1) ?_
    rcases hfr with ⟨er, rfl⟩ | hA' | ⟨_, j', hj', hA'⟩
    · exact absurd (List.mem_cons_self ..) (hf er)
    · exact run_after_first_round hw hpos m L s' e' rest (by omega) a3 (Or.inl hA') hf' hrest
    · exact run_after_first_round hw hpos m j' s' e' rest (by omega) a3 (Or.inr hA') hf' hrest

end warm
end Grain
