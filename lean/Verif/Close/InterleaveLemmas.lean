import Verif.Close.Laws
/-
Closing an interleave, for `Verif/Close/Props.lean`.
-/
namespace Grain

theorem ilLoop_kept {f : IterFam α} (n L F : Nat) :
    ∀ k (s : ILState f.S f.C) {s' r}, ilLoop f n L false F k s = some (s', r) → s'.kept = s.kept := by
  intro k
  induction k with
  | zero => intro s s' r hn; cases hn
  | succ k ih =>
    intro s s' r hn
    unfold ilLoop at hn
    split at hn
    · rename_i d st hslot
      cases hq : f.next d F st with
      | none => rw [hq] at hn; cases hn
      | some q =>
        obtain ⟨st', r'⟩ := q
        rw [hq] at hn
        cases r' with
        | item a => cases hn; rfl
        | fail e => cases hn; rfl
        | stop =>
          simp only [Option.bind_eq_bind, Option.bind_some] at hn
          have h1 := ih _ hn
          exact h1
    · split at hn
      · split at hn
        · simp only at hn
          split at hn
          · have h1 := ih _ hn; exact h1
          · rename_i c _
            cases hq : f.set s.pf F (f.init s.pf) c with
            | none => rw [hq] at hn; cases hn
            | some q =>
              obtain ⟨st', e'⟩ := q
              rw [hq] at hn
              cases e' with
              | some e => cases hn; rfl
              | none =>
                simp only [Option.bind_eq_bind, Option.bind_some] at hn
                have h1 := ih _ hn
                exact h1
        · cases hn; rfl
      · split at hn
        · have h1 := ih _ hn; exact h1
        · cases hn; rfl

theorem ilGetLoop_kept {f : IterFam α} (n : Nat) :
    ∀ is (s : ILState f.S f.C) states, (ilGetLoop f n is s states).1.kept = s.kept := by
  intro is
  induction is with
  | nil => intro s states; rfl
  | cons i is ih =>
    intro s states
    unfold ilGetLoop
    split
    · exact ih _ _
    · split
      · exact ih _ _
      · split
        · rfl
        · exact ih _ _

theorem ilSetLoop_kept {f : IterFam α} (n : Nat) (F : Nat) (c : ILCk f.C) :
    ∀ is (s : ILState f.S f.C) {s' e}, ilSetLoop f n false F c is s = some (s', e) → s'.kept = s.kept := by
  intro is
  induction is with
  | nil => intro s s' e hn; cases hn; rfl
  | cons i is ih =>
    intro s s' e hn
    unfold ilSetLoop at hn
    split at hn
    · have h1 := ih _ hn; exact h1
    · rename_i ck _
      split at hn
      · have h1 := ih _ hn; exact h1
      · have hpick : (ilPick f n false s i (c.indices i)).1 = s.kept := by
          unfold ilPick
          split
          · rfl
          · split
            · rw [if_neg (by intro h; cases h.1)]
            · rfl
        split at hn
        · cases hn; rfl
        · rename_i kept d st hk
          rw [hk] at hpick
          simp only at hpick
          cases hq : f.set d F st ck with
          | none => rw [hq] at hn; cases hn
          | some q =>
            obtain ⟨st', e'⟩ := q
            rw [hq] at hn
            cases e' with
            | some e => cases hn; exact hpick
            | none =>
              simp only [Option.bind_eq_bind, Option.bind_some] at hn
              have h1 := ih _ hn
              exact h1.trans hpick

theorem interleaveIter_kept (f : IterFam α) (n cycle : Nat) (k : Nat → Option (Nat × (Nat × f.S))) :
    Preserves (interleaveIter f n cycle false) (fun s => ILState.kept s = k) where
  next := by
    intro F s s' r hn hs
    simp only [interleaveIter] at hn
    split at hn
    · cases hn; exact hs
    · have h1 := ilLoop_kept n _ F F _ hn; exact h1.trans hs
  get := by
    intro s hs
    have := ilGetLoop_kept n (List.range (min cycle n)) (s : ILState f.S f.C) (fun _ => none)
    simp only [interleaveIter, ilGet]
    split
    · exact this.trans hs
    · exact this.trans hs
  set := by
    intro F s c s' e hn hs
    simp only [interleaveIter, ilSet] at hn
    cases hq : ilSetLoop f n false F c (List.range (min cycle n)) s with
    | none => rw [hq] at hn; cases hn
    | some q =>
      obtain ⟨t, e'⟩ := q
      rw [hq] at hn
      have hp := (ilSetLoop_kept n F c _ _ hq).trans hs
      cases e' with
      | some e => cases hn; exact hp
      | none =>
        simp only [Option.bind_eq_bind, Option.bind_some] at hn
        split at hn <;> (cases hn; exact hp)

theorem Preserves.and {it : Iter α} {P Q : it.S → Prop} (h : Preserves it P) (h' : Preserves it Q) : Preserves it (fun s => P s ∧ Q s) where
  next := fun hn hs => ⟨h.next hn hs.1, h'.next hn hs.2⟩
  get := fun hs => ⟨h.get hs.1, h'.get hs.2⟩
  set := fun hn hs => ⟨h.set hn hs.1, h'.set hn hs.2⟩

/-- Closed: nothing in the slots or kept is open. -/
def ILClosed (f : CloseFam α) (s : ILState f.S f.C) : Prop :=
  (∀ i d st, s.slots i = some (d, st) → ∀ b ∈ f.sources d st, b = true) ∧ ∀ i, s.kept i = none

theorem interleave_close_closed {f : CloseFam α} {ok dead : Nat → f.S → Prop} (hl : ∀ d, CloseLaw (f.closable d) (ok d) (dead d))
    (hs : ∀ d st, dead d st → ∀ b ∈ f.sources d st, b = true) (n cycle : Nat) :
    Preserves (Closable.interleave f n cycle false).it
      (fun s => (ILHolds ok s.1 ∧ ILState.kept s.1 = fun _ => none) ∧ True) ∧
    ∀ s : ILState f.S f.C, ILHolds ok s ∧ s.kept = (fun _ => none) →
      ILClosed f { s with slots := fun i => (s.slots i).map (fun o => (o.1, f.close o.1 o.2)) } := by
  refine ⟨?_, ?_⟩
  · exact (((interleaveIter_preserves (fun d => (hl d).preservesOk) (fun d => (hl d).init) n cycle false).and
      (interleaveIter_kept f.toIterFam n cycle (fun _ => none))).flagged true (fun _ => True))
  · intro s h
    refine ⟨?_, fun i => by rw [show s.kept = _ from h.2]⟩
    intro i d st hi
    simp only at hi
    cases hq : s.slots i with
    | none => rw [hq] at hi; cases hi
    | some o =>
      obtain ⟨d', st'⟩ := o
      rw [hq] at hi
      cases hi
      exact hs _ _ ((hl d').close (h.1.1 _ _ _ hq))

end Grain
