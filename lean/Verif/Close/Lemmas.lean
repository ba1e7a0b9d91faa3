import Verif.Close.Spec
/-
Predicates of a parent's fields that its calls preserve are preserved by the iterator on top, since it uses its parent only
through `next`, `get_state` and `set_state`.
-/
namespace Grain

structure Preserves (it : Iter α) (P : it.S → Prop) : Prop where
  next : ∀ {F s s' r}, it.next F s = some (s', r) → P s → P s'
  get : ∀ {s}, P s → P (it.get s).1
  set : ∀ {F s c s' e}, it.set F s c = some (s', e) → P s → P s'

theorem Preserves.flagged {it : Iter α} {P : it.S → Prop} (h : Preserves it P) (checks : Bool) (Q : Bool → Prop) :
    Preserves (it.flagged checks) (fun s => P s.1 ∧ Q s.2) where
  next := by
    intro F s s' r hn hs
    simp only [Iter.flagged] at hn
    split at hn
    · cases hn; exact hs
    · cases hq : it.next F s.1 with
      | none => rw [hq] at hn; cases hn
      | some q => rw [hq] at hn; cases hn; exact ⟨h.next hq hs.1, hs.2⟩
  get := fun hs => ⟨h.get hs.1, hs.2⟩
  set := by
    intro F s c s' e hn hs
    simp only [Iter.flagged] at hn
    cases hq : it.set F s.1 c with
    | none => rw [hq] at hn; cases hn
    | some q => rw [hq] at hn; cases hn; exact ⟨h.set hq hs.1, hs.2⟩

theorem mapIter_preserves {p : Iter (Option α)} {P : p.S → Prop} (h : Preserves p P) (f : α → Py (Option β)) :
    Preserves (mapIter f p) P where
  next := by
    intro F s s' r hn hs
    simp only [mapIter] at hn
    cases hq : p.next F s with
    | none => rw [hq] at hn; cases hn
    | some q =>
      rw [hq] at hn
      have := h.next hq hs
      simp only [Option.bind_eq_bind, Option.bind_some] at hn
      split at hn
      · cases hn; exact this
      · cases hn; exact this
      · cases hn; exact this
      · split at hn <;> (cases hn; exact this)
  get := h.get
  set := h.set

theorem randomMapIter_preserves {p : Iter (Option α)} {P : p.S → Prop} (h : Preserves p P) (f : α → Nat → Py (Option β)) (i n : Nat) :
    Preserves (randomMapIter f i n p) (fun s => P s.1) where
  next := by
    intro F s s' r hn hs
    simp only [randomMapIter] at hn
    cases hq : p.next F s.1 with
    | none => rw [hq] at hn; cases hn
    | some q =>
      rw [hq] at hn
      have := h.next hq hs
      simp only [Option.bind_eq_bind, Option.bind_some] at hn
      split at hn
      · cases hn; exact this
      · cases hn; exact this
      · cases hn; exact this
      · split at hn <;> (cases hn; exact this)
  get := fun hs => h.get hs
  set := by
    intro F s c s' e hn hs
    simp only [randomMapIter] at hn
    cases hq : p.set F s.1 c.1 with
    | none => rw [hq] at hn; cases hn
    | some q =>
      obtain ⟨ps, e'⟩ := q
      rw [hq] at hn
      have := h.set hq hs
      cases e' <;> (cases hn; exact this)

theorem mapWithIndexIter_preserves {p : Iter (Option α)} {P : p.S → Prop} (h : Preserves p P) (f : Nat → α → Py (Option β)) :
    Preserves (mapWithIndexIter f p) (fun s => P s.1) where
  next := by
    intro F s s' r hn hs
    simp only [mapWithIndexIter] at hn
    cases hq : p.next F s.1 with
    | none => rw [hq] at hn; cases hn
    | some q =>
      rw [hq] at hn
      have := h.next hq hs
      simp only [Option.bind_eq_bind, Option.bind_some] at hn
      split at hn
      · cases hn; exact this
      · cases hn; exact this
      · cases hn; exact this
      · split at hn <;> (cases hn; exact this)
  get := fun hs => h.get hs
  set := by
    intro F s c s' e hn hs
    simp only [mapWithIndexIter] at hn
    cases hq : p.set F s.1 c.1 with
    | none => rw [hq] at hn; cases hn
    | some q =>
      obtain ⟨ps, e'⟩ := q
      rw [hq] at hn
      have := h.set hq hs
      cases e' <;> (cases hn; exact this)

theorem limitIter_preserves {p : Iter α} {P : p.S → Prop} (h : Preserves p P) (n : Nat) :
    Preserves (limitIter n p) (fun s => P s.1) where
  next := by
    intro F s s' r hn hs
    simp only [limitIter] at hn
    split at hn
    · cases hn; exact hs
    · cases hq : p.next F s.1 with
      | none => rw [hq] at hn; cases hn
      | some q =>
        obtain ⟨ps, r'⟩ := q
        rw [hq] at hn
        have := h.next hq hs
        cases r' <;> (cases hn; exact this)
  get := fun hs => h.get hs
  set := by
    intro F s c s' e hn hs
    simp only [limitIter] at hn
    cases hq : p.set F s.1 c.1 with
    | none => rw [hq] at hn; cases hn
    | some q =>
      obtain ⟨ps, e'⟩ := q
      rw [hq] at hn
      have := h.set hq hs
      cases e' <;> (cases hn; exact this)

theorem filterIter_preserves {p : Iter α} {P : p.S → Prop} (h : Preserves p P) (pred : α → Py Bool) (thr : Option Threshold) :
    Preserves (filterIter pred thr p) (fun s => P s.1) where
  next := by
    intro F s s' r hn hs
    have : ∀ n (s : p.S × Checker), P s.1 → filterLoop p pred thr F n s = some (s', r) → P s'.1 := by
      intro n
      induction n with
      | zero => intro s _ hn; cases hn
      | succ n ih =>
        intro s hs hn
        unfold filterLoop at hn
        cases hq : p.next F s.1 with
        | none => rw [hq] at hn; cases hn
        | some q =>
          obtain ⟨ps, r'⟩ := q
          rw [hq] at hn
          have hp := h.next hq hs
          cases r' with
          | stop => cases hn; exact hp
          | fail e => cases hn; exact hp
          | item a =>
            simp only [Option.bind_eq_bind, Option.bind_some] at hn
            split at hn
            · cases hn; exact hp
            · split at hn
              · cases hn; exact hp
              · split at hn
                · cases hn; exact hp
                · exact ih _ hp hn
    exact this F s hs hn
  get := fun hs => h.get hs
  set := by
    intro F s c s' e hn hs
    simp only [filterIter] at hn
    cases hq : p.set F s.1 c with
    | none => rw [hq] at hn; cases hn
    | some q => rw [hq] at hn; cases hn; exact h.set hq hs

theorem batchLoop_preserves {p : Iter α} {P : p.S → Prop} (h : Preserves p P) (drop : Bool) (F : Nat) :
    ∀ n s vs {s' v}, P s → batchLoop p drop F n s vs = some (s', v) → P s' := by
  intro n
  induction n with
  | zero => intro s vs s' v hs hn; cases hn; exact hs
  | succ n ih =>
    intro s vs s' v hs hn
    unfold batchLoop at hn
    cases hq : p.next F s with
    | none => rw [hq] at hn; cases hn
    | some q =>
      obtain ⟨ps, r'⟩ := q
      rw [hq] at hn
      have hp := h.next hq hs
      cases r' with
      | stop =>
        simp only [Option.bind_eq_bind, Option.bind_some] at hn
        split at hn <;> (cases hn; exact hp)
      | fail e => cases hn; exact hp
      | item a => exact ih _ _ hp hn

theorem batchIter_preserves {p : Iter α} {P : p.S → Prop} (h : Preserves p P) (b : Nat) (drop : Bool) (f : List α → Py β) :
    Preserves (batchIter b drop f p) P where
  next := by
    intro F s s' r hn hs
    simp only [batchIter] at hn
    cases hq : batchLoop p drop F b s [] with
    | none => rw [hq] at hn; cases hn
    | some q =>
      obtain ⟨ps, v⟩ := q
      rw [hq] at hn
      have hp := batchLoop_preserves h drop F b s [] hs hq
      simp only [Option.bind_eq_bind, Option.bind_some] at hn
      split at hn
      · cases hn; exact hp
      · cases hn; exact hp
      · cases hn; exact hp
      · split at hn <;> (cases hn; exact hp)
  get := h.get
  set := h.set

theorem rebatchFetch_preserves {p : Iter (List α)} {P : p.S → Prop} (h : Preserves p P) (F : Nat) {s s' : RebatchState p.S p.C α} {r}
    (hs : P s.ps) (hn : rebatchFetch p F s = some (s', r)) : P s'.ps := by
  unfold rebatchFetch at hn
  split at hn
  · simp only at hn
    cases hq : p.next F (p.get s.ps).1 with
    | none => rw [hq] at hn; cases hn
    | some q =>
      obtain ⟨ps, r'⟩ := q
      rw [hq] at hn
      have hp := h.next hq (h.get hs)
      cases r' <;> (cases hn; exact hp)
  · cases hn; exact hs

theorem rebatchIter_preserves {p : Iter (List α)} {P : p.S → Prop} (h : Preserves p P) (b : Nat) (drop : Bool) :
    Preserves (rebatchIter b drop p) (fun s => P (RebatchState.ps s)) where
  next := by
    intro F s s' r hn hs
    have : ∀ n needed acc (s : RebatchState p.S p.C α), P s.ps → rebatchLoop p drop F n needed acc s = some (s', r) → P (RebatchState.ps s') := by
      intro n
      induction n with
      | zero => intro needed acc s hs hn; cases hn
      | succ n ih =>
        intro needed acc s hs hn
        unfold rebatchLoop at hn
        split at hn
        · cases hn; exact hs
        · cases hq : rebatchFetch p F s with
          | none => rw [hq] at hn; cases hn
          | some q =>
            obtain ⟨t, r'⟩ := q
            rw [hq] at hn
            have hp := rebatchFetch_preserves h F hs hq
            simp only [Option.bind_eq_bind, Option.bind_some] at hn
            split at hn
            · cases hn; exact hp
            · split at hn <;> (cases hn; exact hp)
            · split at hn
              · cases hn; exact hp
              · exact ih _ _ _ (by exact hp) hn
    exact this F b none s hs hn
  get := fun hs => hs
  set := by
    intro F s c s' e hn hs
    simp only [rebatchIter] at hn
    cases hq : p.set F (RebatchState.ps s) c.1 with
    | none => rw [hq] at hn; cases hn
    | some q =>
      obtain ⟨ps, e'⟩ := q
      rw [hq] at hn
      have hp := h.set hq hs
      cases e' with
      | none => cases hn; exact h.get hp
      | some e' => cases hn; exact hp

theorem flatMapIter_preserves {p : Iter α} {P : p.S → Prop} (h : Preserves p P) (f : α → Py (List β)) :
    Preserves (flatMapIter f p) (fun s => P (FlatMapState.ps s)) where
  next := by
    intro F s s' r hn hs
    have : ∀ n (s : FlatMapState p.S p.C β), P s.ps → flatMapLoop p f F n s = some (s', r) → P (FlatMapState.ps s') := by
      intro n
      induction n with
      | zero => intro s hs hn; cases hn
      | succ n ih =>
        intro s hs hn
        unfold flatMapLoop at hn
        split at hn
        · cases hn; exact hs
        · simp only at hn
          cases hq : p.next F (p.get s.ps).1 with
          | none => rw [hq] at hn; cases hn
          | some q =>
            obtain ⟨ps, r'⟩ := q
            rw [hq] at hn
            have hp := h.next hq (h.get hs)
            cases r' with
            | stop => cases hn; exact hp
            | fail e => cases hn; exact hp
            | item a =>
              simp only [Option.bind_eq_bind, Option.bind_some] at hn
              split at hn
              · cases hn; exact hp
              · exact ih _ (by exact hp) hn
    exact this F s hs hn
  get := fun hs => hs
  set := by
    intro F s c s' e hn hs
    simp only [flatMapIter] at hn
    cases hq : p.set F (FlatMapState.ps s) c.1 with
    | none => rw [hq] at hn; cases hn
    | some q =>
      obtain ⟨ps, e'⟩ := q
      rw [hq] at hn
      have hp := h.set hq hs
      cases e' with
      | some e' => cases hn; exact hp
      | none =>
        simp only [Option.bind_eq_bind, Option.bind_some] at hn
        cases hq' : p.next F ps with
        | none => rw [hq'] at hn; cases hn
        | some q' =>
          obtain ⟨ps', r'⟩ := q'
          rw [hq'] at hn
          have hp' := h.next hq' hp
          cases r' with
          | stop => cases hn; exact hp'
          | fail e => cases hn; exact hp'
          | item a =>
            simp only [Option.bind_some] at hn
            split at hn <;> (cases hn; exact hp')

theorem repeatIter_preserves {p : Iter α} {P : p.S → Prop} (h : Preserves p P) (numEpochs : Option Nat) :
    Preserves (repeatIter numEpochs p) (fun s => P (RepeatState.ps s)) where
  next := by
    intro F s s' r hn hs
    have : ∀ n (s : RepeatState p.S p.C), P s.ps → repeatLoop p numEpochs F n s = some (s', r) → P (RepeatState.ps s') := by
      intro n
      induction n with
      | zero => intro s hs hn; cases hn
      | succ n ih =>
        intro s hs hn
        unfold repeatLoop at hn
        cases hq : p.next F s.ps with
        | none => rw [hq] at hn; cases hn
        | some q =>
          obtain ⟨ps, r'⟩ := q
          rw [hq] at hn
          have hp := h.next hq hs
          cases r' with
          | fail e => cases hn; exact hp
          | item a => cases hn; exact hp
          | stop =>
            simp only [Option.bind_eq_bind, Option.bind_some] at hn
            split at hn
            · cases hn; exact hp
            · cases hq' : p.set F ps s.start with
              | none => rw [hq'] at hn; cases hn
              | some q' =>
                obtain ⟨ps', e'⟩ := q'
                rw [hq'] at hn
                have hp' := h.set hq' hp
                cases e' with
                | some e => cases hn; exact hp'
                | none => exact ih _ (by exact hp') hn
    simp only [repeatIter] at hn
    split at hn
    · cases hn; exact hs
    · exact this F s hs hn
  get := fun hs => h.get hs
  set := by
    intro F s c s' e hn hs
    simp only [repeatIter] at hn
    cases hq : p.set F (RepeatState.ps s) c.1 with
    | none => rw [hq] at hn; cases hn
    | some q => rw [hq] at hn; cases hn; exact h.set hq hs

theorem cacheRefill_preserves {p : Iter α} {P : p.S → Prop} (h : Preserves p P) (F : Nat) :
    ∀ n s acc {s' acc' r}, P s → cacheRefill p F n s acc = some (s', acc', r) → P s' := by
  intro n
  induction n with
  | zero => intro s acc s' acc' r hs hn; cases hn; exact hs
  | succ n ih =>
    intro s acc s' acc' r hs hn
    unfold cacheRefill at hn
    cases hq : p.next F s with
    | none => rw [hq] at hn; cases hn
    | some q =>
      obtain ⟨ps, r'⟩ := q
      rw [hq] at hn
      have hp := h.next hq hs
      cases r' with
      | stop => cases hn; exact hp
      | fail e => cases hn; exact hp
      | item a => exact ih _ _ hp hn

theorem cacheRead_preserves {p : Iter α} {P : p.S → Prop} (h : Preserves p P) (F : Nat) {s s' : CacheState p.S p.C α} {r}
    (hs : P s.ps) (hn : cacheRead p F s = some (s', r)) : P s'.ps := by
  unfold cacheRead at hn
  cases hq : p.next F s.ps with
  | none => rw [hq] at hn; cases hn
  | some q =>
    obtain ⟨ps, r'⟩ := q
    rw [hq] at hn
    have hp := h.next hq hs
    cases r' <;> (cases hn; exact hp)

theorem cacheIter_preserves {p : Iter α} {P : p.S → Prop} (h : Preserves p P) :
    Preserves (cacheIter p) (fun s => P (CacheState.ps s)) where
  next := by
    intro F s s' r hn hs
    change cacheNext p F s = _ at hn
    unfold cacheNext at hn
    split at hn
    · split at hn <;> (cases hn; exact hs)
    · split at hn
      · cases hq : p.set F (CacheState.ps s) (CacheState.start s) with
        | none => rw [hq] at hn; cases hn
        | some q =>
          obtain ⟨ps, e'⟩ := q
          rw [hq] at hn
          have hp := h.set hq hs
          cases e' with
          | some e => cases hn; exact hp
          | none =>
            simp only [Option.bind_eq_bind, Option.bind_some] at hn
            cases hq' : cacheRefill p F (CacheState.position s) ps [] with
            | none => rw [hq'] at hn; cases hn
            | some q' =>
              obtain ⟨ps', acc, r'⟩ := q'
              rw [hq'] at hn
              have hp' := cacheRefill_preserves h F _ _ _ hp hq'
              cases r' with
              | some r => cases hn; exact hp'
              | none => exact cacheRead_preserves h F (by exact hp') hn
      · exact cacheRead_preserves h F hs hn
  get := fun hs => h.get hs
  set := by
    intro F s c s' e hn hs
    have key : ∀ (t : CacheState p.S p.C α) (ck : p.C) (pos : Nat), P t.ps → (do
        match (← p.set F t.ps ck) with
        | (ps, some e) => some ({ t with ps := ps }, some e)
        | (ps, none) =>
          let t := { t with ps := ps, position := pos }
          some (if t.position > t.cache.length ∧ t.filled = false then { t with rebuild := true } else t, none)) = some (s', e) →
        P (CacheState.ps s') := by
      intro t ck pos ht hn
      cases hq : p.set F t.ps ck with
      | none => rw [hq] at hn; cases hn
      | some q =>
        obtain ⟨ps, e'⟩ := q
        rw [hq] at hn
        have hp := h.set hq ht
        cases e' with
        | some e => cases hn; exact hp
        | none =>
          simp only [Option.bind_eq_bind, Option.bind_some] at hn
          by_cases hc : pos > t.cache.length ∧ t.filled = false
          · have h1 := (congrArg (fun (x : CacheState p.S p.C α) => some (x, (none : Option Err))) (if_pos hc)).symm.trans hn
            cases h1; exact hp
          · have h1 := (congrArg (fun (x : CacheState p.S p.C α) => some (x, (none : Option Err))) (if_neg hc)).symm.trans hn
            cases h1; exact hp
    refine key _ c.1 c.2.1 ?_ hn
    cases (c.2.2 && !(CacheState.filled s)) <;> exact hs

theorem winFill_preserves {p : Iter α} {P : p.S → Prop} (h : Preserves p P) (F : Nat) :
    ∀ n s acc {s' q}, P s → winFill p F n s acc = some (s', q) → P s' := by
  intro n
  induction n with
  | zero => intro s acc s' q hs hn; cases hn; exact hs
  | succ n ih =>
    intro s acc s' q hs hn
    unfold winFill at hn
    cases hq : p.next F s with
    | none => rw [hq] at hn; cases hn
    | some q =>
      obtain ⟨ps, r'⟩ := q
      rw [hq] at hn
      have hp := h.next hq hs
      cases r' with
      | stop => cases hn; exact hp
      | fail e => cases hn; exact hp
      | item a => exact ih _ _ hp hn

theorem winFillShuffle_preserves {p : Iter α} {P : p.S → Prop} (h : Preserves p P) (shuffle : Nat → List α → Py (List α)) (w F : Nat)
    {s s' : WinState p.S p.C α} {r} (hs : P s.ps) (hn : winFillShuffle shuffle w p F s = some (s', r)) : P s'.ps := by
  unfold winFillShuffle at hn
  cases hq : winFill p F w s.ps [] with
  | none => rw [hq] at hn; cases hn
  | some q =>
    obtain ⟨ps, acc, ex, err⟩ := q
    rw [hq] at hn
    have hp := winFill_preserves h F _ _ _ hs hq
    simp only [Option.bind_eq_bind, Option.bind_some] at hn
    split at hn
    · cases hn; exact hp
    · split at hn <;> (cases hn; exact hp)

theorem winPop_ps {PS PC : Type} (s : WinState PS PC α) : (winPop s).1.ps = s.ps := by
  unfold winPop
  split <;> rfl

theorem windowShuffleIter_preserves {p : Iter α} {P : p.S → Prop} (h : Preserves p P) (shuffle : Nat → List α → Py (List α)) (w : Nat) :
    Preserves (windowShuffleIter shuffle w p) (fun s => P (WinState.ps s)) where
  next := by
    intro F s s' r hn hs
    simp only [windowShuffleIter] at hn
    split at hn
    · split at hn
      · cases hn; exact hs
      · cases hq : winFillShuffle shuffle w p F { s with ps := (p.get (WinState.ps s)).1, start := (p.get (WinState.ps s)).2 } with
        | none => rw [hq] at hn; cases hn
        | some q =>
          obtain ⟨t, e'⟩ := q
          rw [hq] at hn
          have hp := winFillShuffle_preserves h shuffle w F (by exact h.get hs) hq
          cases e' with
          | some e => cases hn; exact hp
          | none =>
            simp only [Option.bind_eq_bind, Option.bind_some, Option.some.injEq] at hn
            have h1 := congrArg (fun x => WinState.ps x.1) hn
            simp only [winPop_ps] at h1
            rw [← h1]
            exact hp
    · simp only [Option.some.injEq] at hn
      have h1 : (winPop (s : WinState p.S p.C α)).1.ps = WinState.ps s' := congrArg (fun x => WinState.ps x.1) hn
      exact ((winPop_ps (s : WinState p.S p.C α)).symm.trans h1) ▸ hs
  get := fun hs => hs
  set := by
    intro F s c s' e hn hs
    simp only [windowShuffleIter] at hn
    cases hq : p.set F (WinState.ps s) c.1 with
    | none => rw [hq] at hn; cases hn
    | some q =>
      obtain ⟨ps, e'⟩ := q
      rw [hq] at hn
      have hp := h.set hq hs
      cases e' with
      | some e => cases hn; exact hp
      | none =>
        simp only [Option.bind_eq_bind, Option.bind_some] at hn
        cases hq' : winFillShuffle shuffle w p F { s with start := c.1, ps := ps, windowIndex := c.2.1, pos := c.2.2, exhausted := false } with
        | none => rw [hq'] at hn; cases hn
        | some q' =>
          obtain ⟨t, e''⟩ := q'
          rw [hq'] at hn
          have hp' := winFillShuffle_preserves h shuffle w F (by exact hp) hq'
          cases e'' <;> (cases hn; exact hp')

theorem packEmit_parent (s : PackState B R S C) (rows : List R) (ord : List Nat) : (packEmit s rows ord).1.parent = s.parent := by
  unfold packEmit
  split
  · rfl
  · split
    · rfl
    · split <;> rfl

theorem packLoop_preserves {p : Iter E} {P : p.S → Prop} (h : Preserves p P) (pk : Packer E R) (order : Nat → List R → List Nat) (F : Nat) :
    ∀ n (s : PackState pk.B R p.S p.C) {s' r}, P s.parent → packLoop pk order p F n s = some (s', r) → P s'.parent := by
  intro n
  induction n with
  | zero => intro s s' r hs hn; cases hn
  | succ n ih =>
    intro s s' r hs hn
    have emit : ∀ (t : PackState pk.B R p.S p.C) rows ord, P t.parent → some (packEmit t rows ord) = some (s', r) → P s'.parent := by
      intro t rows ord ht he
      have h1 := congrArg (fun x => x.1.parent) (Option.some.inj he)
      simp only [packEmit_parent] at h1
      exact h1 ▸ ht
    unfold packLoop at hn
    simp only at hn
    cases hq : p.next F (p.get s.parent).1 with
    | none => rw [hq] at hn; cases hn
    | some q =>
      obtain ⟨ps, r'⟩ := q
      rw [hq] at hn
      have hp := h.next hq (h.get hs)
      cases r' with
      | fail e => cases hn; exact hp
      | stop =>
        simp only [Option.bind_eq_bind, Option.bind_some] at hn
        split at hn
        · exact emit _ _ _ (by exact hp) hn
        · cases hn; exact hp
      | item a =>
        simp only [Option.bind_eq_bind, Option.bind_some] at hn
        split at hn
        · cases hn; exact hp
        · exact ih _ (by exact hp) hn
        · split at hn
          · cases hn; exact hp
          · cases hn; exact hp
          · exact emit _ _ _ (by exact hp) hn

theorem packIter_preserves {p : Iter E} {P : p.S → Prop} (h : Preserves p P) (pk : Packer E R) (order : Nat → List R → List Nat) :
    Preserves (packIter pk order p) (fun s => P (PackState.parent s)) where
  next := by
    intro F s s' r hn hs
    simp only [packIter] at hn
    split at hn
    · have h1 : (packEmit (s : PackState pk.B R p.S p.C) _ _).1.parent = PackState.parent s' := congrArg (fun x => PackState.parent x.1) (Option.some.inj hn)
      exact ((packEmit_parent (s : PackState pk.B R p.S p.C) _ _).symm.trans h1) ▸ hs
    · exact packLoop_preserves h pk order F F _ hs hn
  get := fun hs => hs
  set := by
    intro F s c s' e hn hs
    simp only [packIter] at hn
    cases hq : p.set F (PackState.parent s) c.1 with
    | none => rw [hq] at hn; cases hn
    | some q =>
      obtain ⟨ps, e'⟩ := q
      rw [hq] at hn
      have hp := h.set hq hs
      cases e' with
      | none => cases hn; exact h.get hp
      | some e' => cases hn; exact hp

theorem ctsLoop_preserves {p : Iter (List (CtsVal τ))} {P : p.S → Prop} (h : Preserves p P) (cfg : CtsCfg τ) (F : Nat) :
    ∀ n ps buffer tokens queue {l e}, P ps → ctsLoop cfg p F n ps buffer tokens queue = some (l, e) → P l.parent := by
  intro n
  induction n with
  | zero => intro ps buffer tokens queue l e hs hn; cases hn
  | succ n ih =>
    intro ps buffer tokens queue l e hs hn
    unfold ctsLoop at hn
    simp only at hn
    cases hq : p.next F (p.get ps).1 with
    | none => rw [hq] at hn; cases hn
    | some q =>
      obtain ⟨ps, r'⟩ := q
      rw [hq] at hn
      have hp := h.next hq (h.get hs)
      cases r' with
      | fail e => cases hn; exact hp
      | stop => cases hn; exact hp
      | item a =>
        simp only [Option.bind_eq_bind, Option.bind_some] at hn
        split at hn
        · split at hn
          · cases hn; exact hp
          · exact ih _ _ _ _ hp hn
        · split at hn
          · exact ih _ _ _ _ hp hn
          · cases hn; exact hp

theorem ctsCheckpoint_preserves {p : Iter (List (CtsVal τ))} {P : p.S → Prop} (h : Preserves p P) (cfg : CtsCfg τ) {s : CtsState τ p.S p.C}
    (hs : P s.parent) : P (ctsCheckpoint cfg p s).parent := by
  unfold ctsCheckpoint
  split
  · exact h.get hs
  · exact hs

theorem ctsNext_preserves {p : Iter (List (CtsVal τ))} {P : p.S → Prop} (h : Preserves p P) (cfg : CtsCfg τ) (F : Nat)
    {s s' : CtsState τ p.S p.C} {r} (hs : P s.parent) (hn : ctsNext cfg p F s = some (s', r)) : P s'.parent := by
  unfold ctsNext at hn
  split at hn
  · cases hn; exact hs
  · split at hn
    · cases hn; exact hs
    · have hc := ctsCheckpoint_preserves h cfg hs
      have hr : ∀ {l e}, ctsRead cfg p F (ctsCheckpoint cfg p s) = some (l, e) → P l.parent := by
        intro l e hr
        unfold ctsRead at hr
        simp only at hr
        split at hr
        · exact ctsLoop_preserves h cfg F _ _ _ _ _ hc hr
        · split at hr
          · exact ctsLoop_preserves h cfg F _ _ _ _ _ hc hr
          · cases hr; exact hc
      simp only at hn
      split at hn
      · cases hn
      · rename_i l e hl
        cases hn; exact hr hl
      · rename_i l hl
        have hl' := hr hl
        unfold ctsFinish at hn
        simp only at hn
        split at hn
        · cases hn; exact hl'
        · cases hn; exact hl'
        · cases hn; exact ctsCheckpoint_preserves h cfg hl'

theorem ctsReplay_preserves {p : Iter (List (CtsVal τ))} {P : p.S → Prop} (h : Preserves p P) (cfg : CtsCfg τ) (F : Nat) :
    ∀ n (s : CtsState τ p.S p.C) {s' e}, P s.parent → ctsReplay cfg p F n s = some (s', e) → P s'.parent := by
  intro n
  induction n with
  | zero => intro s s' e hs hn; cases hn; exact hs
  | succ n ih =>
    intro s s' e hs hn
    unfold ctsReplay at hn
    split at hn
    · cases hn
    · rename_i hq
      exact ih _ (ctsNext_preserves h cfg F hs hq) hn
    · rename_i hq
      cases hn; exact ctsNext_preserves h cfg F hs hq
    · rename_i hq
      cases hn; exact ctsNext_preserves h cfg F hs hq

theorem ctsIter_preserves {p : Iter (List (CtsVal τ))} {P : p.S → Prop} (h : Preserves p P) (cfg : CtsCfg τ) :
    Preserves (ctsIter cfg p) (fun s => P (CtsState.parent s)) where
  next := fun hn hs => ctsNext_preserves h cfg _ hs hn
  get := fun hs => hs
  set := by
    intro F s c s' e hn hs
    change ctsSet cfg p F s c = _ at hn
    unfold ctsSet at hn
    cases hq : p.set F (CtsState.parent s) c.parent with
    | none => rw [hq] at hn; cases hn
    | some q =>
      obtain ⟨ps, e'⟩ := q
      rw [hq] at hn
      have hp := h.set hq hs
      cases e' with
      | some e' => cases hn; exact hp
      | none =>
        simp only [Option.bind_eq_bind, Option.bind_some] at hn
        split at hn
        · cases hq' : p.next F ps with
          | none => rw [hq'] at hn; cases hn
          | some q' =>
            obtain ⟨ps', r'⟩ := q'
            rw [hq'] at hn
            have hp' := h.next hq' hp
            cases r' with
            | stop => cases hn; exact hp'
            | fail e => cases hn; exact hp'
            | item a => exact ctsReplay_preserves h cfg F _ _ (ctsCheckpoint_preserves h cfg (by exact hp')) hn
        · exact ctsReplay_preserves h cfg F _ _ (ctsCheckpoint_preserves h cfg (by exact hp)) hn

/-! ### Several parents -/

theorem update_all {n : Nat} {σ : Fin n → Type} {P : ∀ i, σ i → Prop} {s : ∀ i, σ i} (hs : ∀ i, P i (s i)) {j : Fin n} {x : σ j} (hx : P j x) :
    ∀ i, P i (Function.update s j x i) := by
  intro i
  by_cases h : i = j
  · subst h; rw [Function.update_self]; exact hx
  · rw [Function.update_of_ne h]; exact hs i

theorem nextAll_preserves {n : Nat} {ps : Fin n → Iter α} {P : ∀ i, (ps i).S → Prop} (h : ∀ i, Preserves (ps i) (P i)) (F : Nat) :
    ∀ is s acc {s' q}, (∀ i, P i (s i)) → nextAll ps F is s acc = some (s', q) → ∀ i, P i (s' i) := by
  intro is
  induction is with
  | nil => intro s acc s' q hs hn; cases hn; exact hs
  | cons j is ih =>
    intro s acc s' q hs hn
    unfold nextAll at hn
    cases hq : (ps j).next F (s j) with
    | none => rw [hq] at hn; cases hn
    | some q =>
      obtain ⟨x, r'⟩ := q
      rw [hq] at hn
      have hp := (h j).next hq (hs j)
      have hu := update_all (P := P) hs hp
      cases r' with
      | stop => cases hn; exact hu
      | fail e => cases hn; exact hu
      | item a => exact ih _ _ hu hn

theorem zipCheckRest_preserves {n : Nat} {ps : Fin n → Iter α} {P : ∀ i, (ps i).S → Prop} (h : ∀ i, Preserves (ps i) (P i)) (F : Nat) :
    ∀ is s {s' q}, (∀ i, P i (s i)) → zipCheckRest ps F is s = some (s', q) → ∀ i, P i (s' i) := by
  intro is
  induction is with
  | nil => intro s s' q hs hn; cases hn; exact hs
  | cons j is ih =>
    intro s s' q hs hn
    unfold zipCheckRest at hn
    cases hq : (ps j).next F (s j) with
    | none => rw [hq] at hn; cases hn
    | some q =>
      obtain ⟨x, r'⟩ := q
      rw [hq] at hn
      have hp := (h j).next hq (hs j)
      have hu := update_all (P := P) hs hp
      cases r' with
      | stop => exact ih _ hu hn
      | fail e => cases hn; exact hu
      | item a => cases hn; exact hu

theorem setAll_preserves {n : Nat} {ps : Fin n → Iter α} {P : ∀ i, (ps i).S → Prop} (h : ∀ i, Preserves (ps i) (P i)) (F : Nat)
    (cs : ∀ i, (ps i).C) :
    ∀ is s {s' q}, (∀ i, P i (s i)) → setAll ps F cs is s = some (s', q) → ∀ i, P i (s' i) := by
  intro is
  induction is with
  | nil => intro s s' q hs hn; cases hn; exact hs
  | cons j is ih =>
    intro s s' q hs hn
    unfold setAll at hn
    cases hq : (ps j).set F (s j) (cs j) with
    | none => rw [hq] at hn; cases hn
    | some q =>
      obtain ⟨x, e'⟩ := q
      rw [hq] at hn
      have hp := (h j).set hq (hs j)
      have hu := update_all (P := P) hs hp
      cases e' with
      | some e => cases hn; exact hu
      | none => exact ih _ hu hn

theorem zipIter_preserves {n : Nat} {ps : Fin n → Iter α} {P : ∀ i, (ps i).S → Prop} (h : ∀ i, Preserves (ps i) (P i)) (strict : Bool) :
    Preserves (zipIter strict ps) (fun (s : ∀ i, (ps i).S) => ∀ i, P i (s i)) where
  next := by
    intro F s s' r hn hs
    simp only [zipIter] at hn
    cases hq : nextAll ps F (List.finRange n) s [] with
    | none => rw [hq] at hn; cases hn
    | some q =>
      obtain ⟨t, acc, r'⟩ := q
      rw [hq] at hn
      have hp := nextAll_preserves h F _ _ _ hs hq
      simp only [Option.bind_eq_bind, Option.bind_some] at hn
      split at hn
      · cases hn; exact hp
      · cases hn; exact hp
      · split at hn
        · split at hn
          · cases hn; exact hp
          · exact zipCheckRest_preserves h F _ _ hp hn
        · cases hn; exact hp
  get := fun hs i => (h i).get (hs i)
  set := fun hn hs => setAll_preserves h _ _ _ _ hs hn

theorem mixIter_preserves {n : Nat} {ps : Fin n → Iter α} {P : ∀ i, (ps i).S → Prop} (h : ∀ i, Preserves (ps i) (P i)) (proportions : List Nat) :
    Preserves (mixIter proportions ps) (fun (s : MixState ps) => ∀ i, P i (s.parents i)) where
  next := by
    intro F s s' r hn hs
    simp only [mixIter] at hn
    split at hn
    · cases hn; exact hs
    · split at hn
      · cases hn; exact hs
      · split at hn
        · rename_i d _ _ hd
          cases hq : (ps ⟨d, hd⟩).next F (MixState.parents s ⟨d, hd⟩) with
          | none => rw [hq] at hn; cases hn
          | some q =>
            obtain ⟨x, r'⟩ := q
            rw [hq] at hn
            have hu := update_all (P := P) hs ((h _).next hq (hs _))
            cases r' <;> (cases hn; exact hu)
        · cases hn; exact hs
  get := fun hs i => (h i).get (hs i)
  set := by
    intro F s c s' e hn hs
    simp only [mixIter] at hn
    cases hq : setAll ps F c.1 (List.finRange n) (MixState.parents s) with
    | none => rw [hq] at hn; cases hn
    | some q =>
      obtain ⟨t, e'⟩ := q
      rw [hq] at hn
      have hp := setAll_preserves h F _ _ _ hs hq
      cases e' <;> (cases hn; exact hp)

/-! ### Interleave -/

/-- All iterators an interleave iterator holds satisfy `P`. -/
def ILHolds {S C : Type} (P : Nat → S → Prop) (s : ILState S C) : Prop :=
  (∀ i d st, s.slots i = some (d, st) → P d st) ∧ ∀ i k d st, s.kept i = some (k, (d, st)) → P d st

theorem slots_update {S : Type} {P : Nat → S → Prop} {slots : Nat → Option (Nat × S)} (hs : ∀ i d st, slots i = some (d, st) → P d st)
    (j : Nat) (o : Option (Nat × S)) (ho : ∀ d st, o = some (d, st) → P d st) :
    ∀ i d st, Function.update slots j o i = some (d, st) → P d st := by
  intro i d st h
  by_cases hij : i = j
  · subst hij; rw [Function.update_self] at h; exact ho _ _ h
  · rw [Function.update_of_ne hij] at h; exact hs _ _ _ h

theorem kept_update {S : Type} {P : Nat → S → Prop} {kept : Nat → Option (Nat × (Nat × S))} (hs : ∀ i k d st, kept i = some (k, (d, st)) → P d st)
    (j : Nat) (o : Option (Nat × (Nat × S))) (ho : ∀ k d st, o = some (k, (d, st)) → P d st) :
    ∀ i k d st, Function.update kept j o i = some (k, (d, st)) → P d st := by
  intro i k d st h
  by_cases hij : i = j
  · subst hij; rw [Function.update_self] at h; exact ho _ _ _ h
  · rw [Function.update_of_ne hij] at h; exact hs _ _ _ _ h

theorem ilLoop_preserves {f : IterFam α} {P : Nat → f.S → Prop} (h : ∀ d, Preserves (f.iter d) (P d)) (hi : ∀ d, P d (f.init d))
    (n L : Nat) (keep : Bool) (F : Nat) :
    ∀ k (s : ILState f.S f.C) {s' r}, ILHolds P s → ilLoop f n L keep F k s = some (s', r) → ILHolds P s' := by
  intro k
  induction k with
  | zero => intro s s' r hs hn; cases hn
  | succ k ih =>
    intro s s' r hs hn
    unfold ilLoop at hn
    split at hn
    · rename_i d st hslot
      cases hq : f.next d F st with
      | none => rw [hq] at hn; cases hn
      | some q =>
        obtain ⟨st', r'⟩ := q
        rw [hq] at hn
        have hp : P d st' := (h d).next hq (hs.1 _ _ _ hslot)
        cases r' with
        | item a => cases hn; exact ⟨slots_update hs.1 _ _ (by intro d st h; cases h; exact hp), hs.2⟩
        | fail e => cases hn; exact ⟨slots_update hs.1 _ _ (by intro d st h; cases h; exact hp), hs.2⟩
        | stop =>
          refine ih _ ?_ hn
          refine ⟨slots_update hs.1 _ _ (by intro d st h; cases h), ?_⟩
          have hg : P d (f.get d st').1 := (h d).get hp
          cases keep with
          | false => exact hs.2
          | true => exact kept_update hs.2 _ _ (by intro k d st h; cases h; exact hg)
    · split at hn
      · split at hn
        · simp only at hn
          split at hn
          · refine ih _ ?_ hn
            exact ⟨slots_update hs.1 _ _ (by intro d st h; cases h; exact hi _), hs.2⟩
          · rename_i c _
            cases hq : f.set s.pf F (f.init s.pf) c with
            | none => rw [hq] at hn; cases hn
            | some q =>
              obtain ⟨st', e'⟩ := q
              rw [hq] at hn
              have hp : P s.pf st' := (h s.pf).set hq (hi _)
              cases e' with
              | some e => cases hn; exact ⟨slots_update hs.1 _ _ (by intro d st h; cases h; exact hp), hs.2⟩
              | none =>
                refine ih _ ?_ hn
                exact ⟨slots_update hs.1 _ _ (by intro d st h; cases h; exact hp), hs.2⟩
        · cases hn; exact hs
      · split at hn
        · exact ih _ (by exact hs) hn
        · cases hn; exact hs

theorem ilGetLoop_preserves {f : IterFam α} {P : Nat → f.S → Prop} (h : ∀ d, Preserves (f.iter d) (P d)) (hi : ∀ d, P d (f.init d)) (n : Nat) :
    ∀ is (s : ILState f.S f.C) states, ILHolds P s → ILHolds P (ilGetLoop f n is s states).1 := by
  intro is
  induction is with
  | nil => intro s states hs; exact hs
  | cons i is ih =>
    intro s states hs
    unfold ilGetLoop
    split
    · rename_i d st hslot
      exact ih _ _ ⟨slots_update hs.1 _ _ (by intro d' st' h'; cases h'; exact (h d).get (hs.1 _ _ _ hslot)), hs.2⟩
    · split
      · exact ih _ _ hs
      · split
        · exact hs
        · exact ih _ _ ⟨slots_update hs.1 _ _ (by intro d' st' h'; cases h'; exact (h _).get (hi _)), hs.2⟩

theorem ilSetLoop_preserves {f : IterFam α} {P : Nat → f.S → Prop} (h : ∀ d, Preserves (f.iter d) (P d)) (hi : ∀ d, P d (f.init d))
    (n : Nat) (keep : Bool) (F : Nat) (c : ILCk f.C) :
    ∀ is (s : ILState f.S f.C) {s' e}, ILHolds P s → ilSetLoop f n keep F c is s = some (s', e) → ILHolds P s' := by
  intro is
  induction is with
  | nil => intro s s' e hs hn; cases hn; exact hs
  | cons i is ih =>
    intro s s' e hs hn
    unfold ilSetLoop at hn
    split at hn
    · refine ih _ ?_ hn
      exact ⟨slots_update hs.1 _ _ (by intro d st h; cases h), hs.2⟩
    · rename_i ck _
      split at hn
      · refine ih _ ?_ hn
        exact ⟨slots_update hs.1 _ _ (by intro d st h; cases h), hs.2⟩
      · have hpick : ∀ kept o, ilPick f n keep s i (c.indices i) = (kept, o) →
            (∀ i k d st, kept i = some (k, (d, st)) → P d st) ∧ ∀ d st, o = some (d, st) → P d st := by
          intro kept o ho
          unfold ilPick at ho
          split at ho
          · rename_i o' heq
            cases ho
            refine ⟨hs.2, fun d st he => ?_⟩
            cases he
            split at heq
            · exact hs.1 _ _ _ heq
            · cases heq
          · split at ho
            · rename_i d o' hk
              split at ho
              · cases ho
                exact ⟨kept_update hs.2 _ _ (by intro k d st h; cases h), fun d st he => by cases he; exact hs.2 _ _ _ _ hk⟩
              · cases ho
                refine ⟨hs.2, fun d st he => ?_⟩
                split at he
                · cases he; exact hi _
                · cases he
            · cases ho
              refine ⟨hs.2, fun d st he => ?_⟩
              split at he
              · cases he; exact hi _
              · cases he
        split at hn
        · cases hn; exact hs
        · rename_i kept d st hk
          obtain ⟨h1, h2⟩ := hpick _ _ hk
          cases hq : f.set d F st ck with
          | none => rw [hq] at hn; cases hn
          | some q =>
            obtain ⟨st', e'⟩ := q
            rw [hq] at hn
            have hp : P d st' := (h d).set hq (h2 _ _ rfl)
            cases e' with
            | some e => cases hn; exact ⟨hs.1, h1⟩
            | none =>
              refine ih _ ?_ hn
              exact ⟨slots_update hs.1 _ _ (by intro d st h; cases h; exact hp), h1⟩

theorem interleaveIter_preserves {f : IterFam α} {P : Nat → f.S → Prop} (h : ∀ d, Preserves (f.iter d) (P d)) (hi : ∀ d, P d (f.init d))
    (n cycle : Nat) (keep : Bool) : Preserves (interleaveIter f n cycle keep) (ILHolds P) where
  next := by
    intro F s s' r hn hs
    simp only [interleaveIter] at hn
    split at hn
    · cases hn; exact hs
    · exact ilLoop_preserves h hi n _ keep F F _ (by exact hs) hn
  get := by
    intro s hs
    have := ilGetLoop_preserves h hi n (List.range (min cycle n)) s (fun _ => none) hs
    simp only [interleaveIter, ilGet]
    split
    · exact this
    · exact this
  set := by
    intro F s c s' e hn hs
    simp only [interleaveIter, ilSet] at hn
    cases hq : ilSetLoop f n keep F c (List.range (min cycle n)) s with
    | none => rw [hq] at hn; cases hn
    | some q =>
      obtain ⟨t, e'⟩ := q
      rw [hq] at hn
      have hp := ilSetLoop_preserves h hi n keep F c _ _ hs hq
      cases e' with
      | some e => cases hn; exact hp
      | none =>
        simp only [Option.bind_eq_bind, Option.bind_some] at hn
        split at hn <;> (cases hn; exact hp)

end Grain
