import Verif.Stack.Close
import Verif.Stack.AnchorLemmas
import Verif.Stack.PrefetchUser
import Verif.Stack.ProcessUser
import Verif.Stack.MultiLemmas
/-
`close` ends, whatever the threads do, and leaves no thread behind: layer by layer.
-/
namespace Grain

/-- From an idle state on, `J` holds while `close` runs; the thread or `close` can go on until `close` returns; nothing runs
for ever; afterwards nothing runs and no thread is left. -/
structure CloseEnds (c : ConcIter α) (k : Closer c) (I : Nat → CMode → c.S → Prop) (J : c.S → k.P → Prop) : Prop where
  start : ∀ {n s}, I n .idle s → J s k.start
  step : ∀ {s q t}, J s q → c.step s t → J t q
  close : ∀ {s q t q'}, J s q → k.step s q t q' → J t q'
  live : ∀ {s q}, J s q → ¬ k.done q → (∃ t, c.step s t) ∨ ∃ t q', k.step s q t q'
  quiet : ∀ {s q}, J s q → k.done q → ∀ t, ¬ c.step s t
  gone : ∀ {s q}, J s q → k.done q → k.gone s
  acc : ∀ {s q}, J s q → Acc (fun t s => CloseStep c k s t) ⟨s, q⟩

theorem acc_closing {c : ConcIter α} {k : Closer c} {s : c.S} {q : k.P}
    (h1 : ∀ t, c.step s t → Acc (fun t s => CloseStep c k s t) ⟨t, q⟩)
    (h2 : ∀ t q', k.step s q t q' → Acc (fun t s => CloseStep c k s t) ⟨t, q'⟩) :
    Acc (fun t s => CloseStep c k s t) ⟨s, q⟩ := by
  refine Acc.intro _ fun u hu => ?_
  cases hu with
  | thread t ht => exact h1 _ (by assumption)
  | close t q' ht => exact h2 _ _ (by assumption)

theorem source_closes {p : Iter α} {I : Nat → CMode → (ofIter p).S → Prop} :
    CloseEnds (ofIter p) (sourceCloser p) I (fun _ _ => True) := by
  have hno : ∀ s t, ¬ (ofIter p).step s t := fun s t h => h
  refine ⟨fun _ => trivial, fun _ _ => trivial, fun _ _ => trivial, ?_, fun _ _ t h => hno _ t h, fun _ _ => trivial, ?_⟩
  · intro s q _ hd
    exact absurd trivial hd
  · intro s q _
    exact acc_closing (fun t ht => absurd ht (hno s t)) (fun t q' ht => False.elim ht)

theorem renewed_closes {c : ConcIter α} {k : Closer c} {I : Nat → CMode → c.S → Prop} {J : c.S → k.P → Prop}
    (h : CloseEnds c k I J) : CloseEnds (renewed c) (renewedCloser k) I J := by
  refine ⟨h.start, h.step, h.close, h.live, h.quiet, h.gone, ?_⟩
  have key : ∀ u, Acc (fun t s => CloseStep c k s t) u → Acc (fun t s => CloseStep (renewed c) (renewedCloser k) s t) ⟨u.st, u.pc⟩ := by
    intro u hu
    induction hu with
    | intro u _ ih =>
      rcases u with ⟨s, q⟩
      exact acc_closing (fun t ht => ih ⟨t, q⟩ (.thread _ _ _ ht)) (fun t q' ht => ih ⟨t, q'⟩ (.close _ _ _ _ ht))
  intro s q hs
  exact key ⟨s, q⟩ (h.acc hs)

/-! ### Transformations of one input -/

theorem trans_idle_step {T : Trans α β} {c : ConcIter α} {s t : TrState T c} (h : s.pc = .idle) (ht : TrStep T c s t) :
    ∃ u, c.step s.cs u ∧ t = { s with cs := u } := by
  cases ht with
  | below t ht => exact ⟨t, ht, rfl⟩
  | ask k t hp _ => rw [h] at hp; cases hp
  | got k r t hp _ => rw [h] at hp; cases hp
  | setPar ck t hp _ => rw [h] at hp; cases hp

theorem trans_closes {T : Trans α β} {c : ConcIter α} {k : Closer c} {x : Nat → Option α} {y : Nat → Option β}
    {I : Nat → CMode → c.S → Prop} {K : Nat → c.C → Prop} {At : Nat → Nat → T.L → Prop} {J : c.S → k.P → Prop}
    (h : CloseEnds c k I J) :
    CloseEnds (transOver T c) (transCloser T k) (fun n m s => ∃ w, TrInv x y I K At n m w s)
      (fun s q => s.pc = .idle ∧ J s.cs q) := by
  constructor
  · rintro n s ⟨w, hs⟩
    rcases s with ⟨cs, loc, pc⟩
    cases pc <;> try exact hs.elim
    obtain ⟨-, i, -, hi⟩ := hs
    exact ⟨rfl, h.start hi⟩
  · rintro s q t ⟨h1, h2⟩ ht
    obtain ⟨u, hu, rfl⟩ := trans_idle_step h1 ht
    exact ⟨h1, h.step h2 hu⟩
  · rintro s q t q' ⟨h1, h2⟩ ⟨u, hu, rfl⟩
    exact ⟨h1, h.close h2 hu⟩
  · rintro s q ⟨h1, h2⟩ hd
    rcases h.live h2 hd with ⟨t, ht⟩ | ⟨t, q', ht⟩
    · exact Or.inl ⟨_, TrStep.below s t ht⟩
    · exact Or.inr ⟨_, q', t, ht, rfl⟩
  · rintro s q ⟨h1, h2⟩ hd t ht
    obtain ⟨u, hu, rfl⟩ := trans_idle_step h1 ht
    exact h.quiet h2 hd u hu
  · exact fun hs hd => h.gone hs.2 hd
  · have key : ∀ u, Acc (fun t s => CloseStep c k s t) u → ∀ s : TrState T c, s.pc = .idle → s.cs = u.st →
        Acc (fun t s => CloseStep (transOver T c) (transCloser T k) s t) ⟨s, u.pc⟩ := by
      intro u hu
      induction hu with
      | intro u _ ih =>
        rcases u with ⟨cs, q⟩
        rintro s h1 rfl
        refine acc_closing (fun t ht => ?_) (fun t q' ht => ?_)
        · obtain ⟨u, hu, rfl⟩ := trans_idle_step h1 ht
          exact ih ⟨u, q⟩ (.thread _ _ _ hu) _ h1 rfl
        · obtain ⟨u, hu, rfl⟩ := ht
          exact ih ⟨u, q'⟩ (.close _ _ _ _ hu) _ h1 rfl
    rintro s q ⟨h1, h2⟩
    exact key ⟨s.cs, q⟩ (h.acc h2) s h1 rfl

theorem anchor_idle_step {T : Anchor α β} {c : ConcIter α} {s t : AnState T c} (h : s.pc = .idle) (ht : AnStep T c s t) :
    ∃ u, c.step s.cs u ∧ t = { s with cs := u } := by
  cases ht with
  | below t ht => exact ⟨t, ht, rfl⟩
  | ask k t hp _ _ => rw [h] at hp; cases hp
  | got k r t hp _ => rw [h] at hp; cases hp
  | mark k m k' hp _ => rw [h] at hp; cases hp
  | copy k m m' k' hp _ => rw [h] at hp; cases hp
  | back k m k' t hp _ _ => rw [h] at hp; cases hp
  | rewound k t hp _ => rw [h] at hp; cases hp
  | setPar e t hp _ => rw [h] at hp; cases hp
  | setBack e t hp _ => rw [h] at hp; cases hp

theorem anchor_closes {T : Anchor α β} {c : ConcIter α} {k : Closer c} {x : Nat → Option α} {y : Nat → Option β}
    {I : Nat → CMode → c.S → Prop} {K : Nat → c.C → Prop} {At : Nat → Nat → (Fin (T.r + 1) → Nat) → T.D → Prop}
    {J : c.S → k.P → Prop} (h : CloseEnds c k I J) :
    CloseEnds (anchorOver T c) (anchorCloser T k) (fun n m s => ∃ w, AnInv x y I K At n m w s)
      (fun s q => s.pc = .idle ∧ J s.cs q) := by
  constructor
  · rintro n s ⟨w, hs⟩
    obtain ⟨h1, i, ρ, -, hi, -⟩ := anInv_idle hs
    exact ⟨h1, h.start hi⟩
  · rintro s q t ⟨h1, h2⟩ ht
    obtain ⟨u, hu, rfl⟩ := anchor_idle_step h1 ht
    exact ⟨h1, h.step h2 hu⟩
  · rintro s q t q' ⟨h1, h2⟩ ⟨u, hu, rfl⟩
    exact ⟨h1, h.close h2 hu⟩
  · rintro s q ⟨h1, h2⟩ hd
    rcases h.live h2 hd with ⟨t, ht⟩ | ⟨t, q', ht⟩
    · exact Or.inl ⟨_, AnStep.below s t ht⟩
    · exact Or.inr ⟨_, q', t, ht, rfl⟩
  · rintro s q ⟨h1, h2⟩ hd t ht
    obtain ⟨u, hu, rfl⟩ := anchor_idle_step h1 ht
    exact h.quiet h2 hd u hu
  · exact fun hs hd => h.gone hs.2 hd
  · have key : ∀ u, Acc (fun t s => CloseStep c k s t) u → ∀ s : AnState T c, s.pc = .idle → s.cs = u.st →
        Acc (fun t s => CloseStep (anchorOver T c) (anchorCloser T k) s t) ⟨s, u.pc⟩ := by
      intro u hu
      induction hu with
      | intro u _ ih =>
        rcases u with ⟨cs, q⟩
        rintro s h1 rfl
        refine acc_closing (fun t ht => ?_) (fun t q' ht => ?_)
        · obtain ⟨u, hu, rfl⟩ := anchor_idle_step h1 ht
          exact ih ⟨u, q⟩ (.thread _ _ _ hu) _ h1 rfl
        · obtain ⟨u, hu, rfl⟩ := ht
          exact ih ⟨u, q'⟩ (.close _ _ _ _ hu) _ h1 rfl
    rintro s q ⟨h1, h2⟩
    exact key ⟨s.cs, q⟩ (h.acc h2) s h1 rfl

/-! ### Thread prefetch -/

section
variable {c : ConcIter α} {x : Nat → Option α} {I : Nat → CMode → c.S → Prop} {K : Nat → c.C → Prop} {size : Nat}
  {k : Closer c} {J : c.S → k.P → Prop}

/-- The position of `set_state` that does the same. -/
def PrefClosePc.asSet (ck : c.C) : PrefClosePc k.P → UserPc α c.C
  | .stop => .stop (some ck)
  | .clear => .clear (some ck)
  | .join => .join (some ck)
  | .again => .clearAgain (some ck)
  | .par _ => .setPar ck

/-- The state in which `set_state` does the same. -/
def PrefState.asSet (s : PrefState c) (ck : c.C) (pc : PrefClosePc k.P) : PrefState c := { s with pc := pc.asSet ck }

/-- While a thread prefetch is closed. -/
def PrefCloseInv (x : Nat → Option α) (I : Nat → CMode → c.S → Prop) (K : Nat → c.C → Prop) (size : Nat) (J : c.S → k.P → Prop)
    (s : PrefState c) (pc : PrefClosePc k.P) : Prop :=
  s.pc = .idle ∧
  match pc with
  | .par q => s.thr = none ∧ J s.cs q
  | pc => ∃ n ck, Bounded size s ∧ PrefInv x I K n .set (s.asSet ck pc)

/-- A thread of the prefetch or below makes the same step whatever the user does. -/
theorem pref_idle_step {s t : PrefState c} (h : s.pc = .idle) (ht : PrefStep size c s t) :
    t.pc = .idle ∧ (∀ ck pc, PrefStep size c (s.asSet (k := k) ck pc) (t.asSet (k := k) ck pc)) ∧
      (s.thr = none → t.thr = none ∧ c.step s.cs t.cs) := by
  cases ht with
  | below t ht => exact ⟨h, fun ck pc => .below (s.asSet ck pc) t ht, fun h0 => ⟨h0, ht⟩⟩
  | check h1 => exact ⟨h, fun ck pc => .check (s.asSet ck pc) h1, fun h0 => by rw [h0] at h1; cases h1⟩
  | call t h1 h2 => exact ⟨h, fun ck pc => .call (s.asSet ck pc) t h1 h2, fun h0 => by rw [h0] at h1; cases h1⟩
  | item a t h1 h2 => exact ⟨h, fun ck pc => .item (s.asSet ck pc) a t h1 h2, fun h0 => by rw [h0] at h1; cases h1⟩
  | over t h1 h2 => exact ⟨h, fun ck pc => .over (s.asSet ck pc) t h1 h2, fun h0 => by rw [h0] at h1; cases h1⟩
  | getState a h1 => exact ⟨h, fun ck pc => .getState (s.asSet ck pc) a h1, fun h0 => by rw [h0] at h1; cases h1⟩
  | put e h1 h2 => exact ⟨h, fun ck pc => .put (s.asSet ck pc) e h1 h2, fun h0 => by rw [h0] at h1; cases h1⟩
  | start h1 => rw [h] at h1; cases h1
  | take a ck b h1 => rw [h] at h1; cases h1
  | takeStop b h1 => rw [h] at h1; cases h1
  | sync t h1 => rw [h] at h1; cases h1
  | syncItem a t h1 => rw [h] at h1; cases h1
  | syncOver t h1 => rw [h] at h1; cases h1
  | syncState a h1 => rw [h] at h1; cases h1
  | stopNone k h1 => rw [h] at h1; cases h1
  | stopSome k h1 => rw [h] at h1; cases h1
  | clear k e b h1 => rw [h] at h1; cases h1
  | clearEnd k h1 => rw [h] at h1; cases h1
  | join k h1 => rw [h] at h1; cases h1
  | again k e b h1 => rw [h] at h1; cases h1
  | againEnd k h1 => rw [h] at h1; cases h1
  | setPar ck t h1 => rw [h] at h1; cases h1
  | setRet t h1 => rw [h] at h1; cases h1
  | setGet h1 => rw [h] at h1; cases h1

/-- A step of `close` before it reaches the parent is a step of `set_state`. -/
theorem pref_close_step {s t : PrefState c} {pc pc' : PrefClosePc k.P} (h : PrefCloseStep c k s pc t pc') :
    (∃ q u q', pc = .par q ∧ pc' = .par q' ∧ k.step s.cs q u q' ∧ t = { s with cs := u }) ∨
    ((∀ q, pc ≠ .par q) ∧ t.pc = s.pc ∧ (∀ ck, PrefStep size c (s.asSet ck pc) (t.asSet ck pc')) ∧
      ∀ q, pc' = .par q → q = k.start) := by
  cases h with
  | stopNone h1 => exact Or.inr ⟨by simp, rfl, fun ck => .stopNone (s.asSet ck _) (some ck) rfl h1, by rintro q ⟨⟩; rfl⟩
  | stopSome h1 => exact Or.inr ⟨by simp, rfl, fun ck => .stopSome (s.asSet ck _) (some ck) rfl h1, by rintro q ⟨⟩⟩
  | clear e b h1 => exact Or.inr ⟨by simp, rfl, fun ck => .clear (s.asSet ck _) (some ck) e b rfl h1, by rintro q ⟨⟩⟩
  | clearEnd h1 => exact Or.inr ⟨by simp, rfl, fun ck => .clearEnd (s.asSet ck _) (some ck) rfl h1, by rintro q ⟨⟩⟩
  | join h1 => exact Or.inr ⟨by simp, rfl, fun ck => .join (s.asSet ck _) (some ck) rfl h1, by rintro q ⟨⟩⟩
  | again e b h1 => exact Or.inr ⟨by simp, rfl, fun ck => .again (s.asSet ck _) (some ck) e b rfl h1, by rintro q ⟨⟩⟩
  | againEnd h1 => exact Or.inr ⟨by simp, rfl, fun ck => .againEnd (s.asSet ck _) (some ck) rfl h1, by rintro q ⟨⟩; rfl⟩
  | par q u q' h1 => exact Or.inl ⟨q, u, q', rfl, rfl, h1, rfl⟩

/-- Conversely, a step of `set_state` before it reaches the parent. -/
theorem pref_close_of_set {s : PrefState c} {pc : PrefClosePc k.P} {ck : c.C} (h0 : s.pc = .idle) (hpc : ∀ q, pc ≠ .par q)
    {u : PrefState c} (hu : PrefStep size c (s.asSet ck pc) u) :
    (∃ t, PrefStep size c s t) ∨ ∃ t pc', PrefCloseStep c k s pc t pc' := by
  have hno : ∀ {p : UserPc α c.C}, (s.asSet ck pc).pc = p → (∀ r : Option c.C, p ≠ .stop r ∧ p ≠ .clear r ∧ p ≠ .join r ∧ p ≠ .clearAgain r) → False := by
    intro p hp hr
    cases pc with
    | stop => exact (hr (some ck)).1 hp.symm
    | clear => exact (hr (some ck)).2.1 hp.symm
    | join => exact (hr (some ck)).2.2.1 hp.symm
    | again => exact (hr (some ck)).2.2.2 hp.symm
    | par q => exact hpc q rfl
  cases hu with
  | below t ht => exact Or.inl ⟨_, .below s t ht⟩
  | check h1 => exact Or.inl ⟨_, .check s h1⟩
  | call t h1 h2 => exact Or.inl ⟨_, .call s t h1 h2⟩
  | item a t h1 h2 => exact Or.inl ⟨_, .item s a t h1 h2⟩
  | over t h1 h2 => exact Or.inl ⟨_, .over s t h1 h2⟩
  | getState a h1 => exact Or.inl ⟨_, .getState s a h1⟩
  | put e h1 h2 => exact Or.inl ⟨_, .put s e h1 h2⟩
  | start h1 => exact (hno h1 (by simp)).elim
  | take a ck b h1 => exact (hno h1 (by simp)).elim
  | takeStop b h1 => exact (hno h1 (by simp)).elim
  | sync t h1 => exact (hno h1 (by simp)).elim
  | syncItem a t h1 => exact (hno h1 (by simp)).elim
  | syncOver t h1 => exact (hno h1 (by simp)).elim
  | syncState a h1 => exact (hno h1 (by simp)).elim
  | setPar ck t h1 => exact (hno h1 (by simp)).elim
  | setRet t h1 => exact (hno h1 (by simp)).elim
  | setGet h1 => exact (hno h1 (by simp)).elim
  | stopNone r h1 h2 =>
    cases pc with
    | stop => exact Or.inr ⟨_, _, .stopNone s h2⟩
    | par q => exact absurd rfl (hpc q)
    | _ => cases h1
  | stopSome r h1 h2 =>
    cases pc with
    | stop => exact Or.inr ⟨_, _, .stopSome s h2⟩
    | par q => exact absurd rfl (hpc q)
    | _ => cases h1
  | clear r e b h1 h2 =>
    cases pc with
    | clear => exact Or.inr ⟨_, _, .clear s e b h2⟩
    | par q => exact absurd rfl (hpc q)
    | _ => cases h1
  | clearEnd r h1 h2 =>
    cases pc with
    | clear => exact Or.inr ⟨_, _, .clearEnd s h2⟩
    | par q => exact absurd rfl (hpc q)
    | _ => cases h1
  | join r h1 h2 =>
    cases pc with
    | join => exact Or.inr ⟨_, _, .join s h2⟩
    | par q => exact absurd rfl (hpc q)
    | _ => cases h1
  | again r e b h1 h2 =>
    cases pc with
    | again => exact Or.inr ⟨_, _, .again s e b h2⟩
    | par q => exact absurd rfl (hpc q)
    | _ => cases h1
  | againEnd r h1 h2 =>
    cases pc with
    | again => exact Or.inr ⟨_, _, .againEnd s h2⟩
    | par q => exact absurd rfl (hpc q)
    | _ => cases h1

theorem bounded_asSet {s : PrefState c} {ck : c.C} {pc : PrefClosePc k.P} : Bounded size (s.asSet ck pc) ↔ Bounded size s := Iff.rfl

theorem prefCloseInv_other {s : PrefState c} {pc : PrefClosePc k.P} (hpc : ∀ q, pc ≠ .par q) :
    PrefCloseInv x I K size J s pc ↔ s.pc = .idle ∧ ∃ n ck, Bounded size s ∧ PrefInv x I K n .set (s.asSet ck pc) := by
  cases pc with
  | par q => exact absurd rfl (hpc q)
  | _ => exact Iff.rfl

theorem prefetch_closes (hf : Follows c x I K) (h : CloseEnds c k I J) :
    CloseEnds (prefetchOver size c) (prefetchCloser size k) (fun n m s => Bounded size s ∧ PrefInv x I K n m s)
      (PrefCloseInv x I K size J) := by
  have hstart : ∀ {n ck} {s : PrefState c}, s.pc = .idle → PrefInv x I K n .set (s.asSet ck (.par k.start)) →
      PrefCloseInv x I K size J s (.par k.start) := by
    intro n ck s h0 hs
    obtain ⟨-, h1, -, e, he⟩ := hs
    exact ⟨h0, h1, h.start he⟩
  have hclose : ∀ {s pc t pc'}, PrefCloseInv x I K size J s pc → PrefCloseStep c k s pc t pc' →
      PrefCloseInv x I K size J t pc' := by
    intro s pc t pc' hs hst
    rcases pref_close_step (size := size) hst with ⟨q, u, q', rfl, rfl, h1, rfl⟩ | ⟨h1, h2, h3, h4⟩
    · exact ⟨hs.1, hs.2.1, h.close hs.2.2 h1⟩
    · obtain ⟨h0, n, ck, hb, hi⟩ := (prefCloseInv_other h1).1 hs
      have hi' := (prefInv_step hf (bounded_asSet.2 hb) hi (h3 ck)).1
      by_cases hp : ∃ q, pc' = .par q
      · obtain ⟨q, rfl⟩ := hp
        rw [h4 q rfl] at hi' ⊢
        exact hstart (h2.trans h0) hi'
      · rw [not_exists] at hp
        exact (prefCloseInv_other hp).2 ⟨h2.trans h0, n, ck, bounded_asSet.1 (bounded_step (bounded_asSet.2 hb) (h3 ck)), hi'⟩
  have hthread : ∀ {s pc t}, PrefCloseInv x I K size J s pc → PrefStep size c s t → PrefCloseInv x I K size J t pc := by
    intro s pc t hs ht
    obtain ⟨h1, h2, h3⟩ := pref_idle_step (k := k) hs.1 ht
    by_cases hp : ∃ q, pc = .par q
    · obtain ⟨q, rfl⟩ := hp
      obtain ⟨h4, h5⟩ := h3 hs.2.1
      exact ⟨h1, h4, h.step hs.2.2 h5⟩
    · rw [not_exists] at hp
      obtain ⟨h0, n, ck, hb, hi⟩ := (prefCloseInv_other hp).1 hs
      exact (prefCloseInv_other hp).2 ⟨h1, n, ck, bounded_step hb ht, (prefInv_step hf (bounded_asSet.2 hb) hi (h2 ck pc)).1⟩
  have hpar : ∀ u, Acc (fun t s => CloseStep c k s t) u → ∀ s : PrefState c, s.pc = .idle → s.thr = none → s.cs = u.st →
      Acc (fun t s => CloseStep (prefetchOver size c) (prefetchCloser size k) s t) ⟨s, .par u.pc⟩ := by
    intro u hu
    induction hu with
    | intro u _ ih =>
      rcases u with ⟨cs, q⟩
      rintro s h0 h1 rfl
      refine acc_closing (fun t ht => ?_) (fun t pc' ht => ?_)
      · obtain ⟨h2, -, h3⟩ := pref_idle_step (k := k) h0 ht
        obtain ⟨h4, h5⟩ := h3 h1
        exact ih ⟨t.cs, q⟩ (.thread _ _ _ h5) t h2 h4 rfl
      · rcases pref_close_step (size := size) ht with ⟨q', u, q'', hq, rfl, h3, rfl⟩ | ⟨h3, -⟩
        · cases hq
          exact ih ⟨u, q''⟩ (.close _ _ _ _ h3) _ h0 h1 rfl
        · exact absurd rfl (h3 q)
  have hpre : ∀ u, Acc (fun t s => PrefStep size c s t) u → ∀ (s : PrefState c) (pc : PrefClosePc k.P) (n ck), s.pc = .idle →
      (∀ q, pc ≠ .par q) → Bounded size s → PrefInv x I K n .set (s.asSet ck pc) → s.asSet ck pc = u →
      Acc (fun t s => CloseStep (prefetchOver size c) (prefetchCloser size k) s t) ⟨s, pc⟩ := by
    intro u hu
    induction hu with
    | intro u _ ih =>
      rintro s pc n ck h0 hp hb hi rfl
      refine acc_closing (fun t ht => ?_) (fun t pc' ht => ?_)
      · obtain ⟨h2, h3, -⟩ := pref_idle_step (k := k) h0 ht
        exact ih _ (h3 ck pc) t pc n ck h2 hp (bounded_step hb ht)
          (prefInv_step hf (bounded_asSet.2 hb) hi (h3 ck pc)).1 rfl
      · rcases pref_close_step (size := size) ht with ⟨q', u, q'', hq, -⟩ | ⟨-, h2, h3, h4⟩
        · exact absurd hq (hp q')
        · have hi' := (prefInv_step hf (bounded_asSet.2 hb) hi (h3 ck)).1
          by_cases hp' : ∃ q, pc' = .par q
          · obtain ⟨q, rfl⟩ := hp'
            rw [h4 q rfl] at hi' ⊢
            obtain ⟨h5, h6, h7⟩ := hstart (h2.trans h0) hi'
            exact hpar ⟨t.cs, k.start⟩ (h.acc h7) t h5 h6 rfl
          · rw [not_exists] at hp'
            exact ih _ (h3 ck) t pc' n ck (h2.trans h0) hp'
              (bounded_asSet.1 (bounded_step (bounded_asSet.2 hb) (h3 ck))) hi' rfl
  constructor
  · rintro n s ⟨hb, hs⟩
    have h0 : s.pc = .idle := by
      revert hs
      rcases s with ⟨cs, state, buf, thr, flag, pc⟩
      rcases pc with _ | _ | _ | _ | _ | (_ | _) | (_ | _) | (_ | _) | (_ | _) | _ | _ | _ | _ | _ <;>
        first | exact fun _ => rfl | exact fun hs => hs.elim
    obtain ⟨hr, hk⟩ : Running x I K n s ∧ K n s.state := by
      rcases s with ⟨cs, state, buf, thr, flag, pc⟩
      cases h0
      exact hs
    have hset := (prefetch_follows (size := size) hf).setCall (s := s) ⟨hb, hs⟩ hk ⟨h0, rfl⟩
    exact ⟨h0, n, s.state, hb, hset.2⟩
  · exact hthread
  · exact hclose
  · intro s pc hs hd
    by_cases hp : ∃ q, pc = .par q
    · obtain ⟨q, rfl⟩ := hp
      rcases h.live hs.2.2 (fun hq => hd ⟨q, rfl, hq⟩) with ⟨t, ht⟩ | ⟨t, q', ht⟩
      · exact Or.inl ⟨_, PrefStep.below s t ht⟩
      · exact Or.inr ⟨_, _, PrefCloseStep.par s q t q' ht⟩
    · rw [not_exists] at hp
      obtain ⟨h0, n, ck, hb, hi⟩ := (prefCloseInv_other hp).1 hs
      rcases (prefetch_follows (size := size) hf).liveSet (s := s.asSet ck pc) ⟨bounded_asSet.2 hb, hi⟩ with ⟨u, hu⟩ | ⟨u, hu, -⟩
      · exact pref_close_of_set h0 hp hu
      · cases pc with
        | par q => exact absurd rfl (hp q)
        | _ => cases hu
  · rintro s pc hs ⟨q, rfl, hq⟩ t ht
    obtain ⟨-, -, h3⟩ := pref_idle_step (k := k) hs.1 ht
    exact h.quiet hs.2.2 hq _ (h3 hs.2.1).2
  · rintro s pc hs ⟨q, rfl, hq⟩
    exact ⟨hs.2.1, h.gone hs.2.2 hq⟩
  · intro s pc hs
    by_cases hp : ∃ q, pc = .par q
    · obtain ⟨q, rfl⟩ := hp
      exact hpar ⟨s.cs, q⟩ (h.acc hs.2.2) s hs.1 hs.2.1 rfl
    · rw [not_exists] at hp
      obtain ⟨h0, n, ck, hb, hi⟩ := (prefCloseInv_other hp).1 hs
      have hacc := (prefetch_follows (size := size) hf).acc (s := s.asSet ck pc) ⟨bounded_asSet.2 hb, hi⟩
      exact hpre _ hacc s pc n ck h0 hp hb hi rfl

end

/-! ### Process prefetch -/

section
variable {c : ConcIter α} {x : Nat → Option α} {I : Nat → CMode → c.S → Prop} {K : Nat → c.C → Prop} {size : Nat} {keep : Bool}

/-- A worker that has been told to stop. -/
def WorkerEnds (x : Nat → Option α) (I : Nat → CMode → c.S → Prop) (K : Nat → c.C → Prop) (w : WorkerState c) : Prop :=
  (∃ e, WorkerAt x I K e w) ∨ ((w.pc = .leaving ∨ w.pc = .exited) ∧ ∃ e, I e .idle w.cs)

structure ProcStopping (x : Nat → Option α) (I : Nat → CMode → c.S → Prop) (K : Nat → c.C → Prop) (s : ProcState c) : Prop where
  stop : s.stop = true
  good : ∀ r ∈ s.reqs, ∃ k, K k r
  wrk : ∃ w, s.wrk = some w ∧ WorkerEnds x I K w ∧ (w.pc = .exited ∨ s.reqCount = s.reqs.length)

/-- While a process prefetch is closed. -/
def ProcCloseInv (x : Nat → Option α) (I : Nat → CMode → c.S → Prop) (K : Nat → c.C → Prop) (s : ProcState c) (pc : ProcClosePc) :
    Prop :=
  s.pc = .idle ∧
  match pc with
  | .begin => ∃ n, ProcInv true x I K n .idle s
  | .fin => s.wrk = none
  | .stop3 => ProcStopping x I K s ∧ ∀ w, s.wrk = some w → w.pc = .exited
  | _ => ProcStopping x I K s

/-- How far a worker that was told to stop is from its end. -/
def WorkerPc.endStage {α C : Type} : WorkerPc α C → Nat
  | .take => 12
  | .mark _ => 11
  | .apply _ => 10
  | .applying => 9
  | .work => 8
  | .reading => 7
  | .got _ => 6
  | .put _ => 5
  | .top => 2
  | .leaving => 1
  | .exited => 0

def ProcClosePc.stage : ProcClosePc → Nat
  | .begin => 5
  | .stop1 => 4
  | .stop2 => 3
  | .join => 2
  | .stop3 => 1
  | .fin => 0

def ProcState.endRank (s : ProcState c) (pc : ProcClosePc) : Nat :=
  pc.stage + s.buf.length + match s.wrk with
    | none => 0
    | some w => 2 * w.pc.endStage

theorem proc_idle_step {s t : ProcState c} (h : s.pc = .idle) (ht : ProcStep size keep c s t) :
    t.pc = .idle ∧ ∃ w, s.wrk = some w := by
  cases ht with
  | below w t hw => exact ⟨h, w, hw⟩
  | topStop w hw => exact ⟨h, w, hw⟩
  | topTake w hw => exact ⟨h, w, hw⟩
  | topWork w hw => exact ⟨h, w, hw⟩
  | take w n ck cks hw => exact ⟨h, w, hw⟩
  | takeNone w hw => exact ⟨h, w, hw⟩
  | mark w ck hw => exact ⟨h, w, hw⟩
  | markStop w ck hw => exact ⟨h, w, hw⟩
  | apply w ck t hw => exact ⟨h, w, hw⟩
  | applied w t hw => exact ⟨h, w, hw⟩
  | workWait w hw => exact ⟨h, w, hw⟩
  | call w t hw => exact ⟨h, w, hw⟩
  | item w a t hw => exact ⟨h, w, hw⟩
  | ended w t hw => exact ⟨h, w, hw⟩
  | getState w a hw => exact ⟨h, w, hw⟩
  | put w e hw => exact ⟨h, w, hw⟩
  | putStop w e hw => exact ⟨h, w, hw⟩
  | leave w e es hw => exact ⟨h, w, hw⟩
  | leaveEnd w hw => exact ⟨h, w, hw⟩
  | nextOver h1 => rw [h] at h1; cases h1
  | start h1 => rw [h] at h1; cases h1
  | wait w h1 => rw [h] at h1; cases h1
  | getMarker es h1 => rw [h] at h1; cases h1
  | getStale e es h1 => rw [h] at h1; cases h1
  | getElem a ck es h1 => rw [h] at h1; cases h1
  | getOver es h1 => rw [h] at h1; cases h1
  | getStop es h1 => rw [h] at h1; cases h1
  | stop1 e es h1 => rw [h] at h1; cases h1
  | stop1End h1 => rw [h] at h1; cases h1
  | stop2 j h1 => rw [h] at h1; cases h1
  | join w h1 => rw [h] at h1; cases h1
  | stop3 e es h1 => rw [h] at h1; cases h1
  | stopped h1 => rw [h] at h1; cases h1
  | setPut ck h1 => rw [h] at h1; cases h1
  | setDone ck h1 => rw [h] at h1; cases h1

/-- What the worker below does. -/
def WorkerBelowStep (s t : ProcState c) : Prop := ∃ w u, s.wrk = some w ∧ c.step w.cs u ∧ t = { s with wrk := some { w with cs := u } }

theorem workerEnds_below (h : Follows c x I K) {w : WorkerState c} (hw : WorkerEnds x I K w) {u : c.S} (hu : c.step w.cs u) :
    WorkerEnds x I K { w with cs := u } := by
  rcases hw with ⟨e, hw⟩ | ⟨hp, e, he⟩
  · left
    rcases w with ⟨cs, exh, pc⟩
    cases pc with
    | put en =>
      cases en with
      | marker => exact hw.elim
      | elem a ck => exact ⟨e, hw.1, hw.2.1, hw.2.2.1, h.step hw.2.2.2 hu⟩
      | over => exact ⟨e, hw.1, hw.2.1, h.step hw.2.2 hu⟩
    | top => exact ⟨e, h.step hw.1 hu, hw.2⟩
    | take => exact ⟨e, h.step hw.1 hu, hw.2⟩
    | work => exact ⟨e, h.step hw.1 hu, hw.2⟩
    | reading => exact ⟨e, hw.1, h.step hw.2 hu⟩
    | got a => exact ⟨e, hw.1, hw.2.1, h.step hw.2.2 hu⟩
    | mark ck =>
      obtain ⟨h1, h2, d, h3⟩ := hw
      exact ⟨e, h1, h2, d, h.step h3 hu⟩
    | apply ck =>
      obtain ⟨h1, h2, d, h3⟩ := hw
      exact ⟨e, h1, h2, d, h.step h3 hu⟩
    | applying => exact ⟨e, hw.1, h.step hw.2 hu⟩
    | leaving => exact hw.elim
    | exited => exact hw.elim
  · exact Or.inr ⟨hp, e, h.step he hu⟩

theorem workerEnds_acc (h : Follows c x I K) {w : WorkerState c} (hw : WorkerEnds x I K w) :
    Acc (fun t s => c.step s t) w.cs := by
  rcases hw with ⟨e, hw⟩ | ⟨hp, e, he⟩
  · rcases w with ⟨cs, exh, pc⟩
    cases pc with
    | put en =>
      cases en with
      | marker => exact hw.elim
      | elem a ck => exact h.acc hw.2.2.2
      | over => exact h.acc hw.2.2
    | top => exact h.acc hw.1
    | take => exact h.acc hw.1
    | work => exact h.acc hw.1
    | reading => exact h.acc hw.2
    | got a => exact h.acc hw.2.2
    | mark ck =>
      obtain ⟨h1, h2, d, h3⟩ := hw
      exact h.acc h3
    | apply ck =>
      obtain ⟨h1, h2, d, h3⟩ := hw
      exact h.acc h3
    | applying => exact h.acc hw.2
    | leaving => exact hw.elim
    | exited => exact hw.elim
  · exact h.acc he

/-- A step of the worker, or below it, while `close` runs: the rank goes down unless it is below. -/
theorem procStopping_step (h : Follows c x I K) {s t : ProcState c} (h0 : s.pc = .idle) (hs : ProcStopping x I K s)
    (ht : ProcStep size keep c s t) :
    ProcStopping x I K t ∧ (WorkerBelowStep s t ∨ ∀ pc, t.endRank pc < s.endRank pc) ∧
      ((∀ w, s.wrk = some w → w.pc = .exited) → ∀ w, t.wrk = some w → w.pc = .exited) := by
  obtain ⟨hstop, hgood, w0, hw0, hends, hcount⟩ := hs
  have hex : ∀ {p : WorkerPc α c.C}, w0.pc = p → p ≠ .leaving → p ≠ .exited → ∃ e, WorkerAt x I K e w0 := by
    intro p hp h1 h2
    rcases hends with he | ⟨he | he, -⟩
    · exact he
    · exact absurd (hp.symm.trans he) h1
    · exact absurd (hp.symm.trans he) h2
  have hcnt : ∀ {p : WorkerPc α c.C}, w0.pc = p → p ≠ .exited → s.reqCount = s.reqs.length := by
    intro p hp h1
    rcases hcount with hc | hc
    · exact absurd (hp.symm.trans hc) h1
    · exact hc
  -- a step of the worker that leaves the queues alone
  have plain : ∀ (w' : WorkerState c), w0.pc ≠ .exited → WorkerEnds x I K w' → w'.pc.endStage < w0.pc.endStage →
      ProcStopping x I K { s with wrk := some w' } ∧ (WorkerBelowStep s { s with wrk := some w' } ∨
        ∀ pc, ({ s with wrk := some w' } : ProcState c).endRank pc < s.endRank pc) ∧
      ((∀ w, s.wrk = some w → w.pc = .exited) → ∀ w, (some w' : Option (WorkerState c)) = some w → w.pc = .exited) := by
    intro w' hne hw' hlt
    refine ⟨⟨hstop, hgood, w', rfl, hw', Or.inr (hcnt rfl hne)⟩, Or.inr fun pc => ?_, fun hall => absurd (hall w0 hw0) hne⟩
    unfold ProcState.endRank
    rw [hw0]
    dsimp only
    omega
  cases ht with
  | below w t hw ht =>
    rw [hw0] at hw
    cases hw
    refine ⟨⟨hstop, hgood, _, rfl, workerEnds_below h hends ht, hcount⟩, Or.inl ⟨w0, t, hw0, ht, rfl⟩, ?_⟩
    rintro hall _ ⟨⟩
    exact hall w0 hw0
  | topStop w hw hp _ =>
    rw [hw0] at hw
    cases hw
    obtain ⟨e, he⟩ := hex hp (by simp) (by simp)
    refine plain _ (by rw [hp]; simp) (Or.inr ⟨Or.inl rfl, e, ?_⟩) (by rw [hp]; simp [WorkerPc.endStage])
    unfold WorkerAt at he
    rw [hp] at he
    exact he.1
  | topTake w hw hp h1 _ => rw [hstop] at h1; cases h1
  | topWork w hw hp h1 _ _ => rw [hstop] at h1; cases h1
  | take w n ck cks hw hp h1 h2 =>
    rw [hw0] at hw
    cases hw
    obtain ⟨e, he⟩ := hex hp (by simp) (by simp)
    unfold WorkerAt at he
    rw [hp] at he
    have hc := hcnt hp (by simp)
    rw [h2] at hgood hc
    obtain ⟨k, hk⟩ := hgood ck (by simp)
    refine ⟨⟨hstop, fun r hr => hgood r (by simp [hr]), _, rfl, Or.inl ⟨k, rfl, hk, e, he.1⟩, Or.inr ?_⟩, Or.inr fun pc => ?_, ?_⟩
    · simp only [List.length_cons] at hc
      dsimp only
      omega
    · unfold ProcState.endRank
      rw [hw0]
      simp only [hp, WorkerPc.endStage]
      omega
    · intro hall
      have := hall w0 hw0
      rw [hp] at this
      cases this
  | takeNone w hw hp _ =>
    rw [hw0] at hw
    cases hw
    obtain ⟨e, he⟩ := hex hp (by simp) (by simp)
    unfold WorkerAt at he
    rw [hp] at he
    exact plain _ (by rw [hp]; simp) (Or.inl ⟨e, he⟩) (by rw [hp]; simp [WorkerPc.endStage])
  | mark w ck hw hp hl =>
    rw [hw0] at hw
    cases hw
    obtain ⟨e, he⟩ := hex hp (by simp) (by simp)
    unfold WorkerAt at he
    rw [hp] at he
    refine ⟨⟨hstop, hgood, _, rfl, Or.inl ⟨e, he⟩, Or.inr (hcnt hp (by simp))⟩, Or.inr fun pc => ?_, ?_⟩
    · unfold ProcState.endRank
      rw [hw0]
      simp only [hp, WorkerPc.endStage, List.length_append, List.length_cons, List.length_nil]
      omega
    · intro hall
      have := hall w0 hw0
      rw [hp] at this
      cases this
  | markStop w ck hw hp _ =>
    rw [hw0] at hw
    cases hw
    obtain ⟨e, he⟩ := hex hp (by simp) (by simp)
    unfold WorkerAt at he
    rw [hp] at he
    obtain ⟨h1, -, d, h3⟩ := he
    exact plain _ (by rw [hp]; simp) (Or.inl ⟨d, h3, fun hx => by simp [h1] at hx⟩) (by rw [hp]; simp [WorkerPc.endStage])
  | apply w ck t hw hp ht =>
    rw [hw0] at hw
    cases hw
    obtain ⟨e, he⟩ := hex hp (by simp) (by simp)
    unfold WorkerAt at he
    rw [hp] at he
    obtain ⟨h1, h2, d, h3⟩ := he
    exact plain _ (by rw [hp]; simp) (Or.inl ⟨e, h1, h.setCall h3 h2 ht⟩) (by rw [hp]; simp [WorkerPc.endStage])
  | applied w t hw hp ht =>
    rw [hw0] at hw
    cases hw
    obtain ⟨e, he⟩ := hex hp (by simp) (by simp)
    unfold WorkerAt at he
    rw [hp] at he
    exact plain _ (by rw [hp]; simp) (Or.inl ⟨e, h.setRet he.2 ht, fun hx => by simp [he.1] at hx⟩) (by rw [hp]; simp [WorkerPc.endStage])
  | workWait w hw hp _ =>
    rw [hw0] at hw
    cases hw
    obtain ⟨e, he⟩ := hex hp (by simp) (by simp)
    unfold WorkerAt at he
    rw [hp] at he
    exact plain _ (by rw [hp]; simp) (Or.inl ⟨e, he⟩) (by rw [hp]; simp [WorkerPc.endStage])
  | call w t hw hp h1 ht =>
    rw [hw0] at hw
    cases hw
    obtain ⟨e, he⟩ := hex hp (by simp) (by simp)
    unfold WorkerAt at he
    rw [hp] at he
    exact plain _ (by rw [hp]; simp) (Or.inl ⟨e, h1, h.call he.1 ht⟩) (by rw [hp]; simp [WorkerPc.endStage])
  | item w a t hw hp ht =>
    rw [hw0] at hw
    cases hw
    obtain ⟨e, he⟩ := hex hp (by simp) (by simp)
    unfold WorkerAt at he
    rw [hp] at he
    obtain ⟨h1, h2⟩ := h.ret he.2 ht
    have hn : nextPos x e = e + 1 := by simp [nextPos, ← h1]
    rw [hn] at h2
    exact plain _ (by rw [hp]; simp) (Or.inl ⟨e, he.1, h1.symm, h2⟩) (by rw [hp]; show 6 < 7; omega)
  | ended w t hw hp ht =>
    rw [hw0] at hw
    cases hw
    obtain ⟨e, he⟩ := hex hp (by simp) (by simp)
    unfold WorkerAt at he
    rw [hp] at he
    obtain ⟨h1, h2⟩ := h.ret he.2 ht
    have hn : nextPos x e = e := by simp [nextPos, ← h1]
    rw [hn] at h2
    exact plain _ (by rw [hp]; simp) (Or.inl ⟨e, he.1, h1.symm, h2⟩) (by rw [hp]; show 5 < 7; omega)
  | getState w a hw hp =>
    rw [hw0] at hw
    cases hw
    obtain ⟨e, he⟩ := hex hp (by simp) (by simp)
    unfold WorkerAt at he
    rw [hp] at he
    obtain ⟨h1, h2⟩ := h.get he.2.2
    exact plain _ (by rw [hp]; simp) (Or.inl ⟨e, he.1, he.2.1, h2, h1⟩) (by rw [hp]; show 5 < 6; omega)
  | put w en hw hp hl =>
    rw [hw0] at hw
    cases hw
    obtain ⟨e, he⟩ := hex hp (by simp) (by simp)
    unfold WorkerAt at he
    rw [hp] at he
    have hends' : WorkerEnds x I K { w0 with exh := exhAfter en w0.exh, pc := .top } := by
      cases en with
      | marker => exact he.elim
      | elem a ck => exact Or.inl ⟨e + 1, he.2.2.2, fun hx => by simp [exhAfter, he.1] at hx⟩
      | over => exact Or.inl ⟨e, he.2.2, fun _ => he.2.1⟩
    refine ⟨⟨hstop, hgood, _, rfl, hends', Or.inr (hcnt hp (by simp))⟩, Or.inr fun pc => ?_, ?_⟩
    · unfold ProcState.endRank
      rw [hw0]
      simp only [hp, WorkerPc.endStage, List.length_append, List.length_cons, List.length_nil]
      omega
    · intro hall
      have := hall w0 hw0
      rw [hp] at this
      cases this
  | putStop w en hw hp _ =>
    rw [hw0] at hw
    cases hw
    obtain ⟨e, he⟩ := hex hp (by simp) (by simp)
    unfold WorkerAt at he
    rw [hp] at he
    have hends' : WorkerEnds x I K { w0 with exh := exhAfter en w0.exh, pc := .top } := by
      cases en with
      | marker => exact he.elim
      | elem a ck => exact Or.inl ⟨e + 1, he.2.2.2, fun hx => by simp [exhAfter, he.1] at hx⟩
      | over => exact Or.inl ⟨e, he.2.2, fun _ => he.2.1⟩
    exact plain _ (by rw [hp]; simp) hends' (by rw [hp]; show 2 < 5; omega)
  | leave w e es hw hp hb =>
    refine ⟨⟨hstop, hgood, w0, hw0, hends, hcount⟩, Or.inr fun pc => ?_, fun hall => hall⟩
    unfold ProcState.endRank
    dsimp only
    rw [hb]
    simp only [List.length_cons]
    omega
  | leaveEnd w hw hp =>
    rw [hw0] at hw
    cases hw
    have hidle : ∃ e, I e .idle w0.cs := by
      rcases hends with ⟨e, he⟩ | ⟨-, he⟩
      · unfold WorkerAt at he
        rw [hp] at he
        exact he.elim
      · exact he
    refine ⟨⟨hstop, fun r hr => by simp at hr, _, rfl, Or.inr ⟨Or.inr rfl, hidle⟩, Or.inl rfl⟩, Or.inr fun pc => ?_, ?_⟩
    · unfold ProcState.endRank
      rw [hw0]
      simp only [hp, WorkerPc.endStage]
      omega
    · rintro - _ ⟨⟩
      rfl
  | nextOver h1 => rw [h0] at h1; cases h1
  | start h1 => rw [h0] at h1; cases h1
  | wait w h1 => rw [h0] at h1; cases h1
  | getMarker es h1 => rw [h0] at h1; cases h1
  | getStale e es h1 => rw [h0] at h1; cases h1
  | getElem a ck es h1 => rw [h0] at h1; cases h1
  | getOver es h1 => rw [h0] at h1; cases h1
  | getStop es h1 => rw [h0] at h1; cases h1
  | stop1 e es h1 => rw [h0] at h1; cases h1
  | stop1End h1 => rw [h0] at h1; cases h1
  | stop2 j h1 => rw [h0] at h1; cases h1
  | join w h1 => rw [h0] at h1; cases h1
  | stop3 e es h1 => rw [h0] at h1; cases h1
  | stopped h1 => rw [h0] at h1; cases h1
  | setPut ck h1 => rw [h0] at h1; cases h1
  | setDone ck h1 => rw [h0] at h1; cases h1

/-- A worker that was told to stop can go on until it has ended. -/
theorem procStopping_live (h : Follows c x I K) {s : ProcState c} (hs : ProcStopping x I K s) {w : WorkerState c}
    (hw : s.wrk = some w) (hne : w.pc ≠ .exited) : ∃ t, ProcStep size keep c s t := by
  obtain ⟨hstop, hgood, w0, hw0, hends, hcount⟩ := hs
  rw [hw] at hw0
  cases hw0
  rcases hends with ⟨e, he⟩ | ⟨hp | hp, -⟩
  · unfold WorkerAt at he
    cases hp : w.pc with
    | top => exact ⟨_, .topStop s w hw hp hstop⟩
    | take =>
      have hc : s.reqCount = s.reqs.length := hcount.resolve_left hne
      cases hr : s.reqs with
      | nil => exact ⟨_, .takeNone s w hw hp (by rw [hc, hr]; rfl)⟩
      | cons ck cks => exact ⟨_, .take s w cks.length ck cks hw hp (by rw [hc, hr]; rfl) hr⟩
    | mark ck => exact ⟨_, .markStop s w ck hw hp hstop⟩
    | apply ck =>
      rw [hp] at he
      obtain ⟨-, h2, d, h3⟩ := he
      obtain ⟨t, ht⟩ := h.canSet h3 h2
      exact ⟨_, .apply s w ck t hw hp ht⟩
    | applying =>
      rw [hp] at he
      rcases h.liveSet he.2 with ⟨t, ht⟩ | ⟨t, ht⟩
      · exact ⟨_, .below s w t hw ht⟩
      · exact ⟨_, .applied s w t hw hp ht⟩
    | work =>
      rw [hp] at he
      cases hx : w.exh with
      | true => exact ⟨_, .workWait s w hw hp hx⟩
      | false =>
        obtain ⟨t, ht⟩ := h.canCall he.1
        exact ⟨_, .call s w t hw hp hx ht⟩
    | reading =>
      rw [hp] at he
      rcases h.live he.2 with ⟨t, ht⟩ | ⟨r, t, ht⟩
      · exact ⟨_, .below s w t hw ht⟩
      · cases r with
        | none => exact ⟨_, .ended s w t hw hp ht⟩
        | some a => exact ⟨_, .item s w a t hw hp ht⟩
    | got a => exact ⟨_, .getState s w a hw hp⟩
    | put en => exact ⟨_, .putStop s w en hw hp hstop⟩
    | leaving => rw [hp] at he; exact he.elim
    | exited => exact absurd hp hne
  · exact ⟨_, .leaveEnd s w hw hp⟩
  · exact absurd hp hne

theorem procCloseInv_stopping {s : ProcState c} {pc : ProcClosePc} (h1 : pc ≠ .begin) (h2 : pc ≠ .fin)
    (h : ProcCloseInv x I K s pc) : ProcStopping x I K s := by
  cases pc with
  | begin => exact absurd rfl h1
  | fin => exact absurd rfl h2
  | stop1 => exact h.2
  | stop2 => exact h.2
  | join => exact h.2
  | stop3 => exact h.2.1

theorem process_closes {kill : Bool} (h : Follows c x I K) (hsize : 0 < size) :
    CloseEnds (processOver size keep c) (processCloser size keep kill c) (ProcInv true x I K) (ProcCloseInv x I K) := by
  have hF := process_follows (keep := keep) (kick := true) h hsize
  have hthread : ∀ {s pc t}, ProcCloseInv x I K s pc → ProcStep size keep c s t → ProcCloseInv x I K t pc := by
    intro s pc t hs ht
    obtain ⟨h1, w, hw⟩ := proc_idle_step hs.1 ht
    cases pc with
    | begin =>
      obtain ⟨n, hi⟩ := hs.2
      exact ⟨h1, n, hF.step hi ht⟩
    | fin => rw [hs.2] at hw; cases hw
    | stop1 => exact ⟨h1, (procStopping_step h hs.1 hs.2 ht).1⟩
    | stop2 => exact ⟨h1, (procStopping_step h hs.1 hs.2 ht).1⟩
    | join => exact ⟨h1, (procStopping_step h hs.1 hs.2 ht).1⟩
    | stop3 =>
      obtain ⟨h2, -, h3⟩ := procStopping_step h hs.1 hs.2.1 ht
      exact ⟨h1, h2, h3 hs.2.2⟩
  have hclose : ∀ {s pc t pc'}, ProcCloseInv x I K s pc → ProcCloseStep kill c s pc t pc' →
      ProcCloseInv x I K t pc' ∧ (pc ≠ .begin → t.endRank pc' < s.endRank pc) := by
    intro s pc t pc' hs ht
    cases ht with
    | none hw => exact ⟨⟨hs.1, hw⟩, fun hb => absurd rfl hb⟩
    | begin w hw =>
      refine ⟨⟨hs.1, ?_⟩, fun hb => absurd rfl hb⟩
      obtain ⟨h0, n, hi⟩ := hs
      have hb : ProcBase true x I K n s := by
        unfold ProcInv at hi
        rw [h0] at hi
        exact hi
      obtain ⟨-, e, he⟩ := hb.common.wrk w hw
      refine ⟨rfl, hb.common.good, w, hw, Or.inl ⟨e, he⟩, Or.inr ?_⟩
      exact hb.common.req
    | stop1 e es hb =>
      obtain ⟨h0, h1, h2, w, h3, h4⟩ := hs
      refine ⟨⟨h0, h1, h2, w, h3, h4⟩, fun _ => ?_⟩
      unfold ProcState.endRank
      dsimp only
      rw [hb]
      simp only [List.length_cons]
      omega
    | stop1End => exact ⟨hs, fun _ => by simp [ProcState.endRank, ProcClosePc.stage]⟩
    | stop2 j hj =>
      obtain ⟨h0, h1, h2, w, h3, h4, h5⟩ := hs
      refine ⟨⟨h0, h1, fun r hr => h2 r (List.mem_of_mem_drop hr), w, h3, h4, h5.imp id fun h6 => ?_⟩, fun _ => ?_⟩
      · simp only [List.length_drop]
        omega
      · simp [ProcState.endRank, ProcClosePc.stage]
    | join w hw hp =>
      refine ⟨⟨hs.1, hs.2, fun w' hw' => ?_⟩, fun _ => by simp [ProcState.endRank, ProcClosePc.stage]⟩
      rw [hw] at hw'
      cases hw'
      exact hp
    | kill w hk hw =>
      refine ⟨⟨hs.1, rfl⟩, fun _ => ?_⟩
      simp only [ProcState.endRank, ProcClosePc.stage, hw]
      omega
    | stop3 e es hb =>
      obtain ⟨h0, ⟨h1, h2, w, h3, h4⟩, h5⟩ := hs
      refine ⟨⟨h0, ⟨h1, h2, w, h3, h4⟩, h5⟩, fun _ => ?_⟩
      unfold ProcState.endRank
      dsimp only
      rw [hb]
      simp only [List.length_cons]
      omega
    | stopped hb =>
      refine ⟨⟨hs.1, rfl⟩, fun _ => ?_⟩
      obtain ⟨w, hw, -⟩ := hs.2.1.wrk
      simp only [ProcState.endRank, ProcClosePc.stage, hw]
      omega
  have hfin : ∀ {s : ProcState c}, s.pc = .idle → s.wrk = none →
      Acc (fun t s => CloseStep (processOver size keep c) (processCloser size keep kill c) s t) ⟨s, .fin⟩ := by
    intro s h0 h1
    refine acc_closing (fun t ht => ?_) (fun t q' ht => ?_)
    · obtain ⟨-, w, hw⟩ := proc_idle_step h0 ht
      rw [h1] at hw
      cases hw
    · cases ht
  have hstopping : ∀ r, ∀ {s : ProcState c} {pc : ProcClosePc}, pc ≠ .begin → pc ≠ .fin → ProcCloseInv x I K s pc →
      s.endRank pc = r →
      Acc (fun t s => CloseStep (processOver size keep c) (processCloser size keep kill c) s t) ⟨s, pc⟩ := by
    intro r
    induction r using Nat.strong_induction_on with
    | _ r ih =>
      have inner : ∀ cs, Acc (fun t s => c.step s t) cs → ∀ {s : ProcState c} {pc : ProcClosePc} {w : WorkerState c},
          pc ≠ .begin → pc ≠ .fin → ProcCloseInv x I K s pc → s.endRank pc = r → s.wrk = some w → w.cs = cs →
          Acc (fun t s => CloseStep (processOver size keep c) (processCloser size keep kill c) s t) ⟨s, pc⟩ := by
        intro cs hcs
        induction hcs with
        | intro cs _ ih2 =>
          rintro s pc w hb hfn hs hr hw rfl
          have hst := procCloseInv_stopping hb hfn hs
          refine acc_closing (fun t ht => ?_) (fun t pc' ht => ?_)
          · have hs' := hthread hs ht
            obtain ⟨-, h2 | h2, -⟩ := procStopping_step h hs.1 hst ht
            · obtain ⟨w', u, h3, h4, rfl⟩ := h2
              rw [hw] at h3
              cases h3
              refine ih2 u h4 (w := { w with cs := u }) hb hfn hs' ?_ rfl rfl
              rw [← hr]
              unfold ProcState.endRank
              rw [hw]
            · exact ih _ (by rw [← hr]; exact h2 pc) hb hfn hs' rfl
          · obtain ⟨h3, h4⟩ := hclose hs ht
            by_cases hf' : pc' = .fin
            · subst hf'
              exact hfin h3.1 h3.2
            · refine ih _ (by rw [← hr]; exact h4 hb) ?_ hf' h3 rfl
              rintro rfl
              cases ht
      intro s pc hb hfn hs hr
      obtain ⟨w, hw, hends, -⟩ := (procCloseInv_stopping hb hfn hs).wrk
      exact inner _ (workerEnds_acc h hends) hb hfn hs hr hw rfl
  have hbegin : ∀ s, Acc (fun t s => ProcStep size keep c s t) s → ProcCloseInv x I K s .begin →
      Acc (fun t s => CloseStep (processOver size keep c) (processCloser size keep kill c) s t) ⟨s, .begin⟩ := by
    intro s hacc
    induction hacc with
    | intro s _ ih =>
      intro hs
      refine acc_closing (fun t ht => ih t ht (hthread hs ht)) (fun t pc' ht => ?_)
      have h3 := (hclose hs ht).1
      cases ht with
      | none hw => exact hfin hs.1 hw
      | begin w hw => exact hstopping _ (by simp) (by simp) h3 rfl
  constructor
  · intro n s hs
    refine ⟨?_, n, hs⟩
    unfold ProcInv at hs
    split at hs <;> first | assumption | exact hs.elim | (rename_i hm; cases hm)
  · exact hthread
  · exact fun hs ht => (hclose hs ht).1
  · intro s pc hs hd
    cases pc with
    | begin =>
      right
      cases hw : s.wrk with
      | none => exact ⟨_, _, ProcCloseStep.none s hw⟩
      | some w => exact ⟨_, _, ProcCloseStep.begin s w hw⟩
    | stop1 => exact Or.inr ⟨_, _, ProcCloseStep.stop1End s⟩
    | stop2 => exact Or.inr ⟨_, _, ProcCloseStep.stop2 s 0 (Nat.zero_le _)⟩
    | join =>
      obtain ⟨w, hw, -⟩ := hs.2.wrk
      by_cases hp : w.pc = .exited
      · exact Or.inr ⟨_, _, ProcCloseStep.join s w hw hp⟩
      · exact Or.inl (procStopping_live h hs.2 hw hp)
    | stop3 =>
      right
      cases hb : s.buf with
      | nil => exact ⟨_, _, ProcCloseStep.stopped s hb⟩
      | cons e es => exact ⟨_, _, ProcCloseStep.stop3 s e es hb⟩
    | fin => exact absurd rfl hd
  · intro s pc hs hd t ht
    cases hd
    obtain ⟨-, w, hw⟩ := proc_idle_step hs.1 ht
    rw [hs.2] at hw
    cases hw
  · intro s pc hs hd
    cases hd
    exact hs.2
  · intro s pc hs
    by_cases hb : pc = .begin
    · subst hb
      obtain ⟨n, hi⟩ := hs.2
      exact hbegin s (hF.acc hi) hs
    · by_cases hfn : pc = .fin
      · subst hfn
        exact hfin hs.1 hs.2
      · exact hstopping _ hb hfn hs rfl

end

/-! ### Transformations of several inputs -/

/-- One input of a tree that is closed input by input: not being closed yet, or where its `close` is. -/
inductive PartStep (c : ConcIter α) (k : Closer c) : c.S × Option k.P → c.S × Option k.P → Prop
  | rest (s t) : c.step s t → PartStep c k (s, none) (t, none)
  | begin (s) : PartStep c k (s, none) (s, some k.start)
  | run (s q t q') : CloseStep c k ⟨s, q⟩ ⟨t, q'⟩ → PartStep c k (s, some q) (t, some q')

section
variable {n : Nat} {T : MultiTrans n α β} {c : Fin n → ConcIter α} {k : (i : Fin n) → Closer (c i)}
variable {x : Fin n → Nat → Option α} {y : Nat → Option β} {I : (i : Fin n) → Nat → CMode → (c i).S → Prop}
variable {K : (i : Fin n) → Nat → (c i).C → Prop} {At : Nat → (Fin n → Nat) → T.L → Prop}
variable {J : (i : Fin n) → (c i).S → (k i).P → Prop}

/-- Each input is idle or being closed. -/
def PartInv {c : ConcIter α} {k : Closer c} (I : Nat → CMode → c.S → Prop) (J : c.S → k.P → Prop) (s : c.S) : Option k.P → Prop
  | none => ∃ e, I e .idle s
  | some q => J s q

theorem part_acc {c : ConcIter α} {k : Closer c} {x : Nat → Option α} {I : Nat → CMode → c.S → Prop} {K : Nat → c.C → Prop}
    {J : c.S → k.P → Prop} (hf : Follows c x I K) (h : CloseEnds c k I J) {s : c.S} {v : Option k.P} (hv : PartInv I J s v) :
    Acc (fun t s => PartStep c k s t) (s, v) := by
  have hsome : ∀ u, Acc (fun t s => CloseStep c k s t) u → Acc (fun t s => PartStep c k s t) (u.st, some u.pc) := by
    intro u hu
    induction hu with
    | intro u _ ih =>
      refine Acc.intro _ fun t ht => ?_
      rcases u with ⟨s, q⟩
      cases ht with
      | run _ _ t q' ht => exact ih ⟨t, q'⟩ ht
  cases v with
  | some q => exact hsome ⟨s, q⟩ (h.acc hv)
  | none =>
    obtain ⟨e, he⟩ := hv
    have hacc := hf.acc he
    induction hacc with
    | intro s _ ih =>
      refine Acc.intro _ fun t ht => ?_
      cases ht with
      | rest _ t ht => exact ih t ht (hf.step he ht)
      | begin => exact hsome ⟨s, k.start⟩ (h.acc (h.start he))

/-- `v` says where the `close` of each input is: the inputs before the current one are closed, those after it are idle. -/
structure MtParts (k : (i : Fin n) → Closer (c i)) (I : (i : Fin n) → Nat → CMode → (c i).S → Prop)
    (J : (i : Fin n) → (c i).S → (k i).P → Prop) (s : MtState T c) (o : Option (Σ i, (k i).P)) (v : (i : Fin n) → Option (k i).P) :
    Prop where
  idle : s.pc = .idle
  parts : ∀ i, PartInv (I i) (J i) (s.cs i) (v i)
  here : ∀ i q, o = some ⟨i, q⟩ → v i = some q
  before : ∀ i q, o = some ⟨i, q⟩ → ∀ j : Fin n, j.val < i.val → ∃ r, v j = some r ∧ (k j).done r
  after : ∀ i q, o = some ⟨i, q⟩ → ∀ j : Fin n, i.val < j.val → v j = none
  none : o = none → n = 0

theorem multi_idle_step {s t : MtState T c} (h : s.pc = .idle) (ht : MtStep T c s t) :
    ∃ i u, (c i).step (s.cs i) u ∧ t = { s with cs := Function.update s.cs i u } := by
  cases ht with
  | below i t ht => exact ⟨i, t, ht, rfl⟩
  | ask i k t hp => rw [h] at hp; cases hp
  | got i k r t hp => rw [h] at hp; cases hp
  | setPar i ck t hp => rw [h] at hp; cases hp
  | setBack i ck t hp => rw [h] at hp; cases hp
  | setSkip i ck hp => rw [h] at hp; cases hp
  | setEnd ck hp => rw [h] at hp; cases hp

theorem mtParts_thread (hf : ∀ i, Follows (c i) (x i) (I i) (K i)) (h : ∀ i, CloseEnds (c i) (k i) (I i) (J i)) {s t : MtState T c}
    {o : Option (Σ i, (k i).P)} {v : (i : Fin n) → Option (k i).P} (hs : MtParts k I J s o v) (ht : MtStep T c s t) :
    MtParts k I J t o v ∧ PiStep (fun i => PartStep (c i) (k i)) (fun i => (s.cs i, v i)) (fun i => (t.cs i, v i)) := by
  obtain ⟨i, u, hu, rfl⟩ := multi_idle_step hs.idle ht
  refine ⟨⟨hs.idle, fun j => ?_, hs.here, hs.before, hs.after, hs.none⟩, i, (u, v i), ?_, ?_⟩
  · by_cases hj : j = i
    · subst hj
      have hp := hs.parts j
      simp only [Function.update_self]
      cases hv : v j with
      | none =>
        rw [hv] at hp
        obtain ⟨e, he⟩ := hp
        exact ⟨e, (hf j).step he hu⟩
      | some q =>
        rw [hv] at hp
        exact (h j).step hp hu
    · simp only [Function.update_of_ne hj]
      exact hs.parts j
  · dsimp only
    cases hv : v i with
    | none => exact .rest _ _ hu
    | some q => exact .run _ _ _ _ (.thread _ _ _ hu)
  · funext j
    by_cases hj : j = i
    · subst hj
      simp
    · simp [Function.update_of_ne hj]

theorem mtParts_close (h : ∀ i, CloseEnds (c i) (k i) (I i) (J i)) {s t : MtState T c}
    {o o' : Option (Σ i, (k i).P)} {v : (i : Fin n) → Option (k i).P} (hs : MtParts k I J s o v) (ht : MtCloseStep T c k s o t o') :
    ∃ v', MtParts k I J t o' v' ∧
      PiStep (fun i => PartStep (c i) (k i)) (fun i => (s.cs i, v i)) (fun i => (t.cs i, v' i)) := by
  cases ht with
  | inside i q t q' ht =>
    have hv := hs.here i q rfl
    refine ⟨Function.update v i (some q'), ⟨hs.idle, fun j => ?_, ?_, ?_, ?_, nofun⟩, i, (t, some q'), ?_, ?_⟩
    · by_cases hj : j = i
      · subst hj
        have hp := hs.parts j
        rw [hv] at hp
        simp only [Function.update_self]
        exact (h j).close hp ht
      · simp only [Function.update_of_ne hj]
        exact hs.parts j
    · rintro j r ⟨⟩
      simp
    · rintro j r ⟨⟩ l hl
      rw [Function.update_of_ne (by rintro rfl; omega)]
      exact hs.before i q rfl l hl
    · rintro j r ⟨⟩ l hl
      rw [Function.update_of_ne (by rintro rfl; omega)]
      exact hs.after i q rfl l hl
    · dsimp only
      rw [hv]
      exact .run _ _ _ _ (.close _ _ _ _ ht)
    · funext j
      by_cases hj : j = i
      · subst hj
        simp
      · simp [Function.update_of_ne hj]
  | onward i j q hd hij =>
    have hv := hs.here i q rfl
    have hj := hs.after i q rfl j (by omega)
    refine ⟨Function.update v j (some (k j).start), ⟨hs.idle, fun l => ?_, ?_, ?_, ?_, nofun⟩, j, (s.cs j, some (k j).start), ?_, ?_⟩
    · by_cases hl : l = j
      · subst hl
        have hp := hs.parts l
        rw [hj] at hp
        obtain ⟨e, he⟩ := hp
        simp only [Function.update_self]
        exact (h l).start he
      · simp only [Function.update_of_ne hl]
        exact hs.parts l
    · rintro l r ⟨⟩
      simp
    · rintro l r ⟨⟩ m hm
      rw [Function.update_of_ne (by rintro rfl; omega)]
      by_cases hmi : m = i
      · subst hmi
        exact ⟨q, hv, hd⟩
      · have : m.val ≠ i.val := fun he => hmi (Fin.ext he)
        exact hs.before i q rfl m (by omega)
    · rintro l r ⟨⟩ m hm
      rw [Function.update_of_ne (by rintro rfl; omega)]
      exact hs.after i q rfl m (by omega)
    · dsimp only
      rw [hj]
      exact .begin _
    · funext l
      by_cases hl : l = j
      · subst hl
        simp
      · simp [Function.update_of_ne hl]

theorem multi_closes (hf : ∀ i, Follows (c i) (x i) (I i) (K i)) (h : ∀ i, CloseEnds (c i) (k i) (I i) (J i)) :
    CloseEnds (multiOver T c) (multiCloser T k) (fun m md s => ∃ w, MtInv x y I K At m md w s)
      (fun s o => ∃ v, MtParts k I J s o v) := by
  constructor
  · rintro m s ⟨w, hs⟩
    rcases s with ⟨cs, loc, pc⟩
    cases pc <;> try exact hs.elim
    obtain ⟨-, p, -, hi⟩ := hs
    by_cases hn : 0 < n
    · refine ⟨Function.update (fun _ => none) ⟨0, hn⟩ (some (k ⟨0, hn⟩).start), rfl, fun i => ?_, ?_, ?_, ?_, ?_⟩
      · by_cases h0 : i = ⟨0, hn⟩
        · subst h0
          simp only [Function.update_self]
          exact (h _).start (hi _)
        · simp only [Function.update_of_ne h0]
          exact ⟨_, hi i⟩
      · intro i q ho
        simp only [multiCloser, hn, dif_pos, Option.some.injEq] at ho
        cases ho
        simp
      · intro i q ho
        simp only [multiCloser, hn, dif_pos, Option.some.injEq] at ho
        cases ho
        intro j hj
        exact absurd hj (Nat.not_lt_zero _)
      · intro i q ho
        simp only [multiCloser, hn, dif_pos, Option.some.injEq] at ho
        cases ho
        intro j hj
        rw [Function.update_of_ne (by rintro rfl; simp at hj)]
      · intro ho
        simp [multiCloser, hn] at ho
    · refine ⟨fun _ => none, rfl, fun i => ⟨_, hi i⟩, ?_, ?_, ?_, fun _ => by omega⟩ <;>
        exact fun i => absurd i.isLt (by omega)
  · rintro s q t ⟨v, hs⟩ ht
    exact ⟨v, (mtParts_thread hf h hs ht).1⟩
  · rintro s q t q' ⟨v, hs⟩ ht
    obtain ⟨v', h1, -⟩ := mtParts_close h hs ht
    exact ⟨v', h1⟩
  · rintro s o ⟨v, hs⟩ hd
    cases o with
    | none => exact absurd (fun i q ho => nomatch ho) hd
    | some o =>
      obtain ⟨i, q⟩ := o
      have hp := hs.parts i
      rw [hs.here i q rfl] at hp
      by_cases hq : (k i).done q
      · by_cases hi : i.val + 1 = n
        · refine absurd ?_ hd
          rintro j r ⟨⟩
          exact ⟨hi, hq⟩
        · exact Or.inr ⟨_, _, MtCloseStep.onward s i ⟨i.val + 1, by omega⟩ q hq rfl⟩
      · rcases (h i).live hp hq with ⟨t, ht⟩ | ⟨t, q', ht⟩
        · exact Or.inl ⟨_, MtStep.below s i t ht⟩
        · exact Or.inr ⟨_, _, MtCloseStep.inside s i q t q' ht⟩
  · rintro s o ⟨v, hs⟩ hd t ht
    obtain ⟨i, u, hu, -⟩ := multi_idle_step hs.idle ht
    cases o with
    | none => exact absurd i.isLt (by have := hs.none rfl; omega)
    | some o =>
      obtain ⟨j, q⟩ := o
      obtain ⟨h1, h2⟩ := hd j q rfl
      have hp := hs.parts i
      by_cases hij : i = j
      · subst hij
        rw [hs.here i q rfl] at hp
        exact (h i).quiet hp h2 u hu
      · have : i.val ≠ j.val := fun he => hij (Fin.ext he)
        obtain ⟨r, h3, h4⟩ := hs.before j q rfl i (by omega)
        rw [h3] at hp
        exact (h i).quiet hp h4 u hu
  · rintro s o ⟨v, hs⟩ hd i
    cases o with
    | none => exact absurd i.isLt (by have := hs.none rfl; omega)
    | some o =>
      obtain ⟨j, q⟩ := o
      obtain ⟨h1, h2⟩ := hd j q rfl
      have hp := hs.parts i
      by_cases hij : i = j
      · subst hij
        rw [hs.here i q rfl] at hp
        exact (h i).gone hp h2
      · have : i.val ≠ j.val := fun he => hij (Fin.ext he)
        obtain ⟨r, h3, h4⟩ := hs.before j q rfl i (by omega)
        rw [h3] at hp
        exact (h i).gone hp h4
  · rintro s o ⟨v, hs⟩
    have hacc : Acc (fun t s => PiStep (fun i => PartStep (c i) (k i)) s t) (fun i => (s.cs i, v i)) :=
      acc_pi fun i => part_acc (hf i) (h i) (hs.parts i)
    generalize hz : (fun i => (s.cs i, v i)) = z at hacc
    induction hacc generalizing s o v with
    | intro z _ ih =>
      subst hz
      refine acc_closing (fun t ht => ?_) (fun t o' ht => ?_)
      · obtain ⟨h1, h2⟩ := mtParts_thread hf h hs ht
        exact ih _ h2 _ h1 rfl
      · obtain ⟨v', h1, h2⟩ := mtParts_close h hs ht
        exact ih _ h2 _ h1 rfl

end

end Grain
