import Verif.Stack.Anchor
import Verif.Stack.Lemmas
/-
A transformation that keeps states of its parent and computes one stream from another does so over a parent with threads.
-/
namespace Grain

/-- The call that is at `k`, with the parent at `i` and the kept states those of the positions `ρ`, returns `o` after `f`
actions; then what it has is `d`, the parent is at `j` and the kept states are those of `ρ'`. -/
inductive AnEval (T : Anchor α β) (x : Nat → Option α) :
    Nat → T.K → Nat → (Fin (T.r + 1) → Nat) → Option β → T.D → Nat → (Fin (T.r + 1) → Nat) → Prop
  | ret {k i ρ o d} : T.act k = .ret o d → AnEval T x 0 k i ρ o d i ρ
  | next {f k i ρ o d j ρ'} : T.act k = .next → AnEval T x f (T.resume k (x i)) (nextPos x i) ρ o d j ρ' →
      AnEval T x (f + 1) k i ρ o d j ρ'
  | mark {f k m k' i ρ o d j ρ'} : T.act k = .mark m k' → AnEval T x f k' i (Function.update ρ m i) o d j ρ' →
      AnEval T x (f + 1) k i ρ o d j ρ'
  | copy {f k m m' k' i ρ o d j ρ'} : T.act k = .copy m m' k' → AnEval T x f k' i (Function.update ρ m (ρ m')) o d j ρ' →
      AnEval T x (f + 1) k i ρ o d j ρ'
  | back {f k m k' i ρ o d j ρ'} : T.act k = .back m k' → AnEval T x f k' (ρ m) ρ o d j ρ' →
      AnEval T x (f + 1) k i ρ o d j ρ'

/-- The position of the state of the parent that goes into the transformation's own state. -/
def Anchor.saved (T : Anchor α β) (i : Nat) (ρ : Fin (T.r + 1) → Nat) : Nat := cond T.live i (ρ 0)

/-- Over the stream `x` the transformation computes the stream `y`: `At n i ρ d` – when it has returned `n` elements the
parent may be at `i`, the kept states be those of `ρ` and the rest be `d`. -/
structure AnComputes (T : Anchor α β) (x : Nat → Option α) (y : Nat → Option β)
    (At : Nat → Nat → (Fin (T.r + 1) → Nat) → T.D → Prop) : Prop where
  init : At 0 0 (fun _ => 0) T.d0
  start : ∀ {n i ρ d}, At n i ρ d →
    ∃ f d' j ρ', AnEval T x f (T.start d) i ρ (y n) d' j ρ' ∧ At (nextPos y n) j ρ' d'
  restore : ∀ {n i ρ d n' i' ρ' d'}, At n i ρ d → At n' i' ρ' d' →
    ∃ f o e j τ, AnEval T x f (T.onSet d' (T.pub d)) (T.saved i ρ) (Function.update ρ' 0 (T.saved i ρ)) o e j τ ∧ At n j τ e

section
variable {T : Anchor α β} {c : ConcIter α} {x : Nat → Option α} {y : Nat → Option β} {I : Nat → CMode → c.S → Prop}
  {K : Nat → c.C → Prop} {At : Nat → Nat → (Fin (T.r + 1) → Nat) → T.D → Prop}

/-- Where a call that began at `n` may end. -/
def AnGoal (y : Nat → Option β) (At : Nat → Nat → (Fin (T.r + 1) → Nat) → T.D → Prop) (n : Nat) (m : CMode) (o : Option β)
    (d : T.D) (j : Nat) (ρ : Fin (T.r + 1) → Nat) : Prop :=
  match m with
  | .next => o = y n ∧ At (nextPos y n) j ρ d
  | .set => At n j ρ d
  | .idle => False

/-- The kept states are those of `ρ`. -/
def Kept (K : Nat → c.C → Prop) (ρ : Fin (T.r + 1) → Nat) (regs : Fin (T.r + 1) → c.C) : Prop := ∀ m, K (ρ m) (regs m)

theorem Kept.update {ρ : Fin (T.r + 1) → Nat} {regs : Fin (T.r + 1) → c.C} (h : Kept K ρ regs) {m : Fin (T.r + 1)} {i : Nat}
    {ck : c.C} (hk : K i ck) : Kept K (Function.update ρ m i) (Function.update regs m ck) := by
  intro m'
  by_cases hm : m' = m
  · subst hm
    rw [Function.update_self, Function.update_self]
    exact hk
  · rw [Function.update_of_ne hm, Function.update_of_ne hm]
    exact h m'

/-- Invariant with a rank. -/
def AnInv (x : Nat → Option α) (y : Nat → Option β) (I : Nat → CMode → c.S → Prop) (K : Nat → c.C → Prop)
    (At : Nat → Nat → (Fin (T.r + 1) → Nat) → T.D → Prop) (n : Nat) (m : CMode) (w : Nat) (s : AnState T c) : Prop :=
  match s.pc with
  | .idle => m = .idle ∧ w = 0 ∧ ∃ i ρ, At n i ρ s.loc ∧ I i .idle s.cs ∧ Kept K ρ s.regs
  | .run k => ∃ f i ρ o d j ρ', w = 2 * f ∧ AnEval T x f k i ρ o d j ρ' ∧ AnGoal y At n m o d j ρ' ∧ I i .idle s.cs ∧ Kept K ρ s.regs
  | .wait k => ∃ f i ρ o d j ρ', w = 2 * f + 1 ∧ AnEval T x f (T.resume k (x i)) (nextPos x i) ρ o d j ρ' ∧ AnGoal y At n m o d j ρ' ∧
      I i .next s.cs ∧ Kept K ρ s.regs
  | .rewind k => ∃ f i ρ o d j ρ', w = 2 * f + 1 ∧ AnEval T x f k i ρ o d j ρ' ∧ AnGoal y At n m o d j ρ' ∧ I i .set s.cs ∧ Kept K ρ s.regs
  | .setPar e => m = .set ∧ ∃ f q ρ o d j ρ', w = 2 * f + 2 ∧ AnEval T x f (T.onSet s.loc e) (ρ 0) ρ o d j ρ' ∧ At n j ρ' d ∧
      I q .idle s.cs ∧ Kept K ρ s.regs
  | .setting e => m = .set ∧ ∃ f ρ o d j ρ', w = 2 * f + 1 ∧ AnEval T x f (T.onSet s.loc e) (ρ 0) ρ o d j ρ' ∧ At n j ρ' d ∧
      I (ρ 0) .set s.cs ∧ Kept K ρ s.regs

theorem anInv_acc (h : Follows c x I K) {n m w} {s : AnState T c} (hs : AnInv x y I K At n m w s) :
    Acc (fun t s => c.step s t) s.cs := by
  rcases s with ⟨cs, regs, loc, pc⟩
  cases pc with
  | idle => obtain ⟨-, -, i, ρ, -, hi, -⟩ := hs; exact h.acc hi
  | run k => obtain ⟨f, i, ρ, o, d, j, ρ', -, -, -, hi, -⟩ := hs; exact h.acc hi
  | wait k => obtain ⟨f, i, ρ, o, d, j, ρ', -, -, -, hi, -⟩ := hs; exact h.acc hi
  | rewind k => obtain ⟨f, i, ρ, o, d, j, ρ', -, -, -, hi, -⟩ := hs; exact h.acc hi
  | setPar e => obtain ⟨-, f, q, ρ, o, d, j, ρ', -, -, -, hi, -⟩ := hs; exact h.acc hi
  | setting e => obtain ⟨-, f, ρ, o, d, j, ρ', -, -, -, hi, -⟩ := hs; exact h.acc hi

theorem anInv_below (h : Follows c x I K) {n m w} {s : AnState T c} (hs : AnInv x y I K At n m w s) {t : c.S}
    (ht : c.step s.cs t) : AnInv x y I K At n m w { s with cs := t } := by
  rcases s with ⟨cs, regs, loc, pc⟩
  cases pc with
  | idle => obtain ⟨h0, h1, i, ρ, h2, hi, h3⟩ := hs; exact ⟨h0, h1, i, ρ, h2, h.step hi ht, h3⟩
  | run k => obtain ⟨f, i, ρ, o, d, j, ρ', h0, h1, h2, hi, h3⟩ := hs; exact ⟨f, i, ρ, o, d, j, ρ', h0, h1, h2, h.step hi ht, h3⟩
  | wait k => obtain ⟨f, i, ρ, o, d, j, ρ', h0, h1, h2, hi, h3⟩ := hs; exact ⟨f, i, ρ, o, d, j, ρ', h0, h1, h2, h.step hi ht, h3⟩
  | rewind k => obtain ⟨f, i, ρ, o, d, j, ρ', h0, h1, h2, hi, h3⟩ := hs; exact ⟨f, i, ρ, o, d, j, ρ', h0, h1, h2, h.step hi ht, h3⟩
  | setPar e =>
    obtain ⟨hm, f, q, ρ, o, d, j, ρ', h0, h1, h2, hi, h3⟩ := hs
    exact ⟨hm, f, q, ρ, o, d, j, ρ', h0, h1, h2, h.step hi ht, h3⟩
  | setting e =>
    obtain ⟨hm, f, ρ, o, d, j, ρ', h0, h1, h2, hi, h3⟩ := hs
    exact ⟨hm, f, ρ, o, d, j, ρ', h0, h1, h2, h.step hi ht, h3⟩

theorem anInv_step (h : Follows c x I K) {n m w} {s t : AnState T c} (hs : AnInv x y I K At n m w s) (ht : AnStep T c s t) :
    (c.step s.cs t.cs ∧ AnInv x y I K At n m w t) ∨ ∃ w', w' < w ∧ AnInv x y I K At n m w' t := by
  cases ht with
  | below t ht => exact Or.inl ⟨ht, anInv_below h hs ht⟩
  | ask k t hpc ha ht =>
    right
    rcases s with ⟨cs, regs, loc, pc⟩
    dsimp only at hpc ht
    subst hpc
    obtain ⟨f, i, ρ, o, d, j, ρ', rfl, h1, h2, hi, h3⟩ := hs
    cases h1 with
    | ret h4 => rw [ha] at h4; cases h4
    | next _h4 h5 =>
      rename_i f
      exact ⟨2 * f + 1, by omega, f, i, ρ, o, d, j, ρ', rfl, h5, h2, h.call hi ht, h3⟩
    | mark h4 _ => rw [ha] at h4; cases h4
    | copy h4 _ => rw [ha] at h4; cases h4
    | back h4 _ => rw [ha] at h4; cases h4
  | got k r t hpc ht =>
    right
    rcases s with ⟨cs, regs, loc, pc⟩
    dsimp only at hpc ht
    subst hpc
    obtain ⟨f, i, ρ, o, d, j, ρ', rfl, h1, h2, hi, h3⟩ := hs
    obtain ⟨rfl, hi'⟩ := h.ret hi ht
    exact ⟨2 * f, by omega, f, _, ρ, o, d, j, ρ', rfl, h1, h2, hi', h3⟩
  | mark k q k' hpc ha =>
    right
    rcases s with ⟨cs, regs, loc, pc⟩
    dsimp only at hpc
    subst hpc
    obtain ⟨f, i, ρ, o, d, j, ρ', rfl, h1, h2, hi, h3⟩ := hs
    obtain ⟨hg1, hg2⟩ := h.get hi
    cases h1 with
    | ret h4 => rw [ha] at h4; cases h4
    | next h4 _ => rw [ha] at h4; cases h4
    | mark h4 h5 =>
      rw [ha] at h4
      cases h4
      rename_i f
      exact ⟨2 * f, by omega, f, i, _, o, d, j, ρ', rfl, h5, h2, hg1, h3.update hg2⟩
    | copy h4 _ => rw [ha] at h4; cases h4
    | back h4 _ => rw [ha] at h4; cases h4
  | copy k q q' k' hpc ha =>
    right
    rcases s with ⟨cs, regs, loc, pc⟩
    dsimp only at hpc
    subst hpc
    obtain ⟨f, i, ρ, o, d, j, ρ', rfl, h1, h2, hi, h3⟩ := hs
    cases h1 with
    | ret h4 => rw [ha] at h4; cases h4
    | next h4 _ => rw [ha] at h4; cases h4
    | mark h4 h5 => rw [ha] at h4; cases h4
    | copy h4 h5 =>
      rw [ha] at h4
      cases h4
      rename_i f
      exact ⟨2 * f, by omega, f, i, _, o, d, j, ρ', rfl, h5, h2, hi, h3.update (h3 q')⟩
    | back h4 _ => rw [ha] at h4; cases h4
  | back k q k' t hpc ha ht =>
    right
    rcases s with ⟨cs, regs, loc, pc⟩
    dsimp only at hpc ht
    subst hpc
    obtain ⟨f, i, ρ, o, d, j, ρ', rfl, h1, h2, hi, h3⟩ := hs
    cases h1 with
    | ret h4 => rw [ha] at h4; cases h4
    | next h4 _ => rw [ha] at h4; cases h4
    | mark h4 _ => rw [ha] at h4; cases h4
    | copy h4 _ => rw [ha] at h4; cases h4
    | back h4 h5 =>
      rw [ha] at h4
      cases h4
      rename_i f
      exact ⟨2 * f + 1, by omega, f, ρ q, ρ, o, d, j, ρ', rfl, h5, h2, h.setCall hi (h3 q) ht, h3⟩
  | rewound k t hpc ht =>
    right
    rcases s with ⟨cs, regs, loc, pc⟩
    dsimp only at hpc ht
    subst hpc
    obtain ⟨f, i, ρ, o, d, j, ρ', rfl, h1, h2, hi, h3⟩ := hs
    exact ⟨2 * f, by omega, f, i, ρ, o, d, j, ρ', rfl, h1, h2, h.setRet hi ht, h3⟩
  | setPar e t hpc ht =>
    right
    rcases s with ⟨cs, regs, loc, pc⟩
    dsimp only at hpc ht
    subst hpc
    obtain ⟨hm, f, q, ρ, o, d, j, ρ', rfl, h1, h2, hi, h3⟩ := hs
    exact ⟨2 * f + 1, by omega, hm, f, ρ, o, d, j, ρ', rfl, h1, h2, h.setCall hi (h3 0) ht, h3⟩
  | setBack e t hpc ht =>
    right
    rcases s with ⟨cs, regs, loc, pc⟩
    dsimp only at hpc ht
    subst hpc
    obtain ⟨rfl, f, ρ, o, d, j, ρ', rfl, h1, h2, hi, h3⟩ := hs
    exact ⟨2 * f, by omega, f, _, ρ, o, d, j, ρ', rfl, h1, h2, h.setRet hi ht, h3⟩

theorem anInv_run_live (h : Follows c x I K) {n m w} {s : AnState T c} (hs : AnInv x y I K At n m w s) (hm : m ≠ .idle) :
    (∃ t, AnStep T c s t) ∨ ∃ k o d, s.pc = .run k ∧ T.act k = .ret o d := by
  rcases s with ⟨cs, regs, loc, pc⟩
  cases pc with
  | idle => exact absurd hs.1 hm
  | run k =>
    obtain ⟨f, i, ρ, o, d, j, ρ', rfl, h1, h2, hi, h3⟩ := hs
    cases ha : T.act k with
    | ret o d => exact Or.inr ⟨k, o, d, rfl, ha⟩
    | next =>
      obtain ⟨t, ht⟩ := h.canCall hi
      exact Or.inl ⟨_, .ask _ k t rfl ha ht⟩
    | mark q k' => exact Or.inl ⟨_, .mark _ k q k' rfl ha⟩
    | copy q q' k' => exact Or.inl ⟨_, .copy _ k q q' k' rfl ha⟩
    | back q k' =>
      obtain ⟨t, ht⟩ := h.canSet hi (h3 q)
      exact Or.inl ⟨_, .back _ k q k' t rfl ha ht⟩
  | wait k =>
    obtain ⟨f, i, ρ, o, d, j, ρ', rfl, h1, h2, hi, h3⟩ := hs
    rcases h.live hi with ⟨t, ht⟩ | ⟨r, t, ht⟩
    · exact Or.inl ⟨_, .below _ t ht⟩
    · exact Or.inl ⟨_, .got _ k r t rfl ht⟩
  | rewind k =>
    obtain ⟨f, i, ρ, o, d, j, ρ', rfl, h1, h2, hi, h3⟩ := hs
    rcases h.liveSet hi with ⟨t, ht⟩ | ⟨t, ht⟩
    · exact Or.inl ⟨_, .below _ t ht⟩
    · exact Or.inl ⟨_, .rewound _ k t rfl ht⟩
  | setPar e =>
    obtain ⟨-, f, q, ρ, o, d, j, ρ', rfl, h1, h2, hi, h3⟩ := hs
    obtain ⟨t, ht⟩ := h.canSet hi (h3 0)
    exact Or.inl ⟨_, .setPar _ e t rfl ht⟩
  | setting e =>
    obtain ⟨-, f, ρ, o, d, j, ρ', rfl, h1, h2, hi, h3⟩ := hs
    rcases h.liveSet hi with ⟨t, ht⟩ | ⟨t, ht⟩
    · exact Or.inl ⟨_, .below _ t ht⟩
    · exact Or.inl ⟨_, .setBack _ e t rfl ht⟩

theorem anInv_idle {n w} {s : AnState T c} (hs : AnInv x y I K At n .idle w s) :
    s.pc = .idle ∧ ∃ i ρ, At n i ρ s.loc ∧ I i .idle s.cs ∧ Kept K ρ s.regs := by
  rcases s with ⟨cs, regs, loc, pc⟩
  cases pc with
  | idle => exact ⟨rfl, hs.2.2⟩
  | run k => obtain ⟨f, i, ρ, o, d, j, ρ', -, -, h2, -⟩ := hs; exact h2.elim
  | wait k => obtain ⟨f, i, ρ, o, d, j, ρ', -, -, h2, -⟩ := hs; exact h2.elim
  | rewind k => obtain ⟨f, i, ρ, o, d, j, ρ', -, -, h2, -⟩ := hs; exact h2.elim
  | setPar e => cases hs.1
  | setting e => cases hs.1

theorem anchor_follows (h : Follows c x I K) (hT : AnComputes T x y At) :
    Follows (anchorOver T c) y (fun n m s => ∃ w, AnInv x y I K At n m w s)
      (fun n ck => ∃ i ρ d, At n i ρ d ∧ K (T.saved i ρ) ck.1 ∧ T.pub d = ck.2) := by
  constructor
  · exact ⟨0, rfl, rfl, 0, _, hT.init, (h.get h.init).1, fun _ => (h.get h.init).2⟩
  · rintro n m s t ⟨w, hs⟩ ht
    rcases anInv_step h hs ht with ⟨-, h1⟩ | ⟨w', -, h1⟩
    · exact ⟨w, h1⟩
    · exact ⟨w', h1⟩
  · rintro n s t ⟨w, hs⟩ ⟨hpc, rfl⟩
    obtain ⟨-, i, ρ, h1, hi, hk⟩ := anInv_idle hs
    obtain ⟨f, d, j, ρ', h2, h3⟩ := hT.start h1
    exact ⟨2 * f, f, i, ρ, y n, d, j, ρ', rfl, h2, ⟨rfl, h3⟩, hi, hk⟩
  · rintro n s r t ⟨w, hs⟩ ⟨k, d, hpc, ha, rfl⟩
    rcases s with ⟨cs, regs, loc, pc⟩
    dsimp only at hpc
    subst hpc
    obtain ⟨f, i, ρ, o, d', j, ρ', rfl, h1, h2, hi, h3⟩ := hs
    cases h1 with
    | ret h4 =>
      rw [ha] at h4
      cases h4
      exact ⟨h2.1, 0, rfl, rfl, i, ρ, h2.2, hi, h3⟩
    | next h4 _ => rw [ha] at h4; cases h4
    | mark h4 _ => rw [ha] at h4; cases h4
    | copy h4 _ => rw [ha] at h4; cases h4
    | back h4 _ => rw [ha] at h4; cases h4
  · rintro n s ⟨w, hs⟩
    obtain ⟨hpc, i, ρ, h1, hi, hk⟩ := anInv_idle hs
    rcases s with ⟨cs, regs, loc, pc⟩
    dsimp only at hpc hi hk h1
    subst hpc
    obtain ⟨hg1, hg2⟩ := h.get hi
    refine ⟨⟨0, rfl, rfl, i, ρ, h1, ?_, hk⟩, i, ρ, loc, h1, ?_, rfl⟩
    · show I i .idle (cond T.live (c.get cs).1 cs)
      cases T.live
      · exact hi
      · exact hg1
    · show K (cond T.live i (ρ 0)) (cond T.live (c.get cs).2 (regs 0))
      cases T.live
      · exact hk 0
      · exact hg2
  · rintro n s k ck t ⟨w, hs⟩ ⟨i, ρ, d, h1, h2, h3⟩ ⟨hpc, rfl⟩
    obtain ⟨-, i', ρ', h1', hi', hk'⟩ := anInv_idle hs
    obtain ⟨f, o, e, j, τ, h4, h5⟩ := hT.restore h1 h1'
    rw [h3] at h4
    refine ⟨2 * f + 2, rfl, f, i', Function.update ρ' 0 (T.saved i ρ), o, e, j, τ, rfl, ?_, h5, hi', hk'.update h2⟩
    rw [Function.update_self]
    exact h4
  · rintro n s t ⟨w, hs⟩ ⟨k, o, d, hpc, ha, rfl⟩
    rcases s with ⟨cs, regs, loc, pc⟩
    dsimp only at hpc
    subst hpc
    obtain ⟨f, i, ρ, o', d', j, ρ', rfl, h1, h2, hi, h3⟩ := hs
    cases h1 with
    | ret h4 =>
      rw [ha] at h4
      cases h4
      exact ⟨0, rfl, rfl, i, ρ, h2, hi, h3⟩
    | next h4 _ => rw [ha] at h4; cases h4
    | mark h4 _ => rw [ha] at h4; cases h4
    | copy h4 _ => rw [ha] at h4; cases h4
    | back h4 _ => rw [ha] at h4; cases h4
  · rintro n s ⟨w, hs⟩
    exact ⟨_, (anInv_idle hs).1, rfl⟩
  · rintro n s k ck ⟨w, hs⟩ -
    exact ⟨_, (anInv_idle hs).1, rfl⟩
  · rintro n s ⟨w, hs⟩
    rcases anInv_run_live h hs (by simp) with ht | ⟨k, o, d, h1, h2⟩
    · exact Or.inl ht
    · exact Or.inr ⟨o, _, k, d, h1, h2, rfl⟩
  · rintro n s ⟨w, hs⟩
    rcases anInv_run_live h hs (by simp) with ht | ⟨k, o, d, h1, h2⟩
    · exact Or.inl ht
    · exact Or.inr ⟨_, k, o, d, h1, h2, rfl⟩
  · rintro n m s ⟨w, hs⟩
    exact acc_of_rank (proj := AnState.cs) (R := AnInv x y I K At n m) (anInv_step h) (anInv_acc h) w s hs

end

end Grain
