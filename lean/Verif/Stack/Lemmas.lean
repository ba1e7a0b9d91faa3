import Verif.Stack.Model
import Mathlib.Tactic.Linarith
/-
A concurrent iterator that reads a stream, and the proof that a user of such an iterator sees the stream.
-/
namespace Grain

/-- The iterator follows the stream `x`: `I n m s` – the object in state `s` is at position `n`, its user is at `m` (in
`next`: `n` is the position before it, in `set_state`: the position being restored); `K n c` – `c` is a checkpoint of
position `n`. -/
structure Follows (c : ConcIter α) (x : Nat → Option α) (I : Nat → CMode → c.S → Prop) (K : Nat → c.C → Prop) :
    Prop where
  init : I 0 .idle c.init
  step : ∀ {n m s t}, I n m s → c.step s t → I n m t
  call : ∀ {n s t}, I n .idle s → c.call s t → I n .next t
  ret : ∀ {n s r t}, I n .next s → c.ret s r t → r = x n ∧ I (nextPos x n) .idle t
  get : ∀ {n s}, I n .idle s → I n .idle (c.get s).1 ∧ K n (c.get s).2
  setCall : ∀ {n s k ck t}, I n .idle s → K k ck → c.setCall s ck t → I k .set t
  setRet : ∀ {n s t}, I n .set s → c.setRet s t → I n .idle t
  canCall : ∀ {n s}, I n .idle s → ∃ t, c.call s t
  canSet : ∀ {n s k ck}, I n .idle s → K k ck → ∃ t, c.setCall s ck t
  live : ∀ {n s}, I n .next s → (∃ t, c.step s t) ∨ ∃ r t, c.ret s r t
  liveSet : ∀ {n s}, I n .set s → (∃ t, c.step s t) ∨ ∃ t, c.setRet s t
  acc : ∀ {n m s}, I n m s → Acc (fun t s => c.step s t) s

/-- Some thread always finishes: a rank that only steps of the layer below leave unchanged. -/
theorem acc_of_rank {S CS : Type} {step : S → S → Prop} {cstep : CS → CS → Prop} {proj : S → CS} {R : Nat → S → Prop}
    (hstep : ∀ {w s t}, R w s → step s t → (cstep (proj s) (proj t) ∧ R w t) ∨ ∃ w', w' < w ∧ R w' t)
    (hacc : ∀ {w s}, R w s → Acc (fun t s => cstep s t) (proj s)) :
    ∀ w s, R w s → Acc (fun t s => step s t) s := by
  intro w
  induction w using Nat.strong_induction_on with
  | _ w ih =>
    have aux : ∀ cs, Acc (fun t s => cstep s t) cs → ∀ s, proj s = cs → R w s → Acc (fun t s => step s t) s := by
      intro cs h
      induction h with
      | intro cs _ ih' =>
        rintro s rfl hR
        constructor
        intro t ht
        rcases hstep hR ht with ⟨h1, h2⟩ | ⟨w', hw, h2⟩
        · exact ih' _ h1 t rfl h2
        · exact ih w' hw t h2
    intro s hR
    exact aux _ (hacc hR) s rfl hR

/-! ### Iterators without threads -/

theorem ofIter_sim {p : Iter α} {x : Nat → Option α} {At : p.S → Nat → Prop} {Ck : p.C → Nat → Prop}
    (h : SimStream p (fun n => (x n).map .ok) At Ck) :
    Follows (ofIter p) x (fun n m s => match m with
      | .idle => At s.1 n ∧ s.2 = none
      | .next => At s.1 n ∧ s.2 = some none
      | .set => ∃ k ck, At s.1 k ∧ Ck ck n ∧ s.2 = some (some ck)) (fun n ck => Ck ck n) := by
  have hpos : ∀ n, streamPos (fun n => (x n).map Except.ok) n = nextPos x n := by
    intro n
    cases hx : x n <;> simp [streamPos, nextPos, hx]
  have hres : ∀ n, streamRes (fun n => (x n).map Except.ok) n = (match x n with | some a => .item a | none => .stop) := by
    intro n
    cases hx : x n <;> simp [streamRes, hx, toRes]
  constructor
  · exact ⟨h.init, rfl⟩
  · intro n m s t _ ht
    exact ht.elim
  · rintro n s t ⟨h1, -⟩ ⟨-, rfl⟩
    exact ⟨h1, rfl⟩
  · rintro n s r t ⟨h1, -⟩ ⟨-, h2, h3⟩
    obtain ⟨s', e1, e2⟩ := h.next h1
    have := Ev.const (e1.mono₂ h3 (fun F a b => by rw [a] at b; exact b))
    rw [hres] at this
    rw [hpos] at e2
    simp only [Option.some.injEq, Prod.mk.injEq] at this
    obtain ⟨rfl, hr⟩ := this
    refine ⟨?_, e2, h2⟩
    revert hr
    cases hx : x n <;> cases r <;> simp
    exact fun h => h.symm
  · rintro n s ⟨h1, h2⟩
    exact ⟨⟨(h.get h1).1, h2⟩, (h.get h1).2⟩
  · rintro n s k ck t ⟨h1, -⟩ hk ⟨-, rfl⟩
    exact ⟨n, ck, h1, hk, rfl⟩
  · rintro n s t ⟨k, ck, h1, h2, h3⟩ ⟨ck', h4, h5, h6⟩
    rw [h3] at h4
    simp only [Option.some.injEq] at h4
    subst h4
    obtain ⟨s', e1, e2⟩ := h.set h1 h2
    have := Ev.const (e1.mono₂ h6 (fun F a b => by rw [a] at b; exact b))
    simp only [Option.some.injEq, Prod.mk.injEq, and_true] at this
    subst this
    exact ⟨e2, h5⟩
  · rintro n s ⟨-, h2⟩
    exact ⟨_, h2, rfl⟩
  · rintro n s k ck ⟨-, h2⟩ -
    exact ⟨_, h2, rfl⟩
  · rintro n s ⟨h1, h2⟩
    obtain ⟨s', e1, -⟩ := h.next h1
    rw [hres] at e1
    exact Or.inr ⟨x n, (s', none), h2, rfl, e1⟩
  · rintro n s ⟨k, ck, h1, h2, h3⟩
    obtain ⟨s', e1, -⟩ := h.set h1 h2
    exact Or.inr ⟨(s', none), ck, h3, rfl, e1⟩
  · intro n m s _
    exact ⟨_, fun t ht => ht.elim⟩

theorem ofIter_follows {p : Iter α} {x : Nat → Option α} (hp : ResumesStream p (fun n => (x n).map .ok)) :
    ∃ I K, Follows (ofIter p) x I K := by
  obtain ⟨At, Ck, h⟩ := hp
  exact ⟨_, _, ofIter_sim h⟩

/-! ### Transformations without threads -/

/-- The call of a transformation that is at `k` and whose parent is at position `i` returns `r` after `d` reads of its
parent, which is then at `j`; the local state is then `l`. -/
inductive TrEval (T : Trans α β) (x : Nat → Option α) : Nat → T.K → Nat → Option β → Nat → T.L → Prop
  | last {k i r l} : T.resume k (x i) = .inr (r, l) → TrEval T x 1 k i r (nextPos x i) l
  | more {d k i k' r j l} : T.resume k (x i) = .inl k' → TrEval T x d k' (nextPos x i) r j l → TrEval T x (d + 1) k i r j l

/-- Over the stream `x` the transformation computes the stream `y`; `At n i l`: when it has returned `n` elements its
parent may be at `i` and its local state be `l`. -/
structure Computes (T : Trans α β) (x : Nat → Option α) (y : Nat → Option β) (At : Nat → Nat → T.L → Prop) : Prop where
  init : At 0 0 T.l0
  start : ∀ {n i l}, At n i l →
    (∃ l', T.start l = .inr (y n, l') ∧ At (nextPos y n) i l') ∨
    (∃ k d j l', T.start l = .inl k ∧ TrEval T x d k i (y n) j l' ∧ At (nextPos y n) j l')

section
variable {T : Trans α β} {c : ConcIter α} {x : Nat → Option α} {y : Nat → Option β} {I : Nat → CMode → c.S → Prop}
  {K : Nat → c.C → Prop} {At : Nat → Nat → T.L → Prop}

/-- Invariant with a rank. -/
def TrInv (x : Nat → Option α) (y : Nat → Option β) (I : Nat → CMode → c.S → Prop) (K : Nat → c.C → Prop)
    (At : Nat → Nat → T.L → Prop) (n : Nat) (m : CMode) (w : Nat) (s : TrState T c) : Prop :=
  match s.pc, m with
  | .idle, .idle => w = 0 ∧ ∃ i, At n i s.loc ∧ I i .idle s.cs
  | .done r, .next => w = 0 ∧ r = y n ∧ ∃ i, At (nextPos y n) i s.loc ∧ I i .idle s.cs
  | .ask k, .next => ∃ d i j l, w = 2 * d + 1 ∧ TrEval T x d k i (y n) j l ∧ At (nextPos y n) j l ∧ I i .idle s.cs
  | .wait k, .next => ∃ d i j l, w = 2 * d ∧ TrEval T x d k i (y n) j l ∧ At (nextPos y n) j l ∧ I i .next s.cs
  | .setPar ck, .set => w = 1 ∧ ∃ i e, At n i s.loc ∧ K i ck ∧ I e .idle s.cs
  | .setting, .set => w = 0 ∧ ∃ i, At n i s.loc ∧ I i .set s.cs
  | _, _ => False

theorem trInv_acc (h : Follows c x I K) {n m w} {s : TrState T c} (hs : TrInv x y I K At n m w s) :
    Acc (fun t s => c.step s t) s.cs := by
  revert hs
  rcases s with ⟨cs, loc, pc⟩
  cases pc <;> cases m <;> simp only [TrInv, false_imp_iff, implies_true] <;> intro hs
  · obtain ⟨-, i, -, hi⟩ := hs; exact h.acc hi
  · obtain ⟨d, i, j, l, -, -, -, hi⟩ := hs; exact h.acc hi
  · obtain ⟨d, i, j, l, -, -, -, hi⟩ := hs; exact h.acc hi
  · obtain ⟨-, -, i, -, hi⟩ := hs; exact h.acc hi
  · obtain ⟨-, i, e, -, -, hi⟩ := hs; exact h.acc hi
  · obtain ⟨-, i, -, hi⟩ := hs; exact h.acc hi

theorem trInv_below (h : Follows c x I K) {n m w} {s : TrState T c} (hs : TrInv x y I K At n m w s) {t : c.S}
    (ht : c.step s.cs t) : TrInv x y I K At n m w { s with cs := t } := by
  revert hs
  rcases s with ⟨cs, loc, pc⟩
  dsimp only at ht ⊢
  cases pc <;> cases m <;> simp only [TrInv, false_imp_iff, implies_true] <;> intro hs
  · obtain ⟨h0, i, h1, hi⟩ := hs; exact ⟨h0, i, h1, h.step hi ht⟩
  · obtain ⟨d, i, j, l, h0, h1, h2, hi⟩ := hs; exact ⟨d, i, j, l, h0, h1, h2, h.step hi ht⟩
  · obtain ⟨d, i, j, l, h0, h1, h2, hi⟩ := hs; exact ⟨d, i, j, l, h0, h1, h2, h.step hi ht⟩
  · obtain ⟨h0, h1, i, h2, hi⟩ := hs; exact ⟨h0, h1, i, h2, h.step hi ht⟩
  · obtain ⟨h0, i, e, h1, h2, hi⟩ := hs; exact ⟨h0, i, e, h1, h2, h.step hi ht⟩
  · obtain ⟨h0, i, h1, hi⟩ := hs; exact ⟨h0, i, h1, h.step hi ht⟩

theorem trInv_step (h : Follows c x I K) {n m w} {s t : TrState T c}
    (hs : TrInv x y I K At n m w s) (ht : TrStep T c s t) :
    (c.step s.cs t.cs ∧ TrInv x y I K At n m w t) ∨ ∃ w', w' < w ∧ TrInv x y I K At n m w' t := by
  cases ht with
  | below t ht => exact Or.inl ⟨ht, trInv_below h hs ht⟩
  | ask k t hpc ht =>
    right
    rcases s with ⟨cs, loc, pc⟩
    dsimp only at hpc ht
    subst hpc
    cases m <;> try exact hs.elim
    obtain ⟨d, i, j, l, rfl, h1, h2, hi⟩ := hs
    exact ⟨2 * d, by omega, d, i, j, l, rfl, h1, h2, h.call hi ht⟩
  | got k r t hpc ht =>
    right
    rcases s with ⟨cs, loc, pc⟩
    dsimp only at hpc ht
    subst hpc
    cases m <;> try exact hs.elim
    obtain ⟨d, i, j, l, rfl, h1, h2, hi⟩ := hs
    obtain ⟨rfl, hi'⟩ := h.ret hi ht
    cases h1 with
    | last h3 =>
      dsimp only
      rw [h3]
      exact ⟨0, by omega, rfl, rfl, _, h2, hi'⟩
    | more h3 h4 =>
      dsimp only
      rw [h3]
      rename_i d' k'
      exact ⟨2 * d' + 1, by omega, d', _, j, l, rfl, h4, h2, hi'⟩
  | setPar ck t hpc ht =>
    right
    rcases s with ⟨cs, loc, pc⟩
    dsimp only at hpc ht
    subst hpc
    cases m <;> try exact hs.elim
    obtain ⟨rfl, i, e, h1, h2, hi⟩ := hs
    exact ⟨0, by omega, rfl, i, h1, h.setCall hi h2 ht⟩

theorem trans_follows (h : Follows c x I K) (hT : Computes T x y At) :
    Follows (transOver T c) y (fun n m s => ∃ w, TrInv x y I K At n m w s)
      (fun n ck => ∃ i, At n i ck.2 ∧ K i ck.1) := by
  constructor
  · exact ⟨0, rfl, 0, hT.init, h.init⟩
  · rintro n m s t ⟨w, hs⟩ ht
    rcases trInv_step h hs ht with ⟨-, h1⟩ | ⟨w', -, h1⟩
    · exact ⟨w, h1⟩
    · exact ⟨w', h1⟩
  · rintro n s t ⟨w, hs⟩ ⟨hpc, rfl⟩
    rcases s with ⟨cs, loc, pc⟩
    dsimp only at hpc
    subst hpc
    obtain ⟨rfl, i, h1, hi⟩ := hs
    dsimp only
    rcases hT.start h1 with ⟨l', e1, e2⟩ | ⟨k, d, j, l', e1, e2, e3⟩
    · rw [e1]
      exact ⟨0, rfl, rfl, i, e2, hi⟩
    · rw [e1]
      exact ⟨2 * d + 1, d, i, j, l', rfl, e2, e3, hi⟩
  · rintro n s r t ⟨w, hs⟩ ⟨hpc, rfl⟩
    rcases s with ⟨cs, loc, pc⟩
    dsimp only at hpc
    subst hpc
    obtain ⟨rfl, rfl, i, h1, hi⟩ := hs
    exact ⟨rfl, 0, rfl, i, h1, hi⟩
  · rintro n s ⟨w, hs⟩
    rcases s with ⟨cs, loc, pc⟩
    cases pc <;> try exact hs.elim
    obtain ⟨rfl, i, h1, hi⟩ := hs
    exact ⟨⟨0, rfl, i, h1, (h.get hi).1⟩, i, h1, (h.get hi).2⟩
  · rintro n s k ck t ⟨w, hs⟩ ⟨i, h1, h2⟩ ⟨hpc, rfl⟩
    rcases s with ⟨cs, loc, pc⟩
    dsimp only at hpc
    subst hpc
    obtain ⟨rfl, e, h3, hi⟩ := hs
    exact ⟨1, rfl, i, e, h1, h2, hi⟩
  · rintro n s t ⟨w, hs⟩ ⟨hpc, u, hu, rfl⟩
    rcases s with ⟨cs, loc, pc⟩
    dsimp only at hpc
    subst hpc
    obtain ⟨rfl, i, h1, hi⟩ := hs
    exact ⟨0, rfl, i, h1, h.setRet hi hu⟩
  · rintro n s ⟨w, hs⟩
    rcases s with ⟨cs, loc, pc⟩
    cases pc <;> try exact hs.elim
    exact ⟨_, rfl, rfl⟩
  · rintro n s k ck ⟨w, hs⟩ -
    rcases s with ⟨cs, loc, pc⟩
    cases pc <;> try exact hs.elim
    exact ⟨_, rfl, rfl⟩
  · rintro n s ⟨w, hs⟩
    rcases s with ⟨cs, loc, pc⟩
    cases pc <;> try exact hs.elim
    · obtain ⟨d, i, j, l, rfl, h1, h2, hi⟩ := hs
      obtain ⟨t, ht⟩ := h.canCall hi
      exact Or.inl ⟨_, .ask _ _ t rfl ht⟩
    · obtain ⟨d, i, j, l, rfl, h1, h2, hi⟩ := hs
      rcases h.live hi with ⟨t, ht⟩ | ⟨r, t, ht⟩
      · exact Or.inl ⟨_, .below _ t ht⟩
      · exact Or.inl ⟨_, .got _ _ r t rfl ht⟩
    · exact Or.inr ⟨_, _, rfl, rfl⟩
  · rintro n s ⟨w, hs⟩
    rcases s with ⟨cs, loc, pc⟩
    cases pc <;> try exact hs.elim
    · obtain ⟨rfl, i, e, h1, h2, hi⟩ := hs
      obtain ⟨t, ht⟩ := h.canSet hi h2
      exact Or.inl ⟨_, .setPar _ _ t rfl ht⟩
    · obtain ⟨rfl, i, h1, hi⟩ := hs
      rcases h.liveSet hi with ⟨t, ht⟩ | ⟨t, ht⟩
      · exact Or.inl ⟨_, .below _ t ht⟩
      · exact Or.inr ⟨_, rfl, t, ht, rfl⟩
  · rintro n m s ⟨w, hs⟩
    exact acc_of_rank (proj := TrState.cs) (R := TrInv x y I K At n m) (trInv_step h) (trInv_acc h) w s hs

end

end Grain
