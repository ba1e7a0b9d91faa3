import Verif.Stack.Multi
import Verif.Stack.Lemmas
/-
Transformations with several inputs: following a stream is preserved.
-/
namespace Grain

/-- One coordinate makes a step. -/
def PiStep {n : Nat} {S : Fin n → Type} (R : (i : Fin n) → S i → S i → Prop) (s t : (i : Fin n) → S i) : Prop :=
  ∃ i u, R i (s i) u ∧ t = Function.update s i u

theorem acc_pi {n : Nat} {S : Fin n → Type} {R : (i : Fin n) → S i → S i → Prop} {s : (i : Fin n) → S i}
    (h : ∀ i, Acc (fun t s => R i s t) (s i)) : Acc (fun t s => PiStep R s t) s := by
  have key : ∀ m, ∀ s : (i : Fin n) → S i, (∀ i, Acc (fun t s => R i s t) (s i)) →
      Acc (fun t s => ∃ i u, i.val < m ∧ R i (s i) u ∧ t = Function.update s i u) s := by
    intro m
    induction m with
    | zero =>
      intro s _
      constructor
      rintro t ⟨i, u, hi, -⟩
      omega
    | succ m ihm =>
      have hupd : ∀ (s : (i : Fin n) → S i), (∀ i, Acc (fun t s => R i s t) (s i)) → ∀ i u, R i (s i) u →
          ∀ k, Acc (fun t s => R k s t) (Function.update s i u k) := by
        intro s hs i u hu k
        by_cases hk : k = i
        · subst hk
          rw [Function.update_self]
          exact (hs k).inv hu
        · rw [Function.update_of_ne hk]
          exact hs k
      by_cases hm : m < n
      · have aux : ∀ a, Acc (fun t s => R ⟨m, hm⟩ s t) a → ∀ s : (i : Fin n) → S i, s ⟨m, hm⟩ = a →
            (∀ i, Acc (fun t s => R i s t) (s i)) →
            Acc (fun t s => ∃ i u, i.val < m + 1 ∧ R i (s i) u ∧ t = Function.update s i u) s := by
          intro a ha
          induction ha with
          | intro a _ ih1 =>
            intro s hsa hs
            have hacc := ihm s hs
            induction hacc with
            | intro s _ ih2 =>
              constructor
              rintro t ⟨i, u, hi, hR, rfl⟩
              by_cases him : i.val < m
              · refine ih2 _ ⟨i, u, him, hR, rfl⟩ ?_ (hupd s hs i u hR)
                rw [Function.update_of_ne (by rintro rfl; simp at him)]
                exact hsa
              · have : i = ⟨m, hm⟩ := Fin.ext (by simp; omega)
                subst this
                exact ih1 u (hsa ▸ hR) _ (Function.update_self ..) (hupd s hs _ u hR)
        intro s hs
        exact aux _ (hs ⟨m, hm⟩) s rfl hs
      · intro s hs
        have := ihm s hs
        refine Subrelation.accessible ?_ this
        rintro t s ⟨i, u, -, h2⟩
        exact ⟨i, u, by omega, h2⟩
  refine Subrelation.accessible ?_ (key n s h)
  rintro t s ⟨i, u, h2⟩
  exact ⟨i, u, i.isLt, h2⟩

/-- As `TrEval`, with the positions of all inputs. -/
inductive MtEval (T : MultiTrans n α β) (x : Fin n → Nat → Option α) :
    Nat → Fin n → T.K → (Fin n → Nat) → Option β → (Fin n → Nat) → T.L → Prop
  | last {i k p r l} : T.resume i k (x i (p i)) = .inr (r, l) →
      MtEval T x 1 i k p r (Function.update p i (nextPos (x i) (p i))) l
  | more {d i k p i' k' r q l} : T.resume i k (x i (p i)) = .inl (i', k') →
      MtEval T x d i' k' (Function.update p i (nextPos (x i) (p i))) r q l → MtEval T x (d + 1) i k p r q l

/-- Over the streams `x` the transformation computes the stream `y`; `At n p l`: when it has returned `n` elements its
inputs may be at the positions `p` and its local state be `l`. -/
structure MultiComputes (T : MultiTrans n α β) (x : Fin n → Nat → Option α) (y : Nat → Option β)
    (At : Nat → (Fin n → Nat) → T.L → Prop) : Prop where
  init : At 0 (fun _ => 0) T.l0
  start : ∀ {m p l}, At m p l →
    (∃ l', T.start l = .inr (y m, l') ∧ At (nextPos y m) p l') ∨
    (∃ i k d q l', T.start l = .inl (i, k) ∧ MtEval T x d i k p (y m) q l' ∧ At (nextPos y m) q l')
  onGet : ∀ {m p l}, At m p l → At m p (T.onGet l)
  sets : ∀ {m p l}, At m p l → At m (fun i => if T.sets l i then p i else 0) l

section
variable {n : Nat} {T : MultiTrans n α β} {c : Fin n → ConcIter α} {x : Fin n → Nat → Option α} {y : Nat → Option β}
  {I : (i : Fin n) → Nat → CMode → (c i).S → Prop} {K : (i : Fin n) → Nat → (c i).C → Prop}
  {At : Nat → (Fin n → Nat) → T.L → Prop}

/-- Input `i` is in a call, the others are idle. -/
def BusyAt (I : (i : Fin n) → Nat → CMode → (c i).S → Prop) (i : Fin n) (m : CMode) (p : Fin n → Nat)
    (cs : (i : Fin n) → (c i).S) : Prop :=
  I i (p i) m (cs i) ∧ ∀ j, j ≠ i → I j (p j) .idle (cs j)

/-- Invariant with a rank. -/
def MtInv (x : Fin n → Nat → Option α) (y : Nat → Option β) (I : (i : Fin n) → Nat → CMode → (c i).S → Prop)
    (K : (i : Fin n) → Nat → (c i).C → Prop) (At : Nat → (Fin n → Nat) → T.L → Prop) (m : Nat) (md : CMode) (w : Nat)
    (s : MtState T c) : Prop :=
  match s.pc, md with
  | .idle, .idle => w = 0 ∧ ∃ p : Fin n → Nat, At m p s.loc ∧ ∀ i, I i (p i) .idle (s.cs i)
  | .done r, .next => w = 0 ∧ r = y m ∧ ∃ p : Fin n → Nat, At (nextPos y m) p s.loc ∧ ∀ i, I i (p i) .idle (s.cs i)
  | .ask i k, .next => ∃ (d : Nat) (p q : Fin n → Nat) (l : T.L), w = 2 * d + 1 ∧ MtEval T x d i k p (y m) q l ∧ At (nextPos y m) q l ∧
      ∀ i, I i (p i) .idle (s.cs i)
  | .wait i k, .next => ∃ (d : Nat) (p q : Fin n → Nat) (l : T.L), w = 2 * d ∧ MtEval T x d i k p (y m) q l ∧ At (nextPos y m) q l ∧ BusyAt I i .next p s.cs
  | .setPar j ck, .set => w = 2 * (n - j) + 1 ∧ j ≤ n ∧ ∃ p q : Fin n → Nat, At m p s.loc ∧ (∀ i, T.sets s.loc i = true → K i (p i) (ck i)) ∧
      (∀ i, I i (q i) .idle (s.cs i)) ∧ ∀ i, (i.val < j ∨ T.sets s.loc i = false) → q i = p i
  | .setting i ck, .set => w = 2 * (n - i.val) ∧ ∃ p q : Fin n → Nat, At m p s.loc ∧ (∀ i, T.sets s.loc i = true → K i (p i) (ck i)) ∧
      BusyAt I i .set q s.cs ∧ ∀ k, (k.val ≤ i.val ∨ T.sets s.loc k = false) → q k = p k
  | .setDone, .set => w = 0 ∧ ∃ p : Fin n → Nat, At m p s.loc ∧ ∀ i, I i (p i) .idle (s.cs i)
  | _, _ => False

theorem allIdle_update {p : Fin n → Nat} {cs : (i : Fin n) → (c i).S} (h : ∀ j, I j (p j) .idle (cs j)) {i : Fin n} {e : Nat}
    {u : (c i).S} (hu : I i e .idle u) :
    ∀ j, I j (Function.update p i e j) .idle (Function.update cs i u j) := by
  intro j
  by_cases hj : j = i
  · subst hj
    rw [Function.update_self, Function.update_self]
    exact hu
  · rw [Function.update_of_ne hj, Function.update_of_ne hj]
    exact h j

theorem busyAt_of {p : Fin n → Nat} {cs : (i : Fin n) → (c i).S} (h : ∀ j, I j (p j) .idle (cs j)) {i : Fin n} {e : Nat}
    {m : CMode} {u : (c i).S} (hu : I i e m u) : BusyAt I i m (Function.update p i e) (Function.update cs i u) := by
  refine ⟨?_, ?_⟩
  · rw [Function.update_self, Function.update_self]
    exact hu
  · intro j hj
    rw [Function.update_of_ne hj, Function.update_of_ne hj]
    exact h j

theorem BusyAt.leave {p : Fin n → Nat} {cs : (i : Fin n) → (c i).S} {i : Fin n} {m : CMode} (h : BusyAt I i m p cs) {e : Nat}
    {u : (c i).S} (hu : I i e .idle u) :
    ∀ j, I j (Function.update p i e j) .idle (Function.update cs i u j) := by
  intro j
  by_cases hj : j = i
  · subst hj
    rw [Function.update_self, Function.update_self]
    exact hu
  · rw [Function.update_of_ne hj, Function.update_of_ne hj]
    exact h.2 j hj

theorem allIdle_below (h : ∀ i, Follows (c i) (x i) (I i) (K i)) {p : Fin n → Nat} {cs : (i : Fin n) → (c i).S}
    (hI : ∀ j, I j (p j) .idle (cs j)) {i : Fin n} {u : (c i).S} (hu : (c i).step (cs i) u) :
    ∀ j, I j (p j) .idle (Function.update cs i u j) := by
  have := allIdle_update hI ((h i).step (hI i) hu)
  simpa using this

theorem BusyAt.below (h : ∀ i, Follows (c i) (x i) (I i) (K i)) {p : Fin n → Nat} {cs : (i : Fin n) → (c i).S} {k : Fin n}
    {m : CMode} (hI : BusyAt I k m p cs) {i : Fin n} {u : (c i).S} (hu : (c i).step (cs i) u) :
    BusyAt I k m p (Function.update cs i u) := by
  constructor
  · by_cases hk : k = i
    · subst hk
      rw [Function.update_self]
      exact (h k).step hI.1 hu
    · rw [Function.update_of_ne hk]
      exact hI.1
  · intro j hj
    by_cases hk : j = i
    · subst hk
      rw [Function.update_self]
      exact (h j).step (hI.2 j hj) hu
    · rw [Function.update_of_ne hk]
      exact hI.2 j hj

theorem BusyAt.acc (h : ∀ i, Follows (c i) (x i) (I i) (K i)) {p : Fin n → Nat} {cs : (i : Fin n) → (c i).S} {k : Fin n}
    {m : CMode} (hI : BusyAt I k m p cs) : Acc (fun t s => PiStep (fun i => (c i).step) s t) cs := by
  refine acc_pi fun i => ?_
  by_cases hk : i = k
  · subst hk
    exact (h i).acc hI.1
  · exact (h i).acc (hI.2 i hk)

theorem allIdle_acc (h : ∀ i, Follows (c i) (x i) (I i) (K i)) {p : Fin n → Nat} {cs : (i : Fin n) → (c i).S}
    (hI : ∀ j, I j (p j) .idle (cs j)) : Acc (fun t s => PiStep (fun i => (c i).step) s t) cs :=
  acc_pi fun i => (h i).acc (hI i)

theorem mtInv_acc (h : ∀ i, Follows (c i) (x i) (I i) (K i)) {m md w} {s : MtState T c} (hs : MtInv x y I K At m md w s) :
    Acc (fun t s => PiStep (fun i => (c i).step) s t) s.cs := by
  revert hs
  rcases s with ⟨cs, loc, pc⟩
  cases pc <;> cases md <;> simp only [MtInv, false_imp_iff, implies_true] <;> intro hs
  · obtain ⟨-, p, -, hp⟩ := hs; exact allIdle_acc h hp
  · obtain ⟨d, p, q, l, -, -, -, hp⟩ := hs; exact allIdle_acc h hp
  · obtain ⟨d, p, q, l, -, -, -, hp⟩ := hs; exact hp.acc h
  · obtain ⟨-, -, p, -, hp⟩ := hs; exact allIdle_acc h hp
  · obtain ⟨-, -, p, q, -, -, hq, -⟩ := hs; exact allIdle_acc h hq
  · obtain ⟨-, p, q, -, -, hq, -⟩ := hs; exact hq.acc h
  · obtain ⟨-, p, -, hp⟩ := hs; exact allIdle_acc h hp

theorem mtInv_below (h : ∀ i, Follows (c i) (x i) (I i) (K i)) {m md w} {s : MtState T c} (hs : MtInv x y I K At m md w s)
    {i : Fin n} {t : (c i).S} (ht : (c i).step (s.cs i) t) :
    MtInv x y I K At m md w { s with cs := Function.update s.cs i t } := by
  revert hs
  rcases s with ⟨cs, loc, pc⟩
  dsimp only at ht ⊢
  cases pc <;> cases md <;> simp only [MtInv, false_imp_iff, implies_true] <;> intro hs
  · obtain ⟨h0, p, h1, hp⟩ := hs; exact ⟨h0, p, h1, allIdle_below h hp ht⟩
  · obtain ⟨d, p, q, l, h0, h1, h2, hp⟩ := hs; exact ⟨d, p, q, l, h0, h1, h2, allIdle_below h hp ht⟩
  · obtain ⟨d, p, q, l, h0, h1, h2, hp⟩ := hs; exact ⟨d, p, q, l, h0, h1, h2, hp.below h ht⟩
  · obtain ⟨h0, h1, p, h2, hp⟩ := hs; exact ⟨h0, h1, p, h2, allIdle_below h hp ht⟩
  · obtain ⟨h0, h1, p, q, h2, h3, hq, h4⟩ := hs; exact ⟨h0, h1, p, q, h2, h3, allIdle_below h hq ht, h4⟩
  · obtain ⟨h0, p, q, h2, h3, hq, h4⟩ := hs; exact ⟨h0, p, q, h2, h3, hq.below h ht, h4⟩
  · obtain ⟨h0, p, h1, hp⟩ := hs; exact ⟨h0, p, h1, allIdle_below h hp ht⟩

theorem mtInv_step (h : ∀ i, Follows (c i) (x i) (I i) (K i)) {m md w} {s t : MtState T c}
    (hs : MtInv x y I K At m md w s) (ht : MtStep T c s t) :
    (PiStep (fun i => (c i).step) s.cs t.cs ∧ MtInv x y I K At m md w t) ∨ ∃ w', w' < w ∧ MtInv x y I K At m md w' t := by
  cases ht with
  | below i t ht => exact Or.inl ⟨⟨i, t, ht, rfl⟩, mtInv_below h hs ht⟩
  | ask i k t hpc ht =>
    right
    rcases s with ⟨cs, loc, pc⟩
    dsimp only at hpc ht
    subst hpc
    cases md <;> try exact hs.elim
    obtain ⟨d, p, q, l, rfl, h1, h2, hi⟩ := hs
    refine ⟨2 * d, by omega, d, p, q, l, rfl, h1, h2, ?_⟩
    have := busyAt_of hi ((h i).call (hi i) ht)
    simpa using this
  | got i k r t hpc ht =>
    right
    rcases s with ⟨cs, loc, pc⟩
    dsimp only at hpc ht
    subst hpc
    cases md <;> try exact hs.elim
    obtain ⟨d, p, q, l, rfl, h1, h2, hi⟩ := hs
    obtain ⟨rfl, hi'⟩ := (h i).ret hi.1 ht
    have hI := hi.leave hi'
    cases h1 with
    | last h3 =>
      dsimp only
      rw [h3]
      exact ⟨0, by omega, rfl, rfl, _, h2, hI⟩
    | more h3 h4 =>
      dsimp only
      rw [h3]
      rename_i d' i' k'
      exact ⟨2 * d' + 1, by omega, d', _, q, l, rfl, h4, h2, hI⟩
  | setPar i ck t hpc hset ht =>
    right
    rcases s with ⟨cs, loc, pc⟩
    dsimp only at hpc ht hset
    subst hpc
    cases md <;> try exact hs.elim
    obtain ⟨rfl, -, p, q, h1, h2, hq, h3⟩ := hs
    refine ⟨2 * (n - i.val), by omega, rfl, p, Function.update q i (p i), h1, h2, ?_, ?_⟩
    · exact busyAt_of hq ((h i).setCall (hq i) (h2 i hset) ht)
    · intro k hk
      by_cases hki : k = i
      · subst hki
        exact Function.update_self ..
      · rw [Function.update_of_ne hki]
        refine h3 k ?_
        have : k.val ≠ i.val := fun e => hki (Fin.ext e)
        rcases hk with hk | hk
        · exact Or.inl (by omega)
        · exact Or.inr hk
  | setSkip i ck hpc hset =>
    right
    rcases s with ⟨cs, loc, pc⟩
    dsimp only at hpc hset
    subst hpc
    cases md <;> try exact hs.elim
    obtain ⟨rfl, -, p, q, h1, h2, hq, h3⟩ := hs
    have hi := i.isLt
    refine ⟨2 * (n - (i.val + 1)) + 1, by omega, rfl, by omega, p, q, h1, h2, hq, ?_⟩
    intro k hk
    by_cases hki : k = i
    · subst hki
      exact h3 k (Or.inr hset)
    · refine h3 k ?_
      have : k.val ≠ i.val := fun e => hki (Fin.ext e)
      rcases hk with hk | hk
      · exact Or.inl (by omega)
      · exact Or.inr hk
  | setBack i ck t hpc ht =>
    right
    rcases s with ⟨cs, loc, pc⟩
    dsimp only at hpc ht
    subst hpc
    cases md <;> try exact hs.elim
    obtain ⟨rfl, p, q, h1, h2, hq, h3⟩ := hs
    have hi := i.isLt
    refine ⟨2 * (n - (i.val + 1)) + 1, by omega, rfl, by omega, p, q, h1, h2, ?_, ?_⟩
    · have := hq.leave ((h i).setRet hq.1 ht)
      simpa using this
    · intro k hk
      refine h3 k ?_
      rcases hk with hk | hk
      · exact Or.inl (by omega)
      · exact Or.inr hk
  | setEnd ck hpc =>
    right
    rcases s with ⟨cs, loc, pc⟩
    dsimp only at hpc
    subst hpc
    cases md <;> try exact hs.elim
    obtain ⟨rfl, -, p, q, h1, h2, hq, h3⟩ := hs
    refine ⟨0, by omega, rfl, p, h1, ?_⟩
    intro i
    have := hq i
    rw [h3 i (Or.inl i.isLt)] at this
    exact this

theorem multi_follows (h : ∀ i, Follows (c i) (x i) (I i) (K i)) (hT : MultiComputes T x y At) :
    Follows (multiOver T c) y (fun m md s => ∃ w, MtInv x y I K At m md w s)
      (fun m ck => ∃ p, At m p ck.2 ∧ ∀ i, K i (p i) (ck.1 i)) := by
  constructor
  · exact ⟨0, rfl, _, hT.init, fun i => (h i).init⟩
  · rintro m md s t ⟨w, hs⟩ ht
    rcases mtInv_step h hs ht with ⟨-, h1⟩ | ⟨w', -, h1⟩
    · exact ⟨w, h1⟩
    · exact ⟨w', h1⟩
  · rintro m s t ⟨w, hs⟩ ⟨hpc, rfl⟩
    rcases s with ⟨cs, loc, pc⟩
    dsimp only at hpc
    subst hpc
    obtain ⟨rfl, p, h1, hi⟩ := hs
    dsimp only
    rcases hT.start h1 with ⟨l', e1, e2⟩ | ⟨i, k, d, q, l', e1, e2, e3⟩
    · rw [e1]
      exact ⟨0, rfl, rfl, p, e2, hi⟩
    · rw [e1]
      exact ⟨2 * d + 1, d, p, q, l', rfl, e2, e3, hi⟩
  · rintro m s r t ⟨w, hs⟩ ⟨hpc, rfl⟩
    rcases s with ⟨cs, loc, pc⟩
    dsimp only at hpc
    subst hpc
    obtain ⟨rfl, rfl, p, h1, hi⟩ := hs
    exact ⟨rfl, 0, rfl, p, h1, hi⟩
  · rintro m s ⟨w, hs⟩
    rcases s with ⟨cs, loc, pc⟩
    cases pc <;> try exact hs.elim
    obtain ⟨rfl, p, h1, hi⟩ := hs
    exact ⟨⟨0, rfl, p, hT.onGet h1, fun i => ((h i).get (hi i)).1⟩, p, hT.onGet h1, fun i => ((h i).get (hi i)).2⟩
  · rintro m s k ck t ⟨w, hs⟩ ⟨p, h1, h2⟩ ⟨hpc, rfl⟩
    rcases s with ⟨cs, loc, pc⟩
    dsimp only at hpc
    subst hpc
    obtain ⟨rfl, q, h3, hi⟩ := hs
    refine ⟨2 * (n - 0) + 1, rfl, Nat.zero_le _, _, fun i => if T.sets ck.2 i then q i else 0, hT.sets h1, ?_, ?_, ?_⟩
    · intro i hset
      dsimp only at hset ⊢
      rw [if_pos hset]
      exact h2 i
    · intro i
      dsimp only
      split
      · exact hi i
      · exact (h i).init
    · rintro i (hlt | hset)
      · exact absurd hlt (Nat.not_lt_zero _)
      · dsimp only at hset ⊢
        rw [hset]
        rfl
  · rintro m s t ⟨w, hs⟩ ⟨hpc, rfl⟩
    rcases s with ⟨cs, loc, pc⟩
    dsimp only at hpc
    subst hpc
    obtain ⟨rfl, p, h1, hi⟩ := hs
    exact ⟨0, rfl, p, h1, hi⟩
  · rintro m s ⟨w, hs⟩
    rcases s with ⟨cs, loc, pc⟩
    cases pc <;> try exact hs.elim
    exact ⟨_, rfl, rfl⟩
  · rintro m s k ck ⟨w, hs⟩ -
    rcases s with ⟨cs, loc, pc⟩
    cases pc <;> try exact hs.elim
    exact ⟨_, rfl, rfl⟩
  · rintro m s ⟨w, hs⟩
    rcases s with ⟨cs, loc, pc⟩
    cases pc <;> try exact hs.elim
    · obtain ⟨d, p, q, l, rfl, h1, h2, hi⟩ := hs
      rename_i i k
      obtain ⟨t, ht⟩ := (h i).canCall (hi i)
      exact Or.inl ⟨_, .ask _ _ _ t rfl ht⟩
    · obtain ⟨d, p, q, l, rfl, h1, h2, hi⟩ := hs
      rename_i i k
      rcases (h i).live hi.1 with ⟨t, ht⟩ | ⟨r, t, ht⟩
      · exact Or.inl ⟨_, .below _ i t ht⟩
      · exact Or.inl ⟨_, .got _ _ _ r t rfl ht⟩
    · exact Or.inr ⟨_, _, rfl, rfl⟩
  · rintro m s ⟨w, hs⟩
    rcases s with ⟨cs, loc, pc⟩
    cases pc <;> try exact hs.elim
    · obtain ⟨rfl, hj, p, q, h1, h2, hq, h3⟩ := hs
      rename_i j ck
      by_cases hjn : j = n
      · subst hjn
        exact Or.inl ⟨_, .setEnd _ ck rfl⟩
      · cases hset : T.sets loc ⟨j, by omega⟩ with
        | true =>
          obtain ⟨t, ht⟩ := (h ⟨j, by omega⟩).canSet (hq ⟨j, by omega⟩) (h2 ⟨j, by omega⟩ hset)
          exact Or.inl ⟨_, .setPar _ ⟨j, by omega⟩ ck t rfl hset ht⟩
        | false => exact Or.inl ⟨_, .setSkip _ ⟨j, by omega⟩ ck rfl hset⟩
    · obtain ⟨rfl, p, q, h1, h2, hq, h3⟩ := hs
      rename_i i ck
      rcases (h i).liveSet hq.1 with ⟨t, ht⟩ | ⟨t, ht⟩
      · exact Or.inl ⟨_, .below _ i t ht⟩
      · exact Or.inl ⟨_, .setBack _ i ck t rfl ht⟩
    · exact Or.inr ⟨_, rfl, rfl⟩
  · rintro m md s ⟨w, hs⟩
    exact acc_of_rank (proj := MtState.cs) (R := MtInv x y I K At m md) (mtInv_step h) (mtInv_acc h) w s hs

end
end Grain
