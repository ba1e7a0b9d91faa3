import Verif.Stack.MultiLemmas
import Verif.Stack.RaiseMain
import Verif.Stack.RaiseMulti
/-
Transformations with several inputs whose elements may raise: following a stream of outcomes is preserved.
-/
namespace Grain
namespace Raise

/-- As `Grain.MultiComputes`.  If inputs that are restored lag, so does the transformation. -/
structure MultiComputes (T : MultiTrans n (Py α) (Py β)) (x : Fin n → Nat → Option (Py α)) (y : Nat → Option (Py β))
    (At : Nat → (Fin n → Nat) → T.L → Prop) : Prop where
  init : At 0 (fun _ => 0) T.l0
  start : ∀ {m p l}, At m p l →
    (∃ l', T.start l = .inr (y m, l') ∧ At (nextPos y m) p l') ∨
    (∃ i k d q l', T.start l = .inl (i, k) ∧ MtEval T x d i k p (y m) q l' ∧ At (nextPos y m) q l')
  onGet : ∀ {m p l}, At m p l → At m p (T.onGet l)
  lag : ∀ {m p l} {k : Fin n → Nat}, At m p l → (∀ i, Lagging (x i) (k i) (p i)) → ∃ m', Lagging y m' m ∧ At m' k (T.onGet l)
  sets : ∀ {m p l}, At m p l → At m (fun i => if T.sets l i then p i else 0) l

section
variable {n : Nat} {T : MultiTrans n (Py α) (Py β)} {c : Fin n → ConcIter (Py α)} {x : Fin n → Nat → Option (Py α)}
  {y : Nat → Option (Py β)}
  {I : (i : Fin n) → Nat → CMode → (c i).S → Prop} {K : (i : Fin n) → Nat → (c i).C → Prop}
  {At : Nat → (Fin n → Nat) → T.L → Prop}

theorem allIdle_below (h : ∀ i, Follows (c i) (x i) (I i) (K i)) {p : Fin n → Nat} {cs : (i : Fin n) → (c i).S}
    (hI : ∀ j, I j (p j) .idle (cs j)) {i : Fin n} {u : (c i).S} (hu : (c i).step (cs i) u) :
    ∀ j, I j (p j) .idle (Function.update cs i u j) := by
  have := allIdle_update hI ((h i).step (hI i) hu)
  simpa using this

theorem busyAt_below (h : ∀ i, Follows (c i) (x i) (I i) (K i)) {p : Fin n → Nat} {cs : (i : Fin n) → (c i).S} {k : Fin n}
    {m : CMode} (hI : BusyAt I k m p cs) {i : Fin n} {u : (c i).S} (hu : (c i).step (cs i) u) :
    BusyAt I k m p (Function.update cs i u) := by
  constructor
  · by_cases hk : k = i
    · subst hk
      rw [Function.update_self]
      exact (h k).step hI.1 hu
    · rw [Function.update_of_ne hk]
      exact hI.1
  · intro j hj
    by_cases hk : j = i
    · subst hk
      rw [Function.update_self]
      exact (h j).step (hI.2 j hj) hu
    · rw [Function.update_of_ne hk]
      exact hI.2 j hj

theorem busyAt_acc (h : ∀ i, Follows (c i) (x i) (I i) (K i)) {p : Fin n → Nat} {cs : (i : Fin n) → (c i).S} {k : Fin n}
    {m : CMode} (hI : BusyAt I k m p cs) : Acc (fun t s => PiStep (fun i => (c i).step) s t) cs := by
  refine acc_pi fun i => ?_
  by_cases hk : i = k
  · subst hk
    exact (h i).acc hI.1
  · exact (h i).acc (hI.2 i hk)

theorem allIdle_acc (h : ∀ i, Follows (c i) (x i) (I i) (K i)) {p : Fin n → Nat} {cs : (i : Fin n) → (c i).S}
    (hI : ∀ j, I j (p j) .idle (cs j)) : Acc (fun t s => PiStep (fun i => (c i).step) s t) cs :=
  acc_pi fun i => (h i).acc (hI i)

theorem mtInv_acc (h : ∀ i, Follows (c i) (x i) (I i) (K i)) {m md w} {s : MtState T c} (hs : MtInv x y I K At m md w s) :
    Acc (fun t s => PiStep (fun i => (c i).step) s t) s.cs := by
  revert hs
  rcases s with ⟨cs, loc, pc⟩
  cases pc <;> cases md <;> simp only [MtInv, false_imp_iff, implies_true] <;> intro hs
  · obtain ⟨-, p, -, hp⟩ := hs; exact allIdle_acc h hp
  · obtain ⟨d, p, q, l, -, -, -, hp⟩ := hs; exact allIdle_acc h hp
  · obtain ⟨d, p, q, l, -, -, -, hp⟩ := hs; exact busyAt_acc h hp
  · obtain ⟨-, -, p, -, hp⟩ := hs; exact allIdle_acc h hp
  · obtain ⟨-, -, p, q, -, -, hq, -⟩ := hs; exact allIdle_acc h hq
  · obtain ⟨-, p, q, -, -, hq, -⟩ := hs; exact busyAt_acc h hq
  · obtain ⟨-, p, -, hp⟩ := hs; exact allIdle_acc h hp

theorem mtInv_below (h : ∀ i, Follows (c i) (x i) (I i) (K i)) {m md w} {s : MtState T c} (hs : MtInv x y I K At m md w s)
    {i : Fin n} {t : (c i).S} (ht : (c i).step (s.cs i) t) :
    MtInv x y I K At m md w { s with cs := Function.update s.cs i t } := by
  revert hs
  rcases s with ⟨cs, loc, pc⟩
  dsimp only at ht ⊢
  cases pc <;> cases md <;> simp only [MtInv, false_imp_iff, implies_true] <;> intro hs
  · obtain ⟨h0, p, h1, hp⟩ := hs; exact ⟨h0, p, h1, allIdle_below h hp ht⟩
  · obtain ⟨d, p, q, l, h0, h1, h2, hp⟩ := hs; exact ⟨d, p, q, l, h0, h1, h2, allIdle_below h hp ht⟩
  · obtain ⟨d, p, q, l, h0, h1, h2, hp⟩ := hs; exact ⟨d, p, q, l, h0, h1, h2, busyAt_below h hp ht⟩
  · obtain ⟨h0, h1, p, h2, hp⟩ := hs; exact ⟨h0, h1, p, h2, allIdle_below h hp ht⟩
  · obtain ⟨h0, h1, p, q, h2, h3, hq, h4⟩ := hs; exact ⟨h0, h1, p, q, h2, h3, allIdle_below h hq ht, h4⟩
  · obtain ⟨h0, p, q, h2, h3, hq, h4⟩ := hs; exact ⟨h0, p, q, h2, h3, busyAt_below h hq ht, h4⟩
  · obtain ⟨h0, p, h1, hp⟩ := hs; exact ⟨h0, p, h1, allIdle_below h hp ht⟩

theorem mtInv_step (h : ∀ i, Follows (c i) (x i) (I i) (K i)) {m md w} {s t : MtState T c}
    (hs : MtInv x y I K At m md w s) (ht : MtStep T c s t) :
    (PiStep (fun i => (c i).step) s.cs t.cs ∧ MtInv x y I K At m md w t) ∨ ∃ w', w' < w ∧ MtInv x y I K At m md w' t := by
  cases ht with
  | below i t ht => exact Or.inl ⟨⟨i, t, ht, rfl⟩, mtInv_below h hs ht⟩
  | ask i k t hpc ht =>
    right
    rcases s with ⟨cs, loc, pc⟩
    dsimp only at hpc ht
    subst hpc
    cases md <;> try exact hs.elim
    obtain ⟨d, p, q, l, rfl, h1, h2, hi⟩ := hs
    refine ⟨2 * d, by omega, d, p, q, l, rfl, h1, h2, ?_⟩
    have := busyAt_of hi ((h i).call (hi i) ht)
    simpa using this
  | got i k r t hpc ht =>
    right
    rcases s with ⟨cs, loc, pc⟩
    dsimp only at hpc ht
    subst hpc
    cases md <;> try exact hs.elim
    obtain ⟨d, p, q, l, rfl, h1, h2, hi⟩ := hs
    obtain ⟨rfl, hi'⟩ := (h i).ret hi.1 ht
    have hI := hi.leave hi'
    cases h1 with
    | last h3 =>
      dsimp only
      rw [h3]
      exact ⟨0, by omega, rfl, rfl, _, h2, hI⟩
    | more h3 h4 =>
      dsimp only
      rw [h3]
      rename_i d' i' k'
      exact ⟨2 * d' + 1, by omega, d', _, q, l, rfl, h4, h2, hI⟩
  | setPar i ck t hpc hset ht =>
    right
    rcases s with ⟨cs, loc, pc⟩
    dsimp only at hpc ht hset
    subst hpc
    cases md <;> try exact hs.elim
    obtain ⟨rfl, -, p, q, h1, h2, hq, h3⟩ := hs
    refine ⟨2 * (n - i.val), by omega, rfl, p, Function.update q i (p i), h1, h2, ?_, ?_⟩
    · exact busyAt_of hq ((h i).setCall (hq i) (h2 i hset) ht)
    · intro k hk
      by_cases hki : k = i
      · subst hki
        exact Function.update_self ..
      · rw [Function.update_of_ne hki]
        refine h3 k ?_
        have : k.val ≠ i.val := fun e => hki (Fin.ext e)
        rcases hk with hk | hk
        · exact Or.inl (by omega)
        · exact Or.inr hk
  | setSkip i ck hpc hset =>
    right
    rcases s with ⟨cs, loc, pc⟩
    dsimp only at hpc hset
    subst hpc
    cases md <;> try exact hs.elim
    obtain ⟨rfl, -, p, q, h1, h2, hq, h3⟩ := hs
    have hi := i.isLt
    refine ⟨2 * (n - (i.val + 1)) + 1, by omega, rfl, by omega, p, q, h1, h2, hq, ?_⟩
    intro k hk
    by_cases hki : k = i
    · subst hki
      exact h3 k (Or.inr hset)
    · refine h3 k ?_
      have : k.val ≠ i.val := fun e => hki (Fin.ext e)
      rcases hk with hk | hk
      · exact Or.inl (by omega)
      · exact Or.inr hk
  | setBack i ck t hpc ht =>
    right
    rcases s with ⟨cs, loc, pc⟩
    dsimp only at hpc ht
    subst hpc
    cases md <;> try exact hs.elim
    obtain ⟨rfl, p, q, h1, h2, hq, h3⟩ := hs
    have hi := i.isLt
    refine ⟨2 * (n - (i.val + 1)) + 1, by omega, rfl, by omega, p, q, h1, h2, ?_, ?_⟩
    · have := hq.leave ((h i).setRet hq.1 ht)
      simpa using this
    · intro k hk
      refine h3 k ?_
      rcases hk with hk | hk
      · exact Or.inl (by omega)
      · exact Or.inr hk
  | setEnd ck hpc =>
    right
    rcases s with ⟨cs, loc, pc⟩
    dsimp only at hpc
    subst hpc
    cases md <;> try exact hs.elim
    obtain ⟨rfl, -, p, q, h1, h2, hq, h3⟩ := hs
    refine ⟨0, by omega, rfl, p, h1, ?_⟩
    intro i
    have := hq i
    rw [h3 i (Or.inl i.isLt)] at this
    exact this

theorem multi_follows (h : ∀ i, Follows (c i) (x i) (I i) (K i)) (hT : MultiComputes T x y At) :
    Follows (multiOver T c) y (fun m md s => ∃ w, MtInv x y I K At m md w s)
      (fun m ck => ∃ p, At m p ck.2 ∧ ∀ i, K i (p i) (ck.1 i)) := by
  constructor
  · exact ⟨0, rfl, _, hT.init, fun i => (h i).init⟩
  · rintro m md s t ⟨w, hs⟩ ht
    rcases mtInv_step h hs ht with ⟨-, h1⟩ | ⟨w', -, h1⟩
    · exact ⟨w, h1⟩
    · exact ⟨w', h1⟩
  · rintro m s t ⟨w, hs⟩ ⟨hpc, rfl⟩
    rcases s with ⟨cs, loc, pc⟩
    dsimp only at hpc
    subst hpc
    obtain ⟨rfl, p, h1, hi⟩ := hs
    dsimp only
    rcases hT.start h1 with ⟨l', e1, e2⟩ | ⟨i, k, d, q, l', e1, e2, e3⟩
    · rw [e1]
      exact ⟨0, rfl, rfl, p, e2, hi⟩
    · rw [e1]
      exact ⟨2 * d + 1, d, p, q, l', rfl, e2, e3, hi⟩
  · rintro m s r t ⟨w, hs⟩ ⟨hpc, rfl⟩
    rcases s with ⟨cs, loc, pc⟩
    dsimp only at hpc
    subst hpc
    obtain ⟨rfl, rfl, p, h1, hi⟩ := hs
    exact ⟨rfl, 0, rfl, p, h1, hi⟩
  · rintro m s ⟨w, hs⟩
    rcases s with ⟨cs, loc, pc⟩
    cases pc <;> try exact hs.elim
    obtain ⟨rfl, p, h1, hi⟩ := hs
    choose k h2 h3 using fun i => ((h i).get (hi i)).2
    obtain ⟨m', h4, h5⟩ := hT.lag h1 h2
    exact ⟨⟨0, rfl, p, hT.onGet h1, fun i => ((h i).get (hi i)).1⟩, m', h4, k, h5, h3⟩
  · rintro m s k ck t ⟨w, hs⟩ ⟨p, h1, h2⟩ ⟨hpc, rfl⟩
    rcases s with ⟨cs, loc, pc⟩
    dsimp only at hpc
    subst hpc
    obtain ⟨rfl, q, h3, hi⟩ := hs
    refine ⟨2 * (n - 0) + 1, rfl, Nat.zero_le _, _, fun i => if T.sets ck.2 i then q i else 0, hT.sets h1, ?_, ?_, ?_⟩
    · intro i hset
      dsimp only at hset ⊢
      rw [if_pos hset]
      exact h2 i
    · intro i
      dsimp only
      split
      · exact hi i
      · exact (h i).init
    · rintro i (hlt | hset)
      · exact absurd hlt (Nat.not_lt_zero _)
      · dsimp only at hset ⊢
        rw [hset]
        rfl
  · rintro m s t ⟨w, hs⟩ ⟨hpc, rfl⟩
    rcases s with ⟨cs, loc, pc⟩
    dsimp only at hpc
    subst hpc
    obtain ⟨rfl, p, h1, hi⟩ := hs
    exact ⟨0, rfl, p, h1, hi⟩
  · rintro m s ⟨w, hs⟩
    rcases s with ⟨cs, loc, pc⟩
    cases pc <;> try exact hs.elim
    exact ⟨_, rfl, rfl⟩
  · rintro m s k ck ⟨w, hs⟩ -
    rcases s with ⟨cs, loc, pc⟩
    cases pc <;> try exact hs.elim
    exact ⟨_, rfl, rfl⟩
  · rintro m s ⟨w, hs⟩
    rcases s with ⟨cs, loc, pc⟩
    cases pc <;> try exact hs.elim
    · obtain ⟨d, p, q, l, rfl, h1, h2, hi⟩ := hs
      rename_i i k
      obtain ⟨t, ht⟩ := (h i).canCall (hi i)
      exact Or.inl ⟨_, .ask _ _ _ t rfl ht⟩
    · obtain ⟨d, p, q, l, rfl, h1, h2, hi⟩ := hs
      rename_i i k
      rcases (h i).live hi.1 with ⟨t, ht⟩ | ⟨r, t, ht⟩
      · exact Or.inl ⟨_, .below _ i t ht⟩
      · exact Or.inl ⟨_, .got _ _ _ r t rfl ht⟩
    · exact Or.inr ⟨_, _, rfl, rfl⟩
  · rintro m s ⟨w, hs⟩
    rcases s with ⟨cs, loc, pc⟩
    cases pc <;> try exact hs.elim
    · obtain ⟨rfl, hj, p, q, h1, h2, hq, h3⟩ := hs
      rename_i j ck
      by_cases hjn : j = n
      · subst hjn
        exact Or.inl ⟨_, .setEnd _ ck rfl⟩
      · cases hset : T.sets loc ⟨j, by omega⟩ with
        | true =>
          obtain ⟨t, ht⟩ := (h ⟨j, by omega⟩).canSet (hq ⟨j, by omega⟩) (h2 ⟨j, by omega⟩ hset)
          exact Or.inl ⟨_, .setPar _ ⟨j, by omega⟩ ck t rfl hset ht⟩
        | false => exact Or.inl ⟨_, .setSkip _ ⟨j, by omega⟩ ck rfl hset⟩
    · obtain ⟨rfl, p, q, h1, h2, hq, h3⟩ := hs
      rename_i i ck
      rcases (h i).liveSet hq.1 with ⟨t, ht⟩ | ⟨t, ht⟩
      · exact Or.inl ⟨_, .below _ i t ht⟩
      · exact Or.inl ⟨_, .setBack _ i ck t rfl ht⟩
    · exact Or.inr ⟨_, rfl, rfl⟩
  · rintro m md s ⟨w, hs⟩
    exact acc_of_rank (proj := MtState.cs) (R := MtInv x y I K At m md) (mtInv_step h) (mtInv_acc h) w s hs

end

theorem renewed_follows {c : ConcIter (Py α)} {x : Nat → Option (Py α)} {I : Nat → CMode → c.S → Prop} {K : Nat → c.C → Prop}
    (h : Follows c x I K) : Follows (renewed c) x I K :=
  ⟨h.init, h.step, h.call, h.ret, h.get, fun _ h2 h3 => h.setCall h.init h2 h3, h.setRet, h.canCall,
    fun _ h2 => h.canSet h.init h2, h.live, h.liveSet, h.acc⟩

end Raise
end Grain
