import Verif.Stack.Props
/-
C96: how far a stack of prefetches reads ahead of its user.
-/
namespace Grain

/-- A stack over the source `p`, with the position of its source in every state of the stack (`at`), and with the bound
`most`: when the user has taken `n` elements the source has given out at most `most n`.

The bound is read off the layers: each prefetch adds its buffer and one element in the hands of its thread, a batch of
`b` multiplies (and, when it drops the remainder, the source may be up to `b - 1` elements further at the end). -/
inductive StackedOn {α : Type} (p : Iter α) (pos : p.S → Nat) (x : Nat → Option α) :
    {β : Type} → (c : ConcIter β) → (Nat → Option β) → (c.S → Nat) → (Nat → Nat) → Prop
  | source : StackedOn p pos x (ofIter p) x (fun s => pos s.1) (fun n => n)
  | prefetch {β : Type} {c : ConcIter β} {y : Nat → Option β} {src most} (size : Nat) : StackedOn p pos x c y src most →
      StackedOn p pos x (prefetchOver size c) y (fun s => src s.cs) (fun n => most (if size = 0 then n else n + size + 1))
  | map {β γ : Type} {c : ConcIter β} {y : Nat → Option β} {src most} (f : β → γ) : StackedOn p pos x c y src most →
      StackedOn p pos x (transOver (mapTrans f) c) (fun n => (y n).map f) (fun s => src s.cs) most
  | mapWithIndex {β γ : Type} {c : ConcIter β} {y : Nat → Option β} {src most} (f : Nat → β → γ) :
      StackedOn p pos x c y src most →
      StackedOn p pos x (transOver (mapIndexTrans f) c) (fun n => (y n).map (f n)) (fun s => src s.cs) most
  | limit {β : Type} {c : ConcIter β} {y : Nat → Option β} {src most} (count : Nat) : StackedOn p pos x c y src most →
      StackedOn p pos x (transOver (limitTrans count) c) (streamTake count y) (fun s => src s.cs) most
  | batch {β : Type} {c : ConcIter β} {y : Nat → Option β} {src most} (b : Nat) (drop : Bool) : 0 < b →
      StackedOn p pos x c y src most →
      StackedOn p pos x (transOver (batchTrans b drop) c) (streamBatch b drop y) (fun s => src s.cs)
        (fun n => most (n * b + if drop then b - 1 else 0))

/-- The bound on the source, in terms of a simulation. -/
structure Leads {c : ConcIter β} (y : Nat → Option β) (I : Nat → CMode → c.S → Prop) (src : c.S → Nat) (most : Nat → Nat) : Prop where
  mono : ∀ {a b}, a ≤ b → most a ≤ most b
  idle : ∀ {n s}, I n .idle s → src s ≤ most n
  next : ∀ {n s}, I n .next s → src s ≤ most (nextPos y n)

theorem nextPos_le (x : Nat → Option α) (n : Nat) : n ≤ nextPos x n ∧ nextPos x n ≤ n + 1 := by
  unfold nextPos
  split <;> omega

theorem items_length {C : Type} {x : Nat → Option α} {K : Nat → C → Prop} {n e : Nat} {es : List (Option (α × C))}
    (h : Items x K n es e) : e = n + es.length := by
  induction es generalizing n with
  | nil => exact h.symm
  | cons b es ih =>
    rcases b with _ | ⟨b, ck'⟩
    · exact h.elim
    · have := ih h.2.2
      simp only [List.length_cons]
      omega

theorem running_leads {c : ConcIter β} {y : Nat → Option β} {I : Nat → CMode → c.S → Prop} {K : Nat → c.C → Prop}
    {src : c.S → Nat} {most : Nat → Nat} {size n : Nat} {s : PrefState c} (hl : Leads y I src most) (hb : Bounded size s)
    (h : Running y I K n s) : src s.cs ≤ most (if size = 0 then n else n + size + 1) := by
  by_cases hz : size = 0
  · have := hb.2 hz
    rw [if_pos hz]
    unfold Running at h
    rw [this] at h
    exact hl.idle h.2
  · rw [if_neg hz]
    have hlen := hb.1
    rcases s with ⟨cs, state, buf, thr, flag, pc⟩
    dsimp only at hlen
    rcases thr with _ | (_ | _ | _ | _ | (_ | ⟨a, ck⟩) | _) <;> simp only [Running] at h
    · exact (hl.idle h.2).trans (hl.mono (by omega))
    · obtain ⟨h1, e, h2, h3⟩ := h
      have := items_length h2
      exact (hl.idle h3).trans (hl.mono (by omega))
    · obtain ⟨h1, e, h2, h3⟩ := h
      have := items_length h2
      exact (hl.idle h3).trans (hl.mono (by omega))
    · obtain ⟨h1, e, h2, h3⟩ := h
      have := items_length h2
      have := (nextPos_le y e).2
      exact (hl.next h3).trans (hl.mono (by omega))
    · obtain ⟨h1, e, h2, -, h3⟩ := h
      have := items_length h2
      exact (hl.idle h3).trans (hl.mono (by omega))
    · obtain ⟨h1, e, h2, -, h3⟩ := h
      have := items_length h2
      exact (hl.idle h3).trans (hl.mono (by omega))
    · obtain ⟨h1, e, h2, -, -, h3⟩ := h
      have := items_length h2
      exact (hl.idle h3).trans (hl.mono (by omega))
    · obtain ⟨h1, e, b, rfl, h2, -, h3⟩ := h
      have := items_length h2
      simp only [List.length_append, List.length_cons, List.length_nil] at hlen
      exact (hl.idle h3).trans (hl.mono (by omega))

theorem prefetch_leads {c : ConcIter β} {y : Nat → Option β} {I : Nat → CMode → c.S → Prop} {K : Nat → c.C → Prop}
    {src : c.S → Nat} {most : Nat → Nat} {size : Nat} (hl : Leads y I src most) :
    Leads (c := prefetchOver size c) y (fun n m s => Bounded size s ∧ PrefInv y I K n m s) (fun s => src s.cs)
      (fun n => most (if size = 0 then n else n + size + 1)) := by
  constructor
  · intro a b hab
    exact hl.mono (by split <;> omega)
  · rintro n s ⟨hb, hs⟩
    rcases s with ⟨cs, state, buf, thr, flag, pc⟩
    cases pc <;> try exact hs.elim
    · exact running_leads hl hb hs.1
    all_goals (rename_i k; cases k <;> exact hs.elim)
  · rintro n s ⟨hb, hs⟩
    have hn := nextPos_le y n
    have hm : ∀ {a}, a ≤ nextPos y n → most a ≤ most (if size = 0 then nextPos y n else nextPos y n + size + 1) := by
      intro a ha
      exact hl.mono (by split <;> omega)
    have hr : ∀ {k}, k ≤ nextPos y n → Running y I K k s →
        src s.cs ≤ most (if size = 0 then nextPos y n else nextPos y n + size + 1) := by
      intro k hk h
      exact (running_leads hl hb h).trans (hl.mono (by split <;> omega))
    rcases s with ⟨cs, state, buf, thr, flag, pc⟩
    rcases pc with _ | _ | _ | _ | _ | (_ | _) | (_ | _) | (_ | _) | (_ | _) | _ | _ | _ | _ | _ <;>
      try exact hs.elim
    · exact hr (by omega) hs.1
    · exact hr (by omega) hs.1
    · exact (hl.next hs.2.2.1).trans (hm (by omega))
    · refine (hl.idle hs.2.2.2).trans (hm ?_)
      have := hs.2.2.1
      simp [nextPos, this]
    · exact (hl.idle hs.2.1).trans (hm (by omega))
    · exact (hl.idle hs.1.2.1).trans (hm (by omega))
    · exact (hl.idle hs.2.1).trans (hm (by omega))
    · exact (hl.idle hs.2.1).trans (hm (by omega))
    · exact hr (by omega) hs.2.1

theorem trEval_le {T : Trans α β} {x : Nat → Option α} {d k i r j l} (h : TrEval T x d k i r j l) :
    nextPos x i ≤ j := by
  induction h with
  | last _ => exact Nat.le_refl _
  | more _ _ ih => exact (nextPos_le x _).1.trans ih

/-- A transformation: `At n i l` bounds the position `i` of its parent by `g n`. -/
theorem trans_leads {T : Trans α β} {c : ConcIter α} {x : Nat → Option α} {y : Nat → Option β}
    {I : Nat → CMode → c.S → Prop} {K : Nat → c.C → Prop} {At : Nat → Nat → T.L → Prop} {src : c.S → Nat}
    {most g : Nat → Nat} (hl : Leads x I src most) (hg : ∀ {a b}, a ≤ b → g a ≤ g b)
    (hat : ∀ {n i l}, At n i l → i ≤ g n) :
    Leads (c := transOver T c) y (fun n m s => ∃ w, TrInv x y I K At n m w s) (fun s => src s.cs)
      (fun n => most (g n)) := by
  constructor
  · intro a b hab
    exact hl.mono (hg hab)
  · rintro n s ⟨w, hs⟩
    rcases s with ⟨cs, loc, pc⟩
    cases pc <;> try exact hs.elim
    obtain ⟨rfl, i, h1, hi⟩ := hs
    exact (hl.idle hi).trans (hl.mono (hat h1))
  · rintro n s ⟨w, hs⟩
    rcases s with ⟨cs, loc, pc⟩
    cases pc <;> try exact hs.elim
    · obtain ⟨d, i, j, l, rfl, h1, h2, hi⟩ := hs
      have := trEval_le h1
      have := (nextPos_le x i).1
      have := hat h2
      exact (hl.idle hi).trans (hl.mono (by omega))
    · obtain ⟨d, i, j, l, rfl, h1, h2, hi⟩ := hs
      have := trEval_le h1
      have := hat h2
      exact (hl.next hi).trans (hl.mono (by omega))
    · obtain ⟨rfl, rfl, i, h1, hi⟩ := hs
      exact (hl.idle hi).trans (hl.mono (hat h1))

theorem StackedOn.leads {α β : Type} {p : Iter α} {pos : p.S → Nat} {x : Nat → Option α} {At Ck}
    (hp : SimStream p (fun n => (x n).map .ok) At Ck) (hpos : ∀ s n, At s n → pos s = n) (hx : StaysOver x)
    {c : ConcIter β} {y : Nat → Option β} {src most} (h : StackedOn p pos x c y src most) :
    StaysOver y ∧ ∃ I K, Follows c y I K ∧ Leads y I src most := by
  induction h with
  | source =>
    refine ⟨hx, _, _, ofIter_sim hp, ?_⟩
    constructor
    · exact fun h => h
    · rintro n s ⟨h1, -⟩
      rw [hpos _ _ h1]
    · rintro n s ⟨h1, -⟩
      rw [hpos _ _ h1]
      exact (nextPos_le x n).1
  | prefetch size _ ih =>
    obtain ⟨h0, I, K, h, hl⟩ := ih
    exact ⟨h0, _, _, prefetch_follows (size := size) h, prefetch_leads hl⟩
  | map f _ ih =>
    obtain ⟨h0, I, K, h, hl⟩ := ih
    refine ⟨?_, _, _, trans_follows h (mapTrans_computes f _), trans_leads (g := fun n => n) hl (fun h => h) ?_⟩
    · intro n hn
      simp only [Option.map_eq_none_iff] at hn ⊢
      exact h0 n hn
    · rintro n i l rfl
      exact Nat.le_refl _
  | mapWithIndex f _ ih =>
    obtain ⟨h0, I, K, h, hl⟩ := ih
    refine ⟨?_, _, _, trans_follows h (mapIndexTrans_computes f _), trans_leads (g := fun n => n) hl (fun h => h) ?_⟩
    · intro n hn
      simp only [Option.map_eq_none_iff] at hn ⊢
      exact h0 n hn
    · rintro n i l ⟨rfl, -⟩
      exact Nat.le_refl _
  | limit count _ ih =>
    obtain ⟨h0, I, K, h, hl⟩ := ih
    refine ⟨?_, _, _, trans_follows h (limitTrans_computes count _), trans_leads (g := fun n => n) hl (fun h => h) ?_⟩
    · intro n hn
      unfold streamTake at hn ⊢
      split at hn
      · split
        · exact h0 n hn
        · rfl
      · rw [if_neg (by omega)]
    · rintro n i l ⟨rfl, -⟩
      exact Nat.le_refl _
  | batch b drop hb _ ih =>
    obtain ⟨h0, I, K, h, hl⟩ := ih
    refine ⟨streamBatch_staysOver hb drop h0, _, _, trans_follows h (batchTrans_computes hb drop h0),
      trans_leads (g := fun n => n * b + if drop then b - 1 else 0) hl ?_ ?_⟩
    · intro a c hac
      have := Nat.mul_le_mul_right b hac
      omega
    · rintro n i l (rfl | ⟨-, -, h3⟩)
      · omega
      · exact h3

/-- Without restores the position of the user is the number of elements received. -/
def UserPos {c : ConcIter β} (I : Nat → CMode → c.S → Prop) (s : UserSys c) : Prop :=
  I (s.outs.filterMap id).length s.mode s.st ∧ s.mode ≠ .set ∧ ∀ op ∈ s.prog, op = .next ∨ op = .save

theorem userPos_run {c : ConcIter β} {y : Nat → Option β} {I : Nat → CMode → c.S → Prop} {K : Nat → c.C → Prop}
    (h : Follows c y I K) {prog : List Op} (hp : ∀ op ∈ prog, op = .next ∨ op = .save) {s : UserSys c}
    (hrun : UserRun c (userInit c prog) s) : UserPos I s := by
  induction hrun with
  | refl => exact ⟨h.init, by simp [userInit], hp⟩
  | tail _ hstep ih =>
    rename_i s t _
    obtain ⟨h1, h2, h3⟩ := ih
    rcases s with ⟨st, mode, prog, saved, outs⟩
    dsimp only at h1 h2 h3
    cases hstep with
    | thread t ht => exact ⟨h.step h1 ht, h2, h3⟩
    | next ops t hm hp ht =>
      dsimp only at hm hp ht
      subst hm hp
      exact ⟨h.call h1 ht, by simp, fun op hop => h3 op (by simp [hop])⟩
    | ret r t hm ht =>
      dsimp only at hm ht
      subst hm
      obtain ⟨rfl, h4⟩ := h.ret h1 ht
      refine ⟨?_, by simp, h3⟩
      dsimp only
      convert h4 using 1
      unfold nextPos
      rw [List.filterMap_append, List.length_append]
      cases hy : y (outs.filterMap id).length <;> simp
    | save ops hm hp =>
      dsimp only at hm hp
      subst hm hp
      exact ⟨(h.get h1).1, by simp, fun op hop => h3 op (by simp [hop])⟩
    | restore k ops ck t hm hp hk ht =>
      dsimp only at hp
      subst hp
      rcases h3 (.restore k) (by simp) with h | h <;> cases h
    | fresh k ops ck t hm hp hk ht =>
      dsimp only at hp
      subst hp
      rcases h3 (.fresh k) (by simp) with h | h <;> cases h
    | setRet t hm ht => exact absurd hm h2

/-- C96: at every moment of every schedule, when the user has received `n` elements, the source of the stack has given
out at most `most (n + 1)` – and `most n` between two calls. -/
theorem stacked_read_ahead {α β : Type} {p : Iter α} {pos : p.S → Nat} {x : Nat → Option α} {At Ck}
    (hp : SimStream p (fun n => (x n).map .ok) At Ck) (hpos : ∀ s n, At s n → pos s = n) (hx : StaysOver x)
    {c : ConcIter β} {y : Nat → Option β} {src most} (h : StackedOn p pos x c y src most) {prog : List Op}
    (hprog : ∀ op ∈ prog, op = .next ∨ op = .save) {s : UserSys c} (hrun : UserRun c (userInit c prog) s) :
    src s.st ≤ most ((s.outs.filterMap id).length + 1) ∧
    (s.mode = .idle → src s.st ≤ most (s.outs.filterMap id).length) := by
  obtain ⟨-, I, K, hf, hl⟩ := h.leads hp hpos hx
  obtain ⟨h1, h2, h3⟩ := userPos_run hf hprog hrun
  constructor
  · cases hm : s.mode with
    | idle =>
      rw [hm] at h1
      exact (hl.idle h1).trans (hl.mono (by omega))
    | next =>
      rw [hm] at h1
      exact (hl.next h1).trans (hl.mono (nextPos_le y _).2)
    | set => exact absurd hm h2
  · intro hm
    rw [hm] at h1
    exact hl.idle h1

/-- C96 for `device_put` directly over a source: between two calls at most `cpu_buffer_size + device_buffer_size + 2`
elements have been read from the source and not yet been received (both sizes positive); one more during a call. -/
theorem device_put_read_ahead {α β : Type} {p : Iter α} {pos : p.S → Nat} {x : Nat → Option α} {At Ck}
    (hp : SimStream p (fun n => (x n).map .ok) At Ck) (hpos : ∀ s n, At s n → pos s = n) (hx : StaysOver x)
    (put : α → β) {cpuBuffer deviceBuffer : Nat} (hc : 0 < cpuBuffer) (hd : 0 < deviceBuffer) {prog : List Op}
    (hprog : ∀ op ∈ prog, op = .next ∨ op = .save) {s : UserSys (devicePut cpuBuffer deviceBuffer put (ofIter p))}
    (hrun : UserRun (devicePut cpuBuffer deviceBuffer put (ofIter p)) (userInit _ prog) s) :
    pos s.st.cs.cs.cs.1 ≤ (s.outs.filterMap id).length + cpuBuffer + deviceBuffer + 3 ∧
    (s.mode = .idle → pos s.st.cs.cs.cs.1 ≤ (s.outs.filterMap id).length + cpuBuffer + deviceBuffer + 2) := by
  have h := stacked_read_ahead hp hpos hx (.prefetch deviceBuffer (.map put (.prefetch cpuBuffer .source))) hprog hrun
  rw [if_neg (by omega), if_neg (by omega), if_neg (by omega), if_neg (by omega)] at h
  refine ⟨?_, fun hm => ?_⟩
  · have := h.1
    omega
  · have := h.2 hm
    omega

/-- A list source tells its position: its state is the position. -/
theorem listIter_sim (vs : List α) :
    SimStream (listIter (vs.map Except.ok)) (fun n => vs[n]?.map Except.ok) (fun s n => s = n) (fun c n => c = n) := by
  constructor
  · rfl
  · rintro s n rfl
    change Nat at s
    cases hv : vs[s]? with
    | none =>
      refine ⟨s, Ev.of_forall (fun F => ?_), ?_⟩
      · simp [listIter, streamRes, hv]
      · simp [streamPos, hv]
        rfl
    | some a =>
      refine ⟨(s + 1 : Nat), Ev.of_forall (fun F => ?_), ?_⟩
      · simp [listIter, streamRes, hv, toRes]
      · simp [streamPos, hv]
        rfl
  · rintro s n rfl
    exact ⟨rfl, rfl⟩
  · rintro s n c m rfl rfl
    exact ⟨c, Ev.of_forall (fun F => rfl), rfl⟩

/-- The hypotheses are met: `device_put` with its default buffers over a list reads at most eight elements ahead. -/
example (vs : List Nat) (put : Nat → String) {s}
    (hrun : UserRun (devicePut 4 2 put (ofIter (listIter (vs.map Except.ok)))) (userInit _ [.next, .save, .next]) s) :
    s.mode = .idle → (show Nat from s.st.cs.cs.cs.1) ≤ (s.outs.filterMap id).length + 8 := by
  have hx : StaysOver (fun n => vs[n]?) := by
    intro n hn
    rw [List.getElem?_eq_none_iff] at hn ⊢
    omega
  exact (device_put_read_ahead (pos := id) (listIter_sim vs) (fun s n h => h) hx put (by omega) (by omega) (by simp) hrun).2

end Grain
