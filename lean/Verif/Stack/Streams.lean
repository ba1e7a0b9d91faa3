import Verif.Stack.PrefetchUser
/-
The streams computed by the transformations, and the user of a stack.
-/
namespace Grain

theorem StaysOver.le {x : Nat → Option α} (h : StaysOver x) {n m : Nat} (hn : x n = none) (hm : n ≤ m) : x m = none := by
  induction m, hm using Nat.le_induction with
  | base => exact hn
  | succ m _ ih => exact h m ih

theorem mapTrans_computes (f : α → β) (x : Nat → Option α) :
    Computes (mapTrans f) x (fun n => (x n).map f) (fun n i _ => i = n) := by
  constructor
  · rfl
  · rintro n i l rfl
    refine Or.inr ⟨(), 1, _, (), rfl, .last rfl, ?_⟩
    cases hx : x i <;> simp [nextPos, hx]

theorem mapIndexTrans_computes (f : Nat → α → β) (x : Nat → Option α) :
    Computes (mapIndexTrans f) x (fun n => (x n).map (f n)) (fun n i l => i = n ∧ l = n) := by
  constructor
  · exact ⟨rfl, rfl⟩
  · suffices H : ∀ i : Nat, ∃ j : Nat, TrEval (mapIndexTrans f) x 1 i i ((x i).map (f i)) j j ∧
        j = nextPos (fun n => (x n).map (f n)) i by
      rintro n _ l ⟨rfl, rfl⟩
      obtain ⟨j, h1, h2⟩ := H l
      exact Or.inr ⟨l, 1, j, j, rfl, h1, h2, h2⟩
    intro i
    cases hx : x i with
    | none =>
      have hr : (mapIndexTrans f).resume i (x i) = .inr (none, i) := by rw [hx]; rfl
      have := TrEval.last (x := x) hr
      refine ⟨i, ?_, by simp [nextPos, hx]⟩
      simpa [nextPos, hx] using this
    | some a =>
      have hr : (mapIndexTrans f).resume i (x i) = .inr (some (f i a), (i + 1 : Nat)) := by rw [hx]; rfl
      have := TrEval.last (x := x) hr
      refine ⟨i + 1, ?_, by simp [nextPos, hx]⟩
      simpa [nextPos, hx] using this

theorem limitTrans_computes (count : Nat) (x : Nat → Option α) :
    Computes (limitTrans count) x (streamTake count x) (fun n i l => i = n ∧ l = n) := by
  constructor
  · exact ⟨rfl, rfl⟩
  · suffices H : ∀ i : Nat, ((limitTrans (α := α) count).start i = .inr (none, i) ∧ streamTake count x i = none) ∨
        ((limitTrans (α := α) count).start i = .inl i ∧
          ∃ j : Nat, TrEval (limitTrans count) x 1 i i (streamTake count x i) j j ∧
            j = nextPos (streamTake count x) i) by
      rintro n _ l ⟨rfl, rfl⟩
      rcases H l with ⟨h1, h2⟩ | ⟨h0, j, h1, h2⟩
      · have h3 : l = nextPos (streamTake count x) l := by unfold nextPos; rw [h2]
        exact Or.inl ⟨l, by rw [h2]; exact h1, h3, h3⟩
      · exact Or.inr ⟨l, 1, j, j, h0, h1, h2, h2⟩
    intro i
    by_cases hc : i < count
    · right
      refine ⟨if_neg (by omega), ?_⟩
      cases hx : x i with
      | none =>
        have hr : (limitTrans count).resume i (x i) = .inr (none, i) := by rw [hx]; rfl
        have := TrEval.last (x := x) hr
        refine ⟨i, ?_, by simp [nextPos, streamTake, hx]⟩
        simpa [nextPos, streamTake, hx] using this
      | some a =>
        have hr : (limitTrans count).resume i (x i) = .inr (some a, (i + 1 : Nat)) := by rw [hx]; rfl
        have := TrEval.last (x := x) hr
        refine ⟨i + 1, ?_, by simp [nextPos, streamTake, hx, hc]⟩
        simpa [nextPos, streamTake, hx, hc] using this
    · left
      exact ⟨if_pos (by omega), by simp [streamTake, hc]⟩

/-! ### Batches -/

/-- The first `q` values of batch `n`. -/
def batchPrefix (b : Nat) (x : Nat → Option α) (n q : Nat) : List α :=
  (List.range q).filterMap (fun i => x (n * b + i))

theorem batchPrefix_succ (b : Nat) (x : Nat → Option α) (n q : Nat) :
    batchPrefix b x n (q + 1) = batchPrefix b x n q ++ (x (n * b + q)).toList := by
  unfold batchPrefix
  rw [List.range_succ, List.filterMap_append]
  congr 1

theorem batchPrefix_over {b : Nat} {x : Nat → Option α} (h : StaysOver x) {n q : Nat} (hq : x (n * b + q) = none) :
    ∀ r, q ≤ r → batchPrefix b x n r = batchPrefix b x n q := by
  intro r hr
  induction r, hr using Nat.le_induction with
  | base => rfl
  | succ r hr ih =>
    rw [batchPrefix_succ, ih, h.le hq (by omega)]
    simp

theorem streamBatch_over {b : Nat} {drop : Bool} {x : Nat → Option α} (h : StaysOver x) (hb : 0 < b) {i n : Nat}
    (hi : x i = none) (hn : i ≤ n * b) : streamBatch b drop x n = none := by
  have h0 : x (n * b + 0) = none := h.le hi (by omega)
  have : (List.range b).filterMap (fun i => x (n * b + i)) = [] := by
    have := batchPrefix_over h h0 b (by omega)
    simpa [batchPrefix] using this
  unfold streamBatch
  rw [this]
  simp
  omega

theorem streamBatch_partial {b : Nat} {drop : Bool} {x : Nat → Option α} (h : StaysOver x) {n q : Nat}
    (hq : x (n * b + q) = none) (hqb : q < b) (hlen : (batchPrefix b x n q).length = q) :
    streamBatch b drop x n = if drop || (batchPrefix b x n q).isEmpty then none else some (batchPrefix b x n q) := by
  have : (List.range b).filterMap (fun i => x (n * b + i)) = batchPrefix b x n q :=
    batchPrefix_over h hq b (by omega)
  unfold streamBatch
  rw [this]
  dsimp only
  generalize hp : batchPrefix b x n q = p at hlen
  have hne : p.length ≠ b := by omega
  cases drop <;> cases p <;> simp_all

theorem batch_eval {b : Nat} {drop : Bool} {x : Nat → Option α} (h : StaysOver x) {n : Nat} :
    ∀ d q, q + d = b → 0 < d → (batchPrefix b x n q).length = q →
      ∃ e j, TrEval (batchTrans b drop) x e (batchPrefix b x n q) (n * b + q) (streamBatch b drop x n) j () ∧
        (j = nextPos (streamBatch b drop x) n * b ∨
          (x j = none ∧ streamBatch b drop x (nextPos (streamBatch b drop x) n) = none ∧
            j ≤ nextPos (streamBatch b drop x) n * b + if drop then b - 1 else 0)) := by
  intro d
  induction d with
  | zero => intro q _ h0; omega
  | succ d ih =>
    intro q hq _ hlen
    cases hx : x (n * b + q) with
    | none =>
      have hp := streamBatch_partial (drop := drop) h hx (by omega) hlen
      have hover : ∀ k, n < k → streamBatch b drop x k = none := by
        intro k hk
        refine streamBatch_over h (by omega) hx ?_
        have : (n + 1) * b ≤ k * b := Nat.mul_le_mul_right _ hk
        rw [Nat.add_mul] at this
        omega
      refine ⟨1, nextPos x (n * b + q), .last ?_, Or.inr ⟨?_, ?_, ?_⟩⟩
      · show (match x (n * b + q) with | some a => _ | none => _) = _
        rw [hx, hp]
        dsimp only
        split <;> rfl
      · simp [nextPos, hx]
      · unfold nextPos
        cases hs : streamBatch b drop x n with
        | none => exact hs
        | some v => exact hover (n + 1) (by omega)
      · have hj : nextPos x (n * b + q) = n * b + q := by simp [nextPos, hx]
        rw [hj]
        unfold nextPos
        cases hs : streamBatch b drop x n with
        | some v => simp only [Nat.add_mul, Nat.one_mul]; omega
        | none =>
          dsimp only
          rw [hp] at hs
          cases drop with
          | true => simp only [if_true]; omega
          | false =>
            simp only [Bool.false_or, List.isEmpty_iff] at hs
            split at hs
            · rename_i he
              rw [he] at hlen
              simp at hlen
              omega
            · cases hs
    | some a =>
      have hpre : batchPrefix b x n (q + 1) = batchPrefix b x n q ++ [a] := by
        rw [batchPrefix_succ, hx]; rfl
      have hlen' : (batchPrefix b x n (q + 1)).length = q + 1 := by rw [hpre]; simp [hlen]
      have hnp : nextPos x (n * b + q) = n * b + (q + 1) := by simp [nextPos, hx]; omega
      by_cases hlt : q + 1 < b
      · obtain ⟨e, j, h1, h2⟩ := ih (q + 1) (by omega) (by omega) hlen'
        refine ⟨e + 1, j, .more (k' := batchPrefix b x n (q + 1)) ?_ ?_, h2⟩
        · show (match x (n * b + q) with | some a => _ | none => _) = _
          rw [hx]
          dsimp only
          rw [if_pos (by rw [hlen]; exact hlt), hpre]
          rfl
        · rw [hnp]; exact h1
      · have hqb : q + 1 = b := by omega
        have hfull : streamBatch b drop x n = some (batchPrefix b x n q ++ [a]) := by
          unfold streamBatch
          have e1 : (List.range b).filterMap (fun i => x (n * b + i)) = batchPrefix b x n (q + 1) := by rw [hqb]; rfl
          rw [e1]
          dsimp only
          rw [if_pos (Or.inl (by rw [hlen', hqb])), hpre]
        refine ⟨1, nextPos x (n * b + q), .last ?_, Or.inl ?_⟩
        · show (match x (n * b + q) with | some a => _ | none => _) = _
          rw [hx, hfull]
          dsimp only
          rw [if_neg (by rw [hlen]; exact hlt)]
          rfl
        · have : nextPos (streamBatch b drop x) n = n + 1 := by simp [nextPos, hfull]
          rw [this, hnp, Nat.add_mul, Nat.one_mul]
          omega

theorem batchTrans_computes {b : Nat} (hb : 0 < b) (drop : Bool) {x : Nat → Option α} (h : StaysOver x) :
    Computes (batchTrans b drop) x (streamBatch b drop x)
      (fun n i _ => i = n * b ∨ (x i = none ∧ streamBatch b drop x n = none ∧ i ≤ n * b + if drop then b - 1 else 0)) := by
  constructor
  · exact Or.inl (by simp)
  · rintro n i l (rfl | ⟨h1, h2, h3⟩)
    · obtain ⟨e, j, h1, h2⟩ := batch_eval (drop := drop) h (n := n) b 0 (Nat.zero_add b) hb (by simp [batchPrefix])
      exact Or.inr ⟨[], e, j, (), rfl, by simpa [batchPrefix] using h1, h2⟩
    · have hn : nextPos (streamBatch b drop x) n = n := by simp [nextPos, h2]
      refine Or.inr ⟨[], 1, nextPos x i, (), rfl, .last ?_, Or.inr ⟨?_, ?_, ?_⟩⟩
      · show (match x i with | some a => _ | none => _) = _
        rw [h1, h2]
        simp
        rfl
      · simp [nextPos, h1]
      · rw [hn, h2]
      · rw [hn]
        have : nextPos x i = i := by simp [nextPos, h1]
        rw [this]
        exact h3

theorem streamBatch_staysOver {b : Nat} (hb : 0 < b) (drop : Bool) {x : Nat → Option α} (h : StaysOver x) :
    StaysOver (streamBatch b drop x) := by
  intro n hn
  by_cases hall : ∀ i, i < b → x (n * b + i) ≠ none
  · exfalso
    have : ∀ q, q ≤ b → (batchPrefix b x n q).length = q := by
      intro q
      induction q with
      | zero => intro _; simp [batchPrefix]
      | succ q ih =>
        intro hq
        rw [batchPrefix_succ, List.length_append, ih (by omega)]
        cases hx : x (n * b + q) with
        | none => exact absurd hx (hall q (by omega))
        | some a => simp
    have hlen := this b (by omega)
    unfold streamBatch at hn
    unfold batchPrefix at hlen
    dsimp only at hn
    rw [if_pos (Or.inl hlen)] at hn
    cases hn
  · simp only [ne_eq, not_forall, not_not] at hall
    obtain ⟨i, hi, hx⟩ := hall
    refine streamBatch_over h hb hx ?_
    rw [Nat.add_mul]
    omega

/-! ### The user -/

section
variable {c : ConcIter α} {x : Nat → Option α} {I : Nat → CMode → c.S → Prop} {K : Nat → c.C → Prop}

/-- What the user has seen, followed by what the stream has for the calls still to be made, is `total`. -/
def UserInv (x : Nat → Option α) (I : Nat → CMode → c.S → Prop) (K : Nat → c.C → Prop) (total : List (Option α))
    (s : UserSys c) : Prop :=
  ∃ n ps, I n s.mode s.st ∧ List.Forall₂ K ps s.saved ∧
    match s.mode with
    | .next => ∃ rest, streamRun x (nextPos x n) ps s.prog = some rest ∧ total = s.outs ++ x n :: rest
    | _ => ∃ rest, streamRun x n ps s.prog = some rest ∧ total = s.outs ++ rest

theorem forall₂_get {A B : Type} {R : A → B → Prop} {as : List A} {bs : List B} (h : List.Forall₂ R as bs) :
    ∀ k : Nat, (as[k]? = none ∧ bs[k]? = none) ∨ ∃ a b, as[k]? = some a ∧ bs[k]? = some b ∧ R a b := by
  induction h with
  | nil => intro k; exact Or.inl ⟨by simp, by simp⟩
  | cons h1 _ ih =>
    intro k
    cases k with
    | zero => exact Or.inr ⟨_, _, rfl, rfl, h1⟩
    | succ k => simpa using ih k

theorem forall₂_snoc {A B : Type} {R : A → B → Prop} {as : List A} {bs : List B} {a : A} {b : B}
    (h : List.Forall₂ R as bs) (hab : R a b) : List.Forall₂ R (as ++ [a]) (bs ++ [b]) := by
  induction h with
  | nil => exact .cons hab .nil
  | cons h1 _ ih => exact .cons h1 ih

theorem userInv_init (h : Follows c x I K) {prog total} (ht : streamRun x 0 [] prog = some total) :
    UserInv x I K total (userInit c prog) :=
  ⟨0, [], h.init, .nil, total, ht, rfl⟩

theorem userInv_step (h : Follows c x I K) {total} {s t : UserSys c} (hs : UserInv x I K total s)
    (ht : UserStep c s t) : UserInv x I K total t := by
  obtain ⟨n, ps, h1, h2, h3⟩ := hs
  rcases s with ⟨st, mode, prog, saved, outs⟩
  dsimp only at h1 h2 h3
  cases ht with
  | thread t ht => exact ⟨n, ps, h.step h1 ht, h2, h3⟩
  | next ops t hm hp ht =>
    dsimp only at hm hp ht
    subst hm hp
    obtain ⟨rest, h4, h5⟩ := h3
    simp only [streamRun, Option.map_eq_some_iff] at h4
    obtain ⟨rest', h4, rfl⟩ := h4
    exact ⟨n, ps, h.call h1 ht, h2, rest', h4, h5⟩
  | ret r t hm ht =>
    dsimp only at hm ht
    subst hm
    obtain ⟨rest, h4, h5⟩ := h3
    obtain ⟨rfl, h6⟩ := h.ret h1 ht
    exact ⟨_, ps, h6, h2, rest, h4, by simp [h5]⟩
  | save ops hm hp =>
    dsimp only at hm hp
    subst hm hp
    obtain ⟨rest, h4, h5⟩ := h3
    refine ⟨n, ps ++ [n], (h.get h1).1, ?_, rest, h4, h5⟩
    exact forall₂_snoc h2 (h.get h1).2
  | restore k ops ck t hm hp hk ht =>
    dsimp only at hm hp hk ht
    subst hm hp
    obtain ⟨rest, h4, h5⟩ := h3
    rcases forall₂_get h2 k with ⟨-, h6⟩ | ⟨p, ck', h6, h7, h8⟩
    · rw [h6] at hk; cases hk
    · rw [h7] at hk
      cases hk
      simp only [streamRun, h6, Option.bind_some] at h4
      exact ⟨p, ps, h.setCall h1 h8 ht, h2, rest, h4, h5⟩
  | fresh k ops ck t hm hp hk ht =>
    dsimp only at hm hp hk ht
    subst hm hp
    obtain ⟨rest, h4, h5⟩ := h3
    rcases forall₂_get h2 k with ⟨-, h6⟩ | ⟨p, ck', h6, h7, h8⟩
    · rw [h6] at hk; cases hk
    · rw [h7] at hk
      cases hk
      simp only [streamRun, h6, Option.bind_some] at h4
      exact ⟨p, ps, h.setCall h.init h8 ht, h2, rest, h4, h5⟩
  | setRet t hm ht =>
    dsimp only at hm ht
    subst hm
    exact ⟨n, ps, h.setRet h1 ht, h2, h3⟩

theorem userInv_run (h : Follows c x I K) {prog total} (ht : streamRun x 0 [] prog = some total) {s : UserSys c}
    (hs : UserRun c (userInit c prog) s) : UserInv x I K total s := by
  induction hs with
  | refl => exact userInv_init h ht
  | tail _ h2 ih => exact userInv_step h ih h2

theorem user_live (h : Follows c x I K) {total} {s : UserSys c} (hs : UserInv x I K total s) (hf : ¬ s.finished) :
    ∃ t, UserStep c s t := by
  obtain ⟨n, ps, h1, h2, h3⟩ := hs
  rcases s with ⟨st, mode, prog, saved, outs⟩
  dsimp only at h1 h2 h3
  cases mode with
  | idle =>
    cases prog with
    | nil => exact absurd ⟨rfl, rfl⟩ hf
    | cons o ops =>
      obtain ⟨rest, h4, h5⟩ := h3
      cases o with
      | next =>
        obtain ⟨t, ht⟩ := h.canCall h1
        exact ⟨_, .next _ ops t rfl rfl ht⟩
      | save => exact ⟨_, .save _ ops rfl rfl⟩
      | restore k =>
        rcases forall₂_get h2 k with ⟨h6, -⟩ | ⟨p, ck, h6, h7, h8⟩
        · simp [streamRun, h6] at h4
        · obtain ⟨t, ht⟩ := h.canSet h1 h8
          exact ⟨_, .restore _ k ops ck t rfl rfl h7 ht⟩
      | fresh k =>
        rcases forall₂_get h2 k with ⟨h6, -⟩ | ⟨p, ck, h6, h7, h8⟩
        · simp [streamRun, h6] at h4
        · obtain ⟨t, ht⟩ := h.canSet h.init h8
          exact ⟨_, .fresh _ k ops ck t rfl rfl h7 ht⟩
  | next =>
    rcases h.live h1 with ⟨t, ht⟩ | ⟨r, t, ht⟩
    · exact ⟨_, .thread _ t ht⟩
    · exact ⟨_, .ret _ r t rfl ht⟩
  | set =>
    rcases h.liveSet h1 with ⟨t, ht⟩ | ⟨t, ht⟩
    · exact ⟨_, .thread _ t ht⟩
    · exact ⟨_, .setRet _ t rfl ht⟩

def UserSys.rank (s : UserSys c) : Nat := 2 * s.prog.length + if s.mode = .idle then 0 else 1

theorem user_acc (h : Follows c x I K) {total} {s : UserSys c} (hs : UserInv x I K total s) :
    Acc (fun t s => UserStep c s t) s := by
  refine acc_of_rank (proj := UserSys.st) (cstep := c.step) (R := fun w s => s.rank = w ∧ UserInv x I K total s)
    ?_ ?_ _ s ⟨rfl, hs⟩
  · rintro w s t ⟨rfl, hs⟩ ht
    have hi := userInv_step h hs ht
    cases ht with
    | thread t ht => exact Or.inl ⟨ht, rfl, hi⟩
    | next ops t hm hp ht => exact Or.inr ⟨_, by simp [UserSys.rank, hm, hp] <;> omega, rfl, hi⟩
    | ret r t hm ht => exact Or.inr ⟨_, by simp [UserSys.rank, hm], rfl, hi⟩
    | save ops hm hp => exact Or.inr ⟨_, by simp [UserSys.rank, hm, hp] <;> omega, rfl, hi⟩
    | restore k ops ck t hm hp hk ht => exact Or.inr ⟨_, by simp [UserSys.rank, hm, hp] <;> omega, rfl, hi⟩
    | fresh k ops ck t hm hp hk ht => exact Or.inr ⟨_, by simp [UserSys.rank, hm, hp] <;> omega, rfl, hi⟩
    | setRet t hm ht => exact Or.inr ⟨_, by simp [UserSys.rank, hm], rfl, hi⟩
  · rintro w s ⟨-, n, ps, h1, -⟩
    exact h.acc h1

end
end Grain
