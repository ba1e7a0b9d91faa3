import Verif.Stack.Start
import Verif.Stack.LoaderLemmas
/-
`start_prefetch` keeps the invariants of the layers.
-/
namespace Grain

/-- Between two calls, `start_prefetch` does not change the position. -/
def Kicks (c : ConcIter α) (I : Nat → CMode → c.S → Prop) (kick : c.S → c.S) : Prop :=
  ∀ n s, I n .idle s → I n .idle (kick s)

section
variable {c : ConcIter α} {x : Nat → Option α} {I : Nat → CMode → c.S → Prop} {K : Nat → c.C → Prop}

theorem trans_kicks {T : Trans α β} {y : Nat → Option β} {At : Nat → Nat → T.L → Prop} {kick : c.S → c.S} (h : Kicks c I kick) :
    Kicks (transOver T c) (fun n m s => ∃ w, TrInv x y I K At n m w s) (transKick T kick) := by
  rintro n ⟨cs, loc, pc⟩ ⟨w, hs⟩
  cases pc <;> simp only [TrInv] at hs
  obtain ⟨rfl, i, h1, h2⟩ := hs
  exact ⟨0, rfl, i, h1, h _ _ h2⟩

theorem anchor_kicks {T : Anchor α β} {y : Nat → Option β} {At : Nat → Nat → (Fin (T.r + 1) → Nat) → T.D → Prop}
    {kick : c.S → c.S} (h : Kicks c I kick) :
    Kicks (anchorOver T c) (fun n m s => ∃ w, AnInv x y I K At n m w s) (anchorKick T kick) := by
  rintro n ⟨cs, regs, loc, pc⟩ ⟨w, hs⟩
  cases pc with
  | idle =>
    obtain ⟨-, rfl, i, ρ, h1, h2, h3⟩ := hs
    exact ⟨0, rfl, rfl, i, ρ, h1, h _ _ h2, h3⟩
  | run k =>
    obtain ⟨f, i, ρ, o, d, j, ρ', h1, h2, h3, h4, h5⟩ := hs
    simp [AnGoal] at h3
  | wait k =>
    obtain ⟨f, i, ρ, o, d, j, ρ', h1, h2, h3, h4, h5⟩ := hs
    simp [AnGoal] at h3
  | rewind k =>
    obtain ⟨f, i, ρ, o, d, j, ρ', h1, h2, h3, h4, h5⟩ := hs
    simp [AnGoal] at h3
  | setPar e => cases hs.1
  | setting e => cases hs.1

theorem prefetch_kicks {size : Nat} (hsize : 0 < size) :
    Kicks (prefetchOver size c) (fun n m s => Bounded size s ∧ PrefInv x I K n m s) prefetchKick := by
  rintro n ⟨cs, state, buf, thr, flag, pc⟩ ⟨⟨h1, h2⟩, hs⟩
  cases pc <;> simp only [PrefInv] at hs
  cases thr with
  | some p => exact ⟨⟨h1, h2⟩, hs⟩
  | none =>
    obtain ⟨⟨h3, h4⟩, h5⟩ := hs
    refine ⟨⟨h1, fun h0 => absurd h0 (by omega)⟩, ⟨rfl, n, ?_, h4⟩, h5⟩
    dsimp only at h3
    subst h3
    simp [prefetchKick, Items]

theorem process_kicks {size : Nat} {keep : Bool} (h : Follows c x I K) :
    Kicks (processOver size keep c) (ProcInv true x I K) processKick := by
  rintro n ⟨state, over, setCount, buf, reqs, reqCount, stop, wrk, pc⟩ hs
  cases pc <;> simp only [ProcInv] at hs
  cases wrk with
  | some w => exact hs
  | none =>
    have hbuf := hs.common.none rfl
    dsimp only at hbuf
    subst hbuf
    have hat : WorkerAt x I K 0 { cs := c.init, exh := false, pc := .top } := ⟨h.init, by simp⟩
    refine ⟨?_, ?_, hs.state, hs.over⟩
    · refine ⟨hs.common.req, hs.common.set, hs.common.good, ?_, by simp [processKick]⟩
      rintro w ⟨⟩
      exact ⟨rfl, 0, hat⟩
    · cases over with
      | true => exact Or.inr ⟨rfl, rfl⟩
      | false =>
        refine Or.inl ?_
        by_cases hr : reqs = []
        · have := hs.aimed rfl
          subst hr
          simp only [Aim, List.getLast?_nil, Bool.false_eq_true, or_false] at this
          subst this
          refine (aim_nil rfl rfl (by simp)).2 ⟨[], [], 0, rfl, Or.inl rfl, ?_, hat⟩
          simp [processKick, ProcTail, ProcItems]
        · exact aim_congr (s := ⟨state, false, setCount, [], reqs, reqCount, stop, none, .idle⟩) rfl hr (hs.aimed rfl)

end

section
variable {n : Nat} {c : Fin n → ConcIter α} {x : Fin n → Nat → Option α} {I : (i : Fin n) → Nat → CMode → (c i).S → Prop}
  {K : (i : Fin n) → Nat → (c i).C → Prop}

theorem mtInv_kick {T : MultiTrans n α β} {y : Nat → Option β} {At : Nat → (Fin n → Nat) → T.L → Prop} {m w : Nat}
    {s : MtState T c} (hs : MtInv x y I K At m .idle w s) (cs : (i : Fin n) → (c i).S)
    (h : ∀ i k, I i k .idle (s.cs i) → I i k .idle (cs i)) : MtInv x y I K At m .idle w { s with cs := cs } := by
  rcases s with ⟨cs', loc, pc⟩
  cases pc <;> simp only [MtInv] at hs
  obtain ⟨rfl, p, h1, h2⟩ := hs
  exact ⟨rfl, p, h1, fun i => h i _ (h2 i)⟩

theorem multi_kicks {T : MultiTrans n α β} {y : Nat → Option β} {At : Nat → (Fin n → Nat) → T.L → Prop}
    {kick : (i : Fin n) → (c i).S → (c i).S} (h : ∀ i, Kicks (c i) (I i) (kick i)) :
    Kicks (multiOver T c) (fun m md s => ∃ w, MtInv x y I K At m md w s) (multiKick T kick) := by
  rintro m s ⟨w, hs⟩
  exact ⟨w, mtInv_kick hs _ fun i k hk => h i k _ hk⟩

theorem interleave_kicks {L : Nat} {y : Nat → Option α} {At : Nat → (Fin n → Nat) → (ilTrans (α := α) n L).L → Prop}
    {kick : (i : Fin n) → (c i).S → (c i).S} (h : ∀ i, Kicks (c i) (I i) (kick i)) (m : Nat) (s : MtState (ilTrans n L) c)
    (hs : ∃ w, MtInv x y I K At m .idle w s) : ∃ w, MtInv x y I K At m .idle w (interleaveKick n L kick s) := by
  obtain ⟨w, hs⟩ := hs
  refine ⟨w, mtInv_kick hs _ fun i k hk => ?_⟩
  split
  · exact h i k _ hk
  · exact hk

end

theorem warm_follows {c : ConcIter α} {x : Nat → Option α} {I : Nat → CMode → c.S → Prop} {K : Nat → c.C → Prop} {kick : c.S → c.S}
    (h : Follows c x I K) (hk : Kicks c I kick) :
    Follows (warmOver c kick) x (fun n m s => I n m s.1 ∧ (s.2 = true → m = .idle)) K := by
  constructor
  · exact ⟨h.init, fun _ => rfl⟩
  · rintro n m ⟨s, b⟩ ⟨t, b'⟩ ⟨h1, h2⟩ (⟨h3, rfl⟩ | ⟨rfl, h3⟩)
    · exact ⟨h.step h1 h3, h2⟩
    · cases h3
      obtain rfl := h2 rfl
      exact ⟨hk _ _ h1, by simp⟩
  · rintro n ⟨s, b⟩ ⟨t, b'⟩ ⟨h1, -⟩ ⟨h3, rfl⟩
    exact ⟨h.call h1 h3, by simp⟩
  · rintro n ⟨s, b⟩ r ⟨t, b'⟩ ⟨h1, h2⟩ ⟨h3, rfl⟩
    exact ⟨(h.ret h1 h3).1, (h.ret h1 h3).2, fun _ => rfl⟩
  · rintro n ⟨s, b⟩ ⟨h1, h2⟩
    exact ⟨⟨(h.get h1).1, h2⟩, (h.get h1).2⟩
  · rintro n ⟨s, b⟩ k ck ⟨t, b'⟩ ⟨h1, -⟩ h2 ⟨h3, rfl⟩
    exact ⟨h.setCall h1 h2 h3, by simp⟩
  · rintro n ⟨s, b⟩ ⟨t, b'⟩ ⟨h1, h2⟩ ⟨h3, rfl⟩
    exact ⟨h.setRet h1 h3, fun _ => rfl⟩
  · rintro n ⟨s, b⟩ ⟨h1, -⟩
    obtain ⟨t, ht⟩ := h.canCall h1
    exact ⟨(t, false), ht, rfl⟩
  · rintro n ⟨s, b⟩ k ck ⟨h1, -⟩ h2
    obtain ⟨t, ht⟩ := h.canSet h1 h2
    exact ⟨(t, false), ht, rfl⟩
  · rintro n ⟨s, b⟩ ⟨h1, -⟩
    rcases h.live h1 with ⟨t, ht⟩ | ⟨r, t, ht⟩
    · exact Or.inl ⟨(t, b), Or.inl ⟨ht, rfl⟩⟩
    · exact Or.inr ⟨r, (t, b), ht, rfl⟩
  · rintro n ⟨s, b⟩ ⟨h1, -⟩
    rcases h.liveSet h1 with ⟨t, ht⟩ | ⟨t, ht⟩
    · exact Or.inl ⟨(t, b), Or.inl ⟨ht, rfl⟩⟩
    · exact Or.inr ⟨(t, b), ht, rfl⟩
  · rintro n m s hs
    refine acc_of_rank (proj := Prod.fst) (cstep := c.step)
      (R := fun w (s : c.S × Bool) => (if s.2 then 1 else 0) = w ∧ I n m s.1 ∧ (s.2 = true → m = .idle)) ?_ ?_ _ s ⟨rfl, hs⟩
    · rintro w ⟨s, b⟩ ⟨t, b'⟩ ⟨rfl, h1, h2⟩ (⟨h3, h4⟩ | ⟨h3, h4⟩)
      · dsimp only at h3 h4
        subst h4
        exact Or.inl ⟨h3, rfl, h.step h1 h3, h2⟩
      · dsimp only at h3
        subst h3
        cases h4
        obtain rfl := h2 rfl
        exact Or.inr ⟨0, by simp, rfl, hk _ _ h1, by simp⟩
    · rintro w ⟨s, b⟩ ⟨-, h1, -⟩
      exact h.acc h1

theorem warm_kicks {c : ConcIter α} {I : Nat → CMode → c.S → Prop} {kick : c.S → c.S} (hk : Kicks c I kick) :
    Kicks (warmOver c kick) (fun n m s => I n m s.1 ∧ (s.2 = true → m = .idle)) (warmKick kick) := by
  rintro n ⟨s, b⟩ ⟨h1, -⟩
  exact ⟨hk _ _ h1, by simp⟩

theorem Kicked.kicks {β : Type} {c : ConcIter β} {x : Nat → Option β} {k : c.S → c.S} (h : Kicked c x k) :
    StaysOver x ∧ ∃ I K, Follows c x I K ∧ Kicks c I k := by
  induction h with
  | source h1 h2 =>
    obtain ⟨I, K, h⟩ := ofIter_follows h1
    exact ⟨h2, I, K, h, fun _ _ h => h⟩
  | prefetch size hs h =>
    obtain ⟨h0, I, K, h⟩ := h.follows
    exact ⟨h0, _, _, prefetch_follows (size := size) h, prefetch_kicks hs⟩
  | prefetchOn size hs _ ih =>
    obtain ⟨h0, I, K, h, -⟩ := ih
    exact ⟨h0, _, _, prefetch_follows (size := size) h, prefetch_kicks hs⟩
  | processOn size keep hs _ ih =>
    obtain ⟨h0, I, K, h, -⟩ := ih
    exact ⟨h0, _, _, process_follows (keep := keep) (kick := true) h hs, process_kicks h⟩
  | warmed _ ih =>
    obtain ⟨h0, I, K, h, hk⟩ := ih
    exact ⟨h0, _, _, warm_follows h hk, warm_kicks hk⟩
  | map f _ ih =>
    obtain ⟨h0, I, K, h, hk⟩ := ih
    exact ⟨(fun n hn => by simp only [Option.map_eq_none_iff] at hn ⊢; exact h0 n hn), _, _, trans_follows h (mapTrans_computes f _), trans_kicks hk⟩
  | mapWithIndex f _ ih =>
    obtain ⟨h0, I, K, h, hk⟩ := ih
    exact ⟨(fun n hn => by simp only [Option.map_eq_none_iff] at hn ⊢; exact h0 n hn), _, _, trans_follows h (mapIndexTrans_computes f _), trans_kicks hk⟩
  | limit count _ ih =>
    obtain ⟨h0, I, K, h, hk⟩ := ih
    refine ⟨?_, _, _, trans_follows h (limitTrans_computes count _), trans_kicks hk⟩
    intro n hn
    unfold streamTake at hn ⊢
    split at hn
    · split
      · exact h0 n hn
      · rfl
    · rw [if_neg (by omega)]
  | batch b drop hb hs ih =>
    obtain ⟨h0, I, K, h, hk⟩ := ih
    exact ⟨streamBatch_staysOver hb drop h0, _, _, trans_follows h (batchTrans_computes hb drop h0), trans_kicks hk⟩
  | process size keep hs h =>
    obtain ⟨h0, I, K, h⟩ := h.follows
    exact ⟨h0, _, _, process_follows (keep := keep) (kick := true) h hs, process_kicks h⟩
  | filter f hf _ ih =>
    obtain ⟨h0, I, K, h, hk⟩ := ih
    exact ⟨filtered_staysOver hf, _, _, trans_follows h (filterTrans_computes hf), trans_kicks hk⟩
  | zip strict hlen _ ih =>
    choose I K h hk using fun i => (ih i).2
    exact ⟨streamZip_staysOver fun i => (ih i).1, _, _, multi_follows h (zipTrans_computes hlen), multi_kicks hk⟩
  | mix sel _ ih =>
    choose I K h hk using fun i => (ih i).2
    exact ⟨streamMix_staysOver sel _, _, _, multi_follows h (mixTrans_computes sel _), multi_kicks hk⟩
  | interleave cycle hL _ ih =>
    choose I K h hk using fun i => (ih i).2
    exact ⟨streamInterleave_staysOver _ hL, _, _, renewed_follows (multi_follows h (ilTrans_computes _ hL)), interleave_kicks hk⟩
  | windowShuffle shuffle w hw hs hst ih =>
    obtain ⟨h0, I, K, h, hk⟩ := ih
    exact ⟨streamWindows_staysOver hw hs h0, _, _, anchor_follows h (winAnchor_computes hw hs h0), anchor_kicks hk⟩
  | pack pk order hord hp _ ih =>
    obtain ⟨h0, I, K, h, hk⟩ := ih
    exact ⟨packs_staysOver hord hp, _, _, anchor_follows h (packAnchor_computes hord hp), anchor_kicks hk⟩
  | flatMap f hf _ ih =>
    obtain ⟨h0, I, K, h, hk⟩ := ih
    exact ⟨flattens_staysOver hf, _, _, anchor_follows h (flatMapAnchor_computes hf), anchor_kicks hk⟩
  | repeated epochs len hx hn0 h1 _ _ ih =>
    obtain ⟨h0, I, K, h, hk⟩ := ih
    exact ⟨streamRepeat_staysOver hx hn0, _, _, anchor_follows h (repeatAnchor_computes hx hn0 h1), anchor_kicks hk⟩
  | repeatedEndless epochs hx h1 _ _ ih =>
    obtain ⟨h0, I, K, h, hk⟩ := ih
    exact ⟨h0, _, _, anchor_follows h (repeatAnchor_endless hx h1), anchor_kicks hk⟩
  | rebatch b drop hb hr hend _ ih =>
    obtain ⟨h0, I, K, h, hk⟩ := ih
    exact ⟨streamBatch_staysOver hb drop (concats_staysOver hr), _, _, anchor_follows h (rebatchAnchor_computes hr hb hend), anchor_kicks hk⟩

/-! ### The user -/

section
variable {c : ConcIter α} {x : Nat → Option α} {I : Nat → CMode → c.S → Prop} {K : Nat → c.C → Prop} {kick : c.S → c.S}

/-- The user whose calls are all those still to be made, `start_prefetch` left out. -/
def KickSys.plain (s : KickSys c) : UserSys c := { s.user with prog := s.user.prog ++ s.later.flatten }

theorem userStep_append {u v : UserSys c} (h : UserStep c u v) (rest : List Op) :
    UserStep c { u with prog := u.prog ++ rest } { v with prog := v.prog ++ rest } := by
  cases h with
  | thread t ht => exact .thread { u with prog := u.prog ++ rest } t ht
  | next ops t hm hp ht => exact .next { u with prog := u.prog ++ rest } (ops ++ rest) t hm (by simp [hp]) ht
  | ret r t hm ht => exact .ret { u with prog := u.prog ++ rest } r t hm ht
  | save ops hm hp => exact .save { u with prog := u.prog ++ rest } (ops ++ rest) hm (by simp [hp])
  | restore k ops ck t hm hp hk ht =>
    exact .restore { u with prog := u.prog ++ rest } k (ops ++ rest) ck t hm (by simp [hp]) hk ht
  | fresh k ops ck t hm hp hk ht =>
    exact .fresh { u with prog := u.prog ++ rest } k (ops ++ rest) ck t hm (by simp [hp]) hk ht
  | setRet t hm ht => exact .setRet { u with prog := u.prog ++ rest } t hm ht

/-- A step of the user with further calls behind is a step without them, unless the user has no calls left. -/
theorem userStep_of_append {u : UserSys c} {rest : List Op} {v : UserSys c} (h : UserStep c { u with prog := u.prog ++ rest } v)
    (hf : ¬ u.finished) : ∃ v', UserStep c u v' := by
  have hne : u.mode = .idle → ∃ o ops, u.prog = o :: ops := by
    intro hm
    cases hp : u.prog with
    | nil => exact absurd ⟨hm, hp⟩ hf
    | cons o ops => exact ⟨o, ops, rfl⟩
  cases h with
  | thread t ht => exact ⟨_, .thread u t ht⟩
  | next ops t hm hp ht =>
    obtain ⟨o, ops', ho⟩ := hne hm
    simp only [ho, List.cons_append, List.cons.injEq] at hp
    exact ⟨_, .next u ops' t hm (by rw [ho, hp.1]) ht⟩
  | ret r t hm ht => exact ⟨_, .ret u r t hm ht⟩
  | save ops hm hp =>
    obtain ⟨o, ops', ho⟩ := hne hm
    simp only [ho, List.cons_append, List.cons.injEq] at hp
    exact ⟨_, .save u ops' hm (by rw [ho, hp.1])⟩
  | restore k ops ck t hm hp hk ht =>
    obtain ⟨o, ops', ho⟩ := hne hm
    simp only [ho, List.cons_append, List.cons.injEq] at hp
    exact ⟨_, .restore u k ops' ck t hm (by rw [ho, hp.1]) hk ht⟩
  | fresh k ops ck t hm hp hk ht =>
    obtain ⟨o, ops', ho⟩ := hne hm
    simp only [ho, List.cons_append, List.cons.injEq] at hp
    exact ⟨_, .fresh u k ops' ck t hm (by rw [ho, hp.1]) hk ht⟩
  | setRet t hm ht => exact ⟨_, .setRet u t hm ht⟩

theorem kick_step_inv (h : Follows c x I K) (hk : Kicks c I kick) {total} {s t : KickSys c}
    (hs : UserInv x I K total s.plain) (ht : KickStep c kick s t) : UserInv x I K total t.plain := by
  cases ht with
  | other u v later huv => exact userInv_step h hs (userStep_append huv later.flatten)
  | start u ops later hf =>
    obtain ⟨n, ps, h1, h2, h3⟩ := hs
    obtain ⟨hm, hp⟩ := hf
    simp only [KickSys.plain, hm, hp, List.nil_append, List.flatten_cons] at h1 h2 h3
    refine ⟨n, ps, ?_, h2, ?_⟩
    · simp only [KickSys.plain, hm]
      exact hk n _ h1
    · simp only [KickSys.plain, hm]
      exact h3

theorem kick_acc (h : Follows c x I K) (hk : Kicks c I kick) {total} : ∀ (later : List (List Op)) (u : UserSys c),
    UserInv x I K total (KickSys.plain ⟨u, later⟩) → Acc (fun t s => KickStep c kick s t) ⟨u, later⟩ := by
  intro later
  induction later with
  | nil =>
    intro u hs
    have key : ∀ w, Acc (fun t s => UserStep c s t) w → ∀ u : UserSys c, KickSys.plain ⟨u, []⟩ = w →
        Acc (fun t s => KickStep c kick s t) ⟨u, []⟩ := by
      intro w hw
      induction hw with
      | intro w _ ih =>
        rintro u rfl
        refine Acc.intro _ fun t ht => ?_
        cases ht with
        | other u v later huv => exact ih _ (userStep_append huv _) v rfl
    exact key _ (user_acc h hs) u rfl
  | cons ops later ihl =>
    intro u hs
    have key : ∀ w, Acc (fun t s => UserStep c s t) w → ∀ u : UserSys c, KickSys.plain ⟨u, ops :: later⟩ = w →
        UserInv x I K total w → Acc (fun t s => KickStep c kick s t) ⟨u, ops :: later⟩ := by
      intro w hw
      induction hw with
      | intro w _ ih =>
        rintro u rfl hi
        refine Acc.intro _ fun t ht => ?_
        have hi' := kick_step_inv h hk hi ht
        cases ht with
        | other u v later huv => exact ih _ (userStep_append huv _) v rfl hi'
        | start u ops later hf => exact ihl _ hi'
    exact key _ (user_acc h hs) u rfl hs

theorem kick_complete (h : Follows c x I K) (hk : Kicks c I kick) {ops : List Op} {later : List (List Op)}
    {total : List (Option α)} (hspec : streamRun x 0 [] (ops ++ later.flatten) = some total) :
    (∀ s, KickRun c kick (kickInit c ops later) s →
      s.user.outs <+: total ∧ (s.finished → s.user.outs = total) ∧ (¬ s.finished → ∃ t, KickStep c kick s t)) ∧
    ∀ f : Nat → KickSys c, f 0 = kickInit c ops later → ¬ ∀ i, KickStep c kick (f i) (f (i + 1)) := by
  have h0 : UserInv x I K total (kickInit c ops later).plain := userInv_init h hspec
  constructor
  · intro s hrun
    have hs : UserInv x I K total s.plain := by
      induction hrun with
      | refl => exact h0
      | tail _ hst ih => exact kick_step_inv h hk ih hst
    obtain ⟨u, later'⟩ := s
    refine ⟨?_, ?_, ?_⟩
    · obtain ⟨n, ps, -, -, h3⟩ := hs
      revert h3
      simp only [KickSys.plain]
      cases u.mode <;> (rintro ⟨rest, -, rfl⟩; exact ⟨_, rfl⟩)
    · rintro ⟨⟨hm, hp⟩, hl⟩
      obtain ⟨n, ps, -, -, h3⟩ := hs
      dsimp only at hm hp hl
      simp only [KickSys.plain, hm, hp, hl, List.flatten_nil, List.append_nil, streamRun] at h3
      obtain ⟨rest, h4, h5⟩ := h3
      simp only [Option.some.injEq] at h4
      subst h4
      simpa using h5.symm
    · intro hf
      by_cases hu : u.finished
      · cases later' with
        | nil => exact absurd ⟨hu, rfl⟩ hf
        | cons ops' later' => exact ⟨_, .start u ops' later' hu⟩
      · have hne : ¬ (KickSys.plain ⟨u, later'⟩).finished := by
          rintro ⟨hm, hp⟩
          exact hu ⟨hm, (List.append_eq_nil_iff.1 hp).1⟩
        obtain ⟨v, hv⟩ := user_live h hs hne
        obtain ⟨v', hv'⟩ := userStep_of_append (rest := later'.flatten) hv hu
        exact ⟨_, .other u v' later' hv'⟩
  · intro f hf0 hall
    have hacc : Acc (fun t s => KickStep c kick s t) (f 0) := by
      rw [hf0]
      exact kick_acc h hk later _ h0
    have : ∀ s, Acc (fun t s => KickStep c kick s t) s → ∀ i, f i = s → False := by
      intro s hs
      induction hs with
      | intro s _ ih =>
        rintro i rfl
        exact ih _ (hall i) (i + 1) rfl
    exact this _ hacc 0 rfl

end
end Grain
