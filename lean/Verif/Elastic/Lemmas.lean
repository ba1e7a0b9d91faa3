import Verif.Elastic.Slots
import Verif.Interleave.Order
/-
Lemmas about elastic iterators.
-/
namespace Grain

/-! ### Saving -/

theorem runNexts_succ {it : Iter α} {F m : Nat} {s s1 s2 : it.S} {r : Res α} {rs : List (Res α)} (h1 : it.next F s = some (s1, r))
    (h2 : runNexts it F m s1 = some (s2, rs)) : runNexts it F (m + 1) s = some (s2, r :: rs) := by
  simp only [runNexts, h1, h2, Option.bind_eq_bind, Option.bind_some]

/-- Writing entries at different places. -/
theorem foldl_set_length (ix : Nat → Nat) (v : Nat → β) : ∀ (js : List Nat) (l : List β),
    (js.foldl (fun l j => l.set (ix j) (v j)) l).length = l.length := by
  intro js
  induction js with
  | nil => intro l; rfl
  | cons j js ih => intro l; rw [List.foldl_cons, ih, List.length_set]

theorem foldl_set_ne (ix : Nat → Nat) (v : Nat → β) (d : Nat) : ∀ (js : List Nat) (l : List β), (∀ j ∈ js, ix j ≠ d) →
    (js.foldl (fun l j => l.set (ix j) (v j)) l)[d]? = l[d]? := by
  intro js
  induction js with
  | nil => intro l _; rfl
  | cons j js ih =>
    intro l h
    rw [List.foldl_cons, ih _ (fun j hj => h j (List.mem_cons_of_mem _ hj)), List.getElem?_set_ne (h j List.mem_cons_self)]

theorem foldl_set_eq (ix : Nat → Nat) (v : Nat → β) (j0 : Nat) : ∀ (js : List Nat) (l : List β), j0 ∈ js →
    (∀ j ∈ js, ix j = ix j0 → j = j0) → ix j0 < l.length →
    (js.foldl (fun l j => l.set (ix j) (v j)) l)[ix j0]? = some (v j0) := by
  intro js
  induction js with
  | nil => intro l h; cases h
  | cons j js ih =>
    intro l hm hinj hlt
    rw [List.foldl_cons]
    by_cases hjs : j0 ∈ js
    · exact ih _ hjs (fun j hj => hinj j (List.mem_cons_of_mem _ hj)) (by rw [List.length_set]; exact hlt)
    · have hj : j0 = j := by
        rcases List.mem_cons.1 hm with h | h
        · exact h
        · exact absurd h hjs
      subst hj
      rw [foldl_set_ne]
      · rw [List.getElem?_set_self hlt]
      · intro j hj e
        have := hinj j (List.mem_cons_of_mem _ hj) e
        subst this
        exact hjs hj

section
variable {f : IterFam α} {xs : Nat → List (Py α)} {n L : Nat} {u : Bool}
  {At : Nat → f.S → Nat → Prop} {Ck : Nat → f.C → Nat → Prop} {En : Nat → f.C → Prop} {ow : Bool}
  (hsim : ∀ d, d < n → SimWhen (fun _ => u) (f.iter d) (xs d) true (At d) (Ck d)) (hLn : L ≤ n)
  (hEn : ∀ d c, d < n → endCk xs Ck d c → En d c)

include hsim hLn hEn

/-- The states saved for the datasets: what is left of each. -/
theorem getShards_ok {s : ILState f.S f.C} {A : AIL} (h : ILRel xs true At Ck En ow n L false s A) (hL : 0 < L) :
    ∃ pos, ShardsAt Ck n pos (ilGetShards f n L s).2 ∧
      ∀ d l sh, Left xs L A d l → (ilGetShards f n L s).2[d]? = some sh →
        l = if sh.exhausted then [] else (xs d).drop (pos d) := by
  obtain ⟨_, hck⟩ := il_get hsim hLn hEn h
  have hfut : (ilGet f n L s).1.future = (ilGet f n L s).2.future := rfl
  unfold ilGetShards
  dsimp only
  rw [hfut]
  generalize (ilGet f n L s).2 = c at hck
  have hinjL : ∀ j0, j0 < L → ∀ j ∈ List.range L, c.indices j = c.indices j0 → j = j0 :=
    fun j0 h0 j hj e => hck.idx.inj j j0 (List.mem_range.1 hj) h0 e
  have hnds := hck.nds
  have hge := hck.nds_ge
  have hle := hck.nds_le
  -- an entry of a dataset in use
  have hslot : ∀ (l0 : List (ShardState f.C)), l0.length = n → ∀ j, j < L →
      ((List.range L).foldl (fun l j => l.set (c.indices j) (⟨c.exhausted j, c.states j⟩ : ShardState f.C)) l0)[c.indices j]? =
        some ⟨c.exhausted j, c.states j⟩ := by
    intro l0 hl0 j hj
    have := hck.idx.lt j hj
    exact foldl_set_eq c.indices _ j _ l0 (List.mem_range.2 hj) (hinjL j hj) (by omega)
  -- the positions
  let pos : Nat → Nat := fun d =>
    open Classical in if h : ∃ j p, j < L ∧ A.slots j = some (d, p) then h.choose_spec.choose else A.starts d
  have hpos : ∀ j d p, j < L → A.slots j = some (d, p) → pos d = p := by
    intro j d p hj hs
    have hex : ∃ j p, j < L ∧ A.slots j = some (d, p) := ⟨j, p, hj, hs⟩
    simp only [pos, dif_pos hex]
    obtain ⟨h1, h2⟩ := hex.choose_spec.choose_spec
    -- both slots belong to dataset d
    have e1 : ∀ i q, i < L → A.slots i = some (d, q) → c.indices i = d := by
      intro i q hi hq
      have := hck.slot i hi
      rw [hq] at this
      generalize hc : c.indices i = x at this
      cases this
      rfl
    have key : ∀ i q, i < L → A.slots i = some (d, q) → q = p := by
      intro i q hi hq
      have := hck.idx.inj _ _ hi hj ((e1 _ _ hi hq).trans (e1 _ _ hj hs).symm)
      rw [this, hs] at hq
      exact (Prod.mk.inj (Option.some.inj hq)).2.symm
    exact key _ _ h1 h2
  have hposn : ∀ d, (∀ j p, j < L → A.slots j ≠ some (d, p)) → pos d = A.starts d := by
    intro d hd
    exact dif_neg (fun ⟨j, p, hj, hs⟩ => hd j p hj hs)
  -- the slots
  have hsl : ∀ j, j < L → (∃ k p, c.states j = some k ∧ c.exhausted j = false ∧ Ck (c.indices j) k p ∧ c.indices j < n ∧
        A.slots j = some (c.indices j, p)) ∨ (∃ k, c.states j = some k ∧ c.exhausted j = true ∧ A.slots j = none) := by
    intro j hj
    have := hck.slot j hj
    generalize hA : A.slots j = v at this
    cases this with
    | live k p h1 h2 h3 h4 => exact Or.inl ⟨k, p, h1, h2.resolve_right (by simp), h3, h4, rfl⟩
    | over k h1 h2 h3 h4 => exact Or.inr ⟨k, h1, h2, rfl⟩
  have hidxof : ∀ i d q, i < L → A.slots i = some (d, q) → c.indices i = d := by
    intro i d q hi hq
    rcases hsl i hi with ⟨k, p, _, _, _, _, e⟩ | ⟨k, _, _, e⟩
    · rw [e] at hq
      exact (Prod.mk.inj (Option.some.inj hq)).1
    · rw [e] at hq; cases hq
  -- a dataset that is not in use
  have hfree : ∀ d, (∀ j, j < L → c.indices j ≠ d) → ∀ (l0 : List (ShardState f.C)),
      ((List.range L).foldl (fun l j => l.set (c.indices j) (⟨c.exhausted j, c.states j⟩ : ShardState f.C)) l0)[d]? = l0[d]? :=
    fun d hd l0 => foldl_set_ne c.indices _ d _ l0 (fun j hj => hd j (List.mem_range.1 hj))
  refine ⟨pos, ⟨?_, ?_, ?_⟩, ?_⟩
  · rw [foldl_set_length]; simp
  · intro d sh hd hx
    by_cases hex : ∃ j, j < L ∧ c.indices j = d
    · obtain ⟨j, hj, rfl⟩ := hex
      rw [hslot _ (by simp) j hj] at hd
      cases hd
      rcases hsl j hj with ⟨k, p, h1, h2, h3, h4, h5⟩ | ⟨k, h1, h2, h3⟩
      · rw [hpos j _ p hj h5]
        exact ⟨k, h1, h3⟩
      · rw [h2] at hx; cases hx
    · have hno : ∀ j, j < L → c.indices j ≠ d := fun j hj e => hex ⟨j, hj, e⟩
      rw [hfree d hno] at hd
      have hdn := lt_of_getElem?_some hd
      simp only [List.length_map, List.length_range] at hdn
      rw [List.getElem?_map, List.getElem?_range hdn, Option.map_some] at hd
      rw [hposn d (fun j p hj hs => hno j hj (hidxof j d p hj hs))]
      by_cases hz : c.nextDs ≤ d
      · rw [if_pos hz] at hd
        rcases hck.fut d (by omega) with ⟨h1, h2⟩ | ⟨k, h1, h2, _⟩
        · rw [h1] at hd
          cases hd
          rw [h2]
          exact ⟨_, rfl, ((hsim d hdn).get (hsim d hdn).init).2⟩
        · rw [h1] at hd
          cases hd
          exact ⟨k, rfl, h2⟩
      · rw [if_neg hz] at hd
        cases hd
        cases hx
  · intro d sh hd hx
    by_cases hex : ∃ j, j < L ∧ c.indices j = d
    · obtain ⟨j, hj, rfl⟩ := hex
      rw [hslot _ (by simp) j hj] at hd
      cases hd
      rcases hsl j hj with ⟨k, p, h1, h2, h3, h4, h5⟩ | ⟨k, h1, h2, h3⟩
      · exact ⟨k, h1⟩
      · exact ⟨k, h1⟩
    · have hno : ∀ j, j < L → c.indices j ≠ d := fun j hj e => hex ⟨j, hj, e⟩
      rw [hfree d hno] at hd
      have hdn := lt_of_getElem?_some hd
      simp only [List.length_map, List.length_range] at hdn
      rw [List.getElem?_map, List.getElem?_range hdn, Option.map_some] at hd
      by_cases hz : c.nextDs ≤ d
      · rw [if_pos hz] at hd
        split at hd
        · cases hd; cases hx
        · cases hd; cases hx
      · rw [if_neg hz] at hd
        cases hd
        exact ⟨_, rfl⟩
  · intro d l sh hl hd
    by_cases hex : ∃ j, j < L ∧ c.indices j = d
    · obtain ⟨j, hj, rfl⟩ := hex
      rw [hslot _ (by simp) j hj] at hd
      cases hd
      rcases hsl j hj with ⟨k, p, h1, h2, h3, h4, h5⟩ | ⟨k, h1, h2, h3⟩
      · have hb : c.indices j < A.nextDs := by
          have := hck.idx.lt j hj
          omega
        simp only [h2]
        cases hl with
        | slot i q hi hs =>
          have := hpos i _ q hi hs
          rw [this]; simp
        | later hz => omega
        | over hz hno => exact absurd h5 (hno j p hj)
      · have hb : c.indices j < A.nextDs := by
          have := hck.idx.lt j hj
          omega
        simp only [h2, if_true]
        cases hl with
        | slot i q hi hs =>
          have := hck.idx.inj _ _ hi hj (hidxof i _ q hi hs)
          rw [this, h3] at hs
          cases hs
        | later hz => omega
        | over hz hno => rfl
    · have hno : ∀ j, j < L → c.indices j ≠ d := fun j hj e => hex ⟨j, hj, e⟩
      have hnos : ∀ j p, j < L → A.slots j ≠ some (d, p) := fun j p hj hs => hno j hj (hidxof j d p hj hs)
      rw [hfree d hno] at hd
      have hdn := lt_of_getElem?_some hd
      simp only [List.length_map, List.length_range] at hdn
      rw [List.getElem?_map, List.getElem?_range hdn, Option.map_some] at hd
      rw [hposn d hnos]
      by_cases hz : c.nextDs ≤ d
      · rw [if_pos hz] at hd
        have hx : sh.exhausted = false := by
          split at hd
          · cases hd; rfl
          · cases hd; rfl
        rw [hx]
        cases hl with
        | slot i q hi hs => exact absurd hs (hnos i q hi)
        | later hz => simp
        | over hz' _ => omega
      · rw [if_neg hz] at hd
        cases hd
        rw [if_pos rfl]
        cases hl with
        | slot i q hi hs => exact absurd hs (hnos i q hi)
        | later hz' => omega
        | over _ _ => rfl

/-- `m` calls of `next`. -/
theorem runNexts_ok (keep : Bool) {cycle : Nat} (hLe : min cycle n = L) (hL : 0 < L) : ∀ (m : Nat) {s : ILState f.S f.C} {A : AIL}
    {t : List (Nat × Py α)}, ILRel xs true At Ck En ow n L false s A → ATrace xs true n L A t → AWF n L A → A.nextDs ≤ n →
    ∃ s' A', Ev (fun F => runNexts (interleaveIter f n cycle keep) F m s =
        some (s', (t.take m).map (fun q => toRes q.2) ++ List.replicate (m - t.length) .stop)) ∧
      ILRel xs true At Ck En ow n L false s' A' ∧ ATrace xs true n L A' (t.drop m) ∧ AWF n L A' ∧ A'.nextDs ≤ n := by
  intro m
  induction m with
  | zero =>
    intro s A t hrel htr hw hle
    exact ⟨s, A, Ev.of_forall (fun F => by simp [runNexts]), hrel, by simpa using htr, hw, hle⟩
  | succ m ih =>
    intro s A t hrel htr hw hle
    have hbegin : ∀ s : ILState f.S f.C, ∀ F, (interleaveIter f n cycle keep).next F s = ilLoop f n L keep F F { s with started := true } := by
      intro s F
      simp only [interleaveIter, hLe, if_neg (show ¬ L = 0 by omega)]
    have hstart : ILRel xs true At Ck En ow n L false { s with started := true } A :=
      ⟨⟨hrel.core.cyc, hrel.core.cyc_lt, hrel.core.slot, hrel.core.pass, hrel.core.kept, hrel.core.nds, hrel.core.nds_le, hrel.core.fut, hrel.core.idx⟩, hrel.pf⟩
    cases htr with
    | limit h => cases h
    | @fin _ A' h1 _ =>
      obtain ⟨s1, k0, g1, _, g2⟩ := il_next hsim hLn hEn (keep := keep) h1 (by simp) hstart
      have hfix := h1.finished_fix rfl
      have hw' := h1.wf hL hw
      obtain ⟨s2, A2, e2, r2, t2, w2, n2⟩ := ih g2 (ATrace.fin hfix rfl) hw' (h1.nextDs hle)
      refine ⟨s2, A2, ((g1.ge k0).and e2).mono ?_, r2, by simpa using t2, w2, n2⟩
      rintro F ⟨⟨hF, e⟩, e2⟩
      have := e (F - k0)
      rw [Nat.sub_add_cancel hF] at this
      have hn1 : (interleaveIter f n cycle keep).next F s = some (s1, .stop) := (hbegin s F).trans this
      rw [runNexts_succ hn1 e2]
      simp [List.replicate_succ]
    | @cons _ A' d r t h0 h1 h2 =>
      obtain ⟨s1, k0, g1, _, g2⟩ := il_next hsim hLn hEn (keep := keep) h1 (by simp) hstart
      have hw' := h1.wf hL hw
      obtain ⟨s2, A2, e2, r2, t2, w2, n2⟩ := ih g2 h2 hw' (h1.nextDs hle)
      refine ⟨s2, A2, ((g1.ge k0).and e2).mono ?_, r2, by simpa using t2, w2, n2⟩
      rintro F ⟨⟨hF, e⟩, e2⟩
      have := e (F - k0)
      rw [Nat.sub_add_cancel hF] at this
      have hn1 : (interleaveIter f n cycle keep).next F s = some (s1, toRes r) := (hbegin s F).trans this
      rw [runNexts_succ hn1 e2]
      simp

end

end Grain
