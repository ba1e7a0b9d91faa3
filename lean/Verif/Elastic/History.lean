import Verif.Elastic.Hosts
/-
Phases and histories of an elastic job.
-/
namespace Grain

theorem Ev.forall_lt {P : Nat → Nat → Prop} : ∀ (c : Nat), (∀ i, i < c → Ev (P i)) → Ev (fun F => ∀ i, i < c → P i F) := by
  intro c
  induction c with
  | zero => intro _; exact Ev.of_forall (fun F i hi => by omega)
  | succ c ih =>
    intro h
    refine (ih (fun i hi => h i (by omega))).mono₂ (h c (by omega)) ?_
    intro F h1 h2 i hi
    by_cases hc : i = c
    · subst hc; exact h2
    · exact h1 i (by omega)

theorem mapM_some_of_forall {f : β → Option γ} {g : β → γ} : ∀ (l : List β), (∀ a ∈ l, f a = some (g a)) → l.mapM f = some (l.map g)
  | [], _ => rfl
  | a :: l, h => by
    rw [List.mapM_cons, h a List.mem_cons_self, mapM_some_of_forall l (fun b hb => h b (List.mem_cons_of_mem _ hb))]
    rfl

theorem ofDataset_append (d : Nat) (a b : List (Nat × Py α)) : ofDataset d (a ++ b) = ofDataset d a ++ ofDataset d b := by
  simp [ofDataset]

theorem ofDataset_none {d : Nat} {t : List (Nat × Py α)} (h : ∀ q ∈ t, q.1 ≠ d) : ofDataset d t = [] := by
  unfold ofDataset
  rw [List.filter_eq_nil_iff.2 (fun q hq => by simpa using h q hq)]
  rfl

theorem ofDataset_phase {d c : Nat} {t : Nat → List (Nat × Py α)} (hc : 0 < c) (h : ∀ i, i < c → ∀ q ∈ t i, q.1 % c = i) :
    ofDataset d (phaseReads c t) = ofDataset d (t (d % c)) := by
  have key : ∀ k, k ≤ c → ofDataset d ((List.range k).flatMap t) = if d % c < k then ofDataset d (t (d % c)) else [] := by
    intro k
    induction k with
    | zero => intro _; rfl
    | succ k ih =>
      intro hk
      rw [List.range_succ, List.flatMap_append, ofDataset_append, ih (by omega), List.flatMap_singleton]
      by_cases h1 : d % c < k
      · rw [if_pos h1, if_pos (by omega), ofDataset_none (t := t k), List.append_nil]
        intro q hq e
        have := h k (by omega) q hq
        rw [e] at this
        omega
      · rw [if_neg h1, List.nil_append]
        by_cases h2 : d % c = k
        · rw [if_pos (by omega), h2]
        · rw [if_neg (by omega), ofDataset_none (t := t k)]
          intro q hq e
          have := h k (by omega) q hq
          rw [e] at this
          omega
  rw [phaseReads, key c (Nat.le_refl _), if_pos (Nat.mod_lt _ hc)]

section
variable {f : IterFam α} {xs : Nat → List (Py α)} {D cycle : Nat}
  {At : Nat → f.S → Nat → Prop} {Ck : Nat → f.C → Nat → Prop}
  (hsim : ∀ d, d < D → SimWhen (fun _ => false) (f.iter d) (xs d) true (At d) (Ck d)) (hcyc : 0 < cycle)

include hsim hcyc

theorem phase_ok {c : Nat} (hc : 0 < c) (hcD : c ≤ D) {dir : Option (Nat → Option (ShardState f.C))} {rest : Nat → List (Py α)}
    (hst : StartAt (f := f) xs Ck D rest dir) (hgood : ∀ d, dir = some d → UsedUpFirst cycle c d) (m : Nat → Nat) :
    ∃ (t : Nat → List (Nat × Py α)) (dir' : Nat → Option (ShardState f.C)) (rest' : Nat → List (Py α)),
      Ev (fun F => elasticPhase f D cycle F dir c m = some ((List.range c).map (fun i => asResults (m i) (t i)), dir')) ∧
      (∀ i, i < c → (t i).length ≤ m i ∧ ∀ q ∈ t i, q.1 < D ∧ q.1 % c = i) ∧
      StartAt (f := f) xs Ck D rest' (some dir') ∧
      (∀ d, d < D → rest d = ofDataset d (phaseReads c t) ++ rest' d) ∧
      (∀ d, d < D → (t (d % c)).length < m (d % c) → rest' d = []) := by
  have hall : ∀ i, ∃ p : List (Nat × Py α) × List (ShardState f.C), i < c →
      Ev (fun F => elasticHost f D cycle c i F dir (m i) = some (asResults (m i) p.1, p.2)) ∧ p.1.length ≤ m i ∧
      (∀ q ∈ p.1, q.1 < D ∧ q.1 % c = i) ∧ p.2.length = hostLen D c i ∧
      ∀ l s, p.2[l]? = some s → ∃ rest', rest (l * c + i) = ofDataset (l * c + i) p.1 ++ rest' ∧
        (p.1.length < m i → rest' = []) ∧ (s.exhausted = true → rest' = []) ∧
        ∃ k, s.state = some k ∧ (s.exhausted = false → ∃ p, Ck (l * c + i) k p ∧ rest' = (xs (l * c + i)).drop p) := by
    intro i
    by_cases hi : i < c
    · obtain ⟨t, sh, h⟩ := host_ok hsim hcyc hc hcD hi hst hgood (m i)
      exact ⟨(t, sh), fun _ => h⟩
    · exact ⟨([], []), fun h => absurd h hi⟩
  obtain ⟨p, hp⟩ := Classical.axiomOfChoice hall
  -- the state and the rest of each dataset
  have hstate : ∀ d, ∃ q : ShardState f.C × List (Py α), d < D → (p (d % c)).2[d / c]? = some q.1 ∧
      rest d = ofDataset d (p (d % c)).1 ++ q.2 ∧ ((p (d % c)).1.length < m (d % c) → q.2 = []) ∧ (q.1.exhausted = true → q.2 = []) ∧
      ∃ k, q.1.state = some k ∧ (q.1.exhausted = false → ∃ p, Ck d k p ∧ q.2 = (xs d).drop p) := by
    intro d
    by_cases hd : d < D
    · have hmod := Nat.mod_lt d hc
      have hdm : d / c * c + d % c = d := by rw [Nat.mul_comm]; exact Nat.div_add_mod d c
      obtain ⟨_, _, _, h4, h5⟩ := hp (d % c) hmod
      have hlt : d / c < (p (d % c)).2.length := by
        rw [h4]
        exact (lt_hostLen hc).2 (by omega)
      have hget : (p (d % c)).2[d / c]? = some ((p (d % c)).2[d / c]) := List.getElem?_eq_getElem hlt
      obtain ⟨r, g1, g2, g3, g4⟩ := h5 _ _ hget
      rw [hdm] at g1 g4
      exact ⟨(_, r), fun _ => ⟨hget, g1, g2, g3, g4⟩⟩
    · exact ⟨(⟨false, none⟩, []), fun h => absurd h hd⟩
  obtain ⟨q, hq⟩ := Classical.axiomOfChoice hstate
  refine ⟨fun i => (p i).1, dirOf D (fun d => (q d).1), fun d => (q d).2, ?_, ?_, ?_, ?_, ?_⟩
  · refine (Ev.forall_lt c (fun i hi => (hp i hi).1)).mono ?_
    intro F hF
    unfold elasticPhase
    rw [mapM_some_of_forall (g := fun i => (asResults (m i) (p i).1, (p i).2)) _ (fun i hi => hF i (List.mem_range.1 hi))]
    rw [Option.bind_eq_bind, Option.bind_some, List.map_map]
    congr 2
    refine saveHosts_eq hc ?_
    intro i hi
    rw [List.getElem?_map, List.getElem?_range hi]
    change (p i).2 = _
    refine List.ext_getElem? ?_
    intro l
    by_cases hl : l < hostLen D c i
    · have hD := (lt_hostLen hc).1 hl
      have hmod : (l * c + i) % c = i := by rw [Nat.add_comm, Nat.add_mul_mod_self_right, Nat.mod_eq_of_lt hi]
      have hdiv : (l * c + i) / c = l := by
        rw [Nat.add_comm, Nat.add_mul_div_right _ _ hc, Nat.div_eq_of_lt hi, Nat.zero_add]
      have := (hq (l * c + i) hD).1
      rw [hmod, hdiv] at this
      rw [this, List.getElem?_map, List.getElem?_range hl]
      rfl
    · rw [List.getElem?_eq_none (by rw [(hp i hi).2.2.2.1]; omega), List.getElem?_eq_none (by simp; omega)]
  · intro i hi
    exact ⟨(hp i hi).2.1, (hp i hi).2.2.1⟩
  · refine ⟨_, rfl, ⟨?_, ?_⟩⟩
    · intro d hd
      obtain ⟨_, _, _, _, h⟩ := hq d hd
      exact h
    · intro d hd hx
      exact (hq d hd).2.2.2.1 hx
  · intro d hd
    rw [ofDataset_phase hc (fun i hi x hx => ((hp i hi).2.2.1 x hx).2)]
    exact (hq d hd).2.1
  · intro d hd
    exact (hq d hd).2.2.1

theorem history_ok : ∀ (phases : List (Nat × (Nat → Nat))) (dir : Option (Nat → Option (ShardState f.C))) (rest : Nat → List (Py α)),
    (∀ ph ∈ phases, 0 < ph.1 ∧ ph.1 ≤ D) → StartAt (f := f) xs Ck D rest dir →
    (∀ before ph after, phases = before ++ ph :: after → Ev (fun F => ∀ outs d,
      elasticHistory f D cycle F dir before = some (outs, some d) → UsedUpFirst cycle ph.1 d)) →
    ∃ (ts : List (Nat → List (Nat × Py α))) (dir' : Option (Nat → Option (ShardState f.C))) (rest' : Nat → List (Py α)),
      ts.length = phases.length ∧
      Ev (fun F => elasticHistory f D cycle F dir phases =
        some (List.zipWith (fun ph t => (List.range ph.1).map (fun i => asResults (ph.2 i) (t i))) phases ts, dir')) ∧
      (∀ p ∈ phases.zip ts, ∀ i, i < p.1.1 → (p.2 i).length ≤ p.1.2 i ∧ ∀ q ∈ p.2 i, q.1 < D ∧ q.1 % p.1.1 = i) ∧
      (∀ d, d < D → rest d = (List.zipWith (fun ph t => ofDataset d (phaseReads ph.1 t)) phases ts).flatten ++ rest' d) ∧
      (∀ p ∈ phases.zip ts, ∀ d, d < D → (p.2 (d % p.1.1)).length < p.1.2 (d % p.1.1) → rest' d = []) ∧
      StartAt (f := f) xs Ck D rest' dir' := by
  intro phases
  induction phases with
  | nil =>
    intro dir rest _ hst _
    exact ⟨[], dir, rest, rfl, Ev.of_forall (fun F => rfl), by simp, by simp, by simp, hst⟩
  | cons ph phases ih =>
    intro dir rest hph hst hgood
    obtain ⟨c, m⟩ := ph
    obtain ⟨hc, hcD⟩ := hph _ List.mem_cons_self
    dsimp only at hc hcD
    have hg : ∀ d, dir = some d → UsedUpFirst cycle c d := by
      rintro d rfl
      obtain ⟨k, hk⟩ := hgood [] (c, m) phases rfl
      exact hk k (Nat.le_refl _) [] d rfl
    obtain ⟨t, dir', rest', h1, h2, h3, h4, h5⟩ := phase_ok hsim hcyc hc hcD hst hg m
    obtain ⟨ts, dir'', rest'', g0, g1, g2, g3, g4, g5⟩ := ih (some dir') rest' (fun q hq => hph q (List.mem_cons_of_mem _ hq)) h3 (by
      intro before ph after he
      have := hgood ((c, m) :: before) ph after (by rw [he]; rfl)
      refine this.mono₂ h1 ?_
      intro F e1 e2 outs d e3
      refine e1 ((List.range c).map (fun i => asResults (m i) (t i)) :: outs) d ?_
      simp only [elasticHistory, e2, e3, Option.bind_eq_bind, Option.bind_some])
    refine ⟨t :: ts, dir'', rest'', by simp [g0], h1.mono₂ g1 ?_, ?_, ?_, ?_, g5⟩
    · intro F e1 e2
      simp only [elasticHistory, e1, e2, Option.bind_eq_bind, Option.bind_some, List.zipWith_cons_cons]
    · intro p hp
      rw [List.zip_cons_cons, List.mem_cons] at hp
      rcases hp with rfl | hp
      · exact h2
      · exact g2 p hp
    · intro d hd
      rw [h4 d hd, g3 d hd, List.zipWith_cons_cons, List.flatten_cons, List.append_assoc]
    · intro p hp d hd hlt
      rw [List.zip_cons_cons, List.mem_cons] at hp
      rcases hp with rfl | hp
      · have := h5 d hd hlt
        rw [g3 d hd] at this
        exact (List.append_eq_nil_iff.1 this).2
      · exact g4 p hp d hd hlt

omit hsim hcyc in
theorem reads_length_le {d : Nat} : ∀ (phases : List (Nat × (Nat → Nat))) (ts : List (Nat → List (Nat × Py α))),
    (∀ ph ∈ phases, 0 < ph.1) →
    (∀ p ∈ phases.zip ts, ∀ i, i < p.1.1 → (p.2 i).length ≤ p.1.2 i ∧ ∀ q ∈ p.2 i, q.1 < D ∧ q.1 % p.1.1 = i) →
    ((List.zipWith (fun ph t => ofDataset d (phaseReads ph.1 t)) phases ts).flatten).length ≤
      (phases.map (fun ph => ph.2 (d % ph.1))).sum
  | [], _, _, _ => by simp
  | _ :: _, [], _, _ => by simp
  | ph :: phases, t :: ts, h0, h => by
    have ih := reads_length_le (d := d) phases ts (fun q hq => h0 q (List.mem_cons_of_mem _ hq))
      (fun p hp => h p (by rw [List.zip_cons_cons]; exact List.mem_cons_of_mem _ hp))
    have h1 := h (ph, t) (by rw [List.zip_cons_cons]; exact List.mem_cons_self)
    have hc := h0 ph List.mem_cons_self
    rw [List.zipWith_cons_cons, List.flatten_cons, List.length_append, List.map_cons, List.sum_cons,
      ofDataset_phase hc (fun i hi q hq => ((h1 i hi).2 q hq).2)]
    have h2 : (ofDataset d (t (d % ph.1))).length ≤ (t (d % ph.1)).length := by
      unfold ofDataset
      rw [List.length_map]
      exact List.length_filter_le _ _
    exact Nat.add_le_add (Nat.le_trans h2 (h1 (d % ph.1) (Nat.mod_lt _ hc)).1) ih

/-- While no dataset can be used up, every checkpoint is one for which restoring is right. -/
theorem long_good {phases : List (Nat × (Nat → Nat))} (hph : ∀ ph ∈ phases, 0 < ph.1 ∧ ph.1 ≤ D)
    (hlong : ∀ d, d < D → (phases.dropLast.map (fun ph => ph.2 (d % ph.1))).sum < (xs d).length) :
    ∀ (k : Nat) before ph after, before.length = k → phases = before ++ ph :: after → Ev (fun F => ∀ outs d,
      elasticHistory f D cycle F none before = some (outs, some d) → UsedUpFirst cycle ph.1 d) := by
  intro k
  induction k using Nat.strongRecOn with
  | _ k ih =>
    intro before ph after hk he
    obtain ⟨ts, dir', rest', g0, g1, g2, g3, _, g5⟩ := history_ok hsim hcyc before none xs
      (fun q hq => hph q (by rw [he]; exact List.mem_append_left _ hq)) (fun _ _ => rfl) (by
        intro b ph' a hb
        refine ih b.length ?_ b ph' (a ++ ph :: after) rfl (by rw [he, hb]; simp)
        rw [← hk, hb]
        simp)
    refine g1.mono ?_
    intro F e outs d hd
    rw [e] at hd
    injection hd with hd
    injection hd with _ hd
    subst hd
    obtain ⟨sh, rfl, hat⟩ := g5
    intro e' s hs hex
    exfalso
    unfold dirOf at hs
    split at hs
    · rename_i hlt
      injection hs with hs
      subst hs
      have hnil := hat.over e' hlt hex
      have h3 := g3 e' hlt
      rw [hnil, List.append_nil] at h3
      have h4 := reads_length_le (d := e') before ts
        (fun q hq => (hph q (by rw [he]; exact List.mem_append_left _ hq)).1) g2
      rw [← h3] at h4
      have h5 := hlong e' hlt
      have h6 : (before.map (fun ph => ph.2 (e' % ph.1))).sum ≤ (phases.dropLast.map (fun ph => ph.2 (e' % ph.1))).sum := by
        rw [he, List.dropLast_append_of_ne_nil (by simp), List.map_append, List.sum_append]
        omega
      omega
    · cases hs

end

end Grain
