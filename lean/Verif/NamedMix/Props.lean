import Verif.NamedMix.Spec
import Verif.MapDs.PropsMix
import Verif.Iter.Example
/-
C91: a mixture of named datasets can be restarted with other components and weights.
-/
namespace Grain

section
variable {D : String → Iter α} {x : String → Nat → Option (Py α)} {At : ∀ k, (D k).S → Nat → Prop} {Ck : ∀ k, (D k).C → Nat → Prop}

/-- The object is at the ideal position. -/
def NamedAt (At : ∀ k, (D k).S → Nat → Prop) (s : NamedState D) (m : MixPos) : Prop :=
  (∀ k, At k (s.parents k) (m.pos k)) ∧ s.index = m.index ∧ s.stop = m.stop

/-- The state saves the ideal positions. -/
def NamedCkAt (Ck : ∀ k, (D k).C → Nat → Prop) (c : NamedCk D) (m : MixSaved) : Prop :=
  (∀ k, match c.1 k, m.pos k with
    | some c, some n => Ck k c n
    | none, none => True
    | _, _ => False) ∧ c.2.1 = m.index ∧ c.2.2 = m.stop

theorem prescribed_valid {ph : MixPhase} (h : ph.valid) (m : Nat) :
    ∃ d key k, datasetAndKey (m : Int) ph.weights = .ok (d, key) ∧ ph.names[d]? = some k ∧ prescribed ph m = some k := by
  obtain ⟨h1, _, h3, h4⟩ := h
  have hne : ph.weights ≠ [] := by
    intro hc
    rw [hc] at h3
    exact h1 (List.length_eq_zero_iff.1 h3.symm)
  obtain ⟨d, key, hd, hdn⟩ := mix_select_total ph.weights hne h4 m
  have hk : ph.names[d]? = some (ph.names[d]'(by omega)) := List.getElem?_eq_getElem _
  exact ⟨d, key, _, hd, hk, by unfold prescribed; rw [hd]; exact hk⟩

theorem namedMix_next (h : ∀ k, SimStream (D k) (x k) (At k) (Ck k)) {ph : MixPhase} (hv : ph.valid) {s : NamedState D} {m : MixPos}
    (hs : NamedAt At s m) :
    ∃ s', Ev (fun F => (namedMixIter D ph.names ph.weights).next F s = some (s', (idealMixNext x ph m).2)) ∧
      NamedAt At s' (idealMixNext x ph m).1 := by
  obtain ⟨h1, h2, h3⟩ := hs
  obtain ⟨d, key, k, hd, hk, hp⟩ := prescribed_valid hv m.index
  unfold idealMixNext
  cases hst : m.stop with
  | true =>
    refine ⟨s, Ev.of_forall (fun F => ?_), h1, h2, h3⟩
    show (if s.stop then _ else _) = _
    rw [h3, hst]
    rfl
  | false =>
    rw [hp]
    obtain ⟨sk, e1, e2⟩ := (h k).next (h1 k)
    have hat : ∀ n, streamPos (x k) (m.pos k) = n →
        ∀ k', At k' (Function.update s.parents k sk k') (Function.update m.pos k n k') := by
      rintro n rfl k'
      by_cases hkk : k' = k
      · subst hkk; simpa using e2
      · simpa [Function.update_of_ne hkk] using h1 k'
    have hnext : ∀ F, (D k).next F (s.parents k) = some (sk, streamRes (x k) (m.pos k)) →
        (namedMixIter D ph.names ph.weights).next F s =
          (match streamRes (x k) (m.pos k) with
            | .item a => some (⟨Function.update s.parents k sk, s.index + 1, s.stop⟩, .item a)
            | .stop => some (⟨Function.update s.parents k sk, s.index + 1, true⟩, .stop)
            | .fail e => some (⟨Function.update s.parents k sk, s.index + 1, true⟩, .fail e)) := by
      intro F hF
      simp only [namedMixIter, h3, hst, Bool.false_eq_true, if_false, h2, hd, hk, hF, Option.bind_eq_bind, Option.bind_some]
      rfl
    simp only [Bool.false_eq_true, if_false]
    cases hx : x k (m.pos k) with
    | none =>
      refine ⟨_, e1.mono (fun F hF => by rw [hnext F hF]; simp only [streamRes, hx]; rfl), ?_, by simp [h2], rfl⟩
      have := hat (m.pos k) (by simp [streamPos, hx])
      simpa using this
    | some r =>
      cases r with
      | ok a =>
        refine ⟨_, e1.mono (fun F hF => by rw [hnext F hF]; simp only [streamRes, hx]; rfl), ?_, by simp [h2], by simp [h3, hst]⟩
        exact hat (m.pos k + 1) (by simp [streamPos, hx])
      | error e =>
        refine ⟨_, e1.mono (fun F hF => by rw [hnext F hF]; simp only [streamRes, hx]; rfl), ?_, by simp [h2], rfl⟩
        exact hat (m.pos k + 1) (by simp [streamPos, hx])

theorem namedMix_run (h : ∀ k, SimStream (D k) (x k) (At k) (Ck k)) {ph : MixPhase} (hv : ph.valid) :
    ∀ (n : Nat) {s : NamedState D} {m : MixPos}, NamedAt At s m →
    ∃ s', Ev (fun F => implMixRun (namedMixIter D ph.names ph.weights) F n s = some (s', (idealMixRun x ph n m).2)) ∧
      NamedAt At s' (idealMixRun x ph n m).1
  | 0, s, m, hs => ⟨s, Ev.of_forall (fun _ => rfl), hs⟩
  | n + 1, s, m, hs => by
    obtain ⟨s1, e1, hs1⟩ := namedMix_next h hv hs
    obtain ⟨s2, e2, hs2⟩ := namedMix_run h hv n hs1
    refine ⟨s2, e1.mono₂ e2 (fun F h1 h2 => ?_), hs2⟩
    simp only [implMixRun, h1, h2, Option.bind_eq_bind, Option.bind_some, idealMixRun]

theorem namedSet_at (h : ∀ k, SimStream (D k) (x k) (At k) (Ck k)) {c : ∀ k, Option (D k).C} {p : String → Option Nat}
    (hc : ∀ k, match c k, p k with
      | some c, some n => Ck k c n
      | none, none => True
      | _, _ => False) :
    ∀ (names : List String) {s : ∀ k, (D k).S} {q : String → Nat}, (∀ k, At k (s k) (q k)) →
    ∃ s', Ev (fun F => namedSet D F c names s = some (s', none)) ∧
      ∀ k, At k (s' k) (if k ∈ names then (p k).getD (q k) else q k)
  | [], s, q, hs => ⟨s, Ev.of_forall (fun _ => rfl), fun k => by simpa using hs k⟩
  | k :: ks, s, q, hs => by
    have hk := hc k
    cases hck : c k with
    | none =>
      cases hpk : p k with
      | some n => rw [hck, hpk] at hk; exact hk.elim
      | none =>
        obtain ⟨s', e, hs'⟩ := namedSet_at h hc ks hs
        refine ⟨s', e.mono (fun F hF => by simp only [namedSet, hck]; exact hF), fun k' => ?_⟩
        by_cases hkk : k' = k
        · subst hkk
          have := hs' k'
          simpa [hpk] using this
        · have := hs' k'
          simpa [hkk] using this
    | some ck =>
      cases hpk : p k with
      | none => rw [hck, hpk] at hk; exact hk.elim
      | some n =>
        rw [hck, hpk] at hk
        obtain ⟨sk, e1, hsk⟩ := (h k).set (hs k) hk
        have hs2 : ∀ k', At k' (Function.update s k sk k') (Function.update q k n k') := by
          intro k'
          by_cases hkk : k' = k
          · subst hkk; simpa using hsk
          · simpa [Function.update_of_ne hkk] using hs k'
        obtain ⟨s', e, hs'⟩ := namedSet_at h hc ks hs2
        refine ⟨s', e1.mono₂ e (fun F h1 h2 => ?_), fun k' => ?_⟩
        · simp only [namedSet, hck, h1, Option.bind_eq_bind, Option.bind_some]
          exact h2
        · have := hs' k'
          by_cases hkk : k' = k
          · subst hkk
            simpa [hpk] using this
          · simpa [hkk, Function.update_of_ne hkk] using this

theorem namedMix_life (h : ∀ k, SimStream (D k) (x k) (At k) (Ck k)) : ∀ (phs : List MixPhase), (∀ ph ∈ phs, ph.valid) →
    ∀ {c : Option (NamedCk D)} {m : MixSaved},
    (match c with | none => m = ⟨fun _ => none, 0, false⟩ | some c => NamedCkAt Ck c m) →
    Ev (fun F => implMixLife D F c phs = some (idealMixLife x m phs))
  | [], _, _, _, _ => Ev.of_forall (fun _ => rfl)
  | ph :: phs, hv, c, m, hc => by
    have hv1 := hv ph List.mem_cons_self
    -- the start of the phase; positions of names outside the phase do not matter
    obtain ⟨s, e, hs⟩ : ∃ s, Ev (fun F => implMixStart D F ph c = some (s, none)) ∧
        NamedAt At s ⟨fun k => if k ∈ ph.names then (m.pos k).getD 0 else 0, m.index, m.stop⟩ := by
      cases c with
      | none =>
        have hm : m = ⟨fun _ => none, 0, false⟩ := hc
        subst hm
        refine ⟨_, Ev.of_forall (fun _ => rfl), fun k => ?_, rfl, rfl⟩
        have := (h k).init
        simp only [Option.getD_none, ite_self]
        exact this
      | some c =>
        obtain ⟨h1, h2, h3⟩ : NamedCkAt Ck c m := hc
        obtain ⟨s', e, hs'⟩ := namedSet_at h h1 ph.names (s := fun k => (D k).init) (q := fun _ => 0) (fun k => (h k).init)
        refine ⟨⟨s', c.2.1, c.2.2⟩, e.mono (fun F hF => ?_), hs', h2, h3⟩
        show ((namedSet D F c.1 ph.names (fun k => (D k).init)).bind _) = _
        rw [hF]
        rfl
    obtain ⟨s1, e1, hs1⟩ := namedMix_run h hv1 ph.count hs
    -- names outside the phase play no part
    have hcongr : ∀ (n : Nat) (p q : MixPos), (∀ k ∈ ph.names, p.pos k = q.pos k) → p.index = q.index → p.stop = q.stop →
        (idealMixRun x ph n p).2 = (idealMixRun x ph n q).2 ∧ (∀ k ∈ ph.names, (idealMixRun x ph n p).1.pos k = (idealMixRun x ph n q).1.pos k) ∧
          (idealMixRun x ph n p).1.index = (idealMixRun x ph n q).1.index ∧ (idealMixRun x ph n p).1.stop = (idealMixRun x ph n q).1.stop := by
      intro n
      induction n with
      | zero => intro p q h1 h2 h3; exact ⟨rfl, h1, h2, h3⟩
      | succ n ih =>
        intro p q h1 h2 h3
        have hstep : (idealMixNext x ph p).2 = (idealMixNext x ph q).2 ∧
            (∀ k ∈ ph.names, (idealMixNext x ph p).1.pos k = (idealMixNext x ph q).1.pos k) ∧
            (idealMixNext x ph p).1.index = (idealMixNext x ph q).1.index ∧ (idealMixNext x ph p).1.stop = (idealMixNext x ph q).1.stop := by
          obtain ⟨d, key, k, _, hk, hp⟩ := prescribed_valid hv1 q.index
          have hkn : k ∈ ph.names := List.mem_of_getElem? hk
          unfold idealMixNext
          rw [h2, h3, hp]
          cases q.stop with
          | true => exact ⟨rfl, h1, h2, h3⟩
          | false =>
            simp only [Bool.false_eq_true, if_false]
            rw [h1 k hkn]
            have hupd : ∀ v, ∀ k' ∈ ph.names, Function.update p.pos k v k' = Function.update q.pos k v k' := by
              intro v k' hk'
              by_cases hkk : k' = k
              · subst hkk; simp
              · simpa [Function.update_of_ne hkk] using h1 k' hk'
            cases x k (q.pos k) with
            | none => exact ⟨rfl, h1, rfl, rfl⟩
            | some r =>
              cases r with
              | ok a => exact ⟨rfl, hupd _, rfl, rfl⟩
              | error e => exact ⟨rfl, hupd _, rfl, rfl⟩
        obtain ⟨i1, i2, i3, i4⟩ := ih _ _ hstep.2.1 hstep.2.2.1 hstep.2.2.2
        refine ⟨?_, i2, i3, i4⟩
        simp only [idealMixRun]
        rw [hstep.1, i1]
    obtain ⟨g1, g2, g3, g4⟩ := hcongr ph.count ⟨fun k => if k ∈ ph.names then (m.pos k).getD 0 else 0, m.index, m.stop⟩
      ⟨fun k => (m.pos k).getD 0, m.index, m.stop⟩ (fun k hk => by simp [hk]) rfl rfl
    have hck : NamedCkAt Ck ((namedMixIter D ph.names ph.weights).get s1).2
        ⟨fun k => if k ∈ ph.names then some ((idealMixRun x ph ph.count ⟨fun k => (m.pos k).getD 0, m.index, m.stop⟩).1.pos k) else none,
          (idealMixRun x ph ph.count ⟨fun k => (m.pos k).getD 0, m.index, m.stop⟩).1.index,
          (idealMixRun x ph ph.count ⟨fun k => (m.pos k).getD 0, m.index, m.stop⟩).1.stop⟩ := by
      refine ⟨fun k => ?_, hs1.2.1.trans g3, hs1.2.2.trans g4⟩
      by_cases hk : k ∈ ph.names
      · simp only [namedMixIter, if_pos hk]
        rw [← g2 k hk]
        exact ((h k).get (hs1.1 k)).2
      · simp only [namedMixIter, if_neg hk]
    have hrest := namedMix_life h phs (fun ph' h' => hv ph' (List.mem_cons_of_mem _ h'))
      (c := some ((namedMixIter D ph.names ph.weights).get s1).2) hck
    refine (e.and e1).mono₂ hrest (fun F h1 h2 => ?_)
    obtain ⟨h1, h1'⟩ := h1
    unfold implMixLife
    dsimp only
    rw [h1]
    simp only [h1', h2, Option.bind_eq_bind, Option.bind_some, idealMixLife, g1]

end

/-- C91: over any number of restarts with any components and weights, the job receives what the ideal job receives: every
component whose name is in the saved state continues after its last element, every other one starts from the beginning. -/
theorem named_mix_restarts {D : String → Iter α} {x : String → Nat → Option (Py α)} (h : ∀ k, ResumesStream (D k) (x k))
    (phases : List MixPhase) (hv : ∀ ph ∈ phases, ph.valid) :
    Ev (fun F => implMixLife D F none phases = some (idealMixLife x ⟨fun _ => none, 0, false⟩ phases)) := by
  choose At Ck h using h
  exact namedMix_life h phases hv rfl

/-! ### What the ideal job receives -/

/-- Endless components whose elements are marked with name and number. -/
def marked (k : String) (n : Nat) : Option (Py (String × Nat)) := some (.ok (k, n))

theorem numbersOf_run {ph : MixPhase} (hv : ph.valid) (k : String) : ∀ (n : Nat) (m : MixPos), m.stop = false →
    let r := idealMixRun marked ph n m
    m.pos k ≤ r.1.pos k ∧ numbersOf k r.2 = List.range' (m.pos k) (r.1.pos k - m.pos k) ∧ r.1.stop = false ∧
      (k ∉ ph.names → r.1.pos k = m.pos k)
  | 0, m, hm => ⟨Nat.le_refl _, by simp [idealMixRun, numbersOf], hm, fun _ => rfl⟩
  | n + 1, m, hm => by
    obtain ⟨d, key, k', _, hk, hp⟩ := prescribed_valid hv m.index
    have hn : idealMixNext marked ph m = (⟨Function.update m.pos k' (m.pos k' + 1), m.index + 1, m.stop⟩, .item (k', m.pos k')) := by
      simp only [idealMixNext, hm, hp, marked, Bool.false_eq_true, if_false]
    obtain ⟨i1, i2, i3, i4⟩ := numbersOf_run hv k n ⟨Function.update m.pos k' (m.pos k' + 1), m.index + 1, m.stop⟩ hm
    simp only [idealMixRun, hn]
    generalize idealMixRun marked ph n ⟨Function.update m.pos k' (m.pos k' + 1), m.index + 1, m.stop⟩ = r at *
    by_cases hkk : k' = k
    · subst hkk
      simp only [Function.update_self] at i1 i2 i4
      refine ⟨by omega, ?_, i3, fun hc => absurd (List.mem_of_getElem? hk) hc⟩
      have : numbersOf k' (Res.item (k', m.pos k') :: r.2) = m.pos k' :: numbersOf k' r.2 := by simp [numbersOf]
      rw [this, i2, show r.1.pos k' - m.pos k' = (r.1.pos k' - (m.pos k' + 1)) + 1 by omega, List.range'_succ]
    · dsimp only at i1 i2 i4
      rw [Function.update_of_ne (Ne.symm hkk)] at i1 i2 i4
      refine ⟨i1, ?_, i3, i4⟩
      have : numbersOf k (Res.item (k', m.pos k') :: r.2) = numbersOf k r.2 := by simp [numbersOf, hkk]
      rw [this, i2]

theorem numbersOf_append (k : String) (a b : List (Res (String × Nat))) : numbersOf k (a ++ b) = numbersOf k a ++ numbersOf k b := by
  simp [numbersOf]

theorem numbersOf_kept (k : String) : ∀ (phases : List MixPhase), (∀ ph ∈ phases, ph.valid ∧ k ∈ ph.names) → ∀ (c : MixSaved), c.stop = false →
    ∃ n, numbersOf k (idealMixLife marked c phases).flatten = List.range' ((c.pos k).getD 0) n
  | [], _, c, _ => ⟨0, rfl⟩
  | ph :: phs, hv, c, hc => by
    obtain ⟨hv1, hk⟩ := hv ph List.mem_cons_self
    obtain ⟨i1, i2, i3, _⟩ := numbersOf_run hv1 k ph.count ⟨fun k => (c.pos k).getD 0, c.index, c.stop⟩ hc
    simp only [idealMixLife]
    generalize idealMixRun marked ph ph.count ⟨fun k => (c.pos k).getD 0, c.index, c.stop⟩ = r at *
    obtain ⟨n, hn⟩ := numbersOf_kept k phs (fun ph' h' => hv ph' (List.mem_cons_of_mem _ h'))
      ⟨fun k => if k ∈ ph.names then some (r.1.pos k) else none, r.1.index, r.1.stop⟩ i3
    rw [List.flatten_cons, numbersOf_append, hn, i2]
    simp only [hk, if_true, Option.getD_some]
    refine ⟨(r.1.pos k - (c.pos k).getD 0) + n, ?_⟩
    rw [List.range'_append_1 .. |>.symm]
    congr 2
    exact (Nat.add_sub_cancel' i1).symm

theorem numbersOf_absent (k : String) (tail : List MixPhase) (htail : ∀ ph ∈ tail, ph.valid ∧ k ∈ ph.names) : ∀ (phases : List MixPhase),
    (∀ ph ∈ phases, ph.valid ∧ k ∉ ph.names) → ∀ (c : MixSaved), c.stop = false → c.pos k = none →
    ∃ n, numbersOf k (idealMixLife marked c (phases ++ tail)).flatten = List.range n
  | [], _, c, hc, hp => by
    obtain ⟨n, hn⟩ := numbersOf_kept k tail htail c hc
    refine ⟨n, ?_⟩
    rw [List.nil_append, hn, hp, Option.getD_none, ← List.range_eq_range']
  | ph :: phs, hv, c, hc, hp => by
    obtain ⟨hv1, hk⟩ := hv ph List.mem_cons_self
    obtain ⟨i1, i2, i3, i4⟩ := numbersOf_run hv1 k ph.count ⟨fun k => (c.pos k).getD 0, c.index, c.stop⟩ hc
    simp only [List.cons_append, idealMixLife]
    generalize idealMixRun marked ph ph.count ⟨fun k => (c.pos k).getD 0, c.index, c.stop⟩ = r at *
    obtain ⟨n, hn⟩ := numbersOf_absent k tail htail phs (fun ph' h' => hv ph' (List.mem_cons_of_mem _ h'))
      ⟨fun k => if k ∈ ph.names then some (r.1.pos k) else none, r.1.index, r.1.stop⟩ i3 (by simp [hk])
    refine ⟨n, ?_⟩
    rw [List.flatten_cons, numbersOf_append, hn, i2, i4 hk]
    simp

/-- C91: a component that joins the job at some restart (or is there from the start) and stays delivers its elements 0, 1, 2, …, none
lost and none repeated, whatever else joins or leaves and however the weights change. -/
theorem named_mix_no_loss {D : String → Iter (String × Nat)} (h : ∀ k, ResumesStream (D k) (marked k)) (k : String)
    (before phases : List MixPhase) (hb : ∀ ph ∈ before, ph.valid ∧ k ∉ ph.names) (hv : ∀ ph ∈ phases, ph.valid ∧ k ∈ ph.names) :
    ∃ n, Ev (fun F => ∃ outs, implMixLife D F none (before ++ phases) = some outs ∧ numbersOf k outs.flatten = List.range n) := by
  obtain ⟨n, hn⟩ := numbersOf_absent k phases hv before hb ⟨fun _ => none, 0, false⟩ rfl rfl
  refine ⟨n, (named_mix_restarts h (before ++ phases) ?_).mono (fun F hF => ⟨_, hF, hn⟩)⟩
  intro ph hph
  rcases List.mem_append.1 hph with h1 | h1
  · exact (hb ph h1).1
  · exact (hv ph h1).1

/-! ### Weights -/

theorem numbersOf_length {ph : MixPhase} (hv : ph.valid) {d : Nat} {k : String} (hk : ph.names[d]? = some k) :
    ∀ (n : Nat) (m : MixPos), m.stop = false →
      (numbersOf k (idealMixRun marked ph n m).2).length = drawn ph.weights d m.index (m.index + n) ∧
        (idealMixRun marked ph n m).2.length = n ∧ (idealMixRun marked ph n m).1.index = m.index + n
  | 0, m, _ => by simp [idealMixRun, numbersOf, drawn]
  | n + 1, m, hm => by
    obtain ⟨d', key, k', hd, hk', hp⟩ := prescribed_valid hv m.index
    have hn : idealMixNext marked ph m = (⟨Function.update m.pos k' (m.pos k' + 1), m.index + 1, m.stop⟩, .item (k', m.pos k')) := by
      simp only [idealMixNext, hm, hp, marked, Bool.false_eq_true, if_false]
    obtain ⟨i1, i2, i3⟩ := numbersOf_length hv hk n ⟨Function.update m.pos k' (m.pos k' + 1), m.index + 1, m.stop⟩ hm
    simp only [idealMixRun, hn]
    generalize idealMixRun marked ph n ⟨Function.update m.pos k' (m.pos k' + 1), m.index + 1, m.stop⟩ = r at *
    dsimp only at i1 i2 i3
    refine ⟨?_, by simp [i2], by rw [i3]; omega⟩
    have hdd : d' = d ↔ k' = k := by
      have hlt := (List.getElem?_eq_some_iff.1 hk).1
      constructor
      · rintro rfl; exact Option.some.inj (hk'.symm.trans hk)
      · rintro rfl; exact ((List.getElem?_inj hlt hv.2.1).1 (hk.trans hk'.symm)).symm
    have hr : drawn ph.weights d m.index (m.index + (n + 1)) =
        (if d' = d then 1 else 0) + drawn ph.weights d (m.index + 1) (m.index + 1 + n) := by
      unfold drawn
      rw [show m.index + (n + 1) - m.index = n + 1 by omega, show m.index + 1 + n - (m.index + 1) = n by omega, List.range'_succ,
        List.filter_cons]
      simp only [hd, beq_iff_eq]
      by_cases hc : d' = d
      · simp [hc]; omega
      · simp [hc]
    rw [hr, ← i1]
    by_cases hkk : k' = k
    · simp [numbersOf, hkk, hdd.2 hkk]; omega
    · have hne : ¬ d' = d := fun hc => hkk (hdd.1 hc)
      simp [numbersOf, hkk, hne]

theorem drawn_window (ws : List Nat) (hpos : ∀ p ∈ ws, 0 < p) {d w : Nat} (hw : ws[d]? = some w) (a n : Nat) :
    drawn ws d a (a + n) * ws.sum < n * w + (d + 1) * ws.sum ∧ n * w < (drawn ws d a (a + n) + d + 1) * ws.sum := by
  have h1 := mix_bounded_drift ws hpos d w a hw
  have h2 := mix_bounded_drift ws hpos d w (a + n) hw
  have hs : drawn ws d 0 (a + n) = drawn ws d 0 a + drawn ws d a (a + n) := by
    unfold drawn
    rw [← List.length_append, ← List.filter_append]
    congr 2
    rw [show a + n - 0 = a + n by omega, show a - 0 = a by omega, show a + n - a = n by omega]
    have := List.range'_append_1 (s := 0) (m := a) (n := n)
    rw [Nat.zero_add] at this
    exact this.symm
  rw [hs] at h2
  simp only [Nat.add_mul] at *
  omega

/-- C91: after every restart the new weights are followed: among the elements read until the next restart, the share of each component
differs from that of its weight by less than `d + 1` elements, `d` being its place in the mixture. -/
theorem named_mix_weights {D : String → Iter (String × Nat)} (h : ∀ k, ResumesStream (D k) (marked k)) (phases : List MixPhase)
    (hv : ∀ ph ∈ phases, ph.valid) :
    Ev (fun F => ∃ outs, implMixLife D F none phases = some outs ∧
      ∀ (j : Nat) (ph : MixPhase) rs, phases[j]? = some ph → outs[j]? = some rs → rs.length = ph.count ∧
        ∀ (d : Nat) (k : String) (w : Nat), ph.names[d]? = some k → ph.weights[d]? = some w →
          (numbersOf k rs).length * ph.weights.sum < ph.count * w + (d + 1) * ph.weights.sum ∧
          ph.count * w < ((numbersOf k rs).length + d + 1) * ph.weights.sum) := by
  refine (named_mix_restarts h phases hv).mono (fun F hF => ⟨_, hF, ?_⟩)
  clear hF
  suffices hgen : ∀ (phases : List MixPhase), (∀ ph ∈ phases, ph.valid) → ∀ (c : MixSaved), c.stop = false →
      ∀ (j : Nat) (ph : MixPhase) rs, phases[j]? = some ph → (idealMixLife marked c phases)[j]? = some rs → rs.length = ph.count ∧
        ∀ (d : Nat) (k : String) (w : Nat), ph.names[d]? = some k → ph.weights[d]? = some w →
          (numbersOf k rs).length * ph.weights.sum < ph.count * w + (d + 1) * ph.weights.sum ∧
          ph.count * w < ((numbersOf k rs).length + d + 1) * ph.weights.sum by
    exact hgen phases hv _ rfl
  intro phases
  induction phases with
  | nil => intro _ c _ j ph rs hj; simp at hj
  | cons ph0 phs ih =>
    intro hv c hc j ph rs hj hrs
    have hv0 := hv ph0 List.mem_cons_self
    simp only [idealMixLife] at hrs
    cases j with
    | zero =>
      simp only [List.getElem?_cons_zero, Option.some.injEq] at hj hrs
      subst hj hrs
      have hlen : 0 < ph0.names.length := List.length_pos_iff.2 hv0.1
      refine ⟨(numbersOf_length hv0 (List.getElem?_eq_getElem hlen) ph0.count _ hc).2.1, fun d k w hk hw => ?_⟩
      rw [(numbersOf_length hv0 hk ph0.count ⟨fun k => (c.pos k).getD 0, c.index, c.stop⟩ hc).1]
      exact drawn_window ph0.weights hv0.2.2.2 hw _ _
    | succ j =>
      simp only [List.getElem?_cons_succ] at hj hrs
      exact ih (fun ph' h' => hv ph' (List.mem_cons_of_mem _ h')) _
        (numbersOf_run hv0 "" ph0.count ⟨fun k => (c.pos k).getD 0, c.index, c.stop⟩ hc).2.2.1 j ph rs hj hrs

/-! ### What restarts do not do -/

/-- Finding: a component that is not in the state is left alone by `set_state`; it starts from the beginning only if the iterator is
new. -/
theorem named_mix_restore_keeps {D : String → Iter α} {names : List String} {proportions : List Nat} {F : Nat}
    {s s' : (namedMixIter D names proportions).S} {c : NamedCk D} {e : Option Err} {k : String} (hk : c.1 k = none)
    (h : (namedMixIter D names proportions).set F s c = some (s', e)) : NamedState.parents s' k = NamedState.parents s k := by
  have hset : ∀ (ks : List String) (s s' : ∀ k, (D k).S) (e : Option Err), namedSet D F c.1 ks s = some (s', e) → s' k = s k := by
    intro ks
    induction ks with
    | nil => intro s s' e h; cases h; rfl
    | cons a ks ih =>
      intro s s' e h
      cases hc : c.1 a with
      | none => simp only [namedSet, hc] at h; exact ih _ _ _ h
      | some ck =>
        have hne : k ≠ a := by rintro rfl; rw [hk] at hc; cases hc
        simp only [namedSet, hc, Option.bind_eq_bind, Option.bind_eq_some_iff] at h
        obtain ⟨⟨sk, r⟩, _, h⟩ := h
        cases r with
        | none =>
          have := ih _ _ _ h
          rwa [Function.update_of_ne hne] at this
        | some e =>
          cases h
          exact Function.update_of_ne hne _ _
  simp only [namedMixIter, Option.bind_eq_bind, Option.bind_eq_some_iff] at h
  obtain ⟨⟨q, r⟩, hq, h⟩ := h
  have := hset _ _ _ _ hq
  cases r <;> (cases h; exact this)

/-- Finding: a state saved after the end of the mixture (one component was exhausted) ends every mixture it is restored into, even if the
exhausted component is no longer there. -/
theorem named_mix_stays_over {D : String → Iter α} {names : List String} {proportions : List Nat} {F : Nat}
    {s s' : (namedMixIter D names proportions).S} {c : NamedCk D} (hc : c.2.2 = true)
    (h : (namedMixIter D names proportions).set F s c = some (s', none)) (F' : Nat) :
    (namedMixIter D names proportions).next F' s' = some (s', .stop) := by
  simp only [namedMixIter, Option.bind_eq_bind, Option.bind_eq_some_iff] at h
  obtain ⟨⟨q, r⟩, _, h⟩ := h
  cases r with
  | some e => cases h
  | none =>
    cases h
    show (if c.2.2 then _ else _) = _
    rw [hc]
    rfl

/-! ### Concrete cases -/

/-- Four elements of the dataset called `k`. -/
def fourOf (k : String) : List (Py (String × Nat)) := (List.range 4).map (fun n => .ok (k, n))

def fourIter (k : String) : Iter (String × Nat) := listIter (fourOf k)

/-- The first phase has the components a and b, the second b and c with the weights 1 and 2, the third a and b again. -/
def threeMixPhases : List MixPhase := [⟨["a", "b"], [1, 1], 3⟩, ⟨["b", "c"], [1, 2], 3⟩, ⟨["a", "b"], [1, 1], 2⟩]

example : ∀ ph ∈ threeMixPhases, ph.valid := by simp [threeMixPhases, MixPhase.valid]

example : ∀ k, ResumesStream (fourIter k) (fun n => (fourOf k)[n]?) := fun k => (listIter_resumes (fourOf k)).stream

/-- An endless dataset. -/
def countIter (k : String) : Iter (String × Nat) where
  S := Nat
  C := Nat
  init := 0
  next _ s := some (s + 1, .item (k, s))
  get s := (s, s)
  set _ _ c := some (c, none)

example : ∀ k, ResumesStream (countIter k) (marked k) := fun k =>
  ⟨fun (s : Nat) n => s = n, fun (c : Nat) n => c = n,
    { init := rfl
      next := fun {_ n} hs => ⟨Nat.succ n, Ev.of_forall (fun _ => by cases hs; rfl), rfl⟩
      get := fun hs => ⟨hs, hs⟩
      set := fun {_ _ c _} _ hc => ⟨c, Ev.of_forall (fun _ => rfl), hc⟩ }⟩

/-- The component b continues at each restart, c starts from the beginning, and so does a in the third phase, since the second did not
save it. -/
example : idealMixLife (fun k n => (fourOf k)[n]?) ⟨fun _ => none, 0, false⟩ threeMixPhases =
    [[.item ("a", 0), .item ("b", 0), .item ("a", 1)], [.item ("b", 1), .item ("c", 0), .item ("c", 1)],
     [.item ("a", 0), .item ("b", 2)]] := by decide +kernel

/-- Finding, concretely: a state of a mixture of a alone, restored into an iterator over a and b that has been read, does not make b start
from the beginning; restored into a new iterator it does. -/
theorem named_mix_used_not_reset :
    ∃ (c : NamedCk fourIter) (s s' t : NamedState fourIter), ∀ F,
      ((namedMixIter fourIter ["a"] [1]).get (namedMixIter fourIter ["a"] [1]).init).2 = c ∧
      implMixRun (namedMixIter fourIter ["a", "b"] [1, 1]) F 2 (namedMixIter fourIter ["a", "b"] [1, 1]).init =
        some (s, [.item ("a", 0), .item ("b", 0)]) ∧
      (namedMixIter fourIter ["a", "b"] [1, 1]).set F s c = some (s', none) ∧
      (∃ u, implMixRun (namedMixIter fourIter ["a", "b"] [1, 1]) F 2 s' = some (u, [.item ("a", 0), .item ("b", 1)])) ∧
      (namedMixIter fourIter ["a", "b"] [1, 1]).set F (namedMixIter fourIter ["a", "b"] [1, 1]).init c = some (t, none) ∧
      (∃ u, implMixRun (namedMixIter fourIter ["a", "b"] [1, 1]) F 2 t = some (u, [.item ("a", 0), .item ("b", 0)])) := by
  refine ⟨_, _, _, _, fun F => ⟨rfl, rfl, rfl, ⟨_, rfl⟩, rfl, ⟨_, rfl⟩⟩⟩

end Grain
