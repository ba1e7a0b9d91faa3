import Verif.Cts.Sim
/-
Concat-then-split: the groups of rows of a run that ends without an error.
-/
namespace Grain

variable {τ : Type}
variable {cfg : CtsCfg τ} {p : Iter (List (CtsVal τ))} {es : List (List (CtsVal τ))}
variable {pAt : p.S → Nat → Prop} {pCk : p.C → Nat → Prop}

/-- When the function on positions has no result, the loop raises. -/
theorem ctsLoop_err (hp : Sim p (es.map .ok) true pAt pCk) : ∀ (rest : List (List (CtsVal τ))) (q : Nat) (ps : p.S)
    (buffer : List (CtsBody τ)) (tokens : List Nat) (queue : List (List (CtsCol τ))),
    es.drop q = rest → q ≤ es.length → (∀ b ∈ buffer, ∀ o ∈ b.slices, SlOk o) → pAt ps q →
    pureLoop cfg true rest q (buffer.map CtsBody.norm) tokens queue = none →
    ∃ l' e k, ∀ F n, k ≤ F → k ≤ n → ctsLoop cfg p F n ps buffer tokens queue = some (l', some e) := by
  intro rest
  induction rest with
  | nil => intro q ps buffer tokens queue hd hq hb hat h; simp [pureLoop] at h
  | cons vals rest ih =>
    intro q ps buffer tokens queue hd hq hb hat h
    have hlt : q < es.length := by
      have := congrArg List.length hd
      simp at this; omega
    have hget : (es.map (Except.ok : _ → Py _))[q]? = some (.ok vals) := by
      have := congrArg (fun l => l[0]?) hd
      simp only [List.getElem?_drop, Nat.add_zero, List.getElem?_cons_zero] at this
      simp [this]
    have hd' : es.drop (q + 1) = rest := by
      rw [← List.tail_drop, hd]; rfl
    obtain ⟨g1, g2⟩ := hp.get hat
    obtain ⟨ps', ⟨k, hk⟩, hat'⟩ := hp.next_item g1 hget
    simp only [pureLoop] at h
    split at h
    · rename_i hsf
      cases hpk : packBodies cfg [⟨vals, emptySlices cfg⟩] with
      | error e =>
        refine ⟨⟨ps', none, buffer, queue, false⟩, e, k + 1, ?_⟩
        intro F n hF hn
        obtain ⟨n, rfl⟩ : ∃ m, n = m + 1 := ⟨n - 1, by omega⟩
        simp only [ctsLoop, hk F (by omega), Option.bind_eq_bind, Option.bind_some, toRes, hsf, if_true, hpk]
      | ok row =>
        rw [hpk] at h
        obtain ⟨l', e, k', hk'⟩ := ih _ ps' _ _ _ hd' hlt hb hat' h
        refine ⟨l', e, k + k' + 1, ?_⟩
        intro F n hF hn
        obtain ⟨n, rfl⟩ : ∃ m, n = m + 1 := ⟨n - 1, by omega⟩
        simp only [ctsLoop, hk F (by omega), Option.bind_eq_bind, Option.bind_some, toRes, hsf, if_true, hpk]
        exact hk' F n (by omega) (by omega)
    · rename_i hsf
      have hfo := fresh_ok cfg vals
      have hok := maybeAdd_ok cfg hfo buffer tokens hb
      have hnorm := maybeAdd_norm cfg hfo.1 buffer tokens
      rw [fresh_norm] at hnorm
      rw [hnorm] at h
      cases hm : maybeAdd cfg ⟨vals, emptySlices cfg⟩ buffer tokens with
      | mk o x =>
        obtain ⟨buf', tok'⟩ := x
        rw [hm] at h hok
        cases o with
        | none =>
          obtain ⟨l', e, k', hk'⟩ := ih _ ps' _ _ _ hd' hlt hok.2 hat' h
          refine ⟨l', e, k + k' + 1, ?_⟩
          intro F n hF hn
          obtain ⟨n, rfl⟩ : ∃ m, n = m + 1 := ⟨n - 1, by omega⟩
          simp only [ctsLoop, hk F (by omega), Option.bind_eq_bind, Option.bind_some, toRes]
          rw [if_neg hsf, hm]
          exact hk' F n (by omega) (by omega)
        | some r => cases h

theorem ctsRead_err (hp : Sim p (es.map .ok) true pAt pCk) {pt : CtsPt τ} (hpt : PtOk cfg es pt) {s : CtsState τ p.S p.C}
    (hat : pAt s.parent pt.1) (hrem : RemRel cfg pCk s.rem pt.2) (h : pureRead cfg true es pt = none) :
    ∃ l' e, Ev (fun F => ctsRead cfg p F s = some (l', some e)) := by
  obtain ⟨q, rem⟩ := pt
  unfold pureRead at h
  unfold ctsRead
  cases hs : s.rem with
  | none =>
    rw [hs] at hrem
    cases rem with
    | some ib => cases hrem
    | none =>
      obtain ⟨l', e, k, hk⟩ := ctsLoop_err hp _ q s.parent [] _ _ rfl hpt.1 (by intro b hb; cases hb) hat h
      exact ⟨l', e, k, fun F hF => hk F F hF hF⟩
  | some cb =>
    obtain ⟨pc, b⟩ := cb
    rw [hs] at hrem
    cases rem with
    | none => cases hrem
    | some ib =>
      obtain ⟨i, b'⟩ := ib
      obtain ⟨hpc, rfl, hbo⟩ := hrem
      have hok := maybeAdd_ok cfg hbo [] (cfg.feats.map (fun _ => 0)) (by intro b hb; cases hb)
      have hnorm := maybeAdd_norm cfg hbo.1 [] (cfg.feats.map (fun _ => 0))
      simp only [List.map_nil] at hnorm
      simp only [hnorm] at h
      cases hm : maybeAdd cfg b [] (cfg.feats.map (fun _ => 0)) with
      | mk o x =>
        obtain ⟨buf', tok'⟩ := x
        rw [hm] at h hok
        cases o with
        | none =>
          obtain ⟨l', e, k, hk⟩ := ctsLoop_err hp _ q s.parent buf' _ _ rfl hpt.1 hok.2 hat h
          exact ⟨l', e, k, fun F hF => by simp only [hm]; exact hk F F hF hF⟩
        | some r => cases h

/-- When there is no refill, or an empty one before the end, the call raises. -/
theorem ctsNext_err (hp : Sim p (es.map .ok) true pAt pCk) {pt : CtsPt τ} (hpt : PtOk cfg es pt) {s : CtsState τ p.S p.C}
    (hat : pAt s.parent pt.1) (hrem : RemRel cfg pCk s.rem pt.2) (hq : s.queue = []) (hstop : s.stop = false)
    (h : ∀ outs pt' st, pureRefill cfg true es pt = some (outs, pt', st) → outs = [] ∧ st = false) :
    ∃ s' e, Ev (fun F => ctsNext cfg p F s = some (s', .fail e)) := by
  obtain ⟨sp, sq, sr, ss, sc⟩ := s
  simp only at hq hstop
  subst hq hstop
  obtain ⟨ps, c, hck, hat1, hc0, hcr⟩ := ctsCheckpoint_rel hp hat hrem
  unfold pureRefill at h
  cases hr : pureRead cfg true es pt with
  | none =>
    obtain ⟨l', e, hl'⟩ := ctsRead_err hp hpt (s := ⟨ps, [], sr, false, c⟩) hat1 hrem hr
    refine ⟨⟨l'.parent, l'.queue, l'.rem, false, c⟩, e, hl'.mono (fun F hF => ?_)⟩
    unfold ctsNext
    simp only [Bool.false_eq_true, if_false, hck, hF]
  | some l =>
    rw [hr] at h
    simp only at h
    obtain ⟨l', hl', hat2, hrem2, hpk, hemp, hqueue, hst⟩ := ctsRead_pure hp hpt (s := ⟨ps, [], sr, false, c⟩) hat1 hrem hr
    have hnext : ∀ F, ctsRead cfg p F ⟨ps, [], sr, false, c⟩ = some (l', none) →
        ctsNext cfg p F ⟨sp, [], sr, false, sc⟩ = some (ctsFinish cfg p ⟨ps, [], sr, false, c⟩ l') := by
      intro F hF
      unfold ctsNext
      simp only [Bool.false_eq_true, if_false, hck, hF]
    by_cases he : l.buffer.isEmpty = true
    · rw [if_pos he] at h
      obtain ⟨h1, h2⟩ := h _ _ _ rfl
      have hpacked : ctsPacked cfg l' = .ok [] := by
        unfold ctsPacked
        rw [hemp, if_pos he, hqueue, h1]
      refine ⟨ctsCheckpoint cfg p ⟨l'.parent, l'.queue, l'.rem, l'.stop, c⟩, .runtimeError, hl'.mono (fun F hF => ?_)⟩
      rw [hnext F hF]
      simp only [ctsFinish, hpacked]
      obtain ⟨ps2, c2, hck2, _⟩ := ctsCheckpoint_rel hp (s := ⟨l'.parent, l'.queue, l'.rem, l'.stop, c⟩) (pt := (l.parent, l.rem)) hat2 hrem2
      rw [hck2]
      simp only [hst, h2, Bool.false_eq_true, if_false]
    · rw [if_neg he] at h
      cases hpb : packBodies cfg l.buffer with
      | ok row =>
        rw [hpb] at h
        have := (h _ _ _ rfl).1
        cases this
      | error e =>
        have hpacked : ctsPacked cfg l' = .error e := by
          unfold ctsPacked
          rw [hemp, if_neg he, hpk, hpb]
        refine ⟨⟨l'.parent, l'.queue, l'.rem, l'.stop, c⟩, e, hl'.mono (fun F hF => ?_)⟩
        rw [hnext F hF]
        simp only [ctsFinish, hpacked]

/-- Outcomes of calls of `next` that end with `StopIteration`. -/
def RunsTo (it : Iter α) (s : it.S) (ys : List α) : Prop :=
  Ev (fun F => implRun it F s [] (List.replicate (ys.length + 1) .next) = some (ys.map .item ++ [.stop]))

theorem Ev.const {P : Prop} (h : Ev (fun _ => P)) : P := by
  obtain ⟨k, hk⟩ := h
  exact hk k (Nat.le_refl _)

/-- The first call of such a run. -/
theorem RunsTo.step {it : Iter α} {s s' : it.S} {ys : List α} (h : RunsTo it s ys) {r : Res α} (hn : Ev (fun F => it.next F s = some (s', r))) :
    (r = .stop ∧ ys = []) ∨ ∃ y ys', ys = y :: ys' ∧ r = .item y ∧ RunsTo it s' ys' := by
  unfold RunsTo at h
  have h3 : Ev (fun F => ∃ rest, implRun it F s' [] (List.replicate ys.length .next) = some rest ∧ r :: rest = ys.map .item ++ [.stop]) := by
    refine (h.and hn).mono ?_
    rintro F ⟨e1, e2⟩
    rw [List.replicate_succ, implRun, e2] at e1
    simp only [Option.bind_eq_bind, Option.bind_some] at e1
    cases hr : implRun it F s' [] (List.replicate ys.length .next) with
    | none => rw [hr] at e1; cases e1
    | some rest => rw [hr] at e1; exact ⟨rest, rfl, Option.some.inj e1⟩
  cases ys with
  | nil =>
    left
    obtain ⟨k, hk⟩ := h3
    obtain ⟨rest, _, h4⟩ := hk k (Nat.le_refl _)
    simp only [List.map_nil, List.nil_append, List.cons.injEq] at h4
    exact ⟨h4.1, rfl⟩
  | cons y ys' =>
    right
    refine ⟨y, ys', rfl, ?_, ?_⟩
    · obtain ⟨k, hk⟩ := h3
      obtain ⟨rest, _, h4⟩ := hk k (Nat.le_refl _)
      simp only [List.map_cons, List.cons_append, List.cons.injEq] at h4
      exact h4.1
    · refine h3.mono ?_
      rintro F ⟨rest, h4, h5⟩
      simp only [List.map_cons, List.cons_append, List.cons.injEq] at h5
      rw [← h5.2]
      exact h4

/-- Queued rows come first. -/
theorem runsTo_queue : ∀ (queue : List (List (CtsCol τ))) {s : CtsState τ p.S p.C} {ys : List (List (CtsCol τ))}, s.queue = queue → RunsTo (ctsIter cfg p) s ys →
    ∃ ys' s', ys = queue ++ ys' ∧ s'.parent = s.parent ∧ s'.rem = s.rem ∧ s'.stop = s.stop ∧ s'.queue = [] ∧ RunsTo (ctsIter cfg p) s' ys' := by
  intro queue
  induction queue with
  | nil => intro s ys hq h; exact ⟨ys, s, rfl, rfl, rfl, rfl, hq, h⟩
  | cons row queue ih =>
    intro s ys hq h
    rcases h.step (Ev.of_forall (ctsNext_queue hq)) with ⟨h1, _⟩ | ⟨y, ys', rfl, h1, h2⟩
    · cases h1
    · cases h1
      obtain ⟨ys'', s', g1, g2, g3, g4, g5, g6⟩ := ih (s := { s with queue := queue, ck := { s.ck with count := s.ck.count + 1 } }) rfl h2
      exact ⟨ys'', s', by rw [g1]; rfl, g2, g3, g4, g5, g6⟩

theorem refills_of_run (hp : Sim p (es.map .ok) true pAt pCk) : ∀ (n : Nat) (pt : CtsPt τ) (s : CtsState τ p.S p.C) (ys : List (List (CtsCol τ))),
    ys.length ≤ n → PtOk cfg es pt → pAt s.parent pt.1 → RemRel cfg pCk s.rem pt.2 → s.queue = [] → s.stop = false → RunsTo (ctsIter cfg p) s ys →
    ∃ gs, Refills cfg true es pt gs ∧ gs.flatten = ys := by
  intro n
  induction n with
  | zero =>
    intro pt s ys hn hpt hat hrem hq hst hrun
    have hys : ys = [] := List.length_eq_zero_iff.1 (by omega)
    subst hys
    refine ⟨[], fun _ => ?_, rfl⟩
    by_cases hex : ∀ outs pt' st, pureRefill cfg true es pt = some (outs, pt', st) → outs = [] ∧ st = false
    · obtain ⟨s', e, hs'⟩ := ctsNext_err hp hpt hat hrem hq hst hex
      rcases hrun.step hs' with ⟨h, _⟩ | ⟨_, _, h, _⟩ <;> cases h
    · simp only [Classical.not_forall] at hex
      obtain ⟨outs, pt', st, hpr, hne⟩ := hex
      obtain ⟨s', hat', hrem', hst', hnext⟩ := ctsNext_refill hp hpt hat hrem hq hst hpr
      cases outs with
      | cons row rest =>
        rcases hrun.step hnext.1 with ⟨h, _⟩ | ⟨_, _, h, _⟩ <;> cases h
      | nil =>
        have : st = true := by
          cases st with
          | true => rfl
          | false => exact absurd ⟨rfl, rfl⟩ hne
        subst this
        exact ⟨pt', hpr⟩
  | succ n ih =>
    intro pt s ys hn hpt hat hrem hq hst hrun
    by_cases hex : ∀ outs pt' st, pureRefill cfg true es pt = some (outs, pt', st) → outs = [] ∧ st = false
    · obtain ⟨s', e, hs'⟩ := ctsNext_err hp hpt hat hrem hq hst hex
      rcases hrun.step hs' with ⟨h, _⟩ | ⟨_, _, _, h, _⟩ <;> cases h
    · simp only [Classical.not_forall] at hex
      obtain ⟨outs, pt', st, hpr, hne⟩ := hex
      obtain ⟨s', hat', hrem', hst', hnext⟩ := ctsNext_refill hp hpt hat hrem hq hst hpr
      cases outs with
      | nil =>
        have : st = true := by
          cases st with
          | true => rfl
          | false => exact absurd ⟨rfl, rfl⟩ hne
        subst this
        rcases hrun.step (hnext rfl).1 with ⟨_, h⟩ | ⟨_, _, _, h, _⟩
        · exact ⟨[], fun _ => ⟨pt', hpr⟩, by rw [h]; rfl⟩
        · cases h
      | cons row rest =>
        obtain ⟨hnext, hqueue, _, _⟩ := hnext
        rcases hrun.step hnext with ⟨h, _⟩ | ⟨y, ys', rfl, h, hrun'⟩
        · cases h
        · cases h
          obtain ⟨ys'', s2, g1, g2, g3, g4, g5, g6⟩ := runsTo_queue rest hqueue hrun'
          subst g1
          cases st with
          | true =>
            have hstop2 : s2.stop = true := by rw [g4]; exact hst'
            have : Ev (fun F => (ctsIter cfg p).next F s2 = some (s2, .stop)) :=
              Ev.of_forall (fun F => by show ctsNext cfg p F s2 = _; unfold ctsNext; rw [g5]; simp only [hstop2, if_true]; rfl)
            rcases g6.step this with ⟨_, h⟩ | ⟨_, _, _, h, _⟩
            · subst h
              exact ⟨[row :: rest], ⟨by simp, pt', true, hpr, by simp⟩, by simp⟩
            · cases h
          | false =>
            obtain ⟨hok, _⟩ := pureRefill_ok hpt hpr
            obtain ⟨gs, h1, h2⟩ := ih pt' s2 ys'' (by simp at hn; omega) hok (by rw [g2]; exact hat') (by rw [g3]; exact hrem') g5 (by rw [g4]; exact hst') g6
            exact ⟨(row :: rest) :: gs, ⟨by simp, pt', false, hpr, by simpa using h1⟩, by simp [h2]⟩

/-- The rows before the last refill do not depend on the data ending. -/
theorem pureLoop_prefix : ∀ (rest : List (List (CtsVal τ))) (q : Nat) (buffer : List (CtsBody τ)) (tokens : List Nat) (queue : List (List (CtsCol τ)))
    (l : CtsLoop τ Nat Nat), pureLoop cfg true rest q buffer tokens queue = some l → l.stop = false → pureLoop cfg false rest q buffer tokens queue = some l := by
  intro rest
  induction rest with
  | nil =>
    intro q buffer tokens queue l h hs
    simp only [pureLoop, if_true] at h
    cases h
    cases hs
  | cons vals rest ih =>
    intro q buffer tokens queue l h hs
    simp only [pureLoop] at h ⊢
    split at h
    · rename_i hsf
      rw [if_pos hsf]
      cases hpk : packBodies cfg [⟨vals, emptySlices cfg⟩] with
      | error e => rw [hpk] at h; cases h
      | ok row =>
        rw [hpk] at h
        exact ih _ _ _ _ _ h hs
    · rename_i hsf
      rw [if_neg hsf]
      cases hm : maybeAdd cfg ⟨vals, emptySlices cfg⟩ buffer tokens with
      | mk o x =>
        obtain ⟨buf', tok'⟩ := x
        rw [hm] at h
        cases o with
        | none => exact ih _ _ _ _ _ h hs
        | some r => exact h

theorem pureRefill_prefix {pt pt' : CtsPt τ} {outs : List (List (CtsCol τ))} (h : pureRefill cfg true es pt = some (outs, pt', false)) :
    pureRefill cfg false es pt = some (outs, pt', false) := by
  unfold pureRefill at h ⊢
  cases hr : pureRead cfg true es pt with
  | none => rw [hr] at h; cases h
  | some l =>
    have hl : l.stop = false := by
      rw [hr] at h
      simp only at h
      split at h
      · exact congrArg (fun x => x.2.2) (Option.some.inj h)
      · split at h
        · cases h
        · exact congrArg (fun x => x.2.2) (Option.some.inj h)
    have hr' : pureRead cfg false es pt = some l := by
      unfold pureRead at hr ⊢
      split at hr
      · exact pureLoop_prefix _ _ _ _ _ _ hr hl
      · dsimp only at hr ⊢
        split at hr
        · exact pureLoop_prefix _ _ _ _ _ _ hr hl
        · exact hr
    rw [hr'] 
    rw [hr] at h
    exact h

theorem Refills.prefix : ∀ {gs : List (List (List (CtsCol τ)))} {pt : CtsPt τ}, Refills cfg true es pt gs → Refills cfg false es pt gs.dropLast := by
  intro gs
  induction gs with
  | nil => intro pt _ h; cases h
  | cons outs gs ih =>
    intro pt h
    obtain ⟨hne, pt', st, hpr, hrest⟩ := h
    cases gs with
    | nil => intro h; cases h
    | cons o gs =>
      cases st with
      | true => simp at hrest
      | false =>
        rw [if_neg (by simp)] at hrest
        exact ⟨hne, pt', false, pureRefill_prefix hpr, by simpa using ih hrest⟩

end Grain
