import Verif.Interleave.LemmasShared
/-
Property C89, continued: `flat_map`, `window_shuffle` and concat-then-split packing above interleaved datasets.  They keep the state
objects they are given, and the interleave below goes on writing into these objects (`look`, any function here).  A restart is right
as long as the states were taken by iterators that were not restored themselves.
-/
namespace Grain

/-- The iterator yields `xs` and resumes exactly in new iterators, when all states are taken before the first restart. -/
def ResumesFirst (it : Iter α) (xs : List (Py α)) (ended : Bool) : Prop :=
  ∀ ops outs, SavesFirst ops → specRun xs ended (fun _ => false) 0 [] ops = some outs → Ev (fun F => implRun it F it.init [] ops = some outs)

theorem SameUntilRestart.first {it sh : Iter α} {R0 R : it.S → sh.S → Prop} {RC : it.C → sh.C → Prop} (h : SameUntilRestart it sh R0 R RC)
    {xs : List (Py α)} {ended : Bool} (hr : ResumesUnread it xs ended) : ResumesFirst sh xs ended := by
  intro ops outs hsf hspec
  refine (hr.fresh.exactly ops outs hspec).mono (fun F e => ?_)
  rw [← h.run F ops it.init sh.init [] [] h.init List.Forall₂.nil hsf]
  exact e

/-- C89 for `flat_map` over a pipeline with interleaved datasets. -/
theorem flat_map_first_restart_partial {p : Iter α} {as : List α} {ended : Bool} (hp : PipeIl p (as.map Except.ok) ended)
    {f : α → Py (List β)} {g : α → List β} (hf : ∀ a ∈ as, f a = .ok (g a)) (look : p.S → p.C → p.C) :
    ResumesFirst (flatMapShared f p look) ((as.flatMap g).map Except.ok) ended :=
  (flatMapShared_same f p look).first (flatMapIter_unread hp.resumes hf)

/-- C89 for `window_shuffle` (`σ i` is the shuffle of window number `i`; a window is read from its end). -/
theorem window_shuffle_first_restart_partial {p : Iter α} {as : List α} {ended : Bool} (hp : PipeIl p (as.map Except.ok) ended)
    {shuffle : Nat → List α → Py (List α)} {σ : Nat → List α → List α} {w : Nat} (hw : 0 < w)
    (hσ : ∀ i l, l.length ≤ w → shuffle i l = .ok (σ i l) ∧ (σ i l).length = l.length) (look : p.S → p.C → p.C) :
    ResumesFirst (windowShuffleShared shuffle w p look) ((windowStream w (fun i l => (σ i l).reverse) as ended).map Except.ok) ended :=
  (windowShuffleShared_same shuffle w p look).first (windowShuffleIter_unread hw hp.resumes (fun i _ l hl => hσ i l hl))

/-- C89: the states of a `flat_map` that was restored are those of one that owns its state objects again, as soon as it has read from its
input: the next element after the last one of a fan-out. -/
theorem flat_map_state_after_read (f : α → Py (List β)) (p : Iter α) (look : p.S → p.C → p.C) (F : Nat) (s s' : (flatMapShared f p look).S) (r : Res β)
    (hread : s.1.buf.length ≤ s.1.idx) (h : (flatMapShared f p look).next F s = some (s', r)) :
    (flatMapIter f p).next F s.1 = some (s'.1, r) ∧ ((flatMapShared f p look).get s').2 = ((flatMapIter f p).get s'.1).2 := by
  change ((flatMapIter f p).next F s.1).bind _ = _ at h
  cases hx : (flatMapIter f p).next F s.1 with
  | none => rw [hx] at h; cases h
  | some y =>
    rw [hx, Option.bind_some] at h
    cases h
    refine ⟨rfl, ?_⟩
    show (if (s.2 && (s.1.buf[s.1.idx]?).isSome) = true then _ else _, _) = _
    rw [List.getElem?_eq_none hread]
    simp only [Option.isSome_none, Bool.and_false, Bool.false_eq_true, if_false]
    rfl

/-- C89: the same for `window_shuffle`, as soon as it has read a new window. -/
theorem window_shuffle_state_after_read (shuffle : Nat → List α → Py (List α)) (w : Nat) (p : Iter α) (look : p.S → p.C → p.C) (F : Nat)
    (s s' : (windowShuffleShared shuffle w p look).S) (r : Res α) (hread : s.1.window = [] ∧ s.1.exhausted = false)
    (h : (windowShuffleShared shuffle w p look).next F s = some (s', r)) :
    (windowShuffleIter shuffle w p).next F s.1 = some (s'.1, r) ∧
      ((windowShuffleShared shuffle w p look).get s').2 = ((windowShuffleIter shuffle w p).get s'.1).2 := by
  change ((windowShuffleIter shuffle w p).next F s.1).bind _ = _ at h
  cases hx : (windowShuffleIter shuffle w p).next F s.1 with
  | none => rw [hx] at h; cases h
  | some y =>
    rw [hx, Option.bind_some] at h
    cases h
    refine ⟨rfl, ?_⟩
    show (if (s.2 && (!s.1.window.isEmpty || s.1.exhausted)) = true then _ else _, _) = _
    rw [hread.1, hread.2]
    simp only [List.isEmpty_nil, Bool.not_true, Bool.or_false, Bool.and_false, Bool.false_eq_true, if_false]
    rfl

/-- C89 for concat-then-split packing: if reading to the end gives the rows `ys` (C35 says which), a first restart goes on with the
right rows. -/
theorem cts_first_restart_partial {p : Iter (List (CtsVal τ))} {es : List (List (CtsVal τ))} (hp : PipeIl p (es.map Except.ok) true)
    {cfg : CtsCfg τ} {ys : List (List (CtsCol τ))}
    (hrun : Ev (fun F => implRun (ctsIter cfg p) F (ctsIter cfg p).init [] (List.replicate (ys.length + 1) .next) = some (ys.map .item ++ [.stop])))
    (look : p.S → p.C → p.C) : ResumesFirst (ctsShared cfg p look) (ys.map Except.ok) true :=
  (ctsShared_same cfg p look).first (ctsIter_unread hp.resumes hrun)

/-- Rows of four tokens. -/
def ilCtsCfg : CtsCfg Nat := { feats := [{ len := 4, isMeta := false, bos := none }], splitFull := true, zero := 0 }

/-- A feature with the tokens `l`. -/
def ilTok (l : List Nat) : List (CtsVal Nat) := [⟨false, l⟩]

/-- The values of the rows. -/
def ilRowVals : Res (List (CtsCol Nat)) → List (List Nat)
  | .item row => row.map (·.vals)
  | _ => []

/-- A state taken after a restart can be wrong: an interleave of `[1..6]` and `[11, 12, 13], [21, 22, 23]`, read one after the other,
packed into rows of four tokens.  After the second row a state is taken and restored in a new iterator; a state taken right away from
that iterator and restored in another one leads to different tokens. -/
theorem cts_interleave_wrong_tokens :
    let it := ctsShared ilCtsCfg (interleaveIter (listFam (fun d => [[.ok (ilTok [1, 2, 3, 4, 5, 6])], [.ok (ilTok [11, 12, 13]), .ok (ilTok [21, 22, 23])]][d]!)) 2 1 false) ilLook
    Ev (fun F => (implRun it F it.init [] [.next, .next, .next]).map (·.map ilRowVals) = some [[[1, 2, 3, 4]], [[5, 6, 11, 12]], [[13, 21, 22, 23]]]) ∧
      Ev (fun F => (implRun it F it.init [] [.next, .next, .save, .fresh 0, .next]).map (·.map ilRowVals) = some [[[1, 2, 3, 4]], [[5, 6, 11, 12]], [[13, 21, 22, 23]]]) ∧
      Ev (fun F => (implRun it F it.init [] [.next, .next, .save, .fresh 0, .save, .fresh 1, .next]).map (·.map ilRowVals) =
        some [[[1, 2, 3, 4]], [[5, 6, 11, 12]], [[12, 13, 21, 22]]]) := by
  refine ⟨⟨9, fun F hF => ?_⟩, ⟨9, fun F hF => ?_⟩, ⟨9, fun F hF => ?_⟩⟩
  · obtain ⟨k, rfl⟩ : ∃ k, F = k + 9 := ⟨F - 9, by omega⟩
    rfl
  · obtain ⟨k, rfl⟩ : ∃ k, F = k + 9 := ⟨F - 9, by omega⟩
    rfl
  · obtain ⟨k, rfl⟩ : ∃ k, F = k + 9 := ⟨F - 9, by omega⟩
    rfl

/-! ### The hypotheses are met -/

/-- A random access dataset with the elements 0, .., `n - 1`, shifted by `100 * d`. -/
def ilSource (n d : Nat) : MapDs Nat := ⟨n, fun i => .ok (some (i.toNat + 100 * d)), fun is => .ok (is.map (fun i => some (i.toNat + 100 * d)))⟩

/-- Its elements in batches of one, as features with one token more than the number says. -/
def ilChild (d : Nat) : Iter (List (CtsVal Nat)) :=
  batchIter 1 false (fun l => .ok (ilTok (l.flatMap (fun o => List.replicate (o.getD 0 % 100 + 1) (o.getD 0))))) (prefetchIter 2 3 false none (ilSource 3 d))

/-- What is in it. -/
def ilElems (d : Nat) : List (List (CtsVal Nat)) := [ilTok [100 * d], ilTok (List.replicate 2 (100 * d + 1)), ilTok (List.replicate 3 (100 * d + 2))]

theorem ilSource_pipe (d : Nat) : Pipe (prefetchIter 2 3 false none (ilSource 3 d)) ([some (0 + 100 * d), some (1 + 100 * d), some (2 + 100 * d)].map Except.ok) true := by
  refine Pipe.mapDataset (vs := [some (0 + 100 * d), some (1 + 100 * d), some (2 + 100 * d)]) 2 3 false rfl ?_
  intro k hk
  match k, hk with
  | 0, _ => rfl
  | 1, _ => rfl
  | 2, _ => rfl

/-- Two such datasets one after the other. -/
theorem ilSource_two : PipeIl (interleaveIter (IterFam.ofIters (fun d => prefetchIter 2 3 false none (ilSource 3 d))) 2 1 false)
    ([some 0, some 1, some 2, some 100, some 101, some 102].map Except.ok) true :=
  PipeIl.interleave false (by decide) (by decide)
    (Interleaved.one (n := 2) (fun d => [some (0 + 100 * d), some (1 + 100 * d), some (2 + 100 * d)].map Except.ok) (by decide))
    (fun d _ => PipeIl.pipe (ilSource_pipe d))

/-- Restored in the middle of the first fan-out, read to its end: the next call reads. -/
example (look) : ∃ s s' r, (flatMapShared (fun n : Nat => .ok [n, n]) (listIter [.ok 1, .ok 2]) look).set 5
      (flatMapShared (fun n : Nat => .ok [n, n]) (listIter [.ok 1, .ok 2]) look).init ((0 : Nat), (2 : Nat)) = some (s, none) ∧
    s.1.buf.length ≤ s.1.idx ∧ s.2 = true ∧
    (flatMapShared (fun n : Nat => .ok [n, n]) (listIter [.ok 1, .ok 2]) look).next 5 s = some (s', r) ∧ s'.2 = false :=
  ⟨_, _, _, rfl, Nat.le_refl 2, rfl, rfl, rfl⟩

/-- Each number twice. -/
example (look) : ResumesFirst (flatMapShared (fun o : Option Nat => .ok [o, o])
    (interleaveIter (IterFam.ofIters (fun d => prefetchIter 2 3 false none (ilSource 3 d))) 2 1 false) look)
    ([some 0, some 0, some 1, some 1, some 2, some 2, some 100, some 100, some 101, some 101, some 102, some 102].map Except.ok) true :=
  flat_map_first_restart_partial (g := fun o => [o, o]) ilSource_two (fun _ _ => rfl) look

/-- Windows of four, each turned around. -/
example (look) : ResumesFirst (windowShuffleShared (fun _ l => .ok l) 4
    (interleaveIter (IterFam.ofIters (fun d => prefetchIter 2 3 false none (ilSource 3 d))) 2 1 false) look)
    ([some 100, some 2, some 1, some 0, some 102, some 101].map Except.ok) true :=
  window_shuffle_first_restart_partial (σ := fun _ l => l) ilSource_two (by decide) (fun _ _ _ => ⟨rfl, rfl⟩) look

theorem ilChild_pipe (d : Nat) (hd : d < 2) : Pipe (ilChild d) ((ilElems d).map Except.ok) true := by
  have h := Pipe.batch (as := [some (0 + 100 * d), some (1 + 100 * d), some (2 + 100 * d)]) 1 (by decide) false
    (fun l => .ok (ilTok (l.flatMap (fun o => List.replicate (o.getD 0 % 100 + 1) (o.getD 0))))) (ilSource_pipe d)
  match d, hd with
  | 0, _ => exact h
  | 1, _ => exact h

/-- Rows of four tokens. -/
example (look) : ∃ ys : List (List (CtsCol Nat)), ys.map (fun row => row.map (·.vals)) =
      [[[0, 1, 1, 2]], [[2, 2, 100, 101]], [[101, 102, 102, 102]]] ∧
    ResumesFirst (ctsShared ilCtsCfg (interleaveIter (IterFam.ofIters ilChild) 2 1 false) look) (ys.map Except.ok) true := by
  have hp : PipeIl (interleaveIter (IterFam.ofIters ilChild) 2 1 false) (((List.range 2).flatMap ilElems).map Except.ok) true := by
    have := PipeIl.interleave false (by decide) (by decide) (Interleaved.one (n := 2) (fun d => (ilElems d).map Except.ok) (by decide))
      (fun d hd => PipeIl.pipe (ilChild_pipe d hd))
    exact this
  refine ⟨[[⟨[0, 1, 1, 2], some [(1, 0), (2, 0), (2, 1), (3, 0)]⟩], [⟨[2, 2, 100, 101], some [(1, 0), (1, 1), (2, 0), (3, 0)]⟩],
    [⟨[101, 102, 102, 102], some [(1, 0), (2, 0), (2, 1), (2, 2)]⟩]], rfl, cts_first_restart_partial hp ⟨9, fun F hF => ?_⟩ look⟩
  obtain ⟨k, rfl⟩ : ∃ k, F = k + 9 := ⟨F - 9, by omega⟩
  rfl

end Grain
