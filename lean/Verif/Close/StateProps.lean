import Verif.Close.Findings
/-
C112.  `close` does not move an iterator: its state is what it was before.
-/
namespace Grain

theorem derived_keeps {it : Iter α} {cl : it.S → it.S} {src : it.S → List Bool} (h : ∀ s, (it.get (cl s)).2 = (it.get s).2) (s : it.S × Bool) :
    ((Closable.derived it cl src).it.get ((Closable.derived it cl src).close s)).2 = ((Closable.derived it cl src).it.get s).2 := by
  obtain ⟨s, b⟩ := s
  cases b with
  | true => rfl
  | false => exact h s

/-- C112: `get_state` returns the same after `close` as before it. -/
theorem close_keeps_state {α : Type} {c : Closable α} (hp : ReleasingPipe c) : ∀ s, (c.it.get (c.close s)).2 = (c.it.get s).2 := by
  induction hp with
  | mapDataset size threads allow thr ds =>
    rintro ⟨s, b⟩
    cases b with
    | true => rfl
    | false =>
      show ((prefetchIter size threads allow thr ds).get (if PrefetchState.exec s then { s with buffer := [] } else s)).2 =
        ((prefetchIter size threads allow thr ds).get s).2
      cases h : PrefetchState.exec s <;> rfl
  | map f _ ih => exact derived_keeps (fun s => ih s)
  | randomMap f i n _ ih => exact derived_keeps (fun s => by simp [randomMapIter, ih])
  | mapWithIndex f _ ih => exact derived_keeps (fun s => by simp [mapWithIndexIter, ih])
  | limit n _ ih => exact derived_keeps (fun s => by simp [limitIter, ih])
  | filter pred thr _ ih => exact derived_keeps (fun s => by simp [filterIter, ih])
  | batch b drop f _ ih => exact derived_keeps (fun s => ih s)
  | rebatch b drop _ _ => exact derived_keeps (fun s => rfl)
  | flatMap f _ _ => exact derived_keeps (fun s => rfl)
  | «repeat» n _ ih => exact derived_keeps (fun s => by simp [repeatIter, ih])
  | cache _ ih => exact derived_keeps (fun s => by simp [cacheIter, ih])
  | windowShuffle shuffle w _ _ => exact derived_keeps (fun s => rfl)
  | pack pk order _ _ => exact derived_keeps (fun s => rfl)
  | concatThenSplit cfg _ _ => exact derived_keeps (fun s => rfl)
  | threadPrefetch size _ ih => exact fun s => ih s.1
  | zip strict _ ih => exact derived_keeps (fun s => by simp [zipIter, ih])
  | mix proportions _ ih => exact derived_keeps (fun s => by simp [mixIter, ih])

theorem ilGetLoop_close (f : CloseFam α) (hf : ∀ d st, (f.get d (f.close d st)).2 = (f.get d st).2) (n : Nat) :
    ∀ (is : List Nat), is.Nodup → ∀ (s t : ILState f.S f.C) (states : Nat → Option f.C),
      (∀ i ∈ is, t.slots i = (s.slots i).map (fun o => (o.1, f.close o.1 o.2))) → t.started = s.started → t.pf = s.pf →
      t.nextDs = s.nextDs → t.indices = s.indices → t.exState = s.exState → t.future = s.future → t.cyc = s.cyc →
      (ilGetLoop f.toIterFam n is t states).2 = (ilGetLoop f.toIterFam n is s states).2 ∧
      (ilGetLoop f.toIterFam n is t states).1.started = (ilGetLoop f.toIterFam n is s states).1.started ∧
      (ilGetLoop f.toIterFam n is t states).1.nextDs = (ilGetLoop f.toIterFam n is s states).1.nextDs ∧
      (ilGetLoop f.toIterFam n is t states).1.indices = (ilGetLoop f.toIterFam n is s states).1.indices ∧
      (ilGetLoop f.toIterFam n is t states).1.exState = (ilGetLoop f.toIterFam n is s states).1.exState ∧
      (ilGetLoop f.toIterFam n is t states).1.future = (ilGetLoop f.toIterFam n is s states).1.future ∧
      (ilGetLoop f.toIterFam n is t states).1.cyc = (ilGetLoop f.toIterFam n is s states).1.cyc := by
  intro is
  induction is with
  | nil => intro _ s t states _ h1 _ h3 h4 h5 h6 h7; exact ⟨rfl, h1, h3, h4, h5, h6, h7⟩
  | cons i is ih =>
    intro hnd s t states hs h1 h2 h3 h4 h5 h6 h7
    have hi := hs i (List.mem_cons_self ..)
    have hni : ∀ j ∈ is, j ≠ i := fun j hj he => (List.nodup_cons.1 hnd).1 (he ▸ hj)
    have hr := fun j (hj : j ∈ is) => hs j (List.mem_cons_of_mem _ hj)
    have hnd := (List.nodup_cons.1 hnd).2
    cases hsl : s.slots i with
    | some o =>
      obtain ⟨d, st⟩ := o
      rw [hsl] at hi
      simp only [Option.map_some] at hi
      unfold ilGetLoop
      rw [hi, hsl]
      dsimp only
      rw [hf d st]
      exact ih hnd _ _ _ (fun j hj => by
        dsimp only
        rw [Function.update_of_ne (hni j hj), Function.update_of_ne (hni j hj)]
        exact hr j hj) h1 h2 h3 h4 h5 h6 h7
    | none =>
      rw [hsl] at hi
      simp only [Option.map_none] at hi
      unfold ilGetLoop
      rw [hi, hsl]
      dsimp only
      rw [h5]
      cases hex : s.exState i with
      | some c => exact ih hnd _ _ _ hr h1 h2 h3 h4 h5 h6 h7
      | none =>
        dsimp only
        rw [h3, h1, h2]
        by_cases hn : s.nextDs ≥ n
        · rw [if_pos hn, if_pos hn]
          exact ⟨rfl, h1, h3, h4, h5, h6, h7⟩
        · rw [if_neg hn, if_neg hn]
          exact ih hnd _ _ _ (fun j hj => by
            dsimp only
            rw [Function.update_of_ne (hni j hj), Function.update_of_ne (hni j hj)]
            exact hr j hj) rfl rfl rfl (by dsimp only; rw [h4]) rfl h6 h7

/-- C112 for an interleave of pipelines. -/
theorem interleave_close_keeps_state {α : Type} (f : CloseFam α) (n cycle : Nat) (keep : Bool) (hf : ∀ d, ReleasingPipe (f.closable d)) :
    ∀ s, ((Closable.interleave f n cycle keep).it.get ((Closable.interleave f n cycle keep).close s)).2 =
      ((Closable.interleave f n cycle keep).it.get s).2 := by
  rintro ⟨s, b⟩
  cases b with
  | true => rfl
  | false =>
    obtain ⟨h1, h2, h3, h4, h5, h6, h7⟩ := ilGetLoop_close f (fun d => close_keeps_state (hf d)) n (List.range (min cycle n)) List.nodup_range s
      { s with slots := fun i => (ILState.slots s i).map (fun o => (o.1, f.close o.1 o.2)) } (fun _ => none) (fun _ _ => rfl)
      rfl rfl rfl rfl rfl rfl rfl
    show (ilGet f.toIterFam n (min cycle n)
      { s with slots := fun i => (ILState.slots s i).map (fun o => (o.1, f.close o.1 o.2)) }).2 = (ilGet f.toIterFam n (min cycle n) s).2
    unfold ilGet
    dsimp only
    rw [h1, h2]
    split
    · rw [h3, h4, h5, h6, h7]
    · dsimp only
      rw [h3, h4, h5, h6, h7]

theorem run_save_after_close {c : Closable α} (h : ∀ s, (c.it.get (c.close s)).2 = (c.it.get s).2) (F : Nat) :
    ∀ before s saved {s' saved' rs}, c.run F s saved (before ++ [.save]) = some (s', saved', rs) →
      ∃ t, c.run F s saved (before ++ [.close, .save]) = some (t, saved', rs) := by
  intro before
  induction before with
  | nil =>
    intro s saved s' saved' rs hr
    cases hr
    refine ⟨(c.it.get (c.close s)).1, ?_⟩
    show some ((c.it.get (c.close s)).1, saved ++ [(c.it.get (c.close s)).2], []) = _
    rw [h s]
  | cons o ops ih =>
    intro s saved s' saved' rs hr
    rw [List.cons_append] at hr ⊢
    cases o with
    | next =>
      unfold Closable.run at hr ⊢
      cases hq : c.it.next F s with
      | none => rw [hq] at hr; cases hr
      | some q =>
        obtain ⟨t, r⟩ := q
        rw [hq] at hr
        simp only [Option.bind_eq_bind, Option.bind_some] at hr ⊢
        cases hq' : c.run F t saved (ops ++ [.save]) with
        | none => rw [hq'] at hr; cases hr
        | some q' =>
          obtain ⟨t', saved'', rs'⟩ := q'
          rw [hq'] at hr
          cases hr
          obtain ⟨u, hu⟩ := ih _ _ hq'
          exact ⟨u, by rw [hu]; rfl⟩
    | save =>
      unfold Closable.run at hr ⊢
      exact ih _ _ hr
    | restore k =>
      unfold Closable.run at hr ⊢
      split at hr
      · rename_i hk
        exact ih _ _ hr
      · rename_i ck hk
        cases hq : c.it.set F s ck with
        | none => rw [hq] at hr; cases hr
        | some q =>
          rw [hq] at hr
          exact ih _ _ hr
    | close =>
      unfold Closable.run at hr ⊢
      exact ih _ _ hr

/-- C112: whatever was done with the iterator before, a user who closes it and then saves gets the states and elements of one who
saves without closing. -/
theorem save_after_close {α : Type} {c : Closable α} (hp : ReleasingPipe c) (F : Nat) (before : List CloseOp) {s saved rs}
    (hr : c.run F c.it.init [] (before ++ [.save]) = some (s, saved, rs)) :
    ∃ t, c.run F c.it.init [] (before ++ [.close, .save]) = some (t, saved, rs) :=
  run_save_after_close (close_keeps_state hp) F before _ _ hr

/-- C112: the same for an interleave of pipelines. -/
theorem interleave_save_after_close {α : Type} (f : CloseFam α) (n cycle : Nat) (keep : Bool) (hf : ∀ d, ReleasingPipe (f.closable d))
    (F : Nat) (before : List CloseOp) {s saved rs}
    (hr : (Closable.interleave f n cycle keep).run F (Closable.interleave f n cycle keep).it.init [] (before ++ [.save]) = some (s, saved, rs)) :
    ∃ t, (Closable.interleave f n cycle keep).run F (Closable.interleave f n cycle keep).it.init [] (before ++ [.close, .save]) =
      some (t, saved, rs) :=
  run_save_after_close (interleave_close_keeps_state f n cycle keep hf) F before _ _ hr

/-! ### The hypotheses are met -/

/-- Read, close, save; the state restored into a new iterator goes on with the second batch. -/
example : (∃ s saved rs t, bigPipe.run 9 bigPipe.it.init [] ([.next] ++ [.save]) = some (s, saved, rs) ∧
      bigPipe.run 9 bigPipe.it.init [] ([.next] ++ [.close, .save]) = some (t, saved, rs)) ∧
    ((bigPipe.run 9 bigPipe.it.init [] [.next, .close, .save]).bind
      (fun x => bigPipe.run 9 bigPipe.it.init x.2.1 [.restore 0, .next])).map (·.2.2) =
      some [.item [[some 2, some 3], [some 3, some 4]]] := by
  refine ⟨?_, rfl⟩
  obtain ⟨t, ht⟩ := save_after_close bigPipe_releasing 9 [.next] (s := _) (saved := _) (rs := _) rfl
  exact ⟨_, _, _, t, rfl, ht⟩

/-- Two interleaved datasets. -/
example : (((Closable.interleave numberFam 2 2 false).run 9 (Closable.interleave numberFam 2 2 false).it.init [] [.next, .close, .save]).bind
      (fun x => (Closable.interleave numberFam 2 2 false).run 9 (Closable.interleave numberFam 2 2 false).it.init x.2.1
        [.restore 0, .next, .next])).map (·.2.2) =
    ((Closable.interleave numberFam 2 2 false).run 9 (Closable.interleave numberFam 2 2 false).it.init [] [.next, .next, .next]).map
      (fun x => x.2.2.drop 1) := rfl

end Grain
