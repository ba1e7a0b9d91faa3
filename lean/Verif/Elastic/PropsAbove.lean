import Verif.Elastic.LemmasAbove
import Verif.Elastic.Props
/-
C59: an elastic job with transformations above its interleave.
-/
namespace Grain

/-! ### Transformations that hold nothing back -/

theorem holdsNothing_id : HoldsNothing (Above.id (α := α)) (· = ·) :=
  ⟨fun _ _ _ => rfl, fun _ _ m _ _ rs h => ⟨m, rs, h, rfl⟩⟩

theorem holdsNothing_comp {t : Above α β} {u : Above β γ} {R : List (Res α) → List (Res β) → Prop}
    {Q : List (Res β) → List (Res γ) → Prop} (ht : HoldsNothing t R) (hu : HoldsNothing u Q) :
    HoldsNothing (t.comp u) (fun a c => ∃ b, R a b ∧ Q b c) := by
  refine ⟨?_, ?_⟩
  · intro p s ps
    exact (congrArg (t.inner p) (hu.1 (t.wrap p) s _)).trans (ht.1 p _ ps)
  · intro p F m s s' rs h
    obtain ⟨m1, b1, e1, f1⟩ := hu.2 (t.wrap p) F m s s' rs h
    obtain ⟨m2, b2, e2, f2⟩ := ht.2 p F m1 _ _ b1 e1
    exact ⟨m2, b2, e2, b1, f2, f1⟩

theorem holdsNothing_map (f : α → Py (Option β)) : HoldsNothing (Above.map f) (fun below rs => rs = below.map (mapRes f)) := by
  refine holdsNothing_of_next (fun _ _ _ => rfl) rfl (by rintro a _ a' _ rfl rfl; rw [List.map_append]) ?_
  intro p F s s' r h
  change p.S at s s'
  obtain ⟨q, h1, h⟩ := option_bind_some h
  obtain ⟨s1, x⟩ := q
  refine ⟨1, [x], ?_, ?_⟩
  · rw [show (Above.map f).inner p s = s from rfl, runNexts_one p F h1]
    cases x with
    | stop => cases h; rfl
    | fail e => cases h; rfl
    | item a =>
      cases a with
      | none => cases h; rfl
      | some a =>
        dsimp only at h
        split at h <;> · cases h; rfl
  · cases x with
    | stop => cases h; rfl
    | fail e => cases h; rfl
    | item a =>
      cases a with
      | none => cases h; rfl
      | some a =>
        dsimp only at h
        split at h <;> · rename_i hf; cases h; simp [mapRes, hf]

theorem holdsNothing_filter (pred : α → Py Bool) :
    HoldsNothing (Above.filter pred) (fun below rs => rs = below.filterMap (filterRes pred)) := by
  refine holdsNothing_of_next (fun _ _ _ => rfl) rfl (by rintro a _ a' _ rfl rfl; rw [List.filterMap_append]) ?_
  intro p F s s' r h
  exact filterLoop_below p pred F F s s' r h

theorem holdsNothing_batch (b : Nat) : HoldsNothing (Above.batch b false (.ok (ε := Err) (α := List α))) (Batched b) := by
  refine holdsNothing_of_next (fun _ _ _ => rfl) (fun _ => ⟨rfl, by simp [itemsOf], by simp⟩) ?_ ?_
  · intro x y x' y' h h' hn
    obtain ⟨e1, e2, e3⟩ := h (fun e he => hn e (by simp [he]))
    obtain ⟨f1, f2, f3⟩ := h' (fun e he => hn e (by simp [he]))
    refine ⟨?_, ?_, ?_⟩
    · rw [itemsOf_append, itemsOf_append, List.flatten_append, e1, f1]
    · intro v hv
      rw [itemsOf_append, List.mem_append] at hv
      rcases hv with hv | hv
      · exact e2 v hv
      · exact f2 v hv
    · intro e he
      rcases List.mem_append.1 he with he | he
      · exact e3 e he
      · exact f3 e he
  · intro p F s s' r h
    change p.S at s s'
    obtain ⟨q, h1, h⟩ := option_bind_some h
    obtain ⟨s1, v⟩ := q
    obtain ⟨m', below, g1, g2⟩ := batchLoop_below p F b s s1 [] v h1
    have hs : s' = s1 := by
      rcases v with v | v
      · cases v with
        | nil => cases h; rfl
        | cons a v => cases h; rfl
      · cases v <;> cases h <;> rfl
    subst hs
    refine ⟨m', below, g1, ?_⟩
    rcases g2 with ⟨e, rfl, he⟩ | ⟨rfl, hl, hnf, hst⟩
    · intro hn
      exact absurd he (hn e)
    · intro hn
      rw [List.nil_append] at h
      cases hi : itemsOf below with
      | nil =>
        rw [hi] at h
        cases h
        exact ⟨rfl, by simp [itemsOf], by simp⟩
      | cons a v =>
        rw [hi] at h
        cases h
        rw [hi] at hl
        refine ⟨by simp [itemsOf], ?_, by simp⟩
        intro w hw
        simp only [itemsOf, List.filterMap_cons, List.filterMap_nil, List.mem_singleton] at hw
        subst hw
        exact ⟨by simp, hl⟩

/-! ### Elastic jobs -/

/-- Whatever an elastic job with such transformations above its interleave returns, over any history of resizes, is what they make
of the results of the same job without them: phase by phase and host by host, with the same checkpoints. -/
theorem elastic_above_refines {t : Above α β} {R : List (Res α) → List (Res β) → Prop} (ht : HoldsNothing t R) {f : IterFam α}
    {D cycle F : Nat} : ∀ (phases : List (Nat × (Nat → Nat))) (dir dir' : Option (Nat → Option (ShardState f.C)))
      (outs : List (List (List (Res β)))), elasticHistoryAbove t f D cycle F dir phases = some (outs, dir') →
    ∃ phases' below, phases'.map (·.1) = phases.map (·.1) ∧ elasticHistory f D cycle F dir phases' = some (below, dir') ∧
      List.Forall₂ (List.Forall₂ R) below outs
  | [], dir, dir', outs, h => by
    cases h
    exact ⟨[], [], rfl, rfl, .nil⟩
  | (hosts, m) :: phases, dir, dir', outs, h => by
    obtain ⟨r, h1, h⟩ := option_bind_some h
    obtain ⟨rest, h2, h⟩ := option_bind_some h
    obtain ⟨w, h3, hr⟩ := option_bind_some h1
    cases hr
    cases h
    obtain ⟨phases', below, e1, e2, e3⟩ := elastic_above_refines ht phases _ _ _ h2
    obtain ⟨m', w', f1, f2, f3⟩ := mapM_below (R := R) (fb := fun i k => elasticHost f D cycle hosts i F dir k)
      (fun i rs st hi => elasticRunAbove_below ht hi) (List.range hosts) w List.nodup_range h3
    refine ⟨(hosts, m') :: phases', w'.map (·.1) :: below, by simp [e1], ?_, .cons f3 e3⟩
    have hd : (fun i : Nat => (w'[i]?.map (fun q => q.2)).getD []) = (fun i : Nat => (w[i]?.map (fun q => q.2)).getD []) := by
      funext i
      rw [← List.getElem?_map, ← List.getElem?_map, f2]
    show (((List.range hosts).mapM (fun i => elasticHost f D cycle hosts i F dir (m' i))).bind _).bind _ = _
    rw [f1]
    show (elasticHistory f D cycle F (some (saveHosts hosts (fun i => (w'[i]?.map (·.2)).getD []))) phases').bind _ = _
    rw [hd]
    show (elasticHistory f D cycle F (some (saveHosts hosts (fun i => (w[i]?.map (fun q => q.2)).getD []))) phases').bind _ = _
    rw [e2]
    rfl

theorem forall₂_map_eq {g : α → β} : ∀ {l : List α} {l' : List β}, List.Forall₂ (fun a b => b = g a) l l' → l' = l.map g
  | _, _, .nil => rfl
  | _, _, .cons h t => by rw [List.map_cons, ← h, ← forall₂_map_eq t]

/-- C59 for a map and a filter above the interleave (in this order; each alone is `elastic_above_refines` with `holdsNothing_map` or
`holdsNothing_filter`): every phase of every host returns exactly what the map and the filter make of the elements read by the job
without them. -/
theorem elastic_map_filter_above_partial (g : α → Py (Option β)) (pred : Option β → Py Bool) {f : IterFam (Option α)} {D cycle F : Nat}
    {phases : List (Nat × (Nat → Nat))} {dir dir' : Option (Nat → Option (ShardState f.C))} {outs : List (List (List (Res (Option β))))}
    (h : elasticHistoryAbove ((Above.map g).comp (.filter pred)) f D cycle F dir phases = some (outs, dir')) :
    ∃ phases' below, phases'.map (·.1) = phases.map (·.1) ∧ elasticHistory f D cycle F dir phases' = some (below, dir') ∧
      outs = below.map (List.map (fun rs => (rs.map (mapRes g)).filterMap (filterRes pred))) := by
  obtain ⟨phases', below, e1, e2, e3⟩ := elastic_above_refines (holdsNothing_comp (holdsNothing_map g) (holdsNothing_filter pred))
    phases dir dir' outs h
  refine ⟨phases', below, e1, e2, forall₂_map_eq (e3.imp (fun a b hab => forall₂_map_eq (hab.imp ?_)))⟩
  rintro x y ⟨z, rfl, rfl⟩
  rfl

/-- C59 for a batch above the interleave (the elastic iterator itself adds one when the global batch size is positive,
elastic_iterator.py:153-163): the batches of each phase of each host are the elements read by the job without batches, cut into
pieces of at most `b`. -/
theorem elastic_batch_above_partial (b : Nat) {f : IterFam α} {D cycle F : Nat} {phases : List (Nat × (Nat → Nat))}
    {dir dir' : Option (Nat → Option (ShardState f.C))} {outs : List (List (List (Res (List α))))}
    (h : elasticHistoryAbove (.batch b false .ok) f D cycle F dir phases = some (outs, dir')) :
    ∃ phases' below, phases'.map (·.1) = phases.map (·.1) ∧ elasticHistory f D cycle F dir phases' = some (below, dir') ∧
      List.Forall₂ (List.Forall₂ (Batched b)) below outs :=
  elastic_above_refines (holdsNothing_batch b) phases dir dir' outs h

def twoByTwo (d : Nat) : List (Py (Option Nat)) := if d = 0 then [.ok (some 1), .ok (some 2)] else [.ok (some 3), .ok (some 4)]

-- two hosts, then one: an element of dataset 0 is filtered out
example : (elasticHistoryAbove ((Above.map (fun a => .ok (some (10 * a)))).comp (.filter (fun x => .ok (x != some 10))))
    (listFam twoByTwo) 2 2 20 none [(2, fun _ => 1), (1, fun _ => 2)]).map (·.1) =
      some [[[.item (some 20)], [.item (some 30)]], [[.item (some 40), .stop]]] := rfl

-- one host, then two, with batches of 2
example : (elasticHistoryAbove (.batch 2 false .ok) (listFam twoByTwo) 2 2 20 none [(1, fun _ => 1), (2, fun _ => 1)]).map (·.1) =
      some [[[.item [some 1, some 3]]], [[.item [some 2]], [.item [some 4]]]] := rfl

/-! ### C59 as stated does not hold -/

/-- `flat_map` above the interleave, with two results `a` and `a + 10` for each element `a`.  Two hosts return `1` and `3`; restored on
one host the job goes on with `2`: `11` and `13` are never returned. -/
theorem elastic_flat_map_loses (F : Nat) :
    (elasticHistoryAbove (.flatMap (fun a => .ok [a, a.map (· + 10)])) (listFam twoByTwo) 2 2 (F + 20) none
      [(2, fun _ => 1), (1, fun _ => 5)]).map (·.1) =
      some [[[.item (some 1)], [.item (some 3)]], [[.item (some 2), .item (some 12), .item (some 4), .item (some 14), .stop]]] := by
  rfl

/-- A window shuffle with windows of two (the windows come out in reverse order here; in any order an element is lost).  After one
element of each window the job is restored on one host: the other elements of the windows, `0` and `10`, are never returned. -/
theorem elastic_window_shuffle_loses (F : Nat) :
    (elasticHistoryAbove (.windowShuffle (fun _ l => .ok l) 2) (listFam (fun d => [.ok (10 * d), .ok (10 * d + 1), .ok (10 * d + 2)])) 2 2
      (F + 20) none [(2, fun _ => 1), (1, fun _ => 3)]).map (·.1) =
      some [[[.item 1], [.item 11]], [[.item 12, .item 2, .stop]]] := by
  rfl

/-- `map_with_index` above the interleave: after the restart the index is 0 again. -/
theorem elastic_map_with_index_restarts (F : Nat) :
    (elasticHistoryAbove (.mapWithIndex (fun i a => .ok (some (i, a)))) (listFam twoByTwo) 2 2 (F + 20) none
      [(1, fun _ => 2), (2, fun _ => 1)]).map (·.1) =
      some [[[.item (some (0, 1)), .item (some (1, 3))]], [[.item (some (0, 2))], [.item (some (0, 4))]]] := by
  rfl

end Grain
