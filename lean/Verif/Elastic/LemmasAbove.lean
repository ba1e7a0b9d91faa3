import Verif.Elastic.SpecAbove
import Verif.ListUtil
/-
Lemmas for C59.
-/
namespace Grain

theorem runNexts_zero (it : Iter α) (F : Nat) (s : it.S) : runNexts it F 0 s = some (s, []) := rfl

theorem runNexts_step (it : Iter α) (F m : Nat) (s : it.S) :
    runNexts it F (m + 1) s = (it.next F s).bind (fun q => (runNexts it F m q.1).map (fun w => (w.1, q.2 :: w.2))) := by
  show (do
    let (s, r) ← it.next F s
    let (s, rs) ← runNexts it F m s
    some (s, r :: rs)) = _
  cases it.next F s with
  | none => rfl
  | some q =>
    obtain ⟨s', r⟩ := q
    show (runNexts it F m s').bind _ = (runNexts it F m s').map _
    cases runNexts it F m s' with
    | none => rfl
    | some w => rfl

theorem runNexts_append (it : Iter α) (F : Nat) : ∀ (m k : Nat) (s s1 s2 : it.S) (r1 r2 : List (Res α)),
    runNexts it F m s = some (s1, r1) → runNexts it F k s1 = some (s2, r2) → runNexts it F (m + k) s = some (s2, r1 ++ r2)
  | 0, k, s, s1, s2, r1, r2, h1, h2 => by
    rw [runNexts_zero] at h1
    cases h1
    rw [Nat.zero_add]
    exact h2
  | m + 1, k, s, s1, s2, r1, r2, h1, h2 => by
    rw [runNexts_step] at h1
    cases hq : it.next F s with
    | none => rw [hq] at h1; cases h1
    | some q =>
      rw [hq] at h1
      obtain ⟨s', r⟩ := q
      change (runNexts it F m s').map _ = _ at h1
      cases hw : runNexts it F m s' with
      | none => rw [hw] at h1; cases h1
      | some w =>
        rw [hw] at h1
        obtain ⟨s1', r1'⟩ := w
        cases h1
        have h3 := runNexts_append it F m k s' s1' s2 r1' r2 hw h2
        rw [show m + 1 + k = (m + k) + 1 by omega, runNexts_step, hq]
        show (runNexts it F (m + k) s').map _ = _
        rw [h3]
        rfl

theorem runNexts_one (it : Iter α) (F : Nat) {s s' : it.S} {r : Res α} (h : it.next F s = some (s', r)) :
    runNexts it F 1 s = some (s', [r]) := by
  rw [runNexts_step, h]
  rfl

theorem runNexts_succ_inv {it : Iter α} {F m : Nat} {s s' : it.S} {rs : List (Res α)}
    (h : runNexts it F (m + 1) s = some (s', rs)) :
    ∃ s1 r rs', it.next F s = some (s1, r) ∧ runNexts it F m s1 = some (s', rs') ∧ rs = r :: rs' := by
  rw [runNexts_step] at h
  cases hq : it.next F s with
  | none => rw [hq] at h; cases h
  | some q =>
    rw [hq] at h
    obtain ⟨s1, r⟩ := q
    change (runNexts it F m s1).map _ = _ at h
    cases hw : runNexts it F m s1 with
    | none => rw [hw] at h; cases h
    | some w =>
      rw [hw] at h
      cases h
      exact ⟨s1, r, w.2, rfl, hw, rfl⟩

/-- From one call of `next` to any number. -/
theorem holdsNothing_of_next {t : Above α β} {R : List (Res α) → List (Res β) → Prop}
    (hi : ∀ p s ps, t.inner p (t.setInner p s ps) = ps) (h0 : R [] [])
    (hR : ∀ a b a' b', R a b → R a' b' → R (a ++ a') (b ++ b'))
    (hn : ∀ (p : Iter α) (F : Nat) (s s' : (t.wrap p).S) (r : Res β), (t.wrap p).next F s = some (s', r) →
      ∃ m' below, runNexts p F m' (t.inner p s) = some (t.inner p s', below) ∧ R below [r]) : HoldsNothing t R := by
  refine ⟨hi, ?_⟩
  intro p F m
  induction m with
  | zero =>
    intro s s' rs h
    rw [runNexts_zero] at h
    cases h
    exact ⟨0, [], rfl, h0⟩
  | succ m ih =>
    intro s s' rs h
    obtain ⟨s1, r, rs', h1, h2, rfl⟩ := runNexts_succ_inv h
    obtain ⟨m1, b1, e1, f1⟩ := hn p F s s1 r h1
    obtain ⟨m2, b2, e2, f2⟩ := ih s1 s' rs' h2
    exact ⟨m1 + m2, b1 ++ b2, runNexts_append p F m1 m2 _ _ _ _ _ e1 e2, hR _ [r] _ rs' f1 f2⟩

theorem Checker.check_none_snd (c : Checker) (b : Bool) : (c.check none b).2 = none := by
  unfold Checker.check
  dsimp only
  split <;> split <;> rfl

theorem filterLoop_below (p : Iter α) (pred : α → Py Bool) (F : Nat) : ∀ (n : Nat) (s s' : p.S × Checker) (r : Res α),
    filterLoop p pred none F n s = some (s', r) →
    ∃ m' below, runNexts p F m' s.1 = some (s'.1, below) ∧ [r] = below.filterMap (filterRes pred)
  | 0, s, s', r, h => by cases h
  | n + 1, s, s', r, h => by
    unfold filterLoop at h
    cases hq : p.next F s.1 with
    | none => rw [hq] at h; cases h
    | some q =>
      rw [hq] at h
      obtain ⟨ps, x⟩ := q
      dsimp only [bind, Option.bind] at h
      cases x with
      | stop => cases h; exact ⟨1, _, runNexts_one p F hq, rfl⟩
      | fail e => cases h; exact ⟨1, _, runNexts_one p F hq, rfl⟩
      | item a =>
        dsimp only at h
        cases hp : pred a with
        | error e =>
          rw [hp] at h
          cases h
          refine ⟨1, _, runNexts_one p F hq, ?_⟩
          simp [filterRes, hp]
        | ok b =>
          rw [hp] at h
          dsimp only at h
          split at h
          · rename_i c e hc
            exfalso
            have h2 := Checker.check_none_snd s.2 b
            rw [hc] at h2
            cases h2
          · rename_i c hc
            cases b with
            | true =>
              rw [if_pos rfl] at h
              cases h
              refine ⟨1, _, runNexts_one p F hq, ?_⟩
              simp [filterRes, hp]
            | false =>
              rw [if_neg (by decide)] at h
              obtain ⟨m', below, e1, e2⟩ := filterLoop_below p pred F n (ps, c) s' r h
              refine ⟨1 + m', _, runNexts_append p F 1 m' _ _ _ _ _ (runNexts_one p F hq) e1, ?_⟩
              rw [List.filterMap_append, ← e2]
              simp [filterRes, hp]

theorem itemsOf_append (a b : List (Res α)) : itemsOf (a ++ b) = itemsOf a ++ itemsOf b := List.filterMap_append ..

/-- What a batch loop without failures reads. -/
theorem batchLoop_below (p : Iter α) (F : Nat) : ∀ (n : Nat) (s s' : p.S) (vs : List α) (v : List α ⊕ Res (List α)),
    batchLoop p false F n s vs = some (s', v) →
    ∃ m' below, runNexts p F m' s = some (s', below) ∧
      ((∃ e, v = .inr (.fail e) ∧ Res.fail e ∈ below) ∨ (v = .inl (vs ++ itemsOf below) ∧ (itemsOf below).length ≤ n ∧
        (∀ e, Res.fail e ∉ below) ∧ ((itemsOf below).length < n → Res.stop ∈ below)))
  | 0, s, s', vs, v, h => by
    cases h
    exact ⟨0, [], rfl, .inr ⟨by simp [itemsOf], by simp [itemsOf], by simp, by simp⟩⟩
  | n + 1, s, s', vs, v, h => by
    unfold batchLoop at h
    cases hq : p.next F s with
    | none => rw [hq] at h; cases h
    | some q =>
      rw [hq] at h
      obtain ⟨ps, x⟩ := q
      dsimp only [bind, Option.bind] at h
      cases x with
      | stop =>
        dsimp only at h
        rw [if_neg (by decide)] at h
        cases h
        exact ⟨1, _, runNexts_one p F hq, .inr ⟨by simp [itemsOf], by simp [itemsOf], by simp, by simp⟩⟩
      | fail e =>
        cases h
        exact ⟨1, _, runNexts_one p F hq, .inl ⟨e, rfl, by simp⟩⟩
      | item a =>
        dsimp only at h
        obtain ⟨m', below, e1, e2⟩ := batchLoop_below p F n ps s' (vs ++ [a]) v h
        refine ⟨1 + m', _, runNexts_append p F 1 m' _ _ _ _ _ (runNexts_one p F hq) e1, ?_⟩
        rcases e2 with ⟨e, h1, h2⟩ | ⟨h1, h2, h3, h4⟩
        · exact .inl ⟨e, h1, by simp [h2]⟩
        · refine .inr ⟨?_, ?_, ?_, ?_⟩
          · rw [h1]; simp [itemsOf]
          · simp only [itemsOf, List.cons_append, List.nil_append, List.filterMap_cons, List.length_cons] at h2 ⊢; omega
          · intro e
            simp [h3 e]
          · intro hl
            simp only [itemsOf, List.cons_append, List.nil_append, List.filterMap_cons, List.length_cons] at hl h4 ⊢
            exact List.mem_cons_of_mem _ (h4 (by omega))

theorem option_bind_some {x : Option α} {f : α → Option β} {b : β} (h : x.bind f = some b) : ∃ a, x = some a ∧ f a = some b := by
  cases x with
  | none => cases h
  | some a => exact ⟨a, rfl, h⟩

theorem elasticRunAbove_below {t : Above α β} {R : List (Res α) → List (Res β) → Prop} (ht : HoldsNothing t R) {g : IterFam α}
    {n cycle hosts host F m : Nat} {dir : Option (Nat → Option (ShardState g.C))} {rs : List (Res β)} {st : List (ShardState g.C)}
    (h : elasticRunAbove t g n cycle hosts host F dir m = some (rs, st)) :
    ∃ m' below, elasticRun g n cycle hosts host F dir m' = some (below, st) ∧ R below rs := by
  obtain ⟨s0, h1, h⟩ := option_bind_some h
  obtain ⟨w, h2, h⟩ := option_bind_some h
  obtain ⟨s1, rs1⟩ := w
  cases h
  obtain ⟨m', below, e1, e2⟩ := ht.2 _ F m _ s1 rs1 h2
  replace e1 := (congrArg (runNexts (interleaveIter g n cycle false) F m') (ht.1 (interleaveIter g n cycle false) _ s0)).symm.trans e1
  refine ⟨m', below, ?_, e2⟩
  show (elasticStart g n cycle hosts host F dir).bind _ = _
  rw [h1]
  show (runNexts (interleaveIter g n cycle false) F m' s0).bind _ = _
  rw [e1]
  rfl

theorem mapM_cons_some {f : α → Option β} {a : α} {l : List α} {bs : List β} (h : (a :: l).mapM f = some bs) :
    ∃ b bs', f a = some b ∧ l.mapM f = some bs' ∧ bs = b :: bs' := by
  rw [List.mapM_cons] at h
  obtain ⟨b, h1, h⟩ := option_bind_some h
  obtain ⟨bs', h2, h⟩ := option_bind_some h
  cases h
  exact ⟨b, bs', h1, h2, rfl⟩

theorem mapM_congr_mem {f g : α → Option β} : ∀ (l : List α), (∀ a ∈ l, f a = g a) → l.mapM f = l.mapM g
  | [], _ => rfl
  | a :: l, h => by
    rw [List.mapM_cons, List.mapM_cons, h a (by simp), mapM_congr_mem l (fun b hb => h b (by simp [hb]))]

theorem mapM_below {σ : Type} {R : List (Res α) → List (Res β) → Prop} {fa : Nat → Option (List (Res β) × σ)}
    {fb : Nat → Nat → Option (List (Res α) × σ)}
    (hab : ∀ i rs st, fa i = some (rs, st) → ∃ m below, fb i m = some (below, st) ∧ R below rs) :
    ∀ (l : List Nat) (w : List (List (Res β) × σ)), l.Nodup → l.mapM fa = some w →
      ∃ (m : Nat → Nat) (w' : List (List (Res α) × σ)), l.mapM (fun i => fb i (m i)) = some w' ∧
        w'.map (·.2) = w.map (·.2) ∧ List.Forall₂ R (w'.map (·.1)) (w.map (·.1))
  | [], w, _, h => by cases h; exact ⟨fun _ => 0, [], rfl, rfl, .nil⟩
  | i :: l, w, hn, h => by
    obtain ⟨b, bs, h1, h2, rfl⟩ := mapM_cons_some h
    obtain ⟨m, w', e1, e2, e3⟩ := mapM_below hab l bs (List.nodup_cons.1 hn).2 h2
    obtain ⟨rs, st⟩ := b
    obtain ⟨mi, below, f1, f2⟩ := hab i rs st h1
    refine ⟨fun k => if k = i then mi else m k, (below, st) :: w', ?_, ?_, ?_⟩
    · rw [List.mapM_cons]
      dsimp only
      rw [if_pos rfl, f1]
      have : l.mapM (fun k => fb k (if k = i then mi else m k)) = l.mapM (fun k => fb k (m k)) := by
        apply mapM_congr_mem
        intro k hk
        rw [if_neg]
        rintro rfl
        exact (List.nodup_cons.1 hn).1 hk
      rw [this, e1]
      rfl
    · simp [e2]
    · exact .cons f2 e3

end Grain
