import Verif.Tree.Spec
import Verif.ListUtil
/-
Lemmas for C46.
-/
namespace Grain

mutual
theorem Tree.flatten_map (f : α → β) : ∀ t : Tree α, (t.map f).flatten = t.flatten.map f
  | .leaf a => by simp [Tree.map, Tree.flatten]
  | .seq k ts => by simp only [Tree.map, Tree.flatten]; exact TreeList.flatten_map f ts
  | .dict k kvs => by simp only [Tree.map, Tree.flatten]; exact TreeDict.flatten_map f kvs
theorem TreeList.flatten_map (f : α → β) : ∀ t : TreeList α, (t.map f).flatten = t.flatten.map f
  | .nil => rfl
  | .cons t ts => by simp only [TreeList.map, TreeList.flatten, List.map_append, Tree.flatten_map f t, TreeList.flatten_map f ts]
theorem TreeDict.flatten_map (f : α → β) : ∀ t : TreeDict α, (t.map f).flatten = t.flatten.map f
  | .nil => rfl
  | .cons _ t ts => by simp only [TreeDict.map, TreeDict.flatten, List.map_append, Tree.flatten_map f t, TreeDict.flatten_map f ts]
end

mutual
theorem Tree.map_map (g : β → γ) (f : α → β) : ∀ t : Tree α, (t.map f).map g = t.map (g ∘ f)
  | .leaf a => rfl
  | .seq k ts => by simp only [Tree.map, TreeList.map_map g f ts]
  | .dict k kvs => by simp only [Tree.map, TreeDict.map_map g f kvs]
theorem TreeList.map_map (g : β → γ) (f : α → β) : ∀ t : TreeList α, (t.map f).map g = t.map (g ∘ f)
  | .nil => rfl
  | .cons t ts => by simp only [TreeList.map, Tree.map_map g f t, TreeList.map_map g f ts]
theorem TreeDict.map_map (g : β → γ) (f : α → β) : ∀ t : TreeDict α, (t.map f).map g = t.map (g ∘ f)
  | .nil => rfl
  | .cons _ t ts => by simp only [TreeDict.map, Tree.map_map g f t, TreeDict.map_map g f ts]
end

/-- What `unflattenIter` gives for a flat list that is long enough. -/
theorem split_len {xs : List α} {a b : Nat} (h : a + b ≤ xs.length) : a ≤ xs.length ∧ b ≤ (xs.drop a).length := by
  rw [List.length_drop]; omega

mutual
theorem Tree.unflattenIter_spec : ∀ (s : Tree β) (xs : List α), s.flatten.length ≤ xs.length →
    ∃ t, s.unflattenIter xs = some (t, xs.drop s.flatten.length) ∧ t.flatten = xs.take s.flatten.length ∧ t.SameShape s
  | .leaf b, [], h => by simp [Tree.flatten] at h
  | .leaf b, x :: xs, _ => ⟨.leaf x, rfl, rfl, rfl⟩
  | .seq k ts, xs, h => by
    obtain ⟨t, h1, h2, h3⟩ := TreeList.unflattenIter_spec ts xs h
    exact ⟨.seq k t, by simp only [Tree.unflattenIter, h1, Option.map_some, Tree.flatten], h2, by
      simp only [Tree.SameShape, Tree.map, h3]⟩
  | .dict k kvs, xs, h => by
    obtain ⟨t, h1, h2, h3⟩ := TreeDict.unflattenIter_spec kvs xs h
    exact ⟨.dict k t, by simp only [Tree.unflattenIter, h1, Option.map_some, Tree.flatten], h2, by
      simp only [Tree.SameShape, Tree.map, h3]⟩
theorem TreeList.unflattenIter_spec : ∀ (s : TreeList β) (xs : List α), s.flatten.length ≤ xs.length →
    ∃ t, s.unflattenIter xs = some (t, xs.drop s.flatten.length) ∧ t.flatten = xs.take s.flatten.length ∧
      t.map (fun _ => ()) = s.map (fun _ => ())
  | .nil, xs, _ => ⟨.nil, rfl, rfl, rfl⟩
  | .cons t ts, xs, h => by
    simp only [TreeList.flatten, List.length_append] at h
    obtain ⟨h1, h2⟩ := split_len h
    obtain ⟨u, hu1, hu2, hu3⟩ := Tree.unflattenIter_spec t xs h1
    obtain ⟨us, hv1, hv2, hv3⟩ := TreeList.unflattenIter_spec ts _ h2
    refine ⟨.cons u us, ?_, ?_, ?_⟩
    · simp only [TreeList.unflattenIter, hu1, Option.bind_some, hv1, Option.map_some, TreeList.flatten, List.length_append,
        List.drop_drop]
    · simp only [TreeList.flatten, hu2, hv2, List.length_append, List.take_add]
    · simp only [TreeList.map, hv3]; rw [hu3]
theorem TreeDict.unflattenIter_spec : ∀ (s : TreeDict β) (xs : List α), s.flatten.length ≤ xs.length →
    ∃ t, s.unflattenIter xs = some (t, xs.drop s.flatten.length) ∧ t.flatten = xs.take s.flatten.length ∧
      t.map (fun _ => ()) = s.map (fun _ => ())
  | .nil, xs, _ => ⟨.nil, rfl, rfl, rfl⟩
  | .cons key t ts, xs, h => by
    simp only [TreeDict.flatten, List.length_append] at h
    obtain ⟨h1, h2⟩ := split_len h
    obtain ⟨u, hu1, hu2, hu3⟩ := Tree.unflattenIter_spec t xs h1
    obtain ⟨us, hv1, hv2, hv3⟩ := TreeDict.unflattenIter_spec ts _ h2
    refine ⟨.cons key u us, ?_, ?_, ?_⟩
    · simp only [TreeDict.unflattenIter, hu1, Option.bind_some, hv1, Option.map_some, TreeDict.flatten, List.length_append,
        List.drop_drop]
    · simp only [TreeDict.flatten, hu2, hv2, List.length_append, List.take_add]
    · simp only [TreeDict.map, hv3]; rw [hu3]
end

mutual
theorem Tree.unflattenIter_short : ∀ (s : Tree β) (xs : List α), xs.length < s.flatten.length → s.unflattenIter xs = none
  | .leaf b, [], _ => rfl
  | .leaf b, x :: xs, h => by simp [Tree.flatten] at h
  | .seq k ts, xs, h => by simp only [Tree.unflattenIter, TreeList.unflattenIter_short ts xs h, Option.map_none]
  | .dict k kvs, xs, h => by simp only [Tree.unflattenIter, TreeDict.unflattenIter_short kvs xs h, Option.map_none]
theorem TreeList.unflattenIter_short : ∀ (s : TreeList β) (xs : List α), xs.length < s.flatten.length → s.unflattenIter xs = none
  | .nil, xs, h => by simp [TreeList.flatten] at h
  | .cons t ts, xs, h => by
    simp only [TreeList.flatten, List.length_append] at h
    by_cases h1 : t.flatten.length ≤ xs.length
    · obtain ⟨u, hu1, -, -⟩ := Tree.unflattenIter_spec t xs h1
      simp only [TreeList.unflattenIter, hu1, Option.bind_some]
      rw [TreeList.unflattenIter_short ts _ (by rw [List.length_drop]; omega)]; rfl
    · simp only [TreeList.unflattenIter, Tree.unflattenIter_short t xs (by omega), Option.bind_none]
theorem TreeDict.unflattenIter_short : ∀ (s : TreeDict β) (xs : List α), xs.length < s.flatten.length → s.unflattenIter xs = none
  | .nil, xs, h => by simp [TreeDict.flatten] at h
  | .cons _ t ts, xs, h => by
    simp only [TreeDict.flatten, List.length_append] at h
    by_cases h1 : t.flatten.length ≤ xs.length
    · obtain ⟨u, hu1, -, -⟩ := Tree.unflattenIter_spec t xs h1
      simp only [TreeDict.unflattenIter, hu1, Option.bind_some]
      rw [TreeDict.unflattenIter_short ts _ (by rw [List.length_drop]; omega)]; rfl
    · simp only [TreeDict.unflattenIter, Tree.unflattenIter_short t xs (by omega), Option.bind_none]
end

mutual
/-- A structure is determined by its shape and its leaves. -/
theorem Tree.ext_flatten : ∀ (a b : Tree α), a.map (fun _ => ()) = b.map (fun _ => ()) → a.flatten = b.flatten → a = b
  | .leaf a, .leaf b, _, h => by simp only [Tree.flatten, List.cons.injEq] at h; rw [h.1]
  | .leaf a, .seq k ts, h, _ => by simp [Tree.map] at h
  | .leaf a, .dict k ts, h, _ => by simp [Tree.map] at h
  | .seq k ts, .leaf _, h, _ => by simp [Tree.map] at h
  | .seq k ts, .dict _ _, h, _ => by simp [Tree.map] at h
  | .dict k ts, .leaf _, h, _ => by simp [Tree.map] at h
  | .dict k ts, .seq _ _, h, _ => by simp [Tree.map] at h
  | .seq k ts, .seq k' us, h, h' => by
    simp only [Tree.map, Tree.seq.injEq] at h
    rw [h.1, TreeList.ext_flatten ts us h.2 h']
  | .dict k ts, .dict k' us, h, h' => by
    simp only [Tree.map, Tree.dict.injEq] at h
    rw [h.1, TreeDict.ext_flatten ts us h.2 h']
theorem TreeList.ext_flatten : ∀ (a b : TreeList α), a.map (fun _ => ()) = b.map (fun _ => ()) → a.flatten = b.flatten → a = b
  | .nil, .nil, _, _ => rfl
  | .nil, .cons _ _, h, _ => by simp [TreeList.map] at h
  | .cons _ _, .nil, h, _ => by simp [TreeList.map] at h
  | .cons t ts, .cons u us, h, h' => by
    simp only [TreeList.map, TreeList.cons.injEq] at h
    have hl : t.flatten.length = u.flatten.length := by
      have := congrArg (fun t => (Tree.flatten t).length) h.1
      simpa [Tree.flatten_map] using this
    obtain ⟨h1, h2⟩ := List.append_inj h' hl
    rw [Tree.ext_flatten t u h.1 h1, TreeList.ext_flatten ts us h.2 h2]
theorem TreeDict.ext_flatten : ∀ (a b : TreeDict α), a.map (fun _ => ()) = b.map (fun _ => ()) → a.flatten = b.flatten → a = b
  | .nil, .nil, _, _ => rfl
  | .nil, .cons _ _ _, h, _ => by simp [TreeDict.map] at h
  | .cons _ _ _, .nil, h, _ => by simp [TreeDict.map] at h
  | .cons k t ts, .cons k' u us, h, h' => by
    simp only [TreeDict.map, TreeDict.cons.injEq] at h
    have hl : t.flatten.length = u.flatten.length := by
      have := congrArg (fun t => (Tree.flatten t).length) h.2.1
      simpa [Tree.flatten_map] using this
    obtain ⟨h1, h2⟩ := List.append_inj h' hl
    rw [h.1, Tree.ext_flatten t u h.2.1 h1, TreeDict.ext_flatten ts us h.2.2 h2]
end

mutual
theorem Tree.at_map (f : α → β) : ∀ (t : Tree α) (p : List PathKey), (t.map f).at p = (t.at p).map (Tree.map f)
  | t, [] => by simp [Tree.at]
  | .leaf _, _ :: _ => by simp [Tree.at, Tree.map]
  | .seq _ ts, .pos i :: p => by simp only [Tree.at, Tree.map]; exact TreeList.at_map f ts i p
  | .seq _ _, .key _ :: _ => by simp [Tree.at, Tree.map]
  | .dict _ _, .pos _ :: _ => by simp [Tree.at, Tree.map]
  | .dict _ kvs, .key s :: p => by simp only [Tree.at, Tree.map]; exact TreeDict.at_map f kvs s p
theorem TreeList.at_map (f : α → β) : ∀ (t : TreeList α) (i : Nat) (p : List PathKey), (t.map f).at i p = (t.at i p).map (Tree.map f)
  | .nil, _, _ => by simp [TreeList.at, TreeList.map]
  | .cons t _, 0, p => by simp only [TreeList.at, TreeList.map]; exact Tree.at_map f t p
  | .cons _ ts, i + 1, p => by simp only [TreeList.at, TreeList.map]; exact TreeList.at_map f ts i p
theorem TreeDict.at_map (f : α → β) : ∀ (t : TreeDict α) (s : String) (p : List PathKey), (t.map f).at s p = (t.at s p).map (Tree.map f)
  | .nil, _, _ => by simp [TreeDict.at, TreeDict.map]
  | .cons key t kvs, s, p => by
    simp only [TreeDict.at, TreeDict.map]
    by_cases h : key = s
    · simp only [h, if_true]; exact Tree.at_map f t p
    · simp only [h, if_false]; exact TreeDict.at_map f kvs s p
end

mutual
theorem Tree.flattenPath_snd (pre : List PathKey) : ∀ t : Tree α, (t.flattenPath pre).map (·.2) = t.flatten
  | .leaf _ => rfl
  | .seq _ ts => TreeList.flattenPath_snd pre 0 ts
  | .dict _ kvs => TreeDict.flattenPath_snd pre kvs
theorem TreeList.flattenPath_snd (pre : List PathKey) (i : Nat) : ∀ t : TreeList α, (t.flattenPath pre i).map (·.2) = t.flatten
  | .nil => rfl
  | .cons t ts => by simp only [TreeList.flattenPath, TreeList.flatten, List.map_append, Tree.flattenPath_snd _ t, TreeList.flattenPath_snd _ _ ts]
theorem TreeDict.flattenPath_snd (pre : List PathKey) : ∀ t : TreeDict α, (t.flattenPath pre).map (·.2) = t.flatten
  | .nil => rfl
  | .cons _ t ts => by simp only [TreeDict.flattenPath, TreeDict.flatten, List.map_append, Tree.flattenPath_snd _ t, TreeDict.flattenPath_snd _ ts]
end

theorem Tree.leafAt_leaf (a b : α) (p : List PathKey) : (Tree.leaf a).leafAt p = some b ↔ p = [] ∧ b = a := by
  cases p with
  | nil => simp [Tree.leafAt, Tree.at, asLeaf, eq_comm]
  | cons k p => cases k <;> simp [Tree.leafAt, Tree.at, asLeaf]

/-- The leaf at a path of a list. -/
def TreeList.leafAt (t : TreeList α) (i : Nat) (p : List PathKey) : Option α := asLeaf (t.at i p)
def TreeDict.leafAt (t : TreeDict α) (s : String) (p : List PathKey) : Option α := asLeaf (t.at s p)

theorem TreeDict.at_none_of_not_mem : ∀ (t : TreeDict α) (s : String) (p : List PathKey), s ∉ t.keys → t.at s p = none
  | .nil, _, _, _ => rfl
  | .cons key t kvs, s, p, h => by
    simp only [TreeDict.keys, List.mem_cons, not_or] at h
    simp only [TreeDict.at, if_neg (Ne.symm h.1)]
    exact TreeDict.at_none_of_not_mem kvs s p h.2

mutual
/-- `flatten_with_path` lists exactly the paths at which a leaf is found. -/
theorem Tree.mem_flattenPath : ∀ (t : Tree α), t.Ok → ∀ (pre q : List PathKey) (a : α),
    ((q, a) ∈ t.flattenPath pre ↔ ∃ p, q = pre ++ p ∧ t.leafAt p = some a)
  | .leaf b, _, pre, q, a => by
    simp only [Tree.flattenPath, List.mem_singleton, Prod.mk.injEq, Tree.leafAt_leaf]
    constructor
    · rintro ⟨rfl, rfl⟩; exact ⟨[], by simp, rfl, rfl⟩
    · rintro ⟨p, rfl, rfl, rfl⟩; simp
  | .seq k ts, hok, pre, q, a => by
    simp only [Tree.flattenPath]
    rw [TreeList.mem_flattenPath ts hok pre 0 q a]
    constructor
    · rintro ⟨i, p, rfl, h⟩
      exact ⟨.pos i :: p, by simp, by simpa [Tree.leafAt, Tree.at, TreeList.leafAt] using h⟩
    · rintro ⟨p, rfl, h⟩
      match p, h with
      | [], h => simp [Tree.leafAt, Tree.at, asLeaf] at h
      | .pos i :: p, h => exact ⟨i, p, by simp, by simpa [Tree.leafAt, Tree.at, TreeList.leafAt] using h⟩
      | .key s :: p, h => simp [Tree.leafAt, Tree.at, asLeaf] at h
  | .dict k kvs, hok, pre, q, a => by
    simp only [Tree.flattenPath]
    rw [TreeDict.mem_flattenPath kvs hok pre q a]
    constructor
    · rintro ⟨i, p, rfl, h⟩
      exact ⟨.key i :: p, by simp, by simpa [Tree.leafAt, Tree.at, TreeDict.leafAt] using h⟩
    · rintro ⟨p, rfl, h⟩
      match p, h with
      | [], h => simp [Tree.leafAt, Tree.at, asLeaf] at h
      | .key i :: p, h => exact ⟨i, p, by simp, by simpa [Tree.leafAt, Tree.at, TreeDict.leafAt] using h⟩
      | .pos s :: p, h => simp [Tree.leafAt, Tree.at, asLeaf] at h
theorem TreeList.mem_flattenPath : ∀ (t : TreeList α), t.Ok → ∀ (pre : List PathKey) (i : Nat) (q : List PathKey) (a : α),
    ((q, a) ∈ t.flattenPath pre i ↔ ∃ j p, q = pre ++ .pos (i + j) :: p ∧ t.leafAt j p = some a)
  | .nil, _, pre, i, q, a => by simp [TreeList.flattenPath, TreeList.leafAt, TreeList.at, asLeaf]
  | .cons t ts, hok, pre, i, q, a => by
    simp only [TreeList.flattenPath, List.mem_append]
    rw [Tree.mem_flattenPath t hok.1, TreeList.mem_flattenPath ts hok.2]
    constructor
    · rintro (⟨p, rfl, h⟩ | ⟨j, p, rfl, h⟩)
      · exact ⟨0, p, by simp, h⟩
      · exact ⟨j + 1, p, by simp; omega, h⟩
    · rintro ⟨j, p, rfl, h⟩
      cases j with
      | zero => exact .inl ⟨p, by simp, h⟩
      | succ j => exact .inr ⟨j, p, by simp; omega, h⟩
theorem TreeDict.mem_flattenPath : ∀ (t : TreeDict α), t.Ok → ∀ (pre q : List PathKey) (a : α),
    ((q, a) ∈ t.flattenPath pre ↔ ∃ s p, q = pre ++ .key s :: p ∧ t.leafAt s p = some a)
  | .nil, _, pre, q, a => by simp [TreeDict.flattenPath, TreeDict.leafAt, TreeDict.at, asLeaf]
  | .cons key t ts, hok, pre, q, a => by
    simp only [TreeDict.flattenPath, List.mem_append]
    rw [Tree.mem_flattenPath t hok.2.1, TreeDict.mem_flattenPath ts hok.2.2]
    constructor
    · rintro (⟨p, rfl, h⟩ | ⟨s, p, rfl, h⟩)
      · exact ⟨key, p, by simp, by simpa [TreeDict.leafAt, TreeDict.at, Tree.leafAt] using h⟩
      · refine ⟨s, p, by simp, ?_⟩
        have : key ≠ s := by
          rintro rfl
          rw [TreeDict.leafAt, TreeDict.at_none_of_not_mem ts _ _ hok.1] at h
          cases h
        simpa [TreeDict.leafAt, TreeDict.at, this] using h
    · rintro ⟨s, p, rfl, h⟩
      by_cases hk : key = s
      · subst hk
        exact .inl ⟨p, by simp, by simpa [TreeDict.leafAt, TreeDict.at, Tree.leafAt] using h⟩
      · exact .inr ⟨s, p, by simp, by simpa [TreeDict.leafAt, TreeDict.at, hk] using h⟩
end


mutual
theorem Tree.nodup_paths : ∀ (t : Tree α), t.Ok → ∀ pre : List PathKey, ((t.flattenPath pre).map (·.1)).Nodup
  | .leaf _, _, _ => by simp [Tree.flattenPath]
  | .seq _ ts, h, pre => TreeList.nodup_paths ts h pre 0
  | .dict _ kvs, h, pre => TreeDict.nodup_paths kvs h pre
theorem TreeList.nodup_paths : ∀ (t : TreeList α), t.Ok → ∀ (pre : List PathKey) (i : Nat), ((t.flattenPath pre i).map (·.1)).Nodup
  | .nil, _, _, _ => by simp [TreeList.flattenPath]
  | .cons t ts, h, pre, i => by
    simp only [TreeList.flattenPath, List.map_append]
    rw [List.nodup_append]
    refine ⟨Tree.nodup_paths t h.1 _, TreeList.nodup_paths ts h.2 _ _, ?_⟩
    intro q hq r hr e
    subst e
    obtain ⟨⟨q1, a1⟩, h1, rfl⟩ := List.mem_map.1 hq
    obtain ⟨⟨q2, a2⟩, h2, h3⟩ := List.mem_map.1 hr
    obtain ⟨p1, e1, -⟩ := (Tree.mem_flattenPath t h.1 _ _ _).1 h1
    obtain ⟨j, p2, e2, -⟩ := (TreeList.mem_flattenPath ts h.2 _ _ _ _).1 h2
    simp only at h3 e1 e2
    rw [e1, e2, List.append_assoc] at h3
    have := List.append_cancel_left h3
    simp only [List.singleton_append, List.cons.injEq, PathKey.pos.injEq] at this
    omega
theorem TreeDict.nodup_paths : ∀ (t : TreeDict α), t.Ok → ∀ (pre : List PathKey), ((t.flattenPath pre).map (·.1)).Nodup
  | .nil, _, _ => by simp [TreeDict.flattenPath]
  | .cons key t ts, h, pre => by
    simp only [TreeDict.flattenPath, List.map_append]
    rw [List.nodup_append]
    refine ⟨Tree.nodup_paths t h.2.1 _, TreeDict.nodup_paths ts h.2.2 _, ?_⟩
    intro q hq r hr e
    subst e
    obtain ⟨⟨q1, a1⟩, h1, rfl⟩ := List.mem_map.1 hq
    obtain ⟨⟨q2, a2⟩, h2, h3⟩ := List.mem_map.1 hr
    obtain ⟨p1, e1, -⟩ := (Tree.mem_flattenPath t h.2.1 _ _ _).1 h1
    obtain ⟨j, p2, e2, h4⟩ := (TreeDict.mem_flattenPath ts h.2.2 _ _ _).1 h2
    simp only at h3 e1 e2
    rw [e1, e2, List.append_assoc] at h3
    have := List.append_cancel_left h3
    simp only [List.singleton_append, List.cons.injEq, PathKey.key.injEq] at this
    rw [this.1, TreeDict.leafAt, TreeDict.at_none_of_not_mem ts _ _ h.1] at h4
    cases h4
end

mutual
/-- `map_structure_with_path` puts `f path leaf` where the leaf was. -/
theorem Tree.mapPath_at (f : List PathKey → α → β) : ∀ (t : Tree α) (pre p : List PathKey),
    (t.mapPath f pre).leafAt p = (t.leafAt p).map (f (pre ++ p))
  | .leaf a, pre, [] => by simp [Tree.mapPath, Tree.leafAt, Tree.at, asLeaf]
  | .leaf a, pre, _ :: _ => by simp [Tree.mapPath, Tree.leafAt, Tree.at, asLeaf]
  | .seq k ts, pre, [] => by simp [Tree.mapPath, Tree.leafAt, Tree.at, asLeaf]
  | .dict k ts, pre, [] => by simp [Tree.mapPath, Tree.leafAt, Tree.at, asLeaf]
  | .seq k ts, pre, .pos i :: p => by
    have := TreeList.mapPath_at f ts pre 0 i p
    simpa [Tree.mapPath, Tree.leafAt, Tree.at, TreeList.leafAt] using this
  | .seq k ts, pre, .key s :: p => by simp [Tree.mapPath, Tree.leafAt, Tree.at, asLeaf]
  | .dict k ts, pre, .pos s :: p => by simp [Tree.mapPath, Tree.leafAt, Tree.at, asLeaf]
  | .dict k ts, pre, .key s :: p => by
    have := TreeDict.mapPath_at f ts pre s p
    simpa [Tree.mapPath, Tree.leafAt, Tree.at, TreeDict.leafAt] using this
theorem TreeList.mapPath_at (f : List PathKey → α → β) : ∀ (t : TreeList α) (pre : List PathKey) (i j : Nat) (p : List PathKey),
    (t.mapPath f pre i).leafAt j p = (t.leafAt j p).map (f (pre ++ .pos (i + j) :: p))
  | .nil, pre, i, j, p => by simp [TreeList.mapPath, TreeList.leafAt, TreeList.at, asLeaf]
  | .cons t ts, pre, i, 0, p => by
    have := Tree.mapPath_at f t (pre ++ [.pos i]) p
    simpa [TreeList.mapPath, Tree.leafAt, TreeList.at, TreeList.leafAt] using this
  | .cons t ts, pre, i, j + 1, p => by
    have := TreeList.mapPath_at f ts pre (i + 1) j p
    rw [show i + 1 + j = i + (j + 1) by omega] at this
    simpa [TreeList.mapPath, TreeList.at, TreeList.leafAt] using this
theorem TreeDict.mapPath_at (f : List PathKey → α → β) : ∀ (t : TreeDict α) (pre : List PathKey) (s : String) (p : List PathKey),
    (t.mapPath f pre).leafAt s p = (t.leafAt s p).map (f (pre ++ .key s :: p))
  | .nil, pre, s, p => by simp [TreeDict.mapPath, TreeDict.leafAt, TreeDict.at, asLeaf]
  | .cons key t ts, pre, s, p => by
    by_cases h : key = s
    · subst h
      have := Tree.mapPath_at f t (pre ++ [.key key]) p
      simpa [TreeDict.mapPath, Tree.leafAt, TreeDict.at, TreeDict.leafAt] using this
    · have := TreeDict.mapPath_at f ts pre s p
      simpa [TreeDict.mapPath, TreeDict.at, TreeDict.leafAt, h] using this
end

mutual
theorem Tree.mapPath_shape (f : List PathKey → α → β) : ∀ (t : Tree α) (pre : List PathKey),
    (t.mapPath f pre).map (fun _ => ()) = t.map (fun _ => ())
  | .leaf _, _ => rfl
  | .seq _ ts, pre => by simp only [Tree.mapPath, Tree.map, TreeList.mapPath_shape f ts]
  | .dict _ ts, pre => by simp only [Tree.mapPath, Tree.map, TreeDict.mapPath_shape f ts]
theorem TreeList.mapPath_shape (f : List PathKey → α → β) : ∀ (t : TreeList α) (pre : List PathKey) (i : Nat),
    (t.mapPath f pre i).map (fun _ => ()) = t.map (fun _ => ())
  | .nil, _, _ => rfl
  | .cons t ts, pre, i => by simp only [TreeList.mapPath, TreeList.map, Tree.mapPath_shape f t, TreeList.mapPath_shape f ts]
theorem TreeDict.mapPath_shape (f : List PathKey → α → β) : ∀ (t : TreeDict α) (pre : List PathKey),
    (t.mapPath f pre).map (fun _ => ()) = t.map (fun _ => ())
  | .nil, _ => rfl
  | .cons _ t ts, pre => by simp only [TreeDict.mapPath, TreeDict.map, Tree.mapPath_shape f t, TreeDict.mapPath_shape f ts]
end

theorem Tree.leafAt_map (f : α → β) (t : Tree α) (p : List PathKey) : (t.map f).leafAt p = (t.leafAt p).map f := by
  rw [Tree.leafAt, Tree.leafAt, Tree.at_map]
  rcases t.at p with _ | ⟨_ | _ | _⟩ <;> rfl

theorem TreeDict.at_lookup : ∀ (t : TreeDict α) (s : String) (p : List PathKey), t.at s p = (t.lookup s).bind (·.at p)
  | .nil, _, _ => rfl
  | .cons key t ts, s, p => by
    by_cases h : key = s
    · simp [TreeDict.at, TreeDict.lookup, h]
    · simp only [TreeDict.at, TreeDict.lookup, h, if_false]; exact TreeDict.at_lookup ts s p

theorem okBind₁ {x : Py α} {g : α → β} {c : β} (h : (do .ok (g (← x)) : Py β) = .ok c) : ∃ y, x = .ok y ∧ c = g y := by
  cases x with
  | error e => cases h
  | ok y => exact ⟨y, rfl, by cases h; rfl⟩

theorem okBind₂ {x : Py α} {y : Py β} {g : α → β → γ} {c : γ} (h : (do .ok (g (← x) (← y)) : Py γ) = .ok c) :
    ∃ a b, x = .ok a ∧ y = .ok b ∧ c = g a b := by
  cases x with
  | error e => cases h
  | ok a =>
    cases y with
    | error e => cases h
    | ok b => exact ⟨a, b, rfl, rfl, by cases h; rfl⟩

mutual
/-- `map_structure` over two trees the assertion accepts: the shape of the first, and at each leaf of the first `f` of it and
of what the second has at the same path. -/
theorem Tree.map₂_spec (f : α → Tree β → Py γ) : ∀ (a : Tree α) (b : Tree β) (c : Tree γ), a.same b = true → a.map₂ f b = .ok c →
    c.map (fun _ => ()) = a.map (fun _ => ()) ∧
    ∀ p x, a.leafAt p = some x → ∃ u y, b.at p = some u ∧ f x u = .ok y ∧ c.leafAt p = some y
  | .leaf a, b, c, _, h => by
    simp only [Tree.map₂] at h
    obtain ⟨y, h1, rfl⟩ := okBind₁ h
    refine ⟨rfl, fun p x hx => ?_⟩
    obtain ⟨rfl, rfl⟩ := (Tree.leafAt_leaf _ _ _).1 hx
    exact ⟨b, y, by simp [Tree.at], h1, by simp [Tree.leafAt, Tree.at, asLeaf]⟩
  | .seq k ts, .leaf _, c, h, _ => by simp [Tree.same] at h
  | .seq k ts, .dict _ _, c, h, _ => by simp [Tree.same] at h
  | .dict k ts, .leaf _, c, h, _ => by simp [Tree.same] at h
  | .dict k ts, .seq _ _, c, h, _ => by simp [Tree.same] at h
  | .seq k ts, .seq k' us, c, hs, h => by
    simp only [Tree.map₂] at h
    simp only [Tree.same, Bool.and_eq_true, decide_eq_true_eq] at hs
    obtain ⟨y, h1, rfl⟩ := okBind₁ h
    obtain ⟨h2, h3⟩ := TreeList.map₂_spec f ts us y hs.1.2 hs.2 h1
    refine ⟨by simp only [Tree.map, h2], fun p x hx => ?_⟩
    match p, hx with
    | [], hx => simp [Tree.leafAt, Tree.at, asLeaf] at hx
    | .key s :: p, hx => simp [Tree.leafAt, Tree.at, asLeaf] at hx
    | .pos i :: p, hx =>
      have := h3 i p x (by simpa [Tree.leafAt, Tree.at, TreeList.leafAt] using hx)
      simpa [Tree.leafAt, Tree.at, TreeList.leafAt] using this
  | .dict k ts, .dict k' us, c, hs, h => by
    simp only [Tree.same, Bool.and_eq_true] at hs
    simp only [Tree.map₂, hs.1.2, if_true] at h
    obtain ⟨y, h1, rfl⟩ := okBind₁ h
    obtain ⟨h2, h3⟩ := TreeDict.map₂_spec f ts us y hs.2 h1
    refine ⟨by simp only [Tree.map, h2], fun p x hx => ?_⟩
    match p, hx with
    | [], hx => simp [Tree.leafAt, Tree.at, asLeaf] at hx
    | .pos s :: p, hx => simp [Tree.leafAt, Tree.at, asLeaf] at hx
    | .key i :: p, hx =>
      have := h3 i p x (by simpa [Tree.leafAt, Tree.at, TreeDict.leafAt] using hx)
      simpa [Tree.leafAt, Tree.at, TreeDict.leafAt] using this
theorem TreeList.map₂_spec (f : α → Tree β → Py γ) : ∀ (a : TreeList α) (b : TreeList β) (c : TreeList γ), a.length = b.length →
    a.same b = true → a.map₂ f b = .ok c →
    c.map (fun _ => ()) = a.map (fun _ => ()) ∧
    ∀ i p x, a.leafAt i p = some x → ∃ u y, b.at i p = some u ∧ f x u = .ok y ∧ c.leafAt i p = some y
  | .nil, b, c, _, _, h => by
    cases b <;> (cases h; exact ⟨rfl, fun i p x hx => by simp [TreeList.leafAt, TreeList.at, asLeaf] at hx⟩)
  | .cons t ts, .nil, c, hl, _, h => by simp [TreeList.length] at hl
  | .cons t ts, .cons u us, c, hl, hs, h => by
    simp only [TreeList.map₂] at h
    simp only [TreeList.same, Bool.and_eq_true] at hs
    obtain ⟨y, z, h1, h2, rfl⟩ := okBind₂ h
    obtain ⟨e1, e2⟩ := Tree.map₂_spec f t u y hs.1 h1
    obtain ⟨e3, e4⟩ := TreeList.map₂_spec f ts us z (by simpa [TreeList.length] using hl) hs.2 h2
    refine ⟨by simp only [TreeList.map, e1, e3], fun i p x hx => ?_⟩
    cases i with
    | zero => simpa [TreeList.leafAt, TreeList.at, Tree.leafAt] using e2 p x (by simpa [TreeList.leafAt, TreeList.at, Tree.leafAt] using hx)
    | succ i => simpa [TreeList.leafAt, TreeList.at] using e4 i p x (by simpa [TreeList.leafAt, TreeList.at] using hx)
theorem TreeDict.map₂_spec (f : α → Tree β → Py γ) : ∀ (a : TreeDict α) (b : TreeDict β) (c : TreeDict γ),
    a.same b = true → a.map₂ f b = .ok c →
    c.map (fun _ => ()) = a.map (fun _ => ()) ∧
    ∀ s p x, a.leafAt s p = some x → ∃ u y, b.at s p = some u ∧ f x u = .ok y ∧ c.leafAt s p = some y
  | .nil, b, c, _, h => by
    cases h; exact ⟨rfl, fun i p x hx => by simp [TreeDict.leafAt, TreeDict.at, asLeaf] at hx⟩
  | .cons key t ts, us, c, hs, h => by
    simp only [TreeDict.map₂] at h
    simp only [TreeDict.same] at hs
    cases hu : us.lookup key with
    | none => rw [hu] at h; cases h
    | some u =>
      rw [hu] at h hs
      simp only [Bool.and_eq_true] at h hs
      obtain ⟨y, z, h1, h2, rfl⟩ := okBind₂ h
      obtain ⟨e1, e2⟩ := Tree.map₂_spec f t u y hs.1 h1
      obtain ⟨e3, e4⟩ := TreeDict.map₂_spec f ts us z hs.2 h2
      refine ⟨by simp only [TreeDict.map, e1, e3], fun s p x hx => ?_⟩
      by_cases hk : key = s
      · subst hk
        have := e2 p x (by simpa [TreeDict.leafAt, TreeDict.at, Tree.leafAt] using hx)
        simpa [TreeDict.leafAt, TreeDict.at, Tree.leafAt, TreeDict.at_lookup us, hu] using this
      · have := e4 s p x (by simpa [TreeDict.leafAt, TreeDict.at, hk] using hx)
        simpa [TreeDict.leafAt, TreeDict.at, hk] using this
end

mutual
/-- `map_structure_up_to` whenever it succeeds and no sequence is cut short. -/
theorem Tree.mapUpTo_spec (f : Tree β → Py γ) : ∀ (a : Tree α) (b : Tree β) (c : Tree γ), a.same b = true → a.mapUpTo f b = .ok c →
    c.map (fun _ => ()) = a.map (fun _ => ()) ∧
    ∀ p x, a.leafAt p = some x → ∃ u y, b.at p = some u ∧ f u = .ok y ∧ c.leafAt p = some y
  | .leaf a, b, c, _, h => by
    simp only [Tree.mapUpTo] at h
    obtain ⟨y, h1, rfl⟩ := okBind₁ h
    refine ⟨rfl, fun p x hx => ?_⟩
    obtain ⟨rfl, rfl⟩ := (Tree.leafAt_leaf _ _ _).1 hx
    exact ⟨b, y, by simp [Tree.at], h1, by simp [Tree.leafAt, Tree.at, asLeaf]⟩
  | .seq k ts, .leaf _, c, h, _ => by simp [Tree.same] at h
  | .seq k ts, .dict _ _, c, h, _ => by simp [Tree.same] at h
  | .dict k ts, .leaf _, c, h, _ => by simp [Tree.same] at h
  | .dict k ts, .seq _ _, c, h, _ => by simp [Tree.same] at h
  | .seq k ts, .seq k' us, c, hs, h => by
    simp only [Tree.mapUpTo] at h
    simp only [Tree.same, Bool.and_eq_true, decide_eq_true_eq] at hs
    obtain ⟨y, h1, rfl⟩ := okBind₁ h
    obtain ⟨h2, h3⟩ := TreeList.mapUpTo_spec f ts us y hs.1.2 hs.2 h1
    refine ⟨by simp only [Tree.map, h2], fun p x hx => ?_⟩
    match p, hx with
    | [], hx => simp [Tree.leafAt, Tree.at, asLeaf] at hx
    | .key s :: p, hx => simp [Tree.leafAt, Tree.at, asLeaf] at hx
    | .pos i :: p, hx =>
      have := h3 i p x (by simpa [Tree.leafAt, Tree.at, TreeList.leafAt] using hx)
      simpa [Tree.leafAt, Tree.at, TreeList.leafAt] using this
  | .dict k ts, .dict k' us, c, hs, h => by
    simp only [Tree.same, Bool.and_eq_true] at hs
    simp only [Tree.mapUpTo] at h
    obtain ⟨y, h1, rfl⟩ := okBind₁ h
    obtain ⟨h2, h3⟩ := TreeDict.mapUpTo_spec f ts us y hs.2 h1
    refine ⟨by simp only [Tree.map, h2], fun p x hx => ?_⟩
    match p, hx with
    | [], hx => simp [Tree.leafAt, Tree.at, asLeaf] at hx
    | .pos s :: p, hx => simp [Tree.leafAt, Tree.at, asLeaf] at hx
    | .key i :: p, hx =>
      have := h3 i p x (by simpa [Tree.leafAt, Tree.at, TreeDict.leafAt] using hx)
      simpa [Tree.leafAt, Tree.at, TreeDict.leafAt] using this
theorem TreeList.mapUpTo_spec (f : Tree β → Py γ) : ∀ (a : TreeList α) (b : TreeList β) (c : TreeList γ), a.length = b.length →
    a.same b = true → a.mapUpTo f b = .ok c →
    c.map (fun _ => ()) = a.map (fun _ => ()) ∧
    ∀ i p x, a.leafAt i p = some x → ∃ u y, b.at i p = some u ∧ f u = .ok y ∧ c.leafAt i p = some y
  | .nil, b, c, _, _, h => by
    cases b <;> (cases h; exact ⟨rfl, fun i p x hx => by simp [TreeList.leafAt, TreeList.at, asLeaf] at hx⟩)
  | .cons t ts, .nil, c, hl, _, h => by simp [TreeList.length] at hl
  | .cons t ts, .cons u us, c, hl, hs, h => by
    simp only [TreeList.mapUpTo] at h
    simp only [TreeList.same, Bool.and_eq_true] at hs
    obtain ⟨y, z, h1, h2, rfl⟩ := okBind₂ h
    obtain ⟨e1, e2⟩ := Tree.mapUpTo_spec f t u y hs.1 h1
    obtain ⟨e3, e4⟩ := TreeList.mapUpTo_spec f ts us z (by simpa [TreeList.length] using hl) hs.2 h2
    refine ⟨by simp only [TreeList.map, e1, e3], fun i p x hx => ?_⟩
    cases i with
    | zero => simpa [TreeList.leafAt, TreeList.at, Tree.leafAt] using e2 p x (by simpa [TreeList.leafAt, TreeList.at, Tree.leafAt] using hx)
    | succ i => simpa [TreeList.leafAt, TreeList.at] using e4 i p x (by simpa [TreeList.leafAt, TreeList.at] using hx)
theorem TreeDict.mapUpTo_spec (f : Tree β → Py γ) : ∀ (a : TreeDict α) (b : TreeDict β) (c : TreeDict γ),
    a.same b = true → a.mapUpTo f b = .ok c →
    c.map (fun _ => ()) = a.map (fun _ => ()) ∧
    ∀ s p x, a.leafAt s p = some x → ∃ u y, b.at s p = some u ∧ f u = .ok y ∧ c.leafAt s p = some y
  | .nil, b, c, _, h => by
    cases h; exact ⟨rfl, fun i p x hx => by simp [TreeDict.leafAt, TreeDict.at, asLeaf] at hx⟩
  | .cons key t ts, us, c, hs, h => by
    simp only [TreeDict.mapUpTo] at h
    simp only [TreeDict.same] at hs
    cases hu : us.lookup key with
    | none => rw [hu] at h; cases h
    | some u =>
      rw [hu] at h hs
      simp only [Bool.and_eq_true] at h hs
      obtain ⟨y, z, h1, h2, rfl⟩ := okBind₂ h
      obtain ⟨e1, e2⟩ := Tree.mapUpTo_spec f t u y hs.1 h1
      obtain ⟨e3, e4⟩ := TreeDict.mapUpTo_spec f ts us z hs.2 h2
      refine ⟨by simp only [TreeDict.map, e1, e3], fun s p x hx => ?_⟩
      by_cases hk : key = s
      · subst hk
        have := e2 p x (by simpa [TreeDict.leafAt, TreeDict.at, Tree.leafAt] using hx)
        simpa [TreeDict.leafAt, TreeDict.at, Tree.leafAt, TreeDict.at_lookup us, hu] using this
      · have := e4 s p x (by simpa [TreeDict.leafAt, TreeDict.at, hk] using hx)
        simpa [TreeDict.leafAt, TreeDict.at, hk] using this
end

mutual
theorem Tree.flattenPath_map (f : α → β) : ∀ (t : Tree α) (pre : List PathKey),
    ((t.map f).flattenPath pre).map (·.1) = (t.flattenPath pre).map (·.1)
  | .leaf _, _ => rfl
  | .seq _ ts, pre => TreeList.flattenPath_map f ts pre 0
  | .dict _ ts, pre => TreeDict.flattenPath_map f ts pre
theorem TreeList.flattenPath_map (f : α → β) : ∀ (t : TreeList α) (pre : List PathKey) (i : Nat),
    ((t.map f).flattenPath pre i).map (·.1) = (t.flattenPath pre i).map (·.1)
  | .nil, _, _ => rfl
  | .cons t ts, pre, i => by
    simp only [TreeList.map, TreeList.flattenPath, List.map_append, Tree.flattenPath_map f t, TreeList.flattenPath_map f ts]
theorem TreeDict.flattenPath_map (f : α → β) : ∀ (t : TreeDict α) (pre : List PathKey),
    ((t.map f).flattenPath pre).map (·.1) = (t.flattenPath pre).map (·.1)
  | .nil, _ => rfl
  | .cons _ t ts, pre => by
    simp only [TreeDict.map, TreeDict.flattenPath, List.map_append, Tree.flattenPath_map f t, TreeDict.flattenPath_map f ts]
end

theorem TreeDict.keys_map (f : α → β) : ∀ u : TreeDict α, (u.map f).keys = u.keys
  | .nil => rfl
  | .cons k t u => by simp only [TreeDict.map, TreeDict.keys, TreeDict.keys_map f u]

mutual
theorem Tree.ok_map (f : α → β) : ∀ t : Tree α, (t.map f).Ok ↔ t.Ok
  | .leaf _ => by simp [Tree.map, Tree.Ok]
  | .seq _ ts => TreeList.ok_map f ts
  | .dict _ ts => TreeDict.ok_map f ts
theorem TreeList.ok_map (f : α → β) : ∀ t : TreeList α, (t.map f).Ok ↔ t.Ok
  | .nil => Iff.rfl
  | .cons t ts => by simp only [TreeList.map, TreeList.Ok, Tree.ok_map f t, TreeList.ok_map f ts]
theorem TreeDict.ok_map (f : α → β) : ∀ t : TreeDict α, (t.map f).Ok ↔ t.Ok
  | .nil => Iff.rfl
  | .cons k t ts => by
    simp only [TreeDict.map, TreeDict.Ok, Tree.ok_map f t, TreeDict.ok_map f ts, TreeDict.keys_map f ts]
end

theorem Tree.SameShape.paths {a : Tree α} {b : Tree β} (h : a.SameShape b) :
    (a.flattenPath []).map (·.1) = (b.flattenPath []).map (·.1) := by
  rw [← Tree.flattenPath_map (fun _ => ()) a, ← Tree.flattenPath_map (fun _ => ()) b, h]

theorem Tree.SameShape.ok {a : Tree α} {b : Tree β} (h : a.SameShape b) : a.Ok ↔ b.Ok := by
  rw [← Tree.ok_map (fun _ => ()) a, ← Tree.ok_map (fun _ => ()) b, h]

theorem Tree.SameShape.length {a : Tree α} {b : Tree β} (h : a.SameShape b) : a.flatten.length = b.flatten.length := by
  have := congrArg (fun t => (Tree.flatten t).length) h
  simpa [Tree.flatten_map] using this

/-- The `i`-th leaf of a structure is the leaf at the `i`-th path. -/
theorem Tree.leafAt_path {t : Tree α} (hok : t.Ok) {i : Nat} {p : List PathKey}
    (hp : ((t.flattenPath []).map (·.1))[i]? = some p) : t.leafAt p = t.flatten[i]? := by
  rw [List.getElem?_map] at hp
  cases h : (t.flattenPath [])[i]? with
  | none => rw [h] at hp; cases hp
  | some q =>
    rw [h] at hp
    simp only [Option.map_some, Option.some.injEq] at hp
    have h1 : t.flatten[i]? = some q.2 := by rw [← Tree.flattenPath_snd [] t, List.getElem?_map, h]; rfl
    obtain ⟨p', e, h2⟩ := (Tree.mem_flattenPath t hok [] q.1 q.2).1 (List.mem_of_getElem? h)
    simp only [List.nil_append] at e
    rw [h1, ← hp, e, h2]

end Grain
