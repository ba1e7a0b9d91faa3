import Verif.Tree.Lemmas
/-
C46: nested structures are taken apart and put together without losing, adding or moving a leaf.
C57: rebatching keeps features apart.
-/
namespace Grain

/-- A structure used in the examples: `{"b": [1, (2, 3)], "a": {"x": 4}}`. -/
def Tree.sample : Tree Nat :=
  .dict .dict (.cons "b" (.seq .list (.cons (.leaf 1) (.cons (.seq .tuple (.cons (.leaf 2) (.cons (.leaf 3) .nil))) .nil)))
    (.cons "a" (.dict .dict (.cons "x" (.leaf 4) .nil)) .nil))

/-! ### C46 -/

/-- C46: flattening a structure and unflattening it as itself gives the structure back. -/
theorem unflatten_flatten (t : Tree α) : t.unflattenAs t.flatten = some t := by
  obtain ⟨u, h1, h2, h3⟩ := Tree.unflattenIter_spec t t.flatten (Nat.le_refl _)
  rw [List.take_length] at h2
  rw [Tree.unflattenAs, h1, Tree.ext_flatten u t h3 h2]; rfl

/-- C46: unflattening any list with enough values puts the first of them, in order, in the places of the leaves, in a structure
with the same containers and keys; the values left over are ignored. -/
theorem unflatten_as (t : Tree β) (xs : List α) (h : t.flatten.length ≤ xs.length) :
    ∃ u, t.unflattenAs xs = some u ∧ u.SameShape t ∧ u.flatten = xs.take t.flatten.length := by
  obtain ⟨u, h1, h2, h3⟩ := Tree.unflattenIter_spec t xs h
  exact ⟨u, by rw [Tree.unflattenAs, h1]; rfl, h3, h2⟩

/-- C46: with too few values unflattening fails. -/
theorem unflatten_as_short (t : Tree β) (xs : List α) (h : xs.length < t.flatten.length) : t.unflattenAs xs = none := by
  rw [Tree.unflattenAs, Tree.unflattenIter_short t xs h]; rfl

/-- C46: `map_structure(f, t)` has the shape of `t`, its leaves are those of `t` under `f` in order, and at every path it has
`f` of the leaf at that path. -/
theorem map_structure_spec (f : α → β) (t : Tree α) :
    (t.map f).SameShape t ∧ (t.map f).flatten = t.flatten.map f ∧ ∀ p, (t.map f).leafAt p = (t.leafAt p).map f :=
  ⟨Tree.map_map _ _ t, Tree.flatten_map f t, Tree.leafAt_map f t⟩

/-- C46: two structures with the same shape and the same flat list are equal. -/
theorem flatten_injective (a b : Tree α) (h : a.SameShape b) (h' : a.flatten = b.flatten) : a = b := Tree.ext_flatten a b h h'

/-- C46: `flatten_with_path` lists each leaf once, in the order of `flatten`, with the path at which it is found, and no two
leaves have the same path. -/
theorem flatten_with_path_spec (t : Tree α) (hok : t.Ok) :
    (t.flattenPath []).map (·.2) = t.flatten ∧ ((t.flattenPath []).map (·.1)).Nodup ∧
    ∀ p a, (p, a) ∈ t.flattenPath [] ↔ t.leafAt p = some a := by
  refine ⟨Tree.flattenPath_snd [] t, Tree.nodup_paths t hok [], fun p a => ?_⟩
  rw [Tree.mem_flattenPath t hok]
  constructor
  · rintro ⟨q, e, h⟩; simp only [List.nil_append] at e; rw [e]; exact h
  · intro h; exact ⟨p, by simp, h⟩

/-- C46: `map_structure_with_path(f, t)` has the shape of `t` and at every path `f` of that path and the leaf there. -/
theorem map_structure_with_path_spec (f : List PathKey → α → β) (t : Tree α) :
    (t.mapPath f []).SameShape t ∧ ∀ p, (t.mapPath f []).leafAt p = (t.leafAt p).map (f p) :=
  ⟨Tree.mapPath_shape f t [], fun p => by rw [Tree.mapPath_at]; rfl⟩

/-- C46: `map_structure` over two structures that `assert_same_structure` accepts gives the shape of the first and at every
path `f` of the leaf of the first and what the second has there, whatever the order of keys in its dictionaries. -/
theorem map_structure_two (f : α → Tree β → Py γ) (a : Tree α) (b : Tree β) (c : Tree γ) (hs : a.same b = true)
    (h : a.map₂ f b = .ok c) :
    c.SameShape a ∧ ∀ p x, a.leafAt p = some x → ∃ u y, b.at p = some u ∧ f x u = .ok y ∧ c.leafAt p = some y :=
  Tree.map₂_spec f a b c hs h

/-- C46: the same for `map_structure_up_to`. -/
theorem map_structure_up_to_spec (f : Tree β → Py γ) (a : Tree α) (b : Tree β) (c : Tree γ) (hs : a.same b = true)
    (h : a.mapUpTo f b = .ok c) :
    c.SameShape a ∧ ∀ p x, a.leafAt p = some x → ∃ u y, b.at p = some u ∧ f u = .ok y ∧ c.leafAt p = some y :=
  Tree.mapUpTo_spec f a b c hs h

example : Tree.sample.Ok := by
  simp [Tree.sample, Tree.Ok, TreeList.Ok, TreeDict.Ok, TreeDict.keys]
example : (Tree.sample.flattenPath []).map (·.1) =
    [[.key "b", .pos 0], [.key "b", .pos 1, .pos 0], [.key "b", .pos 1, .pos 1], [.key "a", .key "x"]] := rfl
example : Tree.sample.flatten.length ≤ [10, 20, 30, 40, 50].length := by decide
example : ∃ c, Tree.sample.same Tree.sample = true ∧
    Tree.sample.map₂ (fun x u => match u with | .leaf y => .ok (x + y) | _ => .error .typeError) Tree.sample = .ok c := ⟨_, rfl, rfl⟩

/-- Without `assert_same_structure` sequences of different lengths are cut to the shorter one without an error (the version of
JAX raises). -/
theorem map_structure_truncates :
    Tree.map₂ (fun x u => match u with | .leaf y => .ok (x + y) | _ => .error .typeError)
      (.seq .list (.cons (.leaf 1) (.cons (.leaf 2) .nil))) (.seq .list (.cons (.leaf 10) .nil)) =
    .ok (.seq .list (.cons (.leaf 11) .nil)) := rfl

/-- `assert_same_structure` accepts a leaf against any structure. -/
theorem assert_same_structure_leaf (a : α) (t : Tree β) : (Tree.leaf a).same t = true := by cases t <;> rfl

/-- `assert_same_structure` accepts a `defaultdict` against a `dict` with the same items, but not the other way round. -/
theorem assert_same_structure_one_sided (kvs : TreeDict α) (us : TreeDict β) (factory : String) :
    (Tree.dict (.default factory) kvs).same (Tree.dict .dict us) = (Tree.dict .dict kvs).same (Tree.dict .dict us) ∧
    (Tree.dict .dict kvs).same (Tree.dict (.default factory) us) = false := by
  constructor <;> simp [Tree.same, DictKind.isInstance]

/-- The same for a named tuple and a tuple. -/
theorem assert_same_structure_named (ts : TreeList α) (us : TreeList β) (name : String) :
    (Tree.seq (.named name) ts).same (Tree.seq .tuple us) = (Tree.seq .tuple ts).same (Tree.seq .tuple us) ∧
    (Tree.seq .tuple ts).same (Tree.seq (.named name) us) = false := by
  constructor <;> simp [Tree.same, SeqKind.isInstance]

/-- C46: dictionaries that `assert_same_structure` accepts have the same keys, and `map_structure` raises `KeyError` for
dictionaries that have not. -/
theorem same_structure_keys (f : α → Tree β → Py γ) (k k' : DictKind) (kvs : TreeDict α) (us : TreeDict β) :
    ((Tree.dict k kvs).same (Tree.dict k' us) = true → ∀ key, key ∈ kvs.keys ↔ key ∈ us.keys) ∧
    ((¬ ∀ key, key ∈ kvs.keys ↔ key ∈ us.keys) → (Tree.dict k kvs).map₂ f (Tree.dict k' us) = .error .keyError) := by
  have hk : kvs.sameKeys us = true ↔ ∀ key, key ∈ kvs.keys ↔ key ∈ us.keys := by
    simp only [TreeDict.sameKeys, Bool.and_eq_true, List.all_eq_true, List.contains_iff_mem]
    exact ⟨fun h key => ⟨h.1 key, h.2 key⟩, fun h => ⟨fun key => (h key).1, fun key => (h key).2⟩⟩
  constructor
  · intro h
    simp only [Tree.same, Bool.and_eq_true] at h
    exact hk.1 h.1.2
  · intro h
    have : kvs.sameKeys us = false := by rw [← Bool.not_eq_true, hk]; exact h
    simp [Tree.map₂, this]

/-- A key that only the second dictionary has. -/
example : (Tree.dict .dict (.cons "a" (.leaf 1) .nil)).map₂ (fun _ u => .ok u)
    (Tree.dict .dict (.cons "a" (.leaf 2) (.cons "b" (.leaf 3) .nil))) = (.error .keyError : Py (Tree (Tree Nat))) :=
  (same_structure_keys _ _ _ _ _).2 (by intro h; exact absurd ((h "b").2 (by decide)) (by decide))

/-! ### C57 -/

/-- C57, without JAX only for elements whose dictionaries list their keys in the order of the first element: every
feature of a rebatched element consists of the rows of that feature of the parent's elements, in order.
Missing: elements that list the keys in another order (`rebatch_mixes_features`). -/
theorem rebatch_features_partial (treedef : Tree β) (hok : treedef.Ok) (e : Tree (List α)) (pieces : List (Tree (List α)))
    (h : ∀ u ∈ e :: pieces, u.SameShape treedef) :
    ∃ r, rebatchJoin treedef (e :: pieces) = some r ∧ r.SameShape treedef ∧
      ∀ p rows, r.leafAt p = some rows → rows = ((e :: pieces).map (fun u => (u.leafAt p).getD [])).flatten := by
  have hl : ∀ u ∈ e :: pieces, u.flatten.length = treedef.flatten.length := fun u hu => (h u hu).length
  have hall : (e :: pieces).all (fun u => decide (u.flatten.length = e.flatten.length)) = true := by
    rw [List.all_eq_true]
    intro u hu
    exact decide_eq_true (by rw [hl u hu, hl e (by simp)])
  obtain ⟨r, h1, h2, h3⟩ := unflatten_as treedef
    ((List.range e.flatten.length).map (fun i => ((e :: pieces).map (fun u => (u.flatten[i]?).getD [])).flatten))
    (by rw [List.length_map, List.length_range, hl e (by simp)]; exact Nat.le_refl _)
  refine ⟨r, by simp only [rebatchJoin, hall, if_true]; exact h1, h2, fun p rows hp => ?_⟩
  have hrok := h2.ok.2 hok
  have hm := ((flatten_with_path_spec r hrok).2.2 p rows).2 hp
  obtain ⟨i, hi⟩ := List.getElem?_of_mem hm
  have hpi : ((r.flattenPath []).map (·.1))[i]? = some p := by rw [List.getElem?_map, hi]; rfl
  have hri : r.flatten[i]? = some rows := by rw [← Tree.leafAt_path hrok hpi]; exact hp
  have hii : i < treedef.flatten.length := by
    have := (List.getElem?_eq_some_iff.1 hri).1
    rw [h2.length] at this; exact this
  rw [h3, List.getElem?_take_of_lt hii, List.getElem?_map, List.getElem?_range (by rw [hl e (by simp)]; exact hii)] at hri
  simp only [Option.map_some, Option.some.injEq] at hri
  rw [← hri]
  congr 1
  apply List.map_congr_left
  intro u hu
  have hu' : ((u.flattenPath []).map (·.1))[i]? = some p := by rw [(h u hu).paths, ← h2.paths]; exact hpi
  rw [Tree.leafAt_path ((h u hu).ok.2 hok) hu']

/-- `{"x": [1], "y": [2]}` and `{"y": [4], "x": [3]}`. -/
def rebatchFirst : Tree (List Nat) := .dict .dict (.cons "x" (.leaf [1]) (.cons "y" (.leaf [2]) .nil))
def rebatchSecond : Tree (List Nat) := .dict .dict (.cons "y" (.leaf [4]) (.cons "x" (.leaf [3]) .nil))

example : ∃ r, rebatchJoin rebatchFirst [rebatchFirst, rebatchFirst] = some r ∧ r.leafAt [.key "x"] = some [1, 1] := ⟨_, rfl, rfl⟩
example : ∀ u ∈ [rebatchFirst, rebatchFirst], u.SameShape rebatchFirst := by
  intro u hu; simp only [List.mem_cons, List.not_mem_nil, or_false, or_self] at hu; rw [hu]; rfl

/-- C57 fails without JAX: for two elements with the same features, accepted by `assert_same_structure`, but with the keys
written in another order, the rebatched element has rows of feature `y` in feature `x`. -/
theorem rebatch_mixes_features :
    rebatchFirst.same rebatchSecond = true ∧ ∃ r, rebatchJoin rebatchFirst [rebatchFirst, rebatchSecond] = some r ∧
      r.leafAt [.key "x"] = some [1, 4] ∧ r.leafAt [.key "y"] = some [2, 3] ∧
      rebatchSecond.leafAt [.key "x"] = some [3] :=
  ⟨rfl, _, rfl, rfl, rfl, rfl⟩

end Grain
