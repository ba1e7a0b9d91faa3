import Verif.Batch.Pad
/-
C62: the default batch function keeps every element as a row.
C63: padding a batch adds rows of the pad value and changes nothing else.
C64: batching into shared memory gives the same batch.
-/
namespace Grain

/-! ### A concrete numpy: integers of several widths, floats with integral values, text -/

/-- Types for the examples. -/
inductive Ty where
  | int (bits : Nat)
  | float
  | str (width : Nat)
  deriving DecidableEq, Repr

/-- The value of an integer kept in `bits` bits. -/
def wrapInt (bits : Nat) (v : Int) : Int := (v + 2 ^ (bits - 1)) % 2 ^ bits - 2 ^ (bits - 1)

/-- The type two of these are joined in. -/
def Ty.join : Ty → Ty → Py Ty
  | .int a, .int b => .ok (.int (max a b))
  | .str a, .str b => .ok (.str (max a b))
  | .str _, _ => .error .typeError
  | _, .str _ => .error .typeError
  | _, _ => .ok .float

/-- Assignment of a value. -/
def Ty.convert (a b : Ty) (v : Int) : Int :=
  if a = b then v else match b with
  | .int n => wrapInt n v
  | _ => v

/-- numpy restricted to these types. -/
@[reducible] def tyNumpy : Numpy where
  D := Ty
  V := Int
  P := Int
  resultType ds :=
    match ds with
    | [] => .error .valueError
    | d :: ds => ds.foldlM Ty.join d
  cast := Ty.convert
  sameKind a b :=
    match a, b with
    | .int _, .int _ => true
    | .int _, .float => true
    | .float, .float => true
    | .str _, .str _ => true
    | _, _ => false
  itemsize d :=
    match d with
    | .int b => b / 8
    | .float => 8
    | .str w => 4 * w
  hasObject _ := false
  isStr d :=
    match d with
    | .str _ => true
    | _ => false
  fill d v :=
    match d with
    | .int b => .ok (wrapInt b v)
    | _ => .ok v

theorem tyNumpy_lawful : tyNumpy.Lawful where
  same d ds h := by
    show ds.foldlM Ty.join d = .ok d
    induction ds with
    | nil => rfl
    | cons e es ih =>
      have he : e = d := h e (List.mem_cons_self ..)
      subst he
      have : Ty.join e e = .ok e := by cases e <;> simp [Ty.join]
      rw [List.foldlM_cons, this]
      exact ih (fun x hx => h x (List.mem_cons_of_mem _ hx))
  castSame d v := by simp [Ty.convert]
  kindSame d := by cases d <;> rfl

/-- `{"x": array([i, i + 1]), "y": (i,)}`. -/
def exampleElement (i : Int) : Tree (Arr tyNumpy) :=
  .dict .dict (.cons "x" (.leaf ⟨[2], .int 32, [i, i + 1]⟩) (.cons "y" (.seq .tuple (.cons (.leaf ⟨[], .int 64, [i]⟩) .nil)) .nil))

/-- The same with the keys in the other order. -/
def exampleSwapped (i : Int) : Tree (Arr tyNumpy) :=
  .dict .dict (.cons "y" (.seq .tuple (.cons (.leaf ⟨[], .int 64, [i]⟩) .nil)) (.cons "x" (.leaf ⟨[2], .int 32, [i, i + 1]⟩) .nil))

/-- Structures that are not a leaf are not made arrays. -/
def noConv : Tree (Arr tyNumpy) → Py (Arr tyNumpy) := fun _ => .error .valueError

/-! ### C62 -/

/-- All arrays found at a path in the elements have one shape and one type. -/
def UniformFeatures {N : Numpy} (values : List (Tree (Arr N))) : Prop :=
  ∀ p, ∀ a ∈ featureAt values p, ∀ b ∈ featureAt values p, a.shape = b.shape ∧ a.dtype = b.dtype

/-- Every array of the elements has as many values as its shape says. -/
def WFFeatures {N : Numpy} (values : List (Tree (Arr N))) : Prop := ∀ p, ∀ a ∈ featureAt values p, a.WF

/-- C62: any number of elements with the same features, of the same shapes and types, is batched; the batch has the structure
of an element, and feature by feature it has one more dimension at the front, the type of the elements, and the `k`-th element
as its `k`-th row. -/
theorem make_batch_rows {N : Numpy} (L : N.Lawful) (conv : Tree (Arr N) → Py (Arr N)) (v : Tree (Arr N))
    (vs : List (Tree (Arr N))) (h : SameFeatures (v :: vs)) (hu : UniformFeatures (v :: vs)) (hw : WFFeatures (v :: vs)) :
    ∃ r, makeBatch conv false (v :: vs) = .ok r ∧ r.SameShape v ∧
      ∀ p a, v.leafAt p = some a → ∃ c, r.leafAt p = some c ∧ c.shape = (v :: vs).length :: a.shape ∧ c.dtype = a.dtype ∧
        ∀ (k : Nat) u b, (v :: vs)[k]? = some u → u.leafAt p = some b → c.row k = some b := by
  obtain ⟨r, hr⟩ := makeBatch_ok conv h (fun p a ha b hb => (hu p a ha b hb).1) (fun p hp => by
    cases hf : featureAt (v :: vs) p with
    | nil => exact absurd hf hp
    | cons a bs =>
      exact ⟨_, resultType_uniform L (fun b hb => (hu p b (by rw [hf]; exact List.mem_cons_of_mem _ hb) a (by rw [hf]; exact List.mem_cons_self ..)).2)⟩)
  obtain ⟨h1, h2⟩ := makeBatch_sound L conv h hr
  refine ⟨r, hr, h1, fun p a ha => ?_⟩
  obtain ⟨bs, c, g1, g2, g3, g4, g5, g6⟩ := h2 p a ha
  have hd : c.dtype = a.dtype := by
    rw [resultType_uniform L (fun b hb => (hu p b (by rw [g2]; exact List.mem_cons_of_mem _ hb) a (by rw [g2]; exact List.mem_cons_self ..)).2)] at g5
    simp only [Except.ok.injEq] at g5
    exact g5.symm
  have hlen : (a :: bs).length = (v :: vs).length := by
    have := congrArg List.length g1
    simpa using this.symm
  refine ⟨c, g3, by rw [g6]; simp only [stacked, hlen], hd, fun k u b hk hb => ?_⟩
  have hkb := leaves_get g1 hk hb
  have hbd : b.dtype = a.dtype :=
    (hu p b (by rw [g2]; exact List.mem_of_getElem? hkb) a (by rw [g2]; exact List.mem_cons_self ..)).2
  rw [g6, stacked_row g4 (fun x hx => hw p x (by rw [g2]; exact hx)) hkb, hd, ← hbd, astype_self L]

/-- C62: whenever elements with the same features are batched, whatever their types, the arrays of each feature had one shape
and the rows of the batch are those arrays, cast to the type numpy joins their types in. -/
theorem make_batch_sound {N : Numpy} (L : N.Lawful) (conv : Tree (Arr N) → Py (Arr N)) (v : Tree (Arr N))
    (vs : List (Tree (Arr N))) (h : SameFeatures (v :: vs)) (hw : WFFeatures (v :: vs)) (r : Tree (Arr N))
    (hr : makeBatch conv false (v :: vs) = .ok r) :
    r.SameShape v ∧ ∀ p a, v.leafAt p = some a → ∃ c, r.leafAt p = some c ∧ c.WF ∧
      c.shape = (v :: vs).length :: a.shape ∧ N.resultType ((featureAt (v :: vs) p).map (·.dtype)) = .ok c.dtype ∧
      ∀ (k : Nat) u b, (v :: vs)[k]? = some u → u.leafAt p = some b → b.shape = a.shape ∧ c.row k = some (b.astype c.dtype) := by
  obtain ⟨h1, h2⟩ := makeBatch_sound L conv h hr
  refine ⟨h1, fun p a ha => ?_⟩
  obtain ⟨bs, c, g1, g2, g3, g4, g5, g6⟩ := h2 p a ha
  have hlen : (a :: bs).length = (v :: vs).length := by
    have := congrArg List.length g1
    simpa using this.symm
  have hw' : ∀ x ∈ a :: bs, x.WF := fun x hx => hw p x (by rw [g2]; exact hx)
  refine ⟨c, g3, by rw [g6]; exact stacked_wf g4 hw', by rw [g6]; simp only [stacked, hlen], by rw [g2]; exact g5, fun k u b hk hb => ?_⟩
  have hkb := leaves_get g1 hk hb
  refine ⟨g4 b (List.mem_of_getElem? hkb), ?_⟩
  have := stacked_row (d := c.dtype) g4 hw' hkb
  rw [← g6] at this
  exact this

/-- C62: elements of which some feature has two shapes are never batched, and neither is nothing. -/
theorem make_batch_rejects {N : Numpy} (L : N.Lawful) (conv : Tree (Arr N) → Py (Arr N)) (values : List (Tree (Arr N)))
    (h : SameFeatures values)
    (hbad : values = [] ∨ ∃ p, ∃ v ∈ values.head?, ∃ a, v.leafAt p = some a ∧ ∃ b ∈ featureAt values p, b.shape ≠ a.shape) :
    ∀ r, makeBatch conv false values ≠ .ok r := by
  intro r hr
  cases values with
  | nil => cases hr
  | cons v vs =>
    rcases hbad with hbad | ⟨p, v', hv', a, ha, b, hb, hne⟩
    · cases hbad
    · simp only [List.head?_cons, Option.mem_some_iff] at hv'
      subst hv'
      obtain ⟨_, h2⟩ := makeBatch_sound L conv h hr
      obtain ⟨bs, c, _, g2, _, g4, _, _⟩ := h2 p a ha
      exact hne (g4 b (by rw [← g2]; exact hb))

/-- C62: whatever the elements, a feature of a batch has an array of every element in it (or what numpy makes an array of), in
order, all of the shape the first has. -/
theorem make_batch_features_common {N : Numpy} (L : N.Lawful) (conv : Tree (Arr N) → Py (Arr N)) (v : Tree (Arr N))
    (vs : List (Tree (Arr N))) (r : Tree (Arr N)) (hr : makeBatch conv false (v :: vs) = .ok r) (p : List PathKey) (c : Arr N)
    (hc : r.leafAt p = some c) :
    ∃ a bs, v.leafAt p = some a ∧ bs.length = vs.length ∧ (∀ b ∈ bs, b.shape = a.shape) ∧ c.shape = (v :: vs).length :: a.shape ∧
      (∀ (k : Nat) u b, vs[k]? = some u → u.leafAt p = some b → bs[k]? = some b) ∧
      ((∀ b ∈ a :: bs, b.WF) → ∀ (k : Nat) b, (a :: bs)[k]? = some b → c.row k = some (b.astype c.dtype)) := by
  cases vs with
  | nil =>
    simp only [makeBatch, Except.ok.injEq] at hr
    subst hr
    rw [Tree.leafAt_map] at hc
    cases ha : v.leafAt p with
    | none => rw [ha] at hc; cases hc
    | some a =>
      rw [ha, Option.map_some, Option.some.injEq, expandDims_eq L] at hc
      subst hc
      refine ⟨a, [], rfl, rfl, by simp, rfl, fun k u b hk => by simp at hk, fun hw k b hk => ?_⟩
      exact stacked_row (fun x hx => by rw [List.mem_singleton.1 hx]) hw hk
  | cons w ws =>
    simp only [makeBatch, Bool.false_eq_true, if_false] at hr
    obtain ⟨a, us, g1, g2, g3⟩ := Tree.mapN_leaf _ _ _ _ hr p c hc
    obtain ⟨bs, h1, h2⟩ := py_bind_ok g3
    obtain ⟨e1, e2, e3⟩ := npStack_spec h2
    have hlen : us.length = (w :: ws).length := by simpa using (congrArg List.length g2).symm
    have hlen' : us.length = bs.length := by simpa using congrArg List.length (py_map_of_mapM h1)
    refine ⟨a, bs, g1, by omega, fun b hb => e1 b (List.mem_cons_of_mem _ hb), ?_, fun k u b hk hb => ?_, fun hw k b hk => ?_⟩
    · rw [e3]; simp only [stacked, List.length_cons] at hlen ⊢; rw [← hlen', hlen]
    · have h3 := congrArg (fun l => l[k]?) g2
      simp only [List.getElem?_map, hk, Option.map_some, leafAt_at hb] at h3
      cases hu : us[k]? with
      | none => rw [hu] at h3; cases h3
      | some x =>
        rw [hu] at h3
        simp only [Option.map_some, Option.some.injEq] at h3
        subst h3
        have h4 := congrArg (fun l => l[k]?) (py_map_of_mapM h1)
        simp only [List.getElem?_map, hu, Option.map_some, asArray] at h4
        cases hbk : bs[k]? with
        | none => rw [hbk] at h4; cases h4
        | some y => rw [hbk] at h4; simp only [Option.map_some, Option.some.injEq, Except.ok.injEq] at h4; rw [h4]
    · have := stacked_row (d := c.dtype) e1 hw hk
      rw [← e3] at this
      exact this

/-- Two elements, the second with its keys in another order, and their batch. -/
theorem make_batch_example : makeBatch noConv false [exampleElement 1, exampleSwapped 5] = .ok
    (.dict .dict (.cons "x" (.leaf ⟨[2, 2], .int 32, [1, 2, 5, 6]⟩)
      (.cons "y" (.seq .tuple (.cons (.leaf ⟨[2], .int 64, [1, 5]⟩) .nil)) .nil))) := rfl

theorem leafAt_exampleElement (i : Int) (p : List PathKey) : (exampleElement i).leafAt p =
    if p = [.key "x"] then some ⟨[2], .int 32, [i, i + 1]⟩
    else if p = [.key "y", .pos 0] then some ⟨[], .int 64, [i]⟩ else none := by
  match p with
  | [] => simp [exampleElement, Tree.leafAt, Tree.at, asLeaf]
  | .pos _ :: _ => simp [exampleElement, Tree.leafAt, Tree.at, asLeaf]
  | .key s :: q =>
    by_cases hx : s = "x"
    · subst hx
      cases q <;> simp [exampleElement, Tree.leafAt, Tree.at, TreeDict.at, asLeaf]
    · by_cases hy : s = "y"
      · subst hy
        match q with
        | [] => simp [exampleElement, Tree.leafAt, Tree.at, TreeDict.at, asLeaf]
        | .key _ :: _ => simp [exampleElement, Tree.leafAt, Tree.at, TreeDict.at, asLeaf]
        | [.pos 0] => simp [exampleElement, Tree.leafAt, Tree.at, TreeDict.at, TreeList.at, asLeaf]
        | .pos 0 :: _ :: _ => simp [exampleElement, Tree.leafAt, Tree.at, TreeDict.at, TreeList.at, asLeaf]
        | .pos (n + 1) :: _ => simp [exampleElement, Tree.leafAt, Tree.at, TreeDict.at, TreeList.at, asLeaf]
      · simp [exampleElement, Tree.leafAt, Tree.at, TreeDict.at, asLeaf, hx, hy, Ne.symm hx, Ne.symm hy]

theorem leafAt_exampleSwapped (i : Int) (p : List PathKey) : (exampleSwapped i).leafAt p = (exampleElement i).leafAt p := by
  rw [leafAt_exampleElement]
  match p with
  | [] => simp [exampleSwapped, Tree.leafAt, Tree.at, asLeaf]
  | .pos _ :: _ => simp [exampleSwapped, Tree.leafAt, Tree.at, asLeaf]
  | .key s :: q =>
    by_cases hx : s = "x"
    · subst hx
      cases q <;> simp [exampleSwapped, Tree.leafAt, Tree.at, TreeDict.at, asLeaf]
    · by_cases hy : s = "y"
      · subst hy
        match q with
        | [] => simp [exampleSwapped, Tree.leafAt, Tree.at, TreeDict.at, asLeaf]
        | .key _ :: _ => simp [exampleSwapped, Tree.leafAt, Tree.at, TreeDict.at, asLeaf]
        | [.pos 0] => simp [exampleSwapped, Tree.leafAt, Tree.at, TreeDict.at, TreeList.at, asLeaf]
        | .pos 0 :: _ :: _ => simp [exampleSwapped, Tree.leafAt, Tree.at, TreeDict.at, TreeList.at, asLeaf]
        | .pos (n + 1) :: _ => simp [exampleSwapped, Tree.leafAt, Tree.at, TreeDict.at, TreeList.at, asLeaf]
      · simp [exampleSwapped, Tree.leafAt, Tree.at, TreeDict.at, asLeaf, hx, hy, Ne.symm hx, Ne.symm hy]

theorem example_same (i j : Int) : (exampleElement i).same (exampleSwapped j) = true := rfl

/-- Two elements with the same features, in another order. -/
def examplePair : List (Tree (Arr tyNumpy)) := [exampleElement 1, exampleSwapped 5]

theorem examplePair_features : SameFeatures examplePair := by
  intro v hv
  simp only [examplePair, List.head?_cons, Option.mem_some_iff] at hv
  subst hv
  refine ⟨by simp [exampleElement, Tree.Ok, TreeDict.Ok, TreeList.Ok, TreeDict.keys], fun u hu => ?_⟩
  simp only [examplePair, List.tail_cons, List.mem_singleton] at hu
  subst hu
  refine ⟨rfl, fun p hp => ?_⟩
  rw [leafAt_exampleSwapped, leafAt_exampleElement] at *
  split at hp <;> simp_all

theorem mem_examplePair {p : List PathKey} {a : Arr tyNumpy} (h : a ∈ featureAt examplePair p) :
    (p = [.key "x"] ∧ a.shape = [2] ∧ a.dtype = .int 32 ∧ a.data.length = 2) ∨
    (p = [.key "y", .pos 0] ∧ a.shape = [] ∧ a.dtype = .int 64 ∧ a.data.length = 1) := by
  simp only [featureAt, examplePair, List.mem_filterMap, List.mem_cons, List.not_mem_nil, or_false] at h
  obtain ⟨u, hu, ha⟩ := h
  rcases hu with rfl | rfl
  · rw [leafAt_exampleElement] at ha
    split at ha
    · cases ha; left; simp_all
    · split at ha
      · cases ha; right; simp_all
      · cases ha
  · rw [leafAt_exampleSwapped, leafAt_exampleElement] at ha
    split at ha
    · cases ha; left; simp_all
    · split at ha
      · cases ha; right; simp_all
      · cases ha

theorem examplePair_uniform : UniformFeatures examplePair := by
  intro p a ha b hb
  rcases mem_examplePair ha with ⟨rfl, h1, h2, _⟩ | ⟨rfl, h1, h2, _⟩
  · rcases mem_examplePair hb with ⟨_, h1', h2', _⟩ | ⟨h, _⟩
    · exact ⟨h1.trans h1'.symm, h2.trans h2'.symm⟩
    · simp at h
  · rcases mem_examplePair hb with ⟨h, _⟩ | ⟨_, h1', h2', _⟩
    · simp at h
    · exact ⟨h1.trans h1'.symm, h2.trans h2'.symm⟩

theorem examplePair_wf : WFFeatures examplePair := by
  intro p a ha
  rcases mem_examplePair ha with ⟨_, h1, _, h3⟩ | ⟨_, h1, _, h3⟩ <;> simp [Arr.WF, h1, h3, numel]

example : ∃ r, makeBatch noConv false examplePair = .ok r ∧ r.SameShape (exampleElement 1) := by
  obtain ⟨r, h1, h2, _⟩ := make_batch_rows tyNumpy_lawful noConv _ _ examplePair_features examplePair_uniform examplePair_wf
  exact ⟨r, h1, h2⟩

/-- C62 fails without JAX for elements that are sequences of different lengths: they are batched without an error and the
features of the longer ones are lost. -/
theorem make_batch_drops_features :
    makeBatch noConv false
      [.seq .list (.cons (.leaf ⟨[], .int 64, [1]⟩) (.cons (.leaf ⟨[], .int 64, [2]⟩) .nil)),
       .seq .list (.cons (.leaf ⟨[], .int 64, [3]⟩) .nil)] =
    .ok (.seq .list (.cons (.leaf ⟨[2], .int 64, [1, 3]⟩) .nil)) := rfl

/-! ### C63 -/

/-- C63: at most `size` elements with the same features, of the same shapes and types, are batched to exactly `size` rows: the
elements in order, then rows filled with the pad value converted to the feature's type. -/
theorem batch_and_pad_rows {N : Numpy} (L : N.Lawful) (conv : Tree (Arr N) → Py (Arr N)) (size : Nat) (pad : N.P)
    (v : Tree (Arr N)) (vs : List (Tree (Arr N))) (h : SameFeatures (v :: vs)) (hu : UniformFeatures (v :: vs))
    (hw : WFFeatures (v :: vs)) (hle : (v :: vs).length ≤ size)
    (hfill : ∀ p, ∀ a ∈ featureAt (v :: vs) p, ∃ pv, N.fill a.dtype pad = .ok pv) :
    ∃ r, batchAndPad conv size pad (v :: vs) = .ok r ∧ r.SameShape v ∧
      ∀ p a pv, v.leafAt p = some a → N.fill a.dtype pad = .ok pv →
        ∃ c, r.leafAt p = some c ∧ c.shape = size :: a.shape ∧ c.dtype = a.dtype ∧
          (∀ (k : Nat) u b, (v :: vs)[k]? = some u → u.leafAt p = some b → c.row k = some b) ∧
          ∀ k, (v :: vs).length ≤ k → k < size → c.row k = some ⟨a.shape, a.dtype, List.replicate (numel a.shape) pv⟩ := by
  rcases Nat.lt_or_eq_of_le hle with hlt | heq
  · obtain ⟨r, hr⟩ := batchAndPad_ok conv h hlt (fun p a ha b hb => (hu p a ha b hb).1) hfill (fun p a bs hf => by
      refine ⟨a.dtype, ?_⟩
      rw [List.map_cons, List.cons_append]
      apply L.same
      intro e he
      rcases List.mem_append.1 he with he | he
      · obtain ⟨b, hb, rfl⟩ := List.mem_map.1 he
        exact (hu p b (by rw [hf]; exact List.mem_cons_of_mem _ hb) a (by rw [hf]; exact List.mem_cons_self ..)).2
      · exact List.mem_singleton.1 he)
    obtain ⟨h1, h2⟩ := batchAndPad_sound conv h hlt hr
    refine ⟨r, hr, h1, fun p a pv ha hpv => ?_⟩
    obtain ⟨bs, c, pv', g1, g2, g3, g4, g5, g6, g7⟩ := h2 p a ha
    rw [hpv] at g5
    simp only [Except.ok.injEq] at g5
    subst g5
    have hud : ∀ b ∈ a :: bs, b.dtype = a.dtype := fun b hb =>
      (hu p b (by rw [g2]; exact hb) a (by rw [g2]; exact List.mem_cons_self ..)).2
    have hd : c.dtype = a.dtype := by
      rw [List.map_cons, List.cons_append, L.same a.dtype] at g6
      · simp only [Except.ok.injEq] at g6; exact g6.symm
      · intro e he
        rcases List.mem_append.1 he with he | he
        · obtain ⟨b, hb, rfl⟩ := List.mem_map.1 he
          exact hud b (List.mem_cons_of_mem _ hb)
        · exact List.mem_singleton.1 he
    have hlen : (a :: bs).length = (v :: vs).length := by
      have := congrArg List.length g1
      simpa using this.symm
    have hs' : ∀ x ∈ a :: bs ++ List.replicate (size - (v :: vs).length) (padRow a pv), x.shape = a.shape := by
      intro x hx
      rcases List.mem_append.1 hx with hx | hx
      · exact g4 x hx
      · rw [List.eq_of_mem_replicate hx]; rfl
    have hw' : ∀ x ∈ a :: bs ++ List.replicate (size - (v :: vs).length) (padRow a pv), x.WF := by
      intro x hx
      rcases List.mem_append.1 hx with hx | hx
      · exact hw p x (by rw [g2]; exact hx)
      · rw [List.eq_of_mem_replicate hx]; exact padRow_wf a pv
    refine ⟨c, g3, ?_, hd, fun k u b hk hb => ?_, fun k hk hk' => ?_⟩
    · rw [g7]; simp only [stacked, List.length_append, hlen, List.length_replicate]; congr 1; omega
    · have hkb := leaves_get g1 hk hb
      have hkl : k < (a :: bs).length := by
        rcases Nat.lt_or_ge k (a :: bs).length with h | h
        · exact h
        · rw [List.getElem?_eq_none_iff.2 h] at hkb; cases hkb
      have := stacked_row (d := c.dtype) hs' hw' (k := k) (a := b) (by rw [List.getElem?_append_left hkl]; exact hkb)
      rw [← g7] at this
      rw [this, hd, ← hud b (List.mem_of_getElem? hkb), astype_self L]
    · have := stacked_row (d := c.dtype) hs' hw' (k := k) (a := padRow a pv) (by
        rw [List.getElem?_append_right (by omega), List.getElem?_replicate, if_pos (by omega)])
      rw [← g7] at this
      rw [this, hd, show a.dtype = (padRow a pv).dtype from rfl, astype_self L]
      rfl
  · obtain ⟨r, hr, h1, h2⟩ := make_batch_rows L conv v vs h hu hw
    refine ⟨r, ?_, h1, fun p a pv ha _ => ?_⟩
    · simp only [batchAndPad, ← heq, Nat.lt_irrefl, if_false, if_true]; exact hr
    · obtain ⟨c, g1, g2, g3, g4⟩ := h2 p a ha
      exact ⟨c, g1, by rw [g2, heq], g3, g4, fun k hk hk' => by omega⟩

/-- C63: nothing, or more elements than the batch can hold, is refused with a `ValueError`. -/
theorem batch_and_pad_rejects {N : Numpy} (conv : Tree (Arr N) → Py (Arr N)) (size : Nat) (pad : N.P)
    (values : List (Tree (Arr N))) (h : values = [] ∨ size < values.length) :
    batchAndPad conv size pad values = .error .valueError := by
  cases values with
  | nil => rfl
  | cons v vs =>
    have : size < (v :: vs).length := by
      rcases h with h | h
      · cases h
      · exact h
    simp only [batchAndPad, this, if_true]

/-- The documentation's example: three rows from `[4]`. -/
theorem batch_and_pad_example : batchAndPad noConv 3 0 [.leaf ⟨[], .int 64, [4]⟩] = .ok (.leaf ⟨[3], .int 64, [4, 0, 0]⟩) := rfl

example : ∃ r, batchAndPad noConv 4 7 examplePair = .ok r ∧ r.SameShape (exampleElement 1) := by
  obtain ⟨r, h1, h2, _⟩ := batch_and_pad_rows tyNumpy_lawful noConv 4 7 _ _ examplePair_features examplePair_uniform
    examplePair_wf (by decide) (fun p a ha => by
      rcases mem_examplePair ha with ⟨_, _, h, _⟩ | ⟨_, _, h, _⟩ <;> exact ⟨_, by rw [h]⟩)
  exact ⟨r, h1, h2⟩

/-! ### C64 -/

/-- C64, for elements whose features have one type each and are not empty: batching into shared memory gives the same batch,
or the same error, as batching in ordinary memory.
Missing: features with several types (`shm_batch_wraps`, `shm_batch_refuses_floats`) and empty features
(`shm_batch_refuses_empty`). -/
theorem shm_batch_same_partial {N : Numpy} (L : N.Lawful) (conv : Tree (Arr N) → Py (Arr N)) (values : List (Tree (Arr N)))
    (h : SameFeatures values)
    (hd : ∀ p, ∀ a ∈ featureAt values p, ∀ b ∈ featureAt values p, a.dtype = b.dtype)
    (hne : ∀ p, ∀ a ∈ featureAt values p, numel a.shape * N.itemsize a.dtype ≠ 0) :
    makeBatch conv true values = makeBatch conv false values := by
  match values with
  | [] => rfl
  | [v] => rfl
  | v :: w :: vs =>
    simp only [makeBatch, if_true, Bool.false_eq_true, if_false]
    apply mapN_congr_features h
    intro p a bs ha hf
    rw [asArray_leaves]
    have ha' : a ∈ featureAt (v :: w :: vs) p := by rw [hf]; exact List.mem_cons_self ..
    have hdt : ∀ b ∈ bs, b.dtype = a.dtype := fun b hb => hd p b (by rw [hf]; exact List.mem_cons_of_mem _ hb) a ha'
    have hrt := resultType_uniform L hdt
    have hn : ¬ numel ((a :: bs).length :: a.shape) * N.itemsize a.dtype = 0 := by
      have := hne p a ha'
      intro h0
      simp only [numel, List.length_cons, Nat.mul_assoc] at h0
      rcases Nat.mul_eq_zero.1 h0 with h0 | h0
      · omega
      · exact this h0
    show stackShm (a :: bs) = npStack (a :: bs)
    simp only [stackShm]
    split
    · rfl
    · split
      · by_cases hall : (a :: bs).all (fun x => decide (x.shape = a.shape)) = true
        · rw [npStack_ok (fun x hx => of_decide_eq_true ((List.all_eq_true.1 hall) x hx)) hrt]
          show (do
            let _ ← shmAlloc ((a :: bs).length :: a.shape) a.dtype
            (.ok (stacked a.shape a.dtype (a :: bs)) : Py (Arr N))) = _
          simp only [shmAlloc, hn, if_false]
          rfl
        · simp only [npStack, hall]
          rfl
      · simp only [shmAlloc, hn, if_false]
        show npStackOut a.dtype (a :: bs) = npStack (a :: bs)
        by_cases hall : (a :: bs).all (fun x => decide (x.shape = a.shape)) = true
        · rw [npStack_ok (fun x hx => of_decide_eq_true ((List.all_eq_true.1 hall) x hx)) hrt]
          have hk : (a :: bs).all (fun x => N.sameKind x.dtype a.dtype) = true := by
            rw [List.all_eq_true]
            intro x hx
            rcases List.mem_cons.1 hx with rfl | hx
            · exact L.kindSame _
            · rw [hdt x hx]; exact L.kindSame _
          simp only [npStackOut, hall, hk, if_true]
          rfl
        · simp only [npStack, npStackOut, hall, Bool.false_eq_true, if_false]

example : makeBatch noConv true examplePair = makeBatch noConv false examplePair :=
  shm_batch_same_partial tyNumpy_lawful noConv examplePair examplePair_features
    (fun p a ha b hb => (examplePair_uniform p a ha b hb).2) (fun p a ha => by
      rcases mem_examplePair ha with ⟨_, h1, h2, _⟩ | ⟨_, h1, h2, _⟩ <;> simp [h1, h2, numel])

/-- C64 fails for a feature that has a narrower integer type in the first element: the numbers of the others are cut to
that type. -/
theorem shm_batch_wraps :
    makeBatch noConv false [.leaf ⟨[], .int 32, [1]⟩, .leaf ⟨[], .int 64, [4294967301]⟩] = .ok (.leaf ⟨[2], .int 64, [1, 4294967301]⟩) ∧
    makeBatch noConv true [.leaf ⟨[], .int 32, [1]⟩, .leaf ⟨[], .int 64, [4294967301]⟩] = .ok (.leaf ⟨[2], .int 32, [1, 5]⟩) :=
  ⟨rfl, rfl⟩

/-- C64 fails for a feature that is an integer in the first element and a float in another: a `TypeError`. -/
theorem shm_batch_refuses_floats :
    makeBatch noConv false [.leaf ⟨[], .int 64, [1]⟩, .leaf ⟨[], .float, [2]⟩] = .ok (.leaf ⟨[2], .float, [1, 2]⟩) ∧
    makeBatch noConv true [.leaf ⟨[], .int 64, [1]⟩, .leaf ⟨[], .float, [2]⟩] = .error .typeError :=
  ⟨rfl, rfl⟩

/-- C64 fails for an empty feature: shared memory of size zero cannot be made, which shows as a `ValueError` about elements of
different structure. -/
theorem shm_batch_refuses_empty :
    makeBatch noConv false [.leaf ⟨[0], .int 64, []⟩, .leaf ⟨[0], .int 64, []⟩] = .ok (.leaf ⟨[2, 0], .int 64, []⟩) ∧
    makeBatch noConv true [.leaf ⟨[0], .int 64, []⟩, .leaf ⟨[0], .int 64, []⟩] = .error .valueError :=
  ⟨rfl, rfl⟩

end Grain
