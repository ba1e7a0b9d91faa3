import Verif.ElemSpec.Lemmas
import Verif.Batch.Props
/-
C65: elements are as `get_element_spec` says.
-/
namespace Grain

/-- C65: if `get_element_spec` returns a specification for a random access dataset built from ranges, user transformations that
keep what their own `output_spec` promises, filters, slices, reindexing, repetition, shuffling, batching, zipping, and mixing or
concatenating datasets of one specification, then every element of every epoch (that is not `None`) has that structure, those
shapes and those types. -/
theorem element_spec_map {N : Numpy} (L : N.Lawful) {ds : MapDs (Elem N)} {s : ElemSpec N} (h : MapHasSpec ds (.ok s)) (i : Int)
    (e : Elem N) (he : ds.getitem i = .ok (some e)) : Conforms s e := (map_right L h s rfl).2 i e he

/-- C65: the same for iterators: whatever calls of `next`, `get_state` and `set_state` are made, on the same or new iterators,
the elements returned have the structure, shapes and types of the specification. -/
theorem element_spec_iter {N : Numpy} (L : N.Lawful) {it : Iter (Option (Elem N))} {xs : List (Py (Option (Elem N)))} {ended : Bool}
    {s : ElemSpec N} (h : IterHasSpec it xs ended (.ok s)) (ops : List Op) (outs : List (Res (Option (Elem N))))
    (hr : specRun xs ended (fun _ => true) 0 [] ops = some outs) :
    Ev (fun F => implRun it F it.init [] ops = some outs) ∧ ∀ e, .item (some e) ∈ outs → Conforms s e :=
  ⟨h.resumes.exactly ops outs hr, fun e he => (iter_right L h s rfl).2 e (specRun_items ops _ _ _ hr _ he)⟩

/-- C65: interleaving any number of datasets of one specification. -/
theorem element_spec_interleave {N : Numpy} (L : N.Lawful) {f : IterFam (Option (Elem N))} {n cycle : Nat} (keep : Bool)
    {xs : Nat → List (Py (Option (Elem N)))} {s : ElemSpec N} (hn : 0 < n) (hcyc : 0 < cycle)
    (h : ∀ d, d < n → IterHasSpec (f.iter d) (xs d) true (.ok s)) :
    firstSpec ((List.range n).map (fun _ => (.ok s : Py (ElemSpec N)))) = .ok s ∧
    ∃ ys, ResumesExactlyWhen (fun _ => false) (interleaveIter f n cycle keep) ys true ∧ ∀ e, .ok (some e) ∈ ys → Conforms s e := by
  constructor
  · cases n with
    | zero => omega
    | succ n => rw [List.range_succ_eq_map]; rfl
  · obtain ⟨tagged, _, h2, h3, h4, _⟩ := interleave_elements (cycle := cycle) keep hn hcyc (fun d hd => (h d hd).resumes.fresh)
    refine ⟨_, h2, fun e he => ?_⟩
    obtain ⟨⟨d, r⟩, hd, hr⟩ := List.mem_map.1 he
    simp only at hr
    subst hr
    have hdn := h3 d _ hd
    refine (iter_right L (h d hdn) s rfl).2 e ?_
    rw [← h4 d hdn]
    exact List.mem_map.2 ⟨(d, .ok (some e)), List.mem_filter.2 ⟨hd, by simp⟩, rfl⟩

/-- When a specification is refused: the exceptions a user sees. -/
theorem element_spec_refused {N : Numpy} (b : Nat) (drop : Bool) (s : ElemSpec N) :
    mapSpec none (.ok s) = .error .valueError ∧ batchSpec b drop .custom (.ok s) = .error .notImplemented ∧
    (∀ err, parentSpec (N := N) (.error err) = .error err) ∧ (∀ err kind, batchSpec (N := N) b drop kind (.error err) = .error err) ∧
    (∀ err out, mapSpec (N := N) (some out) (.error err) = .error err) ∧
    ∀ err (os os' : List (Py (ElemSpec N))), (∀ o ∈ os, ∃ s', o = .ok s') → zipSpec (os ++ .error err :: os') = .error err := by
  refine ⟨rfl, rfl, fun _ => rfl, fun _ _ => rfl, fun _ _ => rfl, fun err os os' h => ?_⟩
  have : (os ++ .error err :: os').mapM id = .error err := by
    induction os with
    | nil => rfl
    | cons o os ih =>
      obtain ⟨s', rfl⟩ := h o (List.mem_cons_self ..)
      rw [List.cons_append, List.mapM_cons, ih (fun o ho => h o (List.mem_cons_of_mem _ ho))]
      rfl
  unfold zipSpec
  rw [this]
  rfl

/-! ### An example: `MapDataset.range(5).map(to_dict).batch(2)` -/

/-- A Python integer as an array. -/
def pyInt (v : Int) : Arr tyNumpy := ⟨[], .int 64, [v]⟩

/-- `{"a": x, "b": np.array([x, x, x], dtype=np.int32)}`. -/
def toDict : Elem tyNumpy → Py (Option (Elem tyNumpy))
  | .leaf a => .ok (some (.dict .dict (.cons "a" (.leaf a) (.cons "b" (.leaf ⟨[3], .int 32, a.data ++ a.data ++ a.data⟩) .nil))))
  | _ => .error .typeError

/-- Its `output_spec`. -/
def toDictSpec : ElemSpec tyNumpy → Py (ElemSpec tyNumpy)
  | .leaf d => .ok (.dict .dict (.cons "a" (.leaf d) (.cons "b" (.leaf ⟨[some 3], .int 32⟩) .nil)))
  | _ => .error .typeError

theorem two_leafAt (x y : Tree α) (k : String) (p : List PathKey) :
    (Tree.dict .dict (.cons "a" x (.cons "b" y .nil))).leafAt (.key k :: p) =
      if "a" = k then x.leafAt p else if "b" = k then y.leafAt p else none := by
  simp only [Tree.leafAt, Tree.at, TreeDict.at]
  split
  · rfl
  · split <;> rfl

theorem toDict_keeps : KeepsSpec (some toDictSpec) toDict := by
  intro g hg s s' hs _
  cases hg
  cases s with
  | seq _ _ => cases hs
  | dict _ _ => cases hs
  | leaf d =>
    cases hs
    refine ⟨by simp [Tree.Ok, TreeDict.Ok, TreeDict.keys], fun e e' he hee => ?_⟩
    cases e with
    | seq _ _ => cases hee
    | dict _ _ => cases hee
    | leaf a =>
      cases hee
      refine ⟨rfl, fun p d' hd => ?_⟩
      obtain ⟨a', ha', hf⟩ := he.2 [] d rfl
      cases ha'
      match p, hd with
      | .key k :: p, hd =>
        rw [two_leafAt] at hd ⊢
        by_cases h1 : "a" = k
        · rw [if_pos h1] at hd ⊢
          obtain ⟨rfl, rfl⟩ := (Tree.leafAt_leaf _ _ _).1 hd
          exact ⟨a, rfl, hf⟩
        · rw [if_neg h1] at hd ⊢
          by_cases h2 : "b" = k
          · rw [if_pos h2] at hd ⊢
            obtain ⟨rfl, rfl⟩ := (Tree.leafAt_leaf _ _ _).1 hd
            refine ⟨_, rfl, rfl, rfl, fun k n hk => ?_⟩
            match k, hk with
            | 0, hk => simpa using hk
          · rw [if_neg h2] at hd
            cases hd
      | .pos _ :: p, hd => simp [Tree.leafAt, Tree.at, asLeaf] at hd
      | [], hd => simp [Tree.leafAt, Tree.at, asLeaf] at hd

/-- `range(5)`. -/
def rangeFive : RangeDs := ⟨0, 5, 1, 0, 5, 5⟩

/-- The dataset of the example. -/
def fiveDicts : MapDs (Elem tyNumpy) := mapDs toDict (mapDs (fun v => .ok (some (.leaf (pyInt v)))) rangeFive.toDs)

theorem fiveDicts_spec : MapHasSpec (N := tyNumpy) fiveDicts
    (.ok (.dict .dict (.cons "a" (.leaf ⟨[], .int 64⟩) (.cons "b" (.leaf ⟨[some 3], .int 32⟩) .nil)))) :=
  (MapHasSpec.range (N := tyNumpy) rangeFive (.int 64) pyInt (fun _ => ⟨rfl, rfl⟩)).map (some toDictSpec) toDict toDict_keeps

theorem fiveDicts_dense (i : Int) : fiveDicts.getitem i ≠ .ok none := by
  intro h
  cases h

example : MapHasSpec (N := tyNumpy) (batchDs 2 false false (batchSome noConv (fun _ => .error .typeError)) fiveDicts)
    (.ok (.dict .dict (.cons "a" (.leaf ⟨[none], .int 64⟩) (.cons "b" (.leaf ⟨[none, some 3], .int 32⟩) .nil)))) :=
  fiveDicts_spec.batch 2 (by decide) false .makeBatch _ ⟨_, _, rfl⟩ fiveDicts_dense

example : MapHasSpec (N := tyNumpy) (batchDs 2 true false (batchSome noConv (fun _ => .error .typeError)) fiveDicts)
    (.ok (.dict .dict (.cons "a" (.leaf ⟨[some 2], .int 64⟩) (.cons "b" (.leaf ⟨[some 2, some 3], .int 32⟩) .nil)))) :=
  fiveDicts_spec.batch 2 (by decide) true .makeBatch _ ⟨_, _, rfl⟩ fiveDicts_dense

/-- The third batch has one element. -/
example : (batchDs 2 false false (batchSome noConv (fun _ => .error .typeError)) fiveDicts).getitem 2 =
    .ok (some (.dict .dict (.cons "a" (.leaf ⟨[1], .int 64, [4]⟩) (.cons "b" (.leaf ⟨[1, 3], .int 32, [4, 4, 4]⟩) .nil)))) := rfl

/-- An iterator over the dataset, batched in pairs. -/
example : ∃ it xs, IterHasSpec (N := tyNumpy) it xs true
    (.ok (.dict .dict (.cons "a" (.leaf ⟨[none], .int 64⟩) (.cons "b" (.leaf ⟨[none, some 3], .int 32⟩) .nil)))) ∧ xs.length = 3 := by
  have h1 := IterHasSpec.mapDataset (N := tyNumpy) (ds := fiveDicts)
    (vs := (List.range 5).map (fun (k : Nat) => some (.dict .dict (.cons "a" (.leaf (pyInt k)) (.cons "b" (.leaf ⟨[3], .int 32, [(k : Int), k, k]⟩) .nil)))))
    4 2 false rfl (fun k hk => by
      rw [List.length_map, List.length_range] at hk
      match k, hk with
      | 0, _ => rfl
      | 1, _ => rfl
      | 2, _ => rfl
      | 3, _ => rfl
      | 4, _ => rfl) fiveDicts_spec
  exact ⟨_, _, h1.batch 2 (by decide) false .makeBatch (batchSome noConv (fun _ => .error .typeError)) ⟨_, _, rfl⟩ (by simp [pyInt]), rfl⟩

/-! ### What is missing -/

/-- The specification of a mix is that of its first dataset: concatenating a dataset of 64-bit integers and one of arrays of 32-bit
integers, the specification is wrong for the elements of the second. -/
theorem mix_element_spec_needs_equal : ∃ (p q : MapDs (Elem tyNumpy)) (sp sq : ElemSpec tyNumpy) (sm : SelMap) (i : Int) (e : Elem tyNumpy),
    MapHasSpec p (.ok sp) ∧ MapHasSpec q (.ok sq) ∧ selConcat [5, 5] = .ok sm ∧ firstSpec [.ok sp, .ok sq] = .ok sp ∧
    (mixDs sm [p, q]).getitem i = .ok (some e) ∧ ¬ Conforms sp e := by
  refine ⟨_, _, _, _, _, 7, .dict .dict (.cons "a" (.leaf (pyInt 2)) (.cons "b" (.leaf ⟨[3], .int 32, [2, 2, 2]⟩) .nil)),
    MapHasSpec.range (N := tyNumpy) rangeFive (.int 64) pyInt (fun _ => ⟨rfl, rfl⟩), fiveDicts_spec, rfl, rfl, rfl, ?_⟩
  intro h
  have := h.1
  cases this

/-- Rebatching, one feature at a time.  Complete for `drop_remainder=True`; otherwise only for the part of the stream before the
last batch.  `l` is a batch (the list of its rows) and `c` the array it is handed out as. -/
theorem rebatch_element_spec_partial {N : Numpy} (L : N.Lawful) {p : Iter (List (Arr N))} {bs : List (List (Arr N))} {ended : Bool}
    (hp : Resumes p (bs.map Except.ok) ended) (hne : ∀ x ∈ bs, x ≠ []) (b : Nat) (hb : 0 < b) (drop : Bool)
    (hd : drop = true ∨ ended = false) {dim : Option Nat} {sh : List (Option Nat)} {t : N.D}
    (hrows : ∀ l ∈ bs, ∀ a ∈ l, (⟨sh, t⟩ : ShapeDtype N).Fits a) :
    ∃ d, rebatchSpec b (.ok (.leaf ⟨dim :: sh, t⟩)) = .ok (.leaf d) ∧
      ResumesExactly (rebatchIter b drop p) (batchStream b drop Except.ok bs.flatten ended) ended ∧
      ∀ l c, .ok l ∈ batchStream b drop Except.ok bs.flatten ended → npStack l = .ok c → d.Fits c := by
  refine ⟨⟨some b :: sh, t⟩, rfl, (rebatchIter_resumes hp hne b hb drop (fun h1 h2 => ?_)).exactly, fun l c hl hc => ?_⟩
  · rcases hd with rfl | rfl
    · cases h2
    · cases h1
  · unfold batchStream at hl
    obtain ⟨k, hk, hkl⟩ := List.mem_map.1 hl
    simp only [Except.ok.injEq] at hkl
    subst hkl
    rw [List.mem_range] at hk
    have hcount : (drop || !ended) = true := by rcases hd with rfl | rfl <;> simp
    rw [hcount] at hk
    simp only [batchCount, if_true] at hk
    have h2 : (k + 1) * b ≤ bs.flatten.length := (Nat.le_div_iff_mul_le hb).1 hk
    have hkb : (k + 1) * b = k * b + b := by ring
    have hlen : (group bs.flatten b k).length = b := by
      simp only [group, List.length_take, List.length_drop]; omega
    have hmem : ∀ a ∈ group bs.flatten b k, (⟨sh, t⟩ : ShapeDtype N).Fits a := fun a ha => by
      have := List.mem_of_mem_drop (List.mem_of_mem_take ha)
      obtain ⟨l, hl, hal⟩ := List.mem_flatten.1 this
      exact hrows l hl a hal
    cases hg : group bs.flatten b k with
    | nil => rw [hg] at hlen; simp at hlen; omega
    | cons x xs =>
      rw [hg] at hc hmem hlen
      obtain ⟨e1, e2, e3⟩ := npStack_spec hc
      have hx := hmem x (List.mem_cons_self ..)
      rw [resultType_uniform L (fun a ha => (hmem a (List.mem_cons_of_mem _ ha)).1.trans hx.1.symm)] at e2
      simp only [Except.ok.injEq] at e2
      have hshape : c.shape = b :: x.shape := by rw [e3]; simp only [stacked, hlen]
      refine ⟨by rw [← e2]; exact hx.1, by rw [hshape]; simp only [List.length_cons, hx.2.1], fun k n hk => ?_⟩
      rw [hshape]
      cases k with
      | zero => simpa using hk
      | succ k =>
        simp only [List.getElem?_cons_succ] at hk ⊢
        exact hx.2.2 k n hk

/-- With `drop_remainder=False` the specification gives the batch size although the last batch may be smaller: three rows in batches
of two. -/
theorem rebatch_element_spec_wrong : ∃ (d : ShapeDtype tyNumpy) (l : List (Arr tyNumpy)) (c : Arr tyNumpy),
    rebatchSpec (N := tyNumpy) 2 (.ok (.leaf ⟨[some 3], .int 64⟩)) = .ok (.leaf d) ∧
    (∃ k, ∀ F, k ≤ F → implRun (rebatchIter 2 false (listIter [.ok [pyInt 0, pyInt 1, pyInt 2]])) F
      (rebatchIter 2 false (listIter [.ok [pyInt 0, pyInt 1, pyInt 2]])).init [] [.next, .next] = some [.item [pyInt 0, pyInt 1], .item l]) ∧
    npStack l = .ok c ∧ ¬ d.Fits c := by
  refine ⟨⟨[some 2], .int 64⟩, [pyInt 2], ⟨[1], .int 64, [2]⟩, rfl, ?_, rfl, fun h => ?_⟩
  · have hr := rebatchIter_resumes (p := listIter [.ok [pyInt 0, pyInt 1, pyInt 2]]) (bs := [[pyInt 0, pyInt 1, pyInt 2]]) (ended := true)
      (listIter_resumes _) (by simp) 2 (by decide) false (fun _ _ h => by simp at h)
    exact hr.exactly [.next, .next] _ rfl
  · have := h.2.2 0 2 rfl
    simp at this

end Grain
