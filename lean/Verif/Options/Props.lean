import Verif.Options.Model
import Mathlib.Tactic.Common
/-
Property C44: precedence of dataset options.
-/
namespace Grain

/-! ### Specification -/

mutual
/-- What the user set for field `f` in a pipeline, in the order of precedence: options applied later in the pipeline, then
those of the first parent that has any. -/
def OptDs.userValue (f : OptField) : OptDs → Option f.Ty
  | .source => none
  | .nary ps => OptDsList.userValue f ps
  | .withOptions o p => if o.isSet f then some (o.val f) else OptDs.userValue f p
def OptDsList.userValue (f : OptField) : OptDsList → Option f.Ty
  | .nil => none
  | .cons d ds => (OptDs.userValue f d).or (OptDsList.userValue f ds)
end

/-- The options object a user gets who sets exactly these values. -/
def OptDs.effective (d : OptDs) : DsOptions := DsOptions.make (fun f => d.userValue f)

/-- An options object made by the constructor. -/
def DsOptions.Constructed (o : DsOptions) : Prop := ∃ args, o = DsOptions.make args

mutual
/-- All iterators of a tree. -/
def OptIt.all : OptIt → List OptIt
  | .node c ps => .node c ps :: OptItList.all ps
def OptItList.all : OptItList → List OptIt
  | .nil => []
  | .cons i is => OptIt.all i ++ OptItList.all is
end

/-! ### `merge` -/

theorem sel1 {T : Type} (x : Option T) (d : T) : (if x.isSome = true then some (x.getD d) else none) = x := by cases x <;> rfl

theorem sel2 {T : Type} (x y : Option T) (d : T) :
    (if x.isSome = true then some (x.getD d) else if y.isSome = true then some (y.getD d) else none) = x.or y := by
  cases x <;> cases y <;> rfl

theorem sel3 {T : Type} (p q : Bool) (x y : T) (z : Option T) (d : T) :
    (if p = true then some x else if q = true then some y else z) =
      if (if p = true then some x else if q = true then some y else none).isSome = true then
        some ((if p = true then some x else if q = true then some y else none).getD d) else z := by
  cases p <;> cases q <;> rfl

/-- C44: values set in `self` win, then those set in `other`, then the defaults; what is set in the result is what is set in
either. -/
theorem merge_precedence (a b : OptArgs) :
    (DsOptions.make a).merge (some (DsOptions.make b)) = DsOptions.make (fun f => (a f).or (b f)) := by
  simp only [DsOptions.merge]
  congr 1
  funext f
  simp only [DsOptions.make]
  exact sel2 _ _ _

/-- C44: merging is associative. -/
theorem merge_assoc (a b c : DsOptions) (ha : a.Constructed) (hb : b.Constructed) (hc : c.Constructed) :
    (a.merge (some b)).merge (some c) = a.merge (some (b.merge (some c))) := by
  obtain ⟨a, rfl⟩ := ha
  obtain ⟨b, rfl⟩ := hb
  obtain ⟨c, rfl⟩ := hc
  rw [merge_precedence, merge_precedence, merge_precedence, merge_precedence]
  congr 1
  funext f
  cases a f <;> rfl

/-- C44: `DatasetOptions()` is the identity. -/
theorem merge_identity (a : DsOptions) (ha : a.Constructed) :
    a.merge (some (DsOptions.make (fun _ => none))) = a ∧ (DsOptions.make (fun _ => none)).merge (some a) = a ∧ a.merge none = a := by
  obtain ⟨a, rfl⟩ := ha
  rw [merge_precedence, merge_precedence]
  refine ⟨?_, ?_, rfl⟩
  · congr 1
    funext f
    cases a f <;> rfl
  · congr 1

/-- The example of the documentation: the value set in `self` wins over the one in `other`. -/
example : ((DsOptions.make (fun f => match f with | .minShm => some 1024 | _ => none)).merge
      (some (DsOptions.make (fun f => match f with | .minShm => some 512 | .filterWarn => some none | _ => none)))).val .minShm = (1024 : Int) ∧
    ((DsOptions.make (fun f => match f with | .minShm => some 1024 | _ => none)).merge
      (some (DsOptions.make (fun f => match f with | .minShm => some 512 | .filterWarn => some none | _ => none)))).val .filterWarn = (none : Option Threshold) :=
  ⟨rfl, rfl⟩

/-! ### Pipelines -/

theorem merge_constructed (a b : DsOptions) : (a.merge (some b)).Constructed := ⟨_, rfl⟩

theorem merge_args (o : DsOptions) (b : OptArgs) :
    o.merge (some (DsOptions.make b)) = DsOptions.make (fun f => if o.isSet f then some (o.val f) else b f) := by
  simp only [DsOptions.merge]
  congr 1
  funext f
  simp only [DsOptions.make]
  split
  · rfl
  · exact sel1 _ _

theorem write_other (h : OptHeap) (a b : Nat) (o : DsOptions) (hne : b ≠ a) : (h.write a o).opts b = h.opts b := if_neg hne

theorem write_same (h : OptHeap) (a : Nat) (o : DsOptions) : (h.write a o).opts a = o := if_pos rfl

mutual
theorem redirect_ctx (a : Nat) : ∀ i : OptIt, ∀ j ∈ (OptIt.redirect a i).all, j.ctx = a
  | .node c ps => by
    intro j hj
    rw [OptIt.redirect, OptIt.all] at hj
    rcases List.mem_cons.1 hj with rfl | hj
    · rfl
    · exact redirect_ctxs a ps j hj
theorem redirect_ctxs (a : Nat) : ∀ is : OptItList, ∀ j ∈ (OptItList.redirect a is).all, j.ctx = a
  | .nil => by intro j hj; rw [OptItList.redirect, OptItList.all] at hj; cases hj
  | .cons i is => by
    intro j hj
    rw [OptItList.redirect, OptItList.all, List.mem_append] at hj
    rcases hj with hj | hj
    · exact redirect_ctx a i j hj
    · exact redirect_ctxs a is j hj
end

/-- A list of iterators as `OptDsList.iters` leaves it: contexts in the range `[lo, hi)`, all different, holding the options
of the parents. -/
def ItersOk (h : OptHeap) (lo hi : Nat) : OptItList → OptDsList → Prop
  | .nil, .nil => True
  | .cons i is, .cons d ds => lo ≤ i.ctx ∧ i.ctx < hi ∧ (∀ j ∈ i.all, j.ctx = i.ctx) ∧ h.opts i.ctx = d.effective ∧
      ItersOk h (i.ctx + 1) hi is ds
  | _, _ => False

theorem itersOk_mono {h h' : OptHeap} : ∀ {is : OptItList} {ds : OptDsList} {lo lo' hi hi' : Nat}, lo' ≤ lo → hi ≤ hi' →
    (∀ b, lo ≤ b → b < hi → h'.opts b = h.opts b) → ItersOk h lo hi is ds → ItersOk h' lo' hi' is ds
  | .nil, .nil, _, _, _, _, _, _, _, _ => trivial
  | .cons i is, .cons d ds, lo, lo', hi, hi', h1, h2, h3, ⟨a, b, c, e, f⟩ =>
    ⟨by omega, by omega, c, by rw [h3 _ a b]; exact e,
      itersOk_mono (Nat.le_refl _) h2 (fun b' hb hb' => h3 b' (by omega) hb') f⟩
  | .nil, .cons _ _, _, _, _, _, _, _, _, hf => hf.elim
  | .cons _ _, .nil, _, _, _, _, _, _, _, hf => hf.elim

theorem mergeAll_fresh (h : OptHeap) (a : Nat) : ∀ is, (h.mergeAll a is).fresh = h.fresh
  | .nil => rfl
  | .cons i is => by rw [OptHeap.mergeAll, mergeAll_fresh _ a is]; rfl

theorem mergeAll_other {a b : Nat} (hne : b ≠ a) : ∀ (is : OptItList) (h : OptHeap), (h.mergeAll a is).opts b = h.opts b
  | .nil, _ => rfl
  | .cons i is, h => by rw [OptHeap.mergeAll, mergeAll_other hne is, write_other _ _ _ _ hne]

theorem mergeAll_value {a : Nat} : ∀ (is : OptItList) (ds : OptDsList) (h : OptHeap) (args : OptArgs) (lo hi : Nat), a < lo →
    ItersOk h lo hi is ds → h.opts a = DsOptions.make args →
    (h.mergeAll a is).opts a = DsOptions.make (fun f => (args f).or (OptDsList.userValue f ds))
  | .nil, .nil, h, args, _, _, _, _, he => by
    rw [OptHeap.mergeAll, he]
    congr 1
    funext f
    cases args f <;> rfl
  | .cons i is, .cons d ds, h, args, lo, hi, hlt, ⟨a1, a2, _, a4, a5⟩, he => by
    rw [OptHeap.mergeAll]
    have hm : (h.opts a).merge (some (h.opts i.ctx)) = DsOptions.make (fun f => (args f).or (d.userValue f)) := by
      rw [he, a4, OptDs.effective, merge_precedence]
    rw [hm, mergeAll_value is ds _ (fun f => (args f).or (d.userValue f)) (i.ctx + 1) hi (by omega)
      (itersOk_mono (Nat.le_refl _) (Nat.le_refl _) (fun b hb _ => write_other _ _ _ _ (by omega)) a5) (write_same _ _ _)]
    congr 1
    funext f
    rw [OptDsList.userValue]
    cases args f <;> rfl
  | .nil, .cons _ _, _, _, _, _, _, hf, _ => hf.elim
  | .cons _ _, .nil, _, _, _, _, _, hf, _ => hf.elim

mutual
theorem iter_ok : ∀ (d : OptDs) (h : OptHeap), h.fresh ≤ (d.iter h).1.fresh ∧ (∀ b, b < h.fresh → (d.iter h).1.opts b = h.opts b) ∧
    h.fresh ≤ (d.iter h).2.ctx ∧ (d.iter h).2.ctx < (d.iter h).1.fresh ∧ (∀ j ∈ (d.iter h).2.all, j.ctx = (d.iter h).2.ctx) ∧
    (d.iter h).1.opts (d.iter h).2.ctx = d.effective
  | .source, h => by
    simp only [OptDs.iter, mkIterator, OptHeap.alloc, OptIt.ctx]
    refine ⟨by omega, fun b hb => if_neg (by omega), Nat.le_refl _, by omega, ?_, ?_⟩
    · intro j hj
      rw [OptIt.all, OptItList.all, List.mem_singleton] at hj
      rw [hj]
    · rw [if_pos trivial]
      rfl
  | .nary ps, h => by
    obtain ⟨i1, i2, i3⟩ := iters_ok ps h
    simp only [OptDs.iter]
    generalize OptDsList.iters h ps = r at i1 i2 i3
    obtain ⟨h', is⟩ := r
    cases is with
    | nil =>
      cases ps with
      | cons _ _ => exact i3.elim
      | nil =>
        simp only [mkIterator, OptHeap.alloc, OptIt.ctx] at *
        refine ⟨by omega, fun b hb => by rw [if_neg (by omega), i2 b hb], by omega, by omega, ?_, ?_⟩
        · intro j hj
          rw [OptIt.all, OptItList.all, List.mem_singleton] at hj
          rw [hj]
        · rw [if_pos trivial]
          rfl
    | cons i is =>
      cases ps with
      | nil => exact i3.elim
      | cons d ds =>
        obtain ⟨a1, a2, a3, a4, a5⟩ := i3
        simp only [mkIterator, OptIt.ctx, mergeAll_fresh] at *
        refine ⟨i1, ?_, a1, a2, ?_, ?_⟩
        · intro b hb
          rw [mergeAll_other (by omega), i2 b hb]
        · intro j hj
          rw [OptIt.all, OptItList.all] at hj
          rcases List.mem_cons.1 hj with rfl | hj
          · rfl
          · rcases List.mem_append.1 hj with hj | hj
            · exact a3 j hj
            · exact redirect_ctxs _ is j hj
        · exact mergeAll_value is ds h' (fun f => d.userValue f) _ _ (Nat.lt_succ_self _) a5 a4
  | .withOptions o p, h => by
    obtain ⟨i1, i2, i3, i4, i5, i6⟩ := iter_ok p h
    simp only [OptDs.iter]
    refine ⟨i1, ?_, i3, i4, i5, ?_⟩
    · intro b hb
      rw [write_other _ _ _ _ (by omega), i2 b hb]
    · rw [write_same, i6, OptDs.effective, merge_args]
      rfl
theorem iters_ok : ∀ (ds : OptDsList) (h : OptHeap), h.fresh ≤ (ds.iters h).1.fresh ∧ (∀ b, b < h.fresh → (ds.iters h).1.opts b = h.opts b) ∧
    ItersOk (ds.iters h).1 h.fresh (ds.iters h).1.fresh (ds.iters h).2 ds
  | .nil, h => ⟨Nat.le_refl _, fun _ _ => rfl, trivial⟩
  | .cons d ds, h => by
    obtain ⟨i1, i2, i3, i4, i5, i6⟩ := iter_ok d h
    obtain ⟨j1, j2, j3⟩ := iters_ok ds (d.iter h).1
    simp only [OptDsList.iters]
    refine ⟨by omega, fun b hb => by rw [j2 b (by omega), i2 b hb], i3, by omega, i5, by rw [j2 _ i4]; exact i6, ?_⟩
    exact itersOk_mono (by omega) (Nat.le_refl _) (fun _ _ _ => rfl) j3
end

/-- C44: in a pipeline of any shape, whatever was in memory before, all iterators, before and after each
`WithOptionsIterDataset`, see the same options: for each field the value set latest in the pipeline, where several pipelines
are combined that of the first one that sets it, and the default if nobody does. -/
theorem options_effective (d : OptDs) (h : OptHeap) : ∀ j ∈ (d.iter h).2.all, (d.iter h).1.opts j.ctx = d.effective := by
  obtain ⟨_, _, _, _, h5, h6⟩ := iter_ok d h
  intro j hj
  rw [h5 j hj, h6]

/-- Making another iterator does not change the options that existing ones see. -/
theorem options_independent (d : OptDs) (h : OptHeap) (a : Nat) (ha : a < h.fresh) : (d.iter h).1.opts a = h.opts a :=
  (iter_ok d h).2.1 a ha

/-- A chain of `WithOptionsIterDataset`, the first one innermost. -/
def OptDs.withAll (d : OptDs) (os : List DsOptions) : OptDs := os.foldl (fun d o => .withOptions o d) d

theorem withAll_userValue (f : OptField) (post : List DsOptions) (d : OptDs) (hn : ∀ o ∈ post, o.isSet f = false) :
    (d.withAll post).userValue f = d.userValue f := by
  unfold OptDs.withAll
  induction post generalizing d with
  | nil => rfl
  | cons o os ih =>
    rw [List.foldl_cons, ih _ (fun o ho => hn o (by simp [ho])), OptDs.userValue, hn o (by simp)]
    rfl

/-- C44: of a chain of `WithOptionsIterDataset` (with any transformations in between that do not matter here) the last one
that sets a field determines it. -/
theorem options_last_wins (d : OptDs) (pre post : List DsOptions) (o : DsOptions) (f : OptField) (hs : o.isSet f = true)
    (hn : ∀ o' ∈ post, o'.isSet f = false) : (d.withAll (pre ++ o :: post)).effective.val f = o.val f := by
  have h : (d.withAll (pre ++ o :: post)).userValue f = some (o.val f) := by
    have : d.withAll (pre ++ o :: post) = (OptDs.withOptions o (d.withAll pre)).withAll post := by
      simp [OptDs.withAll]
    rw [this, withAll_userValue f post _ hn, OptDs.userValue, if_pos hs]
  simp [OptDs.effective, DsOptions.make, h]

/-- C44: two options objects applied one after the other are the same as their merge applied at once. -/
theorem options_grouping (d : OptDs) (a b : DsOptions) :
    (OptDs.withOptions b (.withOptions a d)).effective = (OptDs.withOptions (b.merge (some a)) d).effective := by
  simp only [OptDs.effective]
  congr 1
  funext f
  simp only [OptDs.userValue, DsOptions.merge, DsOptions.make]
  exact sel3 _ _ _ _ _ _

/-- Two pipelines mixed, the second with options; then other options on top.  All iterators see the merged options. -/
example : let o1 := DsOptions.make (fun f => match f with | .filterRaise => some (some ⟨1, 2⟩) | .minShm => some 7 | _ => none)
    let o2 := DsOptions.make (fun f => match f with | .minShm => some 9 | _ => none)
    let d := OptDs.unary (.withOptions o2 (.nary (.cons (.unary .source) (.cons (.withOptions o1 (.unary .source)) .nil))))
    d.effective.val .filterRaise = (some ⟨1, 2⟩ : Option Threshold) ∧ d.effective.val .minShm = (9 : Int) ∧
      d.effective.val .filterWarn = (some ⟨9, 10⟩ : Option Threshold) ∧ d.effective.isSet .filterWarn = false := ⟨rfl, rfl, rfl, rfl⟩

end Grain
