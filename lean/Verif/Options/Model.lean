import Verif.Iter.Model
/-
Models of `DatasetOptions` and `IteratorContext`, grain/_src/python/dataset/base.py, and of how they spread through a tree of
iterators, grain/_src/python/dataset/dataset.py.
-/
namespace Grain

/-- The fields of `DatasetOptions` that a user can set, base.py:299-306. -/
inductive OptField where
  | filterWarn
  | filterRaise
  | tracking
  | minShm
  deriving DecidableEq, Repr

/-- `ExecutionTrackingMode`, base.py. -/
inductive TrackingMode where
  | disabled
  | stageTiming
  deriving DecidableEq, Repr

/-- The type of a field's values. -/
abbrev OptField.Ty : OptField → Type
  | .filterWarn => Option Threshold
  | .filterRaise => Option Threshold
  | .tracking => TrackingMode
  | .minShm => Int

/-- The defaults, base.py:299-306. -/
def OptField.default : (f : OptField) → f.Ty
  | .filterWarn => some ⟨9, 10⟩
  | .filterRaise => none
  | .tracking => .disabled
  | .minShm => 0

/-- A `DatasetOptions` object: its values and `_user_set_fields`. -/
structure DsOptions where
  val : (f : OptField) → f.Ty
  isSet : OptField → Bool

/-- The keyword arguments of `DatasetOptions(...)`; `none`: not given. -/
abbrev OptArgs : Type := (f : OptField) → Option f.Ty

/-- The constructor with `__post_init__`, base.py:314-321: a field that was not given holds a `_Default` object, which is
replaced by its value; the others are recorded as set. -/
def DsOptions.make (args : OptArgs) : DsOptions where
  val f := (args f).getD f.default
  isSet f := (args f).isSome

/-- `DatasetOptions.merge`, base.py:323-363. -/
def DsOptions.merge (self : DsOptions) : Option DsOptions → DsOptions
  | none => self
  | some other =>
    DsOptions.make (fun f =>
      if self.isSet f then some (self.val f)
      else if other.isSet f then some (other.val f)
      else none)

/-! ### Trees of datasets and of iterators -/

mutual
/-- A pipeline, as far as options matter: sources, transformations with one parent or several (`mix`, `zip`, ...), and
`WithOptionsIterDataset`, dataset.py:1689-1736. -/
inductive OptDs where
  | source
  | nary (parents : OptDsList)
  | withOptions (options : DsOptions) (parent : OptDs)
/-- The parents of a dataset. -/
inductive OptDsList where
  | nil
  | cons (d : OptDs) (ds : OptDsList)
end

/-- A transformation with one parent. -/
abbrev OptDs.unary (p : OptDs) : OptDs := .nary (.cons p .nil)

mutual
/-- An iterator object: the address of its context object (`_ctx`) and its parents. -/
inductive OptIt where
  | node (ctx : Nat) (parents : OptItList)
/-- The parents of an iterator. -/
inductive OptItList where
  | nil
  | cons (i : OptIt) (is : OptItList)
end

/-- The address of `_ctx`, dataset.py:1433. -/
def OptIt.ctx : OptIt → Nat
  | .node c _ => c

/-- The context objects, by address, and the next free address.  (Of an `IteratorContext`, base.py:374-402, only
`dataset_options`: the multiprocessing context is the same everywhere in a process, so that merging never raises.) -/
structure OptHeap where
  opts : Nat → DsOptions
  fresh : Nat

/-- Assignment to `dataset_options` of the context at `a`, base.py:392-394. -/
def OptHeap.write (h : OptHeap) (a : Nat) (o : DsOptions) : OptHeap :=
  { h with opts := fun b => if b = a then o else h.opts b }

/-- `base.IteratorContext()`, dataset.py:1441. -/
def OptHeap.alloc (h : OptHeap) : OptHeap × Nat :=
  ({ opts := fun b => if b = h.fresh then DsOptions.make (fun _ => none) else h.opts b, fresh := h.fresh + 1 }, h.fresh)

mutual
/-- `current._ctx = self._ctx` for an iterator and its parents, dataset.py:1436-1439. -/
def OptIt.redirect (a : Nat) : OptIt → OptIt
  | .node _ ps => .node a (OptItList.redirect a ps)
/-- The same for parents, dataset.py:1436-1439. -/
def OptItList.redirect (a : Nat) : OptItList → OptItList
  | .nil => .nil
  | .cons i is => .cons (OptIt.redirect a i) (OptItList.redirect a is)
end

/-- `for parent in to_visit: self._ctx.merge(parent._ctx)`, dataset.py:1433-1434, with `IteratorContext.merge`,
base.py:392-394. -/
def OptHeap.mergeAll (h : OptHeap) (a : Nat) : OptItList → OptHeap
  | .nil => h
  | .cons i is => (h.write a ((h.opts a).merge (some (h.opts i.ctx)))).mergeAll a is

/-- `DatasetIterator.__init__`, dataset.py:1420-1442. -/
def mkIterator (h : OptHeap) : OptItList → OptHeap × OptIt
  | .nil => (h.alloc.1, .node h.alloc.2 .nil)
  | .cons i is => (h.mergeAll i.ctx is, .node i.ctx (.cons i (OptItList.redirect i.ctx is)))

mutual
/-- `__iter__` of a dataset: the iterators of the parents are made first, then the iterator itself; of
`WithOptionsIterDataset`: dataset.py:1722-1733. -/
def OptDs.iter (h : OptHeap) : OptDs → OptHeap × OptIt
  | .source => mkIterator h .nil
  | .nary ps =>
    let r := OptDsList.iters h ps
    mkIterator r.1 r.2
  | .withOptions o p =>
    let r := OptDs.iter h p
    (r.1.write r.2.ctx (o.merge (some (r.1.opts r.2.ctx))), r.2)
/-- `__iter__` of the parents, in order. -/
def OptDsList.iters (h : OptHeap) : OptDsList → OptHeap × OptItList
  | .nil => (h, .nil)
  | .cons d ds =>
    let r := OptDs.iter h d
    let q := OptDsList.iters r.1 ds
    (q.1, .cons r.2 q.2)
end

end Grain
