import Verif.Elastic.Model
/-
Which pipelines `ElasticIterator` accepts: grain/_src/python/dataset/elastic_iterator.py (EI).
-/
namespace Grain

/-- Classes of datasets as `ElasticIterator` tells them apart.  `interleave`, `parquet`: number of datasets (paths) of an
`InterleaveIterDataset` (`ParquetIterDataset`).  `toIter`: `PrefetchIterDataset`, made by `to_iter_dataset`.  `map`, `iter`:
the other `MapDataset`s and `IterDataset`s. -/
inductive DsClass where
  | interleave (n : Nat)
  | parquet (n : Nat)
  | toIter
  | threadPrefetch
  | processPrefetch
  | zip
  | mix
  | filterMap
  | map
  | iter
  deriving DecidableEq, Repr

/-- A dataset with its `parents`.  The datasets of an interleave and the files of a `ParquetIterDataset` are no parents
(transformations/interleave.py:557, sources/parquet_dataset.py:136). -/
inductive DsGraph where
  | node (cls : DsClass) (parents : List DsGraph)

/-- The class of a dataset, EI:50, 76, 406. -/
def DsGraph.cls : DsGraph → DsClass
  | .node c _ => c

/-- `ds.parents`, EI:62, 80, 410. -/
def DsGraph.parents : DsGraph → List DsGraph
  | .node _ ps => ps

/-- `not isinstance(ds, dataset.IterDataset)`, EI:81, 416, 447. -/
def DsClass.isMap : DsClass → Bool
  | .filterMap | .map => true
  | _ => false

/-- `isinstance(ds, prefetch.SupportsInPlaceSlicing)` of an `IterDataset`: it has a method `set_slice`. -/
def DsClass.sliceable : DsClass → Bool
  | .interleave _ | .parquet _ | .toIter => true
  | _ => false

mutual
  def DsGraph.size : DsGraph → Nat
    | .node _ ps => 1 + DsGraph.sizes ps
  def DsGraph.sizes : List DsGraph → Nat
    | [] => 0
    | g :: gs => g.size + DsGraph.sizes gs
end

theorem DsGraph.sizes_append (xs ys : List DsGraph) : DsGraph.sizes (xs ++ ys) = DsGraph.sizes xs + DsGraph.sizes ys := by
  induction xs with
  | nil => simp [DsGraph.sizes]
  | cons x xs ih => simp only [List.cons_append, DsGraph.sizes, ih]; omega

theorem DsGraph.sizes_reverse (xs : List DsGraph) : DsGraph.sizes xs.reverse = DsGraph.sizes xs := by
  induction xs with
  | nil => rfl
  | cons x xs ih => simp only [List.reverse_cons, DsGraph.sizes_append, DsGraph.sizes, ih]; omega

/-- The loops `to_check.pop()` … `to_check.extend(next_ds.parents)` of EI:47-62 and EI:403-410: whether they raise because
of a dataset of class `bad`.  The list is the stack, its top first. -/
def checkLoop (bad : DsClass → Bool) (stack : List DsGraph) : Bool :=
  match stack with
  | [] => false
  | .node c ps :: rest => if bad c then true else checkLoop bad (ps.reverse ++ rest)
termination_by DsGraph.sizes stack
decreasing_by
  simp only [List.unattach_reverse, List.unattach_attach, DsGraph.sizes_append, DsGraph.sizes_reverse, DsGraph.sizes,
    DsGraph.size]
  omega

/-- EI:50-57. -/
def unsupported : DsClass → Bool
  | .zip | .toIter | .mix => true
  | _ => false

mutual
  /-- `_set_slice_iter_dataset` and `_set_slice_map_dataset` (transformations/prefetch.py:394-447) with a slice that is not
  sequential: interleave.py:573-575, parquet_dataset.py:156-158 (`xs[host::hosts]`), prefetch.py:146-160 (the parent of
  `to_iter_dataset` is sliced; its class stays); a source of a `MapDataset` asserts that the slice is sequential
  (source.py:134, 181). -/
  def DsGraph.slice (host hosts : Nat) : DsGraph → Py DsGraph
    | .node (.interleave n) ps => .ok (.node (.interleave (hostLen n hosts host)) ps)
    | .node (.parquet n) ps => .ok (.node (.parquet (hostLen n hosts host)) ps)
    | .node .toIter ps => .ok (.node .toIter ps)
    | .node c [] => .error (if c.isMap then .assertion else .valueError)
    | .node c (p :: ps) =>
      match DsGraph.slices host hosts (p :: ps) with
      | .ok ps' => .ok (.node c ps')
      | .error e => .error e
  def DsGraph.slices (host hosts : Nat) : List DsGraph → Py (List DsGraph)
    | [] => .ok []
    | g :: gs =>
      match g.slice host hosts with
      | .error e => .error e
      | .ok g' =>
        match DsGraph.slices host hosts gs with
        | .error e => .error e
        | .ok gs' => .ok (g' :: gs')
end

mutual
  /-- `_find_sliceable_dataset(ds) is not None`, EI:65-85. -/
  def DsGraph.findDs : DsGraph → Bool
    | .node c ps => c.sliceable || DsGraph.findDss ps
  def DsGraph.findDss : List DsGraph → Bool
    | [] => false
    | g :: gs => (!g.cls.isMap && g.findDs) || DsGraph.findDss gs
end

mutual
  /-- `_find_sliceable_iterator(iter(ds)) is not None`, EI:88-110: the iterator of an interleave has shard states
  (interleave.py:211), that of one Parquet file has none (parquet_dataset.py:144-151), that of a process prefetch has no
  parents (process_prefetch.py:344), that of `to_iter_dataset` neither; the others have the iterators of the parents. -/
  def DsGraph.findIt : DsGraph → Bool
    | .node (.interleave _) _ => true
    | .node (.parquet n) _ => n != 1
    | .node .processPrefetch _ => false
    | .node .toIter _ => false
    | .node _ ps => DsGraph.findIts ps
  def DsGraph.findIts : List DsGraph → Bool
    | [] => false
    | g :: gs => g.findIt || DsGraph.findIts gs
end

/-- `ElasticIterator.__init__` for an `IterDataset` (EI:402-430) without multiprocessing options; `.ok` is
`self._ds`.  (The branch EI:430-441 for graphs without a dataset to slice is left out: slicing has raised before.) -/
def elasticInit (g : DsGraph) (host hosts : Nat) : Py DsGraph :=
  if checkLoop (· == .filterMap) [g] then .error .valueError
  else if checkLoop unsupported [g] then .error .valueError
  else g.slice host hosts

/-- `ElasticIterator.__init__` for a `MapDataset` (EI:402-410, 442-443). -/
def elasticInitMap (g : DsGraph) : Py DsGraph :=
  if checkLoop (· == .filterMap) [g] then .error .valueError else .ok g

/-- `ElasticIterDatasetIterator.__init__` (EI:149-182), at the first use of the iterator. -/
def elasticBase (g : DsGraph) (globalBatch : Int) (hosts : Nat) : Py Unit :=
  if !g.findDs then .error .valueError
  else if 0 < globalBatch ∧ globalBatch % hosts ≠ 0 then .error .valueError
  else if !g.findIt then .error .valueError                 -- through `batch` to the iterator of its parent
  else .ok ()

/-- Making the iterator of one host and using it. -/
def elasticAccepts (g : DsGraph) (globalBatch : Int) (host hosts : Nat) : Py Unit :=
  match elasticInit g host hosts with
  | .error e => .error e
  | .ok g' => elasticBase g' globalBatch hosts

end Grain
