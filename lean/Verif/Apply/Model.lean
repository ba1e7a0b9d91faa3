import Verif.Iter.Model
import Verif.Loader.LegacyModel
/-
Lists of transformation objects: `ds.apply` (python/dataset/dataset.py:1798-1844) and the `operations` of a data loader
(python/data_loader.py:437-488, 669-740).
-/
namespace Grain

/-- A transformation object, core/transforms.py:30-118: for each base class, the method it has if the object is an instance of
that class (a class may have several bases).  Elements are `Option V`, `none` being `None`; `random_map` gets a
generator, here the number it was made from, or `None`. -/
structure TObj (V : Type) where
  batch : Option (Nat × Bool × (List (Option V) → Py (Option V))) := none
  map : Option (Option V → Py (Option V)) := none
  randomMap : Option (Option V → Option Int → Py (Option V)) := none
  tfRandomMap : Option (Option V → Option Int → Py (Option V)) := none
  mapWithIndex : Option (Nat → Option V → Py (Option V)) := none
  flatMap : Option ((Option V → Py (List (Option V))) × Int) := none
  filter : Option (Option V → Py Bool) := none

/-- The dataset method that is called, with its arguments. -/
inductive Call (V : Type) where
  | batch (b : Nat) (drop : Bool) (fn : List (Option V) → Py (Option V))
  | map (f : Option V → Py (Option V))
  | randomMap (f : Option V → Option Int → Py (Option V))
  | mapWithIndex (f : Nat → Option V → Py (Option V))
  | flatMap (f : Option V → Py (List (Option V))) (maxFanOut : Int)
  | filter (pred : Option V → Py Bool)

/-- The `match` of `apply_transformations`, dataset.py:1816-1843. -/
def TObj.dispatch (t : TObj V) : Py (Call V) :=
  match t.batch with
  | some (b, drop, fn) => .ok (.batch b drop fn)
  | none =>
  match t.map with
  | some f => .ok (.map f)
  | none =>
  match t.randomMap with
  | some f => .ok (.randomMap f)
  | none =>
  match t.mapWithIndex with
  | some f => .ok (.mapWithIndex f)
  | none =>
  match t.flatMap with
  | some (f, m) => .ok (.flatMap f m)
  | none =>
  match t.filter with
  | some f => .ok (.filter f)
  | none => .error .notImplemented

/-- The argument of `apply`: one transformation or a sequence of them. -/
inductive TArg (V : Type) where
  | one (t : TObj V)
  | many (ts : List (TObj V))

/-- `if not isinstance(transformations, Sequence): transformations = (transformations,)`, dataset.py:1813-1814. -/
def TArg.list : TArg V → List (TObj V)
  | .one t => [t]
  | .many ts => ts

/-- `apply_transformations`, dataset.py:1798-1844, for datasets of any type: `step k c ds` is the dataset with the method of `c`
called on it; `k` is the number of transformations above the first dataset (seeds depend on it). -/
def applyFrom {Ds : Type u} (step : Nat → Call V → Ds → Ds) : Nat → Ds → List (TObj V) → Py Ds
  | _, ds, [] => .ok ds
  | k, ds, t :: ts =>
    match t.dispatch with
    | .ok c => applyFrom step (k + 1) (step k c ds) ts
    | .error e => .error e

/-- The methods of `IterDataset`, dataset.py:1140-1330, as what they do to the iterators.  `rng k j` is what the generator of transformation
`k` for element `j` is made from (see Seeds, Rng). -/
def iterStep (rng : Nat → Nat → Option Int) (k : Nat) : Call V → Iter (Option V) → Iter (Option V)
  | .batch b drop fn, p => batchIter b drop fn p
  | .map f, p => mapIter (fun v => f (some v)) p
  | .randomMap f, p => randomMapIter (fun v j => f (some v) (rng k j)) 0 1 p
  | .mapWithIndex f, p => mapWithIndexIter (fun i v => f i (some v)) p
  | .flatMap f _, p => flatMapIter f p
  | .filter pred, p => filterIter pred none p

/-- `IterDataset.apply`, dataset.py:1030-1050. -/
def applyIter (rng : Nat → Nat → Option Int) (p : Iter (Option V)) (ts : TArg V) : Py (Iter (Option V)) :=
  applyFrom (iterStep rng) 0 p ts.list

/-- `_apply_transform_to_dataset`, python/data_loader.py:674-740: which transformation of records an object becomes.  An object
of none of the classes tested is called with the iterator as its argument when the loader's iterator is made (738-740,
194-201); such objects are taken not to be callable. -/
def TObj.loaderOp (t : TObj V) : Py (NOp (Option V)) :=
  match t.map with
  | some f => .ok (.keep (.transform (.map f)))
  | none =>
  match t.randomMap with
  | some f => .ok (.keep (.transform (.randomMap f)))
  | none =>
  match t.tfRandomMap with
  | some f => .ok (.keep (.transform (.randomMap f)))
  | none =>
  match t.flatMap with
  | some (f, m) => .ok (.flatMap f m)
  | none =>
  match t.filter with
  | some f => .ok (.keep (.transform (.filter f)))
  | none =>
  match t.batch with
  | some (b, drop, fn) => .ok (.keep (.transform (.batch b drop fn)))
  | none => .error .typeError

/-- `any(isinstance(op, transforms.FlatMap) ..)`, data_loader.py:437-439: also true of an object that is applied as something
else. -/
def usesNative (ts : List (TObj V)) : Bool := ts.any (fun t => t.flatMap.isSome)

/-- The operations that keep the state of the loader. -/
def NOp.kept : NOp D → Option (LdOp D)
  | .keep op => some op
  | .flatMap _ _ => none

/-- `iter(DataLoader(.., operations=ts))`, data_loader.py:437-488. -/
def loaderOf (c : LoaderConf) (src : MapDs V) (s : Sampler) (size : Nat) (ts : List (TObj V)) (bufferSize threads : Nat) :
    Py (Iter (Option V)) :=
  match ts.mapM TObj.loaderOp with
  | .error e => .error e
  | .ok ops =>
    if usesNative ts then .ok (nativeLoader c.shard c.workers src s size ops bufferSize threads)
    else .ok (legacyLoader c src s size (ops.filterMap NOp.kept) bufferSize threads)

end Grain
