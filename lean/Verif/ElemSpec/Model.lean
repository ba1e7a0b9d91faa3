import Verif.ElemSpec.Spec
import Verif.Batch.Model
import Verif.Iter.PropsPipeline
import Verif.Interleave.Props
/-
Model of `get_element_spec` (grain/_src/python/dataset/dataset.py:1862-1872): the `_element_spec` properties of the dataset
classes.  T/ = grain/_src/python/dataset/transformations/.
-/
namespace Grain

/-- An element: a structure of arrays. -/
abbrev Elem (N : Numpy) := Tree (Arr N)

/-- A specification of elements. -/
abbrev ElemSpec (N : Numpy) := Tree (ShapeDtype N)

/-- Classes that do not define `_element_spec`, dataset.py:118-129 (sources, flat maps, packing, shards of the data loader). -/
def noSpec {N : Numpy} : Py (ElemSpec N) := .error .notImplemented

/-- `RangeMapDataset._element_spec`, T/source.py:222-224. -/
def rangeSpec {N : Numpy} (int64 : N.D) : Py (ElemSpec N) := .ok (.leaf ⟨[], int64⟩)

/-- The classes that return the specification of their parent: filter.py:74, 224; slice.py:62, 129; repeat.py:81, 166;
shuffle.py:86, 138, 167; limit.py:97; cache.py:46; prefetch.py:166, 500, 771; process_prefetch.py:190, 671. -/
def parentSpec {N : Numpy} (parent : Py (ElemSpec N)) : Py (ElemSpec N) := parent

/-- `map`, `random_map`, `map_with_index`, T/map.py:97-107 and 125-135; `out` is the method `output_spec` of the transformation,
`none` if it has none. -/
def mapSpec {N : Numpy} (out : Option (ElemSpec N → Py (ElemSpec N))) (parent : Py (ElemSpec N)) : Py (ElemSpec N) :=
  match out with
  | none => .error .valueError
  | some f => do f (← parent)

/-- What `_get_batch_element_spec` distinguishes: a batch function with a method `output_spec`, `make_batch` (also inside a
`functools.partial`) and any other function. -/
inductive BatchFnKind (N : Numpy) where
  | withSpec (f : ElemSpec N → Nat → Bool → Py (ElemSpec N))
  | makeBatch
  | custom

/-- `_get_batch_element_spec`, T/batch.py:353-380. -/
def batchSpec {N : Numpy} (batchSize : Nat) (dropRemainder : Bool) (kind : BatchFnKind N) (parent : Py (ElemSpec N)) :
    Py (ElemSpec N) := do
  let input ← parent
  match kind with
  | .withSpec f => f input batchSize dropRemainder
  | .custom => .error .notImplemented
  | .makeBatch =>
    let dim : Option Nat := if dropRemainder then some batchSize else none
    .ok (input.map (fun x => ⟨dim :: x.shape, x.dtype⟩))

/-- `RebatchIterDataset._element_spec`, T/rebatch.py:63-73. -/
def rebatchSpec {N : Numpy} (batchSize : Nat) (parent : Py (ElemSpec N)) : Py (ElemSpec N) := do
  let input ← parent
  .ok (input.map (fun x => ⟨some batchSize :: x.shape.tail, x.dtype⟩))

/-- A tuple. -/
def TreeList.ofList : List (Tree α) → TreeList α
  | [] => .nil
  | t :: ts => .cons t (TreeList.ofList ts)

/-- `zip`, T/zip.py:58-60 and 80-82. -/
def zipSpec {N : Numpy} (parents : List (Py (ElemSpec N))) : Py (ElemSpec N) := do
  let specs ← parents.mapM id
  .ok (.seq .tuple (TreeList.ofList specs))

/-- `mix`, `concatenate` and `interleave`: that of the first dataset, T/mix.py:177-180, 300-303, T/interleave.py:583-586. -/
def firstSpec {N : Numpy} (parents : List (Py (ElemSpec N))) : Py (ElemSpec N) :=
  match parents with
  | [] => .error .indexError
  | s :: _ => s

/-! ### The elements -/

/-- `make_batch` of elements; `other` is what happens if some are `None`. -/
def batchSome {N : Numpy} (conv : Elem N → Py (Arr N)) (other : List (Option (Elem N)) → Py (Option (Elem N)))
    (vs : List (Option (Elem N))) : Py (Option (Elem N)) :=
  if vs.all (·.isSome) then do
    let b ← makeBatch conv false (vs.filterMap id)
    .ok (some b)
  else other vs

/-- The tuple that `zip` makes (T/zip.py:39-46), as an element; `other` is what it is if some of its members are `None`. -/
def tupleOf {N : Numpy} (other : List (Option (Elem N)) → Elem N) (vs : List (Option (Elem N))) : Elem N :=
  if vs.all (·.isSome) then .seq .tuple (TreeList.ofList (vs.filterMap id)) else other vs

/-- The same iterator with its elements seen in another way. -/
def Iter.view (g : α → β) (p : Iter α) : Iter β where
  S := p.S
  C := p.C
  init := p.init
  next F s := (p.next F s).map (fun q => (q.1, match q.2 with | .item a => .item (g a) | .stop => .stop | .fail e => .fail e))
  get := p.get
  set := p.set
  getIdx := p.getIdx
  setIdx := p.setIdx

/-- The user's batch function keeps what its `output_spec` promises; the other two kinds promise nothing themselves. -/
def BatchFnKind.Keeps {N : Numpy} (kind : BatchFnKind N) (b : Nat) (drop : Bool)
    (fn : List (Option (Elem N)) → Py (Option (Elem N))) : Prop :=
  match kind with
  | .withSpec f => ∀ s s', f s b drop = .ok s' → s.Ok → s'.Ok ∧ ∀ vs e, (∀ v ∈ vs, ∃ x, v = some x ∧ Conforms s x) →
      0 < vs.length → vs.length ≤ b → (drop = true → vs.length = b) → fn vs = .ok (some e) → Conforms s' e
  | .makeBatch => ∃ conv other, fn = batchSome conv other
  | .custom => True

/-- The user's transformation keeps what its `output_spec` promises. -/
def KeepsSpec {N : Numpy} (out : Option (ElemSpec N → Py (ElemSpec N))) (f : Elem N → Py (Option (Elem N))) : Prop :=
  ∀ g, out = some g → ∀ s s', g s = .ok s' → s.Ok → s'.Ok ∧ ∀ e e', Conforms s e → f e = .ok (some e') → Conforms s' e'

/-- Datasets and what `get_element_spec` returns for them. -/
inductive MapHasSpec {N : Numpy} : MapDs (Elem N) → Py (ElemSpec N) → Prop
  | noSpec (ds : MapDs (Elem N)) : MapHasSpec ds noSpec
  | range (r : RangeDs) (int64 : N.D) (asArr : Int → Arr N) (hv : ∀ v, (asArr v).shape = [] ∧ (asArr v).dtype = int64) :
      MapHasSpec (mapDs (fun v => .ok (some (.leaf (asArr v)))) r.toDs) (rangeSpec int64)
  | map {p : MapDs (Elem N)} {o : Py (ElemSpec N)} (out : Option (ElemSpec N → Py (ElemSpec N))) (f : Elem N → Py (Option (Elem N)))
      (hf : KeepsSpec out f) : MapHasSpec p o → MapHasSpec (mapDs f p) (mapSpec out o)
  | mapWithIndex {p : MapDs (Elem N)} {o : Py (ElemSpec N)} (out : Option (ElemSpec N → Py (ElemSpec N)))
      (f : Int → Elem N → Py (Option (Elem N))) (hf : ∀ i, KeepsSpec out (f i)) : MapHasSpec p o → MapHasSpec (mapWithIndexDs f p) (mapSpec out o)
  | randomMap {p : MapDs (Elem N)} {o : Py (ElemSpec N)} (out : Option (ElemSpec N → Py (ElemSpec N)))
      (f : Elem N → Int → Py (Option (Elem N))) (hf : ∀ i, KeepsSpec out (f · i)) : MapHasSpec p o → MapHasSpec (randomMapDs f p) (mapSpec out o)
  | filter {p : MapDs (Elem N)} {o : Py (ElemSpec N)} (pred : Elem N → Py Bool) : MapHasSpec p o →
      MapHasSpec (filterDs pred p) (parentSpec o)
  | slice {p : MapDs (Elem N)} {o : Py (ElemSpec N)} (s : SliceSpec) : MapHasSpec p o → MapHasSpec (sliceDs s p) (parentSpec o)
  | reindex {p : MapDs (Elem N)} {o : Py (ElemSpec N)} (is : List Int) : MapHasSpec p o → MapHasSpec (reindexDs is p) (parentSpec o)
  | «repeat» {p : MapDs (Elem N)} {o : Py (ElemSpec N)} (len : Nat) (reseed : Bool) : MapHasSpec p o →
      MapHasSpec (repeatDs len reseed p) (parentSpec o)
  | shuffle {p : MapDs (Elem N)} {o : Py (ElemSpec N)} (keys : Nat → List (BitVec 32)) (seed : Nat) : MapHasSpec p o →
      MapHasSpec (shuffleDs keys seed p) (parentSpec o)
  | windowShuffle {p : MapDs (Elem N)} {o : Py (ElemSpec N)} (keys : Nat → List (BitVec 32)) (seed w : Nat) : MapHasSpec p o →
      MapHasSpec (windowShuffleDs keys seed w p) (parentSpec o)
  | batch {p : MapDs (Elem N)} {o : Py (ElemSpec N)} (b : Nat) (hb : 0 < b) (drop : Bool) (kind : BatchFnKind N)
      (fn : List (Option (Elem N)) → Py (Option (Elem N))) (hfn : kind.Keeps b drop fn) (hd : ∀ i, p.getitem i ≠ .ok none) :
      MapHasSpec p o → MapHasSpec (batchDs b drop false fn p) (batchSpec b drop kind o)
  | zip {ps : List (MapDs (Elem N))} {os : List (Py (ElemSpec N))} (len : Nat) (other : List (Option (Elem N)) → Elem N)
      (hl : ps.length = os.length) (hd : ∀ p ∈ ps, ∀ i, p.getitem i ≠ .ok none) :
      (∀ (k : Nat) p o, ps[k]? = some p → os[k]? = some o → MapHasSpec p o) →
      MapHasSpec (mapDs (fun vs => .ok (some (tupleOf other vs))) (zipDs len ps)) (zipSpec os)
  | mix {ps : List (MapDs (Elem N))} {o : Py (ElemSpec N)} (sm : SelMap) :
      (∀ p ∈ ps, MapHasSpec p o) → MapHasSpec (mixDs sm ps) (firstSpec (ps.map (fun _ => o)))

/-- Iterators, the stream of their elements, and what `get_element_spec` returns for their datasets. -/
inductive IterHasSpec {N : Numpy} : Iter (Option (Elem N)) → List (Py (Option (Elem N))) → Bool → Py (ElemSpec N) → Prop
  | noSpec {it : Iter (Option (Elem N))} {xs : List (Py (Option (Elem N)))} {ended : Bool} : Pipe it xs ended →
      IterHasSpec it xs ended noSpec
  | mapDataset {ds : MapDs (Elem N)} {vs : List (Option (Elem N))} {o : Py (ElemSpec N)} (size threads : Nat) (allow : Bool)
      (hlen : vs.length = ds.len) (hv : ∀ k (hk : k < vs.length), ds.getitem k = .ok vs[k]) : MapHasSpec ds o →
      IterHasSpec (prefetchIter size threads allow none ds) ((vs.filter (fun x => allow || x.isSome)).map Except.ok) true (parentSpec o)
  | stopKnowing {p : Iter (Option (Elem N))} {xs : List (Py (Option (Elem N)))} {ended : Bool} {o : Py (ElemSpec N)} (n : Nat) :
      IterHasSpec p xs ended o → IterHasSpec p (xs.take n) false o
  | map {p : Iter (Option (Elem N))} {xs : List (Py (Option (Elem N)))} {ended : Bool} {o : Py (ElemSpec N)}
      (out : Option (ElemSpec N → Py (ElemSpec N))) (f : Elem N → Py (Option (Elem N))) (hf : KeepsSpec out f) : IterHasSpec p xs ended o →
      IterHasSpec (mapIter f p) (xs.map (mapOutcome f)) ended (mapSpec out o)
  | randomMap {p : Iter (Option (Elem N))} {xs : List (Py (Option (Elem N)))} {ended : Bool} {o : Py (ElemSpec N)}
      (out : Option (ElemSpec N → Py (ElemSpec N))) (f : Elem N → Nat → Py (Option (Elem N))) (i c : Nat) (hf : ∀ n, KeepsSpec out (f · n)) :
      IterHasSpec p xs ended o → IterHasSpec (randomMapIter f i c p) (countedMap (randomMapAt f i c) 0 xs) ended (mapSpec out o)
  | mapWithIndex {p : Iter (Option (Elem N))} {xs : List (Py (Option (Elem N)))} {ended : Bool} {o : Py (ElemSpec N)}
      (out : Option (ElemSpec N → Py (ElemSpec N))) (f : Nat → Elem N → Py (Option (Elem N))) (hf : ∀ n, KeepsSpec out (f n)) :
      IterHasSpec p xs ended o → IterHasSpec (mapWithIndexIter f p) (countedMap (mapWithIndexAt f) 0 xs) ended (mapSpec out o)
  | limit {p : Iter (Option (Elem N))} {xs : List (Py (Option (Elem N)))} {ended : Bool} {o : Py (ElemSpec N)} (n : Nat) :
      IterHasSpec p xs ended o →
      IterHasSpec (limitIter n p) (limitStream n xs) (ended || decide ((limitStream n xs).length < xs.length)) (parentSpec o)
  | filter {p : Iter (Option (Elem N))} {xs : List (Py (Option (Elem N)))} {ended : Bool} {o : Py (ElemSpec N)}
      (pred : Option (Elem N) → Py Bool) : IterHasSpec p xs ended o →
      IterHasSpec (filterIter pred none p) (xs.filterMap (filterOutcome pred)) ended (parentSpec o)
  | batch {p : Iter (Option (Elem N))} {as : List (Option (Elem N))} {ended : Bool} {o : Py (ElemSpec N)} (b : Nat) (hb : 0 < b)
      (drop : Bool) (kind : BatchFnKind N) (fn : List (Option (Elem N)) → Py (Option (Elem N))) (hfn : kind.Keeps b drop fn)
      (hd : none ∉ as) : IterHasSpec p (as.map Except.ok) ended o →
      IterHasSpec (batchIter b drop fn p) (batchStream b drop fn as ended) ended (batchSpec b drop kind o)
  | «repeat» {p : Iter (Option (Elem N))} {xs : List (Py (Option (Elem N)))} {o : Py (ElemSpec N)} (k : Nat) (hk : 0 < k) :
      IterHasSpec p xs true o → IterHasSpec (repeatIter (some k) p) (List.replicate k xs).flatten true (parentSpec o)
  | repeatForever {p : Iter (Option (Elem N))} {xs : List (Py (Option (Elem N)))} {o : Py (ElemSpec N)} (k : Nat) (hk : 0 < k) :
      IterHasSpec p xs true o → IterHasSpec (repeatIter none p) (List.replicate k xs).flatten false (parentSpec o)
  | cache {p : Iter (Option (Elem N))} {as : List (Option (Elem N))} {o : Py (ElemSpec N)} :
      IterHasSpec p (as.map Except.ok) false o → IterHasSpec (cacheIter p) (as.map Except.ok) false (parentSpec o)
  | windowShuffle {p : Iter (Option (Elem N))} {as : List (Option (Elem N))} {ended : Bool} {o : Py (ElemSpec N)} (w : Nat) (hw : 0 < w)
      (shuffle : Nat → List (Option (Elem N)) → Py (List (Option (Elem N)))) (σ : Nat → List (Option (Elem N)) → List (Option (Elem N)))
      (hσ : ∀ i, i ≤ batchCount as.length w (!ended) → ∀ l, l.length ≤ w → shuffle i l = .ok (σ i l) ∧ (σ i l).Perm l) :
      IterHasSpec p (as.map Except.ok) ended o →
      IterHasSpec (windowShuffleIter shuffle w p) ((windowStream w (fun i l => (σ i l).reverse) as ended).map Except.ok) ended (parentSpec o)
  | zip {n : Nat} (hn : 0 < n) (strict : Bool) {ps : Fin n → Iter (Option (Elem N))} {as : Fin n → List (Option (Elem N))} {ended : Bool}
      {os : Fin n → Py (ElemSpec N)} (other : List (Option (Elem N)) → Elem N)
      (hs : strict = true → ended = true → ∀ i j, (as i).length = (as j).length) (hd : ∀ i, none ∉ as i) :
      (∀ i, IterHasSpec (ps i) ((as i).map Except.ok) ended (os i)) →
      IterHasSpec ((zipIter strict ps).view (fun vs => some (tupleOf other vs)))
        ((zipStream as).map (fun vs => Except.ok (some (tupleOf other vs)))) ended (zipSpec ((List.finRange n).map os))
  | mix {n : Nat} (hn : 0 < n) (proportions : List Nat) (hlen : proportions.length = n) (hpos : ∀ p ∈ proportions, 0 < p)
      {ps : Fin n → Iter (Option (Elem N))} {xs : Fin n → List (Py (Option (Elem N)))} {ys : List (Py (Option (Elem N)))} {o : Py (ElemSpec N)}
      (hys : ∀ m, m < ys.length → ys[m]? = mixOutcome proportions xs m)
      (herr : ∀ k e, ys[k]? = some (.error e) → k + 1 = ys.length)
      (hend : (∃ e, ys.getLast? = some (.error e)) ∨ mixOutcome proportions xs ys.length = none) :
      (∀ i, IterHasSpec (ps i) (xs i) true o) → IterHasSpec (mixIter proportions ps) ys true (firstSpec (List.replicate n o))

end Grain
