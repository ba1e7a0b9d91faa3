import Verif.Json.Model
import Verif.Iter.Model
import Verif.Interleave.Model
import Verif.Sources.Model
import Verif.Packing.Model
/-
The states of the iterators as the dictionaries they are in the code (`get_state`, `set_state`), and as the texts that
`DatasetIterator.save` and the checkpoint handler write.  In `Verif/Iter/Model.lean` a state is a tuple of the values it
consists of; here every transformation gets the keys under which it writes and reads them.
`T` is grain/_src/python/dataset/transformations.
-/
namespace Grain

/-- An iterator whose states are JSON values (dictionaries with texts as keys, lists, numbers, ...). -/
structure JIter (α : Type) where
  S : Type
  init : S
  next : Nat → S → Option (S × Res α)
  get : S → S × Json
  set : Nat → S → Json → Option (S × Option Err)

/-- As an iterator. -/
def JIter.iter (j : JIter α) : Iter α where
  S := j.S
  C := Json
  init := j.init
  next := j.next
  get := j.get
  set := j.set

/-- An iterator with its states written as JSON values; `dec` is `none` where `set_state` raises because a key is missing
(`KeyError`) or a value has the wrong type.  Simplification: the exception comes before any change of the object. -/
def Iter.coded (it : Iter α) (enc : it.C → Json) (dec : Json → Option it.C) : JIter α where
  S := it.S
  init := it.init
  next := it.next
  get s := ((it.get s).1, enc (it.get s).2)
  set F s v :=
    match dec v with
    | none => some (s, some .keyError)
    | some c => it.set F s c

/-- The iterator with its states as texts: `json.dumps(it.get_state(), indent=4)` and `it.set_state(json.loads(text))`,
dataset.py:1495, 1513, checkpoint/handler.py:58, 90-94. -/
def JIter.text (j : JIter α) : Iter α where
  S := j.S
  C := List Char
  init := j.init
  next := j.next
  get s := ((j.get s).1, jsonDumps (j.get s).2)
  set F s t :=
    match jsonLoads t with
    | none => some (s, some .valueError)
    | some v => j.set F s v

/-! ### Reading and writing dictionaries -/

/-- A dictionary display `{k: v, ...}`. -/
def jdict : List (String × Json) → JMembers
  | [] => .nil
  | (k, v) :: r => .cons k.toList v (jdict r)

/-- `d[k]`, `none` for a `KeyError`. -/
def JMembers.lookup (k : List Char) : JMembers → Option Json
  | .nil => none
  | .cons k' v ms => if k' = k then some v else ms.lookup k

/-- `state[k]`. -/
def Json.field (v : Json) (k : String) : Option Json :=
  match v with
  | .obj ms => ms.lookup k.toList
  | _ => none

/-- A value used as an `int`. -/
def Json.asInt : Json → Option Int
  | .int n => some n
  | _ => none

/-- A value used as a number that is not negative. -/
def Json.asNat : Json → Option Nat
  | .int (.ofNat n) => some n
  | _ => none

/-- A value used as a `bool`. -/
def Json.asBool : Json → Option Bool
  | .bool b => some b
  | _ => none

/-- A list. -/
def jlist : List Json → JItems
  | [] => .nil
  | v :: r => .cons v (jlist r)

/-- The items of a list. -/
def JItems.items : JItems → List Json
  | .nil => []
  | .cons v r => v :: r.items

/-- A value used as a list. -/
def Json.asList : Json → Option (List Json)
  | .arr xs => some xs.items
  | _ => none

/-! ### The states -/

/-- `{"parent": ..., k: n}`. -/
def parentAnd (k : String) (c : Json × Nat) : Json := .obj (jdict [("parent", c.1), (k, .int c.2)])

/-- Reading `state["parent"]` and `state[k]`. -/
def readParentAnd (k : String) (v : Json) : Option (Json × Nat) := do
  let p ← v.field "parent"
  let n ← (← v.field k).asNat
  some (p, n)

/-- `MapDataset.to_iter_dataset`: `{"next_index": i}`, T/prefetch.py:284-289. -/
def prefetchJson (size threads : Nat) (allowNones : Bool) (thr : Option Threshold) (ds : MapDs α) : JIter (Option α) :=
  (prefetchIter size threads allowNones thr ds).coded (fun (c : Int) => .obj (jdict [("next_index", .int c)]))
    (fun v => do (← v.field "next_index").asInt)

/-- TFRecord files: `{"reader_offset": n}`, sources/tfrecord_dataset.py:91-97. -/
def tfRecordJson (file : List UInt8) : JIter (List UInt8) :=
  (tfRecordIter file).coded (fun (c : Nat) => .obj (jdict [("reader_offset", .int c)]))
    (fun v => do (← v.field "reader_offset").asNat)

/-- Parquet files: `{"row_group": g, "index_within_row_group": i}`, sources/parquet_dataset.py:76-85. -/
def pqJson (groups : List (PqTable V)) (s : PqState V) : JIter (List (String × V)) :=
  (pqIterAt groups s).coded
    (fun (c : Nat × Nat) => .obj (jdict [("row_group", .int c.1), ("index_within_row_group", .int c.2)]))
    (fun v => do
      let g ← (← v.field "row_group").asNat
      let i ← (← v.field "index_within_row_group").asNat
      some (g, i))

/-- `map`: the state of the parent, T/map.py:314-318. -/
def mapJson (f : α → Py (Option β)) (p : JIter (Option α)) : JIter (Option β) :=
  (mapIter f p.iter).coded (fun c => c) some

/-- `filter`: the state of the parent, T/filter.py:183-187. -/
def filterJson (pred : α → Py Bool) (thr : Option Threshold) (p : JIter α) : JIter α :=
  (filterIter pred thr p.iter).coded (fun c => c) some

/-- `batch`: the state of the parent, T/batch.py:314-318. -/
def batchJson (b : Nat) (drop : Bool) (f : List α → Py β) (p : JIter α) : JIter β :=
  (batchIter b drop f p.iter).coded (fun c => c) some

/-- `random_map`, T/map.py:366-374. -/
def randomMapJson (f : α → Nat → Py (Option β)) (procIndex procCount : Nat) (p : JIter (Option α)) : JIter (Option β) :=
  (randomMapIter f procIndex procCount p.iter).coded (parentAnd "index_for_rng") (readParentAnd "index_for_rng")

/-- `map_with_index`, T/map.py:411-419. -/
def mapWithIndexJson (f : Nat → α → Py (Option β)) (p : JIter (Option α)) : JIter (Option β) :=
  (mapWithIndexIter f p.iter).coded (parentAnd "counter") (readParentAnd "counter")

/-- `limit`, T/limit.py:46-54. -/
def limitJson (count : Nat) (p : JIter α) : JIter α :=
  (limitIter count p.iter).coded (parentAnd "count_elements_read") (readParentAnd "count_elements_read")

/-- `rebatch`, T/rebatch.py:93-103. -/
def rebatchJson (b : Nat) (drop : Bool) (p : JIter (List α)) : JIter (List α) :=
  (rebatchIter b drop p.iter).coded (parentAnd "batch_idx") (readParentAnd "batch_idx")

/-- `flat_map`, T/flatmap.py:119-128. -/
def flatMapJson (f : α → Py (List β)) (p : JIter α) : JIter β :=
  (flatMapIter f p.iter).coded (parentAnd "next_index_in_buffer") (readParentAnd "next_index_in_buffer")

/-- `repeat`, T/repeat.py:130-135. -/
def repeatJson (numEpochs : Option Nat) (p : JIter α) : JIter α :=
  (repeatIter numEpochs p.iter).coded (parentAnd "epoch") (readParentAnd "epoch")

/-- `cache`, T/cache.py:92-109. -/
def cacheJson (p : JIter α) : JIter α :=
  (cacheIter p.iter).coded
    (fun (c : Json × Nat × Bool) => .obj (jdict [("parent", c.1), ("position", .int c.2.1), ("cache_filled", .bool c.2.2)]))
    (fun v => do
      let b ← (← v.field "cache_filled").asBool
      let p ← v.field "parent"
      let n ← (← v.field "position").asNat
      some (p, n, b))

/-- `window_shuffle`, T/shuffle.py:237-257. -/
def windowShuffleJson (shuffle : Nat → List α → Py (List α)) (w : Nat) (p : JIter α) : JIter α :=
  (windowShuffleIter shuffle w p.iter).coded
    (fun (c : Json × Nat × Nat) =>
      .obj (jdict [("parent_window_start_state", c.1), ("window_index", .int c.2.1), ("pos_in_window", .int c.2.2)]))
    (fun v => do
      let p ← v.field "parent_window_start_state"
      let i ← (← v.field "window_index").asNat
      let n ← (← v.field "pos_in_window").asNat
      some (p, i, n))

/-- Packing, T/packing.py:105-116. -/
def packJson (pk : Packer E R) (order : Nat → List R → List Nat) (p : JIter E) : JIter R :=
  (packIter pk order p.iter).coded
    (fun (c : Json × Nat × Nat) => .obj (jdict [("parent", c.1), ("next_row", .int c.2.1), ("counter", .int c.2.2)]))
    (fun v => do
      let p ← v.field "parent"
      let r ← (← v.field "next_row").asNat
      let n ← (← v.field "counter").asNat
      some (p, r, n))

/-- The states of several parents, in order. -/
def parentsList {n : Nat} (c : Fin n → Json) : Json := .arr (jlist (List.ofFn c))

/-- `zip(self._parents, states)` for a list of states: parents beyond the list are left alone, which is not modelled: a
list that is too short is refused here (a state of the same pipeline has one entry for every parent). -/
def readParents (n : Nat) (v : Json) : Option (Fin n → Json) := do
  let xs ← v.asList
  if h : n ≤ xs.length then some (fun i => xs[i]) else none

/-- `zip`: `{"parents": [...]}`, T/zip.py:138-139. -/
def zipState {n : Nat} (c : Fin n → Json) : Json := .obj (jdict [("parents", parentsList c)])

/-- `zip`: `set_state`, T/zip.py:141-143. -/
def readZip (n : Nat) (v : Json) : Option (Fin n → Json) := do readParents n (← v.field "parents")

/-- `zip`, T/zip.py:138-143. -/
def zipJson {n : Nat} (strict : Bool) (ps : Fin n → JIter α) : JIter (List α) :=
  (zipIter strict (fun i => (ps i).iter)).coded zipState (readZip n)

/-- `mix` of a sequence: `get_state`, T/mix.py:233-240. -/
def mixStateJson {n : Nat} (c : (Fin n → Json) × Nat × Bool) : Json :=
  .obj (jdict [("parents", parentsList c.1), ("index", .int c.2.1), ("stop", .bool c.2.2)])

/-- `mix` of a sequence: `set_state`, T/mix.py:242-253. -/
def readMix (n : Nat) (v : Json) : Option ((Fin n → Json) × Nat × Bool) := do
  let p ← readParents n (← v.field "parents")
  let i ← (← v.field "index").asNat
  let b ← (← v.field "stop").asBool
  some (p, i, b)

/-- `mix` of a sequence, T/mix.py:233-253. -/
def mixJson {n : Nat} (proportions : List Nat) (ps : Fin n → JIter α) : JIter α :=
  (mixIter proportions (fun i => (ps i).iter)).coded mixStateJson (readMix n)

/-! ### Interleave -/

/-- Datasets whose iterators have JSON values as states. -/
structure JFam (α : Type) where
  S : Type
  init : Nat → S
  next : Nat → Nat → S → Option (S × Res α)
  get : Nat → S → S × Json
  set : Nat → Nat → S → Json → Option (S × Option Err)

/-- As a family of iterators. -/
def JFam.fam (f : JFam α) : IterFam α where
  S := f.S
  C := Json
  init := f.init
  next := f.next
  get := f.get
  set := f.set

/-- The items of a list. -/
def pylist : List PyVal → PyVals
  | [] => .nil
  | v :: r => .cons v (pylist r)

/-- The items of a list. -/
def PyVals.items : PyVals → List PyVal
  | .nil => []
  | .cons v r => v :: r.items

/-- The entries of a dictionary. -/
def pydict : List (PyKey × PyVal) → PyDict
  | [] => .nil
  | (k, v) :: r => .cons k v (pydict r)

/-- `d.get(k)`: keys of different types are different (`"3" != 3`). -/
def PyDict.lookup (k : PyKey) : PyDict → Option PyVal
  | .nil => none
  | .cons k' v ms => if k' = k then some v else ms.lookup k

/-- A key that is a text. -/
def skey (k : String) : PyKey := .str k.toList

/-- `state[k]`. -/
def PyVal.field (v : PyVal) (k : String) : Option PyVal :=
  match v with
  | .dict ms => ms.lookup (skey k)
  | _ => Option.none

/-- A value used as a number that is not negative. -/
def PyVal.asNat : PyVal → Option Nat
  | .int (.ofNat n) => some n
  | _ => Option.none

/-- A value used as a list. -/
def PyVal.asList : PyVal → Option (List PyVal)
  | .list xs => some xs.items
  | _ => Option.none

/-- A value used as a dictionary. -/
def PyVal.asDict : PyVal → Option PyDict
  | .dict ms => some ms
  | _ => Option.none

/-- `get_state` of an interleave of `n` datasets with cycle length `L`, T/interleave.py:197-209: the keys of
`future_states` are the numbers of the datasets. -/
def ilDict (n L : Nat) (c : ILCk Json) : PyVal :=
  .dict (pydict [
    (skey "next_index_in_cycle", .int c.cyc),
    (skey "next_index_in_datasets", .int c.nextDs),
    (skey "iterators_in_use_indices", .list (pylist ((List.range L).map (fun i => .int (c.indices i))))),
    (skey "iterators_in_use_states", .list (pylist ((List.range L).map (fun i =>
      match c.states i with
      | none => .none
      | some v => PyVal.ofJson v)))),
    (skey "exhausted", .list (pylist ((List.range L).map (fun i => .int (if c.exhausted i then 1 else 0))))),
    (skey "future_states", .dict (pydict ((List.range n).filterMap (fun d =>
      (c.future d).map (fun v => (.int d, PyVal.ofJson v))))))])

/-- What `set_state` reads, T/interleave.py:254-298.  (`future_states` may be missing, 298; `i in self._future_states`, 154,
looks for the number `i`.) -/
def ilUndict (v : PyVal) : Option (ILCk Json) := do
  let cyc ← (← v.field "next_index_in_cycle").asNat
  let nextDs ← (← v.field "next_index_in_datasets").asNat
  let indices ← (← (← v.field "iterators_in_use_indices").asList).mapM PyVal.asNat
  let states ← (← v.field "iterators_in_use_states").asList
  let exhausted ← (← (← v.field "exhausted").asList).mapM PyVal.asNat
  let future ← match v.field "future_states" with
    | none => some .nil
    | some w => w.asDict
  some { cyc := cyc, nextDs := nextDs, indices := fun i => indices.getD i i,
         states := fun i => match states[i]? with
           | none => none
           | some .none => none
           | some w => some w.toJson,
         exhausted := fun i => decide (exhausted.getD i 0 ≠ 0),
         future := fun d => (future.lookup (.int d)).map PyVal.toJson }

/-- The interleaving iterator with its states as texts. -/
def interleaveText (f : JFam α) (n cycle : Nat) (keep : Bool) : Iter α where
  S := ILState f.S Json
  C := List Char
  init := ilInit f.S Json
  next := (interleaveIter f.fam n cycle keep).next
  get s := ((ilGet f.fam n (min cycle n) s).1, stateText (ilDict n (min cycle n) (ilGet f.fam n (min cycle n) s).2))
  set F s t :=
    match textState t with
    | none => some (s, some .valueError)
    | some v =>
      match ilUndict v with
      | none => some (s, some .keyError)
      | some c => (interleaveIter f.fam n cycle keep).set F s c

end Grain
