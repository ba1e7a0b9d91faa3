import Verif.Batch.Spec
/-
Model of the batching functions of grain/_src/python/dataset/transformations/batch.py (B) and of the general `map_structure` of
grain/_src/core/tree_lib.py (T).
-/
namespace Grain

/-! ### `map_structure` over any number of trees -/

/-- Iterating over a partner of a sequence in `zip(*trees)`, T:94.  Simplification: a mapping (whose keys would be paired) and
a leaf are errors. -/
def Tree.seqItems : Tree β → Py (TreeList β)
  | .seq _ ts => .ok ts
  | _ => .error .typeError

/-- A partner of a mapping in `epy.zip_dict(*trees)`, T:100-103.  Simplification: anything but a mapping is a `TypeError`. -/
def Tree.dictItems : Tree β → Py (TreeDict β)
  | .dict _ kvs => .ok kvs
  | _ => .error .typeError

/-- One step of `zip`: the first elements and the rests, `none` if one of the sequences has ended. -/
def unconsAll : List (TreeList β) → Option (List (Tree β) × List (TreeList β))
  | [] => some ([], [])
  | .nil :: _ => none
  | .cons t ts :: rows => (unconsAll rows).map (fun q => (t :: q.1, ts :: q.2))

/-- `d[key]`. -/
def TreeDict.getPy (key : String) (d : TreeDict β) : Py (Tree β) :=
  match d.lookup key with
  | none => .error .keyError
  | some u => .ok u

mutual
/-- `map_structure(f, a, *us)`, T:89-112.  `epy.zip_dict` first raises `KeyError` if a partner has a key the first does not
have, then looks the keys of the first up in the partners.  A named tuple cannot be made of fewer values than it has fields. -/
def Tree.mapN (f : α → List (Tree β) → Py γ) : Tree α → List (Tree β) → Py (Tree γ)
  | .leaf a, us => do .ok (.leaf (← f a us))
  | .seq k ts, us => do
    let rows ← us.mapM Tree.seqItems
    let c ← TreeList.mapN f ts rows
    match k with
    | .named _ => if c.length = ts.length then .ok (.seq k c) else .error .typeError
    | _ => .ok (.seq k c)
  | .dict k kvs, us => do
    let ds ← us.mapM Tree.dictItems
    if ds.all (fun d => d.keys.all (fun s => kvs.keys.contains s)) then do .ok (.dict k (← TreeDict.mapN f kvs ds))
    else .error .keyError
/-- The sequences of T:89-112: `zip` ends with the shortest. -/
def TreeList.mapN (f : α → List (Tree β) → Py γ) : TreeList α → List (TreeList β) → Py (TreeList γ)
  | .nil, _ => .ok .nil
  | .cons t ts, rows =>
    match unconsAll rows with
    | none => .ok .nil
    | some q => do .ok (.cons (← Tree.mapN f t q.1) (← TreeList.mapN f ts q.2))
/-- The dictionaries of T:89-112. -/
def TreeDict.mapN (f : α → List (Tree β) → Py γ) : TreeDict α → List (TreeDict β) → Py (TreeDict γ)
  | .nil, _ => .ok .nil
  | .cons key t kvs, ds => do
    let us ← ds.mapM (TreeDict.getPy key)
    .ok (.cons key (← Tree.mapN f t us) (← TreeDict.mapN f kvs ds))
end

/-! ### numpy -/

/-- `np.expand_dims(x, axis=0)`. -/
def expandDims {N : Numpy} (a : Arr N) : Arr N := ⟨1 :: a.shape, a.dtype, a.data⟩

/-- `np.stack(xs)`: arrays of one shape, joined in the type numpy chooses for them. -/
def npStack {N : Numpy} (xs : List (Arr N)) : Py (Arr N) :=
  match xs with
  | [] => .error .valueError
  | x :: _ =>
    if xs.all (fun a => decide (a.shape = x.shape)) then do
      let d ← N.resultType (xs.map (·.dtype))
      .ok ⟨xs.length :: x.shape, d, xs.flatMap (fun a => a.data.map (N.cast a.dtype d))⟩
    else .error .valueError

/-- `np.stack(xs, out=<array of shape len(xs), *xs[0].shape and type d>)`: each array is copied to the given type if the cast
is of the same kind. -/
def npStackOut {N : Numpy} (d : N.D) (xs : List (Arr N)) : Py (Arr N) :=
  match xs with
  | [] => .error .valueError
  | x :: _ =>
    if xs.all (fun a => decide (a.shape = x.shape)) then
      if xs.all (fun a => N.sameKind a.dtype d) then
        .ok ⟨xs.length :: x.shape, d, xs.flatMap (fun a => a.data.map (N.cast a.dtype d))⟩
      else .error .typeError
    else .error .valueError

/-- `SharedMemoryArray(shape, dtype)`, grain/_src/python/ipc/shared_memory_array.py:67-75: `SharedMemory` raises `ValueError` for
a size of zero. -/
def shmAlloc {N : Numpy} (shape : List Nat) (d : N.D) : Py Unit :=
  if numel shape * N.itemsize d = 0 then .error .valueError else .ok ()

/-- `shm_stacking_function`, B:193-211.  Where the result is kept is not modelled. -/
def stackShm {N : Numpy} (xs : List (Arr N)) : Py (Arr N) :=
  match xs with
  | [] => .error .valueError
  | x :: _ =>
    if N.hasObject x.dtype then npStack xs
    else if N.isStr x.dtype then do
      let s ← npStack xs
      let _ ← shmAlloc s.shape s.dtype
      .ok s
    else do
      let _ ← shmAlloc (xs.length :: x.shape) x.dtype
      npStackOut x.dtype xs

/-- `np.concatenate(xs, axis=0)`: arrays with at least one dimension that differ in the first at most. -/
def npConcat {N : Numpy} (xs : List (Arr N)) : Py (Arr N) :=
  match xs with
  | [] => .error .valueError
  | x :: _ =>
    if x.shape ≠ [] ∧ xs.all (fun a => decide (a.shape.length = x.shape.length) && decide (a.shape.tail = x.shape.tail)) then do
      let d ← N.resultType (xs.map (·.dtype))
      .ok ⟨(xs.map (fun a => a.shape.headD 0)).sum :: x.shape.tail, d, xs.flatMap (fun a => a.data.map (N.cast a.dtype d))⟩
    else .error .valueError

/-- `np.asanyarray` of what `map_structure` passes for the other elements: a leaf is an array already (Python numbers count as
arrays without dimensions), any other structure is made an array in a way that is left open. -/
def asArray {N : Numpy} (conv : Tree (Arr N) → Py (Arr N)) : Tree (Arr N) → Py (Arr N)
  | .leaf a => .ok a
  | t => conv t

/-! ### batch.py -/

/-- `make_batch`, B:177-224.  The `ValueError` of numpy is raised again with another text. -/
def makeBatch {N : Numpy} (conv : Tree (Arr N) → Py (Arr N)) (shm : Bool) (values : List (Tree (Arr N))) : Py (Tree (Arr N)) :=
  match values with
  | [] => .error .valueError
  | [v] => .ok (v.map expandDims)
  | v :: vs => v.mapN (fun a us => do
      let xs ← us.mapM (asArray conv)
      if shm then stackShm (a :: xs) else npStack (a :: xs)) vs

/-- The padding of one feature, B:266-270. -/
def padLike {N : Numpy} (n : Nat) (pad : N.P) (x : Arr N) : Py (Arr N) := do
  let v ← N.fill x.dtype pad
  .ok ⟨n :: x.shape.tail, x.dtype, List.replicate (numel (n :: x.shape.tail)) v⟩

/-- `batch_and_pad`, B:227-281. -/
def batchAndPad {N : Numpy} (conv : Tree (Arr N) → Py (Arr N)) (size : Nat) (pad : N.P) (values : List (Tree (Arr N))) :
    Py (Tree (Arr N)) :=
  match values with
  | [] => .error .valueError
  | v :: vs =>
    if size < values.length then .error .valueError
    else if values.length = size then makeBatch conv false values
    else do
      let padding ← (v.map expandDims).mapN (fun a _ => padLike (size - values.length) pad a) ([] : List (Tree (Arr N)))
      (v.map expandDims).mapN (fun a us => do
        let xs ← us.mapM (asArray conv)
        npConcat (a :: xs)) (vs.map (Tree.map expandDims) ++ [padding])

end Grain
