import Verif.Shm.Spec
import Verif.Tree.Model
import Mathlib.Logic.Function.Basic
import Mathlib.Algebra.BigOperators.Group.List.Basic
/-
How elements pass from a worker process to the main process, grain/_src/python/ipc/shared_memory_array.py (S), and the batches
made in shared memory, grain/_src/python/dataset/transformations/batch.py (B) with process_prefetch.py (P).

A shared memory block is a list of bytes under a name; names are numbers and a new block gets the next one.  What is put in a
queue arrives as an equal copy (pickling is not modelled).  Closing a mapping has no effect here, only unlinking has.
-/
namespace Grain

/-- Exceptions: `ValueError` (a block of size 0), `AssertionError`, `FileNotFoundError` (no such block), `OSError` (a block cannot
be made: no space, too many files). -/
inductive ShmErr where
  | value
  | assertion
  | notFound
  | os
  deriving DecidableEq, Repr

/-- The blocks that exist and the number of the next one. -/
structure ShmHeap where
  blocks : Nat → Option (List Nat)
  next : Nat

/-- A leaf of an element as an object.
* `other`: not an `ndarray`;
* `nd`: an ordinary array with its bytes in C order and its flag `c_contiguous`;
* `shm`: a `SharedMemoryArray` in block `name` (`shm` attribute, S:77-83), `pos`: the positions of its bytes in the block, in C
  order.  A view (a slice, a transposed array) has other positions than the array made with the block;
* `detached`: a `SharedMemoryArray` that does not share memory with the array it was derived from (a copy, `astype`, indexing with
  a list): its attribute `shm` is `None` (S:79-82);
* `info`: `SharedMemoryArrayMetadata` (S:32-36). -/
inductive ShmLeaf (O : Type) where
  | other (o : O)
  | nd (shape : List Nat) (d : ShmDType) (bytes : List Nat) (contig : Bool)
  | shm (name : Nat) (pos : List Nat) (shape : List Nat) (d : ShmDType)
  | detached (shape : List Nat) (d : ShmDType) (bytes : List Nat)
  | info (name : Nat) (shape : List Nat) (d : ShmDType)

/-- The value of a leaf.  Metadata are not a value a user sees; an array whose block is too short has none. -/
def ShmLeaf.value (h : ShmHeap) : ShmLeaf O → Option (ShmVal O)
  | .other o => some (.other o)
  | .nd shape d bytes _ => some (.arr shape d bytes)
  | .detached shape d bytes => some (.arr shape d bytes)
  | .info _ _ _ => none
  | .shm name pos shape d =>
    match h.blocks name with
    | none => none
    | some b => (pos.mapM (fun i => b[i]?)).map (.arr shape d)

/-- A computation that uses the blocks and may raise; blocks made before the exception stay. -/
abbrev ShmM (α : Type) := ShmHeap → ShmHeap × Except ShmErr α

/-- `SharedMemory(create=True, size)` filled with `bytes`, S:67-75 and `np.copyto`.  `can n`: block number `n` can be made. -/
def shmMake (can : Nat → Bool) (bytes : List Nat) : ShmM Nat := fun h =>
  if bytes.length = 0 then (h, .error .value)
  else if can h.next then
    ({ blocks := Function.update h.blocks h.next (some bytes), next := h.next + 1 }, .ok h.next)
  else (h, .error .os)

/-- `_copy_leaf_to_shm`, S:190-205. -/
def copyLeaf (can : Nat → Bool) (minSize : Int) : ShmLeaf O → ShmM (ShmLeaf O)
  | .shm name _ shape d => fun h => (h, .ok (.info name shape d))
  | .detached _ _ _ => fun h => (h, .error .assertion)
  | .nd shape d bytes contig => fun h =>
    if d.hasobject || !contig || decide (shape.prod = 0) || decide ((d.nbytes shape : Int) < minSize) then
      (h, .ok (.nd shape d bytes contig))
    else
      match shmMake can bytes h with
      | (h, .ok name) => (h, .ok (.info name shape d))
      | (h, .error e) => (h, .error e)
  | .other o => fun h => (h, .ok (.other o))
  | .info name shape d => fun h => (h, .ok (.info name shape d))

/-- `_open_leaf_from_shm`, S:215-220, with `from_metadata` and `from_shared_memory` (S:93-98, 108-118): the array starts at the
beginning of the block and is contiguous. -/
def openLeaf : ShmLeaf O → ShmM (ShmLeaf O)
  | .info name shape d => fun h =>
    match h.blocks name with
    | none => (h, .error .notFound)
    | some _ => (h, .ok (.shm name (List.range (d.nbytes shape)) shape d))
  | l => fun h => (h, .ok l)

/-- `close_and_unlink_shm`, S:38-42. -/
def shmUnlink (name : Nat) : ShmM Unit := fun h =>
  match h.blocks name with
  | none => (h, .error .notFound)
  | some _ => ({ h with blocks := Function.update h.blocks name none }, .ok ())

/-- `_unlink_shm_if_metadata`, S:228-230. -/
def unlinkLeaf : ShmLeaf O → ShmM Unit
  | .info name _ _ => shmUnlink name
  | _ => fun h => (h, .ok ())

/-- Deletion of an array: `unlink_on_del` has been called (S:164-166, by `_open_leaf_from_shm`) or not.  Only the array that owns
the mapping gets here, S:168-171. -/
def deleteLeaf (unlinkOnDel : Bool) : ShmLeaf O → ShmM Unit
  | .shm name _ _ _ => if unlinkOnDel then shmUnlink name else fun h => (h, .ok ())
  | _ => fun h => (h, .ok ())

mutual
/-- `map_structure(f, tree)`, grain/_src/core/tree_lib.py:89-112, for a function with effects that may raise. -/
def Tree.mapS (f : α → ShmM β) : Tree α → ShmM (Tree β)
  | .leaf a => fun h =>
    match f a h with
    | (h, .ok b) => (h, .ok (.leaf b))
    | (h, .error e) => (h, .error e)
  | .seq k ts => fun h =>
    match TreeList.mapS f ts h with
    | (h, .ok us) => (h, .ok (.seq k us))
    | (h, .error e) => (h, .error e)
  | .dict k kvs => fun h =>
    match TreeDict.mapS f kvs h with
    | (h, .ok us) => (h, .ok (.dict k us))
    | (h, .error e) => (h, .error e)
/-- The sequences of tree_lib.py:89-112. -/
def TreeList.mapS (f : α → ShmM β) : TreeList α → ShmM (TreeList β)
  | .nil => fun h => (h, .ok .nil)
  | .cons t ts => fun h =>
    match Tree.mapS f t h with
    | (h, .error e) => (h, .error e)
    | (h, .ok u) =>
      match TreeList.mapS f ts h with
      | (h, .ok us) => (h, .ok (.cons u us))
      | (h, .error e) => (h, .error e)
/-- The dictionaries of tree_lib.py:89-112. -/
def TreeDict.mapS (f : α → ShmM β) : TreeDict α → ShmM (TreeDict β)
  | .nil => fun h => (h, .ok .nil)
  | .cons key t kvs => fun h =>
    match Tree.mapS f t h with
    | (h, .error e) => (h, .error e)
    | (h, .ok u) =>
      match TreeDict.mapS f kvs h with
      | (h, .ok us) => (h, .ok (.cons key u us))
      | (h, .error e) => (h, .error e)
end

/-- `copy_to_shm`, S:208-212. -/
def copyToShm (can : Nat → Bool) (minSize : Int) (t : Tree (ShmLeaf O)) : ShmM (Tree (ShmLeaf O)) := t.mapS (copyLeaf can minSize)

/-- `open_from_shm`, S:223-225. -/
def openFromShm (t : Tree (ShmLeaf O)) : ShmM (Tree (ShmLeaf O)) := t.mapS openLeaf

/-- `unlink_shm`, S:233-234. -/
def unlinkShm (t : Tree (ShmLeaf O)) : ShmM (Tree Unit) := t.mapS unlinkLeaf

/-- The last reference to an element is dropped. -/
def deleteElement (unlinkOnDel : Bool) (t : Tree (ShmLeaf O)) : ShmM (Tree Unit) := t.mapS (deleteLeaf unlinkOnDel)

/-- An element on its way: `copy_to_shm` in the worker (P:278), the queue, `open_from_shm` in the main process (P:544). -/
def crossProcess (can : Nat → Bool) (minSize : Int) (t : Tree (ShmLeaf O)) : ShmM (Tree (ShmLeaf O)) := fun h =>
  match copyToShm can minSize t h with
  | (h, .ok m) => openFromShm m h
  | (h, .error e) => (h, .error e)

/-! ### Batches -/

/-- One feature of `make_batch` (B:175-211) of `rows.length` elements with the same shape and data type, each a plain array.  `shm`:
`output_to_shared_memory`.  One element: `np.expand_dims` (B:181-186), a view that is contiguous. -/
def batchLeaf (can : Nat → Bool) (shm : Bool) (shape : List Nat) (d : ShmDType) (rows : List (List Nat)) : ShmM (ShmLeaf O) := fun h =>
  if rows.length = 0 then (h, .error .value)
  else if rows.length = 1 || !shm || d.hasobject then (h, .ok (.nd (rows.length :: shape) d rows.flatten true))
  else
    match shmMake can rows.flatten h with
    | (h, .ok name) =>
      (h, .ok (.shm name (List.range (d.nbytes (rows.length :: shape))) (rows.length :: shape) d))
    | (h, .error e) => (h, .error e)

/-- What `multiprocess_prefetch` (P:678-755) does to the dataset it is given, if that is a `BatchIterDataset`: for more than one worker it
switches its output to shared memory (P:712-714, B:552-560), in place.  `shm` is the switch before. -/
def mpPrefetchInput (numWorkers : Nat) (shm : Bool) : Bool := if numWorkers = 0 then shm else if numWorkers = 1 then shm else true

/-- A function of the user, `lambda x: x[k:]`: a view without the first `k` rows; `__array_finalize__` (S:77-83) keeps the block. -/
def rowsFrom (k : Nat) : ShmLeaf O → ShmLeaf O
  | .nd (n :: shape) d bytes contig => .nd ((n - k) :: shape) d (bytes.drop (d.nbytes (k :: shape))) contig
  | .shm name pos (n :: shape) d => .shm name (pos.drop (d.nbytes (k :: shape))) ((n - k) :: shape) d
  | .detached (n :: shape) d bytes => .detached ((n - k) :: shape) d (bytes.drop (d.nbytes (k :: shape)))
  | l => l

/-- The pipeline `ds.batch(b).map(lambda x: x[k:])` in a worker process: one of its elements on its way to the main process.  `shm`:
whether the batch dataset has been switched to shared memory before. -/
def batchRowsCross (can : Nat → Bool) (minSize : Int) (shm : Bool) (k : Nat) (shape : List Nat) (d : ShmDType) (rows : List (List Nat)) :
    ShmM (Tree (ShmLeaf O)) := fun h =>
  match batchLeaf can shm shape d rows h with
  | (h, .ok x) => crossProcess can minSize (.leaf (rowsFrom k x)) h
  | (h, .error e) => (h, .error e)

/-- The batch dataset itself read in the main process: every batch is looked at and dropped (nobody calls `unlink_on_del`). -/
def readBatches (O : Type) (can : Nat → Bool) (shm : Bool) (shape : List Nat) (d : ShmDType) : List (List (List Nat)) → ShmM (List (Option (ShmVal O)))
  | [] => fun h => (h, .ok [])
  | rows :: bs => fun h =>
    match (batchLeaf can shm shape d rows : ShmM (ShmLeaf O)) h with
    | (h, .error e) => (h, .error e)
    | (h, .ok x) =>
      match deleteLeaf false x h with
      | (h', .error e) => (h', .error e)
      | (h', .ok ()) =>
        match readBatches O can shm shape d bs h' with
        | (h'', .ok vs) => (h'', .ok (x.value h :: vs))
        | (h'', .error e) => (h'', .error e)

end Grain
