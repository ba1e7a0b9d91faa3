import Verif.Iter.Basic
import Verif.Interleave.Model
import Verif.Sources.Spec
/-
The file sources: grain/_src/python/dataset/sources/tfrecord_dataset.py and parquet_dataset.py.
-/
namespace Grain

/-! ### TFRecord -/

/-- The number in little-endian bytes, as `struct.unpack("<Q", …)` reads it, tfrecord_dataset.py:52. -/
def leNat : List UInt8 → Nat
  | [] => 0
  | b :: bs => b.toNat + 256 * leNat bs

/-- `file.read(n)` at an offset: the bytes and the new offset (Python's file object).  A count above `sys.maxsize` raises
`OverflowError`.  Simplification: there is always enough memory. -/
def fileRead (file : List UInt8) (off n : Nat) : Py (List UInt8 × Nat) :=
  if maxsize < n then .error .overflowError
  else
    let buf := (file.drop off).take n
    .ok (buf, off + buf.length)

/-- `_TFRecordReader.__next__`, tfrecord_dataset.py:38-66: the new offset and the outcome. -/
def tfNext (file : List UInt8) (off : Nat) : Nat × Res (List UInt8) :=
  match fileRead file off (8 + 4) with
  | .error e => (off, .fail e)
  | .ok (buf, off) =>
    if buf.isEmpty then (off, .stop)
    else if buf.length ≠ 8 + 4 then (off, .fail .valueError)
    else
      let length := leNat (buf.take 8)
      match fileRead file off (length + 4) with
      | .error e => (off, .fail e)
      | .ok (buf, off) =>
        if buf.length ≠ length + 4 then (off, .fail .valueError)
        else (off, .item (buf.take length))

/-- `_TFRecordDatasetIterator`, tfrecord_dataset.py:79-97: the state is the reader's offset. -/
def tfRecordIter (file : List UInt8) : Iter (List UInt8) where
  S := Nat
  C := Nat
  init := 0
  next _ s := some (tfNext file s)
  get s := (s, s)
  set _ _ c := some (c, none)

/-! ### Parquet -/

/-- `d[k] = v` for a dictionary given as its items in order. -/
def dictSet (d : List (String × β)) (k : String) (v : β) : List (String × β) :=
  if d.any (fun p => p.1 = k) then d.map (fun p => if p.1 = k then (k, v) else p) else d ++ [(k, v)]

/-- The dictionary made by `_read_row_group_to_np_table`, parquet_dataset.py:52-57. -/
def pqDict (t : PqTable V) : List (String × List V) := t.columns.foldl (fun d c => dictSet d c.1 c.2) []

/-- `v[i]` for every column of the dictionary, parquet_dataset.py:68-70. -/
def pqItem (d : List (String × List V)) (i : Nat) : Py (List (String × V)) :=
  d.mapM (fun p => match p.2[i]? with
    | some v => .ok (p.1, v)
    | none => .error .indexError)

/-- The fields of `_ParquetDatasetIterator`, parquet_dataset.py:36-50 (`_row_group`, `_index_within_row_group`, `_np_table`,
`_row_group_len`). -/
structure PqState (V : Type) where
  group : Nat
  index : Nat
  table : List (String × List V)
  len : Nat

/-- `_read_row_group_to_np_table`, parquet_dataset.py:52-57, for `_row_group = g`; pyarrow raises when there is no such row
group (its exception is a `ValueError`). -/
def pqRead (groups : List (PqTable V)) (g i : Nat) : Py (PqState V) :=
  match groups[g]? with
  | none => .error .valueError
  | some t => .ok { group := g, index := i, table := pqDict t, len := t.rows }

/-- `_ParquetDatasetIterator.__next__`, parquet_dataset.py:59-72; it calls itself after moving to the next row group.
Simplification: no recursion limit (about a thousand empty row groups in a row would exceed Python's). -/
def pqNext (groups : List (PqTable V)) : Nat → PqState V → Option (PqState V × Res (List (String × V)))
  | 0, _ => none
  | F + 1, s =>
    if s.len ≤ s.index then
      if s.group + 1 < groups.length then
        match pqRead groups (s.group + 1) 0 with
        | .error e => some ({ s with group := s.group + 1, index := 0 }, .fail e)
        | .ok s => pqNext groups F s
      else some (s, .stop)
    else
      match pqItem s.table s.index with
      | .error e => some (s, .fail e)
      | .ok item => some ({ s with index := s.index + 1 }, .item item)

/-- `_ParquetDatasetIterator` opened at `s`, parquet_dataset.py:34-83. -/
def pqIterAt (groups : List (PqTable V)) (s : PqState V) : Iter (List (String × V)) where
  S := PqState V
  C := Nat × Nat
  init := s
  next := pqNext groups
  get s := (s, (s.group, s.index))
  set _ s c :=
    match pqRead groups c.1 c.2 with
    | .error e => some ({ s with group := c.1, index := c.2 }, some e)
    | .ok s => some (s, none)

/-- `ParquetIterDataset.__iter__` for one path, parquet_dataset.py:144-145, 36-50: opening reads the first row group. -/
def pqOpen (groups : List (PqTable V)) : Py (Iter (List (String × V))) :=
  (pqRead groups 0 0).map (pqIterAt groups)

/-- The iterators of the files of a `ParquetIterDataset`, parquet_dataset.py:147. -/
def pqFam (files : List (List (PqTable V))) : IterFam (List (String × V)) where
  S := PqState V
  C := Nat × Nat
  init d := (pqRead (files.getD d []) 0 0).toOption.getD { group := 0, index := 0, table := [], len := 0 }
  next d := (pqIterAt (files.getD d []) { group := 0, index := 0, table := [], len := 0 }).next
  get d := (pqIterAt (files.getD d []) { group := 0, index := 0, table := [], len := 0 }).get
  set d := (pqIterAt (files.getD d []) { group := 0, index := 0, table := [], len := 0 }).set

/-- `ParquetIterDataset.__iter__` for several paths, parquet_dataset.py:147-151: interleaved, `_CYCLE_LENGTH = 16` at a time. -/
def pqInterleave (files : List (List (PqTable V))) : Iter (List (String × V)) := interleaveIter (pqFam files) files.length 16 false

end Grain
