import Verif.Py
/-
What TFRecord and Parquet files are, for a user.
-/
namespace Grain

/-! ### TFRecord -/

/-- `n` as a little-endian number of `k` bytes. -/
def leBytes : Nat → Nat → List UInt8
  | 0, _ => []
  | k + 1, n => UInt8.ofNat n :: leBytes k (n / 256)

/-- A record as a writer stores it: its bytes and the two checksums (4 bytes each). -/
structure TfRecord where
  data : List UInt8
  lengthCrc : List UInt8
  dataCrc : List UInt8
  deriving DecidableEq

/-- Checksums have 4 bytes and the record is not larger than memory can be. -/
structure TfRecord.Valid (r : TfRecord) : Prop where
  length : r.data.length + 4 ≤ maxsize
  lengthCrc : r.lengthCrc.length = 4
  dataCrc : r.dataCrc.length = 4

/-- The record in the file: length (8 bytes), checksum of the length (4 bytes), data, checksum of the data (4 bytes). -/
def TfRecord.bytes (r : TfRecord) : List UInt8 := leBytes 8 r.data.length ++ r.lengthCrc ++ r.data ++ r.dataCrc

/-- A TFRecord file. -/
def tfFile (rs : List TfRecord) : List UInt8 := rs.flatMap TfRecord.bytes

/-! ### Parquet -/

/-- A row group: named columns, all with `rows` values. -/
structure PqTable (V : Type) where
  rows : Nat
  columns : List (String × List V)

structure PqTable.Valid (t : PqTable V) : Prop where
  columns : ∀ c ∈ t.columns, c.2.length = t.rows
  names : (t.columns.map (·.1)).Nodup

/-- Row `i`: each column's name with its value in this row. -/
def PqTable.row (t : PqTable V) (i : Nat) : List (String × V) :=
  t.columns.filterMap (fun c => c.2[i]?.map (fun v => (c.1, v)))

/-- All rows of a file, row group after row group. -/
def pqRows (groups : List (PqTable V)) : List (List (String × V)) :=
  groups.flatMap (fun t => (List.range t.rows).map t.row)

end Grain
