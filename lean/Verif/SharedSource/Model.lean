import Verif.SharedSource.Spec
import Verif.Sources.Model
/-
`SharedMemoryDataSource`, grain/_src/python/data_sources.py:137-182 (D), and the methods it inherits from
`multiprocessing.shared_memory.ShareableList` of CPython 3.11 (L: the line numbers of Lib/multiprocessing/shared_memory.py).

A shared memory block is a list of bytes under a name.  Numbers are little-endian (x86, ARM).
-/
namespace Grain

/-- `s.encode("utf8")`. -/
def utf8Enc (s : List Char) : List UInt8 := s.flatMap String.utf8EncodeChar

/-- `b.decode("utf8")`: `UnicodeDecodeError` for anything that is not UTF-8. -/
def utf8Dec (b : List UInt8) : Except SmErr (List Char) :=
  match b.toByteArray.utf8Decode? with
  | some s => .ok s.toList
  | none => .error .unicodeError

/-- `value.rstrip(b'\x00')`. -/
def rstrip0 (b : List UInt8) : List UInt8 := (b.reverse.dropWhile (· == 0)).reverse

/-- A format of module `struct` as it is used here: a 64-bit integer, a double, seven padding bytes and a boolean, a number of
bytes, and six padding bytes, a boolean and a padding byte. -/
inductive SmFmt where
  | q
  | d
  | bool
  | s (n : Nat)
  | none
  deriving DecidableEq, Repr

/-- How `struct` reads a format, cf. `_types_mapping`, L:268-275.  Simplification: all formats that are not in the mapping are
taken as errors; they are only met when a position below `-len` makes the list take data for a format, and `struct` accepts
some of them. -/
def parseFmt (t : List Char) : Except SmErr SmFmt :=
  if t = ['q'] then .ok .q
  else if t = ['d'] then .ok .d
  else if t = ['x', 'x', 'x', 'x', 'x', 'x', 'x', '?'] then .ok .bool
  else if t = ['x', 'x', 'x', 'x', 'x', 'x', '?', 'x'] then .ok .none
  else if t.getLast? = some 's' ∧ t.dropLast ≠ [] ∧ t.dropLast.all Char.isDigit then .ok (.s (Nat.ofDigitChars 10 t.dropLast 0))
  else .error .structError

/-- The format of an element, L:301-308 with L:268-275: bytes are counted with `len(item)`, and so are strings. -/
def smFormat : SmVal → Except SmErr (List Char)
  | .int _ => .ok ['q']
  | .float _ => .ok ['d']
  | .bool _ => .ok ['x', 'x', 'x', 'x', 'x', 'x', 'x', '?']
  | .str s => .ok (Nat.toDigits 10 (8 * (s.length / 8 + 1)) ++ ['s'])
  | .bytes b => .ok (Nat.toDigits 10 (8 * (b.length / 8 + 1)) ++ ['s'])
  | .none => .ok ['x', 'x', 'x', 'x', 'x', 'x', '?', 'x']
  | .other => .error .keyError

/-- The bytes an element takes in the data area, L:316-317. -/
def smWidth (fmt : List Char) : Nat :=
  if fmt.getLast? ≠ some 's' then 8 else Nat.ofDigitChars 10 fmt.dropLast 0

/-- `_allocated_offsets`, L:311-318: the sums of the widths. -/
def smOffsets (off : Nat) : List (List Char) → List Nat
  | [] => [off]
  | fmt :: fmts => off :: smOffsets (off + smWidth fmt) fmts

/-- `_extract_recreation_code`, L:285-296. -/
def smCode : SmVal → UInt8
  | .str _ => 1
  | .bytes _ => 2
  | .none => 3
  | _ => 0

/-- `struct` packing a number as `q`. -/
def packQ (n : Int) : Except SmErr (List UInt8) :=
  if -9223372036854775808 ≤ n ∧ n < 9223372036854775808 then .ok (leBytes 8 (n % 18446744073709551616).toNat) else .error .structError

/-- `struct` packing one value; padding bytes are zero, bytes are cut or filled up with zeros. -/
def packItem : SmFmt → SmVal → Except SmErr (List UInt8)
  | .q, .int n => packQ n
  | .d, .float bits => .ok (leBytes 8 bits.toNat)
  | .bool, .bool b => .ok (List.replicate 7 0 ++ [if b then 1 else 0])
  | .s n, .bytes b => .ok (b.take n ++ List.replicate (n - b.length) 0)
  | .none, .none => .ok (List.replicate 8 0)
  | _, _ => .error .structError

/-- `v.encode(_enc) if isinstance(v, str) else v`, L:346. -/
def smEncoded : SmVal → SmVal
  | .str s => .bytes (utf8Enc s)
  | v => v

/-- One element of the data area.  Simplification: the joined format is read item by item (every format in `_types_mapping` ends
in a character that is not a digit, and padding and alignment do not arise between items whose sizes are multiples of 8). -/
def packCell (fmt : List Char) (v : SmVal) : Except SmErr (List UInt8) := do packItem (← parseFmt fmt) (smEncoded v)

/-- `struct.pack_into(…, buf, off, …)`. -/
def packInto (buf : List UInt8) (off : Nat) (bs : List UInt8) : Except SmErr (List UInt8) :=
  if off + bs.length ≤ buf.length then .ok (buf.take off ++ bs ++ buf.drop (off + bs.length)) else .error .structError

/-- The bytes at an offset, as `struct.unpack_from` takes them. -/
def bufAt (buf : List UInt8) (off : Int) (n : Nat) : Except SmErr (List UInt8) :=
  if 0 ≤ off ∧ off + n ≤ buf.length then .ok ((buf.drop off.toNat).take n) else .error .structError

/-- A `SharedMemoryDataSource` object: `shm.name`, `shm.buf`, `_list_len` and `_allocated_offsets`. -/
structure SmList where
  name : String
  buf : List UInt8
  len : Int
  offsets : List Nat

/-- `_offset_data_start`, L:506-509. -/
def SmList.dataStart (l : SmList) : Int := (l.len + 2) * 8
/-- `_offset_packing_formats`, L:512-513. -/
def SmList.formatsStart (l : SmList) : Int := l.dataStart + (l.offsets.getLastD 0 : Nat)
/-- `_offset_back_transform_codes`, L:516-517. -/
def SmList.codesStart (l : SmList) : Int := l.formatsStart + l.len * 8

/-- The blocks that exist, by name. -/
abbrev SmHeap := String → Option (List UInt8)

/-- What is written into the block of a new list, L:333-360: the number of elements and the offsets, the elements, their formats
and their codes. -/
def SmList.write (l : SmList) (fmts : List (List Char)) (xs : List SmVal) : Except SmErr (List UInt8) := do
  let head ← (l.len :: l.offsets.map (fun (o : Nat) => (o : Int))).mapM packQ
  let buf ← packInto l.buf 0 head.flatten
  let cells ← (fmts.zip xs).mapM (fun p => packCell p.1 p.2)
  let buf ← packInto buf l.dataStart.toNat cells.flatten
  let texts := fmts.map (fun f => (utf8Enc f).take 8 ++ List.replicate (8 - (utf8Enc f).length) 0)
  let buf ← packInto buf l.formatsStart.toNat texts.flatten
  packInto buf l.codesStart.toNat (xs.map smCode)

/-- `requested_size`, L:322-327. -/
def smSize (fmts : List (List Char)) : Nat :=
  8 + 8 * (fmts.length + 1) + (fmts.map smWidth).sum + 8 * fmts.length + fmts.length

/-- The object of a new list before its block is filled, L:309-329. -/
def smBlank (slack : Nat) (name : String) (fmts : List (List Char)) : SmList :=
  { name := name, buf := List.replicate (smSize fmts + slack) 0, len := fmts.length, offsets := smOffsets 0 fmts }

/-- The block is filled, L:333-360; it stays when something cannot be packed. -/
def smFill (heap : SmHeap) (l : SmList) (fmts : List (List Char)) (xs : List SmVal) : SmHeap × Except SmErr SmList :=
  match l.write fmts xs with
  | .error e => (Function.update heap l.name (some l.buf), .error e)
  | .ok buf => (Function.update heap l.name (some buf), .ok { l with buf := buf })

/-- A new list once the formats are known, L:309-360.  `avail`: the bytes that can still be allocated; `slack`: the bytes by which
the block is larger than was asked for (some systems round up to pages).  What exists afterwards, and the object or an
exception. -/
def smNew (avail slack : Nat) (heap : SmHeap) (name : String) (xs : List SmVal) (fmts : List (List Char)) :
    SmHeap × Except SmErr SmList :=
  if fmts.any (fun f => decide (8 < f.length)) then (heap, .error .assertion)
  else if avail < smSize fmts then (heap, .error .osError)
  else if (heap name).isSome then (heap, .error .fileExists)
  else smFill heap (smBlank slack name fmts) fmts xs

/-- A new list, L:299-360. -/
def smCreate (avail slack : Nat) (heap : SmHeap) (name : String) (xs : List SmVal) : SmHeap × Except SmErr SmList :=
  match xs.mapM smFormat with
  | .error e => (heap, .error e)
  | .ok fmts => smNew avail slack heap name xs fmts

/-- `struct.unpack_from("q", buf, off)`. -/
def unpackQ (b : List UInt8) : Int := if leNat b < 9223372036854775808 then leNat b else (leNat b : Int) - 18446744073709551616

/-- `__len__`, L:477-478. -/
def SmList.size (l : SmList) : Except SmErr Int := do pure (unpackQ (← bufAt l.buf 0 8))

/-- The list in a block, L:361-369. -/
def smOpen (name : String) (buf : List UInt8) : Except SmErr SmList := do
  let head ← bufAt buf 0 8
  let raw ← bufAt buf 8 (8 * (unpackQ head + 1).toNat)
  pure { name := name, buf := buf, len := unpackQ head
         offsets := (List.range (unpackQ head + 1).toNat).map (fun i => (unpackQ ((raw.drop (8 * i)).take 8)).toNat) }

/-- Attaching to a list by its name, L:330-331 and 361-369; also what unpickling does (`__reduce__`, L:474-475), in a worker
process for instance. -/
def smAttach (heap : SmHeap) (name : String) : Except SmErr SmList :=
  match heap name with
  | none => .error .fileNotFound
  | some buf => smOpen name buf

/-- Python's `xs[i]`, also for negative indices. -/
def pyIndex (xs : List α) (i : Int) : Except SmErr α :=
  if 0 ≤ i then
    match xs[i.toNat]? with
    | some x => .ok x
    | none => .error .indexError
  else if 0 ≤ i + xs.length then
    match xs[(i + xs.length).toNat]? with
    | some x => .ok x
    | none => .error .indexError
  else .error .indexError

/-- A negative position counts from the end, L:373 and L:425. -/
def SmList.wrap (l : SmList) (position : Int) : Int := if 0 ≤ position then position else position + l.len

/-- `_get_packing_format`, L:371-385. -/
def SmList.format (l : SmList) (position : Int) : Except SmErr (List Char) :=
  if l.len ≤ l.wrap position then .error .indexError
  else do
    let v ← bufAt l.buf (l.formatsStart + l.wrap position * 8) 8
    utf8Dec (rstrip0 v)

/-- `struct.unpack_from(fmt, buf, off)`: the value read, bytes for a format `…s`. -/
def unpackItem (buf : List UInt8) (off : Int) : SmFmt → Except SmErr SmVal
  | .q => do pure (.int (unpackQ (← bufAt buf off 8)))
  | .d => do pure (.float (UInt64.ofNat (leNat (← bufAt buf off 8))))
  | .bool => do pure (.bool ((← bufAt buf off 8).getD 7 0 != 0))
  | .s n => do pure (.bytes (← bufAt buf off n))
  | .none => do pure (.bool ((← bufAt buf off 8).getD 6 0 != 0))

/-- `_back_transforms_mapping[code](value)`, L:277-282. -/
def backTransform (code : UInt8) (v : SmVal) : Except SmErr SmVal :=
  if code = 0 then .ok v
  else if code = 1 then
    match v with
    | .bytes b => do pure (.str (← utf8Dec (rstrip0 b)))
    | _ => .error .attributeError
  else if code = 2 then
    match v with
    | .bytes b => .ok (.bytes (rstrip0 b))
    | _ => .error .attributeError
  else if code = 3 then .ok .none
  else .error .keyError

/-- `_get_back_transform`, L:387-399: the code read.  A negative position is not corrected here. -/
def SmList.code (l : SmList) (position : Int) : Except SmErr UInt8 :=
  if l.len ≤ position then .error .indexError
  else do
    let b ← bufAt l.buf (l.codesStart + position) 1
    pure (b.getD 0 0)

/-- `__getitem__` after a negative position has been corrected, L:426-439. -/
def SmList.readAt (l : SmList) (position : Int) : Except SmErr SmVal := do
  let off ← pyIndex l.offsets position
  let fmt ← l.format position
  let fmt ← parseFmt fmt
  let v ← unpackItem l.buf (l.dataStart + off) fmt
  let code ← l.code position
  backTransform code v

/-- `__getitem__`, L:424-439. -/
def SmList.getitem (l : SmList) (position : Int) : Except SmErr SmVal := l.readAt (l.wrap position)

/-- `SharedMemoryDataSource.__init__`, data_sources.py:147-173: new with `elements`, otherwise attached by `name`.  `fresh`: the
name that is made up when none is given. -/
def sharedSource (avail slack : Nat) (fresh : String) (heap : SmHeap) (elements : Option (List SmVal)) (name : Option String) :
    SmHeap × Except SmErr SmList :=
  match elements, name with
  | some xs, some name => smCreate avail slack heap name xs
  | some xs, none => smCreate avail slack heap fresh xs
  | none, some name => (heap, smAttach heap name)
  | none, none => (heap, .error .valueError)

end Grain
