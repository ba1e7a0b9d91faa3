import Mathlib.Data.List.Basic
import Mathlib.Data.UInt
/-
What a user puts into, and gets out of, a `grain.sources.SharedMemoryDataSource` (C94).
-/
namespace Grain

/-- A Python value given as an element.  `float` has its 64 bits.  `other`: a value of any other type, also of a subclass of one
of these.  Simplification: strings without surrogates (encoding one raises `UnicodeEncodeError`). -/
inductive SmVal where
  | int (n : Int)
  | float (bits : UInt64)
  | bool (b : Bool)
  | str (s : List Char)
  | bytes (b : List UInt8)
  | none
  | other
  deriving DecidableEq, Repr

/-- What is raised. -/
inductive SmErr where
  | indexError
  | keyError
  | valueError
  | assertion
  | structError
  | unicodeError
  | attributeError
  | fileExists
  | fileNotFound
  | osError
  deriving DecidableEq, Repr

/-- The number of bytes of a string in UTF-8. -/
def utf8Size (s : List Char) : Nat := (s.map Char.utf8Size).sum

/-- An element survives being stored: bytes and strings must not end in a zero, and a string must not need more bytes than are
reserved for it, namely the next multiple of 8 above its number of characters. -/
def SmVal.Intact : SmVal → Prop
  | .bytes b => b.getLast? ≠ some 0
  | .str s => s.getLast? ≠ some (Char.ofNat 0) ∧ utf8Size s ≤ 8 * (s.length / 8 + 1)
  | _ => True

/-- An element that can be stored at all: 64-bit integers (from -2^63 to 2^63-1), floats, booleans, `None`, and bytes and strings of less than 9999992
bytes or characters. -/
def SmVal.Storable : SmVal → Prop
  | .int n => -9223372036854775808 ≤ n ∧ n < 9223372036854775808
  | .str s => s.length < 9999992
  | .bytes b => b.length < 9999992
  | .other => False
  | _ => True

/-- The bytes reserved for an element. -/
def SmVal.cell : SmVal → Nat
  | .str s => 8 * (s.length / 8 + 1)
  | .bytes b => 8 * (b.length / 8 + 1)
  | _ => 8

/-- Python's `xs[i]` for an index in range. -/
def pyGet (xs : List α) (i : Int) : Option α :=
  if 0 ≤ i then xs[i.toNat]? else if 0 ≤ i + xs.length then xs[(i + xs.length).toNat]? else Option.none

end Grain
