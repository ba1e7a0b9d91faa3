import Verif.Py
import Mathlib.Data.Char
/-
The text format of saved iterator states: `json.dumps(state, indent=4)` and `json.loads(text)`, as used in
grain/_src/python/dataset/dataset.py:1495, 1513, python/data_loader.py:561-576 and python/checkpoint/handler.py:59, 90-94.
This is Python's standard library (`json/encoder.py`, `json/scanner.py`, `json/decoder.py`), modelled so that what a state
becomes on its way through a file is part of the proofs.

Simplifications: no floating point numbers; no characters that are lone surrogates; `loads` keeps repeated keys of an
object (a `dict` keeps the last), which `dumps` never writes.
-/
namespace Grain

mutual
/-- A JSON value. -/
inductive Json where
  | null
  | bool (b : Bool)
  | int (n : Int)
  | str (s : List Char)
  | arr (xs : JItems)
  | obj (ms : JMembers)
/-- The items of an array. -/
inductive JItems where
  | nil
  | cons (x : Json) (xs : JItems)
/-- The members of an object. -/
inductive JMembers where
  | nil
  | cons (k : List Char) (x : Json) (ms : JMembers)
end

/-! ### Writing -/

/-- `str(n)`. -/
def jsonNat (n : Nat) : List Char := Nat.toDigits 10 n

/-- `int.__repr__`. -/
def jsonInt (n : Int) : List Char := if n < 0 then '-' :: jsonNat n.natAbs else jsonNat n.natAbs

/-- One hexadecimal digit. -/
def hexDigit (n : Nat) : Char := if n < 10 then Char.ofNat (48 + n) else Char.ofNat (87 + n)

/-- `'\\u{0:04x}'.format(n)`. -/
def hexEscape (n : Nat) : List Char :=
  ['\\', 'u', hexDigit (n / 4096 % 16), hexDigit (n / 256 % 16), hexDigit (n / 16 % 16), hexDigit (n % 16)]

/-- The UTF-16 code units of a character (`py_encode_basestring_ascii`: `s1`, `s2`). -/
def charUnits (c : Char) : List Nat :=
  if c.toNat < 65536 then [c.toNat]
  else [0xd800 + (c.toNat - 0x10000) / 1024, 0xdc00 + (c.toNat - 0x10000) % 1024]

/-- How one code unit is written (`ESCAPE_DCT`, `ESCAPE_ASCII`). -/
def escapeUnit (n : Nat) : List Char :=
  if n = 34 then ['\\', '"']
  else if n = 92 then ['\\', '\\']
  else if n = 10 then ['\\', 'n']
  else if n = 13 then ['\\', 'r']
  else if n = 9 then ['\\', 't']
  else if n = 12 then ['\\', 'f']
  else if n = 8 then ['\\', 'b']
  else if 32 ≤ n ∧ n ≤ 126 then [Char.ofNat n]
  else hexEscape n

/-- `py_encode_basestring_ascii`. -/
def jsonStr (s : List Char) : List Char := '"' :: ((s.flatMap charUnits).flatMap escapeUnit ++ ['"'])

/-- `newline_indent`: a new line and `i` spaces. -/
def newline (i : Nat) : List Char := '\n' :: List.replicate i ' '

mutual
/-- `json.dumps(value, indent=4)` at indentation `i` (`_iterencode`). -/
def Json.dump (i : Nat) : Json → List Char
  | .null => ['n', 'u', 'l', 'l']
  | .bool true => ['t', 'r', 'u', 'e']
  | .bool false => ['f', 'a', 'l', 's', 'e']
  | .int n => jsonInt n
  | .str s => jsonStr s
  | .arr .nil => ['[', ']']
  | .arr (.cons x xs) => '[' :: (newline (i + 4) ++ x.dump (i + 4) ++ xs.dumpRest (i + 4) ++ newline i ++ [']'])
  | .obj .nil => ['{', '}']
  | .obj (.cons k x ms) =>
    '{' :: (newline (i + 4) ++ jsonStr k ++ [':', ' '] ++ x.dump (i + 4) ++ ms.dumpRest (i + 4) ++ newline i ++ ['}'])
/-- Further items of an array (`_iterencode_list`). -/
def JItems.dumpRest (i : Nat) : JItems → List Char
  | .nil => []
  | .cons x xs => ',' :: (newline i ++ x.dump i ++ xs.dumpRest i)
/-- Further members of an object (`_iterencode_dict`). -/
def JMembers.dumpRest (i : Nat) : JMembers → List Char
  | .nil => []
  | .cons k x ms => ',' :: (newline i ++ jsonStr k ++ [':', ' '] ++ x.dump i ++ ms.dumpRest i)
end

/-- `json.dumps(value, indent=4)`. -/
def jsonDumps (v : Json) : List Char := v.dump 0

/-! ### Reading -/

/-- `WHITESPACE`, decoder.py. -/
def isJsonSpace (c : Char) : Bool := c = ' ' || c = '\t' || c = '\n' || c = '\r'

/-- `WHITESPACE.match(s, end).end()`. -/
def skipSpace (t : List Char) : List Char := t.dropWhile isJsonSpace

/-- The value of a hexadecimal digit. -/
def hexValue (c : Char) : Option Nat :=
  if 48 ≤ c.toNat ∧ c.toNat ≤ 57 then some (c.toNat - 48)
  else if 97 ≤ c.toNat ∧ c.toNat ≤ 102 then some (c.toNat - 87)
  else if 65 ≤ c.toNat ∧ c.toNat ≤ 70 then some (c.toNat - 55)
  else none

/-- `_decode_uXXXX`. -/
def hexValue4 (a b c d : Char) : Option Nat :=
  match hexValue a, hexValue b, hexValue c, hexValue d with
  | some a, some b, some c, some d => some (a * 4096 + b * 256 + c * 16 + d)
  | _, _, _, _ => none

/-- `BACKSLASH`, decoder.py. -/
def unescape (c : Char) : Option Nat :=
  if c = '"' then some 34
  else if c = '\\' then some 92
  else if c = '/' then some 47
  else if c = 'b' then some 8
  else if c = 'f' then some 12
  else if c = 'n' then some 10
  else if c = 'r' then some 13
  else if c = 't' then some 9
  else none

/-- `py_scanstring` after the opening quote, up to the joining of surrogates; strict: no control characters. -/
def readUnits : List Char → Option (List Nat × List Char)
  | [] => none
  | c :: r =>
    if c = '"' then some ([], r)
    else if c = '\\' then
      match r with
      | 'u' :: h1 :: h2 :: h3 :: h4 :: r' =>
        match hexValue4 h1 h2 h3 h4 with
        | none => none
        | some n => (readUnits r').map (fun q => (n :: q.1, q.2))
      | e :: r' =>
        match unescape e with
        | none => none
        | some n => (readUnits r').map (fun q => (n :: q.1, q.2))
      | [] => none
    else if c.toNat < 32 then none
    else (readUnits r).map (fun q => (c.toNat :: q.1, q.2))
termination_by t => t.length

/-- Code units to characters: a high surrogate and the low surrogate after it are one character. -/
def joinUnits : List Nat → Option (List Char)
  | [] => some []
  | n :: ns =>
    if 0xd800 ≤ n ∧ n < 0xdc00 then
      match ns with
      | m :: ms =>
        if 0xdc00 ≤ m ∧ m < 0xe000 then
          (joinUnits ms).map (Char.ofNat (0x10000 + (n - 0xd800) * 1024 + (m - 0xdc00)) :: ·)
        else none
      | [] => none
    else if 0xdc00 ≤ n ∧ n < 0xe000 then none
    else (joinUnits ns).map (Char.ofNat n :: ·)
termination_by t => t.length

/-- `py_scanstring` after the opening quote. -/
def readStr (t : List Char) : Option (List Char × List Char) :=
  match readUnits t with
  | none => none
  | some (us, r) => (joinUnits us).map (fun s => (s, r))

/-- The digits of a number: `0` or digits that do not begin with `0` (`NUMBER_RE`). -/
def readNat (t : List Char) : Option (Nat × List Char) :=
  match t with
  | [] => none
  | c :: r =>
    if c = '0' then some (0, r)
    else if c.isDigit then some (Nat.ofDigitChars 10 (c :: r.takeWhile Char.isDigit) 0, r.dropWhile Char.isDigit)
    else none

/-- An optional sign and digits. -/
def readSigned (t : List Char) : Option (Int × List Char) :=
  match t with
  | '-' :: r => (readNat r).map (fun q => (-(q.1 : Int), q.2))
  | t => (readNat t).map (fun q => ((q.1 : Int), q.2))

/-- The number branch of `_scan_once`; numbers with a fraction or exponent are not modelled and refused here. -/
def readInt (t : List Char) : Option (Int × List Char) :=
  match readSigned t with
  | none => none
  | some (n, r) => if r.head? = some '.' ∨ r.head? = some 'e' ∨ r.head? = some 'E' then none else some (n, r)

/-- A fixed word. -/
def readWord (w : List Char) (t : List Char) : Option (List Char) :=
  if w.isPrefixOf t then some (t.drop w.length) else none

mutual
/-- `_scan_once`, scanner.py; the first argument bounds the depth of calls. -/
def readVal : Nat → List Char → Option (Json × List Char)
  | 0, _ => none
  | F + 1, t =>
    match t with
    | [] => none
    | c :: r =>
      if c = '"' then (readStr r).map (fun q => (.str q.1, q.2))
      else if c = '{' then
        match skipSpace r with
        | [] => none
        | d :: r1 =>
          if d = '}' then some (.obj .nil, r1)
          else if d = '"' then (readMembers F r1).map (fun q => (.obj q.1, q.2))
          else none
      else if c = '[' then
        match skipSpace r with
        | [] => none
        | d :: r1 =>
          if d = ']' then some (.arr .nil, r1)
          else (readItems F (d :: r1)).map (fun q => (.arr q.1, q.2))
      else if c = 'n' then (readWord ['u', 'l', 'l'] r).map (fun r => (.null, r))
      else if c = 't' then (readWord ['r', 'u', 'e'] r).map (fun r => (.bool true, r))
      else if c = 'f' then (readWord ['a', 'l', 's', 'e'] r).map (fun r => (.bool false, r))
      else (readInt (c :: r)).map (fun q => (.int q.1, q.2))
/-- `JSONArray` after the bracket, decoder.py. -/
def readItems : Nat → List Char → Option (JItems × List Char)
  | 0, _ => none
  | F + 1, t =>
    match readVal F t with
    | none => none
    | some (x, r) =>
      match skipSpace r with
      | [] => none
      | c :: r1 =>
        if c = ']' then some (.cons x .nil, r1)
        else if c = ',' then (readItems F (skipSpace r1)).map (fun q => (.cons x q.1, q.2))
        else none
/-- `JSONObject` after the opening quote of a key, decoder.py. -/
def readMembers : Nat → List Char → Option (JMembers × List Char)
  | 0, _ => none
  | F + 1, t =>
    match readStr t with
    | none => none
    | some (k, r) =>
      match skipSpace r with
      | [] => none
      | c :: r1 =>
        if c = ':' then
          match readVal F (skipSpace r1) with
          | none => none
          | some (x, r2) =>
            match skipSpace r2 with
            | [] => none
            | d :: r3 =>
              if d = '}' then some (.cons k x .nil, r3)
              else if d = ',' then
                match skipSpace r3 with
                | [] => none
                | e :: r4 => if e = '"' then (readMembers F r4).map (fun q => (.cons k x q.1, q.2)) else none
              else none
        else none
end

/-- `json.loads(text)` (`JSONDecoder.decode`): one value with spaces around it and nothing after it; `none` is
`JSONDecodeError`, a `ValueError`. -/
def jsonLoads (t : List Char) : Option Json :=
  match readVal (2 * t.length + 2) (skipSpace t) with
  | none => none
  | some (v, r) => if skipSpace r = [] then some v else none

/-! ### Python values -/

/-- The key of a `dict`. -/
inductive PyKey where
  | str (s : List Char)
  | int (n : Int)
  deriving DecidableEq

mutual
/-- The values iterator states are made of. -/
inductive PyVal where
  | none
  | bool (b : Bool)
  | int (n : Int)
  | str (s : List Char)
  | list (xs : PyVals)
  | tuple (xs : PyVals)
  | dict (ms : PyDict)
/-- The items of a list or tuple. -/
inductive PyVals where
  | nil
  | cons (x : PyVal) (xs : PyVals)
/-- The entries of a `dict` in their order. -/
inductive PyDict where
  | nil
  | cons (k : PyKey) (x : PyVal) (ms : PyDict)
end

/-- `_iterencode_dict`: keys that are numbers are written as texts. -/
def PyKey.text : PyKey → List Char
  | .str s => s
  | .int n => jsonInt n

mutual
/-- The JSON value written for a Python value. -/
def PyVal.toJson : PyVal → Json
  | .none => .null
  | .bool b => .bool b
  | .int n => .int n
  | .str s => .str s
  | .list xs => .arr xs.toJson
  | .tuple xs => .arr xs.toJson
  | .dict ms => .obj ms.toJson
/-- Items. -/
def PyVals.toJson : PyVals → JItems
  | .nil => .nil
  | .cons x xs => .cons x.toJson xs.toJson
/-- Entries. -/
def PyDict.toJson : PyDict → JMembers
  | .nil => .nil
  | .cons k x ms => .cons k.text x.toJson ms.toJson
end

mutual
/-- The Python value made of a JSON value. -/
def PyVal.ofJson : Json → PyVal
  | .null => .none
  | .bool b => .bool b
  | .int n => .int n
  | .str s => .str s
  | .arr xs => .list (PyVals.ofJson xs)
  | .obj ms => .dict (PyDict.ofJson ms)
/-- Items. -/
def PyVals.ofJson : JItems → PyVals
  | .nil => .nil
  | .cons x xs => .cons (PyVal.ofJson x) (PyVals.ofJson xs)
/-- Entries. -/
def PyDict.ofJson : JMembers → PyDict
  | .nil => .nil
  | .cons k x ms => .cons (.str k) (PyVal.ofJson x) (PyDict.ofJson ms)
end

/-- The text of a saved state. -/
def stateText (v : PyVal) : List Char := jsonDumps v.toJson

/-- The state read from a text. -/
def textState (t : List Char) : Option PyVal := (jsonLoads t).map PyVal.ofJson

end Grain
