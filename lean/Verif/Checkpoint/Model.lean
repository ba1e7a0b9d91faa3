import Verif.Py
import Verif.ListUtil
/-
Checkpoint files: grain/_src/python/checkpoint/handler.py (CH) and elastic_checkpoint.py (EC).

Texts (of the files) are values of a type `T`; what `json.dumps` and `json.loads` do to a state is not part of this model.
-/
namespace Grain

/-- `str(n)` of an `int` that is not negative. -/
def dec (n : Nat) : List Char := Nat.toDigits 10 n

/-- The text before the index in CH:61, 87. -/
def sProcess : List Char := ['p', 'r', 'o', 'c', 'e', 's', 's', '_']
/-- The text between index and count in CH:61, 87. -/
def sOf : List Char := ['-', 'o', 'f', '-']
/-- The end of the names in CH:61, 87 and EC:14, 39. -/
def sJson : List Char := ['.', 'j', 's', 'o', 'n']
/-- The text before the index in EC:14, 39. -/
def sShard : List Char := ['s', 'h', 'a', 'r', 'd', '_', 's', 't', 'a', 't', 'e', '_']

/-- `f"process_{process_index}-of-{process_count}.json"`, CH:61, 87. -/
def procFile (i n : Nat) : List Char := sProcess ++ dec i ++ sOf ++ dec n ++ sJson

/-- `f"shard_state_{idx}.json"`, EC:14, 39. -/
def shardFile (k : Nat) : List Char := sShard ++ dec k ++ sJson

/-- A directory: names and texts. -/
abbrev Dir (T : Type) := List (List Char × T)

/-- `filename.write_text(text)`. -/
def Dir.write (d : Dir T) (name : List Char) (text : T) : Dir T := (name, text) :: d.filter (fun f => f.1 ≠ name)

/-- `filename.exists()` and `filename.read_text()`. -/
def Dir.read (d : Dir T) (name : List Char) : Option T := (d.find? (fun f => f.1 = name)).map (·.2)

/-- `str.split(sep)`: the parts between the occurrences of a non-empty separator, from left to right; `acc` is the part begun,
reversed.  `skip` characters belong to a separator that was found. -/
def splitGo (sep : List Char) : Nat → List Char → List Char → List (List Char)
  | _, acc, [] => [acc.reverse]
  | skip + 1, acc, _ :: l => splitGo sep skip acc l
  | 0, acc, c :: l =>
    if sep.isPrefixOf (c :: l) then acc.reverse :: splitGo sep (sep.length - 1) [] l
    else splitGo sep 0 (c :: acc) l

def splitOn (sep l : List Char) : List (List Char) := splitGo sep 0 [] l

/-- `glob("process_*-of-*.json")`: does the name match?  The text between the fixed ends contains `-of-`. -/
def globProcess (name : List Char) : Bool :=
  sProcess.isPrefixOf name && sJson.isSuffixOf name && decide (sProcess.length + sJson.length ≤ name.length) &&
  decide (1 < (splitOn sOf ((name.drop sProcess.length).take (name.length - sProcess.length - sJson.length))).length)

/-- `int(text)`; signs, spaces and underscores, which Python accepts too, are not modelled. -/
def parseInt (l : List Char) : Py Nat :=
  if l ≠ [] ∧ l.all Char.isDigit then .ok (Nat.ofDigitChars 10 l 0) else .error .valueError

/-- `int(file_path.stem.split("-of-")[1])` for a file that ends in `.json`, EC:24. -/
def countOfName (name : List Char) : Py Nat :=
  match (splitOn sOf (name.take (name.length - sJson.length)))[1]? with
  | some l => parseInt l
  | none => .error .indexError

/-- `get_checkpoint_process_count`, EC:20-25. -/
def checkpointCount (d : Dir T) : Py Nat :=
  (d.filter (fun f => globProcess f.1)).foldlM (fun m f => (countOfName f.1).map (max m)) 0

/-- The loop of `restore_elastic_iterator`, EC:57-64; `F` bounds the number of turns. -/
def readShards (d : Dir T) (shardCount : Nat) : Nat → Nat → Option (List (Nat × T))
  | 0, _ => none
  | F + 1, k =>
    match d.read (shardFile k) with
    | none => some []
    | some t => (readShards d shardCount F (k + shardCount)).map ((k, t) :: ·)

/-- `CheckpointHandler.save`, CH:36-62, in process `i` of `n`.  `shards` are the shard states of an elastic iterator over an
`IterDataset` (`save_elastic_iterator`, EC:28-40), and empty for all other iterators. -/
def saveCheckpoint (d : Dir T) (i n : Nat) (shards : List (Nat × T)) (text : T) : Dir T :=
  (shards.foldl (fun d s => d.write (shardFile s.1) s.2) d).write (procFile i n) text

/-- What is restored: the state of the iterator, or shard states. -/
inductive Restored (T : Type) where
  | state (text : T)
  | shards (l : List (Nat × T))

/-- `CheckpointHandler.restore`, CH:64-97, in process `i` of `n`.  `elastic` holds the shard index and count of an elastic iterator
over an `IterDataset`, and is `none` for all other iterators (also elastic ones over a `MapDataset`). -/
def restoreCheckpoint (F : Nat) (d : Dir T) (i n : Nat) (elastic : Option (Nat × Nat)) : Option (Py (Restored T)) :=
  let plain : Py (Restored T) :=
    match d.read (procFile i n) with
    | none => .error .valueError
    | some t => .ok (.state t)
  match elastic with
  | none => some plain
  | some (shardIndex, shardCount) =>
    match checkpointCount d with
    | .error e => some (.error e)
    | .ok m =>
      if n ≠ m then (readShards d shardCount F shardIndex).map (fun l => .ok (.shards l))
      else some plain

end Grain
