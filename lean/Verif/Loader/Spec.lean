import Verif.Loader.Model
import Verif.Iter.Spec
/-
Specifications for the samplers and the data loader.
-/
namespace Grain

/-- What a dataset read yields over its whole length: `[ds[0], ds[1], ...]`, `none` if some read raises or is `None`. -/
def readAll (ds : MapDs α) : Option (List α) :=
  (List.range ds.len).mapM (fun (k : Nat) => match ds.getitem (k : Int) with | .ok (some a) => some a | _ => none)

/-- The record keys that a data loader of shard `o` takes from a sampler of size `size`, in order: `_SamplerMapDataset` asks
it for the indices `o.shardIndex`, `o.shardIndex + o.shardCount`, ...  `none` if the sampler raises. -/
def shardKeys (s : Sampler) (o : ShardOptions) (size : Nat) : Option (List Int) :=
  (List.range (samplerDsLen size o)).mapM (fun (k : Nat) =>
    match s.get ((k : Int) * (o.shardCount : Int) + (o.shardIndex : Int)) with
    | .ok m => m.key
    | .error _ => none)

/-- Number of records of shard `o` when `n` records are split evenly. -/
def shardLen (n : Nat) (o : ShardOptions) : Nat := (evenSplit n o).2 - (evenSplit n o).1

/-- Part `e` of a list cut in parts of length `len`. -/
def part (l : List α) (len e : Nat) : List α := (l.drop (e * len)).take len

/-- The value of a call that did not raise. -/
def okVal : Py α → Option α
  | .ok a => some a
  | .error _ => none

/-- What an operation of a data loader makes of the records of one worker; `none` if a user function raises. -/
def DlOp.run : DlOp D → List (Rec D) → Option (List (Rec D))
  | .map f, rs => rs.mapM (fun r => (okVal (f r.data)).map (fun d => ⟨r.md, d⟩))
  | .randomMap f, rs => rs.mapM (fun r => (okVal (f r.data r.md.rng)).map (fun d => ⟨r.md, d⟩))
  | .filter pred, rs =>
    (rs.mapM (fun r => (okVal (pred r.data)).map (fun b => (r, b)))).map (fun l => (l.filter (·.2)).map (·.1))
  | .batch b drop fn, rs =>
    (List.range (batchCount rs.length b drop)).mapM (fun i =>
      match (group rs b i).getLast? with
      | none => none
      | some l => (okVal (fn ((group rs b i).map (·.data)))).map (fun d => ⟨{ l.md with key := none }, d⟩))

/-- All operations in turn. -/
def runOps : List (DlOp D) → List (Rec D) → Option (List (Rec D))
  | [], rs => some rs
  | op :: ops, rs => (op.run rs).bind (runOps ops)

/-- Operations that turn every record into exactly one. -/
def DlOp.oneToOne : DlOp D → Bool
  | .map _ => true
  | .randomMap _ => true
  | .filter _ => false
  | .batch _ _ _ => false

/-- Batch sizes are positive (`Batch` rejects others). -/
def DlOp.valid : DlOp D → Prop
  | .batch b _ _ => 0 < b
  | _ => True

/-- Reading `n` streams in turn, one element from each, skipping those that are over. -/
def inTurn (n : Nat) (streams : Nat → List α) (rounds : Nat) : List α :=
  (List.range rounds).flatMap (fun k => (List.range n).flatMap (fun w => (streams w)[k]?.toList))

end Grain
