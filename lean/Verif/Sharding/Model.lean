import Verif.Py
/-
Model of `grain/_src/core/sharding.py`.
-/
namespace Grain

/-- `ShardOptions`, core/sharding.py:20-35.  Values of the dataclass after validation, hence `Nat`. -/
structure ShardOptions where
  shardIndex : Nat
  shardCount : Nat
  dropRemainder : Bool
  deriving DecidableEq, Repr

/-- `ShardOptions.__post_init__`, core/sharding.py:37-47: both range checks, in order. -/
def ShardOptions.make (shardIndex shardCount : Int) (dropRemainder : Bool) : Py ShardOptions :=
  if shardCount ≤ 0 then .error .valueError
  else if shardIndex < 0 ∨ shardIndex ≥ shardCount then .error .valueError
  else .ok ⟨shardIndex.toNat, shardCount.toNat, dropRemainder⟩

/-- `NoSharding`, core/sharding.py:50-54. -/
def noSharding : ShardOptions := ⟨0, 1, false⟩

/-- `even_split`, core/sharding.py:69-103.  The warning logged at 94-99 is not modelled.
`Nat` division by `shardCount = 0` cannot happen: `ShardOptions.make` rejects it. -/
def evenSplit (numExamples : Nat) (o : ShardOptions) : Nat × Nat :=
  let examplesPerShard := numExamples / o.shardCount
  let shardStart := examplesPerShard * o.shardIndex
  let shardEnd := examplesPerShard * (o.shardIndex + 1)
  let numUnused := numExamples % o.shardCount
  if numUnused > 0 then
    if o.dropRemainder then (shardStart, shardEnd)
    else (shardStart + min o.shardIndex numUnused, shardEnd + min (o.shardIndex + 1) numUnused)
  else (shardStart, shardEnd)

end Grain
