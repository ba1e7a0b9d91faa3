import Verif.Loader.Model
/-
Model of `grain.load`, `grain/_src/python/load.py`.
-/
namespace Grain

/-- The transformations with the final `Batch`, python/load.py:60-64 (`fn` is the default batch function). -/
def loadOps (ops : List (DlOp D)) (batch : Option Nat) (drop : Bool) (fn : List D → Py D) : List (DlOp D) :=
  match batch with
  | none => ops
  | some b => ops ++ [.batch b drop fn]

/-- The shard of the data loader, which `load` does not pass on: `DataLoader.__init__` takes it from the sampler,
python/data_loader.py:419-428; `none` is `NoSharding()`, core/sharding.py:46-50. -/
def loadShard (shard : Option ShardOptions) : ShardOptions := shard.getD ⟨0, 1, false⟩

/-- `load`, python/load.py:24-73, and iteration over its result.  A negative `worker_count` is not expressible, `None` is left out;
`BatchIterDataset` checks its size (T/batch.py:516-517).  `bufferSize` and `threads` are the read options. -/
def load (keysOf : Nat → List (BitVec 32)) (src : MapDs V) (numEpochs : Option Int) (shuffle : Bool) (seed : Option Int)
    (shard : Option ShardOptions) (ops : List (DlOp (Option V))) (batch : Option Nat) (drop : Bool) (fn : List (Option V) → Py (Option V))
    (workers bufferSize threads : Nat) (samplerRepr sourceRepr : String) : Py (Iter (Option V)) :=
  match indexSampler keysOf src.len shard shuffle numEpochs seed with
  | .error e => .error e
  | .ok s =>
    if batch = some 0 then .error .valueError
    else
      match samplerSize s with
      | .error e => .error e
      | .ok size =>
        .ok (dataLoader ⟨loadShard shard, workers, samplerRepr, sourceRepr⟩ src s size (loadOps ops batch drop fn) bufferSize threads)

end Grain
