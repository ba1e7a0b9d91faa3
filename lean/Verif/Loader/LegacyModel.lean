import Verif.Loader.Model
/-
The rest of `DataLoader`: legacy operations, `grain/_src/python/operations.py`, and `FlatMap`, with which the data loader uses
the checkpoints of its dataset unchanged.
-/
namespace Grain

/-! ### Generators -/

/-- What the body of a generator's `for` loop does with one element. -/
inductive GenStep (A β : Type) where
  | yield (b : β)
  | more (acc : A)
  | fail (e : Err)

/-- A generator function of the form `acc = start; for x in iterator: ...; <tail>`.  Each `yield` in the loop happens with
`acc = start`; the tail yields at most once. -/
structure RecGen (α β : Type) where
  A : Type
  start : A
  step : A → α → GenStep A β
  tail : A → Option (Py β)

/-- Resuming a generator whose loop variable is `acc`.  A generator that ran to its end or raised is finished (the flag);
after the `yield` of the tail nothing is left to do, so the flag is set there as well. -/
def genLoop (p : Iter α) (g : RecGen α β) (F : Nat) : Nat → g.A → p.S → Option ((p.S × Bool) × Res β)
  | 0, _, _ => none
  | n + 1, acc, s => do
    let (s, r) ← p.next F s
    match r with
    | .stop =>
      match g.tail acc with
      | none => some ((s, true), .stop)
      | some (.ok b) => some ((s, true), .item b)
      | some (.error e) => some ((s, true), .fail e)
    | .fail e => some ((s, true), .fail e)
    | .item a =>
      match g.step acc a with
      | .yield b => some ((s, false), .item b)
      | .more acc => genLoop p g F n acc s
      | .fail e => some ((s, true), .fail e)

/-- `_OperationDatasetIterator`, python/data_loader.py:191-210: `__next__` resumes the generator (a finished one raises
`StopIteration`), `get_state` and `set_state` are those of the parent. -/
def genIter (g : RecGen α β) (p : Iter α) : Iter β where
  S := p.S × Bool
  C := p.C
  init := (p.init, false)
  next F s := if s.2 then some (s, .stop) else genLoop p g F F g.start s.1
  get s := (((p.get s.1).1, s.2), (p.get s.1).2)
  set F s c := do
    let (ps, e) ← p.set F s.1 c
    some ((ps, s.2), e)

/-! ### Legacy operations -/

/-- `RecordMetadata.remove_record_key`, python/record.py:36-41. -/
def Rec.dropKey (r : Rec D) : Rec D := ⟨{ r.md with key := none }, r.data⟩

/-- The legacy operation with the same parameters as `op`: `MapOperation`, python/operations.py:41-61, `RandomMapOperation`,
64-88, `FilterOperation`, 91-114, and `BatchOperation`, 117-166.  In the first three an exception of the user function
becomes a `ValueError`. -/
def DlOp.gen : DlOp D → RecGen (Option (Rec D)) (Option (Rec D))
  | .map f =>
    { A := Unit
      start := ()
      step := fun _ r =>
        match r with
        | none => .fail .valueError
        | some r =>
          match f r.data with
          | .ok d => .yield (some (Rec.dropKey ⟨r.md, d⟩))
          | .error _ => .fail .valueError
      tail := fun _ => none }
  | .randomMap f =>
    { A := Unit
      start := ()
      step := fun _ r =>
        match r with
        | none => .fail .valueError
        | some r =>
          match f r.data r.md.rng with
          | .ok d => .yield (some (Rec.dropKey ⟨r.md, d⟩))
          | .error _ => .fail .valueError
      tail := fun _ => none }
  | .filter pred =>
    { A := Unit
      start := ()
      step := fun _ r =>
        match r with
        | none => .fail .valueError
        | some r =>
          match pred r.data with
          | .ok true => .yield (some r.dropKey)
          | .ok false => .more ()
          | .error _ => .fail .valueError
      tail := fun _ => none }
  | .batch b drop fn =>
    { A := List (Rec D)
      start := []
      step := fun acc r =>
        match r with
        | none => .fail .attributeError
        | some r =>
          if (acc ++ [r]).length = b then
            match fn ((acc ++ [r]).map (·.data)) with
            | .ok d => .yield (some (Rec.dropKey ⟨r.md, d⟩))
            | .error e => .fail e
          else .more (acc ++ [r])
      tail := fun acc =>
        match acc.getLast? with
        | none => none
        | some l =>
          if drop then none
          else some (do
            let d ← fn (acc.map (·.data))
            .ok (some (Rec.dropKey ⟨l.md, d⟩))) }

/-- An operation of a data loader that keeps the checkpoints of its parent. -/
inductive LdOp (D : Type) where
  | transform (op : DlOp D)
  | legacy (op : DlOp D)

/-- `_apply_transform_to_dataset`, python/data_loader.py:669-740, with the last branch (738-740). -/
def LdOp.apply (op : LdOp D) (p : OpFam C (Option (Rec D))) : OpFam C (Option (Rec D)) :=
  match op with
  | .transform op => op.apply p
  | .legacy op =>
    { S := p.S × Bool
      init := fun w => (genIter op.gen (p.fam.iter w)).init
      next := fun w => (genIter op.gen (p.fam.iter w)).next
      get := fun w => (genIter op.gen (p.fam.iter w)).get
      set := fun w => (genIter op.gen (p.fam.iter w)).set }

/-- The operations, then `ds.map(lambda r: r.data)`, python/data_loader.py:456-468. -/
def dataFam (q : OpFam C (Option (Rec (Option V)))) : OpFam C (Option V) where
  S := q.S
  init := fun w => (mapIter (fun (r : Rec (Option V)) => .ok r.data) (q.fam.iter w)).init
  next := fun w => (mapIter (fun (r : Rec (Option V)) => .ok r.data) (q.fam.iter w)).next
  get := fun w => (mapIter (fun (r : Rec (Option V)) => .ok r.data) (q.fam.iter w)).get
  set := fun w => (mapIter (fun (r : Rec (Option V)) => .ok r.data) (q.fam.iter w)).set

/-- The iterator of a data loader without `FlatMap`, python/data_loader.py:456-488. -/
def legacyLoader (c : LoaderConf) (src : MapDs V) (s : Sampler) (size : Nat) (ops : List (LdOp (Option V)))
    (bufferSize threads : Nat) : Iter (Option V) :=
  loaderIter c (fun n => dataFam (ops.foldl (fun p op => op.apply p) (readFam bufferSize threads (samplerDs src s c.shard size) n)))

/-! ### FlatMap -/

/-- `_FlatMapAdapter.flat_map`, python/data_loader.py:648-666: the new records have no key and no random generator. -/
def flatMapRecords (f : D → Py (List D)) (maxFanOut : Int) : Option (Rec D) → Py (List (Option (Rec D)))
  | none => .error .attributeError
  | some r => do
    let ds ← f r.data
    .ok (ds.mapIdx (fun j d => some ⟨⟨r.md.index * maxFanOut + (j : Int), none, none⟩, d⟩))

/-- All operations of a data loader.  (A user-defined `Operation` is not expressible.) -/
inductive NOp (D : Type) where
  | keep (op : LdOp D)
  | flatMap (f : D → Py (List D)) (maxFanOut : Int)

/-- The family seen as one with a named type of checkpoints. -/
def IterFam.op (f : IterFam α) : OpFam f.C α where
  S := f.S
  init := f.init
  next := f.next
  get := f.get
  set := f.set

/-- `_apply_transform_to_dataset`, python/data_loader.py:669-740; `FlatMap` at 693-694. -/
def NOp.apply (op : NOp D) (p : IterFam (Option (Rec D))) : IterFam (Option (Rec D)) :=
  match op with
  | .keep op => (op.apply p.op).fam
  | .flatMap f m =>
    { S := FlatMapState p.S p.C (Option (Rec D))
      C := p.C × Nat
      init := fun w => (flatMapIter (flatMapRecords f m) (p.iter w)).init
      next := fun w => (flatMapIter (flatMapRecords f m) (p.iter w)).next
      get := fun w => (flatMapIter (flatMapRecords f m) (p.iter w)).get
      set := fun w => (flatMapIter (flatMapRecords f m) (p.iter w)).set }

/-- The iterators of the workers of a data loader with any operations. -/
def nativeFam (shard : ShardOptions) (src : MapDs V) (s : Sampler) (size : Nat) (ops : List (NOp (Option V)))
    (bufferSize threads n : Nat) : IterFam (Option V) :=
  (dataFam (ops.foldl (fun p op => op.apply p) (readFam bufferSize threads (samplerDs src s shard size) n).fam).op).fam

/-- `DataLoader` when one of the operations is a `FlatMap`, python/data_loader.py:437-439, 456-488 and 516-580: the states are
those of the dataset's iterator, nothing is validated.  Without worker processes. -/
def nativeLoader0 (shard : ShardOptions) (src : MapDs V) (s : Sampler) (size : Nat) (ops : List (NOp (Option V)))
    (bufferSize threads : Nat) : Iter (Option V) :=
  (nativeFam shard src s size ops bufferSize threads 1).iter 0

/-- The same with `workers > 0` worker processes. -/
def nativeLoaderN (shard : ShardOptions) (workers : Nat) (src : MapDs V) (s : Sampler) (size : Nat) (ops : List (NOp (Option V)))
    (bufferSize threads : Nat) : Iter (Option V) :=
  interleaveIter (nativeFam shard src s size ops bufferSize threads workers) workers workers false

/-- Either of them. -/
def nativeLoader (shard : ShardOptions) (workers : Nat) (src : MapDs V) (s : Sampler) (size : Nat) (ops : List (NOp (Option V)))
    (bufferSize threads : Nat) : Iter (Option V) :=
  if workers = 0 then nativeLoader0 shard src s size ops bufferSize threads
  else nativeLoaderN shard workers src s size ops bufferSize threads

end Grain
