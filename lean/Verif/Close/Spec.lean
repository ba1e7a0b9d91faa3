import Verif.Close.Model
/-
What `close` promises (docstring at grain/_src/python/dataset/dataset.py:1534-1547): it may be called several times, it closes
everything below, and afterwards `next` raises `ValueError`.
-/
namespace Grain

/-- The calls a user makes on one iterator object. -/
inductive CloseOp where
  | next
  | save
  | restore (k : Nat)
  | close
  deriving DecidableEq

/-- The calls one after the other: the iterator afterwards, the saved states and the outcomes of the `next` calls.  `restore k`
with the `k`-th saved state; a `set_state` that raises leaves the iterator as it is then.  `none`: a call did not return
within the fuel. -/
def Closable.run (c : Closable α) (F : Nat) : c.it.S → List c.it.C → List CloseOp → Option (c.it.S × List c.it.C × List (Res α))
  | s, saved, [] => some (s, saved, [])
  | s, saved, .next :: ops => do
    let (s, r) ← c.it.next F s
    let (t, saved, rs) ← c.run F s saved ops
    some (t, saved, r :: rs)
  | s, saved, .save :: ops => c.run F (c.it.get s).1 (saved ++ [(c.it.get s).2]) ops
  | s, saved, .restore k :: ops =>
    match saved[k]? with
    | none => c.run F s saved ops
    | some ck => do
      let (s, _) ← c.it.set F s ck
      c.run F s saved ops
  | s, saved, .close :: ops => c.run F (c.close s) saved ops

/-- Whatever was done with the iterator before, and whatever is tried with it after `close`, nothing below it is open. -/
def Closable.Releases (c : Closable α) : Prop :=
  ∀ F before after s saved rs, c.run F c.it.init [] (before ++ .close :: after) = some (s, saved, rs) →
    ∀ closed ∈ c.sources s, closed = true

/-- Whatever was done with the iterator before, and whatever is tried with it after `close`, every `next` after `close` raises
`ValueError`; and it does return. -/
def Closable.RaisesWhenClosed (c : Closable α) : Prop :=
  (∀ F before after s saved rs, c.run F c.it.init [] (before ++ .close :: after) = some (s, saved, rs) →
    rs.drop (before.count .next) = List.replicate (after.count .next) (.fail .valueError)) ∧
  ∀ F before after s saved rs, c.run F c.it.init [] (before ++ .close :: after) = some (s, saved, rs) →
    ∃ s', c.it.next (F + 1) s = some (s', .fail .valueError)

/-- What a run shows: which sources are closed at the end, and the outcomes of the `next` calls. -/
def Closable.shows (c : Closable α) (F : Nat) (ops : List CloseOp) : Option (List Bool × List (Res α)) :=
  (c.run F c.it.init [] ops).map (fun x => (c.sources x.1, x.2.2))

/-- The interleaved dataset `d` as an iterator with a `close`. -/
def CloseFam.closable (f : CloseFam α) (d : Nat) : Closable α where
  it := f.iter d
  close := f.close d
  sources := f.sources d

/-- Pipelines over map datasets of which everything is released by `close`: every transformation except `interleave`. -/
inductive ReleasingPipe : {α : Type} → Closable α → Prop
  | mapDataset {α : Type} (size threads : Nat) (allow : Bool) (thr : Option Threshold) (ds : MapDs α) :
      ReleasingPipe (.mapDataset size threads allow thr ds)
  | map {α β : Type} {c : Closable (Option α)} (f : α → Py (Option β)) : ReleasingPipe c → ReleasingPipe (.map f c)
  | randomMap {α β : Type} {c : Closable (Option α)} (f : α → Nat → Py (Option β)) (i n : Nat) :
      ReleasingPipe c → ReleasingPipe (.randomMap f i n c)
  | mapWithIndex {α β : Type} {c : Closable (Option α)} (f : Nat → α → Py (Option β)) :
      ReleasingPipe c → ReleasingPipe (.mapWithIndex f c)
  | limit {α : Type} {c : Closable α} (n : Nat) : ReleasingPipe c → ReleasingPipe (.limit n c)
  | filter {α : Type} {c : Closable α} (pred : α → Py Bool) (thr : Option Threshold) :
      ReleasingPipe c → ReleasingPipe (.filter pred thr c)
  | batch {α β : Type} {c : Closable α} (b : Nat) (drop : Bool) (f : List α → Py β) :
      ReleasingPipe c → ReleasingPipe (.batch b drop f c)
  | rebatch {α : Type} {c : Closable (List α)} (b : Nat) (drop : Bool) : ReleasingPipe c → ReleasingPipe (.rebatch b drop c)
  | flatMap {α β : Type} {c : Closable α} (f : α → Py (List β)) : ReleasingPipe c → ReleasingPipe (.flatMap f c)
  | repeat {α : Type} {c : Closable α} (numEpochs : Option Nat) : ReleasingPipe c → ReleasingPipe (.repeat numEpochs c)
  | cache {α : Type} {c : Closable α} : ReleasingPipe c → ReleasingPipe (.cache c)
  | windowShuffle {α : Type} {c : Closable α} (shuffle : Nat → List α → Py (List α)) (w : Nat) :
      ReleasingPipe c → ReleasingPipe (.windowShuffle shuffle w c)
  | pack {E R : Type} {c : Closable E} (pk : Packer E R) (order : Nat → List R → List Nat) :
      ReleasingPipe c → ReleasingPipe (.pack pk order c)
  | concatThenSplit {τ : Type} {c : Closable (List (CtsVal τ))} (cfg : CtsCfg τ) :
      ReleasingPipe c → ReleasingPipe (.concatThenSplit cfg c)
  | threadPrefetch {α : Type} {c : Closable α} (size : Nat) : ReleasingPipe c → ReleasingPipe (.threadPrefetch size c)
  | zip {α : Type} {n : Nat} {cs : Fin n → Closable α} (strict : Bool) :
      (∀ i, ReleasingPipe (cs i)) → ReleasingPipe (.zip strict cs)
  | mix {α : Type} {n : Nat} {cs : Fin n → Closable α} (proportions : List Nat) :
      (∀ i, ReleasingPipe (cs i)) → ReleasingPipe (.mix proportions cs)

/-- Pipelines that raise after `close`: a thread prefetch with a buffer over anything, an interleave of anything, a map dataset,
and the transformations that read their parent on every `next`. -/
inductive RaisingPipe : {α : Type} → Closable α → Prop
  | mapDataset {α : Type} (size threads : Nat) (allow : Bool) (thr : Option Threshold) (ds : MapDs α) :
      RaisingPipe (.mapDataset size threads allow thr ds)
  | interleave {α : Type} (f : CloseFam α) (n cycle : Nat) (keep : Bool) : RaisingPipe (.interleave f n cycle keep)
  | threadPrefetch {α : Type} (c : Closable α) (size : Nat) : 0 < size → RaisingPipe (.threadPrefetch size c)
  | noPrefetch {α : Type} {c : Closable α} : RaisingPipe c → RaisingPipe (.threadPrefetch 0 c)
  | map {α β : Type} {c : Closable (Option α)} (f : α → Py (Option β)) : RaisingPipe c → RaisingPipe (.map f c)
  | randomMap {α β : Type} {c : Closable (Option α)} (f : α → Nat → Py (Option β)) (i n : Nat) :
      RaisingPipe c → RaisingPipe (.randomMap f i n c)
  | mapWithIndex {α β : Type} {c : Closable (Option α)} (f : Nat → α → Py (Option β)) :
      RaisingPipe c → RaisingPipe (.mapWithIndex f c)
  | filter {α : Type} {c : Closable α} (pred : α → Py Bool) (thr : Option Threshold) :
      RaisingPipe c → RaisingPipe (.filter pred thr c)
  | batch {α β : Type} {c : Closable α} (b : Nat) (drop : Bool) (f : List α → Py β) : 0 < b →
      RaisingPipe c → RaisingPipe (.batch b drop f c)
  | zip {α : Type} {n : Nat} {cs : Fin n → Closable α} (strict : Bool) : 0 < n →
      (∀ i, RaisingPipe (cs i)) → RaisingPipe (.zip strict cs)

end Grain
