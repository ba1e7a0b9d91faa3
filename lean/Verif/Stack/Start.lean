import Verif.Stack.Props
import Verif.Stack.Loader
/-
`start_prefetch()` of trees of layers, called by the user between two other calls.  `CheckpointHandler.restore` calls it after
each restore (python/checkpoint/handler.py:96).

Simplification: `start_prefetch` is one step (it calls no user function and waits for nothing; the threads and processes that it
starts run on their own afterwards).  A `PrefetchDatasetIterator` is a source here, and its `start_prefetch`
(transformations/prefetch.py:376-378) leaves the model's state as it is.
-/
namespace Grain

/-- `DatasetIterator.start_prefetch` (python/dataset/dataset.py:1519-1532) of a transformation with one parent. -/
def transKick (T : Trans α β) {c : ConcIter α} (kick : c.S → c.S) (s : TrState T c) : TrState T c :=
  { s with cs := kick s.cs }

/-- The same of a transformation that keeps states of its parent. -/
def anchorKick (T : Anchor α β) {c : ConcIter α} (kick : c.S → c.S) (s : AnState T c) : AnState T c :=
  { s with cs := kick s.cs }

/-- `ThreadPrefetchDatasetIterator.start_prefetch` (transformations/prefetch.py:599-624): nothing if there is a thread; it does
not go on to the parent. -/
def prefetchKick {c : ConcIter α} (s : PrefState c) : PrefState c :=
  match s.thr with
  | some _ => s
  | none => { s with flag := false, thr := some .check }

/-- `ProcessPrefetchDatasetIterator.start_prefetch` (transformations/process_prefetch.py:432-478): nothing if there is a worker.
It does not look at `_exhausted`. -/
def processKick {c : ConcIter α} (s : ProcState c) : ProcState c :=
  match s.wrk with
  | some _ => s
  | none => { s with stop := false, wrk := some { cs := c.init, exh := false, pc := .top } }

/-- `DatasetIterator.start_prefetch` (python/dataset/dataset.py:1519-1532) of a transformation with several parents. -/
def multiKick (T : MultiTrans n α β) {c : Fin n → ConcIter α} (kick : (i : Fin n) → (c i).S → (c i).S) (s : MtState T c) :
    MtState T c :=
  { s with cs := fun i => kick i (s.cs i) }

/-- `InterleaveDatasetIterator.start_prefetch` (transformations/interleave.py:388-391): only the iterators in the slots. -/
def interleaveKick (n L : Nat) {c : Fin n → ConcIter α} (kick : (i : Fin n) → (c i).S → (c i).S) (s : MtState (ilTrans n L) c) :
    MtState (ilTrans n L) c :=
  { s with cs := fun i =>
      if (List.finRange (L + 1)).any (fun j => IlLoc.slots s.loc j == some i) then kick i (s.cs i) else s.cs i }

/-- An iterator of a dataset of an interleave that the pool of `_prefetch_ds_iter` (transformations/interleave.py:50-75, 464-494) may
make and start at any time before the first use; the flag says that it is neither started nor used.  (The pool only gets a few
datasets ahead; here it may be any number.) -/
def warmOver (c : ConcIter α) (kick : c.S → c.S) : ConcIter α where
  S := c.S × Bool
  C := c.C
  init := (c.init, true)
  step := fun s t => (c.step s.1 t.1 ∧ t.2 = s.2) ∨ (s.2 = true ∧ t = (kick s.1, false))
  call := fun s t => c.call s.1 t.1 ∧ t.2 = false
  ret := fun s r t => c.ret s.1 r t.1 ∧ t.2 = s.2
  get := fun s => (((c.get s.1).1, s.2), (c.get s.1).2)
  setCall := fun s ck t => c.setCall s.1 ck t.1 ∧ t.2 = false
  setRet := fun s t => c.setRet s.1 t.1 ∧ t.2 = s.2

/-- `start_prefetch` of such an iterator. -/
def warmKick {c : ConcIter α} (kick : c.S → c.S) (s : c.S × Bool) : c.S × Bool := (kick s.1, false)

/-- A tree of layers (as in `Stacked`), its stream, and its `start_prefetch`.  The inputs of an interleave may be started ahead of
time (`warmed`), anywhere in the tree.  Below a thread or process prefetch anything may
be; but the prefetches that `start_prefetch` reaches must have a positive buffer size (`thread_prefetch_size_zero_race` shows
what goes wrong otherwise). -/
inductive Kicked : {β : Type} → (c : ConcIter β) → (Nat → Option β) → (c.S → c.S) → Prop
  | source {α : Type} {p : Iter α} {x : Nat → Option α} : ResumesStream p (fun n => (x n).map .ok) → StaysOver x →
      Kicked (ofIter p) x id
  | prefetch {α : Type} {c : ConcIter α} {x : Nat → Option α} (size : Nat) : 0 < size → Stacked c x →
      Kicked (prefetchOver size c) x prefetchKick
  | prefetchOn {α : Type} {c : ConcIter α} {x : Nat → Option α} {k : c.S → c.S} (size : Nat) : 0 < size → Kicked c x k →
      Kicked (prefetchOver size c) x prefetchKick
  | warmed {α : Type} {c : ConcIter α} {x : Nat → Option α} {k : c.S → c.S} : Kicked c x k → Kicked (warmOver c k) x (warmKick k)
  | map {α β : Type} {c : ConcIter α} {x : Nat → Option α} {k : c.S → c.S} (f : α → β) : Kicked c x k →
      Kicked (transOver (mapTrans f) c) (fun n => (x n).map f) (transKick _ k)
  | mapWithIndex {α β : Type} {c : ConcIter α} {x : Nat → Option α} {k : c.S → c.S} (f : Nat → α → β) : Kicked c x k →
      Kicked (transOver (mapIndexTrans f) c) (fun n => (x n).map (f n)) (transKick _ k)
  | limit {α : Type} {c : ConcIter α} {x : Nat → Option α} {k : c.S → c.S} (count : Nat) : Kicked c x k →
      Kicked (transOver (limitTrans count) c) (streamTake count x) (transKick _ k)
  | batch {α : Type} {c : ConcIter α} {x : Nat → Option α} {k : c.S → c.S} (b : Nat) (drop : Bool) : 0 < b → Kicked c x k →
      Kicked (transOver (batchTrans b drop) c) (streamBatch b drop x) (transKick _ k)
  | process {α : Type} {c : ConcIter α} {x : Nat → Option α} (size : Nat) (keep : Bool) : 0 < size → Stacked c x →
      Kicked (processOver size keep c) x processKick
  | processOn {α : Type} {c : ConcIter α} {x : Nat → Option α} {k : c.S → c.S} (size : Nat) (keep : Bool) : 0 < size → Kicked c x k →
      Kicked (processOver size keep c) x processKick
  | filter {α : Type} {c : ConcIter α} {x y : Nat → Option α} {pos : Nat → Nat} {k : c.S → c.S} (f : α → Bool) :
      Filtered f x y pos → Kicked c x k → Kicked (transOver (filterTrans f) c) y (transKick _ k)
  | zip {α : Type} {n : Nat} {c : Fin (n + 1) → ConcIter α} {x : Fin (n + 1) → Nat → Option α}
      {k : (i : Fin (n + 1)) → (c i).S → (c i).S} (strict : Bool) : (strict = true → EqualLengths x) →
      (∀ i, Kicked (c i) (x i) (k i)) → Kicked (multiOver (zipTrans n strict) c) (streamZip x) (multiKick _ k)
  | mix {α : Type} {n : Nat} {c : Fin n → ConcIter α} {x : Fin n → Nat → Option α} {k : (i : Fin n) → (c i).S → (c i).S}
      (sel : Nat → Fin n) : (∀ i, Kicked (c i) (x i) (k i)) →
      Kicked (multiOver (mixTrans n sel) c) (streamMix sel x) (multiKick _ k)
  | interleave {α : Type} {n : Nat} {c : Fin n → ConcIter α} {x : Fin n → Nat → Option α} {k : (i : Fin n) → (c i).S → (c i).S}
      (cycle : Nat) (hL : min cycle n - 1 < n) : (∀ i, Kicked (c i) (x i) (k i)) →
      Kicked (interleaveOver n cycle c) (streamInterleave x hL) (interleaveKick n (min cycle n - 1) k)
  | windowShuffle {α : Type} {c : ConcIter α} {x : Nat → Option α} {k : c.S → c.S} (shuffle : Nat → List α → List α) (w : Nat) :
      0 < w → (∀ i l, (shuffle i l).length = l.length) → Kicked c x k →
      Kicked (anchorOver (winAnchor shuffle w) c) (streamWindows shuffle w x) (anchorKick _ k)
  | pack {E R : Type} {c : ConcIter E} {x : Nat → Option E} {y : Nat → Option R} {cut first : Nat → Nat} {k : c.S → c.S}
      (pk : Packer E R) (order : Nat → List R → List Nat) : IsOrder order → Packs pk order x y cut first → Kicked c x k →
      Kicked (anchorOver (packAnchor pk order) c) y (anchorKick _ k)
  | flatMap {α β : Type} {c : ConcIter α} {x : Nat → Option α} {y : Nat → Option β} {first : Nat → Nat} {k : c.S → c.S}
      (f : α → List β) : Flattens f x y first → Kicked c x k → Kicked (anchorOver (flatMapAnchor f) c) y (anchorKick _ k)
  | repeated {α : Type} {c : ConcIter α} {x : Nat → Option α} {k : c.S → c.S} (epochs : Option Nat) (len : Nat) :
      (∀ n, (x n).isSome ↔ n < len) → (len = 0 → epochs ≠ none) → epochs ≠ some 0 → NoInterleave c → Kicked c x k →
      Kicked (anchorOver (repeatAnchor epochs) c) (streamRepeat epochs len x) (anchorKick _ k)
  | repeatedEndless {α : Type} {c : ConcIter α} {x : Nat → Option α} {k : c.S → c.S} (epochs : Option Nat) : (∀ n, (x n).isSome) →
      epochs ≠ some 0 → NoInterleave c → Kicked c x k → Kicked (anchorOver (repeatAnchor epochs) c) x (anchorKick _ k)
  | rebatch {α : Type} {c : ConcIter (List α)} {x : Nat → Option (List α)} {r : Nat → Option α} {first : Nat → Nat} {k : c.S → c.S}
      (b : Nat) (drop : Bool) : 0 < b → Concats x r first → (drop = true ∨ ∀ j, x j = none → j = 0 ∨ first j % b ≠ 0) → Kicked c x k →
      Kicked (anchorOver (rebatchAnchor b drop) c) (streamBatch b drop r) (anchorKick _ k)

/-! ### A user who also calls `start_prefetch` -/

/-- The calls of the user are those of `user.prog`, then `start_prefetch()`, then those of the first list of `later`, then
`start_prefetch()`, then those of the second list, … -/
structure KickSys (c : ConcIter α) where
  user : UserSys c
  later : List (List Op)

/-- One step of the user or of any thread. -/
inductive KickStep (c : ConcIter α) (kick : c.S → c.S) : KickSys c → KickSys c → Prop
  | other (u v : UserSys c) (later : List (List Op)) : UserStep c u v → KickStep c kick ⟨u, later⟩ ⟨v, later⟩
  | start (u : UserSys c) (ops : List Op) (later : List (List Op)) : u.finished →
      KickStep c kick ⟨u, ops :: later⟩ ⟨{ u with st := kick u.st, prog := ops }, later⟩

/-- Several steps. -/
inductive KickRun (c : ConcIter α) (kick : c.S → c.S) : KickSys c → KickSys c → Prop
  | refl (s) : KickRun c kick s s
  | tail {s t u} : KickRun c kick s t → KickStep c kick t u → KickRun c kick s u

/-- The user before the first call. -/
def kickInit (c : ConcIter α) (ops : List Op) (later : List (List Op)) : KickSys c := ⟨userInit c ops, later⟩

/-- All calls made and returned. -/
def KickSys.finished {c : ConcIter α} (s : KickSys c) : Prop := s.user.finished ∧ s.later = []

end Grain
