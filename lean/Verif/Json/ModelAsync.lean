import Verif.Json.ModelStates
/-
Saving and loading in the background (Orbax): `DatasetIterator.save` and `load`, grain/_src/python/dataset/dataset.py:1480-1515
(the same in `DataLoaderIterator`, python/data_loader.py:596-632), with `background_save` and `background_load`,
python/checkpoint/base.py:40-61.

Simplifications: one process (every process writes its own file, C48); `load` is one step (it must be awaited before the
iterator is used); a directory is a number.
-/
namespace Grain

/-- A coroutine made by `save`: its directory, its text (`json.dumps(self.get_state(), indent=4)` is evaluated in the call of
`save`, dataset.py:1495), and how much of it was written: `none` while the directory is awaited (base.py:47). -/
structure SaveTask where
  dir : Nat
  text : List Char
  written : Option Nat

/-- The process: the iterator, the coroutines, and the files, which outlive it. -/
structure AsyncSys (S : Type) where
  it : S
  tasks : List SaveTask
  files : Nat → Option (List Char)

/-- What can happen. -/
inductive AsyncEv where
  /-- The program asks for the next element. -/
  | next
  /-- The program saves to directory `d`. -/
  | save (d : Nat)
  /-- Coroutine `i` opens its file: it is there, and empty. -/
  | «open» (i : Nat)
  /-- Coroutine `i` writes `k` more characters. -/
  | write (i k : Nat)
  /-- Coroutine `i` is run to its end. -/
  | finish (i : Nat)
  /-- The process is lost, and started again with a new iterator. -/
  | crash
  /-- The program loads from directory `d` into its iterator. -/
  | load (d : Nat)
  deriving DecidableEq

/-- What the program sees: outcomes of `next`, and whether a `load` raised.  `diverged`: a call did not return. -/
inductive AsyncObs (α : Type) where
  | out (r : Res α)
  | loaded
  | refused
  | diverged
  deriving DecidableEq

/-- A run. -/
def asyncRun (j : JIter α) (F : Nat) : AsyncSys j.S → List AsyncEv → List (AsyncObs α)
  | _, [] => []
  | s, .next :: es =>
    match j.next F s.it with
    | none => [.diverged]
    | some (it, r) => .out r :: asyncRun j F { s with it := it } es
  | s, .save d :: es =>
    asyncRun j F { s with it := (j.get s.it).1, tasks := s.tasks ++ [⟨d, jsonDumps (j.get s.it).2, none⟩] } es
  | s, .open i :: es =>
    match s.tasks[i]? with
    | some ⟨d, t, none⟩ =>
      asyncRun j F { s with tasks := s.tasks.set i ⟨d, t, some 0⟩, files := Function.update s.files d (some []) } es
    | _ => asyncRun j F s es
  | s, .write i k :: es =>
    match s.tasks[i]? with
    | some ⟨d, t, some w⟩ =>
      asyncRun j F { s with tasks := s.tasks.set i ⟨d, t, some (min (w + k) t.length)⟩
                            files := Function.update s.files d (some (t.take (w + k))) } es
    | _ => asyncRun j F s es
  | s, .finish i :: es =>
    match s.tasks[i]? with
    | some ⟨d, t, _⟩ =>
      asyncRun j F { s with tasks := s.tasks.set i ⟨d, t, some t.length⟩, files := Function.update s.files d (some t) } es
    | none => asyncRun j F s es
  | s, .crash :: es => asyncRun j F { s with it := j.init, tasks := [] } es
  | s, .load d :: es =>
    match s.files d with
    | none => .refused :: asyncRun j F s es
    | some t =>
      match j.text.set F s.it t with
      | none => [.diverged]
      | some (it, none) => .loaded :: asyncRun j F { s with it := it } es
      | some (it, some _) => .refused :: asyncRun j F { s with it := it } es

/-- The start of the first process. -/
def asyncInit (j : JIter α) : AsyncSys j.S := { it := j.init, tasks := [], files := fun _ => none }

end Grain
