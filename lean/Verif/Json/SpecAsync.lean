import Verif.Json.ModelAsync
/-
What a user expects of checkpoints that are written in the background.
-/
namespace Grain

/-- The ideal program: the iterator is a position in the stream `xs`, a checkpoint is the position at the moment of the call of
`save`, and `done d` tells that the coroutine of directory `d` ran to its end.  A `load` gives the position of the `save`; it
may be refused, leaving the iterator where it is, only if the coroutine did not end; it is refused if nothing was saved.
`tasks` are the directories of the coroutines of this process.  (Nothing is said about histories that save to a directory
twice or that leave the known part of the stream.) -/
def AsyncOk (xs : List (Py α)) (ended : Bool) :
    Nat → (Nat → Option Nat) → (Nat → Bool) → List Nat → List AsyncEv → List (AsyncObs α) → Prop
  | _, _, _, _, [], obs => obs = []
  | pos, saved, done, tasks, .next :: es, obs =>
    match outcome xs ended pos with
    | none => True
    | some r => ∃ rest, obs = .out r :: rest ∧ AsyncOk xs ended (min xs.length (pos + 1)) saved done tasks es rest
  | pos, saved, done, tasks, .save d :: es, obs =>
    saved d = none → AsyncOk xs ended pos (Function.update saved d (some pos)) done (tasks ++ [d]) es obs
  | pos, saved, done, tasks, .open _ :: es, obs => AsyncOk xs ended pos saved done tasks es obs
  | pos, saved, done, tasks, .write _ _ :: es, obs => AsyncOk xs ended pos saved done tasks es obs
  | pos, saved, done, tasks, .finish i :: es, obs =>
    match tasks[i]? with
    | none => AsyncOk xs ended pos saved done tasks es obs
    | some d => AsyncOk xs ended pos saved (Function.update done d true) tasks es obs
  | _, saved, done, _, .crash :: es, obs => AsyncOk xs ended 0 saved done [] es obs
  | pos, saved, done, tasks, .load d :: es, obs =>
    match saved d with
    | none => ∃ rest, obs = .refused :: rest ∧ AsyncOk xs ended pos saved done tasks es rest
    | some p =>
      (p < xs.length ∨ ended = true) →
        (∃ rest, obs = .loaded :: rest ∧ AsyncOk xs ended p saved done tasks es rest) ∨
        (done d = false ∧ ∃ rest, obs = .refused :: rest ∧ AsyncOk xs ended pos saved done tasks es rest)

end Grain
