import Verif.NamedMix.Model
/-
What a user of a mixture with names expects over the life of a job that is restarted with other components and weights
(C91; the docstring of `IterDataset.mix`, grain/_src/python/dataset/dataset.py:963-966).
-/
namespace Grain

/-- A part of the job's life: the names of the components, their weights, how many elements are asked for before the state is
saved and the job is started again. -/
structure MixPhase where
  names : List String
  weights : List Nat
  count : Nat

/-- A phase that the constructor accepts: there are components, their names differ, and each has a positive weight. -/
def MixPhase.valid (ph : MixPhase) : Prop :=
  ph.names ≠ [] ∧ ph.names.Nodup ∧ ph.weights.length = ph.names.length ∧ ∀ w ∈ ph.weights, 0 < w

/-- The ideal mixture: a position in each named stream, the number of elements asked for so far, whether it is over. -/
structure MixPos where
  pos : String → Nat
  index : Nat
  stop : Bool

/-- The name of the component that the weights prescribe for the element number `index` (properties C04, C05 say which it is). -/
def prescribed (ph : MixPhase) (index : Nat) : Option String :=
  match datasetAndKey (index : Int) ph.weights with
  | .ok (d, _) => ph.names[d]?
  | .error _ => none

/-- One element of the ideal mixture: the next element of the prescribed component; the mixture is over when it has none or
raises. -/
def idealMixNext (x : String → Nat → Option (Py α)) (ph : MixPhase) (s : MixPos) : MixPos × Res α :=
  if s.stop then (s, .stop)
  else
    match prescribed ph s.index with
    | none => (s, .stop)
    | some k =>
      match x k (s.pos k) with
      | some (.ok a) => ({ s with pos := Function.update s.pos k (s.pos k + 1), index := s.index + 1 }, .item a)
      | some (.error e) => ({ pos := Function.update s.pos k (s.pos k + 1), index := s.index + 1, stop := true }, .fail e)
      | none => ({ s with index := s.index + 1, stop := true }, .stop)

def idealMixRun (x : String → Nat → Option (Py α)) (ph : MixPhase) : Nat → MixPos → MixPos × List (Res α)
  | 0, s => (s, [])
  | n + 1, s =>
    let (s, r) := idealMixNext x ph s
    let (s, rs) := idealMixRun x ph n s
    (s, r :: rs)

/-- What is saved: the positions of the components of the phase. -/
structure MixSaved where
  pos : String → Option Nat
  index : Nat
  stop : Bool

/-- The life of the ideal job: each component continues where its saved position is, or from the beginning if there is none. -/
def idealMixLife (x : String → Nat → Option (Py α)) : MixSaved → List MixPhase → List (List (Res α))
  | _, [] => []
  | c, ph :: phs =>
    let (s, rs) := idealMixRun x ph ph.count { pos := fun k => (c.pos k).getD 0, index := c.index, stop := c.stop }
    rs :: idealMixLife x { pos := fun k => if k ∈ ph.names then some (s.pos k) else none, index := s.index, stop := s.stop } phs

/-- The calls of `next` in one phase of the program. -/
def implMixRun (it : Iter α) (F : Nat) : Nat → it.S → Option (it.S × List (Res α))
  | 0, s => some (s, [])
  | n + 1, s => do
    let (s, r) ← it.next F s
    let (s, rs) ← implMixRun it F n s
    some (s, r :: rs)

/-- The start of a phase: a new iterator, into which the saved state is restored, if there is one. -/
def implMixStart (D : String → Iter α) (F : Nat) (ph : MixPhase) : Option (NamedCk D) → Option (NamedState D × Option Err)
  | none => some ((namedMixIter D ph.names ph.weights).init, none)
  | some c => (namedMixIter D ph.names ph.weights).set F (namedMixIter D ph.names ph.weights).init c

/-- The life of the real job: in each phase a new iterator is made, the state saved last (none in the first phase) is restored into
it, elements are read and the state is saved.  An exception of `set_state` is reported as `none`. -/
def implMixLife (D : String → Iter α) (F : Nat) : Option (NamedCk D) → List MixPhase → Option (List (List (Res α)))
  | _, [] => some []
  | c, ph :: phs =>
    let it := namedMixIter D ph.names ph.weights
    match implMixStart D F ph c with
    | some (s, none) => do
      let (s, rs) ← implMixRun it F ph.count s
      let rest ← implMixLife D F (some (it.get s).2) phs
      some (rs :: rest)
    | _ => none

/-- The numbers of the elements received from the component called `k`, if the elements of every component are marked with its name
and their number. -/
def numbersOf (k : String) (rs : List (Res (String × Nat))) : List Nat :=
  rs.filterMap (fun r => match r with
    | .item (k', n) => if k' = k then some n else none
    | _ => none)

end Grain
