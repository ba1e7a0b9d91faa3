import Mathlib.Data.List.Basic
/-
Model of the treatment of tracebacks, grain/_src/core/traceback_util.py (TB), and of how exceptions travel through `__next__` calls.

A path is the list of its components (`pathlib.Path(filename).parts`; the handler for paths that cannot be split, TB:181-182, is not
modelled).  A traceback is the list of its frames, the outermost first.  Which line numbers and functions are in it is decided by Python;
a frame is added to the traceback for every function the exception leaves, except when it is raised again by a bare `raise`.
-/
namespace Grain

/-- A stack frame: file, function, line; `boundary` says that it is a call of `reraise_with_filtered_traceback`
(`_is_reraiser_frame`, TB:241-243). -/
structure Frame where
  file : List String
  name : String
  line : Nat
  boundary : Bool := false
deriving DecidableEq

/-- The loop of `include_filename`, TB:183-185, over the pairs of neighbouring components. -/
def includeParts : List String → Bool
  | a :: b :: rest => if a = "grain" ∧ b = "_src" then false else includeParts (b :: rest)
  | _ => true

/-- `include_frame`, TB:170-171. -/
def includeFrame (f : Frame) : Bool := includeParts f.file

/-- The loop of `filter_traceback`, TB:205-207, over the reversed frames; `i` is the loop counter, `out` the traceback made so far. -/
def filterLoop' : List Frame → Nat → List Frame → List Frame
  | [], _, out => out
  | f :: fs, i, out => filterLoop' fs (i + 1) (if includeFrame f || i == 0 then f :: out else out)

/-- `filter_traceback`, TB:200-208. -/
def filterTraceback (tb : List Frame) : List Frame := filterLoop' tb.reverse 0 []

/-- `_add_tracebackhide_to_hidden_frames`, TB:188-197: which frames are marked (the loop goes over the reversed frames). -/
def hiddenLoop : List Frame → Nat → List (Frame × Bool) → List (Frame × Bool)
  | [], _, out => out
  | f :: fs, i, out => hiddenLoop fs (i + 1) ((f, !includeFrame f && i != 0) :: out)

/-- TB:188-197. -/
def hideFrames (tb : List Frame) : List (Frame × Bool) := hiddenLoop tb.reverse 0 []

/-- `_add_call_stack_frames`, TB:227-238: `stack` are the frames from the one that catches the exception outwards. -/
def addCallStack : List Frame → Bool → List Frame → List Frame
  | [], _, out => out
  | f :: fs, reached, out =>
    if reached && f.name != "<module>" then out
    else addCallStack fs (reached || f.name == "<module>") (if includeFrame f then f :: out else out)

/-- The modes of `--grain_py_traceback_filtering` after `_filtering_mode`, TB:303-310 (the flag has no other values, config.py:125-130). -/
inductive TbMode where
  | off | tracebackhide | quietRemove | removeFrames
deriving DecidableEq

/-- An exception as seen by whoever catches it: type and arguments (`value`), whether it is a `StopIteration`, its traceback, the frames
marked as hidden, how many notes were added, and the traceback of the `UnfilteredStackTraceError` given as its cause. -/
structure PyExc (V : Type) where
  value : V
  stopIteration : Bool
  tb : List Frame
  hidden : List Frame := []
  notes : Nat := 0
  cause : Option (List Frame) := none

/-- `reraise_with_filtered_traceback`, TB:361-397, when `fun` raises `e`: `self` is its own frame (already in the traceback), `outer` are the
frames that called it, the innermost first.  `_should_filter`, TB:246-268: not a `StopIteration` and no other boundary further out. -/
def reraise {V : Type} (mode : TbMode) (self : Frame) (outer : List Frame) (e : PyExc V) : PyExc V :=
  if (e.stopIteration || e.tb.isEmpty || outer.any (·.boundary)) || mode == .off then e
  else
    match mode with
    | .off => e
    | .tracebackhide => { e with hidden := e.hidden ++ ((hideFrames e.tb).filter (·.2)).map (·.1) }
    | .quietRemove => { e with tb := filterTraceback e.tb, notes := e.notes + 1 }
    | .removeFrames => { e with tb := filterTraceback e.tb, cause := some (addCallStack (self :: outer) false e.tb) }

/-- An exception leaves the calls of a thread: `stack` are the frames it passes, the innermost first.  Every frame is added to the traceback;
a boundary then handles the exception (`reraise`) and raises it again with a bare `raise`, which adds nothing. -/
def unwind {V : Type} (mode : TbMode) : List Frame → PyExc V → PyExc V
  | [], e => e
  | f :: outer, e =>
    let e := { e with tb := f :: e.tb }
    unwind mode outer (if f.boundary then reraise mode f outer e else e)

/-- `run_with_traceback_filter`, TB:354-356 and 399, applied to the `__next__` of a class (dataset.py:1781-1788): a function that is wrapped
already is returned as it is.  A method is described by the number of wrappers around it. -/
def wrapNext (wrappers : Nat) : Nat := if wrappers > 0 then wrappers else wrappers + 1

/-! ### Exceptions of worker processes -/

/-- `_FUNCNAME_MAP`, TB:48-55. -/
def funcnameMap (n : String) : String :=
  if n = "<module>" then "module"
  else if n = "<listcomp>" then "listcomp"
  else if n = "<dictcomp>" then "dictcomp"
  else if n = "<setcomp>" then "setcomp"
  else if n = "<genexpr>" then "genexpr"
  else if n = "<lambda>" then "lambda_func"
  else n

/-- The loop of `reconstruct_traceback`, TB:123-167, over the reversed frames.  `isIdentifier` is `str.isidentifier`; `compiles file line
name` says that the dummy function can be compiled and run (else the frame is skipped). -/
def reconstructLoop (isIdentifier : String → Bool) (compiles : List String → Nat → String → Bool) : List Frame → List Frame → List Frame
  | [], tb => tb
  | f :: fs, tb =>
    let n := funcnameMap f.name
    let n := if isIdentifier n then n else "dummy_func"
    reconstructLoop isIdentifier compiles fs (if compiles f.file f.line n then { file := f.file, name := n, line := f.line } :: tb else tb)

/-- `reconstruct_traceback` (TB:111-167) of what `PicklableTraceback.from_traceback` (TB:80-104) made of a traceback: the frames in order.
The new frames run code of the same file name, so they are not calls of the boundary function, whatever their name. -/
def reconstructTraceback (isIdentifier : String → Bool) (compiles : List String → Nat → String → Bool) (tb : List Frame) : List Frame :=
  reconstructLoop isIdentifier compiles tb.reverse []

end Grain
