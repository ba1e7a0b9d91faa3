import Verif.Trace.Model
/-
What the theorems on tracebacks speak about.
-/
namespace Grain

/-- The file is in a directory `grain/_src` (at any place of the path). -/
def Internal (file : List String) : Prop := ∃ a b, file = a ++ "grain" :: "_src" :: b

/-- The frames of user code in a traceback. -/
def userFrames (tb : List Frame) : List Frame := tb.filter includeFrame

/-- Everything that is not in `grain/_src`, and the frame in which the exception was raised. -/
def simplified (tb : List Frame) : List Frame :=
  match tb.getLast? with
  | none => []
  | some last => userFrames tb.dropLast ++ [last]

/-- The calls up to the first module level frames, those included (the innermost call first): what called them is left out. -/
def upToModule (stack : List Frame) : List Frame :=
  stack.takeWhile (fun f => f.name != "<module>") ++ (stack.dropWhile (fun f => f.name != "<module>")).takeWhile (fun f => f.name == "<module>")

end Grain
