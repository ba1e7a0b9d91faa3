import Verif.Apply.Model
import Verif.Loader.LegacySpec
/-
C88: what a list of transformations means, on lists of elements.
-/
namespace Grain

/-- What a user function returned, if it returned something other than `None`. -/
def someVal : Py (Option V) → Option V
  | .ok v => v
  | .error _ => none

/-- What a method makes of the elements `xs`, not any of them `None`; `none` if a function raises or returns `None`.  `rng j`: the generator
for element `j`. -/
def Call.run (rng : Nat → Option Int) : Call V → List V → Option (List V)
  | .batch b drop fn, xs => (List.range (batchCount xs.length b drop)).mapM (fun i => someVal (fn ((group xs b i).map some)))
  | .map f, xs => xs.mapM (fun v => someVal (f (some v)))
  | .randomMap f, xs => xs.zipIdx.mapM (fun (v, j) => someVal (f (some v) (rng j)))
  | .mapWithIndex f, xs => xs.zipIdx.mapM (fun (v, j) => someVal (f j (some v)))
  | .flatMap f _, xs => (xs.mapM (fun v => (okVal (f (some v))).bind (fun l => l.mapM id))).map List.flatten
  | .filter pred, xs => (xs.mapM (fun v => (okVal (pred (some v))).map (fun b => (v, b)))).map (fun l => (l.filter (·.2)).map (·.1))

/-- The methods one after the other, the first being number `k`. -/
def runCalls (rng : Nat → Nat → Option Int) : Nat → List (Call V) → List V → Option (List V)
  | _, [], xs => some xs
  | k, c :: cs, xs => (c.run (rng k) xs).bind (runCalls rng (k + 1) cs)

/-- `Batch` rejects other sizes. -/
def Call.valid : Call V → Prop
  | .batch b _ _ => 0 < b
  | _ => True

/-- The object of one class whose method does what the dataset method does. -/
def Call.obj : Call V → TObj V
  | .batch b drop fn => { batch := some (b, drop, fn) }
  | .map f => { map := some f }
  | .randomMap f => { randomMap := some f }
  | .mapWithIndex f => { mapWithIndex := some f }
  | .flatMap f m => { flatMap := some (f, m) }
  | .filter pred => { filter := some pred }

/-- Transformations whose result does not depend on generators or positions. -/
def Call.plain : Call V → Bool
  | .randomMap _ => false
  | .mapWithIndex _ => false
  | _ => true

end Grain
