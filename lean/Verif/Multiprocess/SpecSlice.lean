import Verif.Multiprocess.ModelSlice
import Verif.Interleave.Asked
/-
What a pipeline yields when nothing is cut in slices, in terms of lists.
-/
namespace Grain

/-- What a user function makes of an element: `None` stays. -/
def onElement (f : α → Py (Option β)) : Option α → Py (Option β)
  | none => .ok none
  | some a => f a

/-- `Yields heap d ys`: `d` is built with `map`, `random_map` and `zip` from random access datasets in which nothing is filtered
out (or `None`s are kept), the user functions succeed, and `ys` are the elements in order. -/
inductive Yields (heap : Nat → WorkObj V) : WorkDs V → List (Option V) → Prop
  | object {id size threads : Nat} {allow : Bool} {ds : MapDs V} {vs : List (Option V)}
      (hobj : heap id = .mapDs size threads allow ds) (hr : Reads ds vs)
      (hall : allow = true ∨ ∀ v ∈ vs, v.isSome = true) : Yields heap (.object id) vs
  | map {p : WorkDs V} {xs : List (Option V)} (f : V → Py (Option V)) (g : Option V → Option V)
      (hf : ∀ x ∈ xs, onElement f x = .ok (g x)) : Yields heap p xs → Yields heap (.map f p) (xs.map g)
  | randomMap {p : WorkDs V} {xs ys : List (Option V)} (f : V → Nat → Py (Option V)) (hl : ys.length = xs.length)
      (hf : ∀ j (h1 : j < xs.length) (h2 : j < ys.length), onElement (fun a => f a j) xs[j] = .ok ys[j]) :
      Yields heap p xs → Yields heap (.randomMap f p) ys
  | zip {p q : WorkDs V} {xs ys : List (Option V)} (strict : Bool) (tuple : List (Option V) → Option V)
      (hs : strict = true → xs.length = ys.length) : Yields heap p xs → Yields heap q ys →
      Yields heap (.zip strict tuple p q) (List.zipWith (fun x y => tuple [x, y]) xs ys)

/-- Into which iterators states can be restored: new ones, also new ones that were asked for their own state (which is what
`flat_map` needs), all (which is what `repeat` needs). -/
inductive RestoreInto where
  | fresh
  | asked
  | used
  deriving DecidableEq

/-- `Elements n heap d ys into`: `d` is built with `map`, `filter`, `repeat` and `flat_map` from one random access dataset or one
interleaved list of datasets, the user functions succeed, and `ys` are the elements, disregarding the order.
Not less datasets are interleaved than there are workers (`n`). -/
inductive Elements (n : Nat) (heap : Nat → WorkObj V) : WorkDs V → List (Option V) → RestoreInto → Prop
  | object {id size threads : Nat} {allow : Bool} {ds : MapDs V} {vs : List (Option V)}
      (hobj : heap id = .mapDs size threads allow ds) (hr : Reads ds vs) :
      Elements n heap (.object id) (vs.filter (fun v => allow || v.isSome)) .used
  | interleave {id cycle : Nat} {its : List (Iter (Option V))} {xs : Nat → List (Option V)}
      (hobj : heap id = .interleave cycle its) (hc : 0 < cycle) (hn : n ≤ its.length) (hpos : 0 < its.length)
      (hits : ∀ i (hi : i < its.length), ResumesFresh its[i] ((xs i).map Except.ok) true) :
      Elements n heap (.object id) ((List.range its.length).flatMap xs) .fresh
  | interleaveAsked {id cycle : Nat} {its : List (Iter (Option V))} {xs : Nat → List (Option V)}
      (hobj : heap id = .interleave cycle its) (hc : 0 < cycle) (hn : n ≤ its.length) (hpos : 0 < its.length)
      (hits : ∀ i (hi : i < its.length), ResumesAsked its[i] ((xs i).map Except.ok) true) :
      Elements n heap (.object id) ((List.range its.length).flatMap xs) .asked
  | map {p : WorkDs V} {xs : List (Option V)} {into : RestoreInto} (f : V → Py (Option V)) (g : Option V → Option V)
      (hf : ∀ x ∈ xs, onElement f x = .ok (g x)) : Elements n heap p xs into → Elements n heap (.map f p) (xs.map g) into
  | filter {p : WorkDs V} {xs : List (Option V)} {into : RestoreInto} (pred : Option V → Py Bool) (keep : Option V → Bool)
      (hf : ∀ x ∈ xs, pred x = .ok (keep x)) :
      Elements n heap p xs into → Elements n heap (.filter pred p) (xs.filter keep) into
  | repeat {p : WorkDs V} {xs : List (Option V)} (k : Nat) (hk : 0 < k) :
      Elements n heap p xs .used → Elements n heap (.repeat k p) (List.replicate k xs).flatten .used
  | flatMap {p : WorkDs V} {xs : List (Option V)} {into : RestoreInto} (f : Option V → Py (List (Option V)))
      (g : Option V → List (Option V)) (hf : ∀ x ∈ xs, f x = .ok (g x)) (hi : into ≠ .fresh) :
      Elements n heap p xs into → Elements n heap (.flatMap f p) (xs.flatMap g) .asked

end Grain
