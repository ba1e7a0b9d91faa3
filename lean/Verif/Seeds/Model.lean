import Verif.Py
import Mathlib.Data.Nat.Digits.Defs
/-
Model of the derivation of default seeds for random transformations.
D/ = grain/_src/python/dataset/, T/ = D/transformations/.
-/
namespace Grain

/-- A dataset as far as D/dataset.py:82-97 names it for seeding: `_seed_rng_seed` and `_parents`.  Datasets shared by two
consumers appear once under each: the traversal below visits them once per path as well. -/
inductive DsNode where
  | node (seed : Option Int) (parents : List DsNode)

namespace DsNode

/-- `node._seed_rng_seed`. -/
def seedOf : DsNode → Option Int
  | node s _ => s

/-- `node._parents`. -/
def parents : DsNode → List DsNode
  | node _ ps => ps

mutual
/-- Number of nodes, for the termination of the traversal. -/
def size : DsNode → Nat
  | node _ ps => 1 + sizes ps

/-- Number of nodes of several datasets. -/
def sizes : List DsNode → Nat
  | [] => 0
  | t :: ts => t.size + sizes ts
end

end DsNode

/-- `ds.seed(s)`, D/dataset.py:570-626, 1092-1145 and `_WithSeed{Map,Iter}Dataset.__init__`, 1648-1650, 1674-1676. -/
def DsNode.withSeed (s : Int) (t : DsNode) : DsNode := .node (some s) [t]

/-- A source: `super().__init__()` without parents, T/source.py:51, 163. -/
def DsNode.source : DsNode := .node none []

/-- Any transformation with one parent (`shuffle`, `map`, `random_map`, `batch`, ...), D/dataset.py:93-97. -/
def DsNode.over (t : DsNode) : DsNode := .node none [t]

/-- Any transformation with several parents: `zip` (T/zip.py:31, 69), `mix` and `concatenate` (T/mix.py:105, 203). -/
def DsNode.overAll (ts : List DsNode) : DsNode := .node none ts

/-- `InterleaveIterDataset.__init__`, T/interleave.py:557: the interleaved datasets are not parents. -/
def DsNode.interleave (_ : List DsNode) : DsNode := .node none []

theorem DsNode.sizes_append (xs ys : List DsNode) : DsNode.sizes (xs ++ ys) = DsNode.sizes xs + DsNode.sizes ys := by
  induction xs with
  | nil => simp [DsNode.sizes]
  | cons x xs ih => simp [DsNode.sizes, ih]; omega

theorem DsNode.size_eq (t : DsNode) : t.size = 1 + DsNode.sizes t.parents := by
  cases t; simp [DsNode.size, DsNode.parents]

/-- The `while to_visit` loop of `_default_seed`, D/dataset.py:104-110: pops the first entry, extends the list with
`(node_seed, depth)` or appends the parents one level deeper. -/
def seedLoop : List (DsNode × Nat) → List Int → List Int
  | [], acc => acc
  | (t, depth) :: rest, acc =>
    match t.seedOf with
    | some s => seedLoop rest (acc ++ [s, (depth : Int)])
    | none => seedLoop (rest ++ t.parents.map (fun p => (p, depth + 1))) acc
termination_by q _ => DsNode.sizes (q.map Prod.fst)
decreasing_by
  · simp [DsNode.sizes, DsNode.size_eq]
  · simp [DsNode.sizes, DsNode.size_eq, DsNode.sizes_append, Function.comp_def]; omega

/-- `aggregated_seed`, D/dataset.py:101-110. -/
def aggregatedSeed (t : DsNode) : List Int := seedLoop [(t, 0)] []

/-- The 32 bit words numpy makes of one non-negative integer (`_int_to_uint32_array`): little endian, one word for 0. -/
def wordsOf (n : Nat) : List Nat := if n = 0 then [0] else Nat.digits (2 ^ 32) n

/-- The entropy a `np.random.SeedSequence` mixes for a list of integers: the words of all entries in order, filled up
with zeros to the pool size of 4; negative entries raise `ValueError`.  This is numpy, not grain; the mixing itself is
the parameter `mix` below. -/
def entropyOf (xs : List Int) : Py (List Nat) :=
  if xs.any (· < 0) then .error .valueError
  else
    let ws := xs.flatMap (fun x => wordsOf x.toNat)
    .ok (ws ++ List.replicate (4 - ws.length) 0)

/-- `_default_seed`, D/dataset.py:99-116.  `mix` is `generate_state(1, dtype=np.uint32)[0]`. -/
def defaultSeed (mix : List Nat → UInt32) (t : DsNode) : Py (Option Int) :=
  match aggregatedSeed t with
  | [] => .ok none
  | xs => (entropyOf xs).map (fun ws => some ((mix ws).toNat : Int))

/-- The seed a `random_map` uses, T/map.py:196-203, 446-452: `t` is the new dataset itself. -/
def randomMapSeed (mix : List Nat → UInt32) (explicit : Option Int) (t : DsNode) : Py Int :=
  match explicit with
  | some s => .ok s
  | none =>
    match defaultSeed mix t with
    | .error e => .error e
    | .ok none => .error .valueError
    | .ok (some s) => .ok s

/-- The seed a `shuffle` uses, T/shuffle.py:42-52. -/
def shuffleSeed (mix : List Nat → UInt32) (explicit : Option Int) (t : DsNode) : Py Int :=
  match randomMapSeed mix explicit t with
  | .error e => .error e
  | .ok s => if s < 0 ∨ s ≥ 2 ^ 32 then .error .valueError else .ok s

end Grain
