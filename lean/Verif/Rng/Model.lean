import Verif.Py
import Mathlib.Logic.Function.Basic
/-
Model of the pool of random generators of `random_map` on random access datasets.
T/ = grain/_src/python/dataset/transformations/.
-/
namespace Grain

/-- State of `np.random.Generator(np.random.Philox(seed))` as far as T/map.py:36-45 names it.  The key is a function of
the seed. -/
structure Gen where
  key : Nat
  counter : List Nat
  buffer : List Nat
  bufferPos : Nat
  hasUint32 : Nat
  uinteger : Nat
  deriving DecidableEq, Repr

/-- `_reset_rng_state`, T/map.py:36-45.  Values outside `uint64` make `np.array(..., dtype=np.uint64)` raise
`OverflowError` before the generator is touched (numpy 2). -/
def resetGen (g : Gen) (opSeed index : Int) : Py Gen :=
  if opSeed < 0 ∨ opSeed ≥ 2 ^ 64 ∨ index < 0 ∨ index ≥ 2 ^ 64 then .error .overflowError
  else .ok { g with counter := [0, 0, opSeed.toNat, index.toNat], buffer := [0, 0, 0, 0], bufferPos := 4,
                    hasUint32 := 0, uinteger := 0 }

/-- What a thread is doing inside `_random_map_element`, T/map.py:209-215: it holds generator `gen` for element
`index`; `ready` after the reset; `outs` are the numbers drawn so far by the user function. -/
structure RngHold where
  gen : Nat
  index : Int
  ready : Bool
  outs : List Nat

/-- `RngPool` (T/map.py:48-71) with the generators it created (`heap`), its cache and the threads using it. -/
structure PoolState where
  heap : List Gen
  cache : List Nat
  threads : Nat → Option RngHold

/-- The atomic steps of the threads. -/
inductive PoolAct where
  /-- the locked part of `acquire_rng`, 60-64 -/
  | acquire (t : Nat) (index : Int)
  /-- `_reset_rng_state`, 65 -/
  | reset (t : Nat)
  /-- the user function draws from its generator -/
  | draw (t : Nat)
  /-- `release_rng`, 68-70 -/
  | release (t : Nat)
  /-- the user function (or the reset) raised: the generator is not returned, 212-214 -/
  | abandon (t : Nat)

/-- One step.  `newGen` is `np.random.Generator(np.random.Philox(seed))`; `drawFn` is any draw of the user function from
a generator.  `none`: the step is not possible in this state. -/
def poolStep (newGen : Gen) (drawFn : Gen → Nat × Gen) (s : PoolState) : PoolAct → Option PoolState
  | .acquire t index =>
    match s.threads t with
    | some _ => none
    | none =>
      match s.cache.getLast? with
      | some g => some { s with cache := s.cache.dropLast,
                                threads := Function.update s.threads t (some ⟨g, index, false, []⟩) }
      | none => some { s with heap := s.heap ++ [newGen],
                              threads := Function.update s.threads t (some ⟨s.heap.length, index, false, []⟩) }
  | .reset t =>
    match s.threads t with
    | none => none
    | some h =>
      if h.ready then none
      else match s.heap[h.gen]? with
        | none => none
        | some g =>
          match resetGen g 0 h.index with
          | .error _ => none
          | .ok g' => some { s with heap := s.heap.set h.gen g',
                                    threads := Function.update s.threads t (some { h with ready := true }) }
  | .draw t =>
    match s.threads t with
    | none => none
    | some h =>
      if h.ready then
        match s.heap[h.gen]? with
        | none => none
        | some g => some { s with heap := s.heap.set h.gen (drawFn g).2,
                                  threads := Function.update s.threads t
                                    (some { h with outs := h.outs ++ [(drawFn g).1] }) }
      else none
  | .release t =>
    match s.threads t with
    | none => none
    | some h =>
      if h.ready then some { s with cache := s.cache ++ [h.gen], threads := Function.update s.threads t none }
      else none
  | .abandon t =>
    match s.threads t with
    | none => none
    | some _ => some { s with threads := Function.update s.threads t none }

/-- A run of the pool from its creation. -/
def poolRun (newGen : Gen) (drawFn : Gen → Nat × Gen) : List PoolAct → PoolState → Option PoolState
  | [], s => some s
  | a :: as, s => (poolStep newGen drawFn s a).bind (poolRun newGen drawFn as)

/-- `RngPool.__init__`, T/map.py:51-54. -/
def poolInit : PoolState := { heap := [], cache := [], threads := fun _ => none }

end Grain
