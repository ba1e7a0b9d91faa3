import Verif.Iter.Model
/-
Model of the iterator of `InterleaveIterDataset`.
T/ = grain/_src/python/dataset/transformations/.
-/
namespace Grain

/-- The iterators of the interleaved datasets: `init d` is a new iterator of dataset number `d` as made by
`_add_prefetch_and_make_iterator` (T/interleave.py:441-499; the prefetching added there is invisible, C28 and C29).  All
iterators keep their fields in one type and their states in one type, as in Python; iterators of different classes are
covered by taking sums. -/
structure IterFam (α : Type) where
  S : Type
  C : Type
  init : Nat → S
  next : Nat → Nat → S → Option (S × Res α)
  get : Nat → S → S × C
  set : Nat → Nat → S → C → Option (S × Option Err)

/-- The iterator of dataset `d`. -/
def IterFam.iter (f : IterFam α) (d : Nat) : Iter α where
  S := f.S
  C := f.C
  init := f.init d
  next := f.next d
  get := f.get d
  set := f.set d

/-- The fields of `InterleaveDatasetIterator`, T/interleave.py:47-94.  The lists have `cycle_length` entries and are
functions here.  An iterator object is a dataset number with the iterator's fields.  `pf` is the position of
`_prefetch_ds_iter`, whose elements are new iterators of datasets 0, 1, ...; `kept` is `_exhausted_iterators`, `future`
is `_future_states`. -/
structure ILState (S C : Type) where
  cyc : Nat
  nextDs : Nat
  indices : Nat → Nat
  slots : Nat → Option (Nat × S)
  exState : Nat → Option C
  started : Bool
  kept : Nat → Option (Nat × (Nat × S))
  future : Nat → Option C
  pf : Nat

/-- The result of `get_state`, T/interleave.py:201-208. -/
structure ILCk (C : Type) where
  cyc : Nat
  nextDs : Nat
  indices : Nat → Nat
  states : Nat → Option C
  exhausted : Nat → Bool
  future : Nat → Option C

/-- `any(self._iterators_in_use)` -/
def anyLive {β : Type} (L : Nat) (slots : Nat → Option β) : Bool := (List.range L).any (fun i => (slots i).isSome)

/-- The loop of `__next__`, T/interleave.py:103-167.  `n` datasets, cycle length `L`, `keep` is
`_keep_iterators_after_stop_iteration`. -/
def ilLoop (f : IterFam α) (n L : Nat) (keep : Bool) (F : Nat) : Nat → ILState f.S f.C → Option (ILState f.S f.C × Res α)
  | 0, _ => none
  | k + 1, s =>
    match s.slots s.cyc with
    | some (d, st) => do
      let (st, r) ← f.next d F st
      match r with
      | .item a =>
        some ({ s with slots := Function.update s.slots s.cyc (some (d, st)), cyc := (s.cyc + 1) % L }, .item a)
      | .fail e => some ({ s with slots := Function.update s.slots s.cyc (some (d, st)) }, .fail e)
      | .stop =>
        let g := f.get d st
        ilLoop f n L keep F k
          { s with exState := Function.update s.exState s.cyc (some g.2)
                   kept := if keep then Function.update s.kept s.cyc (some (s.indices s.cyc, (d, g.1))) else s.kept
                   slots := Function.update s.slots s.cyc none
                   cyc := (s.cyc + 1) % L }
    | none =>
      if s.nextDs < n then
        if s.pf < n then
          let st := f.init s.pf
          let s' := { s with pf := s.pf + 1
                             slots := Function.update s.slots s.cyc (some (s.pf, st))
                             exState := Function.update s.exState s.cyc none
                             indices := Function.update s.indices s.cyc s.nextDs }
          match s.future s.nextDs with
          | none => ilLoop f n L keep F k { s' with nextDs := s.nextDs + 1 }
          | some c => do
            match (← f.set s.pf F st c) with
            | (st, some e) =>
              some ({ s' with future := Function.update s.future s.nextDs none
                              slots := Function.update s.slots s.cyc (some (s.pf, st)) }, .fail e)
            | (st, none) =>
              ilLoop f n L keep F k
                { s' with future := Function.update s.future s.nextDs none
                          slots := Function.update s.slots s.cyc (some (s.pf, st))
                          nextDs := s.nextDs + 1 }
        else some (s, .stop)
      else if anyLive L s.slots then ilLoop f n L keep F k { s with cyc := (s.cyc + 1) % L }
      else some (s, .stop)

/-- The loop of `get_state` over the slots, T/interleave.py:170-191.  When a slot was never used, a new iterator is put
there; future states are not looked at.  (With `pf = n` the code would raise; `pf` equals `nextDs` here.) -/
def ilGetLoop (f : IterFam α) (n : Nat) :
    List Nat → ILState f.S f.C → (Nat → Option f.C) → ILState f.S f.C × (Nat → Option f.C)
  | [], s, states => (s, states)
  | i :: is, s, states =>
    match s.slots i with
    | some (d, st) =>
      let g := f.get d st
      ilGetLoop f n is { s with slots := Function.update s.slots i (some (d, g.1)) } (Function.update states i (some g.2))
    | none =>
      match s.exState i with
      | some c => ilGetLoop f n is s (Function.update states i (some c))
      | none =>
        if s.nextDs ≥ n then (s, states)
        else
          let d := if s.started then s.pf else s.nextDs
          let g := f.get d (f.init d)
          ilGetLoop f n is
            { s with pf := if s.started then s.pf + 1 else s.pf
                     slots := Function.update s.slots i (some (d, g.1))
                     indices := Function.update s.indices i s.nextDs
                     nextDs := s.nextDs + 1 }
            (Function.update states i (some g.2))

/-- `get_state`, T/interleave.py:169-209. -/
def ilGet (f : IterFam α) (n L : Nat) (s : ILState f.S f.C) : ILState f.S f.C × ILCk f.C :=
  let r := ilGetLoop f n (List.range L) s (fun _ => none)
  let s := if r.1.started then r.1 else { r.1 with pf := r.1.nextDs }
  (s, { cyc := s.cyc, nextDs := s.nextDs, indices := s.indices, states := r.2,
        exhausted := fun i => (s.exState i).isSome, future := s.future })

/-- The iterator object that receives the state of slot `i`, a state of dataset `idx` (T/interleave.py:262-283): the one in
use if it belongs to that dataset, else a kept exhausted one, else a new one (`none`: `_datasets[idx]` raises). -/
def ilPick (f : IterFam α) (n : Nat) (keep : Bool) (s : ILState f.S f.C) (i idx : Nat) :
    (Nat → Option (Nat × (Nat × f.S))) × Option (Nat × f.S) :=
  match (if idx = s.indices i then s.slots i else none) with
  | some o => (s.kept, some o)
  | none =>
    match s.kept i with
    | some (d, o) =>
      if keep ∧ d = idx then (Function.update s.kept i none, some o)
      else (s.kept, if idx < n then some (idx, f.init idx) else none)
    | none => (s.kept, if idx < n then some (idx, f.init idx) else none)

/-- The loop of `set_state` over the slots, T/interleave.py:256-290.  A state is taken to be truthy (285). -/
def ilSetLoop (f : IterFam α) (n : Nat) (keep : Bool) (F : Nat) (c : ILCk f.C) :
    List Nat → ILState f.S f.C → Option (ILState f.S f.C × Option Err)
  | [], s => some (s, none)
  | i :: is, s =>
    match c.states i with
    | none => ilSetLoop f n keep F c is { s with slots := Function.update s.slots i none }
    | some ck =>
      if c.exhausted i then
        ilSetLoop f n keep F c is { s with exState := Function.update s.exState i (some ck)
                                           slots := Function.update s.slots i none }
      else
        match ilPick f n keep s i (c.indices i) with
        | (_, none) => some (s, some .indexError)
        | (kept, some (d, st)) => do
          match (← f.set d F st ck) with
          | (_, some e) => some ({ s with kept := kept }, some e)
          | (st, none) =>
            ilSetLoop f n keep F c is { s with kept := kept, slots := Function.update s.slots i (some (d, st)) }

/-- `set_state`, T/interleave.py:254-298, for a state that is a copy (e.g. read back from a file); for a state object kept
in memory see `interleaveAliasIter`. -/
def ilSet (f : IterFam α) (n L : Nat) (keep : Bool) (F : Nat) (s : ILState f.S f.C) (c : ILCk f.C) :
    Option (ILState f.S f.C × Option Err) := do
  match (← ilSetLoop f n keep F c (List.range L) s) with
  | (s, some e) => some (s, some e)
  | (s, none) =>
    if c.nextDs > n then some ({ s with pf := c.nextDs }, some .indexError)
    else some ({ s with pf := c.nextDs, cyc := c.cyc, nextDs := c.nextDs, indices := c.indices, future := c.future }, none)

/-- `InterleaveDatasetIterator.__init__`, T/interleave.py:37-94. -/
def ilInit (S C : Type) : ILState S C :=
  { cyc := 0, nextDs := 0, indices := fun i => i, slots := fun _ => none, exState := fun _ => none, started := false,
    kept := fun _ => none, future := fun _ => none, pf := 0 }

/-- `InterleaveDatasetIterator` over `n` datasets; `cycle` is the `cycle_length` argument, reduced to the number of
datasets at 76.  With no datasets `__next__` raises `IndexError` at 104. -/
def interleaveIter (f : IterFam α) (n cycle : Nat) (keep : Bool) : Iter α where
  S := ILState f.S f.C
  C := ILCk f.C
  init := ilInit f.S f.C
  next F s := if min cycle n = 0 then some ({ s with started := true }, .fail .indexError)
              else ilLoop f n (min cycle n) keep F F { s with started := true }
  get s := ilGet f n (min cycle n) s
  set F s c := ilSet f n (min cycle n) keep F s c

/-- The same iterator when the states returned by `get_state` are kept as Python objects in memory: `set_state` stores the
*same list object* as `_iterators_in_use_indices` (T/interleave.py:297) and `__next__` writes into it (148).  The lists
made by `get_state` live in `heap`, a state refers to its list by number, and `alias` says which of them the iterator is
using.  (States are restored into the iterator that made them.) -/
def interleaveAliasIter (f : IterFam α) (n cycle : Nat) (keep : Bool) : Iter α where
  S := ILState f.S f.C × List (Nat → Nat) × Option Nat
  C := ILCk f.C × Nat
  init := (ilInit f.S f.C, [], none)
  next F s := do
    let (b, r) ← (interleaveIter f n cycle keep).next F s.1
    some ((b, match s.2.2 with
      | some a => s.2.1.set a b.indices
      | none => s.2.1, s.2.2), r)
  get s :=
    let g := (interleaveIter f n cycle keep).get s.1
    let heap := match s.2.2 with
      | some a => s.2.1.set a g.1.indices
      | none => s.2.1
    ((g.1, heap ++ [g.2.indices], s.2.2), (g.2, heap.length))
  set F s c := do
    let (b, e) ← (interleaveIter f n cycle keep).set F s.1 { c.1 with indices := s.2.1.getD c.2 c.1.indices }
    match e with
    | some e => some ((b, s.2.1, s.2.2), some e)
    | none => some ((b, s.2.1, some c.2), none)

end Grain
