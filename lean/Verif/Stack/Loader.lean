import Verif.Stack.Interleave
import Verif.Loader.Model
/-
A `DataLoader` with worker processes: the conversion of states (python/data_loader.py:240-340) over the interleave of its workers
(Verif/Stack/Interleave.lean).

Simplifications: those of Verif/Stack/Interleave.lean, except that states are also restored into used iterators.  A state that
`set_state` refuses (`_validate_state`, data_loader.py:490-513) or that lacks a worker cannot be restored here; what happens then is
C41's.
-/
namespace Grain

/-- What `get_state` and `set_state` of `DataLoaderIterator` (python/data_loader.py:516-580) and
`_DataLoaderStateDatasetIterator` (:240-340) do over the interleave of `w + 1` workers with cycle length `w + 1`; `num` reads
`next_index` in the state of a worker and `ofNum` makes a state of it.  Slot `i` of the interleave only ever holds worker `i`
(`LdSlots` in LoaderLemmas.lean), so `iterators_in_use_states[i]` is the state of worker `i`.

`set_state` of the interleave (interleave.py:247-297) restores into the iterator that is in the slot, or into a new one if there is
none, and leaves `_exhausted_iterator_state` as it is; `conf.decode` marks no slot as exhausted. -/
def loaderOver (conf : LoaderConf) (w : Nat) (c : Fin (w + 1) → ConcIter α) (num : ∀ i, (c i).C → Int)
    (ofNum : ∀ i, Int → (c i).C) : ConcIter α where
  S := MtState (ilTrans (w + 1) w) c
  C := LoaderState
  init := (multiOver (ilTrans (w + 1) w) c).init
  step := (multiOver (ilTrans (w + 1) w) c).step
  call := (multiOver (ilTrans (w + 1) w) c).call
  ret := (multiOver (ilTrans (w + 1) w) c).ret
  get := fun s =>
    let g := (multiOver (ilTrans (w + 1) w) c).get s
    let l : IlLoc (w + 1) w := g.2.2
    (g.1, conf.encode (w + 1) l.cyc.val (fun i => if h : i < w + 1 then some (num ⟨i, h⟩ (g.2.1 ⟨i, h⟩)) else none))
  setCall := fun s st t =>
    let d := conf.decode st
    let old : IlLoc (w + 1) w := s.loc
    let slots : Fin (w + 1) → Option (Fin (w + 1)) := fun i =>
      if h : d.indices i.val < w + 1 ∧ d.exhausted i.val = false then some ⟨d.indices i.val, h.1⟩ else none
    s.pc = .idle ∧ conf.validate st = none ∧ ∃ next : Fin (w + 1) → Int, (∀ i, d.states i.val = some (next i)) ∧
      t = { cs := fun i => if old.slots i = slots i then s.cs i else (c i).init
            loc := { cyc := Fin.ofNat (w + 1) d.cyc, nextDs := d.nextDs, slots := slots, exh := old.exh }
            pc := .setPar 0 (fun i => ofNum i (next i)) }
  setRet := (multiOver (ilTrans (w + 1) w) c).setRet

/-- `DataLoader._create_dataset` and `__iter__` (python/data_loader.py:450-488) with `w + 1` worker processes and
`per_worker_buffer_size = size`: worker `i` runs the operations on its slice of what the sampler gives, in a process of its own
(process_prefetch.py:708-755), and the interleave adds a thread that prefetches from it (interleave.py:479-482). -/
def dataLoaderOver (conf : LoaderConf) (w size : Nat) (f : IdxFam α) : ConcIter α :=
  loaderOver conf w (fun i => prefetchOver size (processOver size false (ofIter (f.fam.iter i.val))))
    (fun _ (k : Int) => k) (fun _ (k : Int) => k)

end Grain
