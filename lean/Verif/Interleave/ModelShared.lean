import Verif.Interleave.Model
import Verif.Cts.Model
/-
`flat_map`, `window_shuffle` and concat-then-split packing keep the state object they give to their parent's `set_state`, and the parent may go on writing into
that object.  T/ = grain/_src/python/dataset/transformations/.
-/
namespace Grain

/-- How a state given to `InterleaveDatasetIterator.set_state` looks later: `set_state` keeps the list of indices and the dictionary
of future states of that object (T/interleave.py:297-298), `__next__` writes into them (147-148, 157) and so does `get_state` (190). -/
def ilLook (s : ILState S C) (c : ILCk C) : ILCk C := { c with indices := s.indices, future := s.future }

/-- `_FlatMapDatasetIterator` (T/flatmap.py:78-141) when the state objects are taken into account: `look s c` is how the object `c`
that was given to the parent's `set_state` looks when the parent's fields are `s`.  The flag says that `_last_parent_state` is that
object (126-127); `__next__` replaces it by a new one when it reads from the parent (106).  States leave the iterator as copies
(they are written to a file). -/
def flatMapShared (f : α → Py (List β)) (p : Iter α) (look : p.S → p.C → p.C) : Iter β where
  S := FlatMapState p.S p.C β × Bool
  C := p.C × Nat
  init := ((flatMapIter f p).init, false)
  next F s := do
    let (t, r) ← (flatMapIter f p).next F s.1
    some ((t, s.2 && (s.1.buf[s.1.idx]?).isSome), r)
  get s := (s, (if s.2 then look s.1.ps s.1.last else s.1.last, s.1.idx))
  set F s c := do
    let (t, e) ← (flatMapIter f p).set F s.1 c
    some ((t, true), e)

/-- The same for `_WindowShuffleDatasetIterator` (T/shuffle.py:182-260): `_parent_window_start_iter_state` is given to the parent's
`set_state` (249-252) and replaced when a new window is read (223). -/
def windowShuffleShared (shuffle : Nat → List α → Py (List α)) (w : Nat) (p : Iter α) (look : p.S → p.C → p.C) : Iter α where
  S := WinState p.S p.C α × Bool
  C := p.C × Nat × Nat
  init := ((windowShuffleIter shuffle w p).init, false)
  next F s := do
    let (t, r) ← (windowShuffleIter shuffle w p).next F s.1
    some ((t, s.2 && (!s.1.window.isEmpty || s.1.exhausted)), r)
  get s := (s, (if s.2 then look s.1.ps s.1.start else s.1.start, s.1.windowIndex, s.1.pos))
  set F s c := do
    let (t, e) ← (windowShuffleIter shuffle w p).set F s.1 c
    some ((t, true), e)

/-- The iterator whose states carry a flag: is the object one that was given to `set_state`? -/
def Iter.tagged (p : Iter α) : Iter α where
  S := p.S
  C := p.C × Bool
  init := p.init
  next := p.next
  get s := ((p.get s).1, ((p.get s).2, false))
  set F s c := p.set F s c.1
  getIdx := p.getIdx
  setIdx := p.setIdx

/-- The same for `_ConcatThenSplitDatasetIterator` (T/packing_concat_then_split.py:221-573): the state given to the parent's `set_state`
(533) is kept with the remainder element (545-551) and becomes the parent state of the next checkpoint (505-512). -/
def ctsShared (cfg : CtsCfg τ) (p : Iter (List (CtsVal τ))) (look : p.S → p.C → p.C) : Iter (List (CtsCol τ)) where
  S := CtsState τ p.S (p.C × Bool)
  C := CtsCk p.C
  init := (ctsIter cfg p.tagged).init
  next := (ctsIter cfg p.tagged).next
  get s := (s, ⟨if s.ck.parent.2 then look s.parent s.ck.parent.1 else s.ck.parent.1, s.ck.slices, s.ck.count⟩)
  set F s c := (ctsIter cfg p.tagged).set F s ⟨(c.parent, true), c.slices, c.count⟩

end Grain
