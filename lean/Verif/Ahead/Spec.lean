import Verif.ThreadPrefetch.Model
/-
Counting what is read from the input of a prefetching iterator.
-/
namespace Grain

/-- 1 for an element, 0 for an exception. -/
def Res.elements : Res α → Nat
  | .item _ => 1
  | _ => 0

/-- The iterator `p` with the number of the elements it has returned.  States remember the number; `set_next_index(i)` sets
it to `i`. -/
def Iter.counted (p : Iter α) : Iter α where
  S := p.S × Nat
  C := p.C × Nat
  init := (p.init, 0)
  next F s := (p.next F s.1).map (fun y => ((y.1, s.2 + y.2.elements), y.2))
  get s := (((p.get s.1).1, s.2), ((p.get s.1).2, s.2))
  set F s c := (p.set F s.1 c.1).map (fun y => ((y.1, c.2), y.2))
  getIdx s := p.getIdx s.1
  setIdx s i := (((p.setIdx s.1 i).1, i.toNat), (p.setIdx s.1 i).2)

/-- The number of elements the user has received. -/
def received (outs : List (Res α ⊕ Int)) : Nat :=
  outs.countP (fun o => match o with | .inl (.item _) => true | _ => false)

/-- Calls that do not move the iterator to another position. -/
def TOp.stays : TOp → Bool
  | .restore _ | .fresh _ | .setIndex _ => false
  | _ => true

end Grain
