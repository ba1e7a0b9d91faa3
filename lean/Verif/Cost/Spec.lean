import Verif.Iter.Model
import Verif.Packing.Model
import Mathlib.Data.ENat.Basic
import Mathlib.Algebra.BigOperators.Fin
/-
Counting what iterators read from their inputs.
-/
namespace Grain

/-- The iterator `p` with a record of the outcomes of all `next` calls made on it.  Saving and restoring leave the record alone. -/
def Iter.traced (p : Iter α) : Iter α where
  S := p.S × List (Res α)
  C := p.C
  init := (p.init, [])
  next F s := (p.next F s.1).map (fun y => ((y.1, s.2 ++ [y.2]), y.2))
  get s := (((p.get s.1).1, s.2), (p.get s.1).2)
  set F s c := (p.set F s.1 c).map (fun y => ((y.1, s.2), y.2))
  getIdx s := p.getIdx s.1
  setIdx s i := (((p.setIdx s.1 i).1, s.2), (p.setIdx s.1 i).2)

/-- What can have happened to an iterator: `a` calls of `next`, `r` calls of `set_state` (with any state, also when they raise) and any
number of calls of `get_state`, in any order. -/
inductive Used (p : Iter α) : Nat → Nat → p.S → Prop
  | new : Used p 0 0 p.init
  | next {a r : Nat} {s s' : p.S} {F : Nat} {x : Res α} : Used p a r s → p.next F s = some (s', x) → Used p (a + 1) r s'
  | save {a r : Nat} {s : p.S} : Used p a r s → Used p a r (p.get s).1
  | restore {a r : Nat} {s s' : p.S} {F : Nat} {c : p.C} {e : Option Err} : Used p a r s → p.set F s c = some (s', e) → Used p a (r + 1) s'

/-- The dataset is not empty: after going back to the start, `next` does not say that the data is over. -/
def NotEmpty (p : Iter α) : Prop :=
  ∀ F F' s s' s'' r, p.set F s (p.get p.init).2 = some (s', none) → p.next F' s' = some (s'', r) → r ≠ .stop

/-- Pipelines `p` above inputs that are watched: `R s` is the number of calls of `next` that the inputs have received when the state
of `p` is `s`; `kn` is how many one call of `next` may cause and `ks` how many one call of `set_state` may cause (`⊤`: no bound). -/
inductive Costs : {α : Type} → (p : Iter α) → (p.S → Nat) → ℕ∞ → ℕ∞ → Prop
  | input {α : Type} (p : Iter α) : Costs p.traced (fun s => s.2.length) 1 0
  | map {α β : Type} (f : α → Py (Option β)) {p : Iter (Option α)} {R kn ks} : Costs p R kn ks → Costs (mapIter f p) R kn ks
  | randomMap {α β : Type} (f : α → Nat → Py (Option β)) (i n : Nat) {p : Iter (Option α)} {R kn ks} : Costs p R kn ks →
      Costs (randomMapIter f i n p) (fun s => R s.1) kn ks
  | mapWithIndex {α β : Type} (f : Nat → α → Py (Option β)) {p : Iter (Option α)} {R kn ks} : Costs p R kn ks →
      Costs (mapWithIndexIter f p) (fun s => R s.1) kn ks
  | limit {α : Type} (n : Nat) {p : Iter α} {R kn ks} : Costs p R kn ks → Costs (limitIter n p) (fun s => R s.1) kn ks
  | filter {α : Type} (f : α → Py Bool) (thr : Option Threshold) {p : Iter α} {R kn ks} : Costs p R kn ks →
      Costs (filterIter f thr p) (fun s => R s.1) ⊤ ks
  | batch {α β : Type} (b : Nat) (drop : Bool) (f : List α → Py β) {p : Iter α} {R kn ks} : Costs p R kn ks →
      Costs (batchIter b drop f p) R (b * kn) ks
  | flatMap {α β : Type} (f : α → Py (List β)) {p : Iter α} {R kn ks} : Costs p R kn ks →
      (∀ a l, f a = .ok l → l ≠ []) → Costs (flatMapIter f p) (fun s => R s.ps) kn (ks + kn)
  | flatMapAny {α β : Type} (f : α → Py (List β)) {p : Iter α} {R kn ks} : Costs p R kn ks →
      Costs (flatMapIter f p) (fun s => R s.ps) ⊤ (ks + kn)
  | rebatch {α : Type} (b : Nat) (drop : Bool) {p : Iter (List α)} {R kn ks} : Costs p R kn ks →
      Costs (rebatchIter b drop p) (fun s => R s.ps) ⊤ ks
  | pack {E R' : Type} (pk : Packer E R') (order : Nat → List R' → List Nat) {p : Iter E} {R kn ks} : Costs p R kn ks →
      Costs (packIter pk order p) (fun s => R s.parent) ⊤ ks
  | rep {α : Type} (n : Option Nat) {p : Iter α} {R kn ks} : Costs p R kn ks → NotEmpty p →
      Costs (repeatIter n p) (fun s => R s.ps) (kn + (ks + kn)) ks
  | windowShuffle {α : Type} (sh : Nat → List α → Py (List α)) (w : Nat) {p : Iter α} {R kn ks} : Costs p R kn ks →
      Costs (windowShuffleIter sh w p) (fun s => R s.ps) (w * kn) (ks + w * kn)
  | zip {α : Type} {n : Nat} (strict : Bool) (ps : Fin n → Iter α) (R : ∀ i, (ps i).S → Nat) (kn ks : Fin n → ℕ∞)
      (h : ∀ i, Costs (ps i) (R i) (kn i) (ks i)) :
      Costs (zipIter strict ps) (fun s => ∑ i, R i (s i)) (∑ i, kn i) (∑ i, ks i)
  | mix {α : Type} {n : Nat} (proportions : List Nat) (ps : Fin n → Iter α) (R : ∀ i, (ps i).S → Nat) (kn : ℕ∞) (ks : Fin n → ℕ∞)
      (h : ∀ i, Costs (ps i) (R i) kn (ks i)) :
      Costs (mixIter proportions ps) (fun s => ∑ i, R i (s.parents i)) kn (∑ i, ks i)

end Grain
