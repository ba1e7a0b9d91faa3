import Verif.Stack.Model
import Verif.MapDs.Model
/-
Transformations with several inputs (`zip`, `mix`, interleave) over iterators that may have threads of their own: trees of layers.

Simplifications: those of Verif/Stack/Model.lean; all inputs have one type of elements (a sum type for others).
-/
namespace Grain

/-- What `__next__` of a transformation with `n` inputs does between its calls of `next(self._parents[i])`: as `Trans`, with
the number of the input that is asked.  `onGet`: what `get_state` changes in the local state before it is saved; `sets l i`:
whether `set_state` restores input `i` for the local state `l` that was saved (otherwise it drops the input, and uses a new
one if it needs it later). -/
structure MultiTrans (n : Nat) (α β : Type) where
  L : Type
  K : Type
  l0 : L
  start : L → (Fin n × K) ⊕ (Option β × L)
  resume : Fin n → K → Option α → (Fin n × K) ⊕ (Option β × L)
  onGet : L → L := id
  sets : L → Fin n → Bool := fun _ _ => true

/-- Ask the next input, or return if there is none. -/
def askAfter {n : Nat} {K β L : Type} (i : Fin n) (k : K) (r : Option β) (l : L) : (Fin n × K) ⊕ (Option β × L) :=
  if h : i.val + 1 < n then .inl (⟨i.val + 1, h⟩, k) else .inr (r, l)

/-- `ZipDatasetIterator.__next__` (transformations/zip.py:103-135) of at least one input; `none` in the state inside the call
means that the first input is over and `strict` makes it check the others (:118-128).  Where `strict` raises `ValueError`
(:114, :127) the model returns `StopIteration`; the theorems exclude it. -/
def zipTrans (n : Nat) (strict : Bool) : MultiTrans (n + 1) α (List α) where
  L := Unit
  K := Option (List α)
  l0 := ()
  start := fun _ => .inl (0, some [])
  resume := fun i k r =>
    match k, r with
    | some items, some a => askAfter i (some (items ++ [a])) (some (items ++ [a])) ()
    | some _, none => if strict && i.val == 0 then askAfter i none none () else .inr (none, ())
    | none, some _ => .inr (none, ())
    | none, none => askAfter i none none ()

/-- `_MixedDatasetIterator.__next__` (transformations/mix.py:211-231); `sel index` is the input chosen by
`_dataset_and_key_of_next_element`.  The local state is `_index` and `_stop`. -/
def mixTrans (n : Nat) (sel : Nat → Fin n) : MultiTrans n α α where
  L := Nat × Bool
  K := Nat
  l0 := (0, false)
  start := fun l => if l.2 then .inr (none, l) else .inl (sel l.1, l.1 + 1)
  resume := fun _ index r =>
    match r with
    | some a => .inr (some a, (index, false))
    | none => .inr (none, (index, true))

/-- The choice of `_MixedDatasetIterator` (mix.py:216-219) among `n + 1` inputs.  The numbers are in range for positive
proportions of the right number (`mixSel_eq`). -/
def mixSel (n : Nat) (proportions : List Nat) (index : Nat) : Fin (n + 1) :=
  match datasetAndKey (index : Int) proportions with
  | .ok (d, _) => if h : d < n + 1 then ⟨d, h⟩ else 0
  | .error _ => 0

/-- `FilterDatasetIterator.__next__` (transformations/filter.py:166-187, without the
thresholds on what is filtered out, which are C20's): read on until an element passes or the input is
over. -/
def filterTrans (f : α → Bool) : Trans α α where
  L := Unit
  K := Unit
  l0 := ()
  start := fun _ => .inl ()
  resume := fun _ r =>
    match r with
    | some a => if f a then .inr (some a, ()) else .inl ()
    | none => .inr (none, ())

/-- Where the user's thread is in a transformation with several inputs. -/
inductive MtPc (n : Nat) (β K C : Type) where
  | idle
  | ask (i : Fin n) (k : K)
  | wait (i : Fin n) (k : K)
  | done (r : Option β)
  | setPar (j : Nat) (ck : C)
  | setting (i : Fin n) (ck : C)
  | setDone

/-- A transformation over several inputs: their states, its own, and where its `__next__` or `set_state` is. -/
structure MtState (T : MultiTrans n α β) (c : Fin n → ConcIter α) where
  cs : (i : Fin n) → (c i).S
  loc : T.L
  pc : MtPc n β T.K ((i : Fin n) → (c i).C)

/-- Continue with what `start` or `resume` said. -/
def MtState.goto {T : MultiTrans n α β} {c : Fin n → ConcIter α} (s : MtState T c) :
    (Fin n × T.K) ⊕ (Option β × T.L) → MtState T c
  | .inl (i, k) => { s with pc := .ask i k }
  | .inr (r, l) => { s with pc := .done r, loc := l }

/-- One step of some thread at or below the transformation: a thread below an input, `next` of an input entered or left;
the inputs are restored one after the other (zip.py:140-142, mix.py:242-250). -/
inductive MtStep (T : MultiTrans n α β) (c : Fin n → ConcIter α) : MtState T c → MtState T c → Prop
  | below (s i t) : (c i).step (s.cs i) t → MtStep T c s { s with cs := Function.update s.cs i t }
  | ask (s i k t) : s.pc = .ask i k → (c i).call (s.cs i) t →
      MtStep T c s { s with cs := Function.update s.cs i t, pc := .wait i k }
  | got (s i k r t) : s.pc = .wait i k → (c i).ret (s.cs i) r t →
      MtStep T c s ({ s with cs := Function.update s.cs i t }.goto (T.resume i k r))
  | setPar (s i ck t) : s.pc = .setPar i.val ck → T.sets s.loc i = true → (c i).setCall (s.cs i) (ck i) t →
      MtStep T c s { s with cs := Function.update s.cs i t, pc := .setting i ck }
  | setBack (s i ck t) : s.pc = .setting i ck → (c i).setRet (s.cs i) t →
      MtStep T c s { s with cs := Function.update s.cs i t, pc := .setPar (i.val + 1) ck }
  | setSkip (s) (i : Fin n) (ck) : s.pc = .setPar i.val ck → T.sets s.loc i = false →
      MtStep T c s { s with pc := .setPar (i.val + 1) ck }
  | setEnd (s ck) : s.pc = .setPar n ck → MtStep T c s { s with pc := .setDone }

/-- The iterator of a transformation over the inputs `c` (zip.py:88-142, mix.py:183-253). -/
def multiOver (T : MultiTrans n α β) (c : Fin n → ConcIter α) : ConcIter β where
  S := MtState T c
  C := ((i : Fin n) → (c i).C) × T.L
  init := { cs := fun i => (c i).init, loc := T.l0, pc := .idle }
  step := MtStep T c
  call := fun s t => s.pc = .idle ∧ t = s.goto (T.start s.loc)
  ret := fun s r t => s.pc = .done r ∧ t = { s with pc := .idle }
  get := fun s => ({ s with cs := fun i => ((c i).get (s.cs i)).1, loc := T.onGet s.loc },
    (fun i => ((c i).get (s.cs i)).2, T.onGet s.loc))
  setCall := fun s ck t => s.pc = .idle ∧
    t = { cs := fun i => if T.sets ck.2 i then s.cs i else (c i).init, pc := .setPar 0 ck.1, loc := ck.2 }
  setRet := fun s t => s.pc = .setDone ∧ t = { s with pc := .idle }

end Grain
