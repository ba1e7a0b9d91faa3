import Verif.Stack.Model
import Verif.Packing.Model
/-
Transformations that keep states of their parent, and restore by reading it again or restore the parent themselves: window
shuffle, packing, flat_map, rebatch, repeat; over a parent that may have threads.

Simplifications: as in Verif/Stack/Model.lean (nothing raises but `StopIteration`, states are values and not shared).
-/
namespace Grain

/-- What a call of such a transformation does next: return; `next(self._parent)`; keep `self._parent.get_state()` as state
`m`; assign one of the kept states to another; `self._parent.set_state` of a kept state. -/
inductive AnAct (r : Nat) (β D K : Type) where
  | ret (o : Option β) (d : D)
  | next
  | mark (m : Fin (r + 1)) (k : K)
  | copy (m m' : Fin (r + 1)) (k : K)
  | back (m : Fin (r + 1)) (k : K)

/-- A transformation that keeps `r + 1` states of its parent; state 0 goes into its own state, or, with `live`,
`self._parent.get_state()` does.  `D` is what it has besides, `E` the part of it that goes into the state, `K` where it is in a
call. -/
structure Anchor (α β : Type) where
  r : Nat
  live : Bool := false
  D : Type
  E : Type
  K : Type
  d0 : D
  start : D → K
  act : K → AnAct r β D K
  resume : K → Option α → K
  pub : D → E
  /-- `set_state`, after that of the parent -/
  onSet : D → E → K

/-- Where the user's thread is. -/
inductive AnPc (K E : Type) where
  | idle
  | run (k : K)
  | wait (k : K)
  | rewind (k : K)
  | setPar (e : E)
  | setting (e : E)

structure AnState (T : Anchor α β) (c : ConcIter α) where
  cs : c.S
  regs : Fin (T.r + 1) → c.C
  loc : T.D
  pc : AnPc T.K T.E

/-- One step of some thread at or below the transformation. -/
inductive AnStep (T : Anchor α β) (c : ConcIter α) : AnState T c → AnState T c → Prop
  | below (s t) : c.step s.cs t → AnStep T c s { s with cs := t }
  | ask (s k t) : s.pc = .run k → T.act k = .next → c.call s.cs t → AnStep T c s { s with cs := t, pc := .wait k }
  | got (s k r t) : s.pc = .wait k → c.ret s.cs r t → AnStep T c s { s with cs := t, pc := .run (T.resume k r) }
  | mark (s k m k') : s.pc = .run k → T.act k = .mark m k' →
      AnStep T c s { s with cs := (c.get s.cs).1, regs := Function.update s.regs m (c.get s.cs).2, pc := .run k' }
  | copy (s k m m' k') : s.pc = .run k → T.act k = .copy m m' k' →
      AnStep T c s { s with regs := Function.update s.regs m (s.regs m'), pc := .run k' }
  | back (s k m k' t) : s.pc = .run k → T.act k = .back m k' → c.setCall s.cs (s.regs m) t →
      AnStep T c s { s with cs := t, pc := .rewind k' }
  | rewound (s k t) : s.pc = .rewind k → c.setRet s.cs t → AnStep T c s { s with cs := t, pc := .run k }
  | setPar (s e t) : s.pc = .setPar e → c.setCall s.cs (s.regs 0) t → AnStep T c s { s with cs := t, pc := .setting e }
  | setBack (s e t) : s.pc = .setting e → c.setRet s.cs t → AnStep T c s { s with cs := t, pc := .run (T.onSet s.loc e) }

/-- The iterator of the transformation over `c`: `__init__` keeps the parent's first state (shuffle.py:200, packing.py:90,
flatmap.py:91, rebatch.py:91, repeat.py:97).  The state to be restored is put into register 0. -/
def anchorOver (T : Anchor α β) (c : ConcIter α) : ConcIter β where
  S := AnState T c
  C := c.C × T.E
  init := { cs := (c.get c.init).1, regs := fun _ => (c.get c.init).2, loc := T.d0, pc := .idle }
  step := AnStep T c
  call := fun s t => s.pc = .idle ∧ t = { s with pc := .run (T.start s.loc) }
  ret := fun s o t => ∃ k d, s.pc = .run k ∧ T.act k = .ret o d ∧ t = { s with loc := d, pc := .idle }
  get := fun s => ({ s with cs := cond T.live (c.get s.cs).1 s.cs }, (cond T.live (c.get s.cs).2 (s.regs 0), T.pub s.loc))
  setCall := fun s ck t => s.pc = .idle ∧ t = { s with regs := Function.update s.regs 0 ck.1, pc := .setPar ck.2 }
  setRet := fun s t => ∃ k o d, s.pc = .run k ∧ T.act k = .ret o d ∧ t = { s with loc := d, pc := .idle }

/-! ### Window shuffle -/

/-- `_WindowShuffleDatasetIterator` (transformations/shuffle.py:182-201): `_window_index`, `_pos_in_window`, `_window` (the
next element first; the code pops from the end), `_parent_exhausted`. -/
structure WinLoc (α : Type) where
  index : Nat
  pos : Nat
  window : List α
  exhausted : Bool

/-- Where it is in a call: at the assignment of the parent's state (shuffle.py:225), in
`_fill_and_shuffle_window` (:203-214) with the elements read so far, either from `__next__` or from `set_state`; or
returning. -/
inductive WinK (α : Type) where
  | keep (d : WinLoc α)
  | fill (set : Bool) (d : WinLoc α) (acc : List α)
  | out (o : Option α) (d : WinLoc α)

/-- The end of `__next__`, shuffle.py:229-235. -/
def winTake (d : WinLoc α) : WinK α :=
  match d.window with
  | [] => .out none d
  | a :: rest => .out (some a)
      { d with pos := d.pos + 1, window := rest, index := if rest.isEmpty then d.index + 1 else d.index }

/-- The window after the last element was read: shuffle.py:212-214 (`shuffle` with the window's number; the list is
reversed because the code pops from the end), then :227-235 in `__next__`, :256-257 in `set_state`. -/
def winFilled (shuffle : Nat → List α → List α) (set : Bool) (d : WinLoc α) (acc : List α) (over : Bool) : WinK α :=
  let window := (shuffle d.index acc).reverse
  let d := { d with exhausted := d.exhausted || over }
  if set then .out none { d with window := window.drop (min d.pos window.length) }
  else winTake { d with window := window, pos := 0 }

/-- Window shuffle, shuffle.py:203-257.  `WindowShuffleIterDataset` does not check the size of the window. -/
def winAnchor (shuffle : Nat → List α → List α) (w : Nat) : Anchor α α where
  r := 0
  D := WinLoc α
  E := Nat × Nat
  K := WinK α
  d0 := { index := 0, pos := 0, window := [], exhausted := false }
  start := fun d => if d.window.isEmpty then (if d.exhausted then .out none d else .keep d) else winTake d
  act := fun k =>
    match k with
    | .keep d => .mark 0 (if w = 0 then winFilled shuffle false d [] false else .fill false d [])
    | .fill _ _ _ => .next
    | .out o d => .ret o d
  resume := fun k r =>
    match k with
    | .fill set d acc =>
      match r with
      | some a =>
        if acc.length + 1 < w then .fill set d (acc ++ [a]) else winFilled shuffle set d (acc ++ [a]) false
      | none => winFilled shuffle set d acc true
    | k => k
  pub := fun d => (d.index, d.pos)
  onSet := fun d e =>
    let d := { d with index := e.1, pos := e.2, exhausted := false }
    if w = 0 then winFilled shuffle true d [] false else .fill true d []

/-! ### Packing -/

/-- `PackingDatasetIterator` (transformations/packing.py:87-103): `_current_batch`, `_packed_batch` with the order of its rows,
`_next_row`, `_counter`.  The kept states of the parent are 0 `_last_emitted_batch_parent_state`,
1 `_current_batch_parent_state`, 2 `prior_iterator_state`. -/
structure PkLoc (pk : Packer E R) where
  current : Option pk.B
  packed : Option (List R × List Nat)
  nextRow : Nat
  counter : Nat

/-- Where it is in a call: at the head of the loop (packing.py:208), before `next(self._parent)` (:211), at the assignment of
`_current_batch_parent_state` (:217, 252), at the one of `_last_emitted_batch_parent_state` (:198-200), in `_reset` (:90);
or returning. -/
inductive PkK (pk : Packer E R) where
  | head (d : PkLoc pk)
  | read (d : PkLoc pk)
  | final (d : PkLoc pk) (rows : List R) (ord : List Nat)
  | shift (o : Option R) (d : PkLoc pk)
  | reset (d : PkLoc pk)
  | out (o : Option R) (d : PkLoc pk)

/-- One row of the packed batch, packing.py:182-204.  An index outside the batch would raise: `Packs` excludes it. -/
def pkEmit {pk : Packer E R} (d : PkLoc pk) (rows : List R) (ord : List Nat) : PkK pk :=
  match ord[d.nextRow]?.bind (fun i => rows[i]?) with
  | none => .out none d
  | some row =>
    if d.nextRow + 1 ≥ rows.length then .shift (some row) { d with packed := none, nextRow := 0, counter := d.counter + 1 }
    else .out (some row) { d with nextRow := d.nextRow + 1, counter := d.counter + 1 }

/-- `_finalize_current_batch`, packing.py:149-174. -/
def pkFinal {pk : Packer E R} (order : Nat → List R → List Nat) (d : PkLoc pk) (b : pk.B) (new : Option pk.B) : PkK pk :=
  let rows := pk.finish b
  let ord := order (d.counter - d.nextRow) rows
  .final { d with packed := some (rows, ord), current := new } rows ord

/-- After `next(self._parent)`, packing.py:212-266.  Where the code raises, `Packs` excludes it. -/
def pkRead {pk : Packer E R} (order : Nat → List R → List Nat) (d : PkLoc pk) : Option E → PkK pk
  | none =>
    match d.current with
    | some b => pkFinal order d b none
    | none => .out none d
  | some e =>
    let b := d.current.getD pk.new
    match pk.tryAdd b e with
    | .ok (some b') => .head { d with current := some b' }
    | .ok none =>
      match pk.tryAdd pk.new e with
      | .ok (some b1) => pkFinal order d b (some b1)
      | _ => .out none d
    | .error _ => .out none d

/-- Packing, packing.py:87-266. -/
def packAnchor (pk : Packer E R) (order : Nat → List R → List Nat) : Anchor E R where
  r := 2
  D := PkLoc pk
  E := Nat × Nat
  K := PkK pk
  d0 := { current := none, packed := none, nextRow := 0, counter := 0 }
  start := fun d =>
    match d.packed with
    | some (rows, ord) => pkEmit d rows ord
    | none => .head d
  act := fun k =>
    match k with
    | .head d => .mark 2 (.read d)
    | .read _ => .next
    | .final d rows ord => .copy 1 2 (pkEmit d rows ord)
    | .shift o d => .copy 0 1 (.out o d)
    | .reset d => .mark 0 (.out none d)
    | .out o d => .ret o d
  resume := fun k r =>
    match k with
    | .read d => pkRead order d r
    | k => k
  pub := fun d => (d.nextRow, d.counter)
  onSet := fun _ e => .reset { current := none, packed := none, nextRow := e.1, counter := e.2 }

/-! ### flat_map -/

/-- `_FlatMapDatasetIterator` (transformations/flatmap.py:81-92): `_next_index_in_buffer`, `_buffer`. -/
structure FmLoc (β : Type) where
  idx : Nat
  buf : List β

/-- Where it is in a call: at the head of the loop (flatmap.py:103), before `next(self._parent)` in the loop (:108) or in
`set_state` (:130); or returning. -/
inductive FmK (β : Type) where
  | head (d : FmLoc β)
  | read (set : Bool) (d : FmLoc β)
  | out (o : Option β) (d : FmLoc β)

/-- flat_map, flatmap.py:100-138. -/
def flatMapAnchor (f : α → List β) : Anchor α β where
  r := 0
  D := FmLoc β
  E := Nat
  K := FmK β
  d0 := { idx := 0, buf := [] }
  start := .head
  act := fun k =>
    match k with
    | .head d =>
      match d.buf[d.idx]? with
      | some b => .ret (some b) { d with idx := d.idx + 1 }
      | none => .mark 0 (.read false d)
    | .read _ _ => .next
    | .out o d => .ret o d
  resume := fun k r =>
    match k with
    | .read false d =>
      match r with
      | some a => .head { idx := 0, buf := f a }
      | none => .out none d
    | .read true d =>
      match r with
      | some a => .out none { d with buf := f a }
      | none => .out none { d with idx := 0 }
    | k => k
  pub := fun d => d.idx
  onSet := fun d e => .read true { d with idx := e }

/-! ### Repeat -/

/-- Where `_RepeatDatasetIterator` (transformations/repeat.py:84-140) is in a call: before `next(self._parent)` (:119), before
`self._parent.set_state(self._parent_starting_state)` (:128), or returning; with `_epoch`. -/
inductive RpK (α : Type) where
  | read (epoch : Nat)
  | again (epoch : Nat)
  | out (o : Option α) (epoch : Nat)

/-- Repeat, repeat.py:112-137.  Register 1 is `_parent_starting_state`. -/
def repeatAnchor (epochs : Option Nat) : Anchor α α where
  r := 1
  live := true
  D := Nat
  E := Nat
  K := RpK α
  d0 := 0
  start := fun epoch => if epochs = some epoch then .out none epoch else .read epoch
  act := fun k =>
    match k with
    | .read _ => .next
    | .again epoch => .back 1 (.read epoch)
    | .out o epoch => .ret o epoch
  resume := fun k r =>
    match k with
    | .read epoch =>
      match r with
      | some a => .out (some a) epoch
      | none => if epochs = some (epoch + 1) then .out none (epoch + 1) else .again (epoch + 1)
    | k => k
  pub := fun epoch => epoch
  onSet := fun _ e => .out none e

/-! ### Rebatch -/

/-- `_RebatchDatasetIterator` (transformations/rebatch.py:76-91): `_current_batch` (as the list of its rows), `_batch_idx`. -/
structure RbLoc (α : Type) where
  cur : Option (List α)
  idx : Nat

/-- Where it is in a call: before `self._last_parent_state = self._parent.get_state()` (rebatch.py:133), before
`next(self._parent)` (:134), in `set_state` (:101), or returning; with `batch_dim_needed` and `to_concatenate` (`none` while
it is empty). -/
inductive RbK (α : Type) where
  | fetch (d : RbLoc α) (needed : Nat) (acc : Option (List α))
  | read (d : RbLoc α) (needed : Nat) (acc : Option (List α))
  | reset (d : RbLoc α)
  | out (o : Option (List α)) (d : RbLoc α)

/-- The rest of the loop with the current batch `cur`, rebatch.py:143-172: enough rows, or all the rest of them and then the
next batch. -/
def rbTake (cur : List α) (idx needed : Nat) (acc : Option (List α)) : RbK α :=
  if idx + needed ≤ cur.length then
    .out (some (acc.getD [] ++ (cur.drop idx).take needed)) { cur := some cur, idx := idx + needed }
  else .fetch { cur := some cur, idx := cur.length } (needed - (cur.length - idx)) (some (acc.getD [] ++ cur.drop idx))

/-- Rebatch, rebatch.py:93-187.  An element is the list of its rows.  An empty batch, for which the code raises (:147-150), is
excluded by `Concats`; `RebatchIterDataset` demands a positive batch size (rebatch.py:43-44). -/
def rebatchAnchor (b : Nat) (drop : Bool) : Anchor (List α) (List α) where
  r := 0
  D := RbLoc α
  E := Nat
  K := RbK α
  d0 := { cur := none, idx := 0 }
  start := fun d =>
    match d.cur with
    | some cur => if d.idx ≥ cur.length then .fetch d b none else rbTake cur d.idx b none
    | none => .fetch d b none
  act := fun k =>
    match k with
    | .fetch d needed acc => .mark 0 (.read d needed acc)
    | .read _ _ _ => .next
    | .reset d => .mark 0 (.out none d)
    | .out o d => .ret o d
  resume := fun k r =>
    match k with
    | .read d needed acc =>
      match r with
      | some cur => rbTake cur (if d.cur.isNone then d.idx else 0) needed acc
      | none => if drop then .out none d else .out acc d
    | k => k
  pub := fun d => d.idx
  onSet := fun _ e => .reset { cur := none, idx := e }

end Grain
