import Verif.Cts.Spec
import Verif.Iter.Basic
/-
Concat-then-split packing: grain/_src/python/dataset/transformations/packing_concat_then_split.py (CT).

The features are numbered instead of named; every element has all of them (the check CT:439-454 is left out).  An array is the
list of its entries along the first axis.
-/
namespace Grain

/-- A slice: a pair of integers; JSON turns the tuples of a state into lists. -/
structure CtsSlice where
  isList : Bool
  start : Int
  stop : Int
  deriving DecidableEq

/-- `_EMPTY_SLICE = (-1, -1)`, CT:69. -/
def emptySlice : CtsSlice := { isList := false, start := -1, stop := -1 }

/-- The features and slices of `_CtsElement`, CT:136-151; meta features have no slice. -/
structure CtsBody (τ : Type) where
  vals : List (CtsVal τ)
  slices : List (Option CtsSlice)

/-- `feature[start:stop]`. -/
def pySub (l : List α) (start stop : Int) : List α :=
  let norm := fun (i : Int) => if i < 0 then max (i + l.length) 0 else min i l.length
  (l.take (norm stop).toNat).drop (norm start).toNat

/-- `get_sliced_features` of one feature, CT:183-191. -/
def sliceVal (v : CtsVal τ) (sl : Option CtsSlice) : List τ :=
  if v.scalar then v.toks
  else
    match sl with
    | none => v.toks
    | some s => if s = emptySlice then v.toks else pySub v.toks s.start s.stop

/-- The current tokens of all features. -/
def CtsBody.cur (b : CtsBody τ) : List (List τ) := List.zipWith sliceVal b.vals b.slices

/-- `_empty_slices`, CT:515-521. -/
def emptySlices (cfg : CtsCfg τ) : List (Option CtsSlice) := cfg.feats.map (fun f => if f.isMeta then none else some emptySlice)

/-- `_can_optimize_as_full_length`, CT:264-274. -/
def fullLength (cfg : CtsCfg τ) (b : CtsBody τ) : Bool :=
  (cfg.feats.zip b.cur).all (fun x => decide (x.2.length ≤ x.1.len)) && (cfg.feats.zip b.cur).any (fun x => decide (x.2.length = x.1.len))

/-- The loop of `_pack_elements` over the elements, for one feature, CT:297-323. -/
def packColGo (f : CtsFeat τ) : Nat → Nat → List τ → List (Nat × Nat) → List (List τ) → Py (List τ × List (Nat × Nat))
  | _, _, vals, aux, [] => .ok (vals, aux)
  | seg, start, vals, aux, v :: vs =>
    let stop := start + v.length
    if stop > f.len then .error .runtimeError
    else
      let vals := vals.take start ++ v ++ vals.drop stop
      let aux := aux.take start ++ (List.range v.length).map (fun k => (seg, k)) ++ aux.drop stop
      match f.bos with
      | none => packColGo f (seg + 1) stop vals aux vs
      | some b => if start < f.len then packColGo f (seg + 1) stop (vals.set start b) aux vs else .error .indexError

/-- `_pack_elements` of one feature, CT:283-327. -/
def packCol (zero : τ) (f : CtsFeat τ) (vs : List (List τ)) : Py (CtsCol τ) :=
  match packColGo f 1 0 (List.replicate f.len zero) (List.replicate f.len (0, 0)) vs with
  | .error e => .error e
  | .ok (vals, aux) => .ok { vals := vals, aux := if f.isMeta then none else some aux }

/-- `_pack_elements`, CT:276-329. -/
def packBodies (cfg : CtsCfg τ) (bs : List (CtsBody τ)) : Py (List (CtsCol τ)) :=
  if bs.isEmpty then .error .runtimeError
  else (cfg.feats.mapIdx (fun k f => (k, f))).mapM (fun x => packCol cfg.zero x.2 (bs.map (fun b => (b.cur[x.1]?).getD [])))

/-- `split` of one feature, CT:170-178: the left and right slices. -/
def splitOne (v : CtsVal τ) (sl : Option CtsSlice) (p : Option Int) : Option CtsSlice × Option CtsSlice :=
  match p with
  | none => (none, none)
  | some p =>
    let (start, stop) :=
      match sl with
      | some s => if s ≠ emptySlice then (s.start, s.stop) else (0, (v.toks.length : Int))
      | none => (0, (v.toks.length : Int))
    (some { isList := false, start := start, stop := p }, some { isList := false, start := p, stop := stop })

/-- `_CtsElement.split`, CT:153-181. -/
def splitBody (b : CtsBody τ) (points : List (Option Int)) : Option (CtsBody τ) × CtsBody τ :=
  if points.all (fun p => decide (p = none ∨ p = some 0)) then (none, b)
  else
    let both := (b.vals.zip (b.slices.zip points)).map (fun x => splitOne x.1 x.2.1 x.2.2)
    (some { b with slices := both.map (·.1) }, { b with slices := both.map (·.2) })

/-- `split_points[key]`, CT:378-389. -/
def splitPoint (f : CtsFeat τ) (cur : List τ) (sl : Option CtsSlice) (tokens : Nat) : Option Int :=
  if f.isMeta then none
  else if cur.length > f.len - tokens then
    let startIndex :=
      match sl with
      | some s => if s = emptySlice then 0 else s.start
      | none => 0
    some (startIndex + ((f.len - tokens : Nat) : Int))
  else some (cur.length : Int)

/-- `_maybe_add_to_buffer`, CT:331-400: the remainder, the buffer and the tokens in the buffer.  The early return for meta features
(CT:364-377) happens before any change. -/
def maybeAdd (cfg : CtsCfg τ) (b : CtsBody τ) (buffer : List (CtsBody τ)) (tokens : List Nat) :
    Option (CtsBody τ) × List (CtsBody τ) × List Nat :=
  let z := cfg.feats.zip (b.cur.zip tokens)
  if z.any (fun x => x.1.isMeta && decide (x.2.1.length > x.1.len - x.2.2)) then (some b, buffer, tokens)
  else
    let newTokens := z.map (fun x => x.2.2 + min x.2.1.length (x.1.len - x.2.2))
    if z.any (fun x => !x.1.isMeta && decide (x.2.1.length > x.1.len - x.2.2)) then
      match splitBody b ((z.zip b.slices).map (fun x => splitPoint x.1.1 x.1.2.1 x.2 x.1.2.2)) with
      | (none, r) => (some r, buffer, newTokens)
      | (some l, r) => (some r, buffer ++ [l], newTokens)
    else (none, buffer ++ [b], newTokens)

/-- `_CtsState`, CT:194-218. -/
structure CtsCk (C : Type) where
  parent : C
  slices : List (Option CtsSlice)
  count : Nat

/-- `has_remainder`, CT:212-218. -/
def CtsCk.hasRemainder (c : CtsCk C) : Bool :=
  c.slices.any (fun s =>
    match s with
    | none => false
    | some s => decide (s ≠ emptySlice))

/-- The fields of the iterator, CT:240-262; the remainder element with its parent state. -/
structure CtsState (τ S C : Type) where
  parent : S
  queue : List (List (CtsCol τ))
  rem : Option (C × CtsBody τ)
  stop : Bool
  ck : CtsCk C

/-- What the loop of `__next__` leaves behind: parent, remainder, buffer, queue, end of data. -/
structure CtsLoop (τ S C : Type) where
  parent : S
  rem : Option (C × CtsBody τ)
  buffer : List (CtsBody τ)
  queue : List (List (CtsCol τ))
  stop : Bool

/-- The loop of `__next__` after the remainder has been added, CT:423-468. -/
def ctsLoop (cfg : CtsCfg τ) (p : Iter (List (CtsVal τ))) (F : Nat) :
    Nat → p.S → List (CtsBody τ) → List Nat → List (List (CtsCol τ)) → Option (CtsLoop τ p.S p.C × Option Err)
  | 0, _, _, _, _ => none
  | n + 1, ps, buffer, tokens, queue => do
    let (ps, pc) := p.get ps
    let (ps, r) ← p.next F ps
    match r with
    | .fail e => some (⟨ps, none, buffer, queue, false⟩, some e)
    | .stop => some (⟨ps, none, buffer, queue, true⟩, none)
    | .item vals =>
      let b : CtsBody τ := { vals := vals, slices := emptySlices cfg }
      if !cfg.splitFull && fullLength cfg b then
        match packBodies cfg [b] with
        | .error e => some (⟨ps, none, buffer, queue, false⟩, some e)
        | .ok row => ctsLoop cfg p F n ps buffer tokens (queue ++ [row])
      else
        match maybeAdd cfg b buffer tokens with
        | (none, buffer, tokens) => ctsLoop cfg p F n ps buffer tokens queue
        | (some r, buffer, _) => some (⟨ps, some (pc, r), buffer, queue, false⟩, none)

/-- The whole loop of `__next__`, CT:415-468: a remainder is added first, to the empty buffer. -/
def ctsRead (cfg : CtsCfg τ) (p : Iter (List (CtsVal τ))) (F : Nat) (s : CtsState τ p.S p.C) : Option (CtsLoop τ p.S p.C × Option Err) :=
  let zeros := cfg.feats.map (fun _ => 0)
  match s.rem with
  | none => ctsLoop cfg p F F s.parent [] zeros []
  | some (pc, b) =>
    match maybeAdd cfg b [] zeros with
    | (none, buffer, tokens) => ctsLoop cfg p F F s.parent buffer tokens []
    | (some r, buffer, _) => some (⟨s.parent, some (pc, r), buffer, [], false⟩, none)

/-- `_checkpoint`, CT:495-513. -/
def ctsCheckpoint (cfg : CtsCfg τ) (p : Iter (List (CtsVal τ))) (s : CtsState τ p.S p.C) : CtsState τ p.S p.C :=
  match s.rem with
  | none =>
    let (ps, pc) := p.get s.parent
    { s with parent := ps, ck := { parent := pc, slices := emptySlices cfg, count := 0 } }
  | some (pc, b) => { s with ck := { parent := pc, slices := b.slices, count := 0 } }

/-- The buffer is packed and put before the rows of full-length elements, CT:470-472. -/
def ctsPacked (cfg : CtsCfg τ) (l : CtsLoop τ S C) : Py (List (List (CtsCol τ))) :=
  if l.buffer.isEmpty then .ok l.queue
  else
    match packBodies cfg l.buffer with
    | .error e => .error e
    | .ok row => .ok (row :: l.queue)

/-- The end of `__next__`, CT:470-493. -/
def ctsFinish (cfg : CtsCfg τ) (p : Iter (List (CtsVal τ))) (s : CtsState τ p.S p.C) (l : CtsLoop τ p.S p.C) : CtsState τ p.S p.C × Res (List (CtsCol τ)) :=
  let s := { s with parent := l.parent, rem := l.rem, stop := l.stop, queue := l.queue }
  match ctsPacked cfg l with
  | .error e => (s, .fail e)
  | .ok (row :: queue) => ({ s with queue := queue, ck := { s.ck with count := s.ck.count + 1 } }, .item row)
  | .ok [] =>
    let s := ctsCheckpoint cfg p s
    (s, if s.stop then .stop else .fail .runtimeError)

/-- `__next__`, CT:404-493.  The branch CT:473-479 (remainder at the end of the data) is never taken, since the remainder has been
added to the buffer before the parent is read. -/
def ctsNext (cfg : CtsCfg τ) (p : Iter (List (CtsVal τ))) (F : Nat) (s : CtsState τ p.S p.C) : Option (CtsState τ p.S p.C × Res (List (CtsCol τ))) :=
  match s.queue with
  | row :: queue => some ({ s with queue := queue, ck := { s.ck with count := s.ck.count + 1 } }, .item row)
  | [] =>
    if s.stop then some (s, .stop)
    else
      let s := ctsCheckpoint cfg p s
      match ctsRead cfg p F s with
      | none => none
      | some (l, some e) => some ({ s with parent := l.parent, rem := l.rem, queue := l.queue }, .fail e)
      | some (l, none) => some (ctsFinish cfg p s l)

/-- The calls of `next` at the end of `set_state`, CT:552-559. -/
def ctsReplay (cfg : CtsCfg τ) (p : Iter (List (CtsVal τ))) (F : Nat) : Nat → CtsState τ p.S p.C → Option (CtsState τ p.S p.C × Option Err)
  | 0, s => some (s, none)
  | n + 1, s =>
    match ctsNext cfg p F s with
    | none => none
    | some (s, .item _) => ctsReplay cfg p F n s
    | some (s, .stop) => some (s, some .runtimeError)
    | some (s, .fail e) => some (s, some e)

/-- `set_state`, CT:526-573. -/
def ctsSet (cfg : CtsCfg τ) (p : Iter (List (CtsVal τ))) (F : Nat) (s : CtsState τ p.S p.C) (c : CtsCk p.C) : Option (CtsState τ p.S p.C × Option Err) := do
  match (← p.set F s.parent c.parent) with
  | (ps, some e) => some ({ s with parent := ps, queue := [], rem := none, stop := false }, some e)
  | (ps, none) =>
    let s : CtsState τ p.S p.C := { s with parent := ps, queue := [], rem := none, stop := false }
    if c.hasRemainder then
      match (← p.next F ps) with
      | (ps, .stop) => some ({ s with parent := ps }, some .valueError)
      | (ps, .fail e) => some ({ s with parent := ps }, some e)
      | (ps, .item vals) =>
        ctsReplay cfg p F c.count (ctsCheckpoint cfg p { s with parent := ps, rem := some (c.parent, { vals := vals, slices := c.slices }) })
    else ctsReplay cfg p F c.count (ctsCheckpoint cfg p s)

/-- `_ConcatThenSplitDatasetIterator`, CT:221-573. -/
def ctsIter (cfg : CtsCfg τ) (p : Iter (List (CtsVal τ))) : Iter (List (CtsCol τ)) where
  S := CtsState τ p.S p.C
  C := CtsCk p.C
  init := { parent := (p.get p.init).1, queue := [], rem := none, stop := false,
            ck := { parent := (p.get p.init).2, slices := emptySlices cfg, count := 0 } }
  next F s := ctsNext cfg p F s
  get s := (s, s.ck)
  set F s c := ctsSet cfg p F s c

/-- A state after `json.dumps` and `json.loads` (handler.py:56, 88): the tuples have become lists. -/
def ctsJson (c : CtsCk C) : CtsCk C :=
  { c with slices := c.slices.map (fun o => o.map (fun s => { s with isList := true })) }

/-- The iterator whose states are all stored as JSON, as the checkpoint handler does. -/
def ctsJsonIter (cfg : CtsCfg τ) (p : Iter (List (CtsVal τ))) : Iter (List (CtsCol τ)) :=
  { ctsIter cfg p with get := fun s => (s, ctsJson s.ck) }

/-- The iterator whose states are stored as JSON when they have a remainder, and kept as they are otherwise. -/
def ctsJsonRemIter (cfg : CtsCfg τ) (p : Iter (List (CtsVal τ))) : Iter (List (CtsCol τ)) :=
  { ctsIter cfg p with get := fun s => (s, if s.ck.hasRemainder then ctsJson s.ck else s.ck) }

end Grain
