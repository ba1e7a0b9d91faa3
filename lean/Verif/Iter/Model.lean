import Verif.Iter.Basic
import Verif.MapDs.Model
import Mathlib.Logic.Function.Basic
import Mathlib.Data.List.FinRange
/-
Models of the iterators of the single-process transformations.
T/ = grain/_src/python/dataset/transformations/.  Statistics and tracing decorators are dropped.
-/
namespace Grain

/-! ### One-to-one: map, random_map, map_with_index, limit -/

/-- `_MapDatasetIterator`, T/map.py:292-327. -/
def mapIter (f : α → Py (Option β)) (p : Iter (Option α)) : Iter (Option β) where
  S := p.S
  C := p.C
  init := p.init
  next F s := do
    let (s, r) ← p.next F s
    match r with
    | .stop => some (s, .stop)
    | .fail e => some (s, .fail e)
    | .item none => some (s, .item none)
    | .item (some a) =>
      match f a with
      | .ok b => some (s, .item b)
      | .error e => some (s, .fail e)
  get := p.get
  set := p.set
  getIdx := p.getIdx
  setIdx := p.setIdx

/-- `_RandomMapDatasetIterator`, T/map.py:330-384.  `f a j` is the user function called with the generator of position
`j` (see `Verif/Rng`); `procIndex`, `procCount` come from the multiprocessing context (353-359).  The counter is not
advanced when the user function raises (363). -/
def randomMapIter (f : α → Nat → Py (Option β)) (procIndex procCount : Nat) (p : Iter (Option α)) :
    Iter (Option β) where
  S := p.S × Nat
  C := p.C × Nat
  init := (p.init, 0)
  next F s := do
    let (ps, r) ← p.next F s.1
    match r with
    | .stop => some ((ps, s.2), .stop)
    | .fail e => some ((ps, s.2), .fail e)
    | .item none => some ((ps, s.2 + 1), .item none)
    | .item (some a) =>
      match f a (procIndex + s.2 * procCount) with
      | .ok b => some ((ps, s.2 + 1), .item b)
      | .error e => some ((ps, s.2), .fail e)
  get s := (((p.get s.1).1, s.2), ((p.get s.1).2, s.2))
  set F s c := do
    match (← p.set F s.1 c.1) with
    | (ps, some e) => some ((ps, s.2), some e)
    | (ps, none) => some ((ps, c.2), none)
  getIdx s := .ok s.2
  setIdx s i :=
    match p.setIdx s.1 i with
    | (ps, some e) => ((ps, s.2), some e)
    | (ps, none) => ((ps, i.toNat), none)

/-- `_MapWithIndexDatasetIterator`, T/map.py:387-429. -/
def mapWithIndexIter (f : Nat → α → Py (Option β)) (p : Iter (Option α)) : Iter (Option β) where
  S := p.S × Nat
  C := p.C × Nat
  init := (p.init, 0)
  next F s := do
    let (ps, r) ← p.next F s.1
    match r with
    | .stop => some ((ps, s.2), .stop)
    | .fail e => some ((ps, s.2), .fail e)
    | .item none => some ((ps, s.2 + 1), .item none)
    | .item (some a) =>
      match f s.2 a with
      | .ok b => some ((ps, s.2 + 1), .item b)
      | .error e => some ((ps, s.2), .fail e)
  get s := (((p.get s.1).1, s.2), ((p.get s.1).2, s.2))
  set F s c := do
    match (← p.set F s.1 c.1) with
    | (ps, some e) => some ((ps, s.2), some e)
    | (ps, none) => some ((ps, c.2), none)
  getIdx s := .ok s.2
  setIdx s i :=
    match p.setIdx s.1 i with
    | (ps, some e) => ((ps, s.2), some e)
    | (ps, none) => ((ps, i.toNat), none)

/-- `_LimitDatasetIterator`, T/limit.py:25-61. -/
def limitIter (count : Nat) (p : Iter α) : Iter α where
  S := p.S × Nat
  C := p.C × Nat
  init := (p.init, 0)
  next F s :=
    if s.2 ≥ count then some (s, .stop)
    else do
      let (ps, r) ← p.next F s.1
      match r with
      | .stop => some ((ps, s.2), .stop)
      | .fail e => some ((ps, s.2), .fail e)
      | .item a => some ((ps, s.2 + 1), .item a)
  get s := (((p.get s.1).1, s.2), ((p.get s.1).2, s.2))
  set F s c := do
    match (← p.set F s.1 c.1) with
    | (ps, some e) => some ((ps, s.2), some e)
    | (ps, none) => some ((ps, c.2), none)
  getIdx s := .ok s.2
  setIdx s i :=
    match p.setIdx s.1 i with
    | (ps, some e) => ((ps, s.2), some e)
    | (ps, none) => ((ps, i.toNat), none)

/-! ### filter -/

/-- Counters of `FilterThresholdChecker`, T/filter.py:87-100. -/
structure Checker where
  passed : Nat
  skipped : Nat
  deriving DecidableEq, Repr

/-- `_CHECK_FILTERED_INTERVAL`, T/filter.py:82. -/
def checkInterval : Nat := 1000

/-- A configured raise threshold, a ratio `num/den` (`none`: `raise_threshold or float("inf")`, so `0` also means no
threshold).  The code compares floats; the model compares exactly (`filter_ratio_is_checked`: with the same result). -/
structure Threshold where
  num : Nat
  den : Nat
  deriving DecidableEq, Repr

/-- `FilterThresholdChecker.check`, T/filter.py:102-136.  The warning (121-134) has no effect on the pipeline.  When the
error is raised the counters are not reset. -/
def Checker.check (thr : Option Threshold) (c : Checker) (passed : Bool) : Checker × Option Err :=
  let c : Checker := if passed then { c with passed := c.passed + 1 } else { c with skipped := c.skipped + 1 }
  if c.passed + c.skipped ≥ checkInterval then
    match thr with
    | some t =>
      if c.skipped * t.den ≥ t.num * (c.passed + c.skipped) ∧ t.num ≠ 0 then (c, some .valueError)
      else (⟨0, 0⟩, none)
    | none => (⟨0, 0⟩, none)
  else (c, none)

/-- What one call of the checker does that can be noticed. -/
inductive CheckOut where
  | quiet
  | warning
  | error
  deriving DecidableEq, Repr

/-- `skipped_ratio >= threshold`, T/filter.py:110-111 and 121, with `threshold or float("inf")` of the constructor
(99-100). -/
def Checker.over (c : Checker) : Option Threshold → Bool
  | none => false
  | some t => decide (c.skipped * t.den ≥ t.num * (c.passed + c.skipped) ∧ t.num ≠ 0)

/-- `FilterThresholdChecker.check` with its warning, T/filter.py:102-136.  (That `log_every_n_seconds` suppresses a warning
shortly after another one is not modelled.) -/
def Checker.checkFull (warn raise : Option Threshold) (c : Checker) (passed : Bool) : Checker × CheckOut :=
  let c : Checker := if passed then { c with passed := c.passed + 1 } else { c with skipped := c.skipped + 1 }
  if c.passed + c.skipped ≥ checkInterval then
    if c.over raise then (c, .error)
    else if c.over warn then (⟨0, 0⟩, .warning)
    else (⟨0, 0⟩, .quiet)
  else (c, .quiet)

/-- The loop of `_FilterDatasetIterator.__next__`, T/filter.py:166-181. -/
def filterLoop (p : Iter α) (pred : α → Py Bool) (thr : Option Threshold) (F : Nat) :
    Nat → p.S × Checker → Option ((p.S × Checker) × Res α)
  | 0, _ => none
  | n + 1, s => do
    let (ps, r) ← p.next F s.1
    match r with
    | .stop => some ((ps, s.2), .stop)
    | .fail e => some ((ps, s.2), .fail e)
    | .item a =>
      match pred a with
      | .error e => some ((ps, s.2), .fail e)
      | .ok b =>
        match s.2.check thr b with
        | (c, some e) => some ((ps, c), .fail e)
        | (c, none) => if b then some ((ps, c), .item a) else filterLoop p pred thr F n (ps, c)

/-- `_FilterDatasetIterator`, T/filter.py:139-190.  The counters of the checker are not part of the checkpoint. -/
def filterIter (pred : α → Py Bool) (thr : Option Threshold) (p : Iter α) : Iter α where
  S := p.S × Checker
  C := p.C
  init := (p.init, ⟨0, 0⟩)
  next F s := filterLoop p pred thr F F s
  get s := (((p.get s.1).1, s.2), (p.get s.1).2)
  set F s c := do
    let (ps, e) ← p.set F s.1 c
    some ((ps, s.2), e)

/-! ### batch and rebatch -/

/-- The loop of `_BatchDatasetIterator.__next__`, T/batch.py:301-308: up to `n` more reads.  The result is the list of
values, or the outcome to return at once. -/
def batchLoop (p : Iter α) (drop : Bool) (F : Nat) : Nat → p.S → List α → Option (p.S × (List α ⊕ Res (List α)))
  | 0, s, vs => some (s, .inl vs)
  | n + 1, s, vs => do
    let (s, r) ← p.next F s
    match r with
    | .item a => batchLoop p drop F n s (vs ++ [a])
    | .stop => if drop then some (s, .inr .stop) else some (s, .inl vs)
    | .fail e => some (s, .inr (.fail e))

/-- `_BatchDatasetIterator`, T/batch.py:283-332. -/
def batchIter (b : Nat) (drop : Bool) (f : List α → Py β) (p : Iter α) : Iter β where
  S := p.S
  C := p.C
  init := p.init
  next F s := do
    let (s, v) ← batchLoop p drop F b s []
    match v with
    | .inr (.fail e) => some (s, .fail e)
    | .inr _ => some (s, .stop)
    | .inl [] => some (s, .stop)
    | .inl vs =>
      match f vs with
      | .ok x => some (s, .item x)
      | .error e => some (s, .fail e)
  get := p.get
  set := p.set
  getIdx s := do
    let i ← p.getIdx s
    .ok ((i + b - 1) / b)
  setIdx s i := p.setIdx s (i * b)

/-- State of `_RebatchDatasetIterator`, T/rebatch.py:79-91.  An element is modelled as the list of its rows (all leaves
have the same leading dimension). -/
structure RebatchState (PS PC : Type) (α : Type) where
  ps : PS
  current : Option (List α)
  idx : Nat
  last : PC

/-- T/rebatch.py:121-140: read the next batch when there is none or the current one is used up.  The batch index is kept
when the iterator is new or was restored.  The second component is `some` when the parent ended or failed. -/
def rebatchFetch (p : Iter (List α)) (F : Nat) (s : RebatchState p.S p.C α) :
    Option (RebatchState p.S p.C α × Option (Res (List α))) :=
  if s.current.isNone || decide (s.idx ≥ (s.current.getD []).length) then
    let isFirst := s.current.isNone
    let g := p.get s.ps
    do
      let (ps, r) ← p.next F g.1
      match r with
      | .fail e => some ({ s with ps := ps, last := g.2 }, some (.fail e))
      | .stop => some ({ s with ps := ps, last := g.2 }, some .stop)
      | .item cur =>
        some ({ ps := ps, current := some cur, idx := if isFirst then s.idx else 0, last := g.2 }, none)
  else some (s, none)

/-- T/rebatch.py:143-172: take what is needed, or the rest of the current batch.  Result: new `batch_idx`, rows taken, and
rows still needed (`batch_idx` may be past the end, then `batch_dim` is negative). -/
def rebatchTake (cur : List α) (idx needed : Nat) : Nat × List α × Nat :=
  if idx + needed ≤ cur.length then (idx + needed, (cur.drop idx).take needed, 0)
  else (cur.length, cur.drop idx, needed + idx - cur.length)

/-- T/rebatch.py:174-187. -/
def rebatchFinish : Option (List α) → Res (List α)
  | none => .stop
  | some rows => .item rows

/-- `_RebatchDatasetIterator.__next__`, T/rebatch.py:112-187.  `acc` is `to_concatenate` (`none` while it is the empty
list), `needed` is `batch_dim_needed`. -/
def rebatchLoop (p : Iter (List α)) (drop : Bool) (F : Nat) :
    Nat → Nat → Option (List α) → RebatchState p.S p.C α → Option (RebatchState p.S p.C α × Res (List α))
  | 0, _, _, _ => none
  | n + 1, needed, acc, s =>
    if needed = 0 then some (s, rebatchFinish acc)
    else do
      let (s, r) ← rebatchFetch p F s
      match r with
      | some (.fail e) => some (s, .fail e)
      | some _ => if drop then some (s, .stop) else some (s, rebatchFinish acc)
      | none =>
        let cur := s.current.getD []
        if cur.length = 0 then some (s, .fail .valueError)
        else
          let t := rebatchTake cur s.idx needed
          rebatchLoop p drop F n t.2.2 (some (acc.getD [] ++ t.2.1)) { s with idx := t.1 }

/-- `_RebatchDatasetIterator`, T/rebatch.py:76-187. -/
def rebatchIter (b : Nat) (drop : Bool) (p : Iter (List α)) : Iter (List α) where
  S := RebatchState p.S p.C α
  C := p.C × Nat
  init := { ps := (p.get p.init).1, current := none, idx := 0, last := (p.get p.init).2 }
  next F s := rebatchLoop p drop F F b none s
  get s := (s, (s.last, s.idx))
  set F s c := do
    match (← p.set F s.ps c.1) with
    | (ps, some e) => some ({ s with ps := ps }, some e)
    | (ps, none) =>
      let g := p.get ps
      some ({ ps := g.1, current := none, idx := c.2, last := g.2 }, none)

/-! ### flat_map -/

/-- State of `_FlatMapDatasetIterator`, T/flatmap.py:81-92. -/
structure FlatMapState (PS PC : Type) (β : Type) where
  ps : PS
  idx : Nat
  buf : List β
  last : PC

/-- The loop and the tail of `_FlatMapDatasetIterator.__next__`, T/flatmap.py:101-117.  If the user function raises,
`next_index_in_buffer` is already 0 and the old buffer stays (111-112). -/
def flatMapLoop (p : Iter α) (f : α → Py (List β)) (F : Nat) :
    Nat → FlatMapState p.S p.C β → Option (FlatMapState p.S p.C β × Res β)
  | 0, _ => none
  | n + 1, s =>
    match s.buf[s.idx]? with
    | some b => some ({ s with idx := s.idx + 1 }, .item b)
    | none => do
      let g := p.get s.ps
      let s : FlatMapState p.S p.C β := { s with ps := g.1, last := g.2 }
      let (ps, r) ← p.next F s.ps
      let s := { s with ps := ps }
      match r with
      | .stop => some (s, .stop)
      | .fail e => some (s, .fail e)
      | .item a =>
        let s := { s with idx := 0 }
        match f a with
        | .error e => some (s, .fail e)
        | .ok buf => flatMapLoop p f F n { s with buf := buf }

/-- `_FlatMapDatasetIterator`, T/flatmap.py:78-141.  In `set_state` (125-138) a `StopIteration` of the parent keeps the
old buffer. -/
def flatMapIter (f : α → Py (List β)) (p : Iter α) : Iter β where
  S := FlatMapState p.S p.C β
  C := p.C × Nat
  init := { ps := (p.get p.init).1, idx := 0, buf := [], last := (p.get p.init).2 }
  next F s := flatMapLoop p f F F s
  get s := (s, (s.last, s.idx))
  set F s c := do
    let s : FlatMapState p.S p.C β := { s with last := c.1 }
    match (← p.set F s.ps c.1) with
    | (ps, some e) => some ({ s with ps := ps }, some e)
    | (ps, none) =>
      let s := { s with idx := c.2 }
      let (ps, r) ← p.next F ps
      let s := { s with ps := ps }
      match r with
      | .stop => some ({ s with idx := 0 }, none)
      | .fail e => some (s, some e)
      | .item a =>
        match f a with
        | .error e => some (s, some e)
        | .ok buf => some ({ s with buf := buf }, none)

/-! ### repeat -/

/-- State of `_RepeatDatasetIterator`, T/repeat.py:90-98. -/
structure RepeatState (PS PC : Type) where
  ps : PS
  epoch : Nat
  start : PC

/-- The loop of `_RepeatDatasetIterator.__next__`, T/repeat.py:117-128. -/
def repeatLoop (p : Iter α) (numEpochs : Option Nat) (F : Nat) :
    Nat → RepeatState p.S p.C → Option (RepeatState p.S p.C × Res α)
  | 0, _ => none
  | n + 1, s => do
    let (ps, r) ← p.next F s.ps
    let s := { s with ps := ps }
    match r with
    | .item a => some (s, .item a)
    | .fail e => some (s, .fail e)
    | .stop =>
      let s := { s with epoch := s.epoch + 1 }
      if numEpochs = some s.epoch then some (s, .stop)
      else
        match (← p.set F s.ps s.start) with
        | (ps, some e) => some ({ s with ps := ps }, .fail e)
        | (ps, none) => repeatLoop p numEpochs F n { s with ps := ps }

/-- `_RepeatDatasetIterator`, T/repeat.py:85-138.  The walk over the parents at 102-110 only switches off the
re-creation of workers and of interleaved iterators. -/
def repeatIter (numEpochs : Option Nat) (p : Iter α) : Iter α where
  S := RepeatState p.S p.C
  C := p.C × Nat
  init := { ps := (p.get p.init).1, epoch := 0, start := (p.get p.init).2 }
  next F s := if numEpochs = some s.epoch then some (s, .stop) else repeatLoop p numEpochs F F s
  get s := ({ s with ps := (p.get s.ps).1 }, ((p.get s.ps).2, s.epoch))
  set F s c := do
    let (ps, e) ← p.set F s.ps c.1
    some ({ s with epoch := c.2, ps := ps }, e)

/-! ### cache -/

/-- State of `_InMemoryCacheDatasetIterator`, T/cache.py:53-59. -/
structure CacheState (PS PC : Type) (α : Type) where
  ps : PS
  cache : List α
  position : Nat
  filled : Bool
  rebuild : Bool
  start : PC

/-- Reading `n` elements into the cache while rebuilding it, T/cache.py:77-80.  The outcome is set when the parent ends or
fails. -/
def cacheRefill (p : Iter α) (F : Nat) : Nat → p.S → List α → Option (p.S × List α × Option (Res α))
  | 0, s, acc => some (s, acc, none)
  | n + 1, s, acc => do
    let (s, r) ← p.next F s
    match r with
    | .item a => cacheRefill p F n s (acc ++ [a])
    | .stop => some (s, acc, some .stop)
    | .fail e => some (s, acc, some (.fail e))

/-- T/cache.py:81-90. -/
def cacheRead (p : Iter α) (F : Nat) (s : CacheState p.S p.C α) : Option (CacheState p.S p.C α × Res α) := do
  let (ps, r) ← p.next F s.ps
  let s := { s with ps := ps }
  match r with
  | .item a =>
    let cache := if s.cache.length = s.position then s.cache ++ [a] else s.cache
    some ({ s with cache := cache, position := s.position + 1 }, .item a)
  | .stop => some ({ s with filled := true }, .stop)
  | .fail e => some (s, .fail e)

/-- `_InMemoryCacheDatasetIterator.__next__`, T/cache.py:62-90. -/
def cacheNext (p : Iter α) (F : Nat) (s : CacheState p.S p.C α) : Option (CacheState p.S p.C α × Res α) :=
  if s.filled then
    match s.cache[s.position]? with
    | some a => some ({ s with position := s.position + 1 }, .item a)
    | none => some (s, .stop)
  else if s.rebuild then do
    match (← p.set F s.ps s.start) with
    | (ps, some e) => some ({ s with ps := ps }, .fail e)
    | (ps, none) =>
      let s : CacheState p.S p.C α := { s with ps := ps, cache := [], rebuild := false }
      let (ps, cache, r) ← cacheRefill p F s.position s.ps []
      let s := { s with ps := ps, cache := cache }
      match r with
      | some r => some (s, r)
      | none => cacheRead p F s
  else cacheRead p F s

/-- `_InMemoryCacheDatasetIterator`, T/cache.py:50-109. -/
def cacheIter (p : Iter α) : Iter α where
  S := CacheState p.S p.C α
  C := p.C × Nat × Bool
  init := { ps := (p.get p.init).1, cache := [], position := 0, filled := false, rebuild := false,
            start := (p.get p.init).2 }
  next F s := cacheNext p F s
  get s := ({ s with ps := (p.get s.ps).1 }, ((p.get s.ps).2, s.position, s.filled))
  set F s c := do
    let s := if c.2.2 && !s.filled then { s with rebuild := true } else s
    match (← p.set F s.ps c.1) with
    | (ps, some e) => some ({ s with ps := ps }, some e)
    | (ps, none) =>
      let s := { s with ps := ps, position := c.2.1 }
      some (if s.position > s.cache.length ∧ s.filled = false then { s with rebuild := true } else s, none)

/-! ### window_shuffle -/

/-- State of `_WindowShuffleDatasetIterator`, T/shuffle.py:187-201.  `window` is in reverse order of the Python list, so
that `pop()` takes the head. -/
structure WinState (PS PC : Type) (α : Type) where
  ps : PS
  windowIndex : Nat
  pos : Nat
  window : List α
  start : PC
  exhausted : Bool

/-- The loop of `_fill_and_shuffle_window`, T/shuffle.py:206-211: read up to `n` elements; the flag says that the parent
ended; an exception leaves the partial window. -/
def winFill (p : Iter α) (F : Nat) : Nat → p.S → List α → Option (p.S × List α × Bool × Option Err)
  | 0, s, acc => some (s, acc, false, none)
  | n + 1, s, acc => do
    let (s, r) ← p.next F s
    match r with
    | .item a => winFill p F n s (acc ++ [a])
    | .stop => some (s, acc, true, none)
    | .fail e => some (s, acc, false, some e)

/-- `_fill_and_shuffle_window`, T/shuffle.py:203-214. -/
def winFillShuffle (shuffle : Nat → List α → Py (List α)) (w : Nat) (p : Iter α) (F : Nat) (s : WinState p.S p.C α) :
    Option (WinState p.S p.C α × Option Err) := do
  let (ps, acc, ex, err) ← winFill p F w s.ps []
  let s := { s with ps := ps, window := acc.reverse, exhausted := s.exhausted || ex }
  match err with
  | some e => some (s, some e)
  | none =>
    match shuffle s.windowIndex acc with
    | .error e => some (s, some e)
    | .ok win => some ({ s with window := win.reverse }, none)

/-- Second half of `__next__`, T/shuffle.py:228-235. -/
def winPop {PS PC : Type} (s : WinState PS PC α) : WinState PS PC α × Res α :=
  match s.window with
  | [] => (s, .stop)
  | a :: rest =>
    ({ s with pos := s.pos + 1, window := rest,
              windowIndex := if rest.isEmpty then s.windowIndex + 1 else s.windowIndex }, .item a)

/-- `_WindowShuffleDatasetIterator`, T/shuffle.py:182-260.  `shuffle i` is `_reshuffle_window(·, seed + i)`. -/
def windowShuffleIter (shuffle : Nat → List α → Py (List α)) (w : Nat) (p : Iter α) : Iter α where
  S := WinState p.S p.C α
  C := p.C × Nat × Nat
  init := { ps := (p.get p.init).1, windowIndex := 0, pos := 0, window := [], start := (p.get p.init).2,
            exhausted := false }
  next F s :=
    if s.window.isEmpty then
      if s.exhausted then some (s, .stop)
      else
        let g := p.get s.ps
        let s : WinState p.S p.C α := { s with ps := g.1, start := g.2 }
        do
          match (← winFillShuffle shuffle w p F s) with
          | (s, some e) => some (s, .fail e)
          | (s, none) => some (winPop { s with pos := 0 })
    else some (winPop s)
  get s := (s, (s.start, s.windowIndex, s.pos))
  set F s c := do
    let s := { s with start := c.1 }
    match (← p.set F s.ps c.1) with
    | (ps, some e) => some ({ s with ps := ps }, some e)
    | (ps, none) =>
      let s := { s with ps := ps, windowIndex := c.2.1, pos := c.2.2, exhausted := false }
      match (← winFillShuffle shuffle w p F s) with
      | (s, some e) => some (s, some e)
      | (s, none) => some ({ s with window := s.window.drop (min s.pos s.window.length) }, none)

/-! ### Several parents: zip and mix -/

/-- `set_state` of a list of parents in order, stopping at the first exception (T/zip.py:141-143, T/mix.py:242-246). -/
def setAll {n : Nat} (ps : Fin n → Iter α) (F : Nat) (cs : ∀ i, (ps i).C) :
    List (Fin n) → (∀ i, (ps i).S) → Option ((∀ i, (ps i).S) × Option Err)
  | [], s => some (s, none)
  | i :: is, s => do
    match (← (ps i).set F (s i) (cs i)) with
    | (si, some e) => some (Function.update s i si, some e)
    | (si, none) => setAll ps F cs is (Function.update s i si)

/-- `next` on the parents one after the other until one does not return an element: the elements so far, and the number
of the parent and its outcome if one stopped or failed. -/
def nextAll {n : Nat} (ps : Fin n → Iter α) (F : Nat) :
    List (Fin n) → (∀ i, (ps i).S) → List α → Option ((∀ i, (ps i).S) × List α × Option (Fin n × Res α))
  | [], s, acc => some (s, acc, none)
  | i :: is, s, acc => do
    let (si, r) ← (ps i).next F (s i)
    let s := Function.update s i si
    match r with
    | .item a => nextAll ps F is s (acc ++ [a])
    | .stop => some (s, acc, some (i, .stop))
    | .fail e => some (s, acc, some (i, .fail e))

/-- Check that the remaining parents are exhausted, T/zip.py:122-132. -/
def zipCheckRest {n : Nat} (ps : Fin n → Iter α) (F : Nat) :
    List (Fin n) → (∀ i, (ps i).S) → Option ((∀ i, (ps i).S) × Res (List α))
  | [], s => some (s, .stop)
  | i :: is, s => do
    let (si, r) ← (ps i).next F (s i)
    let s := Function.update s i si
    match r with
    | .stop => zipCheckRest ps F is s
    | .item _ => some (s, .fail .valueError)
    | .fail e => some (s, .fail e)

/-- `_ZipDatasetIterator`, T/zip.py:90-146. -/
def zipIter {n : Nat} (strict : Bool) (ps : Fin n → Iter α) : Iter (List α) where
  S := ∀ i, (ps i).S
  C := ∀ i, (ps i).C
  init := fun i => (ps i).init
  next F s := do
    let (s, acc, r) ← nextAll ps F (List.finRange n) s []
    match r with
    | none => some (s, .item acc)
    | some (_, .fail e) => some (s, .fail e)
    | some (i, _) =>
      if strict then
        if i.val > 0 then some (s, .fail .valueError)
        else zipCheckRest ps F ((List.finRange n).drop 1) s
      else some (s, .stop)
  get s := (fun i => ((ps i).get (s i)).1, fun i => ((ps i).get (s i)).2)
  set F s c := setAll ps F c (List.finRange n) s

/-- State of `_MixedDatasetIterator`, T/mix.py:194-207. -/
structure MixState {n : Nat} (ps : Fin n → Iter α) where
  parents : ∀ i, (ps i).S
  index : Nat
  stop : Bool

/-- `_MixedDatasetIterator`, T/mix.py:183-259, for a sequence of parents.  A component number outside the parents would
be an `IndexError`. -/
def mixIter {n : Nat} (proportions : List Nat) (ps : Fin n → Iter α) : Iter α where
  S := MixState ps
  C := (∀ i, (ps i).C) × Nat × Bool
  init := { parents := fun i => (ps i).init, index := 0, stop := false }
  next F s :=
    if s.stop then some (s, .stop)
    else
      match datasetAndKey (s.index : Int) proportions with
      | .error e => some (s, .fail e)
      | .ok (d, _) =>
        if h : d < n then do
          let (si, r) ← (ps ⟨d, h⟩).next F (s.parents ⟨d, h⟩)
          let s : MixState ps :=
            { s with index := s.index + 1, parents := Function.update s.parents ⟨d, h⟩ si }
          match r with
          | .item a => some (s, .item a)
          | .stop => some ({ s with stop := true }, .stop)
          | .fail e => some ({ s with stop := true }, .fail e)
        else some ({ s with index := s.index + 1, stop := true }, .fail .indexError)
  get s := ({ s with parents := fun i => ((ps i).get (s.parents i)).1 },
            (fun i => ((ps i).get (s.parents i)).2, s.index, s.stop))
  set F s c := do
    match (← setAll ps F c.1 (List.finRange n) s.parents) with
    | (q, some e) => some ({ s with parents := q }, some e)
    | (q, none) => some ({ parents := q, index := c.2.1, stop := c.2.2 }, none)

/-! ### A source -/

/-- State of `PrefetchDatasetIterator`, T/prefetch.py:175-201.  `buffer` holds the dataset indices of the submitted
reads, oldest first; a submitted read returns what `map_parent[index]` returns whenever it runs (reads are functions of
the index).  `size` and `threads` are the current targets, `exec` tells whether the object has an executor. -/
structure PrefetchState where
  returned : Int
  buffered : Int
  buffer : List Int
  checker : Checker
  size : Nat
  threads : Nat
  exec : Bool
  deriving DecidableEq

/-- `_fill_buffer`, T/prefetch.py:361-374.  Submitting without an executor raises `AttributeError`. -/
def fillBuffer (len : Nat) (s : PrefetchState) : PrefetchState × Option Err :=
  let n := min (s.size - s.buffer.length) ((len : Int) - s.buffered).toNat
  if n = 0 then (s, none)
  else if s.exec then
    ({ s with buffer := s.buffer ++ (List.range n).map (fun (k : Nat) => s.buffered + (k : Int)),
              buffered := s.buffered + n }, none)
  else (s, some .attributeError)

/-- One turn of the loop at T/prefetch.py:249-281, up to and including `self._next_returned_index += 1`.  `popleft` on an
empty buffer raises `IndexError`. -/
def prefetchRead (ds : MapDs α) (s : PrefetchState) : PrefetchState × Py (Option α) :=
  if s.size > 0 ∧ s.threads > 0 then
    match if s.buffer.isEmpty then fillBuffer ds.len s else (s, none) with
    | (s, some e) => (s, .error e)
    | (s, none) =>
      match s.buffer with
      | [] => (s, .error .indexError)
      | i :: rest =>
        match fillBuffer ds.len { s with buffer := rest } with
        | (s, some e) => (s, .error e)
        | (s, none) =>
          match ds.getitem i with
          | .error e => (s, .error e)
          | .ok x => ({ s with returned := s.returned + 1 }, .ok x)
  else
    match s.buffer with
    | i :: rest =>
      let s := { s with buffer := rest }
      match ds.getitem i with
      | .error e => (s, .error e)
      | .ok x => ({ s with returned := s.returned + 1 }, .ok x)
    | [] =>
      match ds.getitem s.returned with
      | .error e => (s, .error e)
      | .ok x => ({ s with buffered := s.buffered + 1, returned := s.returned + 1 }, .ok x)

/-- `PrefetchDatasetIterator.__next__`, T/prefetch.py:242-282 (the `closed` check is not modelled). -/
def prefetchLoop (ds : MapDs α) (allowNones : Bool) (thr : Option Threshold) :
    Nat → PrefetchState → Option (PrefetchState × Res (Option α))
  | 0, _ => none
  | n + 1, s =>
    if s.returned = (ds.len : Int) then some (s, .stop)
    else
      match prefetchRead ds s with
      | (s, .error e) => some (s, .fail e)
      | (s, .ok x) =>
        let ret := allowNones || x.isSome
        match s.checker.check thr ret with
        | (c, some e) => some ({ s with checker := c }, .fail e)
        | (c, none) =>
          let s := { s with checker := c }
          if ret then some (s, .item x) else prefetchLoop ds allowNones thr n s

/-- `PrefetchDatasetIterator.set_state`, T/prefetch.py:287-303. -/
def prefetchSet (len : Nat) (s : PrefetchState) (i : Int) : PrefetchState × Option Err :=
  let s := { s with returned := i, buffered := i }
  if i < 0 ∨ i > (len : Int) then (s, some .indexError)
  else ({ s with buffer := [] }, none)

/-- `PrefetchDatasetIterator` (`MapDataset.to_iter_dataset`), T/prefetch.py:170-309. -/
def prefetchIter (size threads : Nat) (allowNones : Bool) (thr : Option Threshold) (ds : MapDs α) : Iter (Option α) where
  S := PrefetchState
  C := Int
  init := { returned := 0, buffered := 0, buffer := [], checker := ⟨0, 0⟩, size := size, threads := threads,
            exec := decide (size > 0 ∧ threads > 0) }
  next F s := prefetchLoop ds allowNones thr F s
  get s := (s, s.returned)
  set _ s c := some (prefetchSet ds.len s c)
  getIdx s := .ok s.returned
  setIdx s i := prefetchSet ds.len s i

/-- Calls that change how the iterator works in the background. -/
inductive PrefetchTweak where
  | setSize (n : Nat)
  | setThreads (n : Nat)
  | startPrefetch
  deriving DecidableEq

/-- `_set_prefetch_buffer_size` (T/prefetch.py:322-340), `_set_num_threads` (T/prefetch.py:342-359) and `start_prefetch`
(T/prefetch.py:376-378). -/
def prefetchTweak (len : Nat) (s : PrefetchState) : PrefetchTweak → PrefetchState × Option Err
  | .setSize b =>
    ({ s with size := b,
              exec := if b > 0 ∧ s.threads > 0 ∧ s.exec = false then true
                      else if b = 0 ∧ s.exec = true then false
                      else s.exec }, none)
  | .setThreads t =>
    ({ s with threads := t, exec := if t > 0 ∧ s.size > 0 then true else false }, none)
  | .startPrefetch => if s.size > 0 ∧ s.threads > 0 then fillBuffer len s else (s, none)

end Grain
