import Verif.Packing.Spec
import Verif.Iter.Basic
/-
Packing of examples into rows: grain/_src/python/dataset/transformations/packing_packed_batch.py (PB) and packing.py (PK).

Feature structures are flattened, an array is the list of its entries along the first axis (a scalar is a list of length 1),
so trailing dimensions and dtypes are part of the token type; `element_for_shapes` only sets these and is left out.
-/
namespace Grain

/-- One feature of one row: `_values`, `_segment_ids`, `_positions` and `_first_free_cell_per_row`, PB:128-233. -/
structure FeatBuf (τ : Type) where
  cells : List (Cell τ)
  free : Nat

/-- One row of a `PackedBatch`; `num` is `_num_examples_per_row`, `metas` is `_non_sequence_meta_values`. -/
structure PkRow (τ μ : Type) where
  feats : List (FeatBuf τ)
  num : Nat
  metas : List μ

/-- The arguments of the packers. -/
structure PkCfg (τ : Type) where
  feats : List (FeatCfg τ)
  bins : Nat
  maxSeq : Option Nat

/-- An empty row, PB:153-217. -/
def emptyRow (cfg : PkCfg τ) : PkRow τ μ where
  feats := cfg.feats.map (fun fc => { cells := List.replicate fc.cap { tok := fc.pad, seg := 0, pos := 0 }, free := 0 })
  num := 0
  metas := []

/-- `PackedBatch.__init__`, PB:128-233. -/
def newBatch (cfg : PkCfg τ) : List (PkRow τ μ) := List.replicate cfg.bins (emptyRow cfg)

/-- `buffer[row, start:end] = values` for a range inside the buffer. -/
def writeAt (l : List α) (start : Nat) (vals : List α) : List α := l.take start ++ vals ++ l.drop (start + vals.length)

/-- The loop body of `add_element_to_batch`, PB:293-306. -/
def addFeat (fc : FeatCfg τ) (segment : Nat) (b : FeatBuf τ) (v : List τ) : FeatBuf τ :=
  let start := b.free
  let stop := start + v.length
  let paddedEnd := (stop + fc.align - 1) / fc.align * fc.align
  { cells := writeAt b.cells start (v.mapIdx (fun k t => { tok := t, seg := segment, pos := k })),
    free := paddedEnd }

/-- `add_element_to_batch` on the row, PB:284-311. -/
def addToRow (cfg : PkCfg τ) (e : Ex τ μ) (row : PkRow τ μ) : PkRow τ μ where
  feats := (cfg.feats.zip (row.feats.zip e.feats)).map (fun x => addFeat x.1 (row.num + 1) x.2.1 x.2.2)
  num := row.num + 1
  metas := row.metas ++ [e.info]

/-- `features_fit_by_length` of one row, PB:346-354, and the check against `max_sequences_per_bin`, PB:357-364: both are
per-feature masks that must hold for all features. -/
def firstFitRow (cfg : PkCfg τ) (e : Ex τ μ) (row : PkRow τ μ) : Bool :=
  (cfg.feats.zip (row.feats.zip e.feats)).all (fun x =>
    decide (x.2.2.length + x.2.1.free ≤ x.1.cap) &&
    (match cfg.maxSeq with
      | none => true
      | some m => decide (row.num < m)))

/-- The row chosen by `FirstFitPackedBatch`: `argmax` of the Boolean mask is the first row that fits, PB:367-369. -/
def chooseFirst (cfg : PkCfg τ) (rows : List (PkRow τ μ)) (e : Ex τ μ) : Option Nat :=
  rows.findIdx? (firstFitRow cfg e)

/-- `max_sequence_mask` of one row, PB:421-426. -/
def maxSeqMask (cfg : PkCfg τ) (num : Nat) : Nat :=
  match cfg.maxSeq with
  | none => 0
  | some m => if num < m then 0 else 1

/-- `fittable_mask` of one row, PB:418-432: rows with `max_sequences_per_bin` examples have their capacity added. -/
def bestFitRow (cfg : PkCfg τ) (e : Ex τ μ) (row : PkRow τ μ) : Bool :=
  (cfg.feats.zip (row.feats.zip e.feats)).all (fun x =>
    decide (x.2.1.free + x.2.2.length + maxSeqMask cfg row.num * x.1.cap ≤ x.1.cap))

/-- `np.argmax`: the first position of the largest entry. -/
def argmax : List Int → Option Nat
  | [] => none
  | a :: l =>
    match argmax l with
    | none => some 0
    | some i => if l.getD i 0 > a then some (i + 1) else some 0

/-- The scores, PB:448-451. -/
def bestFitScore (cfg : PkCfg τ) (e : Ex τ μ) (row : PkRow τ μ) : Int :=
  if bestFitRow cfg e row then Int.ofNat (row.feats.map (·.free)).sum else -1

/-- The row chosen by `BestFitPackedBatch`, PB:434-453. -/
def chooseBest (cfg : PkCfg τ) (rows : List (PkRow τ μ)) (e : Ex τ μ) : Option Nat :=
  if rows.any (bestFitRow cfg e) then argmax (rows.map (bestFitScore cfg e)) else none

/-- `try_add_to_batch`, PB:322-388 and 394-455: `ok none` stands for a list of failing components.  The structure of the
element is compared with the configuration; too long features raise; without rows there is no failing component to
report, which raises. -/
def tryAdd (choose : PkCfg τ → List (PkRow τ μ) → Ex τ μ → Option Nat) (cfg : PkCfg τ) (rows : List (PkRow τ μ)) (e : Ex τ μ) :
    Py (Option (List (PkRow τ μ))) :=
  if e.feats.length ≠ cfg.feats.length then .error .valueError
  else if (cfg.feats.zip e.feats).any (fun x => decide (x.2.length > x.1.cap)) then .error .valueError
  else
    match choose cfg rows e with
    | some r => .ok (some (rows.modify r (addToRow cfg e)))
    | none => if rows.isEmpty then .error .valueError else .ok none

/-- `get_packed_batch`, PB:239-273. -/
def packedRows (rows : List (PkRow τ μ)) : List (OutRow τ μ) :=
  let rowsWithValues := (rows.filter (fun r => r.num > 0)).length
  (rows.take rowsWithValues).map (fun r => { feats := r.feats.map (·.cells), metas := r.metas })

/-- What `PackingDatasetIterator` uses of a packer class. -/
structure Packer (E R : Type) where
  B : Type
  new : B
  tryAdd : B → E → Py (Option B)
  finish : B → List R

/-- `FirstFitPackedBatch`, PB:319-388. -/
def firstFit (cfg : PkCfg τ) : Packer (Ex τ μ) (OutRow τ μ) where
  B := List (PkRow τ μ)
  new := newBatch cfg
  tryAdd := tryAdd chooseFirst cfg
  finish := packedRows

/-- `BestFitPackedBatch`, PB:391-455. -/
def bestFit (cfg : PkCfg τ) : Packer (Ex τ μ) (OutRow τ μ) where
  B := List (PkRow τ μ)
  new := newBatch cfg
  tryAdd := tryAdd chooseBest cfg
  finish := packedRows

/-- The arguments `shuffle_bins` and `shuffle_bins_group_by_feature`; `avg` is the average group of a row, PK:133-140, with
its comparison (floats are not modelled). -/
inductive ShuffleBins (R : Type) where
  | off
  | on
  | grouped (κ : Type) (avg : R → κ) (lt : κ → κ → Bool)

/-- `_generate_and_set_shuffled_rows`, PK:126-147, and the row index without shuffling, PK:184-187.  `perm s n` is
`np.random.default_rng(s).permuted(range(n))`, `c` is `counter - next_row`.  `sorted` of the tuples is a merge sort by
(average, shuffled position, index). -/
def rowOrder (mode : ShuffleBins R) (perm : Nat → Nat → List Nat) (seed c : Nat) (rows : List R) : List Nat :=
  match mode with
  | .off => List.range rows.length
  | .on => perm (seed + c) rows.length
  | .grouped κ avg lt =>
    let shuffled := perm (seed + c) rows.length
    let tuple := fun (i : Nat) => ((rows[i]?).map avg, shuffled.getD i 0, i)
    let le := fun (x y : Option κ × Nat × Nat) =>
      match x.1, y.1 with
      | some a, some b =>
        if lt a b then true else if lt b a then false
        else decide (x.2.1 < y.2.1 ∨ (x.2.1 = y.2.1 ∧ x.2.2 ≤ y.2.2))
      | _, _ => true
    (List.range rows.length).mergeSort (fun i j => le (tuple i) (tuple j))

/-- The fields of `PackingDatasetIterator`, PK:87-103.  `packed` holds `_packed_batch` with the order of emission
(`_shuffled_rows`, or 0, 1, ... without shuffling). -/
structure PackState (B R S C : Type) where
  parent : S
  current : Option B
  lastParent : C
  curParent : Option C
  packed : Option (List R × List Nat)
  nextRow : Nat
  counter : Nat

/-- The first part of `__next__`, PK:182-204: emit a row of the packed batch. -/
def packEmit (s : PackState B R S C) (rows : List R) (ord : List Nat) : PackState B R S C × Res R :=
  match ord[s.nextRow]? with
  | none => (s, .fail .indexError)
  | some i =>
    match rows[i]? with
    | none => (s, .fail .indexError)
    | some row =>
      if s.nextRow + 1 ≥ rows.length then
        ({ s with packed := none, lastParent := s.curParent.getD s.lastParent, curParent := none, nextRow := 0,
                  counter := s.counter + 1 }, .item row)
      else ({ s with nextRow := s.nextRow + 1, counter := s.counter + 1 }, .item row)

/-- `_finalize_current_batch`, PK:149-174, with `_current_batch_parent_state` set by the caller (PK:217, 252).
`order c rows` is the order of emission of the rows of a batch finalised with `counter - next_row = c` (PK:126-147: a
permutation drawn with seed `seed + c`, possibly sorted by a feature of the rows; without shuffling 0, 1, ...). -/
def packFinalize (pk : Packer E R) (order : Nat → List R → List Nat) (b : pk.B) (s : PackState pk.B R S C) (new : Option pk.B) (prior : C) :
    PackState pk.B R S C × List R × List Nat :=
  let rows := pk.finish b
  let ord := order (s.counter - s.nextRow) rows
  ({ s with packed := some (rows, ord), current := new, curParent := some prior }, rows, ord)

/-- The loop of `__next__`, PK:207-266. -/
def packLoop (pk : Packer E R) (order : Nat → List R → List Nat) (p : Iter E) (F : Nat) :
    Nat → PackState pk.B R p.S p.C → Option (PackState pk.B R p.S p.C × Res R)
  | 0, _ => none
  | n + 1, s => do
    let (ps, prior) := p.get s.parent
    let s := { s with parent := ps }
    let (ps, r) ← p.next F s.parent
    let s := { s with parent := ps }
    match r with
    | .fail e => some (s, .fail e)
    | .stop =>
      match s.current with
      | some b =>
        let (s, rows, ord) := packFinalize pk order b s none prior
        some (packEmit s rows ord)
      | none => some (s, .stop)
    | .item e =>
      let b := s.current.getD pk.new
      let s := { s with current := some b }
      match pk.tryAdd b e with
      | .error er => some (s, .fail er)
      | .ok (some b') => packLoop pk order p F n { s with current := some b' }
      | .ok none =>
        let (s, rows, ord) := packFinalize pk order b s (some pk.new) prior
        match pk.tryAdd pk.new e with
        | .error er => some (s, .fail er)
        | .ok none => some (s, .fail .valueError)
        | .ok (some b1) => some (packEmit { s with current := some b1 } rows ord)

/-- `PackingDatasetIterator`, PK:28-266. -/
def packIter (pk : Packer E R) (order : Nat → List R → List Nat) (p : Iter E) : Iter R where
  S := PackState pk.B R p.S p.C
  C := p.C × Nat × Nat
  init := { parent := (p.get p.init).1, current := none, lastParent := (p.get p.init).2, curParent := none, packed := none,
            nextRow := 0, counter := 0 }
  next F s :=
    match s.packed with
    | some (rows, ord) => some (packEmit s rows ord)
    | none => packLoop pk order p F F s
  get s := (s, (s.lastParent, s.nextRow, s.counter))
  set F s c := do
    match (← p.set F s.parent c.1) with
    | (ps, some e) => some ({ s with parent := ps }, some e)
    | (ps, none) =>
      some ({ parent := (p.get ps).1, current := none, lastParent := (p.get ps).2, curParent := none, packed := none,
              nextRow := c.2.1, counter := c.2.2 }, none)

end Grain
