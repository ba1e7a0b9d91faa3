import Verif.Packing.Model
/-
The deprecated pack-and-batch operation, grain/_src/python/experimental/example_packing/packing.py (EP).

As in Verif/Packing/Model.lean feature structures are flattened and an array is the list of its entries along the first axis;
`Ex.info` is the record's metadata without the record key.
-/
namespace Grain

variable {τ μ : Type}

/-- The arguments of `PackAndBatchOperation`, EP:202-204: `length_struct`, `batch_size`, `max_sequences_per_bin`; `zero` is the
zero of the dtype. -/
structure OpCfg (τ : Type) where
  caps : List Nat
  zero : τ
  bins : Nat
  maxSeq : Option Nat

/-- One row of `_PackedBatch`: for each feature `_batch`, `_segmentations`, `_positions`, `_first_free_cell_per_row`, and
`_num_examples_per_row`. -/
structure OpRow (τ : Type) where
  feats : List (FeatBuf τ)
  num : Nat

/-- `_PackedBatch`; `last` is `_last_record_metadata`. -/
structure OpBatch (τ μ : Type) where
  rows : List (OpRow τ)
  last : Option μ

/-- A record of the output: the rows (data, segmentations and positions of each feature) and the metadata. -/
structure OpOut (τ μ : Type) where
  rows : List (List (List (Cell τ)))
  info : μ

/-- `_PackedBatch.__init__`, EP:31-76. -/
def opNew (cfg : OpCfg τ) : OpBatch τ μ where
  rows := List.replicate cfg.bins
    { feats := cfg.caps.map (fun c => { cells := List.replicate c { tok := cfg.zero, seg := 0, pos := 0 }, free := 0 }), num := 0 }
  last := none

/-- `get_packed_batch`, EP:78-83. -/
def opGet (b : OpBatch τ μ) : Py (OpOut τ μ) :=
  match b.last with
  | none => .error .assertion
  | some m => .ok { rows := b.rows.map (fun r => r.feats.map (·.cells)), info := m }

/-- `_can_add_at_row`, EP:85-125; `none` for -1.  Elements of another structure than `length_struct` make `map_structure` raise. -/
def opCanAdd (cfg : OpCfg τ) (b : OpBatch τ μ) (e : Ex τ μ) : Py (Option Nat) :=
  if e.feats.length ≠ cfg.caps.length then .error .valueError
  else if (cfg.caps.zip e.feats).any (fun x => decide (x.2.length > x.1)) then .error .valueError
  else .ok (b.rows.findIdx? (fun row =>
    (match cfg.maxSeq with
      | none => true
      | some m => decide (row.num < m)) &&
    (cfg.caps.zip (row.feats.zip e.feats)).all (fun x => decide (x.2.2.length + x.2.1.free ≤ x.1))))

/-- `add_element_to_batch` for the row, EP:127-153. -/
def opAddRow (e : Ex τ μ) (row : OpRow τ) : OpRow τ where
  feats := (row.feats.zip e.feats).map (fun x =>
    { cells := writeAt x.1.cells x.1.free (x.2.mapIdx (fun k t => { tok := t, seg := row.num + 1, pos := k })),
      free := x.1.free + x.2.length })
  num := row.num + 1

/-- `try_add_to_batch`, EP:155-161; the Boolean is the result. -/
def opTryAdd (cfg : OpCfg τ) (b : OpBatch τ μ) (e : Ex τ μ) : Py (OpBatch τ μ × Bool) :=
  match opCanAdd cfg b e with
  | .error er => .error er
  | .ok none => .ok (b, false)
  | .ok (some r) => .ok ({ rows := b.rows.modify r (opAddRow e), last := some e.info }, true)

/-- `__call__` over the records `es` (a generator, run to its end), EP:214-243: the records it yields, and how it ends: normally,
with the final value of `self._cur_batch`, or with an exception.  `cur` is `self._cur_batch` before. -/
def opRun (cfg : OpCfg τ) (cur : Option (OpBatch τ μ)) : List (Ex τ μ) → List (OpOut τ μ) × Py (Option (OpBatch τ μ))
  | [] =>
    match cur with
    | none => ([], .error .attributeError)
    | some b =>
      match opGet b with
      | .error er => ([], .error er)
      | .ok o => ([o], .ok (some b))
  | e :: es =>
    match opTryAdd cfg (cur.getD (opNew cfg)) e with
    | .error er => ([], .error er)
    | .ok (b, true) => opRun cfg (some b) es
    | .ok (b, false) =>
      match opGet b with
      | .error er => ([], .error er)
      | .ok o =>
        match opTryAdd cfg (opNew cfg) e with
        | .error er => ([o], .error er)
        | .ok (b1, _) =>
          let r := opRun cfg (some b1) es
          (o :: r.1, r.2)

end Grain
