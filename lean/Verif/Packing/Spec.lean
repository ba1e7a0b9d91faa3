/-
What a packed row is, written from the documentation of grain's packing (no reference to the model of the code).
-/
namespace Grain

/-- Configuration of one feature: row length, alignment of the examples' starts, padding value. -/
structure FeatCfg (τ : Type) where
  cap : Nat
  align : Nat
  pad : τ

/-- An example: for each feature its tokens, and its non-sequence meta features. -/
structure Ex (τ μ : Type) where
  feats : List (List τ)
  info : μ

/-- The tokens of feature `i`. -/
def Ex.feat (e : Ex τ μ) (i : Nat) : List τ := (e.feats[i]?).getD []

/-- One cell of a packed row: the value, the segment id and the position. -/
structure Cell (τ : Type) where
  tok : τ
  seg : Nat
  pos : Nat

/-- One row of the output: the cells of each feature, and the meta features. -/
structure OutRow (τ μ : Type) where
  feats : List (List (Cell τ))
  metas : List μ

/-- The cells of a feature hold exactly the token lists `vals`: list number `j` is stored unchanged and contiguously from
`start j` on, with segment id `j + 1` and positions counting from 0; it starts at the first multiple of `align` after the
end of the list before it (no overlap); all other cells are padding. -/
def FeatHolds (fc : FeatCfg τ) (cells : List (Cell τ)) (vals : List (List τ)) : Prop :=
  cells.length = fc.cap ∧
  ∃ start : Nat → Nat,
    start 0 = 0 ∧
    (∀ (j : Nat) v, vals[j]? = some v →
      start j + v.length ≤ fc.cap ∧
      (∀ (k : Nat) t, v[k]? = some t → cells[start j + k]? = some { tok := t, seg := j + 1, pos := k }) ∧
      start j + v.length ≤ start (j + 1) ∧ start (j + 1) < start j + v.length + fc.align ∧ start (j + 1) % fc.align = 0) ∧
    (∀ c, c < fc.cap → (∀ (j : Nat) v, vals[j]? = some v → ¬ (start j ≤ c ∧ c < start j + v.length)) →
      cells[c]? = some { tok := fc.pad, seg := 0, pos := 0 })

/-- The row holds exactly the examples `es`, in this order. -/
def RowHolds (cfg : List (FeatCfg τ)) (row : OutRow τ μ) (es : List (Ex τ μ)) : Prop :=
  row.feats.length = cfg.length ∧ row.metas = es.map (·.info) ∧
  ∀ (i : Nat) fc, cfg[i]? = some fc → ∃ cells, row.feats[i]? = some cells ∧ FeatHolds fc cells (es.map (·.feat i))

/-- The example has the configured features, none longer than a row. -/
def FitsEmpty (cfg : List (FeatCfg τ)) (e : Ex τ μ) : Prop :=
  e.feats.length = cfg.length ∧ ∀ (i : Nat) v fc, e.feats[i]? = some v → cfg[i]? = some fc → v.length ≤ fc.cap

/-- The first free cell of a feature after the token lists `vals`: each of them ends at the next multiple of `align`. -/
def endOf (align : Nat) (vals : List (List τ)) : Nat :=
  vals.foldl (fun pos v => (pos + v.length + align - 1) / align * align) 0

/-- The example `e` fits behind the examples `es` of a row: enough cells are left for every feature and there are fewer than
`maxSeq` examples. -/
def RowFits (cfg : List (FeatCfg τ)) (maxSeq : Option Nat) (es : List (Ex τ μ)) (e : Ex τ μ) : Prop :=
  (∀ m, maxSeq = some m → es.length < m) ∧
  ∀ (i : Nat) fc, cfg[i]? = some fc → endOf fc.align (es.map (·.feat i)) + (e.feat i).length ≤ fc.cap

/-- The number of cells in use in a row, over all features. -/
def usedCells (cfg : List (FeatCfg τ)) (es : List (Ex τ μ)) : Nat :=
  (cfg.mapIdx (fun i fc => endOf fc.align (es.map (·.feat i)))).sum

/-- The same with a weaker limit on the number of examples: it does not bind rows whose examples have no tokens at all when
an example without tokens is added. -/
def RowFitsLoose (cfg : List (FeatCfg τ)) (maxSeq : Option Nat) (es : List (Ex τ μ)) (e : Ex τ μ) : Prop :=
  (∀ m, maxSeq = some m → es.length < m ∨ ∀ (i : Nat), i < cfg.length → e.feat i = [] ∧ ∀ e' ∈ es, e'.feat i = []) ∧
  ∀ (i : Nat) fc, cfg[i]? = some fc → endOf fc.align (es.map (·.feat i)) + (e.feat i).length ≤ fc.cap

/-- First fit: the first row into which the example fits; `none` if there is no such row. -/
def IsFirstFit (fits : List X → X → Prop) (a : List (List X)) (e : X) : Option Nat → Prop
  | none => ∀ es ∈ a, ¬ fits es e
  | some r => (∃ es, a[r]? = some es ∧ fits es e) ∧ ∀ r' es, r' < r → a[r']? = some es → ¬ fits es e

/-- Best fit: among the rows into which the example fits the one with the most cells in use, the first of these. -/
def IsBestFit (used : List X → Nat) (fits : List X → X → Prop) (a : List (List X)) (e : X) : Option Nat → Prop
  | none => ∀ es ∈ a, ¬ fits es e
  | some r => ∃ es, a[r]? = some es ∧ fits es e ∧
      ∀ (r' : Nat) es', a[r']? = some es' → fits es' e → used es' < used es ∨ (used es' = used es ∧ r ≤ r')

/-- The examples of a batch are put into its `bins` rows one after the other, each at the end of the row chosen by `ch`. -/
inductive Assigned (ch : List (List X) → X → Option Nat → Prop) (bins : Nat) : List X → List (List X) → Prop
  | nil : Assigned ch bins [] (List.replicate bins [])
  | snoc {g a e r} : Assigned ch bins g a → ch a e (some r) → Assigned ch bins (g ++ [e]) (a.modify r (· ++ [e]))

/-- The examples are cut into batches: a batch is only closed when no row has room for the next example, or at the end of the
data. -/
def GreedyCut (ch : List (List X) → X → Option Nat → Prop) (bins : Nat) (ended : Bool) : List (List X) → List X → Prop
  | [], _ => True
  | g :: gs, rest =>
    g ≠ [] ∧
    (∃ a, Assigned ch bins g a ∧
      match gs.flatten ++ rest with
      | [] => ended = true
      | e :: _ => ch a e none) ∧
    GreedyCut ch bins ended gs rest

/-- The output rows of a batch are its rows that got examples; these come first. -/
def BatchHolds (cfg : List (FeatCfg τ)) (rows : List (OutRow τ μ)) (a : List (List (Ex τ μ))) : Prop :=
  ∃ used k, a = used ++ List.replicate k [] ∧ rows.length = used.length ∧
    ∀ (r : Nat) row es, rows[r]? = some row → used[r]? = some es → es ≠ [] ∧ RowHolds cfg row es

end Grain
