/-
Concat-then-split packing: what the outputs are, written from the documentation (no reference to the model of the code).
-/
namespace Grain

/-- One feature: target length, is it a meta feature, the BOS token if the first token of each sequence is to be replaced. -/
structure CtsFeat (τ : Type) where
  len : Nat
  isMeta : Bool
  bos : Option τ

/-- A part of element number `src`: for each feature its tokens. -/
structure CtsPiece (τ : Type) where
  src : Nat
  toks : List (List τ)

/-- The tokens of feature `k`. -/
def CtsPiece.feat (x : CtsPiece τ) (k : Nat) : List τ := (x.toks[k]?).getD []

/-- One feature of an output: the values, and for other than meta features (segment id, position) of each value. -/
structure CtsCol (τ : Type) where
  vals : List τ
  aux : Option (List (Nat × Nat))

/-- Replacement of the first token by BOS. -/
def withBos (bos : Option τ) (v : List τ) : List τ :=
  match bos, v with
  | some b, _ :: t => b :: t
  | _, v => v

/-- The sequences one after the other, filled up with zeros; segment ids from 1, positions from 0 within each sequence. -/
def ctsCol (zero : τ) (f : CtsFeat τ) (vs : List (List τ)) : CtsCol τ where
  vals := (vs.map (withBos f.bos)).flatten ++ List.replicate (f.len - vs.flatten.length) zero
  aux :=
    if f.isMeta then none
    else some ((vs.mapIdx (fun j v => (List.range v.length).map (fun k => (j + 1, k)))).flatten ++
      List.replicate (f.len - vs.flatten.length) (0, 0))

/-- The output for a row of pieces. -/
def ctsRow (zero : τ) (cfg : List (CtsFeat τ)) (row : List (CtsPiece τ)) : List (CtsCol τ) :=
  cfg.mapIdx (fun k f => ctsCol zero f (row.map (·.feat k)))

/-- The rows have room for their pieces, and a row contains at most one piece of an element, in stream order. -/
def CtsRowsFit (cfg : List (CtsFeat τ)) (rows : List (List (CtsPiece τ))) : Prop :=
  ∀ row ∈ rows, row ≠ [] ∧ (row.map (·.src)).Pairwise (· < ·) ∧
    ∀ (k : Nat) f, cfg[k]? = some f → (row.map (·.feat k)).flatten.length ≤ f.len

/-- The pieces of element `i` in the order of the output. -/
def piecesOf (i : Nat) (rows : List (List (CtsPiece τ))) : List (CtsPiece τ) := rows.flatten.filter (fun x => decide (x.src = i))

/-- No token is lost or repeated: for each of the first `m` elements, concatenating its pieces gives the element, for each
feature that is not a meta feature; each piece carries the element's meta features.  No other element occurs. -/
def CtsContent (cfg : List (CtsFeat τ)) (es : List (List (List τ))) (rows : List (List (CtsPiece τ))) (m : Nat) : Prop :=
  (∀ (i : Nat) e (k : Nat) f, i < m → es[i]? = some e → cfg[k]? = some f → f.isMeta = false →
    ((piecesOf i rows).map (·.feat k)).flatten = (e[k]?).getD []) ∧
  (∀ x ∈ rows.flatten, ∃ e, es[x.src]? = some e ∧ ∀ (k : Nat) f, cfg[k]? = some f → f.isMeta = true → x.feat k = (e[k]?).getD [])

/-- A feature value: an array, or a scalar (`np.ndim == 0`, one token). -/
structure CtsVal (τ : Type) where
  scalar : Bool
  toks : List τ

/-- The configuration (CT:84-113): the features, whether elements of full length take part in splitting, and the zero of the buffers. -/
structure CtsCfg (τ : Type) where
  feats : List (CtsFeat τ)
  splitFull : Bool
  zero : τ

/-- The whole stream (used when `split_full_length_features` is on): reading the rows one after the other gives, for each feature
that is not a meta feature, the concatenation of the input sequences. -/
def CtsConcat (cfg : List (CtsFeat τ)) (es : List (List (List τ))) (rows : List (List (CtsPiece τ))) : Prop :=
  ∀ (k : Nat) f, cfg[k]? = some f → f.isMeta = false →
    (rows.flatten.map (·.feat k)).flatten = (es.map (fun e => (e[k]?).getD [])).flatten

/-- A row is closed only when it has to be: one of its features is full, or a meta feature of the first element of the next row
has no room. -/
def CtsTight (cfg : List (CtsFeat τ)) (rows : List (List (CtsPiece τ))) : Prop :=
  ∀ (j : Nat) row next x, rows[j]? = some row → rows[j + 1]? = some next → next.head? = some x →
    ∃ (k : Nat) (f : CtsFeat τ), cfg[k]? = some f ∧
      (f.isMeta = false ∧ (row.map (·.feat k)).flatten.length = f.len ∨
        f.isMeta = true ∧ f.len < (row.map (·.feat k)).flatten.length + (x.feat k).length)

/-- An element that fits into one row and fills one of its features. -/
def CtsFull (cfg : List (CtsFeat τ)) (e : List (List τ)) : Prop :=
  (∀ (k : Nat) f v, cfg[k]? = some f → e[k]? = some v → v.length ≤ f.len) ∧
  ∃ (k : Nat) (f : CtsFeat τ) (v : List τ), cfg[k]? = some f ∧ e[k]? = some v ∧ v.length = f.len

/-- No feature is longer than its target length (so no element needs to be split twice), and there is no BOS. -/
def CtsWhole (cfg : CtsCfg τ) (es : List (List (CtsVal τ))) : Prop :=
  (∀ f ∈ cfg.feats, f.bos = none) ∧
  ∀ e ∈ es, ∀ (k : Nat) f v, cfg.feats[k]? = some f → e[k]? = some v → f.isMeta = false → v.toks.length ≤ f.len

/-- Lock step: all features other than meta features have the same target length and, in each element, the same length; features with
BOS are not empty. -/
def CtsLock (cfg : CtsCfg τ) (es : List (List (CtsVal τ))) : Prop :=
  (∃ L, ∀ f ∈ cfg.feats, f.isMeta = false → f.len = L) ∧
  ∀ e ∈ es, (∃ n, ∀ (k : Nat) f v, cfg.feats[k]? = some f → e[k]? = some v → f.isMeta = false → v.toks.length = n) ∧
    ∀ (k : Nat) f v, cfg.feats[k]? = some f → e[k]? = some v → f.bos ≠ none → v.toks ≠ []

/-- Inputs that the code handles correctly: all elements have all features; meta features fit; other features are arrays with a
positive target length; and one of the two conditions above. -/
def CtsGood (cfg : CtsCfg τ) (es : List (List (CtsVal τ))) : Prop :=
  (∀ e ∈ es, e.length = cfg.feats.length ∧ ∀ (k : Nat) f v, cfg.feats[k]? = some f → e[k]? = some v →
    (f.isMeta = true → v.toks.length ≤ f.len) ∧ (f.isMeta = false → v.scalar = false ∧ 0 < f.len)) ∧
  (CtsWhole cfg es ∨ CtsLock cfg es)

end Grain
