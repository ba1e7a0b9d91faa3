import Verif.Loader.LegacyModel
import Verif.Loader.Spec
/-
What the operations of a data loader make of the records of one worker.
-/
namespace Grain

/-- A legacy operation does what the transformation of the same name does; its records have no record key. -/
def LdOp.run : LdOp D → List (Rec D) → Option (List (Rec D))
  | .transform op, rs => op.run rs
  | .legacy op, rs => (op.run rs).map (fun ys => ys.map (fun r => ⟨⟨r.md.index, none, r.md.rng⟩, r.data⟩))

def LdOp.valid : LdOp D → Prop
  | .transform op => op.valid
  | .legacy op => op.valid

def runLdOps : List (LdOp D) → List (Rec D) → Option (List (Rec D))
  | [], rs => some rs
  | op :: ops, rs => (op.run rs).bind (runLdOps ops)

/-- `FlatMap` replaces each record by its fan-out, in order; `none` if the user function raises. -/
def NOp.run : NOp D → List (Rec D) → Option (List (Rec D))
  | .keep op, rs => op.run rs
  | .flatMap f m, rs =>
    (rs.mapM (fun r => (okVal (f r.data)).map (fun ds =>
      ds.mapIdx (fun j d => (⟨⟨r.md.index * m + (j : Int), none, none⟩, d⟩ : Rec D))))).map List.flatten

def NOp.valid : NOp D → Prop
  | .keep op => op.valid
  | .flatMap _ _ => True

def runNOps : List (NOp D) → List (Rec D) → Option (List (Rec D))
  | [], rs => some rs
  | op :: ops, rs => (op.run rs).bind (runNOps ops)

end Grain
