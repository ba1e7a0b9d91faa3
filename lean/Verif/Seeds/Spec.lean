import Verif.Seeds.Model
/-
What the default seeds of a pipeline depend on, independently of the traversal.
-/
namespace Grain

/-- The seeds given by `ds.seed` exactly `k` datasets upstream of `t`, from the first input to the last, leaving out
those behind another `ds.seed`. -/
def seedsAt : Nat → DsNode → List Int
  | 0, .node s _ => s.toList
  | _ + 1, .node (some _) _ => []
  | k + 1, .node none ps => ps.flatMap (seedsAt k)

/-- Some dataset upstream of `t` (or `t` itself) was given a seed. -/
inductive Seeded : DsNode → Prop where
  | here (s : Int) (ps : List DsNode) : Seeded (.node (some s) ps)
  | there (o : Option Int) (ps : List DsNode) (p : DsNode) : p ∈ ps → Seeded p → Seeded (.node o ps)

/-- `b` is upstream of `a` with no `ds.seed` at `a` or between them. -/
inductive Feeds : DsNode → DsNode → Prop where
  | parent (ps : List DsNode) (b : DsNode) : b ∈ ps → Feeds b (.node none ps)
  | trans (ps : List DsNode) (p b : DsNode) : p ∈ ps → Feeds b p → Feeds b (.node none ps)

mutual
/-- The pipeline with everything upstream of the `ds.seed` calls cut off. -/
def DsNode.trim : DsNode → DsNode
  | .node (some s) _ => .node (some s) []
  | .node none ps => .node none (DsNode.trims ps)

/-- `trim` of every dataset. -/
def DsNode.trims : List DsNode → List DsNode
  | [] => []
  | t :: ts => t.trim :: DsNode.trims ts
end

/-- `k` transformations with one input each on top of `t`. -/
def DsNode.chain : Nat → DsNode → DsNode
  | 0, t => t
  | k + 1, t => (DsNode.chain k t).over

end Grain
