import Verif.Tree.Model
/-
What the tree functions should do, said by paths: a structure is read at a path of positions and keys.
-/
namespace Grain

mutual
/-- What is found by following a path: the subtree, if there is one. -/
def Tree.at : Tree α → List PathKey → Option (Tree α)
  | t, [] => some t
  | .leaf _, _ :: _ => none
  | .seq _ ts, .pos i :: p => TreeList.at ts i p
  | .seq _ _, .key _ :: _ => none
  | .dict _ _, .pos _ :: _ => none
  | .dict _ kvs, .key s :: p => TreeDict.at kvs s p
def TreeList.at : TreeList α → Nat → List PathKey → Option (Tree α)
  | .nil, _, _ => none
  | .cons t _, 0, p => Tree.at t p
  | .cons _ ts, i + 1, p => TreeList.at ts i p
def TreeDict.at : TreeDict α → String → List PathKey → Option (Tree α)
  | .nil, _, _ => none
  | .cons key t kvs, s, p => if key = s then Tree.at t p else TreeDict.at kvs s p
end

/-- A leaf, if that is what was found. -/
def asLeaf : Option (Tree α) → Option α
  | some (.leaf a) => some a
  | _ => none

/-- The leaf found at a path. -/
def Tree.leafAt (t : Tree α) (p : List PathKey) : Option α := asLeaf (t.at p)

mutual
/-- Keys of dictionaries are distinct (true of every Python dictionary). -/
def Tree.Ok : Tree α → Prop
  | .leaf _ => True
  | .seq _ ts => TreeList.Ok ts
  | .dict _ kvs => TreeDict.Ok kvs
def TreeList.Ok : TreeList α → Prop
  | .nil => True
  | .cons t ts => Tree.Ok t ∧ TreeList.Ok ts
def TreeDict.Ok : TreeDict α → Prop
  | .nil => True
  | .cons key t kvs => key ∉ kvs.keys ∧ Tree.Ok t ∧ TreeDict.Ok kvs
end

/-- The same containers, keys (in the same order) and places of leaves. -/
def Tree.SameShape (a : Tree α) (b : Tree β) : Prop := a.map (fun _ => ()) = b.map (fun _ => ())

/-- The same leaves at the same paths: what `==` compares, except for types of containers and empty containers. -/
def Tree.SameLeaves (a b : Tree α) : Prop := ∀ p, a.leafAt p = b.leafAt p

end Grain
