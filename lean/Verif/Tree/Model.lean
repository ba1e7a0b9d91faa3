import Verif.Py
/-
Model of the pure Python functions of grain/_src/core/tree_lib.py (lines 87-263; with JAX installed those of `jax.tree_util`
are used instead).
-/
namespace Grain

/-- The sequence types: `list`, `tuple` and named tuples. -/
inductive SeqKind where
  | list
  | tuple
  | named (name : String)
  deriving DecidableEq, Repr

/-- The mapping types: `dict` and `defaultdict` (with its factory). -/
inductive DictKind where
  | dict
  | default (factory : String)
  deriving DecidableEq, Repr

mutual
/-- A nested structure.  A dictionary lists its items in insertion order.  Everything else is a leaf, tree_lib.py:34-36. -/
inductive Tree (α : Type) where
  | leaf (a : α)
  | seq (k : SeqKind) (ts : TreeList α)
  | dict (k : DictKind) (kvs : TreeDict α)
/-- The items of a sequence. -/
inductive TreeList (α : Type) where
  | nil
  | cons (t : Tree α) (ts : TreeList α)
/-- The items of a mapping, in insertion order. -/
inductive TreeDict (α : Type) where
  | nil
  | cons (key : String) (t : Tree α) (kvs : TreeDict α)
end

mutual
/-- `map_structure(f, tree)`, tree_lib.py:89-112, for one tree. -/
def Tree.map (f : α → β) : Tree α → Tree β
  | .leaf a => .leaf (f a)
  | .seq k ts => .seq k (TreeList.map f ts)
  | .dict k kvs => .dict k (TreeDict.map f kvs)
/-- The sequences of tree_lib.py:89-112. -/
def TreeList.map (f : α → β) : TreeList α → TreeList β
  | .nil => .nil
  | .cons t ts => .cons (Tree.map f t) (TreeList.map f ts)
/-- The dictionaries of tree_lib.py:89-112. -/
def TreeDict.map (f : α → β) : TreeDict α → TreeDict β
  | .nil => .nil
  | .cons key t kvs => .cons key (Tree.map f t) (TreeDict.map f kvs)
end

mutual
/-- `flatten`, tree_lib.py:114-124. -/
def Tree.flatten : Tree α → List α
  | .leaf a => [a]
  | .seq _ ts => TreeList.flatten ts
  | .dict _ kvs => TreeDict.flatten kvs
/-- The sequences of tree_lib.py:114-124. -/
def TreeList.flatten : TreeList α → List α
  | .nil => []
  | .cons t ts => Tree.flatten t ++ TreeList.flatten ts
/-- The dictionaries of tree_lib.py:114-124. -/
def TreeDict.flatten : TreeDict α → List α
  | .nil => []
  | .cons _ t kvs => Tree.flatten t ++ TreeDict.flatten kvs
end

mutual
/-- `_unflatten_iter_as`, tree_lib.py:129-148: the rebuilt structure and what is left of the iterator; `none` if the
iterator ended (`next` raises `StopIteration`). -/
def Tree.unflattenIter : Tree β → List α → Option (Tree α × List α)
  | .leaf _, [] => none
  | .leaf _, x :: xs => some (.leaf x, xs)
  | .seq k ts, xs => (TreeList.unflattenIter ts xs).map (fun r => (.seq k r.1, r.2))
  | .dict k kvs, xs => (TreeDict.unflattenIter kvs xs).map (fun r => (.dict k r.1, r.2))
/-- The sequences of tree_lib.py:129-148. -/
def TreeList.unflattenIter : TreeList β → List α → Option (TreeList α × List α)
  | .nil, xs => some (.nil, xs)
  | .cons t ts, xs => (Tree.unflattenIter t xs).bind (fun r => (TreeList.unflattenIter ts r.2).map (fun q => (.cons r.1 q.1, q.2)))
/-- The dictionaries of tree_lib.py:129-148. -/
def TreeDict.unflattenIter : TreeDict β → List α → Option (TreeDict α × List α)
  | .nil, xs => some (.nil, xs)
  | .cons key t kvs, xs => (Tree.unflattenIter t xs).bind (fun r => (TreeDict.unflattenIter kvs r.2).map (fun q => (.cons key r.1 q.1, q.2)))
end

/-- `unflatten_as`, tree_lib.py:126-127.  `none`: `StopIteration`, or `RuntimeError` when it passes through one of the
generator expressions.  What is left of the sequence is ignored. -/
def Tree.unflattenAs (s : Tree β) (xs : List α) : Option (Tree α) := (s.unflattenIter xs).map (·.1)

/-- One step of a path: a position in a sequence or a key. -/
inductive PathKey where
  | pos (i : Nat)
  | key (s : String)
  deriving DecidableEq, Repr

mutual
/-- `_flatten_with_path`, tree_lib.py:190-206.  In a list `i` is the position of its first element. -/
def Tree.flattenPath (pre : List PathKey) : Tree α → List (List PathKey × α)
  | .leaf a => [(pre, a)]
  | .seq _ ts => TreeList.flattenPath pre 0 ts
  | .dict _ kvs => TreeDict.flattenPath pre kvs
/-- The sequences of tree_lib.py:190-206. -/
def TreeList.flattenPath (pre : List PathKey) (i : Nat) : TreeList α → List (List PathKey × α)
  | .nil => []
  | .cons t ts => Tree.flattenPath (pre ++ [.pos i]) t ++ TreeList.flattenPath pre (i + 1) ts
/-- The dictionaries of tree_lib.py:190-206. -/
def TreeDict.flattenPath (pre : List PathKey) : TreeDict α → List (List PathKey × α)
  | .nil => []
  | .cons key t kvs => Tree.flattenPath (pre ++ [.key key]) t ++ TreeDict.flattenPath pre kvs
end

mutual
/-- `map_structure_with_path(f, tree)`, tree_lib.py:208-237, for one tree. -/
def Tree.mapPath (f : List PathKey → α → β) (pre : List PathKey) : Tree α → Tree β
  | .leaf a => .leaf (f pre a)
  | .seq k ts => .seq k (TreeList.mapPath f pre 0 ts)
  | .dict k kvs => .dict k (TreeDict.mapPath f pre kvs)
/-- The sequences of tree_lib.py:208-237. -/
def TreeList.mapPath (f : List PathKey → α → β) (pre : List PathKey) (i : Nat) : TreeList α → TreeList β
  | .nil => .nil
  | .cons t ts => .cons (Tree.mapPath f (pre ++ [.pos i]) t) (TreeList.mapPath f pre (i + 1) ts)
/-- The dictionaries of tree_lib.py:208-237. -/
def TreeDict.mapPath (f : List PathKey → α → β) (pre : List PathKey) : TreeDict α → TreeDict β
  | .nil => .nil
  | .cons key t kvs => .cons key (Tree.mapPath f (pre ++ [.key key]) t) (TreeDict.mapPath f pre kvs)
end

/-! ### Two trees -/

def TreeDict.keys : TreeDict α → List String
  | .nil => []
  | .cons key _ kvs => key :: kvs.keys

/-- `d[key]`. -/
def TreeDict.lookup (s : String) : TreeDict α → Option (Tree α)
  | .nil => none
  | .cons key t kvs => if key = s then some t else kvs.lookup s

/-- `isinstance(b, _MAPPING_TYPES)` etc. fails for the partner of a container: `zip(*trees)` and `epy.zip_dict(*trees)` of
something that is not a sequence or a mapping.  (Iterating over a leaf raises `TypeError` if the leaf cannot be iterated; this
model takes leaves to be such.)  `zip` stops at the shorter sequence; zipping a sequence with a mapping pairs the elements with
the keys, here an error too.  `epy.zip_dict` raises `KeyError` unless the keys are the same, and uses the order of the first. -/
def TreeDict.sameKeys (a : TreeDict α) (b : TreeDict β) : Bool :=
  a.keys.all (fun k => b.keys.contains k) && b.keys.all (fun k => a.keys.contains k)

mutual
/-- `map_structure(f, a, b)`, tree_lib.py:89-112: at a leaf of `a` the partner is passed whatever it is. -/
def Tree.map₂ (f : α → Tree β → Py γ) : Tree α → Tree β → Py (Tree γ)
  | .leaf a, b => do .ok (.leaf (← f a b))
  | .seq k ts, .seq _ us => do .ok (.seq k (← TreeList.map₂ f ts us))
  | .dict k kvs, .dict _ us =>
    if kvs.sameKeys us then do .ok (.dict k (← TreeDict.map₂ f kvs us)) else .error .keyError
  | _, _ => .error .typeError
/-- The sequences of tree_lib.py:89-112. -/
def TreeList.map₂ (f : α → Tree β → Py γ) : TreeList α → TreeList β → Py (TreeList γ)
  | .cons t ts, .cons u us => do .ok (.cons (← Tree.map₂ f t u) (← TreeList.map₂ f ts us))
  | _, _ => .ok .nil
/-- The dictionaries of tree_lib.py:89-112. -/
def TreeDict.map₂ (f : α → Tree β → Py γ) : TreeDict α → TreeDict β → Py (TreeDict γ)
  | .nil, _ => .ok .nil
  | .cons key t kvs, us =>
    match us.lookup key with
    | none => .error .keyError
    | some u => do .ok (.cons key (← Tree.map₂ f t u) (← TreeDict.map₂ f kvs us))
end

/-- `isinstance(a, type(b))` for sequences, tree_lib.py:158-162: a named tuple is a tuple. -/
def SeqKind.isInstance (a b : SeqKind) : Bool :=
  match a, b with
  | .named _, .tuple => true
  | a, b => decide (a = b)

/-- The same for mappings: a `defaultdict` is a `dict`; the factory does not matter. -/
def DictKind.isInstance (a b : DictKind) : Bool :=
  match a, b with
  | .default _, _ => true
  | .dict, .dict => true
  | .dict, .default _ => false

/-- `len(l)`. -/
def TreeList.length : TreeList α → Nat
  | .nil => 0
  | .cons _ ts => ts.length + 1

mutual
/-- `_assert_same_structure`, tree_lib.py:156-185: `true` if it returns, `false` if it raises.  `sorted(a) != sorted(b)` is
modelled as different sets of keys (keys of a dictionary are distinct). -/
def Tree.same : Tree α → Tree β → Bool
  | .leaf _, _ => true
  | .seq k ts, .seq k' us => k.isInstance k' && decide (ts.length = us.length) && TreeList.same ts us
  | .dict k kvs, .dict k' us => k.isInstance k' && kvs.sameKeys us && TreeDict.same kvs us
  | _, _ => false
/-- The sequences of tree_lib.py:156-185. -/
def TreeList.same : TreeList α → TreeList β → Bool
  | .cons t ts, .cons u us => Tree.same t u && TreeList.same ts us
  | _, _ => true
/-- The dictionaries of tree_lib.py:156-185. -/
def TreeDict.same : TreeDict α → TreeDict β → Bool
  | .nil, _ => true
  | .cons key t kvs, us =>
    match us.lookup key with
    | none => false
    | some u => Tree.same t u && TreeDict.same kvs us
end

mutual
/-- `map_structure_up_to(shallow, f, structure)`, tree_lib.py:240-263. -/
def Tree.mapUpTo (f : Tree β → Py γ) : Tree α → Tree β → Py (Tree γ)
  | .leaf _, b => do .ok (.leaf (← f b))
  | .seq k ts, .seq _ us => do .ok (.seq k (← TreeList.mapUpTo f ts us))
  | .dict k kvs, .dict _ us => do .ok (.dict k (← TreeDict.mapUpTo f kvs us))
  | _, _ => .error .typeError
/-- The sequences of tree_lib.py:240-263. -/
def TreeList.mapUpTo (f : Tree β → Py γ) : TreeList α → TreeList β → Py (TreeList γ)
  | .cons t ts, .cons u us => do .ok (.cons (← Tree.mapUpTo f t u) (← TreeList.mapUpTo f ts us))
  | _, _ => .ok .nil
/-- The dictionaries of tree_lib.py:240-263. -/
def TreeDict.mapUpTo (f : Tree β → Py γ) : TreeDict α → TreeDict β → Py (TreeDict γ)
  | .nil, _ => .ok .nil
  | .cons key t kvs, us =>
    match us.lookup key with
    | none => .error .keyError
    | some u => do .ok (.cons key (← Tree.mapUpTo f t u) (← TreeDict.mapUpTo f kvs us))
end

/-- The structure handling of `_RebatchDatasetIterator`, grain/_src/python/dataset/transformations/rebatch.py:105-109, 148-187:
the pieces taken from the parent's elements (given with their structure) are flattened one by one, leaf `i` of the result is
the concatenation of the leaves `i`, and the result gets the structure of the first element ever seen.  `none`: some error.  (A
piece with fewer leaves than the first leaves the other columns short; here that is an error as well.) -/
def rebatchJoin (treedef : Tree β) (pieces : List (Tree (List α))) : Option (Tree (List α)) :=
  match pieces with
  | [] => none
  | e :: _ =>
    if pieces.all (fun u => decide (u.flatten.length = e.flatten.length)) then
      treedef.unflattenAs ((List.range e.flatten.length).map (fun i => (pieces.map (fun u => (u.flatten[i]?).getD [])).flatten))
    else none

end Grain
