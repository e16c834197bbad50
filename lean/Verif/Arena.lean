import Verif.Basic

/-!
# The symbol arena

Model of the parts of the crate `indextree` (4.3) which `src/environment` and `src/backend` use.  The crate is not part of the
repository; its behaviour is trusted as written down here (see DESIGN.md).

`indextree` stores nodes in a vector of slots linked by parent, sibling and child indices.  The model keeps the forest these
links describe: for each tree the node, its payload, its children in order, and the trees behind it.  The functions of the
crate are the corresponding operations on the forest:

* a `NodeId` is a slot index with a stamp; `arena[id]` looks at the index only;
* a slot that is freed goes to the end of the free list, its stamp is raised by one, and `new_node` takes the first free slot
  or else makes a new one at the end;
* `arena[id].get()` of a freed slot panics; so every access to an index which is not in the forest is a panic (`none`);
* the code always calls `new_node` immediately before `append`, or to make a new root; both together are one operation here.

The stamps of the crate have 16 bit and a slot is retired when its stamp runs out; here they are unbounded.
-/

namespace PhpLs

/-- `indextree::NodeId`. -/
structure NodeId where
  idx : Nat
  stamp : Nat
deriving DecidableEq, Repr

/-- A list of trees: the first tree (its node, payload and children) and the rest. -/
inductive Forest (α : Type) where
  | nil
  | cons (id : NodeId) (val : α) (kids : Forest α) (rest : Forest α)
deriving DecidableEq, Repr

namespace Forest

variable {α : Type}

/-- The nodes on the top level, in order. -/
def tops : Forest α → List (NodeId × α)
  | nil => []
  | cons i v _ r => (i, v) :: r.tops

/-- All nodes, every node before its children, in order (`NodeId::descendants` of all the roots). -/
def flat : Forest α → List (NodeId × α)
  | nil => []
  | cons i v k r => (i, v) :: (k.flat ++ r.flat)

/-- The ids of all nodes. -/
def ids (f : Forest α) : List NodeId := f.flat.map (·.1)

/-- The slot indices of all nodes. -/
def idxs (f : Forest α) : List Nat := f.flat.map (·.1.idx)

/-- The node in slot `n`: its id, its payload and its children. -/
def node? (n : Nat) : Forest α → Option (NodeId × α × Forest α)
  | nil => none
  | cons i v k r =>
    if i.idx = n then some (i, v, k)
    else
      match k.node? n with
      | some x => some x
      | none => r.node? n

/-- The chain from slot `n` up to its root (`NodeId::ancestors`): the node itself comes first. -/
def path? (n : Nat) : Forest α → Option (List NodeId)
  | nil => none
  | cons i _ k r =>
    if i.idx = n then some [i]
    else
      match k.path? n with
      | some p => some (p ++ [i])
      | none => r.path? n

/-- The trees of `g` behind those of `f`. -/
def append : Forest α → Forest α → Forest α
  | nil, g => g
  | cons i v k r, g => cons i v k (r.append g)

/-- A tree at the end of the top level. -/
def snoc (f : Forest α) (id : NodeId) (val : α) (kids : Forest α) : Forest α := f.append (cons id val kids nil)

/-- Apply `u` to the payload and the children of the node in slot `n`. -/
def update (n : Nat) (u : α → Forest α → α × Forest α) : Forest α → Forest α
  | nil => nil
  | cons i v k r =>
    if i.idx = n then cons i (u v k).1 (u v k).2 r
    else cons i v (k.update n u) (r.update n u)

/-- Take the node in slot `n` out and leave `g` of its children in its place. -/
def replace (n : Nat) (g : Forest α → Forest α) : Forest α → Forest α
  | nil => nil
  | cons i v k r =>
    if i.idx = n then (g k).append r
    else cons i v (k.replace n g) (r.replace n g)

end Forest

/-- `indextree::Arena`. -/
structure Arena (α : Type) where
  forest : Forest α
  /-- The ids the freed slots will get, in the order in which they will be taken. -/
  free : List NodeId
  /-- The number of slots. -/
  next : Nat

namespace Arena

variable {α : Type}

/-- `Arena::new`. -/
def empty : Arena α := ⟨.nil, [], 0⟩

/-- The id `Arena::new_node` hands out. -/
def fresh (a : Arena α) : NodeId :=
  match a.free with
  | [] => ⟨a.next, 0⟩
  | i :: _ => i

/-- The slots after `Arena::new_node`, with a new forest. -/
def took (a : Arena α) (f : Forest α) : Arena α :=
  match a.free with
  | [] => ⟨f, [], a.next + 1⟩
  | _ :: r => ⟨f, r, a.next⟩

/-- `Arena::new_node` of a node that stays a root. -/
def addRoot (a : Arena α) (v : α) : NodeId × Arena α := (a.fresh, a.took (a.forest.snoc a.fresh v .nil))

/-- `Arena::new_node` and `parent.append(child, arena)`.  The parent has to exist. -/
def addChild (a : Arena α) (parent : NodeId) (v : α) : NodeId × Arena α :=
  (a.fresh, a.took (a.forest.update parent.idx fun w k => (w, k.snoc a.fresh v .nil)))

/-- `arena[id].get()`: `none` is a panic. -/
def get? (a : Arena α) (i : NodeId) : Option α := (a.forest.node? i.idx).map (·.2.1)

/-- `*arena[id].get_mut() = …`; no effect (in the code a panic) if the node does not exist. -/
def modify (a : Arena α) (i : NodeId) (u : α → α) : Arena α :=
  { a with forest := a.forest.update i.idx fun v k => (u v, k) }

/-- `id.children(arena)`: `none` is an access to a slot that is not in use. -/
def children? (a : Arena α) (i : NodeId) : Option (List (NodeId × α)) := (a.forest.node? i.idx).map (·.2.2.tops)

/-- `id.ancestors(arena)`, the node itself first. -/
def ancestors? (a : Arena α) (i : NodeId) : Option (List NodeId) := a.forest.path? i.idx

/-- `arena[id].parent()`: the outer `none` is an access to a slot that is not in use. -/
def parent? (a : Arena α) (i : NodeId) : Option (Option NodeId) :=
  (a.ancestors? i).map fun p => p.tail.head?

/-- `id.descendants(arena)`, the node itself first. -/
def descendants? (a : Arena α) (i : NodeId) : Option (List (NodeId × α)) :=
  (a.forest.node? i.idx).map fun x => (x.1, x.2.1) :: x.2.2.flat

/-- The id a freed slot gets when it is used again. -/
def NodeId.reborn (i : NodeId) : NodeId := ⟨i.idx, i.stamp + 1⟩

/-- `id.remove(arena)`: the children take the place of the node. -/
def remove (a : Arena α) (i : NodeId) : Arena α :=
  match a.forest.node? i.idx with
  | none => a
  | some x => { a with forest := a.forest.replace i.idx id, free := a.free ++ [NodeId.reborn x.1] }

/-- `id.remove_subtree(arena)`. -/
def removeSubtree (a : Arena α) (i : NodeId) : Arena α :=
  match a.forest.node? i.idx with
  | none => a
  | some x =>
    { a with
      forest := a.forest.replace i.idx (fun _ => .nil),
      free := a.free ++ (x.1 :: x.2.2.ids).map NodeId.reborn }

/-- `parent.append(child, arena)` for a node that is in the arena already: it is moved with its children to the end of the
children of `parent`.  `none` is a panic.  Appending a node to itself is one in the crate; to append it below
one of its own descendants would close a circle of parents, on which the next walk over the ancestors does not end: the model
counts that as a panic as well. -/
def moveTo (a : Arena α) (parent child : NodeId) : Option (Arena α) :=
  match a.forest.node? child.idx with
  | none => none
  | some x =>
    let f := a.forest.replace child.idx (fun _ => .nil)
    match f.node? parent.idx with
    | none => none
    | some _ => some { a with forest := f.update parent.idx fun w k => (w, k.snoc x.1 x.2.1 x.2.2) }

/-- `id` is a node of the arena (with its stamp, so not a later node in the same slot). -/
def Live (a : Arena α) (i : NodeId) : Prop := i ∈ a.forest.ids

instance (a : Arena α) (i : NodeId) : Decidable (a.Live i) := inferInstanceAs (Decidable (i ∈ a.forest.ids))

/-- No slot is used twice, and all are below the number of slots. -/
structure Ok (a : Arena α) : Prop where
  nodup : (a.forest.idxs ++ a.free.map (·.idx)).Nodup
  bound : ∀ n ∈ a.forest.idxs ++ a.free.map (·.idx), n < a.next

end Arena

end PhpLs
