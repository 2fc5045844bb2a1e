import Verif.Base
import Verif.Status
import Mathlib.Data.Finset.Image
import Mathlib.Order.Lex
import Mathlib.Data.List.Lex

/-!
# Model of weave/src/zdd

A `Node` whose children are `NodeId`s into the arena is modelled by the diagram it denotes
(`Verif.Arena`): `==` on nodes is equality of diagrams.  A `BTreeSet<T>` is a strictly ascending list
(`filterRepeats` collects one), ordered lexicographically; a `HashMap` is a key-sorted association
list, and where the code iterates over one the model takes any permutation of its entries.
-/

namespace Verif.Zdd1
open Verif Verif.Weave

universe u

/-- weave/src/zdd/node/mod.rs:20-24 -/
inductive Node where
  | Branch (id : Nat) (low high : Node)
  | Leaf (b : Bool)
deriving DecidableEq

namespace Node

/-- Number of nodes, for termination.  Not code: used to state or prove properties. -/
def size : Node → Nat
  | .Branch _ l h => 1 + l.size + h.size
  | .Leaf _ => 1

/-- weave/src/zdd/node/mod.rs:53-55: no normalisation. -/
def branch (priority : Nat) (low high : Node) : Node := .Branch priority low high

/-- weave/src/zdd/node/mod.rs:57-59 -/
def requiredBranch (priority : Nat) (high : Node) : Node := branch priority (.Leaf false) high

/-- The end of `union`, `intersect` and `product` (weave/src/zdd/tree/union.rs:47-51,
intersect.rs:35-39, product.rs:35-39). -/
def finish (id : Nat) (low high : Node) : Node := if high = .Leaf false then low else branch id low high

/-- weave/src/zdd/tree/union.rs:3-52 -/
def union (node1 node2 : Node) : Node :=
  if node1 = node2 then node1
  else
    match node1, node2 with
    | node1, .Leaf false => node1
    | .Leaf false, node2 => node2
    | .Leaf true, .Leaf true => .Leaf true
    | .Branch id low high, .Leaf true => finish id (union low (.Leaf true)) high
    | .Leaf true, .Branch id low high => finish id (union (.Leaf true) low) high
    | .Branch id1 low1 high1, .Branch id2 low2 high2 =>
      if id1 < id2 then finish id1 (union low1 (.Branch id2 low2 high2)) high1
      else if id1 > id2 then finish id2 (union (.Branch id1 low1 high1) low2) high2
      else finish id1 (union low1 low2) (union high1 high2)
termination_by node1.size + node2.size
decreasing_by all_goals simp only [size]; omega

/-- weave/src/zdd/tree/intersect.rs:3-40 -/
def intersect (node1 node2 : Node) : Node :=
  if node1 = node2 then node1
  else
    match node1, node2 with
    | node1, .Leaf true => node1
    | .Leaf true, node2 => node2
    | _, .Leaf false => .Leaf false
    | .Leaf false, _ => .Leaf false
    | .Branch id1 low1 high1, .Branch id2 low2 high2 =>
      if id1 < id2 then finish id1 low1 (intersect high1 (.Branch id2 low2 high2))
      else if id1 > id2 then finish id2 low2 (intersect (.Branch id1 low1 high1) high2)
      else finish id1 (intersect low1 low2) (intersect high1 high2)
termination_by node1.size + node2.size
decreasing_by all_goals simp only [size]; omega

/-- weave/src/zdd/tree/product.rs:3-40 -/
def product (node1 node2 : Node) : Node :=
  if node1 = node2 then node1
  else
    match node1, node2 with
    | node1, .Leaf true => node1
    | .Leaf true, node2 => node2
    | _, .Leaf false => .Leaf false
    | .Leaf false, _ => .Leaf false
    | .Branch id1 low1 high1, .Branch id2 low2 high2 =>
      if id1 < id2 then
        finish id1 (product low1 (.Branch id2 low2 high2)) (product high1 (.Branch id2 low2 high2))
      else if id1 > id2 then
        finish id2 (product (.Branch id1 low1 high1) low2) (product (.Branch id1 low1 high1) high2)
      else finish id1 (product low1 low2) (product high1 high2)
termination_by node1.size + node2.size
decreasing_by all_goals simp only [size]; omega

/-- `combinations_inner`, weave/src/zdd/tree/combinations.rs:10-32 -/
def combinationsInner (root : Node) (path : List Nat) : Option (List (List Nat)) :=
  match root with
  | .Branch id low high =>
    let low := combinationsInner low path
    let high := combinationsInner high (path ++ [id])
    some (([low, high].filterMap (fun f => f)).flatten)
  | .Leaf true => some [path]
  | .Leaf false => none

/-- weave/src/zdd/tree/combinations.rs:5-8 -/
def combinationsRecursive (root : Node) : List (List Nat) :=
  match combinationsInner root [] with
  | some v => v
  | none => []

/-- Total size of a work list.  Not code: used to state or prove properties. -/
def queueSize (q : List (Node × List Nat)) : Nat := (q.map (fun e => e.1.size)).sum

/-- The loop of `combinations_iter`, weave/src/zdd/tree/combinations.rs:34-56; the head of `queue` is
the top of the stack. -/
def combinationsLoop (queue : List (Node × List Nat)) (combinations : List (List Nat)) :
    List (List Nat) :=
  match queue with
  | [] => combinations
  | (.Branch id low high, path) :: q =>
    combinationsLoop ((high, path ++ [id]) :: (low, path) :: q) combinations
  | (.Leaf true, path) :: q => combinationsLoop q (combinations ++ [path])
  | (.Leaf false, _) :: q => combinationsLoop q combinations
termination_by queueSize queue
decreasing_by all_goals simp [queueSize, size]; try omega

/-- weave/src/zdd/tree/combinations.rs:34-56 -/
def combinationsIter (root : Node) : List (List Nat) := combinationsLoop [(root, [])] []

end Node

variable {T : Type u} [LinearOrder T]

/-- weave/src/zdd/tree/universe.rs:11-16 -/
@[ext] structure Universe (T : Type u) where
  items : List T
  itemIndex : List (T × Nat)

/-- weave/src/zdd/tree/mod.rs:26-30 -/
@[ext] structure Tree (T : Type u) where
  root : Node
  univ : Universe T

namespace Universe

/-- `From<Vec<T>>`, weave/src/zdd/tree/universe.rs:23-32: a later copy of an item overwrites the index
of an earlier one. -/
def fromVec (items : List T) : Universe T :=
  ⟨items, items.zipIdx.foldl (fun m p => insertKV p.1 p.2 m) []⟩

/-- weave/src/zdd/tree/universe.rs:34-38 -/
def default : Universe T := ⟨[], []⟩

/-- weave/src/zdd/tree/universe.rs:72-74 -/
def getItem (uni : Universe T) (p : Nat) : Option T := uni.items[p]?

/-- weave/src/zdd/tree/universe.rs:76-81 -/
def getItems (uni : Universe T) (ps : List Nat) : List T :=
  filterRepeats (ps.filterMap (fun p => uni.items[p]?))

/-- weave/src/zdd/tree/universe.rs:41-43, tree/mod.rs:39-41 -/
def emptyTree (uni : Universe T) : Tree T := ⟨.Leaf false, uni⟩

/-- weave/src/zdd/tree/universe.rs:45-47, tree/mod.rs:43-45 -/
def unitTree (uni : Universe T) : Tree T := ⟨.Leaf true, uni⟩

/-- weave/src/zdd/tree/universe.rs:49-58 -/
def tree (uni : Universe T) (combination : List T) : Tree T :=
  ⟨(sorted (combination.filterMap (fun item => lookup item uni.itemIndex))).reverse.foldl
    (fun next id => Node.requiredBranch id next) (.Leaf true), uni⟩

end Universe

namespace Tree

/-- weave/src/zdd/tree/mod.rs:107-113 -/
def union (t other : Tree T) : Tree T := ⟨t.root.union other.root, t.univ⟩

/-- weave/src/zdd/tree/mod.rs:115-121 -/
def intersect (t other : Tree T) : Tree T := ⟨t.root.intersect other.root, t.univ⟩

/-- weave/src/zdd/tree/mod.rs:123-129 -/
def product (t other : Tree T) : Tree T := ⟨t.root.product other.root, t.univ⟩

/-- weave/src/zdd/tree/mod.rs:81-86 -/
def combinationsRecursive (t : Tree T) : List (List T) :=
  filterRepeats (t.root.combinationsRecursive.map t.univ.getItems)

/-- weave/src/zdd/tree/mod.rs:88-93 -/
def combinations (t : Tree T) : List (List T) :=
  filterRepeats (t.root.combinationsIter.map t.univ.getItems)

/-- weave/src/zdd/tree/mod.rs:95-105.  `BTreeSet::intersection` of `set` with another set lists the
members of `set` that are in the other. -/
def combinationsWith (t : Tree T) (inclusions exclusions : List T) : List (List T) :=
  let inclusions := filterRepeats inclusions
  let exclusions := filterRepeats exclusions
  filterRepeats
    (((t.root.combinationsIter.map t.univ.getItems).filter
      (fun set => filterRepeats (set.filter (fun x => x ∈ inclusions)) = inclusions)).filter
      (fun set => (filterRepeats (set.filter (fun x => x ∈ exclusions))).isEmpty))

end Tree

namespace Universe

/-- weave/src/zdd/tree/universe.rs:60-64 -/
def uniqueTree (uni : Universe T) (items : List T) : Tree T :=
  (items.map (fun item => uni.tree [item])).foldl (fun root next => root.union next) uni.emptyTree

/-- weave/src/zdd/tree/universe.rs:66-70 -/
def hyperTree (uni : Universe T) (combinations : List (List T)) : Tree T :=
  (combinations.map (fun cb => uni.tree cb)).foldl (fun root next => root.union next) uni.emptyTree

end Universe

/-- `group_by` on equal neighbours followed by `count` (weave/src/zdd/tree/mod.rs:62-65). -/
def groupCount : List T → List (T × Nat)
  | [] => []
  | a :: l =>
    match groupCount l with
    | [] => [(a, 1)]
    | (b, n) :: r => if a = b then (b, n + 1) :: r else (a, 1) :: (b, n) :: r

namespace Tree

/-- The map collected in `summarize`, weave/src/zdd/tree/mod.rs:55-66: every item with count 0, then
overwritten by the number of remaining combinations it is in. -/
def counts (t : Tree T) (inclusions exclusions : List T) : List (T × Nat) :=
  (t.univ.items.map (fun f => (f, 0)) ++
    groupCount (sorted (t.combinationsWith inclusions exclusions).flatten)).foldl
    (fun m (p : T × Nat) => insertKV p.1 p.2 m) []

/-- The status of one item, weave/src/zdd/tree/mod.rs:67-77. -/
def classify (inclusions : List T) (total : Nat) (e : T × Nat) : ItemStatus T :=
  if e.2 = 0 then .Excluded e.1
  else if e.1 ∈ inclusions then .Selected e.1
  else if e.2 = total then .Required e.1
  else .Available e.1

/-- weave/src/zdd/tree/mod.rs:51-79.  `entries` is the order in which the hash map is visited: any
permutation of `counts`. -/
def summarize (t : Tree T) (inclusions exclusions : List T) (entries : List (T × Nat)) :
    List (ItemStatus T) :=
  sorted (entries.map (classify inclusions (t.combinationsWith inclusions exclusions).length))

/-- weave/src/zdd/tree/mod.rs:131-138 -/
def restrict (t : Tree T) (inclusions exclusions : List T) : Tree T :=
  t.univ.hyperTree (t.combinationsWith inclusions exclusions)

end Tree

/-- weave/src/zdd/tree/traversable.rs:8-12 -/
inductive TreeNode (T : Type u) where
  | Branch (value : T) (low high : TreeNode T)
  | Leaf (value : Bool)

/-- `from_node`, weave/src/zdd/tree/traversable.rs:26-38; `none` is the failed `unwrap`. -/
def fromNode (uni : Universe T) : Node → Option (TreeNode T)
  | .Leaf value => some (.Leaf value)
  | .Branch id low high =>
    match uni.getItem id with
    | none => none
    | some value =>
      match fromNode uni low with
      | none => none
      | some low =>
        match fromNode uni high with
        | none => none
        | some high => some (.Branch value low high)

/-- weave/src/zdd/tree/mod.rs:140-142 -/
def Tree.traverse (t : Tree T) : Option (TreeNode T) := fromNode t.univ t.root

end Verif.Zdd1
