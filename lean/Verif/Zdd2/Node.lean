import Mathlib.Data.Finset.Basic
import Mathlib.Data.Finset.Image
import Mathlib.Tactic.SplitIfs

/-!
# Model of weave/src/zdd2/forest/node

A `Node` whose children are `NodeId`s into the arena is modelled by the diagram it denotes
(`Verif.Arena`): `==` on nodes is equality of diagrams.  `Priority(usize)` is a natural number.
-/

namespace Verif.Zdd2

/-- weave/src/zdd2/forest/node/mod.rs:31-36 -/
inductive Node where
  | Branch (id : Nat) (low high : Node)
  | Always
  | Never
deriving DecidableEq

namespace Node

/-- Number of nodes, for termination.  Not code: used to state or prove properties. -/
def size : Node → Nat
  | .Branch _ l h => 1 + l.size + h.size
  | .Always => 1
  | .Never => 1

/-- weave/src/zdd2/forest/node/mod.rs:67-96.  The arms are tried in the order of the code:
`Never` on the high side; both children branches on the same smaller id; the high child on a
smaller id; the low child on a smaller id; the high child on the same id; the low child on the
same id; otherwise a plain branch. -/
def branch (id : Nat) (low high : Node) : Node :=
  match high, low with
  | .Never, low => low
  | .Branch hId hLow hHigh, .Branch lId lLow lHigh =>
    if hId < id ∧ lId = hId then
      branch hId (branch id lLow hLow) (branch id lHigh hHigh)
    else if hId < id then
      branch hId (.Branch lId lLow lHigh) (branch id hLow hHigh)
    else if lId < id then
      branch lId (branch id lLow (.Branch hId hLow hHigh)) lHigh
    else if hId = id then branch id (.Branch lId lLow lHigh) hHigh
    else if lId = id then branch id lLow (.Branch hId hLow hHigh)
    else .Branch id (.Branch lId lLow lHigh) (.Branch hId hLow hHigh)
  | .Branch hId hLow hHigh, low =>
    if hId < id then branch hId low (branch id hLow hHigh)
    else if hId = id then branch id low hHigh
    else .Branch id low (.Branch hId hLow hHigh)
  | .Always, .Branch lId lLow lHigh =>
    if lId < id then branch lId (branch id lLow .Always) lHigh
    else if lId = id then branch id lLow .Always
    else .Branch id (.Branch lId lLow lHigh) .Always
  | .Always, low => .Branch id low .Always
termination_by (id, low.size + high.size)
decreasing_by
  all_goals first
    | (apply Prod.Lex.right; simp only [size]; omega)
    | (apply Prod.Lex.left; omega)

/-- weave/src/zdd2/forest/node/mod.rs:173-183.  `upperZero` is `size_hint().1 == Some(0)`; for the
only caller (`filter_map` over a slice) that means the slice is empty. -/
def fromIter (upperZero : Bool) (items : List Nat) : Node :=
  if upperZero then .Never
  else items.foldl (fun root item => branch item .Never root) .Always

/-- weave/src/zdd2/forest/node/intersect.rs:3-28 -/
def intersect (node1 node2 : Node) : Node :=
  if node1 = node2 then node1
  else
    match node1, node2 with
    | node1, .Always => node1
    | .Always, node2 => node2
    | _, .Never => .Never
    | .Never, _ => .Never
    | .Branch id1 low1 high1, .Branch id2 low2 high2 =>
      if id1 < id2 then intersect low1 (.Branch id2 low2 high2)
      else if id1 > id2 then intersect (.Branch id1 low1 high1) low2
      else branch id1 (intersect low1 low2) (intersect high1 high2)
termination_by node1.size + node2.size
decreasing_by all_goals simp only [size]; omega

/-- weave/src/zdd2/forest/node/union.rs:3-48 -/
def union (node1 node2 : Node) : Node :=
  if node1 = node2 then node1
  else
    match node1, node2 with
    | node1, .Never => node1
    | .Never, node2 => node2
    | .Always, .Always => .Always
    | .Branch id low high, .Always => branch id (union low .Always) high
    | .Always, .Branch id low high => branch id (union .Always low) high
    | .Branch id1 low1 high1, .Branch id2 low2 high2 =>
      if id1 < id2 then branch id1 (union low1 (.Branch id2 low2 high2)) high1
      else if id1 > id2 then branch id2 (union (.Branch id1 low1 high1) low2) high2
      else branch id1 (union low1 low2) (union high1 high2)
termination_by node1.size + node2.size
decreasing_by all_goals simp only [size]; omega

/-- weave/src/zdd2/forest/node/product.rs:3-44 -/
def product (node1 node2 : Node) : Node :=
  if node1 = node2 then node1
  else
    match node1, node2 with
    | node1, .Always => node1
    | .Always, node2 => node2
    | _, .Never => .Never
    | .Never, _ => .Never
    | .Branch id1 low1 high1, .Branch id2 low2 high2 =>
      if id1 < id2 then
        branch id1 (product low1 (.Branch id2 low2 high2)) (product high1 (.Branch id2 low2 high2))
      else if id1 > id2 then
        branch id2 (product (.Branch id1 low1 high1) low2) (product (.Branch id1 low1 high1) high2)
      else
        branch id1 (product low1 low2)
          (union (product low1 high2) (union (product high1 low2) (product high1 high2)))
termination_by node1.size + node2.size
decreasing_by all_goals simp only [size]; omega

/-- weave/src/zdd2/forest/node/subset.rs:60-65 -/
def reduceBranch (m : Node × Bool) : Node × Bool := if m.2 then m else (.Never, m.2)

/-- weave/src/zdd2/forest/node/subset.rs:10-31 -/
def subsetInner (root : Node) (element : Nat) : Node × Bool :=
  match root with
  | .Branch id low high =>
    if element = id then (branch id .Never high, true)
    else
      let l := reduceBranch (subsetInner low element)
      let h := reduceBranch (subsetInner high element)
      (branch id l.1 h.1, l.2 || h.2)
  | .Always => (.Always, false)
  | .Never => (.Never, false)

/-- weave/src/zdd2/forest/node/subset.rs:6-8 -/
def subset (root : Node) (element : Nat) : Node := (subsetInner root element).1

/-- weave/src/zdd2/forest/node/subset.rs:33-46 -/
def subsetNot (root : Node) (element : Nat) : Node :=
  match root with
  | .Branch id low high =>
    if element = id then low else branch id (subsetNot low element) (subsetNot high element)
  | .Always => .Always
  | .Never => .Never

/-- weave/src/zdd2/forest/node/subset.rs:48-52 -/
def subsetAll (root : Node) (elements : List Nat) : Node :=
  (elements.map (fun e => subset root e)).foldl intersect .Always

/-- weave/src/zdd2/forest/node/subset.rs:54-58 -/
def subsetNone (root : Node) (elements : List Nat) : Node :=
  (elements.map (fun e => subsetNot root e)).foldl intersect .Always

/-- Total size of a work list.  Not code: used to state or prove properties. -/
def queueSize (q : List (Node × List Nat)) : Nat := (q.map (fun e => e.1.size)).sum

/-- The loop of weave/src/zdd2/forest/trees.rs:9-27; the head of `queue` is the top of the stack. -/
def treesLoop (queue : List (Node × List Nat)) (trees : List (List Nat)) : List (List Nat) :=
  match queue with
  | [] => trees
  | (.Branch id low high, path) :: q => treesLoop ((high, path ++ [id]) :: (low, path) :: q) trees
  | (.Always, path) :: q => treesLoop q (trees ++ [path])
  | (.Never, _) :: q => treesLoop q trees
termination_by queueSize queue
decreasing_by all_goals simp [queueSize, size]; try omega

/-- weave/src/zdd2/forest/trees.rs:5-31 -/
def trees (root : Node) : List (List Nat) := treesLoop [(root, [])] []

/-- The family of sets a diagram stands for (not code: the meaning). -/
def Den : Node → Set (Finset Nat)
  | .Never => ∅
  | .Always => {∅}
  | .Branch i l h => {s | s ∈ l.Den ∨ ∃ t ∈ h.Den, s = insert i t}

end Node
end Verif.Zdd2
