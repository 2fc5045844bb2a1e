import Verif.Base
import Mathlib.Tactic.SplitIfs

/-!
# Model of bowtie-core/src/bdd/node

A `Node` whose children are `NodeId`s into the arena is modelled by the diagram it denotes
(`Verif.Arena`, theorems `id_eq_iff`, `id_denotes`, `conversion_denotes`): `==` on nodes is equality
of diagrams.
-/

namespace Verif.Bdd
open Verif

universe u
variable {I : Type u}

/-- bowtie-core/src/bdd/node/mod.rs:13-17 -/
inductive Node (I : Type u) where
  | Branch (item : I) (low high : Node I)
  | Leaf (val : Bool)
deriving DecidableEq

namespace Node

/-- bowtie-core/src/bdd/node/mod.rs:46 -/
abbrev TRUE_LEAF : Node I := .Leaf true
/-- bowtie-core/src/bdd/node/mod.rs:47 -/
abbrev FALSE_LEAF : Node I := .Leaf false

/-- bowtie-core/src/bdd/node/mod.rs:53-55 -/
def positiveBranch (id : I) : Node I := .Branch id FALSE_LEAF TRUE_LEAF

/-- bowtie-core/src/bdd/node/mod.rs:57-59 -/
def negativeBranch (id : I) : Node I := .Branch id TRUE_LEAF FALSE_LEAF

/-- Reading a diagram as a boolean function of "which items are worn" (not code: the meaning). -/
def eval : Node I → (I → Bool) → Bool
  | .Leaf b, _ => b
  | .Branch i l h, σ => if σ i then h.eval σ else l.eval σ

variable [LinearOrder I]

/-- bowtie-core/src/bdd/node/bit_operations.rs:9-19 -/
def splitBranch (node : Node I) (firstId : I) : Node I × Node I :=
  match node with
  | .Branch id low high => if firstId = id then (low, high) else (node, node)
  | .Leaf _ => (node, node)

/-- Number of nodes, for termination.  Not code: used to state or prove properties. -/
def size : Node I → Nat
  | .Leaf _ => 1
  | .Branch _ l h => 1 + l.size + h.size

theorem size_split_le (n : Node I) (f : I) :
    (splitBranch n f).1.size ≤ n.size ∧ (splitBranch n f).2.size ≤ n.size := by
  cases n with
  | Leaf b => simp [splitBranch]
  | Branch i l h =>
    simp only [splitBranch]
    split_ifs <;> simp only [size] <;> omega

theorem size_split_lt (i : I) (l h : Node I) :
    (splitBranch (.Branch i l h) i).1.size < (Node.Branch i l h).size ∧
    (splitBranch (.Branch i l h) i).2.size < (Node.Branch i l h).size := by
  simp only [splitBranch, if_true, size]; omega

theorem size_split_pair (i1 i2 : I) (l1 h1 l2 h2 : Node I) :
    (splitBranch (.Branch i1 l1 h1) (if i1 ≤ i2 then i1 else i2)).1.size +
      (splitBranch (.Branch i2 l2 h2) (if i1 ≤ i2 then i1 else i2)).1.size <
      (Node.Branch i1 l1 h1).size + (Node.Branch i2 l2 h2).size ∧
    (splitBranch (.Branch i1 l1 h1) (if i1 ≤ i2 then i1 else i2)).2.size +
      (splitBranch (.Branch i2 l2 h2) (if i1 ≤ i2 then i1 else i2)).2.size <
      (Node.Branch i1 l1 h1).size + (Node.Branch i2 l2 h2).size := by
  split_ifs
  · have h1' := size_split_lt i1 l1 h1
    have h2' := size_split_le (.Branch i2 l2 h2) i1
    omega
  · have h1' := size_split_le (.Branch i1 l1 h1) i2
    have h2' := size_split_lt i2 l2 h2
    omega

/-- The tail shared by `bitor` and `bitand` (bowtie-core/src/bdd/node/bit_operations.rs:53-57, 88-92): collapse equal
children. -/
def mk (id : I) (low high : Node I) : Node I := if low = high then low else .Branch id low high

/-- bowtie-core/src/bdd/node/bit_operations.rs:22-59.  In the arms with a leaf, `split_branch` of the leaf is the leaf
itself. -/
def bitor (node1 node2 : Node I) : Node I :=
  match node1, node2 with
  | n1, .Leaf false => n1
  | .Leaf false, n2 => n2
  | .Leaf v1, .Leaf v2 => .Leaf (v1 || v2)
  | .Branch id l h, .Leaf v => mk id (bitor l (.Leaf v)) (bitor h (.Leaf v))
  | .Leaf v, .Branch id l h => mk id (bitor (.Leaf v) l) (bitor (.Leaf v) h)
  | .Branch id1 l1 h1, .Branch id2 l2 h2 =>
    let firstId := if id1 ≤ id2 then id1 else id2
    let s1 := splitBranch (.Branch id1 l1 h1) firstId
    let s2 := splitBranch (.Branch id2 l2 h2) firstId
    mk firstId (bitor s1.1 s2.1) (bitor s1.2 s2.2)
termination_by node1.size + node2.size
decreasing_by
  all_goals first
    | (simp only [size]; omega)
    | exact (size_split_pair _ _ _ _ _ _).1
    | exact (size_split_pair _ _ _ _ _ _).2

/-- bowtie-core/src/bdd/node/bit_operations.rs:61-94 -/
def bitand (node1 node2 : Node I) : Node I :=
  match node1, node2 with
  | n1, .Leaf true => n1
  | .Leaf true, n2 => n2
  | .Leaf v1, .Leaf v2 => .Leaf (v1 && v2)
  | .Branch id l h, .Leaf v => mk id (bitand l (.Leaf v)) (bitand h (.Leaf v))
  | .Leaf v, .Branch id l h => mk id (bitand (.Leaf v) l) (bitand (.Leaf v) h)
  | .Branch id1 l1 h1, .Branch id2 l2 h2 =>
    let firstId := if id1 ≤ id2 then id1 else id2
    let s1 := splitBranch (.Branch id1 l1 h1) firstId
    let s2 := splitBranch (.Branch id2 l2 h2) firstId
    mk firstId (bitand s1.1 s2.1) (bitand s1.2 s2.2)
termination_by node1.size + node2.size
decreasing_by
  all_goals first
    | (simp only [size]; omega)
    | exact (size_split_pair _ _ _ _ _ _).1
    | exact (size_split_pair _ _ _ _ _ _).2

/-- bowtie-core/src/bdd/node/bit_operations.rs:104-114: `Not` swaps the children of the root. -/
def bitnot : Node I → Node I
  | .Leaf true => FALSE_LEAF
  | .Leaf false => TRUE_LEAF
  | .Branch id low high => .Branch id high low

/-- bowtie-core/src/bdd/node/bit_operations.rs:96-102 -/
def bitxor (n1 n2 : Node I) : Node I :=
  bitor (bitand n1 (bitnot n2)) (bitand (bitnot n1) n2)

/-- bowtie-core/src/bdd/node/reduce.rs:4-22 -/
def reduce : Node I → Node I
  | .Leaf true => TRUE_LEAF
  | .Leaf false => FALSE_LEAF
  | .Branch id low high =>
    let reducedLow := reduce low
    let reducedHigh := reduce high
    if reducedLow = reducedHigh then reducedLow else .Branch id reducedLow reducedHigh

/-- bowtie-core/src/bdd/node/restrict.rs:5-27 -/
def restrict (node : Node I) (item : I) (selected : Bool) : Node I :=
  match node with
  | .Leaf true => TRUE_LEAF
  | .Leaf false => FALSE_LEAF
  | .Branch id low high =>
    if id = item then (if !selected then low else high)
    else
      let restrictedLow := restrict low item selected
      let restrictedHigh := restrict high item selected
      if restrictedLow = restrictedHigh then restrictedLow
      else .Branch id restrictedLow restrictedHigh

end Node
end Verif.Bdd
