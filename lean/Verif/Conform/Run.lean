import Verif.Conform.Api

/-!
# Running the model inside the kernel

`Zdd2.Node.branch` recurses on pairs, which Lean makes opaque to the kernel.  Here every function calling it
gets an equal twin the kernel can run, so that the assertions of the test suite are closed by computation.
-/

namespace Verif.Conform
open Verif Verif.Zdd2

/-- `Node.branch`, unfolded `n` levels deep.  Not code: used to test the model. -/
def branchK : Nat → Nat → Node → Node → Node
  | 0, id, low, high => Node.branch id low high
  | n + 1, id, low, high =>
    match high, low with
    | .Never, low => low
    | .Branch hId hLow hHigh, .Branch lId lLow lHigh =>
      if hId < id ∧ lId = hId then
        branchK n hId (branchK n id lLow hLow) (branchK n id lHigh hHigh)
      else if hId < id then
        branchK n hId (.Branch lId lLow lHigh) (branchK n id hLow hHigh)
      else if lId < id then
        branchK n lId (branchK n id lLow (.Branch hId hLow hHigh)) lHigh
      else if hId = id then branchK n id (.Branch lId lLow lHigh) hHigh
      else if lId = id then branchK n id lLow (.Branch hId hLow hHigh)
      else .Branch id (.Branch lId lLow lHigh) (.Branch hId hLow hHigh)
    | .Branch hId hLow hHigh, low =>
      if hId < id then branchK n hId low (branchK n id hLow hHigh)
      else if hId = id then branchK n id low hHigh
      else .Branch id low (.Branch hId hLow hHigh)
    | .Always, .Branch lId lLow lHigh =>
      if lId < id then branchK n lId (branchK n id lLow .Always) lHigh
      else if lId = id then branchK n id lLow .Always
      else .Branch id (.Branch lId lLow lHigh) .Always
    | .Always, low => .Branch id low .Always

theorem branchK_eq (n : Nat) : branchK n = Node.branch := by
  induction n with
  | zero => rfl
  | succ n ih =>
    funext id low high
    rw [branchK.eq_def, Node.branch.eq_def]
    simp only [ih]
    cases high <;> cases low <;> rfl

/-- Not code: used to test the model. -/
def br : Nat → Node → Node → Node := branchK 1000

theorem branch_eq : Node.branch = br := (branchK_eq _).symm

/-- `Node.intersect` over `br`.  Not code: used to test the model. -/
def interK (node1 node2 : Node) : Node :=
  if node1 = node2 then node1
  else
    match node1, node2 with
    | node1, .Always => node1
    | .Always, node2 => node2
    | _, .Never => .Never
    | .Never, _ => .Never
    | .Branch id1 low1 high1, .Branch id2 low2 high2 =>
      if id1 < id2 then interK low1 (.Branch id2 low2 high2)
      else if id1 > id2 then interK (.Branch id1 low1 high1) low2
      else br id1 (interK low1 low2) (interK high1 high2)
termination_by node1.size + node2.size
decreasing_by all_goals simp only [Node.size]; omega

/-- `Node.union` over `br`.  Not code: used to test the model. -/
def unionK (node1 node2 : Node) : Node :=
  if node1 = node2 then node1
  else
    match node1, node2 with
    | node1, .Never => node1
    | .Never, node2 => node2
    | .Always, .Always => .Always
    | .Branch id low high, .Always => br id (unionK low .Always) high
    | .Always, .Branch id low high => br id (unionK .Always low) high
    | .Branch id1 low1 high1, .Branch id2 low2 high2 =>
      if id1 < id2 then br id1 (unionK low1 (.Branch id2 low2 high2)) high1
      else if id1 > id2 then br id2 (unionK (.Branch id1 low1 high1) low2) high2
      else br id1 (unionK low1 low2) (unionK high1 high2)
termination_by node1.size + node2.size
decreasing_by all_goals simp only [Node.size]; omega

/-- `Node.product` over `br`.  Not code: used to test the model. -/
def prodK (node1 node2 : Node) : Node :=
  if node1 = node2 then node1
  else
    match node1, node2 with
    | node1, .Always => node1
    | .Always, node2 => node2
    | _, .Never => .Never
    | .Never, _ => .Never
    | .Branch id1 low1 high1, .Branch id2 low2 high2 =>
      if id1 < id2 then
        br id1 (prodK low1 (.Branch id2 low2 high2)) (prodK high1 (.Branch id2 low2 high2))
      else if id1 > id2 then
        br id2 (prodK (.Branch id1 low1 high1) low2) (prodK (.Branch id1 low1 high1) high2)
      else
        br id1 (prodK low1 low2)
          (unionK (prodK low1 high2) (unionK (prodK high1 low2) (prodK high1 high2)))
termination_by node1.size + node2.size
decreasing_by all_goals simp only [Node.size]; omega

/-- `Node.subsetInner` over `br`.  Not code: used to test the model. -/
def subK (root : Node) (element : Nat) : Node × Bool :=
  match root with
  | .Branch id low high =>
    if element = id then (br id .Never high, true)
    else
      let l := Node.reduceBranch (subK low element)
      let h := Node.reduceBranch (subK high element)
      (br id l.1 h.1, l.2 || h.2)
  | .Always => (.Always, false)
  | .Never => (.Never, false)

/-- `Node.subsetNot` over `br`.  Not code: used to test the model. -/
def notK (root : Node) (element : Nat) : Node :=
  match root with
  | .Branch id low high =>
    if element = id then low else br id (notK low element) (notK high element)
  | .Always => .Always
  | .Never => .Never

/-- `Forest.translateRoot` over `br`.  Not code: used to test the model. -/
def transK (oldU newU : Universe Nat) : Node → Option Node
  | .Branch id low high =>
    match transK oldU newU low, transK oldU newU high, oldU.getItem id with
    | some low, some high, some item =>
      match newU.getPriority item with
      | some id => some (br id low high)
      | none => none
    | _, _, _ => none
  | .Always => some .Always
  | .Never => some .Never

theorem inter_eq : Node.intersect = interK := by
  funext a b
  fun_induction Node.intersect a b <;> rw [interK.eq_def] <;> simp_all [branch_eq]
  all_goals (split_ifs <;> first | rfl | omega | (exfalso; simp_all))

theorem union_eq : Node.union = unionK := by
  funext a b
  fun_induction Node.union a b <;> rw [unionK.eq_def] <;> simp_all [branch_eq]
  all_goals (split_ifs <;> first | rfl | omega | (exfalso; simp_all))

theorem prod_eq : Node.product = prodK := by
  funext a b
  fun_induction Node.product a b <;> rw [prodK.eq_def] <;> simp_all [branch_eq, union_eq]
  all_goals (split_ifs <;> first | rfl | omega | (exfalso; simp_all))

theorem sub_eq : Node.subsetInner = subK := by
  funext a e
  induction a with
  | Branch i l h il ih => simp only [Node.subsetInner, subK, il, ih, branch_eq]
  | Always => rfl
  | Never => rfl

theorem not_eq : Node.subsetNot = notK := by
  funext a e
  induction a with
  | Branch i l h il ih => simp only [Node.subsetNot, notK, il, ih, branch_eq]
  | Always => rfl
  | Never => rfl

theorem trans_eq : Forest.translateRoot (T := Nat) = transK := by
  funext u v a
  induction a with
  | Branch i l h il ih => 
    simp only [Forest.translateRoot, transK, il, ih, branch_eq]
    rcases transK u v l with _ | x <;> rcases transK u v h with _ | y <;> rcases u.getItem i with _ | z <;>
      try rfl
  | Always => rfl
  | Never => rfl

/-- Equality of matrix forests in a form the kernel can run.  Not code: used to test the model. -/
def same : Matrix.Forest Nat → Matrix.Forest Nat → Bool
  | .Empty, .Empty => true
  | .Unit a, .Unit b => decide (a = b)
  | .Many a, .Many b => decide (a ⊆ b) && decide (b ⊆ a)
  | _, _ => false

theorem eq_of_same {f g : Matrix.Forest Nat} (h : same f g = true) : f = g := by
  cases f <;> cases g <;> simp_all [same]
  exact Finset.Subset.antisymm h.1 h.2

/-- Equality of trees in a form the kernel can run.  Not code: used to test the model. -/
def sameT : Tree.Tree Nat → Tree.Tree Nat → Bool
  | .Empty, .Empty => true
  | .One a, .One b => decide (a = b)
  | .Many a, .Many b => decide (a ⊆ b) && decide (b ⊆ a)
  | _, _ => false

theorem eq_of_sameT {f g : Tree.Tree Nat} (h : sameT f g = true) : f = g := by
  cases f <;> cases g <;> simp_all [sameT]
  exact Finset.Subset.antisymm h.1 h.2

/-- Run an assertion about zdd2 forests: put the twins in place, then let the kernel compute. -/
macro "zrun" : tactic => `(tactic| (
  try simp -failIfUnchanged only [zdd2.union, zdd2.intersect, zdd2.product, zdd2.many, zdd2.unit, zdd2.unique, zdd2.subset,
    zdd2.subsetNot, zdd2.subsetAll, zdd2.subsetNone, zdd2.treeProduct, Option.bind_some, Option.map_some,
    Forest.union, Forest.intersect, Forest.product, Forest.translateRoots, Forest.canonical,
    Forest.many, Forest.unit, Forest.unique, Forest.subset, Forest.subsetNot, Forest.subsetAll,
    Forest.subsetNone, Forest.subsetMany, Node.subset, Node.subsetAll, Node.subsetNone,
    Universe.getPrioritiesNode, Node.fromIter, Trait.zdd2TreeProduct, Tree.Tree.productWith,
    trans_eq, not_eq, sub_eq, prod_eq, union_eq, inter_eq, branch_eq]
  all_goals decide +kernel))

end Verif.Conform
