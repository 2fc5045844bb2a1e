import Verif.ArenaProg
import Verif.Zdd2.Props

/-!
# The zdd2 node operations as programs over the shared arena

The code of weave/src/zdd2/forest/node statement by statement, with ids and the global arena.  The
theorems say that in every thread, next to any other threads, each operation ends without panic and
returns a node denoting the result of the operation on plain diagrams (`Verif.Zdd2.Node`).
-/

set_option linter.unusedSimpArgs false
set_option linter.unusedSectionVars false
set_option linter.unusedVariables false

namespace Verif.ArenaZdd2
open Verif.Arena Verif.Zdd2

/-- weave/src/zdd2/forest/node/mod.rs:31-36: `Always` is `leaf true`, `Never` is `leaf false`. -/
abbrev C := Cell Nat Bool

/-- Not code: used to state or prove properties. -/
abbrev P := Prog Nat Bool C

/-- The diagram as a generic tree.  Not code: used to state or prove properties. -/
def tr : Node → Tr Nat Bool
  | .Branch i l h => .branch i (tr l) (tr h)
  | .Always => .leaf true
  | .Never => .leaf false

theorem tr_inj {n m : Node} : tr n = tr m ↔ n = m := by
  constructor
  · intro h
    induction n generalizing m with
    | Branch i l h' ihl ihh =>
      cases m with
      | Branch j l' h'' =>
        simp only [tr, Tr.branch.injEq] at h
        rw [h.1, ihl h.2.1, ihh h.2.2]
      | Always => simp [tr] at h
      | Never => simp [tr] at h
    | Always => cases m <;> simp [tr] at h ⊢
    | Never => cases m <;> simp [tr] at h ⊢
  · rintro rfl; rfl

/-- The `match` of weave/src/zdd2/forest/node/mod.rs:71-95 on the two loaded nodes; `rec` is the recursive
call of `Node::branch`. -/
def branchBody (rec : Nat → Arg Nat Bool → Arg Nat Bool → P) (id : Nat) (low high : C) : P :=
  match high, low with
  | .leaf false, _ => .ret low
  | .branch hId hLow hHigh, .branch lId lLow lHigh =>
    if hId < id ∧ lId = hId then
      (rec id (.id lLow) (.id hLow)).bind fun low =>
      (rec id (.id lHigh) (.id hHigh)).bind fun high =>
      rec hId (.node low) (.node high)
    else if hId < id then
      (rec id (.id hLow) (.id hHigh)).bind fun high =>
      rec hId (.node low) (.node high)
    else if lId < id then
      (rec id (.id lLow) (.node high)).bind fun low =>
      rec lId (.node low) (.id lHigh)
    else if hId = id then rec id (.node low) (.id hHigh)
    else if lId = id then rec id (.id lLow) (.node high)
    else .intern low fun lo => .intern high fun hi => .ret (.branch id lo hi)
  | .branch hId hLow hHigh, .leaf _ =>
    if hId < id then
      (rec id (.id hLow) (.id hHigh)).bind fun high =>
      rec hId (.node low) (.node high)
    else if hId = id then rec id (.node low) (.id hHigh)
    else .intern low fun lo => .intern high fun hi => .ret (.branch id lo hi)
  | .leaf true, .branch lId lLow lHigh =>
    if lId < id then
      (rec id (.id lLow) (.node high)).bind fun low =>
      rec lId (.node low) (.id lHigh)
    else if lId = id then rec id (.id lLow) (.node high)
    else .intern low fun lo => .intern high fun hi => .ret (.branch id lo hi)
  | .leaf true, .leaf _ => .intern low fun lo => .intern high fun hi => .ret (.branch id lo hi)

/-- weave/src/zdd2/forest/node/mod.rs:67-96; the first argument bounds the depth of the recursion. -/
def branchP : Nat → Nat → Arg Nat Bool → Arg Nat Bool → P
  | 0, _, _, _ => .spin
  | f + 1, id, low, high =>
    low.into fun low => .load low fun low =>
    high.into fun high => .load high fun high => branchBody (branchP f) id low high

/-- With enough fuel, `branchP` returns `res`.  Not code: used to state or prove properties. -/
def BranchOk (id : Nat) (low high res : Node) : Prop :=
  ∃ F, ∀ f ≥ F, ∀ (a : Arena Nat Bool) (x y : Arg Nat Bool), a.Inv →
    ArgDen a x (tr low) → ArgDen a y (tr high) → Returns (branchP f id x y) a (tr res)

theorem start_branch {id F : Nat} {low high res : Node}
    (h : ∀ f ≥ F, ∀ (b : Arena Nat Bool) (lc hc : C), b.Inv →
      CellDen b lc (tr low) → CellDen b hc (tr high) →
      Returns (branchBody (branchP f) id lc hc) b (tr res)) : BranchOk id low high res := by
  refine ⟨F + 1, fun f hf a x y hI hx hy => ?_⟩
  obtain ⟨f, rfl⟩ : ∃ g, f = g + 1 := ⟨f - 1, by omega⟩
  rw [branchP]
  refine returns_into hI hx fun b1 i1 e1 u1 => returns_load u1 fun b2 lc e2 hl => ?_
  refine returns_into e2.right (hy.mono (e1.trans e2)) fun b3 i3 e3 u3 => returns_load u3 fun b4 hc e4 hh => ?_
  exact h f (by omega) b4 lc hc e4.right (hl.mono (e3.trans e4)) hh

theorem leaf_of {n : Node} (hb : ∀ i l h, n = .Branch i l h → False) {b : Arena Nat Bool} {c : C}
    (hc : CellDen b c (tr n)) : ∃ v, c = .leaf v := by
  cases n with
  | Branch i l h => exact (hb i l h rfl).elim
  | Always => exact ⟨_, hc.leaf_inv⟩
  | Never => exact ⟨_, hc.leaf_inv⟩

theorem returns_plain {id : Nat} {low high : Node} {b : Arena Nat Bool} {lc hc : C}
    (hl : CellDen b lc (tr low)) (hh : CellDen b hc (tr high)) :
    Returns (.intern lc fun lo => .intern hc fun hi => .ret (.branch id lo hi)) b
      (tr (.Branch id low high)) :=
  returns_intern hl fun b1 i1 e1 u1 => returns_intern (hh.mono e1) fun b2 i2 e2 u2 =>
    .ret e2.right (.branch (u1.mono e2) u2)

theorem branch_ok (id : Nat) (low high : Node) : BranchOk id low high (Node.branch id low high) := by
  fun_induction Node.branch id low high with
  | case1 id low =>
    refine start_branch (F := 0) fun f _ b lc hc hI hl hh => ?_
    obtain rfl := hh.leaf_inv
    exact .ret hI hl
  | case2 id hId hLow hHigh lId lLow lHigh h ih1 ih2 ih3 =>
    obtain ⟨F1, h1⟩ := ih1
    obtain ⟨F2, h2⟩ := ih2
    obtain ⟨F3, h3⟩ := ih3
    refine start_branch (F := F1 + F2 + F3) fun f hf b lc hc hI hl hh => ?_
    obtain ⟨ll, lh, rfl, ul, uh⟩ := hl.branch_inv
    obtain ⟨hl', hh', rfl, vl, vh⟩ := hh.branch_inv
    simp only [branchBody, h, and_self, if_true]
    refine returns_call (h1 f (by omega) b _ _ hI (.id ul) (.id vl)) fun b1 c1 e1 d1 => ?_
    refine returns_call (h2 f (by omega) b1 _ _ e1.right (.id (uh.mono e1)) (.id (vh.mono e1))) fun b2 c2 e2 d2 => ?_
    exact h3 f (by omega) b2 _ _ e2.right (.node (CellDen.mono e2 d1)) (.node d2)
  | case3 id hId hLow hHigh lId lLow lHigh hn h ih1 ih2 =>
    obtain ⟨F1, h1⟩ := ih1
    obtain ⟨F2, h2⟩ := ih2
    refine start_branch (F := F1 + F2) fun f hf b lc hc hI hl hh => ?_
    obtain ⟨ll, lh, rfl, ul, uh⟩ := hl.branch_inv
    obtain ⟨hl', hh', rfl, vl, vh⟩ := hh.branch_inv
    rw [branchBody, if_neg hn, if_pos h]
    refine returns_call (h1 f (by omega) b _ _ hI (.id vl) (.id vh)) fun b1 c1 e1 d1 => ?_
    exact h2 f (by omega) b1 _ _ e1.right (.node (CellDen.mono e1 hl)) (.node d1)
  | case4 id hId hLow hHigh lId lLow lHigh hn h h' ih1 ih2 =>
    obtain ⟨F1, h1⟩ := ih1
    obtain ⟨F2, h2⟩ := ih2
    refine start_branch (F := F1 + F2) fun f hf b lc hc hI hl hh => ?_
    obtain ⟨ll, lh, rfl, ul, uh⟩ := hl.branch_inv
    obtain ⟨hl', hh', rfl, vl, vh⟩ := hh.branch_inv
    simp only [branchBody, hn, h, h', if_true, if_false]
    refine returns_call (h1 f (by omega) b _ _ hI (.id ul) (.node hh)) fun b1 c1 e1 d1 => ?_
    exact h2 f (by omega) b1 _ _ e1.right (.node d1) (.id (uh.mono e1))
  | case5 hId hLow hHigh lId lLow lHigh hn h h' ih1 =>
    obtain ⟨F1, h1⟩ := ih1
    refine start_branch (F := F1) fun f hf b lc hc hI hl hh => ?_
    obtain ⟨ll, lh, rfl, ul, uh⟩ := hl.branch_inv
    obtain ⟨hl', hh', rfl, vl, vh⟩ := hh.branch_inv
    simp only [branchBody, hn, h, h', if_true, if_false]
    exact h1 f (by omega) b _ _ hI (.node hl) (.id vh)
  | case6 hId hLow hHigh lId lLow lHigh hn h h' h'' ih1 =>
    obtain ⟨F1, h1⟩ := ih1
    refine start_branch (F := F1) fun f hf b lc hc hI hl hh => ?_
    obtain ⟨ll, lh, rfl, ul, uh⟩ := hl.branch_inv
    obtain ⟨hl', hh', rfl, vl, vh⟩ := hh.branch_inv
    simp only [branchBody, hn, h, h', h'', if_true, if_false]
    exact h1 f (by omega) b _ _ hI (.id ul) (.node hh)
  | case7 id hId hLow hHigh lId lLow lHigh hn h h' h'' h3 =>
    refine start_branch (F := 0) fun f hf b lc hc hI hl hh => ?_
    obtain ⟨ll, lh, rfl, ul, uh⟩ := hl.branch_inv
    obtain ⟨hl', hh', rfl, vl, vh⟩ := hh.branch_inv
    simp only [branchBody, hn, h, h', h'', h3, if_true, if_false]
    exact returns_plain hl hh
  | case8 id hId hLow hHigh low hb h ih1 ih2 =>
    obtain ⟨F1, h1⟩ := ih1
    obtain ⟨F2, h2⟩ := ih2
    refine start_branch (F := F1 + F2) fun f hf b lc hc hI hl hh => ?_
    obtain ⟨v, rfl⟩ := leaf_of hb hl
    obtain ⟨hl', hh', rfl, vl, vh⟩ := hh.branch_inv
    simp only [branchBody, h, if_true, if_false]
    refine returns_call (h1 f (by omega) b _ _ hI (.id vl) (.id vh)) fun b1 c1 e1 d1 => ?_
    exact h2 f (by omega) b1 _ _ e1.right (.node (CellDen.mono e1 hl)) (.node d1)
  | case9 hId hLow hHigh low hb h ih1 =>
    obtain ⟨F1, h1⟩ := ih1
    refine start_branch (F := F1) fun f hf b lc hc hI hl hh => ?_
    obtain ⟨v, rfl⟩ := leaf_of hb hl
    obtain ⟨hl', hh', rfl, vl, vh⟩ := hh.branch_inv
    simp only [branchBody, h, if_true, if_false]
    exact h1 f (by omega) b _ _ hI (.node hl) (.id vh)
  | case10 id hId hLow hHigh low hb h h' =>
    refine start_branch (F := 0) fun f hf b lc hc hI hl hh => ?_
    obtain ⟨v, rfl⟩ := leaf_of hb hl
    obtain ⟨hl', hh', rfl, vl, vh⟩ := hh.branch_inv
    simp only [branchBody, h, h', if_true, if_false]
    exact returns_plain hl hh
  | case11 id lId lLow lHigh h ih1 ih2 =>
    obtain ⟨F1, h1⟩ := ih1
    obtain ⟨F2, h2⟩ := ih2
    refine start_branch (F := F1 + F2) fun f hf b lc hc hI hl hh => ?_
    obtain ⟨ll, lh, rfl, ul, uh⟩ := hl.branch_inv
    obtain rfl := hh.leaf_inv
    simp only [branchBody, h, if_true, if_false]
    refine returns_call (h1 f (by omega) b _ _ hI (.id ul) (.node hh)) fun b1 c1 e1 d1 => ?_
    exact h2 f (by omega) b1 _ _ e1.right (.node d1) (.id (uh.mono e1))
  | case12 lId lLow lHigh h ih1 =>
    obtain ⟨F1, h1⟩ := ih1
    refine start_branch (F := F1) fun f hf b lc hc hI hl hh => ?_
    obtain ⟨ll, lh, rfl, ul, uh⟩ := hl.branch_inv
    obtain rfl := hh.leaf_inv
    simp only [branchBody, h, if_true, if_false]
    exact h1 f (by omega) b _ _ hI (.id ul) (.node hh)
  | case13 id lId lLow lHigh h h' =>
    refine start_branch (F := 0) fun f hf b lc hc hI hl hh => ?_
    obtain ⟨ll, lh, rfl, ul, uh⟩ := hl.branch_inv
    obtain rfl := hh.leaf_inv
    simp only [branchBody, h, h', if_true, if_false]
    exact returns_plain hl hh
  | case14 id low hb =>
    refine start_branch (F := 0) fun f hf b lc hc hI hl hh => ?_
    obtain ⟨v, rfl⟩ := leaf_of hb hl
    obtain rfl := hh.leaf_inv
    simp only [branchBody]
    exact returns_plain hl hh

/-! ## Binary operations -/

/-- The `match` of weave/src/zdd2/forest/node/union.rs on two different nodes; `rec` is the recursive call and
`f` bounds the recursion of the other operations called. -/
def unionBody (f : Nat) (rec : C → C → P) (node1 node2 : C) : P :=
  match node1, node2 with
  | _, .leaf false => .ret node1
  | .leaf false, _ => .ret node2
  | .leaf true, .leaf true => .ret (.leaf true)
  | .branch id low high, .leaf true =>
    .load low fun low => (rec low node2).bind fun low =>
    .load high fun high => branchP f id (.node low) (.node high)
  | .leaf true, .branch id low high =>
    .load low fun low => (rec node1 low).bind fun low =>
    .load high fun high => branchP f id (.node low) (.node high)
  | .branch id1 low1 high1, .branch id2 low2 high2 =>
    if id1 < id2 then
      .load low1 fun low1 => (rec low1 node2).bind fun low =>
      .load high1 fun high => branchP f id1 (.node low) (.node high)
    else if id1 > id2 then
      .load low2 fun low2 => (rec node1 low2).bind fun low =>
      .load high2 fun high => branchP f id2 (.node low) (.node high)
    else
      .load low1 fun low1 => .load low2 fun low2 => (rec low1 low2).bind fun low =>
      .load high1 fun high1 => .load high2 fun high2 => (rec high1 high2).bind fun high =>
      branchP f id1 (.node low) (.node high)

/-- weave/src/zdd2/forest/node/union.rs:3-48; the first argument bounds the depth of the recursion. -/
def unionP : Nat → C → C → P
  | 0, _, _ => .spin
  | f + 1, node1, node2 =>
    if node1 = node2 then .ret node1 else unionBody f (unionP f) node1 node2

/-- The `match` of weave/src/zdd2/forest/node/intersect.rs on two different nodes; `rec` is the recursive call and
`f` bounds the recursion of the other operations called. -/
def intersectBody (f : Nat) (rec : C → C → P) (node1 node2 : C) : P :=
  match node1, node2 with
  | _, .leaf true => .ret node1
  | .leaf true, _ => .ret node2
  | _, .leaf false => .ret (.leaf false)
  | .leaf false, _ => .ret (.leaf false)
  | .branch id1 low1 high1, .branch id2 low2 high2 =>
    if id1 < id2 then .load low1 fun low1 => rec low1 node2
    else if id1 > id2 then .load low2 fun low2 => rec node1 low2
    else
      .load low1 fun low1 => .load low2 fun low2 => (rec low1 low2).bind fun low =>
      .load high1 fun high1 => .load high2 fun high2 => (rec high1 high2).bind fun high =>
      branchP f id1 (.node low) (.node high)

/-- weave/src/zdd2/forest/node/intersect.rs:3-28; the first argument bounds the depth of the recursion. -/
def intersectP : Nat → C → C → P
  | 0, _, _ => .spin
  | f + 1, node1, node2 =>
    if node1 = node2 then .ret node1 else intersectBody f (intersectP f) node1 node2

/-- The `match` of weave/src/zdd2/forest/node/product.rs on two different nodes; `rec` is the recursive call and
`f` bounds the recursion of the other operations called. -/
def productBody (f : Nat) (rec : C → C → P) (node1 node2 : C) : P :=
  match node1, node2 with
  | _, .leaf true => .ret node1
  | .leaf true, _ => .ret node2
  | _, .leaf false => .ret (.leaf false)
  | .leaf false, _ => .ret (.leaf false)
  | .branch id1 low1 high1, .branch id2 low2 high2 =>
    if id1 < id2 then
      .load low1 fun low1 => (rec low1 node2).bind fun low =>
      .load high1 fun high1 => (rec high1 node2).bind fun high =>
      branchP f id1 (.node low) (.node high)
    else if id1 > id2 then
      .load low2 fun low2 => (rec node1 low2).bind fun low =>
      .load high2 fun high2 => (rec node1 high2).bind fun high =>
      branchP f id2 (.node low) (.node high)
    else
      .load low1 fun l1 => .load low2 fun l2 => (rec l1 l2).bind fun low1low2 =>
      .load low1 fun l1 => .load high2 fun h2 => (rec l1 h2).bind fun low1high2 =>
      .load high1 fun h1 => .load low2 fun l2 => (rec h1 l2).bind fun high1low2 =>
      .load high1 fun h1 => .load high2 fun h2 => (rec h1 h2).bind fun high1high2 =>
      (unionP f high1low2 high1high2).bind fun newHigh =>
      (unionP f low1high2 newHigh).bind fun high =>
      branchP f id1 (.node low1low2) (.node high)

/-- weave/src/zdd2/forest/node/product.rs:3-44; the first argument bounds the depth of the recursion. -/
def productP : Nat → C → C → P
  | 0, _, _ => .spin
  | f + 1, node1, node2 =>
    if node1 = node2 then .ret node1 else productBody f (productP f) node1 node2

/-- With enough fuel, the program returns `res` in every thread.  Not code: used to state or prove properties. -/
def OpOk (op : Nat → C → C → P) (n m res : Node) : Prop :=
  ∃ F, ∀ f ≥ F, ∀ (a : Arena Nat Bool) (c d : C), a.Inv →
    CellDen a c (tr n) → CellDen a d (tr m) → Returns (op f c d) a (tr res)

theorem cell_ne {a : Arena Nat Bool} (hI : a.Inv) {n m : Node} {c d : C} (hc : CellDen a c (tr n))
    (hd : CellDen a d (tr m)) (h : ¬ n = m) : c ≠ d := by
  rw [Ne, cell_eq_iff hI hc hd, tr_inj]; exact h

theorem cell_eq {a : Arena Nat Bool} (hI : a.Inv) {n : Node} {c d : C} (hc : CellDen a c (tr n))
    (hd : CellDen a d (tr n)) : c = d := (cell_eq_iff hI hc hd).2 rfl

theorem union_ok (n m : Node) : OpOk unionP n m (Node.union n m) := by
  fun_induction Node.union n m with
  | case1 n =>
    refine ⟨1, fun f hf a c d hI hc hd => ?_⟩
    obtain ⟨f, rfl⟩ : ∃ g, f = g + 1 := ⟨f - 1, by omega⟩
    rw [unionP, if_pos (cell_eq hI hc hd)]
    exact .ret hI hc
  | case2 n hne =>
    refine ⟨1, fun f hf a c d hI hc hd => ?_⟩
    obtain ⟨f, rfl⟩ : ∃ g, f = g + 1 := ⟨f - 1, by omega⟩
    rw [unionP, if_neg (cell_ne hI hc hd hne)]
    obtain rfl := hd.leaf_inv
    exact .ret hI hc
  | case3 m h1 hne =>
    refine ⟨1, fun f hf a c d hI hc hd => ?_⟩
    obtain ⟨f, rfl⟩ : ∃ g, f = g + 1 := ⟨f - 1, by omega⟩
    rw [unionP, if_neg (cell_ne hI hc hd hne)]
    obtain rfl := hc.leaf_inv
    cases d with
    | leaf v => cases v <;> exact .ret hI hd
    | branch i l h => exact .ret hI hd
  | case4 h => exact absurd rfl h
  | case5 i l h hne ih =>
    obtain ⟨F1, h1⟩ := ih
    obtain ⟨F2, h2⟩ := branch_ok i (Node.union l .Always) h
    refine ⟨F1 + F2 + 1, fun f hf a c d hI hc hd => ?_⟩
    obtain ⟨f, rfl⟩ : ∃ g, f = g + 1 := ⟨f - 1, by omega⟩
    rw [unionP, if_neg (cell_ne hI hc hd hne)]
    obtain rfl := hd.leaf_inv
    obtain ⟨lo, hi, rfl, ul, uh⟩ := hc.branch_inv
    refine returns_load ul fun b1 c1 e1 d1 => ?_
    refine returns_call (h1 f (by omega) b1 _ _ e1.right d1 (hd.mono e1)) fun b2 c2 e2 d2 => ?_
    refine returns_load (uh.mono (e1.trans e2)) fun b3 c3 e3 d3 => ?_
    exact h2 f (by omega) b3 _ _ e3.right
      (.node (d2.mono e3)) (.node d3)
  | case6 i l h hne ih =>
    obtain ⟨F1, h1⟩ := ih
    obtain ⟨F2, h2⟩ := branch_ok i (Node.union .Always l) h
    refine ⟨F1 + F2 + 1, fun f hf a c d hI hc hd => ?_⟩
    obtain ⟨f, rfl⟩ : ∃ g, f = g + 1 := ⟨f - 1, by omega⟩
    rw [unionP, if_neg (cell_ne hI hc hd hne)]
    obtain rfl := hc.leaf_inv
    obtain ⟨lo, hi, rfl, ul, uh⟩ := hd.branch_inv
    refine returns_load ul fun b1 c1 e1 d1 => ?_
    refine returns_call (h1 f (by omega) b1 _ _ e1.right (hc.mono e1) d1) fun b2 c2 e2 d2 => ?_
    refine returns_load (uh.mono (e1.trans e2)) fun b3 c3 e3 d3 => ?_
    exact h2 f (by omega) b3 _ _ e3.right
      (.node (d2.mono e3)) (.node d3)
  | case7 i l h j l' h' hlt hne ih =>
    obtain ⟨F1, h1⟩ := ih
    obtain ⟨F2, h2⟩ := branch_ok i (Node.union l (.Branch j l' h')) h
    refine ⟨F1 + F2 + 1, fun f hf a c d hI hc hd => ?_⟩
    obtain ⟨f, rfl⟩ : ∃ g, f = g + 1 := ⟨f - 1, by omega⟩
    rw [unionP, if_neg (cell_ne hI hc hd hne)]
    obtain ⟨lo, hi, rfl, ul, uh⟩ := hc.branch_inv
    obtain ⟨lo', hi', rfl, ul', uh'⟩ := hd.branch_inv
    simp only [unionBody, hlt, if_true]
    refine returns_load ul fun b1 c1 e1 d1 => ?_
    refine returns_call (h1 f (by omega) b1 _ _ e1.right d1 (hd.mono e1)) fun b2 c2 e2 d2 => ?_
    refine returns_load (uh.mono (e1.trans e2)) fun b3 c3 e3 d3 => ?_
    exact h2 f (by omega) b3 _ _ e3.right
      (.node (d2.mono e3)) (.node d3)
  | case8 i l h j l' h' hlt hgt hne ih =>
    obtain ⟨F1, h1⟩ := ih
    obtain ⟨F2, h2⟩ := branch_ok j (Node.union (.Branch i l h) l') h'
    refine ⟨F1 + F2 + 1, fun f hf a c d hI hc hd => ?_⟩
    obtain ⟨f, rfl⟩ : ∃ g, f = g + 1 := ⟨f - 1, by omega⟩
    rw [unionP, if_neg (cell_ne hI hc hd hne)]
    obtain ⟨lo, hi, rfl, ul, uh⟩ := hc.branch_inv
    obtain ⟨lo', hi', rfl, ul', uh'⟩ := hd.branch_inv
    simp only [unionBody, hlt, hgt, if_true, if_false]
    refine returns_load ul' fun b1 c1 e1 d1 => ?_
    refine returns_call (h1 f (by omega) b1 _ _ e1.right (hc.mono e1) d1) fun b2 c2 e2 d2 => ?_
    refine returns_load (uh'.mono (e1.trans e2)) fun b3 c3 e3 d3 => ?_
    exact h2 f (by omega) b3 _ _ e3.right
      (.node (d2.mono e3)) (.node d3)
  | case9 i l h j l' h' hlt hgt hne ih1 ih2 =>
    obtain ⟨F1, h1⟩ := ih1
    obtain ⟨F2, h2⟩ := ih2
    obtain ⟨F3, h3⟩ := branch_ok i (Node.union l l') (Node.union h h')
    refine ⟨F1 + F2 + F3 + 1, fun f hf a c d hI hc hd => ?_⟩
    obtain ⟨f, rfl⟩ : ∃ g, f = g + 1 := ⟨f - 1, by omega⟩
    rw [unionP, if_neg (cell_ne hI hc hd hne)]
    obtain ⟨lo, hi, rfl, ul, uh⟩ := hc.branch_inv
    obtain ⟨lo', hi', rfl, ul', uh'⟩ := hd.branch_inv
    simp only [unionBody, hlt, hgt, if_true, if_false]
    refine returns_load ul fun b1 c1 e1 d1 => returns_load (ul'.mono e1) fun b2 c2 e2 d2 => ?_
    refine returns_call (h1 f (by omega) b2 _ _ e2.right (d1.mono e2) d2) fun b3 c3 e3 d3 => ?_
    have e123 := (e1.trans e2).trans e3
    refine returns_load (uh.mono e123) fun b4 c4 e4 d4 =>
      returns_load (uh'.mono (e123.trans e4)) fun b5 c5 e5 d5 => ?_
    refine returns_call (h2 f (by omega) b5 _ _ e5.right (d4.mono e5) d5) fun b6 c6 e6 d6 => ?_
    exact h3 f (by omega) b6 _ _ e6.right
      (.node (d3.mono ((e4.trans e5).trans e6))) (.node d6)

theorem intersect_ok (n m : Node) : OpOk intersectP n m (Node.intersect n m) := by
  fun_induction Node.intersect n m with
  | case1 n =>
    refine ⟨1, fun f hf a c d hI hc hd => ?_⟩
    obtain ⟨f, rfl⟩ : ∃ g, f = g + 1 := ⟨f - 1, by omega⟩
    rw [intersectP, if_pos (cell_eq hI hc hd)]
    exact .ret hI hc
  | case2 n hne =>
    refine ⟨1, fun f hf a c d hI hc hd => ?_⟩
    obtain ⟨f, rfl⟩ : ∃ g, f = g + 1 := ⟨f - 1, by omega⟩
    rw [intersectP, if_neg (cell_ne hI hc hd hne)]
    obtain rfl := hd.leaf_inv
    exact .ret hI hc
  | case3 m h1 hne =>
    refine ⟨1, fun f hf a c d hI hc hd => ?_⟩
    obtain ⟨f, rfl⟩ : ∃ g, f = g + 1 := ⟨f - 1, by omega⟩
    rw [intersectP, if_neg (cell_ne hI hc hd hne)]
    obtain rfl := hc.leaf_inv
    cases d with
    | leaf v => cases v <;> exact .ret hI hd
    | branch i l h => exact .ret hI hd
  | case4 n h1 hne =>
    refine ⟨1, fun f hf a c d hI hc hd => ?_⟩
    obtain ⟨f, rfl⟩ : ∃ g, f = g + 1 := ⟨f - 1, by omega⟩
    have hne2 := cell_ne hI hc hd hne
    rw [intersectP, if_neg hne2]
    obtain rfl := hd.leaf_inv
    cases c with
    | leaf v =>
      cases v with
      | false => exact absurd rfl hne2
      | true => exact absurd (tr_inj.1 (show tr n = tr .Always from hc)) h1
    | branch i l h => exact .ret hI hd
  | case5 m h1 h2 hne =>
    refine ⟨1, fun f hf a c d hI hc hd => ?_⟩
    obtain ⟨f, rfl⟩ : ∃ g, f = g + 1 := ⟨f - 1, by omega⟩
    have hne2 := cell_ne hI hc hd hne
    rw [intersectP, if_neg hne2]
    obtain rfl := hc.leaf_inv
    cases d with
    | leaf v =>
      cases v with
      | false => exact absurd rfl hne2
      | true => exact absurd (tr_inj.1 (show tr m = tr .Always from hd)) h1
    | branch i l h => exact .ret hI hc
  | case6 i l h j l' h' hlt hne ih =>
    obtain ⟨F1, h1⟩ := ih
    refine ⟨F1 + 1, fun f hf a c d hI hc hd => ?_⟩
    obtain ⟨f, rfl⟩ : ∃ g, f = g + 1 := ⟨f - 1, by omega⟩
    rw [intersectP, if_neg (cell_ne hI hc hd hne)]
    obtain ⟨lo, hi, rfl, ul, uh⟩ := hc.branch_inv
    obtain ⟨lo', hi', rfl, ul', uh'⟩ := hd.branch_inv
    simp only [intersectBody, hlt, if_true]
    exact returns_load ul fun b1 c1 e1 d1 => h1 f (by omega) b1 _ _ e1.right d1 (hd.mono e1)
  | case7 i l h j l' h' hlt hgt hne ih =>
    obtain ⟨F1, h1⟩ := ih
    refine ⟨F1 + 1, fun f hf a c d hI hc hd => ?_⟩
    obtain ⟨f, rfl⟩ : ∃ g, f = g + 1 := ⟨f - 1, by omega⟩
    rw [intersectP, if_neg (cell_ne hI hc hd hne)]
    obtain ⟨lo, hi, rfl, ul, uh⟩ := hc.branch_inv
    obtain ⟨lo', hi', rfl, ul', uh'⟩ := hd.branch_inv
    simp only [intersectBody, hlt, hgt, if_true, if_false]
    exact returns_load ul' fun b1 c1 e1 d1 => h1 f (by omega) b1 _ _ e1.right (hc.mono e1) d1
  | case8 i l h j l' h' hlt hgt hne ih1 ih2 =>
    obtain ⟨F1, h1⟩ := ih1
    obtain ⟨F2, h2⟩ := ih2
    obtain ⟨F3, h3⟩ := branch_ok i (Node.intersect l l') (Node.intersect h h')
    refine ⟨F1 + F2 + F3 + 1, fun f hf a c d hI hc hd => ?_⟩
    obtain ⟨f, rfl⟩ : ∃ g, f = g + 1 := ⟨f - 1, by omega⟩
    rw [intersectP, if_neg (cell_ne hI hc hd hne)]
    obtain ⟨lo, hi, rfl, ul, uh⟩ := hc.branch_inv
    obtain ⟨lo', hi', rfl, ul', uh'⟩ := hd.branch_inv
    simp only [intersectBody, hlt, hgt, if_true, if_false]
    refine returns_load ul fun b1 c1 e1 d1 => returns_load (ul'.mono e1) fun b2 c2 e2 d2 => ?_
    refine returns_call (h1 f (by omega) b2 _ _ e2.right (d1.mono e2) d2) fun b3 c3 e3 d3 => ?_
    have e123 := (e1.trans e2).trans e3
    refine returns_load (uh.mono e123) fun b4 c4 e4 d4 =>
      returns_load (uh'.mono (e123.trans e4)) fun b5 c5 e5 d5 => ?_
    refine returns_call (h2 f (by omega) b5 _ _ e5.right (d4.mono e5) d5) fun b6 c6 e6 d6 => ?_
    exact h3 f (by omega) b6 _ _ e6.right
      (.node (d3.mono ((e4.trans e5).trans e6))) (.node d6)

theorem product_ok (n m : Node) : OpOk productP n m (Node.product n m) := by
  fun_induction Node.product n m with
  | case1 n =>
    refine ⟨1, fun f hf a c d hI hc hd => ?_⟩
    obtain ⟨f, rfl⟩ : ∃ g, f = g + 1 := ⟨f - 1, by omega⟩
    rw [productP, if_pos (cell_eq hI hc hd)]
    exact .ret hI hc
  | case2 n hne =>
    refine ⟨1, fun f hf a c d hI hc hd => ?_⟩
    obtain ⟨f, rfl⟩ : ∃ g, f = g + 1 := ⟨f - 1, by omega⟩
    rw [productP, if_neg (cell_ne hI hc hd hne)]
    obtain rfl := hd.leaf_inv
    exact .ret hI hc
  | case3 m h1 hne =>
    refine ⟨1, fun f hf a c d hI hc hd => ?_⟩
    obtain ⟨f, rfl⟩ : ∃ g, f = g + 1 := ⟨f - 1, by omega⟩
    rw [productP, if_neg (cell_ne hI hc hd hne)]
    obtain rfl := hc.leaf_inv
    cases d with
    | leaf v => cases v <;> exact .ret hI hd
    | branch i l h => exact .ret hI hd
  | case4 n h1 hne =>
    refine ⟨1, fun f hf a c d hI hc hd => ?_⟩
    obtain ⟨f, rfl⟩ : ∃ g, f = g + 1 := ⟨f - 1, by omega⟩
    have hne2 := cell_ne hI hc hd hne
    rw [productP, if_neg hne2]
    obtain rfl := hd.leaf_inv
    cases c with
    | leaf v =>
      cases v with
      | false => exact absurd rfl hne2
      | true => exact absurd (tr_inj.1 (show tr n = tr .Always from hc)) h1
    | branch i l h => exact .ret hI hd
  | case5 m h1 h2 hne =>
    refine ⟨1, fun f hf a c d hI hc hd => ?_⟩
    obtain ⟨f, rfl⟩ : ∃ g, f = g + 1 := ⟨f - 1, by omega⟩
    have hne2 := cell_ne hI hc hd hne
    rw [productP, if_neg hne2]
    obtain rfl := hc.leaf_inv
    cases d with
    | leaf v =>
      cases v with
      | false => exact absurd rfl hne2
      | true => exact absurd (tr_inj.1 (show tr m = tr .Always from hd)) h1
    | branch i l h => exact .ret hI hc
  | case6 i l h j l' h' hlt hne ih1 ih2 =>
    obtain ⟨F1, h1⟩ := ih1
    obtain ⟨F2, h2⟩ := ih2
    obtain ⟨F3, h3⟩ := branch_ok i (Node.product l (.Branch j l' h')) (Node.product h (.Branch j l' h'))
    refine ⟨F1 + F2 + F3 + 1, fun f hf a c d hI hc hd => ?_⟩
    obtain ⟨f, rfl⟩ : ∃ g, f = g + 1 := ⟨f - 1, by omega⟩
    rw [productP, if_neg (cell_ne hI hc hd hne)]
    obtain ⟨lo, hi, rfl, ul, uh⟩ := hc.branch_inv
    obtain ⟨lo', hi', rfl, ul', uh'⟩ := hd.branch_inv
    simp only [productBody, hlt, if_true]
    refine returns_load ul fun b1 c1 e1 d1 => ?_
    refine returns_call (h1 f (by omega) b1 _ _ e1.right d1 (hd.mono e1)) fun b2 c2 e2 d2 => ?_
    refine returns_load (uh.mono (e1.trans e2)) fun b3 c3 e3 d3 => ?_
    refine returns_call (h2 f (by omega) b3 _ _ e3.right d3 (hd.mono ((e1.trans e2).trans e3))) fun b4 c4 e4 d4 => ?_
    exact h3 f (by omega) b4 _ _ e4.right
      (.node (d2.mono (e3.trans e4))) (.node d4)
  | case7 i l h j l' h' hlt hgt hne ih1 ih2 =>
    obtain ⟨F1, h1⟩ := ih1
    obtain ⟨F2, h2⟩ := ih2
    obtain ⟨F3, h3⟩ := branch_ok j (Node.product (.Branch i l h) l') (Node.product (.Branch i l h) h')
    refine ⟨F1 + F2 + F3 + 1, fun f hf a c d hI hc hd => ?_⟩
    obtain ⟨f, rfl⟩ : ∃ g, f = g + 1 := ⟨f - 1, by omega⟩
    rw [productP, if_neg (cell_ne hI hc hd hne)]
    obtain ⟨lo, hi, rfl, ul, uh⟩ := hc.branch_inv
    obtain ⟨lo', hi', rfl, ul', uh'⟩ := hd.branch_inv
    simp only [productBody, hlt, hgt, if_true, if_false]
    refine returns_load ul' fun b1 c1 e1 d1 => ?_
    refine returns_call (h1 f (by omega) b1 _ _ e1.right (hc.mono e1) d1) fun b2 c2 e2 d2 => ?_
    refine returns_load (uh'.mono (e1.trans e2)) fun b3 c3 e3 d3 => ?_
    refine returns_call (h2 f (by omega) b3 _ _ e3.right (hc.mono ((e1.trans e2).trans e3)) d3) fun b4 c4 e4 d4 => ?_
    exact h3 f (by omega) b4 _ _ e4.right
      (.node (d2.mono (e3.trans e4))) (.node d4)
  | case8 i l h j l' h' hlt hgt hne ih1 ih2 ih3 ih4 =>
    obtain ⟨F1, h1⟩ := ih1
    obtain ⟨F2, h2⟩ := ih2
    obtain ⟨F3, h3⟩ := ih3
    obtain ⟨F4, h4⟩ := ih4
    obtain ⟨F5, h5⟩ := union_ok (Node.product h l') (Node.product h h')
    obtain ⟨F6, h6⟩ := union_ok (Node.product l h') (Node.union (Node.product h l') (Node.product h h'))
    obtain ⟨F7, h7⟩ := branch_ok i (Node.product l l')
      (Node.union (Node.product l h') (Node.union (Node.product h l') (Node.product h h')))
    refine ⟨F1 + F2 + F3 + F4 + F5 + F6 + F7 + 1, fun f hf a c d hI hc hd => ?_⟩
    obtain ⟨f, rfl⟩ : ∃ g, f = g + 1 := ⟨f - 1, by omega⟩
    rw [productP, if_neg (cell_ne hI hc hd hne)]
    obtain ⟨lo, hi, rfl, ul, uh⟩ := hc.branch_inv
    obtain ⟨lo', hi', rfl, ul', uh'⟩ := hd.branch_inv
    simp only [productBody, hlt, hgt, if_true, if_false]
    refine returns_load ul fun b1 c1 e1 d1 => returns_load (ul'.mono e1) fun b2 c2 e2 d2 => ?_
    refine returns_call (h1 f (by omega) b2 _ _ e2.right (d1.mono e2) d2) fun b3 r1 e3 q1 => ?_
    have E1 := (e1.trans e2).trans e3
    refine returns_load (ul.mono E1) fun b4 c4 e4 d4 =>
      returns_load (uh'.mono (E1.trans e4)) fun b5 c5 e5 d5 => ?_
    refine returns_call (h2 f (by omega) b5 _ _ e5.right (d4.mono e5) d5) fun b6 r2 e6 q2 => ?_
    have E2 := (e4.trans e5).trans e6
    refine returns_load (uh.mono (E1.trans E2)) fun b7 c7 e7 d7 =>
      returns_load (ul'.mono ((E1.trans E2).trans e7)) fun b8 c8 e8 d8 => ?_
    refine returns_call (h3 f (by omega) b8 _ _ e8.right (d7.mono e8) d8) fun b9 r3 e9 q3 => ?_
    have E3 := (e7.trans e8).trans e9
    refine returns_load (uh.mono ((E1.trans E2).trans E3)) fun b10 c10 e10 d10 =>
      returns_load (uh'.mono (((E1.trans E2).trans E3).trans e10)) fun b11 c11 e11 d11 => ?_
    refine returns_call (h4 f (by omega) b11 _ _ e11.right (d10.mono e11) d11) fun b12 r4 e12 q4 => ?_
    have E4 := (e10.trans e11).trans e12
    refine returns_call (h5 f (by omega) b12 _ _ e12.right (q3.mono E4) q4) fun b13 r5 e13 q5 => ?_
    refine returns_call (h6 f (by omega) b13 _ _ e13.right
      (q2.mono ((E3.trans E4).trans e13)) q5) fun b14 r6 e14 q6 => ?_
    exact h7 f (by omega) b14 _ _ e14.right
      (.node (q1.mono ((((E2.trans E3).trans E4).trans e13).trans e14))) (.node q6)

end Verif.ArenaZdd2
