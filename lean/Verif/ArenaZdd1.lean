import Verif.ArenaProg
import Verif.Zdd1.Serialize

/-!
# weave/src/zdd as programs over the shared arena (C64, C65)

weave/src/zdd statement by statement with `NodeId`s and the global arena.  `NodeId::from(node)` is one
write-locked `add` (weave/src/zdd/node/mod.rs:62-67): one of the behaviours of `Prog.intern`.
`Node::FALSE` and `Node::TRUE` are the ids 0 and 1.
-/

set_option linter.unusedSimpArgs false
set_option linter.unusedSectionVars false
set_option linter.unusedVariables false

namespace Verif.ArenaZdd1
open Verif Verif.Arena Verif.Zdd1

universe u v

/-- weave/src/zdd/node/mod.rs:20-24 -/
abbrev C := Cell Nat Bool

/-- Not code: used to state or prove properties. -/
abbrev P := Prog Nat Bool C

/-- The diagram as a generic tree.  Not code: used to state or prove properties. -/
def tr : Node → Tr Nat Bool
  | .Branch i l h => .branch i (tr l) (tr h)
  | .Leaf b => .leaf b

theorem tr_inj {n m : Node} : tr n = tr m ↔ n = m := by
  constructor
  · intro h
    induction n generalizing m with
    | Branch i l h' ihl ihh =>
      cases m with
      | Branch j l' h'' =>
        simp only [tr, Tr.branch.injEq] at h
        rw [h.1, ihl h.2.1, ihh h.2.2]
      | Leaf b => simp [tr] at h
    | Leaf b => cases m <;> simp [tr] at h ⊢; exact h
  · rintro rfl; rfl

/-! ## Node operations -/

/-- weave/src/zdd/node/mod.rs:53-55 -/
def branchP (id : Nat) (low high : Arg Nat Bool) : P :=
  low.into fun low => high.into fun high => .ret (.branch id low high)

/-- weave/src/zdd/node/mod.rs:57-59 -/
def requiredBranchP (id : Nat) (high : Arg Nat Bool) : P :=
  high.into fun high => branchP id (.id 0) (.id high)

/-- The end of weave/src/zdd/tree/union.rs:47-51, weave/src/zdd/tree/intersect.rs:35-39,
weave/src/zdd/tree/product.rs:35-39. -/
def finishP (id : Nat) (low high : C) : P :=
  if high = .leaf false then .ret low else branchP id (.node low) (.node high)

/-- The `match` of weave/src/zdd/tree/union.rs:8-51 on two different nodes; `rec` is the recursive call. -/
def unionBody (rec : C → C → P) (node1 node2 : C) : P :=
  match node1, node2 with
  | _, .leaf false => .ret node1
  | .leaf false, _ => .ret node2
  | .leaf true, .leaf true => .ret (.leaf true)
  | .branch id low high, .leaf true =>
    .load low fun low => (rec low node2).bind fun low => .load high fun high => finishP id low high
  | .leaf true, .branch id low high =>
    .load low fun low => (rec node1 low).bind fun low => .load high fun high => finishP id low high
  | .branch id1 low1 high1, .branch id2 low2 high2 =>
    if id1 < id2 then
      .load low1 fun low1 => (rec low1 node2).bind fun low => .load high1 fun high => finishP id1 low high
    else if id1 > id2 then
      .load low2 fun low2 => (rec node1 low2).bind fun low => .load high2 fun high => finishP id2 low high
    else
      .load low1 fun low1 => .load low2 fun low2 => (rec low1 low2).bind fun low =>
      .load high1 fun high1 => .load high2 fun high2 => (rec high1 high2).bind fun high => finishP id1 low high

/-- weave/src/zdd/tree/union.rs:3-52; the first argument bounds the depth of the recursion. -/
def unionP : Nat → C → C → P
  | 0, _, _ => .spin
  | f + 1, node1, node2 => if node1 = node2 then .ret node1 else unionBody (unionP f) node1 node2

/-- The `match` of weave/src/zdd/tree/intersect.rs:8-39 on two different nodes; `rec` is the recursive call. -/
def intersectBody (rec : C → C → P) (node1 node2 : C) : P :=
  match node1, node2 with
  | _, .leaf true => .ret node1
  | .leaf true, _ => .ret node2
  | _, .leaf false => .ret (.leaf false)
  | .leaf false, _ => .ret (.leaf false)
  | .branch id1 low1 high1, .branch id2 low2 high2 =>
    if id1 < id2 then
      .load low1 fun low => .load high1 fun high1 => (rec high1 node2).bind fun high => finishP id1 low high
    else if id1 > id2 then
      .load low2 fun low => .load high2 fun high2 => (rec node1 high2).bind fun high => finishP id2 low high
    else
      .load low1 fun low1 => .load low2 fun low2 => (rec low1 low2).bind fun low =>
      .load high1 fun high1 => .load high2 fun high2 => (rec high1 high2).bind fun high => finishP id1 low high

/-- weave/src/zdd/tree/intersect.rs:3-40; the first argument bounds the depth of the recursion. -/
def intersectP : Nat → C → C → P
  | 0, _, _ => .spin
  | f + 1, node1, node2 => if node1 = node2 then .ret node1 else intersectBody (intersectP f) node1 node2

/-- The `match` of weave/src/zdd/tree/product.rs:8-39 on two different nodes; `rec` is the recursive call. -/
def productBody (rec : C → C → P) (node1 node2 : C) : P :=
  match node1, node2 with
  | _, .leaf true => .ret node1
  | .leaf true, _ => .ret node2
  | _, .leaf false => .ret (.leaf false)
  | .leaf false, _ => .ret (.leaf false)
  | .branch id1 low1 high1, .branch id2 low2 high2 =>
    if id1 < id2 then
      .load low1 fun low1 => (rec low1 node2).bind fun low =>
      .load high1 fun high1 => (rec high1 node2).bind fun high => finishP id1 low high
    else if id1 > id2 then
      .load low2 fun low2 => (rec node1 low2).bind fun low =>
      .load high2 fun high2 => (rec node1 high2).bind fun high => finishP id2 low high
    else
      .load low1 fun low1 => .load low2 fun low2 => (rec low1 low2).bind fun low =>
      .load high1 fun high1 => .load high2 fun high2 => (rec high1 high2).bind fun high => finishP id1 low high

/-- weave/src/zdd/tree/product.rs:3-40; the first argument bounds the depth of the recursion. -/
def productP : Nat → C → C → P
  | 0, _, _ => .spin
  | f + 1, node1, node2 => if node1 = node2 then .ret node1 else productBody (productP f) node1 node2

/-- With enough fuel, the program returns `res` in every thread.  Not code: used to state or prove properties. -/
def OpOk (op : Nat → C → C → P) (n m res : Node) : Prop :=
  ∃ F, ∀ f ≥ F, ∀ (a : Arena Nat Bool) (c d : C), a.Inv →
    CellDen a c (tr n) → CellDen a d (tr m) → Returns (op f c d) a (tr res)

theorem cell_ne {a : Arena Nat Bool} (hI : a.Inv) {n m : Node} {c d : C} (hc : CellDen a c (tr n))
    (hd : CellDen a d (tr m)) (h : ¬ n = m) : c ≠ d := by
  rw [Ne, cell_eq_iff hI hc hd, tr_inj]; exact h

theorem cell_eq {a : Arena Nat Bool} (hI : a.Inv) {n : Node} {c d : C} (hc : CellDen a c (tr n))
    (hd : CellDen a d (tr n)) : c = d := (cell_eq_iff hI hc hd).2 rfl

theorem branch_ok {a : Arena Nat Bool} {id : Nat} {x y : Arg Nat Bool} {l h : Node} (hI : a.Inv)
    (hx : ArgDen a x (tr l)) (hy : ArgDen a y (tr h)) :
    Returns (branchP id x y) a (tr (Node.branch id l h)) :=
  returns_into hI hx fun b i e u => returns_into e.right (hy.mono e) fun b2 j e2 w =>
    .ret e2.right (.branch (u.mono e2) w)

theorem finish_ok {a : Arena Nat Bool} (hI : a.Inv) {id : Nat} {c d : C} {l h : Node}
    (hc : CellDen a c (tr l)) (hd : CellDen a d (tr h)) :
    Returns (finishP id c d) a (tr (Node.finish id l h)) := by
  have := cell_eq_iff hI hd (show CellDen a (.leaf false) (tr (.Leaf false)) from rfl)
  rw [tr_inj] at this
  rw [finishP, Node.finish]
  by_cases e : d = .leaf false
  · rw [if_pos e, if_pos (this.1 e)]; exact .ret hI hc
  · rw [if_neg e, if_neg (fun h => e (this.2 h))]; exact branch_ok hI (.node hc) (.node hd)

/-- Load both children, call on the low one, then load and finish. -/
theorem low_ok {rec : C → P} {a : Arena Nat Bool} {lo hi id : Nat} {l h r : Node}
    (hr : ∀ (b : Arena Nat Bool) c, Ext a b → CellDen b c (tr l) → Returns (rec c) b (tr r))
    (ul : Unfolds a lo (tr l)) (uh : Unfolds a hi (tr h)) :
    Returns (.load lo fun low => (rec low).bind fun low => .load hi fun high => finishP id low high) a
      (tr (Node.finish id r h)) := by
  refine returns_load ul fun b1 c1 e1 d1 => ?_
  refine returns_call (hr b1 c1 e1 d1) fun b2 c2 e2 d2 => ?_
  refine returns_load (uh.mono (e1.trans e2)) fun b3 c3 e3 d3 => ?_
  exact finish_ok e3.right (d2.mono e3) d3

theorem high_ok {rec : C → P} {a : Arena Nat Bool} {lo hi id : Nat} {l h r : Node}
    (hr : ∀ (b : Arena Nat Bool) c, Ext a b → CellDen b c (tr h) → Returns (rec c) b (tr r))
    (ul : Unfolds a lo (tr l)) (uh : Unfolds a hi (tr h)) :
    Returns (.load lo fun low => .load hi fun high => (rec high).bind fun high => finishP id low high) a
      (tr (Node.finish id l r)) := by
  refine returns_load ul fun b1 c1 e1 d1 => returns_load (uh.mono e1) fun b2 c2 e2 d2 => ?_
  refine returns_call (hr b2 c2 (e1.trans e2) d2) fun b3 c3 e3 d3 => ?_
  exact finish_ok e3.right (d1.mono (e2.trans e3)) d3

theorem each_ok {rec : C → P} {a : Arena Nat Bool} {lo hi id : Nat} {l h r s : Node}
    (hr : ∀ (b : Arena Nat Bool) c, Ext a b → CellDen b c (tr l) → Returns (rec c) b (tr r))
    (hs : ∀ (b : Arena Nat Bool) c, Ext a b → CellDen b c (tr h) → Returns (rec c) b (tr s))
    (ul : Unfolds a lo (tr l)) (uh : Unfolds a hi (tr h)) :
    Returns (.load lo fun low => (rec low).bind fun low => .load hi fun high => (rec high).bind fun high =>
      finishP id low high) a (tr (Node.finish id r s)) := by
  refine returns_load ul fun b1 c1 e1 d1 => ?_
  refine returns_call (hr b1 c1 e1 d1) fun b2 c2 e2 d2 => ?_
  refine returns_load (uh.mono (e1.trans e2)) fun b3 c3 e3 d3 => ?_
  refine returns_call (hs b3 c3 ((e1.trans e2).trans e3) d3) fun b4 c4 e4 d4 => ?_
  exact finish_ok e4.right (d2.mono (e3.trans e4)) d4

theorem both_ok {rec : C → C → P} {a : Arena Nat Bool} {lo hi lo' hi' id : Nat} {l h l' h' r s : Node}
    (hr : ∀ (b : Arena Nat Bool) c d, b.Inv → CellDen b c (tr l) → CellDen b d (tr l') → Returns (rec c d) b (tr r))
    (hs : ∀ (b : Arena Nat Bool) c d, b.Inv → CellDen b c (tr h) → CellDen b d (tr h') → Returns (rec c d) b (tr s))
    (ul : Unfolds a lo (tr l)) (uh : Unfolds a hi (tr h)) (ul' : Unfolds a lo' (tr l'))
    (uh' : Unfolds a hi' (tr h')) :
    Returns (.load lo fun low1 => .load lo' fun low2 => (rec low1 low2).bind fun low =>
      .load hi fun high1 => .load hi' fun high2 => (rec high1 high2).bind fun high => finishP id low high) a
      (tr (Node.finish id r s)) := by
  refine returns_load ul fun b1 c1 e1 d1 => returns_load (ul'.mono e1) fun b2 c2 e2 d2 => ?_
  refine returns_call (hr b2 _ _ e2.right (d1.mono e2) d2) fun b3 c3 e3 d3 => ?_
  have e123 := (e1.trans e2).trans e3
  refine returns_load (uh.mono e123) fun b4 c4 e4 d4 =>
    returns_load (uh'.mono (e123.trans e4)) fun b5 c5 e5 d5 => ?_
  refine returns_call (hs b5 _ _ e5.right (d4.mono e5) d5) fun b6 c6 e6 d6 => ?_
  exact finish_ok e6.right (d3.mono ((e4.trans e5).trans e6)) d6

theorem union_ok (n m : Node) : OpOk unionP n m (Node.union n m) := by
  fun_induction Node.union n m with
  | case1 n =>
    refine ⟨1, fun f hf a c d hI hc hd => ?_⟩
    obtain ⟨f, rfl⟩ : ∃ g, f = g + 1 := ⟨f - 1, by omega⟩
    rw [unionP, if_pos (cell_eq hI hc hd)]
    exact .ret hI hc
  | case2 n hne =>
    refine ⟨1, fun f hf a c d hI hc hd => ?_⟩
    obtain ⟨f, rfl⟩ : ∃ g, f = g + 1 := ⟨f - 1, by omega⟩
    rw [unionP, if_neg (cell_ne hI hc hd hne)]
    obtain rfl := hd.leaf_inv
    exact .ret hI hc
  | case3 m h1 hne =>
    refine ⟨1, fun f hf a c d hI hc hd => ?_⟩
    obtain ⟨f, rfl⟩ : ∃ g, f = g + 1 := ⟨f - 1, by omega⟩
    rw [unionP, if_neg (cell_ne hI hc hd hne)]
    obtain rfl := hc.leaf_inv
    cases d with
    | leaf v => cases v <;> exact .ret hI hd
    | branch i l h => exact .ret hI hd
  | case4 h => exact absurd rfl h
  | case5 i l h hne ih =>
    obtain ⟨F1, h1⟩ := ih
    refine ⟨F1 + 1, fun f hf a c d hI hc hd => ?_⟩
    obtain ⟨f, rfl⟩ : ∃ g, f = g + 1 := ⟨f - 1, by omega⟩
    rw [unionP, if_neg (cell_ne hI hc hd hne)]
    obtain rfl := hd.leaf_inv
    obtain ⟨lo, hi, rfl, ul, uh⟩ := hc.branch_inv
    exact low_ok (rec := fun c => unionP f c (.leaf true))
      (fun b c e dc => h1 f (by omega) b _ _ e.right dc (hd.mono e)) ul uh
  | case6 i l h hne ih =>
    obtain ⟨F1, h1⟩ := ih
    refine ⟨F1 + 1, fun f hf a c d hI hc hd => ?_⟩
    obtain ⟨f, rfl⟩ : ∃ g, f = g + 1 := ⟨f - 1, by omega⟩
    rw [unionP, if_neg (cell_ne hI hc hd hne)]
    obtain rfl := hc.leaf_inv
    obtain ⟨lo, hi, rfl, ul, uh⟩ := hd.branch_inv
    exact low_ok (rec := fun c => unionP f (.leaf true) c)
      (fun b c e dc => h1 f (by omega) b _ _ e.right (hc.mono e) dc) ul uh
  | case7 i l h j l' h' hlt hne ih =>
    obtain ⟨F1, h1⟩ := ih
    refine ⟨F1 + 1, fun f hf a c d hI hc hd => ?_⟩
    obtain ⟨f, rfl⟩ : ∃ g, f = g + 1 := ⟨f - 1, by omega⟩
    rw [unionP, if_neg (cell_ne hI hc hd hne)]
    obtain ⟨lo, hi, rfl, ul, uh⟩ := hc.branch_inv
    obtain ⟨lo', hi', rfl, ul', uh'⟩ := hd.branch_inv
    simp only [unionBody, hlt, if_true]
    exact low_ok (rec := fun c => unionP f c (.branch j lo' hi'))
      (fun b c e dc => h1 f (by omega) b _ _ e.right dc (hd.mono e)) ul uh
  | case8 i l h j l' h' hlt hgt hne ih =>
    obtain ⟨F1, h1⟩ := ih
    refine ⟨F1 + 1, fun f hf a c d hI hc hd => ?_⟩
    obtain ⟨f, rfl⟩ : ∃ g, f = g + 1 := ⟨f - 1, by omega⟩
    rw [unionP, if_neg (cell_ne hI hc hd hne)]
    obtain ⟨lo, hi, rfl, ul, uh⟩ := hc.branch_inv
    obtain ⟨lo', hi', rfl, ul', uh'⟩ := hd.branch_inv
    simp only [unionBody, hlt, hgt, if_true, if_false]
    exact low_ok (rec := fun c => unionP f (.branch i lo hi) c)
      (fun b c e dc => h1 f (by omega) b _ _ e.right (hc.mono e) dc) ul' uh'
  | case9 i l h j l' h' hlt hgt hne ih1 ih2 =>
    obtain ⟨F1, h1⟩ := ih1
    obtain ⟨F2, h2⟩ := ih2
    refine ⟨F1 + F2 + 1, fun f hf a c d hI hc hd => ?_⟩
    obtain ⟨f, rfl⟩ : ∃ g, f = g + 1 := ⟨f - 1, by omega⟩
    rw [unionP, if_neg (cell_ne hI hc hd hne)]
    obtain ⟨lo, hi, rfl, ul, uh⟩ := hc.branch_inv
    obtain ⟨lo', hi', rfl, ul', uh'⟩ := hd.branch_inv
    simp only [unionBody, hlt, hgt, if_true, if_false]
    exact both_ok (h1 f (by omega)) (h2 f (by omega)) ul uh ul' uh'

theorem intersect_ok (n m : Node) : OpOk intersectP n m (Node.intersect n m) := by
  fun_induction Node.intersect n m with
  | case1 n =>
    refine ⟨1, fun f hf a c d hI hc hd => ?_⟩
    obtain ⟨f, rfl⟩ : ∃ g, f = g + 1 := ⟨f - 1, by omega⟩
    rw [intersectP, if_pos (cell_eq hI hc hd)]
    exact .ret hI hc
  | case2 n hne =>
    refine ⟨1, fun f hf a c d hI hc hd => ?_⟩
    obtain ⟨f, rfl⟩ : ∃ g, f = g + 1 := ⟨f - 1, by omega⟩
    rw [intersectP, if_neg (cell_ne hI hc hd hne)]
    obtain rfl := hd.leaf_inv
    exact .ret hI hc
  | case3 m h1 hne =>
    refine ⟨1, fun f hf a c d hI hc hd => ?_⟩
    obtain ⟨f, rfl⟩ : ∃ g, f = g + 1 := ⟨f - 1, by omega⟩
    rw [intersectP, if_neg (cell_ne hI hc hd hne)]
    obtain rfl := hc.leaf_inv
    cases d with
    | leaf v => cases v <;> exact .ret hI hd
    | branch i l h => exact .ret hI hd
  | case4 n h1 hne =>
    refine ⟨1, fun f hf a c d hI hc hd => ?_⟩
    obtain ⟨f, rfl⟩ : ∃ g, f = g + 1 := ⟨f - 1, by omega⟩
    have hcd := cell_ne hI hc hd hne
    rw [intersectP, if_neg hcd]
    obtain rfl := hd.leaf_inv
    cases c with
    | leaf v => cases v <;> exact .ret hI hd
    | branch i l h => exact .ret hI hd
  | case5 m h1 h2 hne =>
    refine ⟨1, fun f hf a c d hI hc hd => ?_⟩
    obtain ⟨f, rfl⟩ : ∃ g, f = g + 1 := ⟨f - 1, by omega⟩
    rw [intersectP, if_neg (cell_ne hI hc hd hne)]
    obtain rfl := hc.leaf_inv
    cases d with
    | leaf v => cases v <;> exact .ret hI hc
    | branch i l h => exact .ret hI hc
  | case6 i l h j l' h' hlt hne ih =>
    obtain ⟨F1, h1⟩ := ih
    refine ⟨F1 + 1, fun f hf a c d hI hc hd => ?_⟩
    obtain ⟨f, rfl⟩ : ∃ g, f = g + 1 := ⟨f - 1, by omega⟩
    rw [intersectP, if_neg (cell_ne hI hc hd hne)]
    obtain ⟨lo, hi, rfl, ul, uh⟩ := hc.branch_inv
    obtain ⟨lo', hi', rfl, ul', uh'⟩ := hd.branch_inv
    simp only [intersectBody, hlt, if_true]
    exact high_ok (rec := fun c => intersectP f c (.branch j lo' hi'))
      (fun b c e dc => h1 f (by omega) b _ _ e.right dc (hd.mono e)) ul uh
  | case7 i l h j l' h' hlt hgt hne ih =>
    obtain ⟨F1, h1⟩ := ih
    refine ⟨F1 + 1, fun f hf a c d hI hc hd => ?_⟩
    obtain ⟨f, rfl⟩ : ∃ g, f = g + 1 := ⟨f - 1, by omega⟩
    rw [intersectP, if_neg (cell_ne hI hc hd hne)]
    obtain ⟨lo, hi, rfl, ul, uh⟩ := hc.branch_inv
    obtain ⟨lo', hi', rfl, ul', uh'⟩ := hd.branch_inv
    simp only [intersectBody, hlt, hgt, if_true, if_false]
    exact high_ok (rec := fun c => intersectP f (.branch i lo hi) c)
      (fun b c e dc => h1 f (by omega) b _ _ e.right (hc.mono e) dc) ul' uh'
  | case8 i l h j l' h' hlt hgt hne ih1 ih2 =>
    obtain ⟨F1, h1⟩ := ih1
    obtain ⟨F2, h2⟩ := ih2
    refine ⟨F1 + F2 + 1, fun f hf a c d hI hc hd => ?_⟩
    obtain ⟨f, rfl⟩ : ∃ g, f = g + 1 := ⟨f - 1, by omega⟩
    rw [intersectP, if_neg (cell_ne hI hc hd hne)]
    obtain ⟨lo, hi, rfl, ul, uh⟩ := hc.branch_inv
    obtain ⟨lo', hi', rfl, ul', uh'⟩ := hd.branch_inv
    simp only [intersectBody, hlt, hgt, if_true, if_false]
    exact both_ok (h1 f (by omega)) (h2 f (by omega)) ul uh ul' uh'

theorem product_ok (n m : Node) : OpOk productP n m (Node.product n m) := by
  fun_induction Node.product n m with
  | case1 n =>
    refine ⟨1, fun f hf a c d hI hc hd => ?_⟩
    obtain ⟨f, rfl⟩ : ∃ g, f = g + 1 := ⟨f - 1, by omega⟩
    rw [productP, if_pos (cell_eq hI hc hd)]
    exact .ret hI hc
  | case2 n hne =>
    refine ⟨1, fun f hf a c d hI hc hd => ?_⟩
    obtain ⟨f, rfl⟩ : ∃ g, f = g + 1 := ⟨f - 1, by omega⟩
    rw [productP, if_neg (cell_ne hI hc hd hne)]
    obtain rfl := hd.leaf_inv
    exact .ret hI hc
  | case3 m h1 hne =>
    refine ⟨1, fun f hf a c d hI hc hd => ?_⟩
    obtain ⟨f, rfl⟩ : ∃ g, f = g + 1 := ⟨f - 1, by omega⟩
    rw [productP, if_neg (cell_ne hI hc hd hne)]
    obtain rfl := hc.leaf_inv
    cases d with
    | leaf v => cases v <;> exact .ret hI hd
    | branch i l h => exact .ret hI hd
  | case4 n h1 hne =>
    refine ⟨1, fun f hf a c d hI hc hd => ?_⟩
    obtain ⟨f, rfl⟩ : ∃ g, f = g + 1 := ⟨f - 1, by omega⟩
    have hcd := cell_ne hI hc hd hne
    rw [productP, if_neg hcd]
    obtain rfl := hd.leaf_inv
    cases c with
    | leaf v => cases v <;> exact .ret hI hd
    | branch i l h => exact .ret hI hd
  | case5 m h1 h2 hne =>
    refine ⟨1, fun f hf a c d hI hc hd => ?_⟩
    obtain ⟨f, rfl⟩ : ∃ g, f = g + 1 := ⟨f - 1, by omega⟩
    rw [productP, if_neg (cell_ne hI hc hd hne)]
    obtain rfl := hc.leaf_inv
    cases d with
    | leaf v => cases v <;> exact .ret hI hc
    | branch i l h => exact .ret hI hc
  | case6 i l h j l' h' hlt hne ih1 ih2 =>
    obtain ⟨F1, h1⟩ := ih1
    obtain ⟨F2, h2⟩ := ih2
    refine ⟨F1 + F2 + 1, fun f hf a c d hI hc hd => ?_⟩
    obtain ⟨f, rfl⟩ : ∃ g, f = g + 1 := ⟨f - 1, by omega⟩
    rw [productP, if_neg (cell_ne hI hc hd hne)]
    obtain ⟨lo, hi, rfl, ul, uh⟩ := hc.branch_inv
    obtain ⟨lo', hi', rfl, ul', uh'⟩ := hd.branch_inv
    simp only [productBody, hlt, if_true]
    exact each_ok (rec := fun c => productP f c (.branch j lo' hi'))
      (fun b c e dc => h1 f (by omega) b _ _ e.right dc (hd.mono e))
      (fun b c e dc => h2 f (by omega) b _ _ e.right dc (hd.mono e)) ul uh
  | case7 i l h j l' h' hlt hgt hne ih1 ih2 =>
    obtain ⟨F1, h1⟩ := ih1
    obtain ⟨F2, h2⟩ := ih2
    refine ⟨F1 + F2 + 1, fun f hf a c d hI hc hd => ?_⟩
    obtain ⟨f, rfl⟩ : ∃ g, f = g + 1 := ⟨f - 1, by omega⟩
    rw [productP, if_neg (cell_ne hI hc hd hne)]
    obtain ⟨lo, hi, rfl, ul, uh⟩ := hc.branch_inv
    obtain ⟨lo', hi', rfl, ul', uh'⟩ := hd.branch_inv
    simp only [productBody, hlt, hgt, if_true, if_false]
    exact each_ok (rec := fun c => productP f (.branch i lo hi) c)
      (fun b c e dc => h1 f (by omega) b _ _ e.right (hc.mono e) dc)
      (fun b c e dc => h2 f (by omega) b _ _ e.right (hc.mono e) dc) ul' uh'
  | case8 i l h j l' h' hlt hgt hne ih1 ih2 =>
    obtain ⟨F1, h1⟩ := ih1
    obtain ⟨F2, h2⟩ := ih2
    refine ⟨F1 + F2 + 1, fun f hf a c d hI hc hd => ?_⟩
    obtain ⟨f, rfl⟩ : ∃ g, f = g + 1 := ⟨f - 1, by omega⟩
    rw [productP, if_neg (cell_ne hI hc hd hne)]
    obtain ⟨lo, hi, rfl, ul, uh⟩ := hc.branch_inv
    obtain ⟨lo', hi', rfl, ul', uh'⟩ := hd.branch_inv
    simp only [productBody, hlt, hgt, if_true, if_false]
    exact both_ok (h1 f (by omega)) (h2 f (by omega)) ul uh ul' uh'

/-! ## Listing -/

/-- weave/src/zdd/tree/combinations.rs:10-32; the first argument bounds the depth of the recursion. -/
def innerP : Nat → Nat → List Nat → Prog Nat Bool (Option (List (List Nat)))
  | 0, _, _ => .spin
  | f + 1, root, path => .load root fun
    | .branch id low high =>
      (innerP f low path).bind fun low => (innerP f high (path ++ [id])).bind fun high =>
      .ret (some (([low, high].filterMap (fun f => f)).flatten))
    | .leaf true => .ret (some [path])
    | .leaf false => .ret none

/-- weave/src/zdd/tree/combinations.rs:5-8 -/
def recursiveP (f : Nat) (root : Nat) : Prog Nat Bool (List (List Nat)) :=
  (innerP f root []).bind fun r => .ret (r.getD [])

/-- The loop of weave/src/zdd/tree/combinations.rs:38-53; the first argument bounds the number of iterations. -/
def loopP : Nat → List (C × List Nat) → List (List Nat) → Prog Nat Bool (List (List Nat))
  | 0, _, _ => .spin
  | _ + 1, [], acc => .ret acc
  | f + 1, (.branch id low high, path) :: q, acc =>
    .load low fun low => .load high fun high => loopP f ((high, path ++ [id]) :: (low, path) :: q) acc
  | f + 1, (.leaf true, path) :: q, acc => loopP f q (acc ++ [path])
  | f + 1, (.leaf false, _) :: q, acc => loopP f q acc

/-- weave/src/zdd/tree/combinations.rs:34-56 -/
def iterP (f : Nat) (root : Nat) : Prog Nat Bool (List (List Nat)) :=
  .load root fun root => loopP f [(root, [])] []

theorem inner_ok (n : Node) (path : List Nat) :
    ∃ F, ∀ f ≥ F, ∀ (a : Arena Nat Bool) root, a.Inv → Unfolds a root (tr n) →
      Yields (innerP f root path) a (fun _ r => r = n.combinationsInner path) := by
  induction n generalizing path with
  | Leaf v =>
    refine ⟨1, fun f hf a root hI hu => ?_⟩
    obtain ⟨f, rfl⟩ : ∃ g, f = g + 1 := ⟨f - 1, by omega⟩
    refine yields_load hu fun b c e d => ?_
    obtain rfl := d.leaf_inv
    cases v <;> exact Yields.ret e.right rfl
  | Branch i l h ihl ihh =>
    obtain ⟨F1, h1⟩ := ihl path
    obtain ⟨F2, h2⟩ := ihh (path ++ [i])
    refine ⟨F1 + F2 + 1, fun f hf a root hI hu => ?_⟩
    obtain ⟨f, rfl⟩ : ∃ g, f = g + 1 := ⟨f - 1, by omega⟩
    refine yields_load hu fun b c e d => ?_
    obtain ⟨lo, hi, rfl, ul, uh⟩ := d.branch_inv
    refine yields_bind (h1 f (by omega) b lo e.right ul) fun b2 r1 e2 q1 => ?_
    refine yields_bind (h2 f (by omega) b2 hi e2.right (uh.mono e2)) fun b3 r2 e3 q2 => ?_
    rw [q1, q2]
    exact Yields.ret e3.right rfl

theorem recursive_ok (n : Node) :
    ∃ F, ∀ f ≥ F, ∀ (a : Arena Nat Bool) root, a.Inv → Unfolds a root (tr n) →
      Yields (recursiveP f root) a (fun _ r => r = n.combinationsRecursive) := by
  obtain ⟨F, h⟩ := inner_ok n []
  refine ⟨F, fun f hf a root hI hu => ?_⟩
  refine yields_bind (h f hf a root hI hu) fun b r e q => Yields.ret e.right ?_
  rw [q, Node.combinationsRecursive]
  cases n.combinationsInner [] <;> rfl

/-- Not code: used to state or prove properties. -/
def QueueDen (a : Arena Nat Bool) (q : List (C × List Nat)) (p : List (Node × List Nat)) : Prop :=
  List.Forall₂ (fun c n => CellDen a c.1 (tr n.1) ∧ c.2 = n.2) q p

theorem QueueDen.mono {a b : Arena Nat Bool} (e : Ext a b) {q p} (h : QueueDen a q p) : QueueDen b q p :=
  List.Forall₂.imp (fun _ _ hx => ⟨CellDen.mono e hx.1, hx.2⟩) h

theorem loop_ok (p : List (Node × List Nat)) (acc : List (List Nat)) :
    ∃ F, ∀ f ≥ F, ∀ (a : Arena Nat Bool) q, a.Inv → QueueDen a q p →
      Yields (loopP f q acc) a (fun _ r => r = Node.combinationsLoop p acc) := by
  fun_induction Node.combinationsLoop p acc with
  | case1 acc =>
    refine ⟨1, fun f hf a q hI hq => ?_⟩
    obtain ⟨f, rfl⟩ : ∃ g, f = g + 1 := ⟨f - 1, by omega⟩
    cases hq
    exact Yields.ret hI rfl
  | case2 acc id low high path q ih =>
    obtain ⟨F, hF⟩ := ih
    refine ⟨F + 1, fun f hf a q' hI hq => ?_⟩
    obtain ⟨f, rfl⟩ : ∃ g, f = g + 1 := ⟨f - 1, by omega⟩
    cases hq with
    | @cons x _ xs _ hx hxs =>
      obtain ⟨c, pth⟩ := x
      obtain ⟨hx, rfl⟩ := hx
      obtain ⟨lo, hi, rfl, ul, uh⟩ := CellDen.branch_inv hx
      refine yields_load ul fun b1 c1 e1 d1 => yields_load (uh.mono e1) fun b2 c2 e2 d2 => ?_
      exact hF f (by omega) b2 _ e2.right
        (.cons ⟨d2, rfl⟩ (.cons ⟨d1.mono e2, rfl⟩ (QueueDen.mono (e1.trans e2) hxs)))
  | case3 acc path q ih =>
    obtain ⟨F, hF⟩ := ih
    refine ⟨F + 1, fun f hf a q' hI hq => ?_⟩
    obtain ⟨f, rfl⟩ : ∃ g, f = g + 1 := ⟨f - 1, by omega⟩
    cases hq with
    | @cons x _ xs _ hx hxs =>
      obtain ⟨c, pth⟩ := x
      obtain ⟨hx, rfl⟩ := hx
      obtain rfl := CellDen.leaf_inv hx
      exact hF f (by omega) a _ hI hxs
  | case4 acc path q ih =>
    obtain ⟨F, hF⟩ := ih
    refine ⟨F + 1, fun f hf a q' hI hq => ?_⟩
    obtain ⟨f, rfl⟩ : ∃ g, f = g + 1 := ⟨f - 1, by omega⟩
    cases hq with
    | @cons x _ xs _ hx hxs =>
      obtain ⟨c, pth⟩ := x
      obtain ⟨hx, rfl⟩ := hx
      obtain rfl := CellDen.leaf_inv hx
      exact hF f (by omega) a _ hI hxs

theorem iter_ok (n : Node) :
    ∃ F, ∀ f ≥ F, ∀ (a : Arena Nat Bool) root, a.Inv → Unfolds a root (tr n) →
      Yields (iterP f root) a (fun _ r => r = n.combinationsIter) := by
  obtain ⟨F, h⟩ := loop_ok [(n, [])] []
  refine ⟨F, fun f hf a root hI hu => ?_⟩
  refine yields_load hu fun b c e d => ?_
  exact h f hf b _ e.right (.cons ⟨d, rfl⟩ .nil)

/-! ## Trees -/

variable {T : Type u} [LinearOrder T]

/-- weave/src/zdd/tree/mod.rs:26-30 with the root as the code has it: a node id. -/
structure TreeC (T : Type u) where
  root : Nat
  univ : Universe T

/-- weave/src/zdd/tree/mod.rs:47-49 -/
def fromRootP (univ : Universe T) (root : Arg Nat Bool) : Prog Nat Bool (TreeC T) :=
  root.into fun root => .ret ⟨root, univ⟩

/-- weave/src/zdd/tree/universe.rs:49-58 -/
def treeP (uni : Universe T) (combination : List T) : Prog Nat Bool (TreeC T) :=
  (foldP (fun next id => (requiredBranchP id (.id next)).bind fun n => .intern n fun i => .ret i)
    (sorted (combination.filterMap (fun item => lookup item uni.itemIndex))).reverse 1).bind fun root =>
  fromRootP uni (.id root)

/-- weave/src/zdd/tree/mod.rs:107-129, for `op` one of the three node operations. -/
def binaryP (op : Nat → C → C → P) (f : Nat) (t other : TreeC T) : Prog Nat Bool (TreeC T) :=
  .load t.root fun x => .load other.root fun y => (op f x y).bind fun root => fromRootP t.univ (.node root)

/-- weave/src/zdd/tree/universe.rs:66-70 -/
def hyperP (f : Nat) (uni : Universe T) (combinations : List (List T)) : Prog Nat Bool (TreeC T) :=
  foldP (fun root cb => (treeP uni cb).bind fun next => binaryP unionP f root next) combinations ⟨0, uni⟩

/-- weave/src/zdd/tree/universe.rs:60-64 -/
def uniqueP (f : Nat) (uni : Universe T) (items : List T) : Prog Nat Bool (TreeC T) :=
  foldP (fun root item => (treeP uni [item]).bind fun next => binaryP unionP f root next) items ⟨0, uni⟩

/-- weave/src/zdd/tree/mod.rs:88-93 -/
def combinationsP (f : Nat) (t : TreeC T) : Prog Nat Bool (List (List T)) :=
  (iterP f t.root).bind fun l => .ret (filterRepeats (l.map t.univ.getItems))

/-- weave/src/zdd/tree/mod.rs:81-86 -/
def combinationsRecursiveP (f : Nat) (t : TreeC T) : Prog Nat Bool (List (List T)) :=
  (recursiveP f t.root).bind fun l => .ret (filterRepeats (l.map t.univ.getItems))

/-- weave/src/zdd/tree/mod.rs:95-105 (see `Zdd1.Tree.combinationsWith`) -/
def combinationsWithP (f : Nat) (t : TreeC T) (inclusions exclusions : List T) : Prog Nat Bool (List (List T)) :=
  (iterP f t.root).bind fun l =>
  let inclusions := filterRepeats inclusions
  let exclusions := filterRepeats exclusions
  .ret (filterRepeats (((l.map t.univ.getItems).filter
      (fun set => filterRepeats (set.filter (fun x => x ∈ inclusions)) = inclusions)).filter
      (fun set => (filterRepeats (set.filter (fun x => x ∈ exclusions))).isEmpty)))

/-- weave/src/zdd/tree/mod.rs:131-138 -/
def restrictP (f : Nat) (t : TreeC T) (inclusions exclusions : List T) : Prog Nat Bool (TreeC T) :=
  (combinationsWithP f t inclusions exclusions).bind fun cs => hyperP f t.univ cs

/-- weave/src/zdd/tree/traversable.rs:26-38; the failed `unwrap` is the `panic`. -/
def traverseP (uni : Universe T) : Nat → Nat → Prog Nat Bool (TreeNode T)
  | 0, _ => .spin
  | f + 1, root => .load root fun
    | .leaf value => .ret (.Leaf value)
    | .branch id low high =>
      match uni.getItem id with
      | none => .panic
      | some value =>
        (traverseP uni f low).bind fun low => (traverseP uni f high).bind fun high => .ret (.Branch value low high)

/-- What a thread does with trees: any expression over the public API, over any universes.
Not code: used to state or prove properties. -/
inductive Ex (T : Type u) where
  | empty (items : List T)
  | unit (items : List T)
  | tree (items c : List T)
  | unique (items xs : List T)
  | hyper (items : List T) (cs : List (List T))
  | union (a b : Ex T)
  | intersect (a b : Ex T)
  | product (a b : Ex T)
  | restrict (a : Ex T) (inc exc : List T)

/-- The expression in the sequential model.  Not code: used to state or prove properties. -/
def Ex.eval : Ex T → Tree T
  | .empty items => (Universe.fromVec items).emptyTree
  | .unit items => (Universe.fromVec items).unitTree
  | .tree items c => (Universe.fromVec items).tree c
  | .unique items xs => (Universe.fromVec items).uniqueTree xs
  | .hyper items cs => (Universe.fromVec items).hyperTree cs
  | .union a b => a.eval.union b.eval
  | .intersect a b => a.eval.intersect b.eval
  | .product a b => a.eval.product b.eval
  | .restrict a inc exc => a.eval.restrict inc exc

/-- The expression as a program over the arena: weave/src/zdd/tree/mod.rs:38-142,
weave/src/zdd/tree/universe.rs:40-70. -/
def Ex.prog (f : Nat) : Ex T → Prog Nat Bool (TreeC T)
  | .empty items => .ret ⟨0, Universe.fromVec items⟩
  | .unit items => .ret ⟨1, Universe.fromVec items⟩
  | .tree items c => treeP (Universe.fromVec items) c
  | .unique items xs => uniqueP f (Universe.fromVec items) xs
  | .hyper items cs => hyperP f (Universe.fromVec items) cs
  | .union a b => (a.prog f).bind fun x => (b.prog f).bind fun y => binaryP unionP f x y
  | .intersect a b => (a.prog f).bind fun x => (b.prog f).bind fun y => binaryP intersectP f x y
  | .product a b => (a.prog f).bind fun x => (b.prog f).bind fun y => binaryP productP f x y
  | .restrict a inc exc => (a.prog f).bind fun x => restrictP f x inc exc

/-- The leaves are where `Node::FALSE` and `Node::TRUE` expect them.  Not code: used to state or prove properties. -/
def Leaves (a : Arena Nat Bool) : Prop := Unfolds a 0 (.leaf false) ∧ Unfolds a 1 (.leaf true)

theorem Leaves.mono {a b : Arena Nat Bool} (h : Leaves a) (e : Ext a b) : Leaves b := ⟨h.1.mono e, h.2.mono e⟩

/-- Not code: used to state or prove properties. -/
def TreeDen (g : Tree T) (a : Arena Nat Bool) (x : TreeC T) : Prop :=
  Unfolds a x.root (tr g.root) ∧ x.univ = g.univ

theorem TreeDen.mono {g : Tree T} {a b : Arena Nat Bool} {x : TreeC T} (h : TreeDen g a x) (e : Ext a b) :
    TreeDen g b x := ⟨h.1.mono e, h.2⟩

theorem into_ok {β : Type v} {a : Arena Nat Bool} (hI : a.Inv) {x : Arg Nat Bool} {n : Node}
    {k : Nat → Prog Nat Bool β} {R : Arena Nat Bool → β → Prop}
    (hx : ArgDen a x (tr n)) (h : ∀ b i, Ext a b → Unfolds b i (tr n) → Yields (k i) b R) :
    Yields (x.into k) a R := by
  cases x with
  | id i => exact h a i (.refl hI) hx
  | node c => exact yields_intern hx fun b i e u => h b i e u

theorem fromRoot_ok {a : Arena Nat Bool} (hI : a.Inv) {uni : Universe T} {x : Arg Nat Bool} {n : Node}
    (hx : ArgDen a x (tr n)) : Yields (fromRootP uni x) a (TreeDen ⟨n, uni⟩) :=
  into_ok hI hx fun b i e u => Yields.ret e.right ⟨u, rfl⟩

theorem required_ok {a : Arena Nat Bool} (hI : a.Inv) (hl : Leaves a) {id : Nat} {x : Arg Nat Bool} {n : Node}
    (hx : ArgDen a x (tr n)) : Returns (requiredBranchP id x) a (tr (Node.requiredBranch id n)) :=
  into_ok hI hx fun b i e u => branch_ok (l := .Leaf false) e.right (.id (hl.1.mono e)) (.id u)

theorem tree_ok (uni : Universe T) (c : List T) {a : Arena Nat Bool} (hI : a.Inv) (hl : Leaves a) :
    Yields (treeP uni c) a (TreeDen (uni.tree c)) := by
  obtain ⟨F, h⟩ := fold_ok
    (fun _ (_ : Unit) (next : Nat) (id : Nat) =>
      (requiredBranchP id (.id next)).bind fun n => Prog.intern n fun i => Prog.ret i)
    (fun next id => Node.requiredBranch id next) (fun a _ => Leaves a) (fun a i n => Unfolds a i (tr n))
    (fun _ _ _ e h => h.mono e) (by
      intro d e
      refine ⟨0, fun f _ a _ acc hI hl hu => ?_⟩
      refine yields_bind (required_ok hI hl (.id hu)) fun b n x q => ?_
      exact yields_intern q fun b2 i e2 u => Yields.ret e2.right u)
    (sorted (c.filterMap (fun item => lookup item uni.itemIndex))).reverse (.Leaf true)
  refine yields_bind (h F le_rfl a () 1 hI hl hl.2) fun b root e u => ?_
  exact fromRoot_ok e.right (.id u)

theorem binary_ok (op : Nat → C → C → P) (opN : Node → Node → Node) (h : ∀ n m, OpOk op n m (opN n m))
    (x y : Tree T) :
    ∃ F, ∀ f ≥ F, ∀ (a : Arena Nat Bool) xc yc, a.Inv → TreeDen x a xc → TreeDen y a yc →
      Yields (binaryP op f xc yc) a (TreeDen ⟨opN x.root y.root, x.univ⟩) := by
  obtain ⟨F, h⟩ := h x.root y.root
  refine ⟨F, fun f hf a xc yc hI hx hy => ?_⟩
  refine yields_load hx.1 fun b1 c1 e1 d1 => yields_load (hy.1.mono e1) fun b2 c2 e2 d2 => ?_
  refine yields_bind (h f hf b2 c1 c2 e2.right (d1.mono e2) d2) fun b3 c3 e3 d3 => ?_
  rw [hx.2]
  exact fromRoot_ok e3.right (.node d3)

/-- Uniting trees made one after the other. -/
theorem foldUnion_ok {β : Type v} (uni : Universe T) (mk : β → List T) (es : List β) :
    ∃ F, ∀ f ≥ F, ∀ a : Arena Nat Bool, a.Inv → Leaves a →
      Yields (foldP (fun root e => (treeP uni (mk e)).bind fun next => binaryP unionP f root next) es ⟨0, uni⟩) a
        (TreeDen ((es.map (fun e => uni.tree (mk e))).foldl (fun root next => root.union next) uni.emptyTree)) := by
  obtain ⟨F, h⟩ := fold_ok
    (fun f (_ : Unit) (root : TreeC T) (e : β) => (treeP uni (mk e)).bind fun next => binaryP unionP f root next)
    (fun (root : Tree T) e => root.union (uni.tree (mk e))) (fun a _ => Leaves a) (fun a c n => TreeDen n a c)
    (fun _ _ _ e h => h.mono e) (by
      intro d e
      obtain ⟨F, h⟩ := binary_ok unionP Node.union union_ok d (uni.tree (mk e))
      refine ⟨F, fun f hf a _ acc hI hl hu => ?_⟩
      refine yields_bind (tree_ok uni (mk e) hI hl) fun b n x q => ?_
      exact h f hf b acc n x.right (hu.mono x) q) es uni.emptyTree
  refine ⟨F, fun f hf a hI hl => ?_⟩
  rw [List.foldl_map]
  exact h f hf a () ⟨0, uni⟩ hI hl ⟨hl.1, rfl⟩

theorem hyper_ok (uni : Universe T) (cs : List (List T)) :
    ∃ F, ∀ f ≥ F, ∀ a : Arena Nat Bool, a.Inv → Leaves a → Yields (hyperP f uni cs) a (TreeDen (uni.hyperTree cs)) :=
  foldUnion_ok uni (fun c => c) cs

theorem unique_ok (uni : Universe T) (xs : List T) :
    ∃ F, ∀ f ≥ F, ∀ a : Arena Nat Bool, a.Inv → Leaves a → Yields (uniqueP f uni xs) a (TreeDen (uni.uniqueTree xs)) :=
  foldUnion_ok uni (fun x => [x]) xs

theorem combinations_ok (t : Tree T) :
    ∃ F, ∀ f ≥ F, ∀ (a : Arena Nat Bool) x, a.Inv → TreeDen t a x →
      Yields (combinationsP f x) a (fun _ r => r = t.combinations) := by
  obtain ⟨F, h⟩ := iter_ok t.root
  refine ⟨F, fun f hf a x hI hx => ?_⟩
  refine yields_bind (h f hf a x.root hI hx.1) fun b l e hl => Yields.ret e.right ?_
  rw [hl, hx.2]; rfl

theorem combinationsRecursive_ok (t : Tree T) :
    ∃ F, ∀ f ≥ F, ∀ (a : Arena Nat Bool) x, a.Inv → TreeDen t a x →
      Yields (combinationsRecursiveP f x) a (fun _ r => r = t.combinationsRecursive) := by
  obtain ⟨F, h⟩ := recursive_ok t.root
  refine ⟨F, fun f hf a x hI hx => ?_⟩
  refine yields_bind (h f hf a x.root hI hx.1) fun b l e hl => Yields.ret e.right ?_
  rw [hl, hx.2]; rfl

theorem combinationsWith_ok (t : Tree T) (inc exc : List T) :
    ∃ F, ∀ f ≥ F, ∀ (a : Arena Nat Bool) x, a.Inv → TreeDen t a x →
      Yields (combinationsWithP f x inc exc) a (fun _ r => r = t.combinationsWith inc exc) := by
  obtain ⟨F, h⟩ := iter_ok t.root
  refine ⟨F, fun f hf a x hI hx => ?_⟩
  refine yields_bind (h f hf a x.root hI hx.1) fun b l e hl => Yields.ret e.right ?_
  rw [hl, hx.2]; rfl

theorem restrict_ok (t : Tree T) (inc exc : List T) :
    ∃ F, ∀ f ≥ F, ∀ (a : Arena Nat Bool) x, a.Inv → Leaves a → TreeDen t a x →
      Yields (restrictP f x inc exc) a (TreeDen (t.restrict inc exc)) := by
  obtain ⟨F1, h1⟩ := combinationsWith_ok t inc exc
  obtain ⟨F2, h2⟩ := hyper_ok t.univ (t.combinationsWith inc exc)
  refine ⟨F1 + F2, fun f hf a x hI hl hx => ?_⟩
  refine yields_bind (h1 f (by omega) a x hI hx) fun b l e hl' => ?_
  rw [hl', hx.2]
  exact h2 f (by omega) b e.right (hl.mono e)

theorem traverse_ok (uni : Universe T) (n : Node) (t : TreeNode T) (ht : fromNode uni n = some t) :
    ∃ F, ∀ f ≥ F, ∀ (a : Arena Nat Bool) root, a.Inv → Unfolds a root (tr n) →
      Yields (traverseP uni f root) a (fun _ r => r = t) := by
  induction n generalizing t with
  | Leaf v =>
    refine ⟨1, fun f hf a root hI hu => ?_⟩
    obtain ⟨f, rfl⟩ : ∃ g, f = g + 1 := ⟨f - 1, by omega⟩
    refine yields_load hu fun b c e d => ?_
    obtain rfl := d.leaf_inv
    simp only [fromNode, Option.some.injEq] at ht
    exact Yields.ret e.right ht
  | Branch i l h ihl ihh =>
    rw [fromNode] at ht
    cases hi : uni.getItem i with
    | none => rw [hi] at ht; cases ht
    | some value =>
      rw [hi] at ht
      dsimp only at ht
      cases hl : fromNode uni l with
      | none => rw [hl] at ht; cases ht
      | some tl =>
        rw [hl] at ht
        dsimp only at ht
        cases hh : fromNode uni h with
        | none => rw [hh] at ht; cases ht
        | some th =>
          rw [hh] at ht
          obtain ⟨F1, h1⟩ := ihl tl hl
          obtain ⟨F2, h2⟩ := ihh th hh
          refine ⟨F1 + F2 + 1, fun f hf a root hI hu => ?_⟩
          obtain ⟨f, rfl⟩ : ∃ g, f = g + 1 := ⟨f - 1, by omega⟩
          refine yields_load hu fun b c e d => ?_
          obtain ⟨lo, hi', rfl, ul, uh⟩ := d.branch_inv
          dsimp only
          rw [hi]
          refine yields_bind (h1 f (by omega) b lo e.right ul) fun b2 r1 e2 q1 => ?_
          refine yields_bind (h2 f (by omega) b2 hi' e2.right (uh.mono e2)) fun b3 r2 e3 q2 => ?_
          rw [q1, q2]
          exact Yields.ret e3.right (Option.some.inj ht)

theorem prog_ok (p : Ex T) :
    ∃ F, ∀ f ≥ F, ∀ a : Arena Nat Bool, a.Inv → Leaves a → Yields (p.prog f) a (TreeDen p.eval) := by
  have seq2 : ∀ (a b : Ex T) (op : Nat → C → C → P) (opN : Node → Node → Node),
      (∀ n m, OpOk op n m (opN n m)) →
      (∃ F, ∀ f ≥ F, ∀ x : Arena Nat Bool, x.Inv → Leaves x → Yields (a.prog f) x (TreeDen a.eval)) →
      (∃ F, ∀ f ≥ F, ∀ x : Arena Nat Bool, x.Inv → Leaves x → Yields (b.prog f) x (TreeDen b.eval)) →
      ∃ F, ∀ f ≥ F, ∀ x : Arena Nat Bool, x.Inv → Leaves x →
        Yields ((a.prog f).bind fun x => (b.prog f).bind fun y => binaryP op f x y) x
          (TreeDen ⟨opN a.eval.root b.eval.root, a.eval.univ⟩) := by
    rintro a b op opN ho ⟨F1, h1⟩ ⟨F2, h2⟩
    obtain ⟨F3, h3⟩ := binary_ok op opN ho a.eval b.eval
    refine ⟨F1 + F2 + F3, fun f hf x hI hl => ?_⟩
    refine yields_bind (h1 f (by omega) x hI hl) fun b1 xc e1 d1 => ?_
    refine yields_bind (h2 f (by omega) b1 e1.right (hl.mono e1)) fun b2 yc e2 d2 => ?_
    exact h3 f (by omega) b2 xc yc e2.right (d1.mono e2) d2
  induction p with
  | empty items => exact ⟨0, fun f _ a hI hl => Yields.ret hI ⟨hl.1, rfl⟩⟩
  | unit items => exact ⟨0, fun f _ a hI hl => Yields.ret hI ⟨hl.2, rfl⟩⟩
  | tree items c => exact ⟨0, fun f _ a hI hl => tree_ok _ c hI hl⟩
  | unique items xs => exact unique_ok _ xs
  | hyper items cs => exact hyper_ok _ cs
  | union a b iha ihb => exact seq2 a b unionP Node.union union_ok iha ihb
  | intersect a b iha ihb => exact seq2 a b intersectP Node.intersect intersect_ok iha ihb
  | product a b iha ihb => exact seq2 a b productP Node.product product_ok iha ihb
  | restrict a inc exc ih =>
    obtain ⟨F1, h1⟩ := ih
    obtain ⟨F2, h2⟩ := restrict_ok a.eval inc exc
    refine ⟨F1 + F2, fun f hf x hI hl => ?_⟩
    refine yields_bind (h1 f (by omega) x hI hl) fun b1 xc e1 d1 => ?_
    exact h2 f (by omega) b1 xc e1.right (hl.mono e1) d1

/-! ## The theorems -/

/-- What a thread does: make a tree, then list it in the three ways.  weave/src/zdd/tree/mod.rs:38-142. -/
def threadP (f : Nat) (q : Ex T × List T × List T) :
    Prog Nat Bool (TreeC T × List (List T) × List (List T) × List (List T)) :=
  (q.1.prog f).bind fun t => (combinationsP f t).bind fun x => (combinationsRecursiveP f t).bind fun y =>
  (combinationsWithP f t q.2.1 q.2.2).bind fun z => .ret (t, x, y, z)

/-- The answer is the sequential one.  Not code: used to state or prove properties. -/
def Right (q : Ex T × List T × List T) (a : Arena Nat Bool)
    (r : TreeC T × List (List T) × List (List T) × List (List T)) : Prop :=
  TreeDen q.1.eval a r.1 ∧ r.2 = (q.1.eval.combinations, q.1.eval.combinationsRecursive,
    q.1.eval.combinationsWith q.2.1 q.2.2)

theorem thread_ok (q : Ex T × List T × List T) :
    ∃ F, ∀ f ≥ F, ∀ a : Arena Nat Bool, a.Inv → Leaves a → Yields (threadP f q) a (Right q) := by
  obtain ⟨F1, h1⟩ := prog_ok q.1
  obtain ⟨F2, h2⟩ := combinations_ok q.1.eval
  obtain ⟨F3, h3⟩ := combinationsRecursive_ok q.1.eval
  obtain ⟨F4, h4⟩ := combinationsWith_ok q.1.eval q.2.1 q.2.2
  refine ⟨F1 + F2 + F3 + F4, fun f hf a hI hl => ?_⟩
  refine yields_bind (h1 f (by omega) a hI hl) fun b1 t e1 d1 => ?_
  refine yields_bind (h2 f (by omega) b1 t e1.right d1) fun b2 x e2 d2 => ?_
  refine yields_bind (h3 f (by omega) b2 t e2.right (d1.mono e2)) fun b3 y e3 d3 => ?_
  refine yields_bind (h4 f (by omega) b3 t e3.right (d1.mono (e2.trans e3))) fun b4 z e4 d4 => ?_
  exact Yields.ret e4.right ⟨d1.mono ((e2.trans e3).trans e4), by rw [d2, d3, d4]⟩

/-- The machine at process start: the fresh arena (weave/src/zdd/node/arena.rs:13-20), every thread about to run
its program.  Not code: used to state or prove properties. -/
def boot (f : Nat → Nat) (qs : Nat → Ex T × List T × List T) :
    Machine Nat Bool (fun _ => TreeC T × List (List T) × List (List T) × List (List T)) where
  arena := Arena.init false true
  threads := fun t => .run (threadP (f t) (qs t))

theorem init_leaves : Leaves (Arena.init false true) := ⟨.leaf rfl, .leaf rfl⟩

theorem right_stable (q : Ex T × List T × List T) : Stable (Right q) :=
  fun _ _ _ e h => ⟨h.1.mono e, h.2⟩

theorem boot_ok (qs : Nat → Ex T × List T × List T) :
    ∃ F : Nat → Nat, ∀ f : Nat → Nat, (∀ t, F t ≤ f t) → ∀ t,
      wpT ((boot f qs).threads t) (boot f qs).arena (Right (qs t)) := by
  choose F hF using fun t => thread_ok (qs t)
  refine ⟨F, fun f hf t => ?_⟩
  exact wp_imp (hF t (f t) (hf t) _ (init_inv (by decide)) init_leaves) fun b r hr => hr.2

/-- C64: any number of threads, each making a tree with any expression over the API and listing it, under every
schedule: no thread panics, no thread is stuck before its end, every finished thread got exactly what the
sequential model gives. -/
theorem threads_exact (qs : Nat → Ex T × List T × List T) :
    ∃ F : Nat → Nat, ∀ f : Nat → Nat, (∀ t, F t ≤ f t) → ∀ m, MRun (boot f qs) m → ∀ t,
      m.threads t ≠ .panicked ∧
      (∀ x cs rs ws, m.threads t = .run (.ret (x, cs, rs, ws)) → x.univ = (qs t).1.eval.univ ∧
        cs = (qs t).1.eval.combinations ∧ rs = (qs t).1.eval.combinationsRecursive ∧
        ws = (qs t).1.eval.combinationsWith (qs t).2.1 (qs t).2.2) ∧
      ((∃ r, m.threads t = .run (.ret r)) ∨ ∃ a th, TStep m.arena (m.threads t) a th) := by
  obtain ⟨F, hF⟩ := boot_ok qs
  refine ⟨F, fun f hf m hm t => ?_⟩
  obtain ⟨h1, h2, h3⟩ := schedules_sound (fun t => right_stable (qs t)) hm (init_inv (by decide)) (hF f hf) t
  refine ⟨h1, fun x cs rs ws e => ?_, h3⟩
  obtain ⟨hd, hr⟩ := h2 _ e
  simp only [Prod.mk.injEq] at hr
  exact ⟨hd.2, hr⟩

/-- C65: at every point of every schedule every thread can run to its end while the others stand still. -/
theorem threads_finish (qs : Nat → Ex T × List T × List T) :
    ∃ F : Nat → Nat, ∀ f : Nat → Nat, (∀ t, F t ≤ f t) → ∀ m, MRun (boot f qs) m → ∀ t,
      ∃ m', MRun m m' ∧ (∀ s, s ≠ t → m'.threads s = m.threads s) ∧
        ∃ x, m'.threads t = .run (.ret (x, (qs t).1.eval.combinations, (qs t).1.eval.combinationsRecursive,
          (qs t).1.eval.combinationsWith (qs t).2.1 (qs t).2.2)) := by
  obtain ⟨F, hF⟩ := boot_ok qs
  refine ⟨F, fun f hf m hm t => ?_⟩
  obtain ⟨m', hm', hs, ⟨x, r⟩, hx⟩ := can_finish (fun t => right_stable (qs t)) hm (init_inv (by decide)) (hF f hf) t
  obtain ⟨_, h2, _⟩ := schedules_sound (fun t => right_stable (qs t)) (hm.trans hm') (init_inv (by decide)) (hF f hf) t
  obtain ⟨_, hr⟩ := h2 _ hx
  exact ⟨m', hm', hs, x, by rw [hx]; simp only at hr; rw [hr]⟩

/-- C64: trees made by different threads compare with `==` exactly as in the sequential model (which
`Verif.Zdd1.eq_iff_combinations_partial` relates to their combinations). -/
theorem threads_compare (qs : Nat → Ex T × List T × List T) :
    ∃ F : Nat → Nat, ∀ f : Nat → Nat, (∀ t, F t ≤ f t) → ∀ m, MRun (boot f qs) m → ∀ s t x y r r',
      m.threads s = .run (.ret (x, r)) → m.threads t = .run (.ret (y, r')) →
      (x = y ↔ (qs s).1.eval = (qs t).1.eval) := by
  obtain ⟨F, hF⟩ := boot_ok qs
  refine ⟨F, fun f hf m hm s t x y r r' es et => ?_⟩
  obtain ⟨⟨hs, us⟩, _⟩ := (schedules_sound (fun t => right_stable (qs t)) hm (init_inv (by decide)) (hF f hf) s).2.1 _ es
  obtain ⟨⟨ht, ut⟩, _⟩ := (schedules_sound (fun t => right_stable (qs t)) hm (init_inv (by decide)) (hF f hf) t).2.1 _ et
  have hI : m.arena.Inv := (mrun_ok (fun t => right_stable (qs t)) hm (init_inv (by decide)) (hF f hf)).1.right
  simp only at hs us ht ut
  constructor
  · rintro rfl
    have h1 := tr_inj.1 (unfolds_fun hs ht)
    have h2 := us.symm.trans ut
    exact Tree.ext h1 h2
  · intro e
    rw [← e] at ht ut
    have h1 : x.root = y.root := unfolds_inj hI hs ht
    have h2 : x.univ = y.univ := us.trans ut.symm
    cases x; cases y
    simp only at h1 h2
    rw [h1, h2]

/-- The theorems are not vacuous: two threads finish in one run, with trees of the same two combinations written
differently. -/
example : ∃ m : Machine Nat Bool (fun _ => TreeC Nat × List (List Nat) × List (List Nat) × List (List Nat)), ∃ f x y,
    MRun (boot f (fun t => if t = 0 then (.hyper [1, 2, 3] [[1, 2], [3]], [], [1])
      else (.union (.tree [1, 2, 3] [3]) (.tree [1, 2, 3] [2, 1]), [], []))) m ∧
    m.threads 0 = .run (.ret x) ∧ m.threads 1 = .run (.ret y) ∧ [1, 2] ∈ x.2.1 := by
  obtain ⟨F, hF⟩ := threads_finish
    (fun t => if t = 0 then (.hyper [1, 2, 3] [[1, 2], [3]], [], [1])
      else (.union (.tree [1, 2, 3] [3]) (.tree [1, 2, 3] [2, 1]), [], []) : Nat → Ex Nat × List Nat × List Nat)
  obtain ⟨m1, r1, _, x, e1⟩ := hF F (fun _ => le_rfl) _ (.nil _) 0
  obtain ⟨m2, r2, k2, y, e2⟩ := hF F (fun _ => le_rfl) _ r1 1
  rw [← k2 0 (by decide)] at e1
  refine ⟨m2, F, _, _, r1.trans r2, e1, e2, ?_⟩
  · simp only [if_true, Ex.eval]
    have hex := hyper_tree_exact [1, 2, 3] [[1, 2], [3]]
    have : ({1, 2} : Finset Nat) ∈ Spec.family ((Universe.fromVec [1, 2, 3]).hyperTree [[1, 2], [3]]).combinations := by
      rw [hex]; exact ⟨[1, 2], by simp, by decide⟩
    obtain ⟨l, hl, hl2⟩ := this
    have hs := (Tree.combinations_mem_lt _) l hl
    have : l = [1, 2] := toFinset_inj_of_lt hs (by simp) (by rw [hl2]; decide)
    subst this; exact hl

end Verif.ArenaZdd1
