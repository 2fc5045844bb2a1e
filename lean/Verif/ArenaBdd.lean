import Verif.ArenaProg
import Verif.Bdd.Props

/-!
# The BDD node and closet operations as programs over the shared arena (C64, C65)

bowtie-core/src/bdd statement by statement with `NodeId`s and the global arena.  `NodeId::from(node)` is one
write-locked `add` (bowtie-core/src/bdd/node/arena.rs:48-51): one of the behaviours of `Prog.intern`.
A `Closet` holds its root as a `Node` value, not as an id (bowtie-core/src/bdd/closet/mod.rs:12-17).
-/

set_option linter.unusedSimpArgs false
set_option linter.unusedSectionVars false
set_option linter.unusedVariables false

namespace Verif.ArenaBdd
open Verif Verif.Arena Verif.Bdd Verif.Bdd.Spec

universe u v w w' x
variable {I : Type u} [LinearOrder I]

/-- bowtie-core/src/bdd/node/mod.rs:13-17 -/
abbrev C (I : Type u) := Cell I Bool

/-- Not code: used to state or prove properties. -/
abbrev P (I : Type u) := Prog I Bool (C I)

/-- The diagram as a generic tree.  Not code: used to state or prove properties. -/
def tr : Node I → Tr I Bool
  | .Branch i l h => .branch i (tr l) (tr h)
  | .Leaf b => .leaf b

theorem tr_inj {n m : Node I} : tr n = tr m ↔ n = m := by
  constructor
  · intro h
    induction n generalizing m with
    | Branch i l h' ihl ihh =>
      cases m with
      | Branch j l' h'' =>
        simp only [tr, Tr.branch.injEq] at h
        rw [h.1, ihl h.2.1, ihh h.2.2]
      | Leaf b => simp [tr] at h
    | Leaf b => cases m <;> simp [tr] at h ⊢; exact h
  · rintro rfl; rfl

/-! ## Node operations -/

/-- bowtie-core/src/bdd/node/mod.rs:49-51 -/
def branchP (id : I) (low high : Arg I Bool) : P I :=
  low.into fun low => high.into fun high => .ret (.branch id low high)

/-- bowtie-core/src/bdd/node/mod.rs:53-55 -/
def positiveBranchP (id : I) : P I := branchP id (.node (.leaf false)) (.node (.leaf true))

/-- bowtie-core/src/bdd/node/mod.rs:57-59 -/
def negativeBranchP (id : I) : P I := branchP id (.node (.leaf true)) (.node (.leaf false))

/-- bowtie-core/src/bdd/node/bit_operations.rs:9-19 -/
def splitP (node : C I) (firstId : I) : Prog I Bool (C I × C I) :=
  match node with
  | .branch id low high =>
    if firstId = id then .load low fun low => .load high fun high => .ret (low, high)
    else .ret (node, node)
  | .leaf _ => .ret (node, node)

/-- bowtie-core/src/bdd/node/bit_operations.rs:47-57 and 82-92; `rec` is the recursive call. -/
def bitTail (rec : C I → C I → P I) (firstId : I) (node1 node2 : C I) : P I :=
  (splitP node1 firstId).bind fun s1 => (splitP node2 firstId).bind fun s2 =>
  (rec s1.1 s2.1).bind fun low => (rec s1.2 s2.2).bind fun high =>
  if low = high then .ret low else branchP firstId (.node low) (.node high)

/-- The body of bowtie-core/src/bdd/node/bit_operations.rs:22-59; `rec` is the recursive call. -/
def bitorBody (rec : C I → C I → P I) (node1 node2 : C I) : P I :=
  match node1, node2 with
  | n1, .leaf false => .ret n1
  | .leaf false, n2 => .ret n2
  | .leaf v1, .leaf v2 => .ret (.leaf (v1 || v2))
  | .branch id l h, .leaf v => bitTail rec id (.branch id l h) (.leaf v)
  | .leaf v, .branch id l h => bitTail rec id (.leaf v) (.branch id l h)
  | .branch id1 l1 h1, .branch id2 l2 h2 =>
    bitTail rec (if id1 ≤ id2 then id1 else id2) (.branch id1 l1 h1) (.branch id2 l2 h2)

/-- bowtie-core/src/bdd/node/bit_operations.rs:22-59; the first argument bounds the depth of the recursion. -/
def bitorP : Nat → C I → C I → P I
  | 0, _, _ => .spin
  | f + 1, node1, node2 => bitorBody (bitorP f) node1 node2

/-- The body of bowtie-core/src/bdd/node/bit_operations.rs:61-94; `rec` is the recursive call. -/
def bitandBody (rec : C I → C I → P I) (node1 node2 : C I) : P I :=
  match node1, node2 with
  | n1, .leaf true => .ret n1
  | .leaf true, n2 => .ret n2
  | .leaf v1, .leaf v2 => .ret (.leaf (v1 && v2))
  | .branch id l h, .leaf v => bitTail rec id (.branch id l h) (.leaf v)
  | .leaf v, .branch id l h => bitTail rec id (.leaf v) (.branch id l h)
  | .branch id1 l1 h1, .branch id2 l2 h2 =>
    bitTail rec (if id1 ≤ id2 then id1 else id2) (.branch id1 l1 h1) (.branch id2 l2 h2)

/-- bowtie-core/src/bdd/node/bit_operations.rs:61-94; the first argument bounds the depth of the recursion. -/
def bitandP : Nat → C I → C I → P I
  | 0, _, _ => .spin
  | f + 1, node1, node2 => bitandBody (bitandP f) node1 node2

/-- bowtie-core/src/bdd/node/bit_operations.rs:104-114 -/
def bitnotP : C I → P I
  | .leaf true => .ret (.leaf false)
  | .leaf false => .ret (.leaf true)
  | .branch id low high => branchP id (.id high) (.id low)

/-- bowtie-core/src/bdd/node/bit_operations.rs:96-102 -/
def bitxorP (f : Nat) (n1 n2 : C I) : P I :=
  (bitnotP n2).bind fun r => (bitandP f n1 r).bind fun a =>
  (bitnotP n1).bind fun l => (bitandP f l n2).bind fun b => bitorP f a b

/-- bowtie-core/src/bdd/node/reduce.rs:4-22; the first argument bounds the depth of the recursion. -/
def reduceP : Nat → C I → P I
  | 0, _ => .spin
  | _ + 1, .leaf v => .ret (.leaf v)
  | f + 1, .branch id low high =>
    .load low fun low => .load high fun high =>
    (reduceP f low).bind fun low => (reduceP f high).bind fun high =>
    if low = high then .ret low else branchP id (.node low) (.node high)

/-- bowtie-core/src/bdd/node/restrict.rs:5-27; the first argument bounds the depth of the recursion. -/
def restrictP : Nat → C I → I → Bool → P I
  | 0, _, _, _ => .spin
  | _ + 1, .leaf v, _, _ => .ret (.leaf v)
  | f + 1, .branch id low high, item, selected =>
    .load low fun low => .load high fun high =>
    if id = item then (if !selected then .ret low else .ret high)
    else
      (restrictP f low item selected).bind fun low => (restrictP f high item selected).bind fun high =>
      if low = high then .ret low else branchP id (.node low) (.node high)

/-- Not code: used to state or prove properties. -/
def OpOk (op : Nat → C I → C I → P I) (n m res : Node I) : Prop :=
  ∃ F, ∀ f ≥ F, ∀ (a : Arena I Bool) (c d : C I), a.Inv →
    CellDen a c (tr n) → CellDen a d (tr m) → Returns (op f c d) a (tr res)

/-- Not code: used to state or prove properties. -/
def Op1Ok (op : Nat → C I → P I) (n res : Node I) : Prop :=
  ∃ F, ∀ f ≥ F, ∀ (a : Arena I Bool) (c : C I), a.Inv → CellDen a c (tr n) →
    Returns (op f c) a (tr res)

theorem branch_ok {a : Arena I Bool} {id : I} {x y : Arg I Bool} {l h : Node I} (hI : a.Inv)
    (hx : ArgDen a x (tr l)) (hy : ArgDen a y (tr h)) :
    Returns (branchP id x y) a (tr (.Branch id l h)) :=
  returns_into hI hx fun b i e u => returns_into e.right (hy.mono e) fun b2 j e2 w =>
    .ret e2.right (.branch (u.mono e2) w)

theorem positive_ok {a : Arena I Bool} (hI : a.Inv) (id : I) :
    Returns (positiveBranchP id) a (tr (Node.positiveBranch id)) :=
  branch_ok hI (.node rfl) (.node rfl)

theorem negative_ok {a : Arena I Bool} (hI : a.Inv) (id : I) :
    Returns (negativeBranchP id) a (tr (Node.negativeBranch id)) :=
  branch_ok hI (.node rfl) (.node rfl)

/-- The tail `if low == high { low } else { Node::branch(id, low, high) }`. -/
theorem mk_ok {a : Arena I Bool} (hI : a.Inv) {id : I} {c d : C I} {l h : Node I}
    (hc : CellDen a c (tr l)) (hd : CellDen a d (tr h)) :
    Returns (if c = d then .ret c else branchP id (.node c) (.node d)) a
      (tr (if l = h then l else .Branch id l h)) := by
  have := cell_eq_iff hI hc hd
  rw [tr_inj] at this
  by_cases e : c = d
  · rw [if_pos e, if_pos (this.1 e)]; exact .ret hI hc
  · rw [if_neg e, if_neg (fun h => e (this.2 h))]; exact branch_ok hI (.node hc) (.node hd)

theorem split_ok {a : Arena I Bool} (hI : a.Inv) {n : Node I} {c : C I} (hc : CellDen a c (tr n)) (id : I) :
    Yields (splitP c id) a (fun b r => CellDen b r.1 (tr (n.splitBranch id).1) ∧
      CellDen b r.2 (tr (n.splitBranch id).2)) := by
  cases n with
  | Leaf v =>
    obtain rfl := hc.leaf_inv
    exact Yields.ret hI ⟨hc, hc⟩
  | Branch i l h =>
    obtain ⟨lo, hi, rfl, ul, uh⟩ := hc.branch_inv
    simp only [splitP, Node.splitBranch]
    split_ifs
    · exact yields_load ul fun b c e d => yields_load (uh.mono e) fun b2 c2 e2 d2 =>
        Yields.ret e2.right ⟨d.mono e2, d2⟩
    · exact Yields.ret hI ⟨hc, hc⟩

theorem tail_ok {rec : C I → C I → P I} {n m rl rh : Node I} {id : I} {a : Arena I Bool} {c d : C I}
    (hl : ∀ (b : Arena I Bool) c d, b.Inv → CellDen b c (tr (n.splitBranch id).1) →
      CellDen b d (tr (m.splitBranch id).1) → Returns (rec c d) b (tr rl))
    (hh : ∀ (b : Arena I Bool) c d, b.Inv → CellDen b c (tr (n.splitBranch id).2) →
      CellDen b d (tr (m.splitBranch id).2) → Returns (rec c d) b (tr rh))
    (hI : a.Inv) (hc : CellDen a c (tr n)) (hd : CellDen a d (tr m)) :
    Returns (bitTail rec id c d) a (tr (Node.mk id rl rh)) := by
  refine yields_bind (split_ok hI hc id) fun b1 s1 e1 q1 => ?_
  refine yields_bind (split_ok e1.right (hd.mono e1) id) fun b2 s2 e2 q2 => ?_
  refine yields_bind (hl b2 _ _ e2.right (q1.1.mono e2) q2.1) fun b3 r1 e3 q3 => ?_
  refine yields_bind (hh b3 _ _ e3.right (q1.2.mono (e2.trans e3)) (q2.2.mono e3)) fun b4 r2 e4 q4 => ?_
  exact mk_ok e4.right (CellDen.mono e4 q3) q4

theorem bitor_ok (n m : Node I) : OpOk bitorP n m (Node.bitor n m) := by
  fun_induction Node.bitor n m with
  | case1 n =>
    refine ⟨1, fun f hf a c d hI hc hd => ?_⟩
    obtain ⟨f, rfl⟩ : ∃ g, f = g + 1 := ⟨f - 1, by omega⟩
    obtain rfl := hd.leaf_inv
    rw [bitorP, bitorBody]
    exact .ret hI hc
  | case2 m h =>
    refine ⟨1, fun f hf a c d hI hc hd => ?_⟩
    obtain ⟨f, rfl⟩ : ∃ g, f = g + 1 := ⟨f - 1, by omega⟩
    obtain rfl := hc.leaf_inv
    cases d with
    | leaf v => cases v <;> exact .ret hI hd
    | branch i l h => exact .ret hI hd
  | case3 v1 v2 h1 h2 =>
    refine ⟨1, fun f hf a c d hI hc hd => ?_⟩
    obtain ⟨f, rfl⟩ : ∃ g, f = g + 1 := ⟨f - 1, by omega⟩
    obtain rfl := hc.leaf_inv
    obtain rfl := hd.leaf_inv
    cases v1 <;> cases v2 <;> exact .ret hI rfl
  | case4 id l h v hv ih1 ih2 =>
    obtain ⟨F1, h1⟩ := ih1
    obtain ⟨F2, h2⟩ := ih2
    refine ⟨F1 + F2 + 1, fun f hf a c d hI hc hd => ?_⟩
    obtain ⟨f, rfl⟩ : ∃ g, f = g + 1 := ⟨f - 1, by omega⟩
    obtain ⟨lo, hi, rfl, ul, uh⟩ := hc.branch_inv
    obtain rfl := hd.leaf_inv
    cases v with
    | false => exact absurd rfl hv
    | true =>
      rw [bitorP]
      refine tail_ok (n := .Branch id l h) (m := .Leaf true) (fun b c d hI hc hd => ?_) (fun b c d hI hc hd => ?_) hI hc hd
      · rw [Node.splitBranch, if_pos rfl] at hc
        exact h1 f (by omega) b c d hI hc hd
      · rw [Node.splitBranch, if_pos rfl] at hc
        exact h2 f (by omega) b c d hI hc hd
  | case5 v id l h hv ih1 ih2 =>
    obtain ⟨F1, h1⟩ := ih1
    obtain ⟨F2, h2⟩ := ih2
    refine ⟨F1 + F2 + 1, fun f hf a c d hI hc hd => ?_⟩
    obtain ⟨f, rfl⟩ : ∃ g, f = g + 1 := ⟨f - 1, by omega⟩
    obtain ⟨lo, hi, rfl, ul, uh⟩ := hd.branch_inv
    obtain rfl := hc.leaf_inv
    cases v with
    | false => exact absurd rfl hv
    | true =>
      rw [bitorP]
      refine tail_ok (n := .Leaf true) (m := .Branch id l h) (fun b c d hI hc hd => ?_) (fun b c d hI hc hd => ?_) hI hc hd
      · rw [Node.splitBranch, if_pos rfl] at hd
        exact h1 f (by omega) b c d hI hc hd
      · rw [Node.splitBranch, if_pos rfl] at hd
        exact h2 f (by omega) b c d hI hc hd
  | case6 id1 l1 h1 id2 l2 h2 firstId s1 s2 ih1 ih2 =>
    obtain ⟨F1, h1'⟩ := ih1
    obtain ⟨F2, h2'⟩ := ih2
    refine ⟨F1 + F2 + 1, fun f hf a c d hI hc hd => ?_⟩
    obtain ⟨f, rfl⟩ : ∃ g, f = g + 1 := ⟨f - 1, by omega⟩
    obtain ⟨lo, hi, rfl, ul, uh⟩ := hc.branch_inv
    obtain ⟨lo', hi', rfl, ul', uh'⟩ := hd.branch_inv
    rw [bitorP, bitorBody]
    exact tail_ok (n := .Branch id1 l1 h1) (m := .Branch id2 l2 h2)
      (fun b c d hI hc hd => h1' f (by omega) b c d hI hc hd)
      (fun b c d hI hc hd => h2' f (by omega) b c d hI hc hd) hI hc hd

theorem bitand_ok (n m : Node I) : OpOk bitandP n m (Node.bitand n m) := by
  fun_induction Node.bitand n m with
  | case1 n =>
    refine ⟨1, fun f hf a c d hI hc hd => ?_⟩
    obtain ⟨f, rfl⟩ : ∃ g, f = g + 1 := ⟨f - 1, by omega⟩
    obtain rfl := hd.leaf_inv
    rw [bitandP, bitandBody]
    exact .ret hI hc
  | case2 m h =>
    refine ⟨1, fun f hf a c d hI hc hd => ?_⟩
    obtain ⟨f, rfl⟩ : ∃ g, f = g + 1 := ⟨f - 1, by omega⟩
    obtain rfl := hc.leaf_inv
    cases d with
    | leaf v => cases v <;> exact .ret hI hd
    | branch i l h => exact .ret hI hd
  | case3 v1 v2 h1 h2 =>
    refine ⟨1, fun f hf a c d hI hc hd => ?_⟩
    obtain ⟨f, rfl⟩ : ∃ g, f = g + 1 := ⟨f - 1, by omega⟩
    obtain rfl := hc.leaf_inv
    obtain rfl := hd.leaf_inv
    cases v1 <;> cases v2 <;> exact .ret hI rfl
  | case4 id l h v hv ih1 ih2 =>
    obtain ⟨F1, h1⟩ := ih1
    obtain ⟨F2, h2⟩ := ih2
    refine ⟨F1 + F2 + 1, fun f hf a c d hI hc hd => ?_⟩
    obtain ⟨f, rfl⟩ : ∃ g, f = g + 1 := ⟨f - 1, by omega⟩
    obtain ⟨lo, hi, rfl, ul, uh⟩ := hc.branch_inv
    obtain rfl := hd.leaf_inv
    cases v with
    | true => exact absurd rfl hv
    | false =>
      rw [bitandP]
      refine tail_ok (n := .Branch id l h) (m := .Leaf false) (fun b c d hI hc hd => ?_) (fun b c d hI hc hd => ?_) hI hc hd
      · rw [Node.splitBranch, if_pos rfl] at hc
        exact h1 f (by omega) b c d hI hc hd
      · rw [Node.splitBranch, if_pos rfl] at hc
        exact h2 f (by omega) b c d hI hc hd
  | case5 v id l h hv ih1 ih2 =>
    obtain ⟨F1, h1⟩ := ih1
    obtain ⟨F2, h2⟩ := ih2
    refine ⟨F1 + F2 + 1, fun f hf a c d hI hc hd => ?_⟩
    obtain ⟨f, rfl⟩ : ∃ g, f = g + 1 := ⟨f - 1, by omega⟩
    obtain ⟨lo, hi, rfl, ul, uh⟩ := hd.branch_inv
    obtain rfl := hc.leaf_inv
    cases v with
    | true => exact absurd rfl hv
    | false =>
      rw [bitandP]
      refine tail_ok (n := .Leaf false) (m := .Branch id l h) (fun b c d hI hc hd => ?_) (fun b c d hI hc hd => ?_) hI hc hd
      · rw [Node.splitBranch, if_pos rfl] at hd
        exact h1 f (by omega) b c d hI hc hd
      · rw [Node.splitBranch, if_pos rfl] at hd
        exact h2 f (by omega) b c d hI hc hd
  | case6 id1 l1 h1 id2 l2 h2 firstId s1 s2 ih1 ih2 =>
    obtain ⟨F1, h1'⟩ := ih1
    obtain ⟨F2, h2'⟩ := ih2
    refine ⟨F1 + F2 + 1, fun f hf a c d hI hc hd => ?_⟩
    obtain ⟨f, rfl⟩ : ∃ g, f = g + 1 := ⟨f - 1, by omega⟩
    obtain ⟨lo, hi, rfl, ul, uh⟩ := hc.branch_inv
    obtain ⟨lo', hi', rfl, ul', uh'⟩ := hd.branch_inv
    rw [bitandP, bitandBody]
    exact tail_ok (n := .Branch id1 l1 h1) (m := .Branch id2 l2 h2)
      (fun b c d hI hc hd => h1' f (by omega) b c d hI hc hd)
      (fun b c d hI hc hd => h2' f (by omega) b c d hI hc hd) hI hc hd

theorem bitnot_ok {a : Arena I Bool} (hI : a.Inv) {n : Node I} {c : C I} (hc : CellDen a c (tr n)) :
    Returns (bitnotP c) a (tr n.bitnot) := by
  cases n with
  | Leaf v =>
    obtain rfl := hc.leaf_inv
    cases v <;> exact .ret hI rfl
  | Branch i l h =>
    obtain ⟨lo, hi, rfl, ul, uh⟩ := hc.branch_inv
    exact branch_ok hI (.id uh) (.id ul)

theorem bitxor_ok (n m : Node I) : OpOk bitxorP n m (Node.bitxor n m) := by
  obtain ⟨F1, h1⟩ := bitand_ok n m.bitnot
  obtain ⟨F2, h2⟩ := bitand_ok n.bitnot m
  obtain ⟨F3, h3⟩ := bitor_ok (n.bitand m.bitnot) (n.bitnot.bitand m)
  refine ⟨F1 + F2 + F3, fun f hf a c d hI hc hd => ?_⟩
  refine returns_call (bitnot_ok hI hd) fun b1 r e1 q1 => ?_
  refine returns_call (h1 f (by omega) b1 c r e1.right (hc.mono e1) q1) fun b2 x e2 q2 => ?_
  refine returns_call (bitnot_ok e2.right (hc.mono (e1.trans e2))) fun b3 l e3 q3 => ?_
  refine returns_call (h2 f (by omega) b3 l d e3.right q3 (hd.mono ((e1.trans e2).trans e3))) fun b4 y e4 q4 => ?_
  exact h3 f (by omega) b4 x y e4.right (q2.mono (e3.trans e4)) q4

theorem reduce_ok (n : Node I) : Op1Ok reduceP n n.reduce := by
  induction n with
  | Leaf v =>
    refine ⟨1, fun f hf a c hI hc => ?_⟩
    obtain ⟨f, rfl⟩ : ∃ g, f = g + 1 := ⟨f - 1, by omega⟩
    obtain rfl := hc.leaf_inv
    cases v <;> exact .ret hI hc
  | Branch i l h ihl ihh =>
    obtain ⟨F1, h1⟩ := ihl
    obtain ⟨F2, h2⟩ := ihh
    refine ⟨F1 + F2 + 1, fun f hf a c hI hc => ?_⟩
    obtain ⟨f, rfl⟩ : ∃ g, f = g + 1 := ⟨f - 1, by omega⟩
    obtain ⟨lo, hi, rfl, ul, uh⟩ := hc.branch_inv
    refine returns_load ul fun b1 c1 e1 d1 => returns_load (uh.mono e1) fun b2 c2 e2 d2 => ?_
    refine returns_call (h1 f (by omega) b2 c1 e2.right (d1.mono e2)) fun b3 r1 e3 q1 => ?_
    refine returns_call (h2 f (by omega) b3 c2 e3.right (d2.mono e3)) fun b4 r2 e4 q2 => ?_
    exact mk_ok e4.right (q1.mono e4) q2

theorem restrict_ok (n : Node I) (item : I) (s : Bool) :
    Op1Ok (fun f c => restrictP f c item s) n (n.restrict item s) := by
  induction n with
  | Leaf v =>
    refine ⟨1, fun f hf a c hI hc => ?_⟩
    obtain ⟨f, rfl⟩ : ∃ g, f = g + 1 := ⟨f - 1, by omega⟩
    obtain rfl := hc.leaf_inv
    cases v <;> exact .ret hI hc
  | Branch i l h ihl ihh =>
    obtain ⟨F1, h1⟩ := ihl
    obtain ⟨F2, h2⟩ := ihh
    refine ⟨F1 + F2 + 1, fun f hf a c hI hc => ?_⟩
    obtain ⟨f, rfl⟩ : ∃ g, f = g + 1 := ⟨f - 1, by omega⟩
    obtain ⟨lo, hi, rfl, ul, uh⟩ := hc.branch_inv
    refine returns_load ul fun b1 c1 e1 d1 => returns_load (uh.mono e1) fun b2 c2 e2 d2 => ?_
    rw [Node.restrict]
    split_ifs
    · exact .ret e2.right (d1.mono e2)
    · exact .ret e2.right d2
    · refine returns_call (h1 f (by omega) b2 c1 e2.right (d1.mono e2)) fun b3 r1 e3 q1 => ?_
      refine returns_call (h2 f (by omega) b3 c2 e3.right (d2.mono e3)) fun b4 r2 e4 q2 => ?_
      exact mk_ok e4.right (q1.mono e4) q2

/-! ## Summaries -/

/-- The branch of bowtie-core/src/bdd/node/summarize.rs:19-22 choosing the status. -/
def statusP (item : I) (high : C I) : Status I :=
  match high with
  | .leaf false => .Excluded item
  | _ => .Available item

/-- The loop of bowtie-core/src/bdd/node/summarize.rs:12-31 (see `Bdd.summarizeLoop`); the first argument bounds
the number of iterations. -/
def summarizeLoopP : Nat → List (C I) → List (I × List (Status I)) → Prog I Bool (List (I × List (Status I)))
  | 0, _, _ => .spin
  | _ + 1, [], nodes => .ret nodes
  | f + 1, .leaf _ :: q, nodes => summarizeLoopP f q nodes
  | f + 1, .branch item low high :: q, nodes =>
    .load low fun low => .load high fun high =>
    summarizeLoopP f (high :: low :: q)
      (pushTo item (statusP item high) nodes)

/-- bowtie-core/src/bdd/node/summarize.rs:10-37 -/
def summarizeP (f : Nat) (node : C I) : Prog I Bool (List (Status I)) :=
  (summarizeLoopP f [node] []).bind fun nodes => .ret (sorted (nodes.filterMap (fun e => peek e.2)))

/-- Not code: used to state or prove properties. -/
def ListDen (a : Arena I Bool) (q : List (C I)) (p : List (Node I)) : Prop :=
  List.Forall₂ (fun c n => CellDen a c (tr n)) q p

theorem ListDen.mono {a b : Arena I Bool} (e : Ext a b) {q : List (C I)} {p} (h : ListDen a q p) : ListDen b q p :=
  List.Forall₂.imp (fun _ _ hx => CellDen.mono e hx) h

theorem summarizeLoop_ok (p : List (Node I)) (nodes : List (I × List (Status I))) :
    ∃ F, ∀ f ≥ F, ∀ (a : Arena I Bool) q, a.Inv → ListDen a q p →
      Yields (summarizeLoopP f q nodes) a (fun _ r => r = summarizeLoop p nodes) := by
  fun_induction summarizeLoop p nodes with
  | case1 nodes =>
    refine ⟨1, fun f hf a q hI hq => ?_⟩
    obtain ⟨f, rfl⟩ : ∃ g, f = g + 1 := ⟨f - 1, by omega⟩
    cases hq
    exact Yields.ret hI rfl
  | case2 nodes v q ih =>
    obtain ⟨F, hF⟩ := ih
    refine ⟨F + 1, fun f hf a q' hI hq => ?_⟩
    obtain ⟨f, rfl⟩ : ∃ g, f = g + 1 := ⟨f - 1, by omega⟩
    cases hq with
    | cons hx hxs =>
      obtain rfl := hx.leaf_inv
      exact hF f (by omega) a _ hI hxs
  | case3 nodes item low high q ih =>
    obtain ⟨F, hF⟩ := ih
    refine ⟨F + 1, fun f hf a q' hI hq => ?_⟩
    obtain ⟨f, rfl⟩ : ∃ g, f = g + 1 := ⟨f - 1, by omega⟩
    cases hq with
    | cons hx hxs =>
      obtain ⟨lo, hi, rfl, ul, uh⟩ := hx.branch_inv
      refine yields_load ul fun b1 c1 e1 d1 => yields_load (uh.mono e1) fun b2 c2 e2 d2 => ?_
      have hb : statusP item c2 = branchStatus item high := by
        cases high with
        | Leaf v => obtain rfl := d2.leaf_inv; cases v <;> rfl
        | Branch i l h => obtain ⟨_, _, rfl, _, _⟩ := d2.branch_inv; rfl
      rw [hb]
      exact hF f (by omega) b2 _ e2.right (.cons d2 (.cons (d1.mono e2) (ListDen.mono (e1.trans e2) hxs)))

theorem summarize_ok (n : Node I) :
    ∃ F, ∀ f ≥ F, ∀ (a : Arena I Bool) (c : C I), a.Inv → CellDen a c (tr n) →
      Yields (summarizeP f c) a (fun _ r => r = summarize n) := by
  obtain ⟨F, h⟩ := summarizeLoop_ok [n] []
  refine ⟨F, fun f hf a c hI hc => ?_⟩
  refine yields_bind (h f hf a _ hI (.cons hc .nil)) fun b r e hr => Yields.ret e.right ?_
  rw [hr]; rfl

/-! ## Closets -/

variable {F : Type v} [LinearOrder F]

/-- bowtie-core/src/bdd/closet/mod.rs:12-17 with the root as a `Node` value. -/
structure ClosetC (I : Type u) (F : Type v) where
  itemIndex : List (I × F)
  summary : List (Status I)
  root : C I

/-- bowtie-core/src/bdd/closet/mod.rs:20-29 -/
def newP (f : Nat) (itemIndex : List (I × F)) (root : C I) : Prog I Bool (ClosetC I F) :=
  (summarizeP f root).bind fun summary => .ret ⟨itemIndex, summary, root⟩

/-- bowtie-core/src/bdd/closet_builder/mod.rs:94-108 -/
def siblingP (f : Nat) (items : List I) : P I :=
  (foldP (fun (m : List (I × C I)) item => (negativeBranchP item).bind fun n => .ret (insertKV item n m))
    items []).bind fun allNodes =>
  foldP (fun other item =>
    (positiveBranchP item).bind fun n =>
    (foldP (fun newRoot (e : I × C I) => bitandP f newRoot e.2) (insertKV item n allNodes) (.leaf true)).bind fun it =>
    bitorP f other it) items (.leaf false)

/-- bowtie-core/src/bdd/closet_builder/mod.rs:110-112 -/
def exclusionP (f : Nat) (selection exclusion : I) : P I :=
  (negativeBranchP selection).bind fun a => (negativeBranchP exclusion).bind fun b => bitorP f a b

/-- bowtie-core/src/bdd/closet_builder/mod.rs:114-116 -/
def inclusionP (f : Nat) (selection inclusion : I) : P I :=
  (negativeBranchP selection).bind fun a => (positiveBranchP inclusion).bind fun b => bitorP f a b

/-- The root computed by bowtie-core/src/bdd/closet_builder/mod.rs:76-88. -/
def buildRootP (f : Nat) (b : ClosetBuilder I F) : P I :=
  (foldP (fun other (e : F × List I) => (siblingP f e.2).bind fun n => bitandP f other n) b.contents (.leaf true)).bind
    fun root =>
  (foldP (fun root (p : I × I) => (exclusionP f p.1 p.2).bind fun n => bitandP f root n)
    (ClosetBuilder.rulePairs b.exclusions) root).bind fun root =>
  foldP (fun root (p : I × I) => (inclusionP f p.1 p.2).bind fun n => bitandP f root n)
    (ClosetBuilder.rulePairs b.inclusions) root

/-- bowtie-core/src/bdd/closet_builder/mod.rs:73-92 -/
def buildP (f : Nat) (b : ClosetBuilder I F) : Prog I Bool (Except (BuilderError I F) (ClosetC I F)) :=
  match validateCloset b.contents b.itemIndex b.exclusions b.inclusions with
  | .error e => .ret (.error e)
  | .ok () => (buildRootP f b).bind fun root => (newP f b.itemIndex root).bind fun c => .ret (.ok c)

/-- bowtie-core/src/bdd/closet/select.rs:10-41 -/
def selectItemP (f : Nat) (c : ClosetC I F) (item : I) : Prog I Bool (Except (SelectItemError I) (ClosetC I F)) :=
  match lookup item c.itemIndex with
  | none => .ret (.error (.UnknownItem item))
  | some _ =>
    match (c.summary.filter (fun s => s.isExcluded)).find? (fun s => s.is item) with
    | some _ => .ret (.error (.ExcludedItem item))
    | none =>
      (restrictP f c.root item true).bind fun root => (summarizeP f root).bind fun summary =>
      .ret (.ok ⟨c.itemIndex, sorted (uniq ((c.summary.filter (fun s => s.isSelected)) ++
        [Status.Selected item] ++ summary)), root⟩)

/-- A history of `select_item` calls (bowtie-core/src/bdd/closet/select.rs:10-30), stopping at the first error. -/
def selectAllP (f : Nat) (c : ClosetC I F) : List I → Prog I Bool (Except (SelectItemError I) (ClosetC I F))
  | [] => .ret (.ok c)
  | x :: xs => (selectItemP f c x).bind fun
    | .error e => .ret (.error e)
    | .ok c' => selectAllP f c' xs

/-- The fold of bowtie-core/src/bdd/closet/complete_outfit.rs:16-19 and 93-94. -/
def restrictAllP (f : Nat) (root : C I) (selections : List I) : P I :=
  foldP (fun r s => restrictP f r s true) selections root

/-- The loop of bowtie-core/src/bdd/closet/complete_outfit.rs:22-41; the first argument bounds the iterations. -/
def walkP : Nat → C I → List I → Prog I Bool (List I)
  | 0, _, _ => .spin
  | _ + 1, .leaf _, outfit => .ret (sorted outfit)
  | f + 1, .branch id low high, outfit =>
    .load high fun high => .load low fun low =>
    if high = .leaf false then walkP f low outfit else walkP f high (outfit ++ [id])

/-- bowtie-core/src/bdd/closet/complete_outfit.rs:13-104; `family.unwrap()` is the `panic`. -/
def completeP (f : Nat) (c : ClosetC I F) (selections : List I) :
    Prog I Bool (Except (OutfitError I F) (List I)) :=
  match Closet.findUnknownItems ⟨c.itemIndex, c.summary, .Leaf true⟩ selections with
  | some items => .ret (.error (.UnknownItems items))
  | none =>
    match Closet.findDuplicateItems ⟨c.itemIndex, c.summary, .Leaf true⟩ selections with
    | none => .panic
    | some (some items) => .ret (.error (.MultipleItemsPerFamily items))
    | some none =>
      (restrictAllP f c.root selections).bind fun
        | .leaf false => .ret (.error (.IncompatibleSelections (sorted selections)))
        | _ => (restrictAllP f c.root selections).bind fun root => walkP f root selections |>.bind fun o => .ret (.ok o)

/-- Not code: used to state or prove properties. -/
def ClosetDen (g : Closet I F) (a : Arena I Bool) (c : ClosetC I F) : Prop :=
  c.itemIndex = g.itemIndex ∧ c.summary = g.summary ∧ CellDen a c.root (tr g.root)

theorem ClosetDen.mono {g : Closet I F} {a b : Arena I Bool} {c : ClosetC I F} (h : ClosetDen g a c)
    (e : Ext a b) : ClosetDen g b c := ⟨h.1, h.2.1, h.2.2.mono e⟩

/-- Not code: used to state or prove properties. -/
def MapDen (a : Arena I Bool) (q : List (I × C I)) (p : List (I × Node I)) : Prop :=
  List.Forall₂ (fun c n => c.1 = n.1 ∧ CellDen a c.2 (tr n.2)) q p

theorem MapDen.mono {a b : Arena I Bool} (e : Ext a b) {q : List (I × C I)} {p} (h : MapDen a q p) : MapDen b q p :=
  List.Forall₂.imp (fun _ _ hx => ⟨hx.1, CellDen.mono e hx.2⟩) h

theorem MapDen.insert {a : Arena I Bool} {q : List (I × C I)} {p} (h : MapDen a q p) (k : I) {c : C I} {n : Node I}
    (hc : CellDen a c (tr n)) : MapDen a (insertKV k c q) (insertKV k n p) := by
  unfold insertKV
  induction h with
  | nil => exact .cons ⟨rfl, hc⟩ .nil
  | @cons x y q p hx hxs ih =>
    obtain ⟨k1, c1⟩ := x
    obtain ⟨k2, n2⟩ := y
    obtain ⟨rfl, hd⟩ := hx
    simp only at hd
    unfold upsert
    split_ifs
    · exact .cons ⟨rfl, hc⟩ (.cons ⟨rfl, hd⟩ hxs)
    · exact .cons ⟨rfl, hc⟩ hxs
    · exact .cons ⟨rfl, hd⟩ ih

/-- Conjoining the values of a map. -/
theorem conj_ok (p : List (I × Node I)) (d : Node I) :
    ∃ F, ∀ f ≥ F, ∀ (a : Arena I Bool) (q : List (I × C I)) acc, a.Inv → MapDen a q p → CellDen a acc (tr d) →
      Returns (foldP (fun newRoot (e : I × C I) => bitandP f newRoot e.2) q acc) a
        (tr (p.foldl (fun newRoot e => Node.bitand newRoot e.2) d)) := by
  induction p generalizing d with
  | nil =>
    refine ⟨0, fun f _ a q acc hI hq hc => ?_⟩
    cases hq
    exact .ret hI hc
  | cons y p ih =>
    obtain ⟨F1, h1⟩ := bitand_ok d y.2
    obtain ⟨F2, h2⟩ := ih (d.bitand y.2)
    refine ⟨F1 + F2, fun f hf a q acc hI hq hc => ?_⟩
    cases hq with
    | cons hx hxs =>
      refine returns_call (h1 f (by omega) a acc _ hI hc hx.2) fun b c e q => ?_
      exact h2 f (by omega) b _ c e.right (MapDen.mono e hxs) q

theorem sibling_ok (items : List I) :
    ∃ F, ∀ f ≥ F, ∀ a : Arena I Bool, a.Inv → Returns (siblingP f items) a
      (tr (ClosetBuilder.siblingRelationship items)) := by
  obtain ⟨F1, h1⟩ := fold_ok
    (fun _ (_ : Unit) (m : List (I × C I)) item => (negativeBranchP item).bind fun n => .ret (insertKV item n m))
    (fun (m : List (I × Node I)) item => insertKV item (Node.negativeBranch item) m)
    (fun _ _ => True) MapDen (fun _ _ _ _ h => h) (by
      intro d e
      exact ⟨0, fun f _ a _ acc hI _ hm => yields_bind (negative_ok hI e) fun b n x q =>
        Yields.ret x.right ((MapDen.mono x hm).insert e q)⟩) items []
  obtain ⟨F2, h2⟩ := fold_ok
    (fun f (allNodes : List (I × C I)) (other : C I) item =>
      (positiveBranchP item).bind fun n =>
      (foldP (fun newRoot (e : I × C I) => bitandP f newRoot e.2) (insertKV item n allNodes) (.leaf true)).bind fun it =>
      bitorP f other it)
    (fun other item => Node.bitor other ((insertKV item (Node.positiveBranch item)
      (items.foldl (fun m item => insertKV item (Node.negativeBranch item) m) [])).foldl
        (fun newRoot e => Node.bitand newRoot e.2) Node.TRUE_LEAF))
    (fun a m => MapDen a m (items.foldl (fun m item => insertKV item (Node.negativeBranch item) m) []))
    (fun a c n => CellDen a c (tr n)) (fun _ _ _ e h => MapDen.mono e h) (by
      intro d item
      obtain ⟨G1, g1⟩ := conj_ok (insertKV item (Node.positiveBranch item)
        (items.foldl (fun m item => insertKV item (Node.negativeBranch item) m) [])) Node.TRUE_LEAF
      obtain ⟨G2, g2⟩ := bitor_ok d ((insertKV item (Node.positiveBranch item)
        (items.foldl (fun m item => insertKV item (Node.negativeBranch item) m) [])).foldl
        (fun newRoot e => Node.bitand newRoot e.2) Node.TRUE_LEAF)
      refine ⟨G1 + G2, fun f hf a env acc hI hm hc => ?_⟩
      refine yields_bind (positive_ok hI item) fun b1 n e1 q1 => ?_
      refine yields_bind (g1 f (by omega) b1 _ _ e1.right ((MapDen.mono e1 hm).insert item q1) rfl) fun b2 it e2 q2 => ?_
      exact g2 f (by omega) b2 acc it e2.right (hc.mono (e1.trans e2)) q2) items Node.FALSE_LEAF
  refine ⟨F1 + F2, fun f hf a hI => ?_⟩
  refine yields_bind (h1 f (by omega) a () [] hI trivial .nil) fun b m e hm => ?_
  have := h2 f (by omega) b m (.leaf false) e.right hm rfl
  rw [ClosetBuilder.siblingRelationship]
  rw [List.foldl_map]
  exact this

theorem exclusion_ok (s e : I) :
    ∃ F, ∀ f ≥ F, ∀ a : Arena I Bool, a.Inv → Returns (exclusionP f s e) a
      (tr (ClosetBuilder.exclusionRelationship s e)) := by
  obtain ⟨F, h⟩ := bitor_ok (Node.negativeBranch s) (Node.negativeBranch e)
  refine ⟨F, fun f hf a hI => ?_⟩
  refine returns_call (negative_ok hI s) fun b1 c1 e1 q1 => ?_
  refine returns_call (negative_ok e1.right e) fun b2 c2 e2 q2 => ?_
  exact h f hf b2 c1 c2 e2.right (q1.mono e2) q2

theorem inclusion_ok (s e : I) :
    ∃ F, ∀ f ≥ F, ∀ a : Arena I Bool, a.Inv → Returns (inclusionP f s e) a
      (tr (ClosetBuilder.inclusionRelationship s e)) := by
  obtain ⟨F, h⟩ := bitor_ok (Node.negativeBranch s) (Node.positiveBranch e)
  refine ⟨F, fun f hf a hI => ?_⟩
  refine returns_call (negative_ok hI s) fun b1 c1 e1 q1 => ?_
  refine returns_call (positive_ok e1.right e) fun b2 c2 e2 q2 => ?_
  exact h f hf b2 c1 c2 e2.right (q1.mono e2) q2

/-- Conjoining nodes computed one after the other. -/
theorem andAll_ok {β : Type w} (make : Nat → β → P I) (node : β → Node I)
    (hm : ∀ e, ∃ F, ∀ f ≥ F, ∀ a : Arena I Bool, a.Inv → Returns (make f e) a (tr (node e))) (es : List β)
    (d : Node I) :
    Op1Ok (fun f c => foldP (fun root e => (make f e).bind fun n => bitandP f root n) es c) d
      ((es.map node).foldl (fun root e => Node.bitand root e) d) := by
  obtain ⟨F, h⟩ := fold_ok (fun f (_ : Unit) root e => (make f e).bind fun n => bitandP f root n)
    (fun d e => Node.bitand d (node e)) (fun _ _ => True) (fun a c n => CellDen a c (tr n))
    (fun _ _ _ _ h => h) (by
      intro d e
      obtain ⟨F1, h1⟩ := hm e
      obtain ⟨F2, h2⟩ := bitand_ok d (node e)
      refine ⟨F1 + F2, fun f hf a _ acc hI _ hc => ?_⟩
      refine yields_bind (h1 f (by omega) a hI) fun b n x q => ?_
      exact h2 f (by omega) b acc n x.right (hc.mono x) q) es d
  refine ⟨F, fun f hf a c hI hc => ?_⟩
  rw [List.foldl_map]
  exact h f hf a () c hI trivial hc

theorem buildRoot_ok (b : ClosetBuilder I F) :
    ∃ K, ∀ f ≥ K, ∀ a : Arena I Bool, a.Inv → Returns (buildRootP f b) a (tr b.buildRoot) := by
  obtain ⟨F1, h1⟩ := andAll_ok (fun f (e : F × List I) => siblingP f e.2)
    (fun e => ClosetBuilder.siblingRelationship e.2) (fun e => sibling_ok e.2) b.contents Node.TRUE_LEAF
  obtain ⟨F2, h2⟩ := andAll_ok (fun f (p : I × I) => exclusionP f p.1 p.2)
    (fun p => ClosetBuilder.exclusionRelationship p.1 p.2) (fun p => exclusion_ok p.1 p.2)
    (ClosetBuilder.rulePairs b.exclusions) ((b.contents.map (fun e => ClosetBuilder.siblingRelationship e.2)).foldl
      (fun root e => Node.bitand root e) Node.TRUE_LEAF)
  obtain ⟨F3, h3⟩ := andAll_ok (fun f (p : I × I) => inclusionP f p.1 p.2)
    (fun p => ClosetBuilder.inclusionRelationship p.1 p.2) (fun p => inclusion_ok p.1 p.2)
    (ClosetBuilder.rulePairs b.inclusions)
    (((ClosetBuilder.rulePairs b.exclusions).map (fun p => ClosetBuilder.exclusionRelationship p.1 p.2)).foldl
      (fun root e => Node.bitand root e) ((b.contents.map (fun e => ClosetBuilder.siblingRelationship e.2)).foldl
      (fun root e => Node.bitand root e) Node.TRUE_LEAF))
  refine ⟨F1 + F2 + F3, fun f hf a hI => ?_⟩
  refine returns_call (h1 f (by omega) a (.leaf true) hI rfl) fun b1 c1 e1 q1 => ?_
  refine returns_call (h2 f (by omega) b1 c1 e1.right q1) fun b2 c2 e2 q2 => ?_
  exact h3 f (by omega) b2 c2 e2.right q2

/-- How a result with an error case stands for one of the model.  Not code: used to state or prove properties. -/
def ResDen {E : Type w} (g : Except E (Closet I F)) (a : Arena I Bool) (r : Except E (ClosetC I F)) : Prop :=
  match g, r with
  | .error e, .error e' => e = e'
  | .ok g, .ok c => ClosetDen g a c
  | _, _ => False

theorem ResDen.mono {E : Type w} {g : Except E (Closet I F)} {a b : Arena I Bool} {r : Except E (ClosetC I F)}
    (h : ResDen g a r) (x : Ext a b) : ResDen g b r := by
  cases g <;> cases r
  · exact h
  · exact h
  · exact h
  · exact ClosetDen.mono h x

theorem build_ok (b : ClosetBuilder I F) :
    ∃ K, ∀ f ≥ K, ∀ a : Arena I Bool, a.Inv → Yields (buildP f b) a (ResDen b.build) := by
  obtain ⟨F1, h1⟩ := buildRoot_ok b
  obtain ⟨F2, h2⟩ := summarize_ok b.buildRoot
  refine ⟨F1 + F2, fun f hf a hI => ?_⟩
  rw [buildP, ClosetBuilder.build]
  cases validateCloset b.contents b.itemIndex b.exclusions b.inclusions with
  | error e => exact Yields.ret hI rfl
  | ok _ =>
    refine yields_bind (h1 f (by omega) a hI) fun b1 c1 e1 q1 => ?_
    have hn : Yields (newP f b.itemIndex c1) b1 (ClosetDen (Closet.new b.itemIndex b.buildRoot)) :=
      yields_bind (h2 f (by omega) b1 c1 e1.right q1) fun b2 s e2 hs =>
        Yields.ret e2.right ⟨rfl, hs, CellDen.mono e2 q1⟩
    exact yields_bind hn fun b2 c e2 hc => Yields.ret e2.right hc

theorem selectItem_ok (g : Closet I F) (item : I) :
    ∃ K, ∀ f ≥ K, ∀ (a : Arena I Bool) c, a.Inv → ClosetDen g a c →
      Yields (selectItemP f c item) a (ResDen (g.selectItem item)) := by
  obtain ⟨F1, h1⟩ := restrict_ok g.root item true
  obtain ⟨F2, h2⟩ := summarize_ok (g.root.restrict item true)
  refine ⟨F1 + F2, fun f hf a c hI hc => ?_⟩
  obtain ⟨e1, e2, hr⟩ := hc
  rw [selectItemP, Closet.selectItem, Closet.getFamily, e1, e2]
  cases lookup item g.itemIndex with
  | none => exact Yields.ret hI rfl
  | some _ =>
    dsimp only
    cases (g.summary.filter (fun s => s.isExcluded)).find? (fun s => s.is item) with
    | some _ => exact Yields.ret hI rfl
    | none =>
      refine yields_bind (h1 f (by omega) a c.root hI hr) fun b1 r x1 q1 => ?_
      refine yields_bind (h2 f (by omega) b1 r x1.right q1) fun b2 s x2 hs => ?_
      exact Yields.ret x2.right ⟨rfl, by rw [hs], CellDen.mono x2 q1⟩

theorem selectAll_ok (g : Closet I F) (xs : List I) :
    ∃ K, ∀ f ≥ K, ∀ (a : Arena I Bool) c, a.Inv → ClosetDen g a c →
      Yields (selectAllP f c xs) a (ResDen (g.selectAll xs)) := by
  induction xs generalizing g with
  | nil => exact ⟨0, fun f _ a c hI hc => Yields.ret hI hc⟩
  | cons x xs ih =>
    obtain ⟨F1, h1⟩ := selectItem_ok g x
    cases hs : g.selectItem x with
    | error e =>
      refine ⟨F1, fun f hf a c hI hc => ?_⟩
      rw [selectAllP, Closet.selectAll, hs]
      refine yields_bind (h1 f hf a c hI hc) fun b r x1 q => ?_
      rw [hs] at q
      cases r with
      | error e' => cases q; exact Yields.ret x1.right rfl
      | ok c' => exact q.elim
    | ok g' =>
      obtain ⟨F2, h2⟩ := ih g'
      refine ⟨F1 + F2, fun f hf a c hI hc => ?_⟩
      rw [selectAllP, Closet.selectAll, hs]
      refine yields_bind (h1 f (by omega) a c hI hc) fun b r x1 q => ?_
      rw [hs] at q
      cases r with
      | error e' => exact q.elim
      | ok c' => exact h2 f (by omega) b c' x1.right q

theorem restrictAll_ok (n : Node I) (xs : List I) :
    Op1Ok (fun f c => restrictAllP f c xs) n (Closet.restrictAll n xs) := by
  obtain ⟨F, h⟩ := fold_ok (fun f (_ : Unit) (r : C I) (s : I) => restrictP f r s true)
    (fun (r : Node I) s => r.restrict s true) (fun _ _ => True) (fun a c n => CellDen a c (tr n))
    (fun _ _ _ _ h => h) (by
      intro d e
      obtain ⟨F, h⟩ := restrict_ok d e true
      exact ⟨F, fun f hf a _ acc hI _ hc => h f hf a acc hI hc⟩) xs n
  exact ⟨F, fun f hf a c hI hc => h f hf a () c hI trivial hc⟩

theorem walk_ok (n : Node I) (o : List I) :
    ∃ K, ∀ f ≥ K, ∀ (a : Arena I Bool) (c : C I), a.Inv → CellDen a c (tr n) →
      Yields (walkP f c o) a (fun _ r => r = Closet.walk n o) := by
  induction n generalizing o with
  | Leaf v =>
    refine ⟨1, fun f hf a c hI hc => ?_⟩
    obtain ⟨f, rfl⟩ : ∃ g, f = g + 1 := ⟨f - 1, by omega⟩
    obtain rfl := hc.leaf_inv
    exact Yields.ret hI rfl
  | Branch i l h ihl ihh =>
    obtain ⟨F1, h1⟩ := ihl o
    obtain ⟨F2, h2⟩ := ihh (o ++ [i])
    refine ⟨F1 + F2 + 1, fun f hf a c hI hc => ?_⟩
    obtain ⟨f, rfl⟩ : ∃ g, f = g + 1 := ⟨f - 1, by omega⟩
    obtain ⟨lo, hi, rfl, ul, uh⟩ := hc.branch_inv
    refine yields_load uh fun b1 ch e1 dh => yields_load (ul.mono e1) fun b2 cl e2 dl => ?_
    have hiff : ch = .leaf false ↔ h = .Leaf false := by
      rw [cell_eq_iff e2.right (dh.mono e2) (show CellDen b2 (.leaf false) (tr (.Leaf false : Node I)) from rfl), tr_inj]
    rw [Closet.walk]
    by_cases e : h = .Leaf false
    · rw [if_pos e, if_pos (hiff.2 e)]
      exact h1 f (by omega) b2 cl e2.right dl
    · rw [if_neg e, if_neg (fun x => e (hiff.1 x))]
      exact h2 f (by omega) b2 ch e2.right (dh.mono e2)

theorem complete_ok (g : Closet I F) (sel : List I) (r : Except (OutfitError I F) (List I))
    (hr : g.completeOutfit sel = some r) :
    ∃ K, ∀ f ≥ K, ∀ (a : Arena I Bool) c, a.Inv → ClosetDen g a c →
      Yields (completeP f c sel) a (fun _ r' => r' = r) := by
  obtain ⟨F1, h1⟩ := restrictAll_ok g.root sel
  obtain ⟨F2, h2⟩ := walk_ok (Closet.restrictAll g.root sel) sel
  refine ⟨F1 + F2, fun f hf a c hI hc => ?_⟩
  obtain ⟨e1, e2, hroot⟩ := hc
  have u1 : Closet.findUnknownItems ⟨c.itemIndex, c.summary, .Leaf true⟩ sel = g.findUnknownItems sel := by
    obtain ⟨ci, cs, cr⟩ := c
    simp only at e1; subst e1; rfl
  have u2 : Closet.findDuplicateItems ⟨c.itemIndex, c.summary, .Leaf true⟩ sel = g.findDuplicateItems sel := by
    obtain ⟨ci, cs, cr⟩ := c
    simp only at e1; subst e1; rfl
  rw [completeP, u1, u2]
  rw [Closet.completeOutfit] at hr
  cases hu : g.findUnknownItems sel with
  | some items => rw [hu] at hr; cases hr; exact Yields.ret hI rfl
  | none =>
    rw [hu] at hr
    dsimp only at hr ⊢
    cases hd : g.findDuplicateItems sel with
    | none => rw [hd] at hr; cases hr
    | some o =>
      rw [hd] at hr
      cases o with
      | some items => cases hr; exact Yields.ret hI rfl
      | none =>
        dsimp only at hr ⊢
        refine yields_bind (h1 f (by omega) a c.root hI hroot) fun b1 rc x1 q1 => ?_
        have rest : ∀ r0, Except.ok (Closet.walk (Closet.restrictAll g.root sel) sel) = r0 →
            Yields ((restrictAllP f c.root sel).bind fun root => walkP f root sel |>.bind fun o => .ret (.ok o)) b1
              (fun _ (r' : Except (OutfitError I F) (List I)) => r' = r0) := by
          intro r0 h0
          refine yields_bind (h1 f (by omega) b1 c.root x1.right (CellDen.mono x1 hroot)) fun b2 rc2 x2 q2 => ?_
          refine yields_bind (h2 f (by omega) b2 rc2 x2.right q2) fun b3 o x3 ho => ?_
          exact Yields.ret x3.right (by rw [ho]; exact h0)
        rw [Closet.findConflictingItems] at hr
        cases hn : Closet.restrictAll g.root sel with
        | Leaf v =>
          rw [hn] at q1
          obtain rfl := q1.leaf_inv
          cases v with
          | false =>
            rw [hn] at hr
            cases hr; exact Yields.ret x1.right rfl
          | true =>
            rw [hn] at hr
            dsimp only at hr
            refine rest r ?_
            rw [hn]
            exact Option.some.inj hr
        | Branch i l h =>
          rw [hn] at q1
          obtain ⟨lo, hi, rfl, _, _⟩ := q1.branch_inv
          rw [hn] at hr
          dsimp only at hr
          refine rest r ?_
          rw [hn]
          exact Option.some.inj hr

/-! ## The theorems -/

/-- One client of the library: the calls made on a `ClosetBuilder`, the items selected one by one on the built
closet, the selections handed to `complete_outfit`.  Not code: used to state or prove properties. -/
structure Session (I : Type u) (F : Type v) where
  calls : List (Call I F)
  picks : List I
  wanted : List I

/-- What `build`, `select_item` and `complete_outfit` say; `C` is the type of closets.
Not code: used to state or prove properties. -/
inductive Answer (C : Type w) (I : Type u) (F : Type v) where
  | buildFailed (e : BuilderError I F)
  | selectFailed (e : SelectItemError I)
  | answered (closet : C) (outfit : Except (OutfitError I F) (List I))

/-- The session in a process of its own, over the sequential model; `none` is a panic.
Not code: used to state or prove properties. -/
def Session.alone (s : Session I F) : Option (Answer (Closet I F) I F) :=
  match (ClosetBuilder.run s.calls).build with
  | .error e => some (.buildFailed e)
  | .ok c =>
    match c.selectAll s.picks with
    | .error e => some (.selectFailed e)
    | .ok c => (c.completeOutfit s.wanted).map (.answered c)

/-- The session as a thread over the shared arena: bowtie-core/src/bdd/closet_builder/mod.rs:73-92,
bowtie-core/src/bdd/closet/select.rs:10-41, bowtie-core/src/bdd/closet/complete_outfit.rs:13-104 in sequence. -/
def threadP (f : Nat) (s : Session I F) : Prog I Bool (Answer (ClosetC I F) I F) :=
  (buildP f (ClosetBuilder.run s.calls)).bind fun
    | .error e => .ret (.buildFailed e)
    | .ok c => (selectAllP f c s.picks).bind fun
      | .error e => .ret (.selectFailed e)
      | .ok c => (completeP f c s.wanted).bind fun o => .ret (.answered c o)

/-- The thread's answer is the sequential one.  Not code: used to state or prove properties. -/
def AnswerDen (g : Answer (Closet I F) I F) (a : Arena I Bool) (r : Answer (ClosetC I F) I F) : Prop :=
  match g, r with
  | .buildFailed e, .buildFailed e' => e = e'
  | .selectFailed e, .selectFailed e' => e = e'
  | .answered g o, .answered c o' => ClosetDen g a c ∧ o = o'
  | _, _ => False

theorem AnswerDen.mono {g : Answer (Closet I F) I F} {a b : Arena I Bool} {r : Answer (ClosetC I F) I F}
    (h : AnswerDen g a r) (x : Ext a b) : AnswerDen g b r := by
  cases g <;> cases r <;> first | exact h | exact ⟨ClosetDen.mono h.1 x, h.2⟩

/-- No session panics in the sequential model. -/
theorem alone_total (s : Session I F) : ∃ g, s.alone = some g := by
  rw [Session.alone]
  cases hb : (ClosetBuilder.run s.calls).build with
  | error e => exact ⟨_, rfl⟩
  | ok c₀ =>
    dsimp only
    cases hs : c₀.selectAll s.picks with
    | error e => exact ⟨_, rfl⟩
    | ok c =>
      rcases complete_general s.calls s.picks c ⟨c₀, hb, hs⟩ s.wanted with
        ⟨_, u, h, _⟩ | ⟨_, _, u, h, _⟩ | ⟨_, _, _, u, h, _⟩ | ⟨_, _, _, u, h, _⟩ <;>
        exact ⟨_, by dsimp only; rw [h]; rfl⟩

theorem thread_ok (s : Session I F) (g : Answer (Closet I F) I F) (h : s.alone = some g) :
    ∃ K, ∀ f ≥ K, ∀ a : Arena I Bool, a.Inv → Yields (threadP f s) a (AnswerDen g) := by
  obtain ⟨F1, h1⟩ := build_ok (ClosetBuilder.run s.calls)
  rw [Session.alone] at h
  cases hb : (ClosetBuilder.run s.calls).build with
  | error e =>
    rw [hb] at h h1
    cases h
    refine ⟨F1, fun f hf a hI => yields_bind (h1 f hf a hI) fun b r e d => ?_⟩
    cases r with
    | error e' => exact Yields.ret e.right d
    | ok c => exact d.elim
  | ok c₀ =>
    rw [hb] at h h1
    dsimp only at h
    obtain ⟨F2, h2⟩ := selectAll_ok c₀ s.picks
    cases hs : c₀.selectAll s.picks with
    | error e =>
      rw [hs] at h h2
      cases h
      refine ⟨F1 + F2, fun f hf a hI => yields_bind (h1 f (by omega) a hI) fun b r e d => ?_⟩
      cases r with
      | error e' => exact d.elim
      | ok c =>
        refine yields_bind (h2 f (by omega) b c e.right d) fun b2 r e2 d2 => ?_
        cases r with
        | error e' => exact Yields.ret e2.right d2
        | ok c => exact d2.elim
    | ok c =>
      rw [hs] at h h2
      simp only [Option.map_eq_some_iff] at h
      obtain ⟨o, ho, rfl⟩ := h
      obtain ⟨F3, h3⟩ := complete_ok c s.wanted o ho
      refine ⟨F1 + F2 + F3, fun f hf a hI => yields_bind (h1 f (by omega) a hI) fun b r e d => ?_⟩
      cases r with
      | error e' => exact d.elim
      | ok cc =>
        refine yields_bind (h2 f (by omega) b cc e.right d) fun b2 r e2 d2 => ?_
        cases r with
        | error e' => exact d2.elim
        | ok cc =>
          refine yields_bind (h3 f (by omega) b2 cc e2.right d2) fun b3 o' e3 d3 => ?_
          exact Yields.ret e3.right ⟨ClosetDen.mono d2 e3, d3.symm⟩

/-- The machine at process start: the fresh arena (bowtie-core/src/bdd/node/arena.rs:7-14) and one thread per
session.  Not code: used to state or prove properties. -/
def boot (f : Nat → Nat) (ss : Nat → Session I F) :
    Machine I Bool (fun _ => Answer (ClosetC I F) I F) where
  arena := Arena.init false true
  threads := fun t => .run (threadP (f t) (ss t))

theorem answer_stable (s : Session I F) :
    Stable (fun b (r : Answer (ClosetC I F) I F) => ∃ g, s.alone = some g ∧ AnswerDen g b r) :=
  fun _ _ _ e ⟨g, hg, hd⟩ => ⟨g, hg, hd.mono e⟩

theorem boot_ok (ss : Nat → Session I F) :
    ∃ K : Nat → Nat, ∀ f : Nat → Nat, (∀ t, K t ≤ f t) → ∀ t, wpT ((boot f ss).threads t) (boot f ss).arena
      (fun b r => ∃ g, (ss t).alone = some g ∧ AnswerDen g b r) := by
  choose g hg using fun t => alone_total (ss t)
  choose K hK using fun t => thread_ok (ss t) (g t) (hg t)
  refine ⟨K, fun f hf t => ?_⟩
  exact wp_imp (hK t (f t) (hf t) _ (init_inv (by decide))) fun b r hr => ⟨g t, hg t, hr.2⟩

/-- What a client can see of an answer: everything but the node numbers.
Not code: used to state or prove properties. -/
def Answer.seen {C : Type w} {I : Type u} {F : Type v} (index : C → List (I × F)) (summary : C → List (Status I)) :
    Answer C I F → Answer (List (I × F) × List (Status I)) I F
  | .buildFailed e => .buildFailed e
  | .selectFailed e => .selectFailed e
  | .answered c o => .answered (index c, summary c) o

theorem AnswerDen.seen {g : Answer (Closet I F) I F} {a : Arena I Bool} {r : Answer (ClosetC I F) I F}
    (h : AnswerDen g a r) : r.seen ClosetC.itemIndex ClosetC.summary = g.seen Closet.itemIndex Closet.summary := by
  cases g <;> cases r <;>
    first
    | exact h.elim
    | (obtain rfl : _ = _ := h; rfl)
    | (obtain ⟨⟨h1, h2, _⟩, h3⟩ := h
       simp only [Answer.seen, h1, h2, h3])

/-- C64: any number of threads, each building a closet, selecting items on it and asking for an outfit, all in
one process and under every schedule: no thread panics, no thread is stuck before its end, and every finished
thread got exactly the answers it would have got in a process of its own. -/
theorem threads_exact (ss : Nat → Session I F) :
    ∃ K : Nat → Nat, ∀ f : Nat → Nat, (∀ t, K t ≤ f t) → ∀ m, MRun (boot f ss) m → ∀ t,
      m.threads t ≠ .panicked ∧
      (∀ r, m.threads t = .run (.ret r) → ∃ g, (ss t).alone = some g ∧
        r.seen ClosetC.itemIndex ClosetC.summary = g.seen Closet.itemIndex Closet.summary) ∧
      ((∃ r, m.threads t = .run (.ret r)) ∨ ∃ a th, TStep m.arena (m.threads t) a th) := by
  obtain ⟨K, hK⟩ := boot_ok ss
  refine ⟨K, fun f hf m hm t => ?_⟩
  obtain ⟨h1, h2, h3⟩ := schedules_sound (fun t => answer_stable (ss t)) hm (init_inv (by decide)) (hK f hf) t
  refine ⟨h1, fun r e => ?_, h3⟩
  obtain ⟨g, hg, hd⟩ := h2 _ e
  exact ⟨g, hg, hd.seen⟩

/-- C65: at every point of every schedule every thread can run to its end while the others stand still. -/
theorem threads_finish (ss : Nat → Session I F) :
    ∃ K : Nat → Nat, ∀ f : Nat → Nat, (∀ t, K t ≤ f t) → ∀ m, MRun (boot f ss) m → ∀ t,
      ∃ m', MRun m m' ∧ (∀ s, s ≠ t → m'.threads s = m.threads s) ∧
        ∃ r g, m'.threads t = .run (.ret r) ∧ (ss t).alone = some g ∧
          r.seen ClosetC.itemIndex ClosetC.summary = g.seen Closet.itemIndex Closet.summary := by
  obtain ⟨K, hK⟩ := boot_ok ss
  refine ⟨K, fun f hf m hm t => ?_⟩
  obtain ⟨m', hm', hs, r, hx⟩ := can_finish (fun t => answer_stable (ss t)) hm (init_inv (by decide)) (hK f hf) t
  obtain ⟨_, h2, _⟩ := schedules_sound (fun t => answer_stable (ss t)) (hm.trans hm') (init_inv (by decide)) (hK f hf) t
  obtain ⟨g, hg, hd⟩ := h2 _ hx
  exact ⟨m', hm', hs, r, g, hx, hg, hd.seen⟩

/-- C64: closets made by different threads are equal values exactly when they are equal in the sequential
model (where equality is decided by `Verif.Bdd.nodes_canonical`). -/
theorem threads_compare (ss : Nat → Session I F) :
    ∃ K : Nat → Nat, ∀ f : Nat → Nat, (∀ t, K t ≤ f t) → ∀ m, MRun (boot f ss) m → ∀ s t c d o p,
      m.threads s = .run (.ret (.answered c o)) → m.threads t = .run (.ret (.answered d p)) →
      ∃ g h, (ss s).alone = some (.answered g o) ∧ (ss t).alone = some (.answered h p) ∧ (c = d ↔ g = h) := by
  obtain ⟨K, hK⟩ := boot_ok ss
  refine ⟨K, fun f hf m hm s t c d o p es et => ?_⟩
  have hs := (schedules_sound (fun t => answer_stable (ss t)) hm (init_inv (by decide)) (hK f hf) s).2.1 _ es
  have ht := (schedules_sound (fun t => answer_stable (ss t)) hm (init_inv (by decide)) (hK f hf) t).2.1 _ et
  have hI : m.arena.Inv := (mrun_ok (fun t => answer_stable (ss t)) hm (init_inv (by decide)) (hK f hf)).1.right
  obtain ⟨g, hg, hd⟩ := hs
  obtain ⟨h, hh, hd'⟩ := ht
  cases g with
  | buildFailed e => exact hd.elim
  | selectFailed e => exact hd.elim
  | answered g o' =>
    cases h with
    | buildFailed e => exact hd'.elim
    | selectFailed e => exact hd'.elim
    | answered h p' =>
      obtain ⟨⟨i1, i2, i3⟩, rfl⟩ := hd
      obtain ⟨⟨j1, j2, j3⟩, rfl⟩ := hd'
      refine ⟨g, h, hg, hh, ?_⟩
      have key := (cell_eq_iff hI i3 j3).trans tr_inj
      obtain ⟨ci, cs, cr⟩ := c
      obtain ⟨di, ds, dr⟩ := d
      obtain ⟨gi, gs, gr⟩ := g
      obtain ⟨ki, ks, kr⟩ := h
      simp only at i1 i2 j1 j2 key
      subst i1; subst i2; subst j1; subst j2
      simp only [ClosetC.mk.injEq, Closet.mk.injEq, key]

/-- The theorems are not vacuous: two threads finish in one run, one with an outfit of the demo closet
containing item 1, the other refused by `build`. -/
example : ∃ m : Machine Nat Bool (fun _ => Answer (ClosetC Nat Nat) Nat Nat), ∃ f c o e,
    MRun (boot f (fun t => if t = 0 then ⟨demo, [], [1]⟩ else ⟨[.item 0 1, .item 1 1], [], []⟩)) m ∧
    m.threads 0 = .run (.ret (.answered c (.ok o))) ∧ m.threads 1 = .run (.ret (.buildFailed e)) ∧ 1 ∈ o := by
  obtain ⟨K, hK⟩ := threads_finish
    (fun t => if t = 0 then ⟨demo, [], [1]⟩ else ⟨[.item 0 1, .item 1 1], [], []⟩ : Nat → Session Nat Nat)
  obtain ⟨m1, r1, _, x, g, e1, hg, hx⟩ := hK K (fun _ => le_rfl) _ (.nil _) 0
  obtain ⟨m2, r2, k2, y, g', e2, hg', hy⟩ := hK K (fun _ => le_rfl) _ r1 1
  obtain ⟨c, hc⟩ := (build_validates demo).1.1 demo_legal
  obtain ⟨o, ho⟩ := (complete_exact demo c hc [1]).2.1.2 ⟨fun x hx => demo_outfit.known x (by
    simp at hx; simp [hx]), by
      rintro ⟨f, s, h1, h2, _⟩
      have := h1.length_le
      simp at this; omega, _, demo_outfit, by simp⟩
  have h1 : Session.alone (⟨demo, [], [1]⟩ : Session Nat Nat) = some (.answered c (.ok o)) := by
    simp only [Session.alone, hc, Closet.selectAll, ho, Option.map_some]
  obtain ⟨e, he⟩ : ∃ e, (ClosetBuilder.run ([.item 0 1, .item 1 1] : List (Call Nat Nat))).build = .error e := by
    cases h : (ClosetBuilder.run ([.item 0 1, .item 1 1] : List (Call Nat Nat))).build with
    | error e => exact ⟨e, rfl⟩
    | ok c => cases ((build_validates _).1.2 ⟨c, h⟩).1 0 1 1 (by simp) (by simp)
  have h2 : Session.alone (⟨[.item 0 1, .item 1 1], [], []⟩ : Session Nat Nat) = some (.buildFailed e) := by
    simp only [Session.alone, he]
  simp only [if_true] at hg
  simp only [one_ne_zero, if_false] at hg'
  rw [h1] at hg; cases hg
  rw [h2] at hg'; cases hg'
  cases x with
  | buildFailed _ => cases hx
  | selectFailed _ => cases hx
  | answered c' o' =>
    simp only [Answer.seen, Answer.answered.injEq] at hx
    obtain ⟨_, rfl⟩ := hx
    cases y with
    | buildFailed e' =>
      simp only [Answer.seen, Answer.buildFailed.injEq] at hy
      subst hy
      refine ⟨m2, K, c', o, _, r1.trans r2, ?_, e2, ((complete_exact demo c hc [1]).2.2 o ho).2.1 1 (by simp)⟩
      rw [k2 0 (by decide)]; exact e1
    | selectFailed _ => cases hy
    | answered _ _ => cases hy

end Verif.ArenaBdd
