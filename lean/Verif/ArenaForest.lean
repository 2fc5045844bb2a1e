import Verif.ArenaZdd2
import Verif.Zdd2.Props

/-!
# The whole zdd2 forest API as programs over the shared arena (C64, C65)

Continues `ArenaZdd2`: the subset operations, the constructors and the forest operations with
`root: NodeId`, statement by statement.  The result: any number of threads running any programs over
the forest API, under every schedule, get exactly the forests of the sequential model `Verif.Zdd2.Forest`.
-/

set_option linter.unusedSimpArgs false
set_option linter.unusedSectionVars false
set_option linter.unusedVariables false

namespace Verif.ArenaZdd2
open Verif Verif.Arena Verif.Zdd2

universe u w

/-- `Node::NEVER = NodeId(0)` resolves (weave/src/zdd2/forest/node/mod.rs:63,
weave/src/zdd2/forest/node/arena.rs:13-20).
Not code: used to state or prove properties. -/
def Zero (a : Arena Nat Bool) : Prop := Unfolds a 0 (tr .Never)

theorem Zero.mono {a b : Arena Nat Bool} (h : Zero a) (e : Ext a b) : Zero b := Unfolds.mono e h

/-! ## Subset -/

/-- weave/src/zdd2/forest/node/subset.rs:60-65 -/
def reduceBranchC (m : C × Bool) : C × Bool := if m.2 then m else (.leaf false, m.2)

/-- The body of weave/src/zdd2/forest/node/subset.rs:10-31; `rec` is the recursive call. -/
def subsetInnerBody (f : Nat) (rec : C → Nat → Prog Nat Bool (C × Bool)) (root : C) (element : Nat) :
    Prog Nat Bool (C × Bool) :=
  match root with
  | .branch id low high =>
    if element = id then (branchP f id (.id 0) (.id high)).bind fun n => .ret (n, true)
    else
      .load low fun low => (rec low element).bind fun l =>
      .load high fun high => (rec high element).bind fun h =>
      (branchP f id (.node (reduceBranchC l).1) (.node (reduceBranchC h).1)).bind fun n =>
      .ret (n, (reduceBranchC l).2 || (reduceBranchC h).2)
  | .leaf v => .ret (.leaf v, false)

/-- weave/src/zdd2/forest/node/subset.rs:10-31; the first argument bounds the depth of the recursion. -/
def subsetInnerP : Nat → C → Nat → Prog Nat Bool (C × Bool)
  | 0, _, _ => .spin
  | f + 1, root, element => subsetInnerBody f (subsetInnerP f) root element

/-- weave/src/zdd2/forest/node/subset.rs:6-8 -/
def subsetP (f : Nat) (root : C) (element : Nat) : P :=
  (subsetInnerP f root element).bind fun r => .ret r.1

/-- The body of weave/src/zdd2/forest/node/subset.rs:33-46; `rec` is the recursive call. -/
def subsetNotBody (f : Nat) (rec : C → Nat → P) (root : C) (element : Nat) : P :=
  match root with
  | .branch id low high =>
    if element = id then .load low fun low => .ret low
    else
      .load low fun low => (rec low element).bind fun low =>
      .load high fun high => (rec high element).bind fun high =>
      branchP f id (.node low) (.node high)
  | .leaf v => .ret (.leaf v)

/-- weave/src/zdd2/forest/node/subset.rs:33-46; the first argument bounds the depth of the recursion. -/
def subsetNotP : Nat → C → Nat → P
  | 0, _, _ => .spin
  | f + 1, root, element => subsetNotBody f (subsetNotP f) root element

/-- `Iterator::fold` with a body using the arena (weave/src/zdd2/forest/node/subset.rs:51). -/
def foldP {β : Type u} (step : C → β → P) : List β → C → P
  | [], acc => .ret acc
  | e :: es, acc => (step acc e).bind fun acc => foldP step es acc

/-- weave/src/zdd2/forest/node/subset.rs:48-52 -/
def subsetAllP (f : Nat) (root : C) (elements : List Nat) : P :=
  foldP (fun acc e => (subsetP f root e).bind fun s => intersectP f acc s) elements (.leaf true)

/-- weave/src/zdd2/forest/node/subset.rs:54-58 -/
def subsetNoneP (f : Nat) (root : C) (elements : List Nat) : P :=
  foldP (fun acc e => (subsetNotP f root e).bind fun s => intersectP f acc s) elements (.leaf true)

/-- With enough fuel, the program on a node returns `res`.  Not code: used to state or prove properties. -/
def Op1Ok (op : Nat → C → P) (n res : Node) : Prop :=
  ∃ F, ∀ f ≥ F, ∀ (a : Arena Nat Bool) (c : C), a.Inv → Zero a → CellDen a c (tr n) →
    Returns (op f c) a (tr res)

theorem subsetInner_ok (n : Node) (e : Nat) :
    ∃ F, ∀ f ≥ F, ∀ (a : Arena Nat Bool) (c : C), a.Inv → Zero a → CellDen a c (tr n) →
      Yields (subsetInnerP f c e) a (fun b r =>
        CellDen b r.1 (tr (n.subsetInner e).1) ∧ r.2 = (n.subsetInner e).2) := by
  induction n with
  | Always =>
    refine ⟨1, fun f hf a c hI h0 hc => ?_⟩
    obtain ⟨f, rfl⟩ : ∃ g, f = g + 1 := ⟨f - 1, by omega⟩
    obtain rfl := hc.leaf_inv
    exact Yields.ret hI ⟨hc, rfl⟩
  | Never =>
    refine ⟨1, fun f hf a c hI h0 hc => ?_⟩
    obtain ⟨f, rfl⟩ : ∃ g, f = g + 1 := ⟨f - 1, by omega⟩
    obtain rfl := hc.leaf_inv
    exact Yields.ret hI ⟨hc, rfl⟩
  | Branch id l h ihl ihh =>
    obtain ⟨F1, h1⟩ := ihl
    obtain ⟨F2, h2⟩ := ihh
    obtain ⟨F3, h3⟩ := branch_ok id .Never h
    obtain ⟨F4, h4⟩ := branch_ok id (Node.reduceBranch (l.subsetInner e)).1 (Node.reduceBranch (h.subsetInner e)).1
    refine ⟨F1 + F2 + F3 + F4 + 1, fun f hf a c hI h0 hc => ?_⟩
    obtain ⟨f, rfl⟩ : ∃ g, f = g + 1 := ⟨f - 1, by omega⟩
    obtain ⟨lo, hi, rfl, ul, uh⟩ := hc.branch_inv
    rw [subsetInnerP, subsetInnerBody]
    by_cases he : e = id
    · rw [if_pos he, Node.subsetInner, if_pos he]
      exact yields_bind (h3 f (by omega) a _ _ hI (.id h0) (.id uh)) fun b c e' d => Yields.ret e'.right ⟨d, rfl⟩
    · rw [if_neg he, Node.subsetInner, if_neg he]
      refine yields_load ul fun b1 c1 e1 d1 => ?_
      refine yields_bind (h1 f (by omega) b1 c1 e1.right (h0.mono e1) d1) fun b2 r1 e2 ⟨q1, k1⟩ => ?_
      refine yields_load (uh.mono (e1.trans e2)) fun b3 c3 e3 d3 => ?_
      refine yields_bind (h2 f (by omega) b3 c3 e3.right (h0.mono ((e1.trans e2).trans e3)) d3)
        fun b4 r2 e4 ⟨q2, k2⟩ => ?_
      have hr : ∀ (b : Arena Nat Bool) (r : C × Bool) (m : Node × Bool), CellDen b r.1 (tr m.1) → r.2 = m.2 →
          CellDen b (reduceBranchC r).1 (tr (Node.reduceBranch m).1) ∧
          (reduceBranchC r).2 = (Node.reduceBranch m).2 := by
        intro b r m hd hk
        unfold reduceBranchC Node.reduceBranch
        rw [hk]
        split_ifs
        · exact ⟨hd, hk⟩
        · exact ⟨rfl, rfl⟩
      obtain ⟨u1, v1⟩ := hr _ _ _ (q1.mono (e3.trans e4)) k1
      obtain ⟨u2, v2⟩ := hr _ _ _ q2 k2
      refine yields_bind (h4 f (by omega) b4 _ _ e4.right (.node u1) (.node u2)) fun b5 c5 e5 d5 => ?_
      exact Yields.ret e5.right ⟨d5, by rw [v1, v2]⟩

theorem subset_ok (n : Node) (e : Nat) : Op1Ok (fun f c => subsetP f c e) n (n.subset e) := by
  obtain ⟨F, h⟩ := subsetInner_ok n e
  exact ⟨F, fun f hf a c hI h0 hc => yields_bind (h f hf a c hI h0 hc)
    fun b r e' hr => Yields.ret e'.right hr.1⟩

theorem subsetNot_ok (n : Node) (e : Nat) : Op1Ok (fun f c => subsetNotP f c e) n (n.subsetNot e) := by
  induction n with
  | Always =>
    refine ⟨1, fun f hf a c hI h0 hc => ?_⟩
    obtain ⟨f, rfl⟩ : ∃ g, f = g + 1 := ⟨f - 1, by omega⟩
    obtain rfl := hc.leaf_inv
    exact .ret hI hc
  | Never =>
    refine ⟨1, fun f hf a c hI h0 hc => ?_⟩
    obtain ⟨f, rfl⟩ : ∃ g, f = g + 1 := ⟨f - 1, by omega⟩
    obtain rfl := hc.leaf_inv
    exact .ret hI hc
  | Branch id l h ihl ihh =>
    obtain ⟨F1, h1⟩ := ihl
    obtain ⟨F2, h2⟩ := ihh
    obtain ⟨F3, h3⟩ := branch_ok id (l.subsetNot e) (h.subsetNot e)
    refine ⟨F1 + F2 + F3 + 1, fun f hf a c hI h0 hc => ?_⟩
    obtain ⟨f, rfl⟩ : ∃ g, f = g + 1 := ⟨f - 1, by omega⟩
    obtain ⟨lo, hi, rfl, ul, uh⟩ := hc.branch_inv
    dsimp only
    rw [subsetNotP, subsetNotBody, Node.subsetNot]
    split_ifs with he
    · exact returns_load ul fun b1 c1 e1 d1 => .ret e1.right d1
    · refine returns_load ul fun b1 c1 e1 d1 => ?_
      refine returns_call (h1 f (by omega) b1 c1 e1.right (h0.mono e1) d1) fun b2 r1 e2 q1 => ?_
      refine returns_load (uh.mono (e1.trans e2)) fun b3 c3 e3 d3 => ?_
      refine returns_call (h2 f (by omega) b3 c3 e3.right (h0.mono ((e1.trans e2).trans e3)) d3)
        fun b4 r2 e4 q2 => ?_
      exact h3 f (by omega) b4 _ _ e4.right (.node (q1.mono (e3.trans e4))) (.node q2)

/-- Folding preserves denotations; `root` is what the body captured.  -/
theorem fold_ok {β : Type u} (step : Nat → C → C → β → P) (g : Node → β → Node) (m : Node)
    (hs : ∀ n e, ∃ F, ∀ f ≥ F, ∀ (a : Arena Nat Bool) (root acc : C), a.Inv → Zero a →
      CellDen a root (tr m) → CellDen a acc (tr n) → Returns (step f root acc e) a (tr (g n e)))
    (es : List β) (n : Node) :
    ∃ F, ∀ f ≥ F, ∀ (a : Arena Nat Bool) (root acc : C), a.Inv → Zero a →
      CellDen a root (tr m) → CellDen a acc (tr n) →
      Returns (foldP (step f root) es acc) a (tr (es.foldl g n)) := by
  induction es generalizing n with
  | nil => exact ⟨0, fun f _ a root acc hI _ _ hc => .ret hI hc⟩
  | cons e es ih =>
    obtain ⟨F1, h1⟩ := hs n e
    obtain ⟨F2, h2⟩ := ih (g n e)
    refine ⟨F1 + F2, fun f hf a root acc hI h0 hr hc => ?_⟩
    rw [foldP]
    refine returns_call (h1 f (by omega) a root acc hI h0 hr hc) fun b c' e' d => ?_
    exact h2 f (by omega) b root c' e'.right (h0.mono e') (hr.mono e') d

theorem subsetAll_ok (n : Node) (es : List Nat) : Op1Ok (fun f c => subsetAllP f c es) n (n.subsetAll es) := by
  obtain ⟨F, h⟩ := fold_ok
    (fun f root acc e => (subsetP f root e).bind fun s => intersectP f acc s)
    (fun acc e => Node.intersect acc (n.subset e)) n (by
      intro m e
      obtain ⟨F1, h1⟩ := subset_ok n e
      obtain ⟨F2, h2⟩ := intersect_ok m (n.subset e)
      refine ⟨F1 + F2, fun f hf a root acc hI h0 hr hc => ?_⟩
      refine returns_call (h1 f (by omega) a root hI h0 hr) fun b s e1 d => ?_
      exact h2 f (by omega) b acc s e1.right (hc.mono e1) d) es .Always
  refine ⟨F, fun f hf a c hI h0 hc => ?_⟩
  have := h f hf a c (.leaf true) hI h0 hc rfl
  rw [Node.subsetAll, List.foldl_map]
  exact this

theorem subsetNone_ok (n : Node) (es : List Nat) : Op1Ok (fun f c => subsetNoneP f c es) n (n.subsetNone es) := by
  obtain ⟨F, h⟩ := fold_ok
    (fun f root acc e => (subsetNotP f root e).bind fun s => intersectP f acc s)
    (fun acc e => Node.intersect acc (n.subsetNot e)) n (by
      intro m e
      obtain ⟨F1, h1⟩ := subsetNot_ok n e
      obtain ⟨F2, h2⟩ := intersect_ok m (n.subsetNot e)
      refine ⟨F1 + F2, fun f hf a root acc hI h0 hr hc => ?_⟩
      refine returns_call (h1 f (by omega) a root hI h0 hr) fun b s e1 d => ?_
      exact h2 f (by omega) b acc s e1.right (hc.mono e1) d) es .Always
  refine ⟨F, fun f hf a c hI h0 hc => ?_⟩
  have := h f hf a c (.leaf true) hI h0 hc rfl
  rw [Node.subsetNone, List.foldl_map]
  exact this

/-! ## Listing the sets -/

/-- The loop of weave/src/zdd2/forest/trees.rs:9-27; the head of `queue` is the top of the stack; the first
argument bounds the number of iterations. -/
def treesLoopP : Nat → List (C × List Nat) → List (List Nat) → Prog Nat Bool (List (List Nat))
  | 0, _, _ => .spin
  | _ + 1, [], trees => .ret trees
  | f + 1, (.branch id low high, path) :: q, trees =>
    .load low fun low => .load high fun high =>
    treesLoopP f ((high, path ++ [id]) :: (low, path) :: q) trees
  | f + 1, (.leaf true, path) :: q, trees => treesLoopP f q (trees ++ [path])
  | f + 1, (.leaf false, _) :: q, trees => treesLoopP f q trees

/-- weave/src/zdd2/forest/trees.rs:5-31 -/
def treesP (f : Nat) (root : Nat) : Prog Nat Bool (List (List Nat)) :=
  .load root fun root => treesLoopP f [(root, [])] []

/-- Not code: used to state or prove properties. -/
def QueueDen (a : Arena Nat Bool) (q : List (C × List Nat)) (p : List (Node × List Nat)) : Prop :=
  List.Forall₂ (fun x y => CellDen a x.1 (tr y.1) ∧ x.2 = y.2) q p

theorem QueueDen.mono {a b : Arena Nat Bool} (e : Ext a b) {q p} (h : QueueDen a q p) : QueueDen b q p :=
  List.Forall₂.imp (fun _ _ hx => ⟨hx.1.mono e, hx.2⟩) h

theorem treesLoop_ok (p : List (Node × List Nat)) (ts : List (List Nat)) :
    ∃ F, ∀ f ≥ F, ∀ (a : Arena Nat Bool) q, a.Inv → QueueDen a q p →
      Yields (treesLoopP f q ts) a (fun _ r => r = Node.treesLoop p ts) := by
  fun_induction Node.treesLoop p ts with
  | case1 ts =>
    refine ⟨1, fun f hf a q hI hq => ?_⟩
    obtain ⟨f, rfl⟩ : ∃ g, f = g + 1 := ⟨f - 1, by omega⟩
    cases hq
    exact Yields.ret hI rfl
  | case2 ts id l h path q ih =>
    obtain ⟨F, hF⟩ := ih
    refine ⟨F + 1, fun f hf a q' hI hq => ?_⟩
    obtain ⟨f, rfl⟩ : ∃ g, f = g + 1 := ⟨f - 1, by omega⟩
    cases hq with
    | @cons x _ xs _ hx hxs =>
      obtain ⟨c, pth⟩ := x
      obtain ⟨hd, rfl⟩ := hx
      obtain ⟨lo, hi, rfl, ul, uh⟩ := hd.branch_inv
      refine yields_load ul fun b1 c1 e1 d1 => yields_load (uh.mono e1) fun b2 c2 e2 d2 => ?_
      exact hF f (by omega) b2 _ e2.right
        (.cons ⟨d2, rfl⟩ (.cons ⟨d1.mono e2, rfl⟩ (QueueDen.mono (e1.trans e2) hxs)))
  | case3 ts path q ih =>
    obtain ⟨F, hF⟩ := ih
    refine ⟨F + 1, fun f hf a q' hI hq => ?_⟩
    obtain ⟨f, rfl⟩ : ∃ g, f = g + 1 := ⟨f - 1, by omega⟩
    cases hq with
    | @cons x _ xs _ hx hxs =>
      obtain ⟨c, pth⟩ := x
      obtain ⟨hd, rfl⟩ := hx
      obtain rfl := hd.leaf_inv
      exact hF f (by omega) a _ hI hxs
  | case4 ts path q ih =>
    obtain ⟨F, hF⟩ := ih
    refine ⟨F + 1, fun f hf a q' hI hq => ?_⟩
    obtain ⟨f, rfl⟩ : ∃ g, f = g + 1 := ⟨f - 1, by omega⟩
    cases hq with
    | @cons x _ xs _ hx hxs =>
      obtain ⟨c, pth⟩ := x
      obtain ⟨hd, rfl⟩ := hx
      obtain rfl := hd.leaf_inv
      exact hF f (by omega) a _ hI hxs

theorem trees_ok (n : Node) :
    ∃ F, ∀ f ≥ F, ∀ (a : Arena Nat Bool) (i : Nat), a.Inv → Unfolds a i (tr n) →
      Yields (treesP f i) a (fun _ r => r = Node.trees n) := by
  obtain ⟨F, h⟩ := treesLoop_ok [(n, [])] []
  exact ⟨F, fun f hf a i hI hu => yields_load hu fun b c e d =>
    h f hf b _ e.right (.cons ⟨d, rfl⟩ .nil)⟩

/-! ## Forests -/

variable {T : Type u} [LinearOrder T]

/-- weave/src/zdd2/forest/mod.rs:25-29 with `root: NodeId`. -/
structure ForestC (T : Type u) where
  root : Nat
  univ : Universe T
deriving DecidableEq

/-- weave/src/zdd2/forest/node/mod.rs:173-183 (see `Zdd2.Node.fromIter`). -/
def fromIterP (f : Nat) (upperZero : Bool) (items : List Nat) : P :=
  if upperZero then .ret (.leaf false)
  else foldP (fun root item => branchP f item (.node (.leaf false)) (.node root)) items (.leaf true)

/-- weave/src/zdd2/forest/universe/mod.rs:75-79 (see `Zdd2.Universe.getPrioritiesNode`). -/
def getPrioritiesNodeP (f : Nat) (univ : Universe T) (items : List T) : P :=
  fromIterP f (items.length == 0) (items.filterMap univ.getPriority)

/-- weave/src/zdd2/forest/mod.rs:57-62 -/
def emptyP : Prog Nat Bool (ForestC T) := .ret ⟨0, Universe.default⟩

/-- weave/src/zdd2/forest/mod.rs:64-69 -/
def unitP (f : Nat) (items : List T) : Prog Nat Bool (ForestC T) :=
  (getPrioritiesNodeP f (Universe.fromItems items) items).bind fun root =>
  .intern root fun root => .ret ⟨root, Universe.fromItems items⟩

/-- weave/src/zdd2/forest/mod.rs:71-79 -/
def manyP (f : Nat) (matrix : List (List T)) : Prog Nat Bool (ForestC T) :=
  (foldP (fun root items => (getPrioritiesNodeP f (Universe.fromMatrix matrix) items).bind fun n =>
    unionP f root n) matrix (.leaf false)).bind fun root =>
  .intern root fun root => .ret ⟨root, Universe.fromMatrix matrix⟩

/-- weave/src/zdd2/forest/mod.rs:81-89 -/
def uniqueP (f : Nat) (set : List T) : Prog Nat Bool (ForestC T) :=
  (foldP (fun root item => branchP f item (.node root) (.node (.leaf true)))
    ((Universe.fromItems set).getPriorities set) (.leaf false)).bind fun root =>
  .intern root fun root => .ret ⟨root, Universe.fromItems set⟩

/-- weave/src/zdd2/forest/mod.rs:91-98 -/
def canonicalP (f : Nat) (root : C) (univ : Universe T) : Prog Nat Bool (ForestC T) :=
  .intern root fun root => (treesP f root).bind fun trees =>
  manyP f (trees.map (fun set => univ.getItems set))

/-- The body of weave/src/zdd2/forest/mod.rs:189-202; `rec` is the recursive call. -/
def translateRootBody (f : Nat) (rec : C → P) (oldU newU : Universe T) (root : C) : P :=
  match root with
  | .branch id low high =>
    .load low fun low => (rec low).bind fun low =>
    .load high fun high => (rec high).bind fun high =>
    match oldU.getItem id with
    | none => .panic
    | some item =>
      match newU.getPriority item with
      | none => .panic
      | some id => branchP f id (.node low) (.node high)
  | .leaf v => .ret (.leaf v)

/-- weave/src/zdd2/forest/mod.rs:189-202; the first argument bounds the depth of the recursion. -/
def translateRootP : Nat → Universe T → Universe T → C → P
  | 0, _, _, _ => .spin
  | f + 1, oldU, newU, root => translateRootBody f (translateRootP f oldU newU) oldU newU root

/-- weave/src/zdd2/forest/mod.rs:123-151 and 180-187: the shape shared by `intersect`, `union` and `product`. -/
def binaryP (op : Nat → C → C → P) (f : Nat) (self other : ForestC T) : Prog Nat Bool (ForestC T) :=
  .load self.root fun selfRoot => .load other.root fun otherRoot =>
  (translateRootP f self.univ (Universe.merge self.univ other.univ) selfRoot).bind fun selfRoot =>
  (translateRootP f other.univ (Universe.merge self.univ other.univ) otherRoot).bind fun otherRoot =>
  (op f selfRoot otherRoot).bind fun root =>
  canonicalP f root (Universe.merge self.univ other.univ)

/-- weave/src/zdd2/forest/subset.rs:7-16 -/
def forestSubsetP (f : Nat) (forest : ForestC T) (element : T) : Prog Nat Bool (ForestC T) :=
  match forest.univ.getPriority element with
  | none => emptyP
  | some e => .load forest.root fun root => (subsetP f root e).bind fun root => canonicalP f root forest.univ

/-- weave/src/zdd2/forest/subset.rs:18-27 -/
def forestSubsetNotP (f : Nat) (forest : ForestC T) (element : T) : Prog Nat Bool (ForestC T) :=
  match forest.univ.getPriority element with
  | none => .ret forest
  | some e => .load forest.root fun root => (subsetNotP f root e).bind fun root => canonicalP f root forest.univ

/-- weave/src/zdd2/forest/subset.rs:29-49 -/
def subsetManyP (f : Nat) (forest : ForestC T) (elements : List T)
    (dflt : ForestC T → Prog Nat Bool (ForestC T)) (func : Nat → C → List Nat → P) :
    Prog Nat Bool (ForestC T) :=
  if elements.isEmpty then .ret forest
  else
    if elements.length ≠ (forest.univ.getPriorities elements).length then dflt forest
    else .load forest.root fun root =>
      (func f root (forest.univ.getPriorities elements)).bind fun root => canonicalP f root forest.univ

/-- A program over the forest API as one thread executes it: weave/src/zdd2/forest/mod.rs:57-177. -/
def runP (f : Nat) : Matrix.Prog T → Prog Nat Bool (ForestC T)
  | .empty => emptyP
  | .unit s => unitP f s
  | .many m => manyP f m
  | .unique s => uniqueP f s
  | .union a b => (runP f a).bind fun x => (runP f b).bind fun y => binaryP unionP f x y
  | .intersect a b => (runP f a).bind fun x => (runP f b).bind fun y => binaryP intersectP f x y
  | .product a b => (runP f a).bind fun x => (runP f b).bind fun y => binaryP productP f x y
  | .subset a e => (runP f a).bind fun x => forestSubsetP f x e
  | .subsetNot a e => (runP f a).bind fun x => forestSubsetNotP f x e
  | .subsetAll a es => (runP f a).bind fun x => subsetManyP f x es (fun _ => emptyP) subsetAllP
  | .subsetNone a es => (runP f a).bind fun x => subsetManyP f x es .ret subsetNoneP

/-- weave/src/zdd2/forest/mod.rs:108-113 -/
def forestTreesP (f : Nat) (x : ForestC T) : Prog Nat Bool (List (List T)) :=
  (treesP f x.root).bind fun ts => .ret (ts.map (fun set => x.univ.getItems set))

/-- The forest value `x` stands for the forest `g` of the sequential model.
Not code: used to state or prove properties. -/
def ForestDen (g : Forest T) (a : Arena Nat Bool) (x : ForestC T) : Prop :=
  Unfolds a x.root (tr g.root) ∧ x.univ = g.univ

theorem ForestDen.mono {g : Forest T} {a b : Arena Nat Bool} {x : ForestC T} (h : ForestDen g a x)
    (e : Ext a b) : ForestDen g b x := ⟨h.1.mono e, h.2⟩

/-- With enough fuel, the program yields the forest `g`.  Not code: used to state or prove properties. -/
def MakesOk (p : Nat → Prog Nat Bool (ForestC T)) (g : Forest T) : Prop :=
  ∃ F, ∀ f ≥ F, ∀ a : Arena Nat Bool, a.Inv → Zero a → Yields (p f) a (ForestDen g)

theorem getPrioritiesNode_ok (u : Universe T) (items : List T) :
    ∃ F, ∀ f ≥ F, ∀ a : Arena Nat Bool, a.Inv → Zero a →
      Returns (getPrioritiesNodeP f u items) a (tr (u.getPrioritiesNode items)) := by
  obtain ⟨F, h⟩ := fold_ok
    (fun f _ root (item : Nat) => branchP f item (.node (.leaf false)) (.node root))
    (fun root item => Node.branch item .Never root) .Never (by
      intro n e
      obtain ⟨F, h⟩ := branch_ok e .Never n
      exact ⟨F, fun f hf a _ acc hI _ _ hc => h f hf a _ _ hI (.node rfl) (.node hc)⟩)
    (items.filterMap u.getPriority) .Always
  refine ⟨F, fun f hf a hI h0 => ?_⟩
  rw [getPrioritiesNodeP, fromIterP, Universe.getPrioritiesNode, Node.fromIter]
  split_ifs
  · exact .ret hI rfl
  · exact h f hf a (.leaf false) (.leaf true) hI h0 rfl rfl

theorem empty_ok : MakesOk (fun _ => emptyP) (Forest.empty : Forest T) :=
  ⟨0, fun f _ a hI h0 => Yields.ret hI ⟨h0, rfl⟩⟩

theorem unit_ok (s : List T) : MakesOk (fun f => unitP f s) (Forest.unit s) := by
  obtain ⟨F, h⟩ := getPrioritiesNode_ok (Universe.fromItems s) s
  exact ⟨F, fun f hf a hI h0 => yields_bind (h f hf a hI h0) fun b c e d =>
    yields_intern d fun b2 i e2 u => Yields.ret e2.right ⟨u, rfl⟩⟩

theorem many_ok (m : List (List T)) : MakesOk (fun f => manyP f m) (Forest.many m) := by
  obtain ⟨F, h⟩ := fold_ok
    (fun f _ root (items : List T) =>
      (getPrioritiesNodeP f (Universe.fromMatrix m) items).bind fun n => unionP f root n)
    (fun root items => Node.union root ((Universe.fromMatrix m).getPrioritiesNode items)) .Never (by
      intro n e
      obtain ⟨F1, h1⟩ := getPrioritiesNode_ok (Universe.fromMatrix m) e
      obtain ⟨F2, h2⟩ := union_ok n ((Universe.fromMatrix m).getPrioritiesNode e)
      refine ⟨F1 + F2, fun f hf a _ acc hI h0 _ hc => ?_⟩
      exact returns_call (h1 f (by omega) a hI h0) fun b c e1 d =>
        h2 f (by omega) b acc c e1.right (hc.mono e1) d) m .Never
  refine ⟨F, fun f hf a hI h0 => ?_⟩
  refine yields_bind (h f hf a (.leaf false) (.leaf false) hI h0 rfl rfl) fun b c e d => ?_
  refine yields_intern d fun b2 i e2 u => Yields.ret e2.right ⟨?_, rfl⟩
  simp only [Forest.many, List.foldl_map]
  exact u

theorem unique_ok (s : List T) : MakesOk (fun f => uniqueP f s) (Forest.unique s) := by
  obtain ⟨F, h⟩ := fold_ok
    (fun f _ root (item : Nat) => branchP f item (.node root) (.node (.leaf true)))
    (fun root item => Node.branch item root .Always) .Never (by
      intro n e
      obtain ⟨F, h⟩ := branch_ok e n .Always
      exact ⟨F, fun f hf a _ acc hI _ _ hc => h f hf a _ _ hI (.node hc) (.node rfl)⟩)
    ((Universe.fromItems s).getPriorities s) .Never
  refine ⟨F, fun f hf a hI h0 => ?_⟩
  refine yields_bind (h f hf a (.leaf false) (.leaf false) hI h0 rfl rfl) fun b c e d => ?_
  exact yields_intern d fun b2 i e2 u => Yields.ret e2.right ⟨u, rfl⟩

theorem canonical_ok (n : Node) (u : Universe T) :
    ∃ F, ∀ f ≥ F, ∀ (a : Arena Nat Bool) (c : C), a.Inv → Zero a → CellDen a c (tr n) →
      Yields (canonicalP f c u) a (ForestDen (Forest.canonical n u)) := by
  obtain ⟨F1, h1⟩ := trees_ok n
  obtain ⟨F2, h2⟩ := many_ok ((Node.trees n).map (fun set => u.getItems set))
  refine ⟨F1 + F2, fun f hf a c hI h0 hc => ?_⟩
  refine yields_intern hc fun b i e d => ?_
  refine yields_bind (h1 f (by omega) b i e.right d) fun b2 ts e2 ht => ?_
  subst ht
  exact h2 f (by omega) b2 e2.right (h0.mono (e.trans e2))

theorem translateRoot_ok (oldU newU : Universe T) (n r : Node)
    (h : Forest.translateRoot oldU newU n = some r) :
    Op1Ok (fun f c => translateRootP f oldU newU c) n r := by
  induction n generalizing r with
  | Always =>
    cases h
    refine ⟨1, fun f hf a c hI h0 hc => ?_⟩
    obtain ⟨f, rfl⟩ : ∃ g, f = g + 1 := ⟨f - 1, by omega⟩
    obtain rfl := hc.leaf_inv
    exact .ret hI hc
  | Never =>
    cases h
    refine ⟨1, fun f hf a c hI h0 hc => ?_⟩
    obtain ⟨f, rfl⟩ : ∃ g, f = g + 1 := ⟨f - 1, by omega⟩
    obtain rfl := hc.leaf_inv
    exact .ret hI hc
  | Branch id l h' ihl ihh =>
    rw [Forest.translateRoot] at h
    split at h
    · rename_i low high item e1 e2 e3
      split at h
      · rename_i id' e4
        cases h
        obtain ⟨F1, h1⟩ := ihl low e1
        obtain ⟨F2, h2⟩ := ihh high e2
        obtain ⟨F3, h3⟩ := branch_ok id' low high
        refine ⟨F1 + F2 + F3 + 1, fun f hf a c hI h0 hc => ?_⟩
        obtain ⟨f, rfl⟩ : ∃ g, f = g + 1 := ⟨f - 1, by omega⟩
        obtain ⟨lo, hi, rfl, ul, uh⟩ := hc.branch_inv
        dsimp only
        rw [translateRootP, translateRootBody]
        refine returns_load ul fun b1 c1 x1 d1 => ?_
        refine returns_call (h1 f (by omega) b1 c1 x1.right (h0.mono x1) d1) fun b2 r1 x2 q1 => ?_
        refine returns_load (uh.mono (x1.trans x2)) fun b3 c3 x3 d3 => ?_
        refine returns_call (h2 f (by omega) b3 c3 x3.right (h0.mono ((x1.trans x2).trans x3)) d3)
          fun b4 r2 x4 q2 => ?_
        rw [e3]; dsimp only
        rw [e4]; dsimp only
        exact h3 f (by omega) b4 _ _ x4.right (.node (q1.mono (x3.trans x4))) (.node q2)
      · cases h
    · cases h

theorem binary_ok (op : Nat → C → C → P) (opN : Node → Node → Node) (ho : ∀ n m, OpOk op n m (opN n m))
    (x y g : Forest T)
    (h : (Forest.translateRoots x y).map (fun r => Forest.canonical (opN r.2.1 r.2.2) r.1) = some g) :
    ∃ F, ∀ f ≥ F, ∀ (a : Arena Nat Bool) (xc yc : ForestC T), a.Inv → Zero a → ForestDen x a xc →
      ForestDen y a yc → Yields (binaryP op f xc yc) a (ForestDen g) := by
  rw [Forest.translateRoots] at h
  split at h
  · rename_i r1 r2 e1 e2
    cases h
    obtain ⟨F1, h1⟩ := translateRoot_ok _ _ _ _ e1
    obtain ⟨F2, h2⟩ := translateRoot_ok _ _ _ _ e2
    obtain ⟨F3, h3⟩ := ho r1 r2
    obtain ⟨F4, h4⟩ := canonical_ok (opN r1 r2) (Universe.merge x.univ y.univ)
    refine ⟨F1 + F2 + F3 + F4, fun f hf a xc yc hI h0 hx hy => ?_⟩
    rw [binaryP, hx.2, hy.2]
    refine yields_load hx.1 fun b1 c1 x1 d1 => yields_load (hy.1.mono x1) fun b2 c2 x2 d2 => ?_
    refine yields_bind (h1 f (by omega) b2 c1 x2.right (h0.mono (x1.trans x2)) (d1.mono x2))
      fun b3 s x3 q1 => ?_
    refine yields_bind (h2 f (by omega) b3 c2 x3.right (h0.mono ((x1.trans x2).trans x3)) (d2.mono x3))
      fun b4 o x4 q2 => ?_
    refine yields_bind (h3 f (by omega) b4 s o x4.right (CellDen.mono x4 q1) q2) fun b5 r x5 q3 => ?_
    exact h4 f (by omega) b5 r x5.right
      (h0.mono ((((x1.trans x2).trans x3).trans x4).trans x5)) q3
  · cases h

theorem forestSubset_ok (x : Forest T) (e : T) :
    ∃ F, ∀ f ≥ F, ∀ (a : Arena Nat Bool) (xc : ForestC T), a.Inv → Zero a → ForestDen x a xc →
      Yields (forestSubsetP f xc e) a (ForestDen (x.subset e)) := by
  cases hp : x.univ.getPriority e with
  | none =>
    refine ⟨0, fun f _ a xc hI h0 hx => ?_⟩
    rw [forestSubsetP, hx.2, Forest.subset, hp]
    exact Yields.ret hI ⟨h0, rfl⟩
  | some k =>
    obtain ⟨F1, h1⟩ := subset_ok x.root k
    obtain ⟨F2, h2⟩ := canonical_ok (x.root.subset k) x.univ
    refine ⟨F1 + F2, fun f hf a xc hI h0 hx => ?_⟩
    rw [forestSubsetP, hx.2, Forest.subset, hp]
    refine yields_load hx.1 fun b c e1 d => ?_
    refine yields_bind (h1 f (by omega) b c e1.right (h0.mono e1) d) fun b2 c2 e2 d2 => ?_
    exact h2 f (by omega) b2 c2 e2.right (h0.mono (e1.trans e2)) d2

theorem forestSubsetNot_ok (x : Forest T) (e : T) :
    ∃ F, ∀ f ≥ F, ∀ (a : Arena Nat Bool) (xc : ForestC T), a.Inv → Zero a → ForestDen x a xc →
      Yields (forestSubsetNotP f xc e) a (ForestDen (x.subsetNot e)) := by
  cases hp : x.univ.getPriority e with
  | none =>
    refine ⟨0, fun f _ a xc hI h0 hx => ?_⟩
    rw [forestSubsetNotP, hx.2, Forest.subsetNot, hp]
    exact Yields.ret hI hx
  | some k =>
    obtain ⟨F1, h1⟩ := subsetNot_ok x.root k
    obtain ⟨F2, h2⟩ := canonical_ok (x.root.subsetNot k) x.univ
    refine ⟨F1 + F2, fun f hf a xc hI h0 hx => ?_⟩
    rw [forestSubsetNotP, hx.2, Forest.subsetNot, hp]
    refine yields_load hx.1 fun b c e1 d => ?_
    refine yields_bind (h1 f (by omega) b c e1.right (h0.mono e1) d) fun b2 c2 e2 d2 => ?_
    exact h2 f (by omega) b2 c2 e2.right (h0.mono (e1.trans e2)) d2

theorem subsetMany_ok (x : Forest T) (es : List T)
    (dflt : ForestC T → Prog Nat Bool (ForestC T)) (dfltN : Forest T → Forest T)
    (func : Nat → C → List Nat → P) (funcN : Node → List Nat → Node)
    (hd : ∀ (a : Arena Nat Bool) xc, a.Inv → Zero a → ForestDen x a xc → Yields (dflt xc) a (ForestDen (dfltN x)))
    (hf : ∀ n ks, Op1Ok (fun f c => func f c ks) n (funcN n ks)) :
    ∃ F, ∀ f ≥ F, ∀ (a : Arena Nat Bool) (xc : ForestC T), a.Inv → Zero a → ForestDen x a xc →
      Yields (subsetManyP f xc es dflt func) a (ForestDen (x.subsetMany es dfltN funcN)) := by
  obtain ⟨F1, h1⟩ := hf x.root (x.univ.getPriorities es)
  obtain ⟨F2, h2⟩ := canonical_ok (funcN x.root (x.univ.getPriorities es)) x.univ
  refine ⟨F1 + F2, fun f hf a xc hI h0 hx => ?_⟩
  rw [subsetManyP, hx.2, Forest.subsetMany]
  dsimp only
  split_ifs
  · exact Yields.ret hI hx
  · exact hd a xc hI h0 hx
  · refine yields_load hx.1 fun b c e1 d => ?_
    refine yields_bind (h1 f (by omega) b c e1.right (h0.mono e1) d) fun b2 c2 e2 d2 => ?_
    exact h2 f (by omega) b2 c2 e2.right (h0.mono (e1.trans e2)) d2

/-- Every program over the forest API, run in any thread next to any others, ends without panic with the
forest of the sequential model. -/
theorem run_ok (p : Matrix.Prog T) (g : Forest T) (h : run p = some g) : MakesOk (fun f => runP f p) g := by
  have seq2 : ∀ (a b : Matrix.Prog T) (x y g : Forest T) (op : Nat → C → C → P) (opN : Node → Node → Node),
      (∀ n m, OpOk op n m (opN n m)) → MakesOk (fun f => runP f a) x → MakesOk (fun f => runP f b) y →
      (Forest.translateRoots x y).map (fun r => Forest.canonical (opN r.2.1 r.2.2) r.1) = some g →
      MakesOk (fun f => (runP f a).bind fun x => (runP f b).bind fun y => binaryP op f x y) g := by
    intro a b x y g op opN ho ha hb hg
    obtain ⟨F1, h1⟩ := ha
    obtain ⟨F2, h2⟩ := hb
    obtain ⟨F3, h3⟩ := binary_ok op opN ho x y g hg
    refine ⟨F1 + F2 + F3, fun f hf a hI h0 => ?_⟩
    refine yields_bind (h1 f (by omega) a hI h0) fun b1 xc e1 d1 => ?_
    refine yields_bind (h2 f (by omega) b1 e1.right (h0.mono e1)) fun b2 yc e2 d2 => ?_
    exact h3 f (by omega) b2 xc yc e2.right (h0.mono (e1.trans e2)) (d1.mono e2) d2
  have seq1 : ∀ (a : Matrix.Prog T) (x g : Forest T) (op : Nat → ForestC T → Prog Nat Bool (ForestC T)),
      MakesOk (fun f => runP f a) x →
      (∃ F, ∀ f ≥ F, ∀ (a : Arena Nat Bool) (xc : ForestC T), a.Inv → Zero a → ForestDen x a xc →
        Yields (op f xc) a (ForestDen g)) →
      MakesOk (fun f => (runP f a).bind fun x => op f x) g := by
    intro a x g op ha ho
    obtain ⟨F1, h1⟩ := ha
    obtain ⟨F2, h2⟩ := ho
    refine ⟨F1 + F2, fun f hf a hI h0 => ?_⟩
    refine yields_bind (h1 f (by omega) a hI h0) fun b1 xc e1 d1 => ?_
    exact h2 f (by omega) b1 xc e1.right (h0.mono e1) d1
  induction p generalizing g with
  | empty => cases h; exact empty_ok
  | unit s => cases h; exact unit_ok s
  | many m => cases h; exact many_ok m
  | unique s => cases h; exact unique_ok s
  | union a b iha ihb =>
    obtain ⟨x, hx⟩ := run_total a
    obtain ⟨y, hy⟩ := run_total b
    simp only [run, hx, hy, Option.bind_some] at h
    exact seq2 a b x y g unionP Node.union union_ok (iha x hx) (ihb y hy) h
  | intersect a b iha ihb =>
    obtain ⟨x, hx⟩ := run_total a
    obtain ⟨y, hy⟩ := run_total b
    simp only [run, hx, hy, Option.bind_some] at h
    exact seq2 a b x y g intersectP Node.intersect intersect_ok (iha x hx) (ihb y hy) h
  | product a b iha ihb =>
    obtain ⟨x, hx⟩ := run_total a
    obtain ⟨y, hy⟩ := run_total b
    simp only [run, hx, hy, Option.bind_some] at h
    exact seq2 a b x y g productP Node.product product_ok (iha x hx) (ihb y hy) h
  | subset a e iha =>
    obtain ⟨x, hx⟩ := run_total a
    simp only [run, hx, Option.map_some, Option.some.injEq] at h; subst h
    exact seq1 a x _ (fun f xc => forestSubsetP f xc e) (iha x hx) (forestSubset_ok x e)
  | subsetNot a e iha =>
    obtain ⟨x, hx⟩ := run_total a
    simp only [run, hx, Option.map_some, Option.some.injEq] at h; subst h
    exact seq1 a x _ (fun f xc => forestSubsetNotP f xc e) (iha x hx) (forestSubsetNot_ok x e)
  | subsetAll a es iha =>
    obtain ⟨x, hx⟩ := run_total a
    simp only [run, hx, Option.map_some, Option.some.injEq] at h; subst h
    exact seq1 a x _ (fun f xc => subsetManyP f xc es (fun _ => emptyP) subsetAllP) (iha x hx)
      (subsetMany_ok x es _ (fun _ => Forest.empty) _ _ (fun a xc hI h0 _ => Yields.ret hI ⟨h0, rfl⟩)
        subsetAll_ok)
  | subsetNone a es iha =>
    obtain ⟨x, hx⟩ := run_total a
    simp only [run, hx, Option.map_some, Option.some.injEq] at h; subst h
    exact seq1 a x _ (fun f xc => subsetManyP f xc es .ret subsetNoneP) (iha x hx)
      (subsetMany_ok x es _ (fun f => f) _ _ (fun a xc hI _ hx => Yields.ret hI hx) subsetNone_ok)

theorem forestTrees_ok (g : Forest T) :
    ∃ F, ∀ f ≥ F, ∀ (a : Arena Nat Bool) (xc : ForestC T), a.Inv → ForestDen g a xc →
      Yields (forestTreesP f xc) a (fun _ r => r = g.trees) := by
  obtain ⟨F, h⟩ := trees_ok g.root
  refine ⟨F, fun f hf a xc hI hx => ?_⟩
  refine yields_bind (h f hf a _ hI hx.1) fun b ts e ht => Yields.ret e.right ?_
  rw [ht, hx.2]; rfl

/-! ## The theorems -/

/-- What a thread does: run a program over the forest API and list the sets of the result; the caller keeps
both.  weave/src/zdd2/forest/mod.rs:57-177, 108-113. -/
def threadP (f : Nat) (p : Matrix.Prog T) : Prog Nat Bool (ForestC T × List (List T)) :=
  (runP f p).bind fun x => (forestTreesP f x).bind fun ts => .ret (x, ts)

theorem thread_ok (p : Matrix.Prog T) (g : Forest T) (h : run p = some g) :
    ∃ F, ∀ f ≥ F, ∀ a : Arena Nat Bool, a.Inv → Zero a →
      Yields (threadP f p) a (fun b r => ForestDen g b r.1 ∧ r.2 = g.trees) := by
  obtain ⟨F1, h1⟩ := run_ok p g h
  obtain ⟨F2, h2⟩ := forestTrees_ok g
  refine ⟨F1 + F2, fun f hf a hI h0 => ?_⟩
  refine yields_bind (h1 f (by omega) a hI h0) fun b xc e d => ?_
  refine yields_bind (h2 f (by omega) b xc e.right d) fun b2 ts e2 ht => ?_
  exact Yields.ret e2.right ⟨d.mono e2, ht⟩

/-- The machine at process start: the fresh arena, every thread about to run its program, over forests of
items of its own type.  Not code: used to state or prove properties. -/
def boot {T : Nat → Type u} [∀ t, LinearOrder (T t)] (f : Nat → Nat) (ps : (t : Nat) → Matrix.Prog (T t)) :
    Machine Nat Bool (fun t => ForestC (T t) × List (List (T t))) where
  arena := Arena.init false true
  threads := fun t => .run (threadP (f t) (ps t))

theorem init_zero : Zero (Arena.init false true) := .leaf rfl

section
variable {T : Nat → Type u} [∀ t, LinearOrder (T t)]

theorem boot_ok (ps : (t : Nat) → Matrix.Prog (T t)) :
    ∃ F : Nat → Nat, ∀ f : Nat → Nat, (∀ t, F t ≤ f t) → ∀ t, wpT ((boot f ps).threads t) (boot f ps).arena
      (fun b r => ∃ g, run (ps t) = some g ∧ ForestDen g b r.1 ∧ r.2 = g.trees) := by
  choose g hg using fun t => run_total (ps t)
  choose F hF using fun t => thread_ok (ps t) (g t) (hg t)
  refine ⟨F, fun f hf t => ?_⟩
  exact wp_imp (hF t (f t) (hf t) _ (init_inv (by decide)) init_zero) fun b r hr => ⟨g t, hg t, hr.2⟩

theorem forest_stable {T : Type u} [LinearOrder T] (p : Matrix.Prog T) :
    Stable (fun b (r : ForestC T × List (List T)) => ∃ g, run p = some g ∧ ForestDen g b r.1 ∧ r.2 = g.trees) :=
  fun _ _ _ e ⟨g, hg, hd, ht⟩ => ⟨g, hg, hd.mono e, ht⟩

/-- C64: any number of threads, each running any program over the forest API in one process, under every
schedule: no thread ever panics, no thread is ever stuck before its end, and every finished thread got
exactly the sets and the occurrence counts of the sequential model. -/
theorem threads_exact (ps : (t : Nat) → Matrix.Prog (T t)) :
    ∃ F : Nat → Nat, ∀ f : Nat → Nat, (∀ t, F t ≤ f t) → ∀ m, MRun (boot f ps) m → ∀ t,
      m.threads t ≠ .panicked ∧
      (∀ x ts, m.threads t = .run (.ret (x, ts)) → ∃ g, run (ps t) = some g ∧ ts = g.trees ∧ x.univ = g.univ) ∧
      ((∃ r, m.threads t = .run (.ret r)) ∨ ∃ a th, TStep m.arena (m.threads t) a th) := by
  obtain ⟨F, hF⟩ := boot_ok ps
  refine ⟨F, fun f hf m hm t => ?_⟩
  obtain ⟨h1, h2, h3⟩ := schedules_sound (fun t => forest_stable (ps t)) hm (init_inv (by decide)) (hF f hf) t
  refine ⟨h1, fun x ts e => ?_, h3⟩
  obtain ⟨g, hg, hd, ht⟩ := h2 _ e
  exact ⟨g, hg, ht, hd.2⟩

/-- C65: at every point of every schedule, every thread can run to its end while all the others stand
still (the number of steps it makes in any execution is finite by `Verif.Arena.no_livelock`). -/
theorem threads_finish (ps : (t : Nat) → Matrix.Prog (T t)) :
    ∃ F : Nat → Nat, ∀ f : Nat → Nat, (∀ t, F t ≤ f t) → ∀ m, MRun (boot f ps) m → ∀ t,
      ∃ m', MRun m m' ∧ (∀ s, s ≠ t → m'.threads s = m.threads s) ∧
        ∃ x g, m'.threads t = .run (.ret (x, g.trees)) ∧ run (ps t) = some g := by
  obtain ⟨F, hF⟩ := boot_ok ps
  refine ⟨F, fun f hf m hm t => ?_⟩
  obtain ⟨m', hm', hs, ⟨x, ts⟩, hx⟩ := can_finish (fun t => forest_stable (ps t)) hm (init_inv (by decide)) (hF f hf) t
  obtain ⟨_, h2, _⟩ := schedules_sound (fun t => forest_stable (ps t)) (hm.trans hm') (init_inv (by decide)) (hF f hf) t
  obtain ⟨g, hg, _, ht⟩ := h2 _ hx
  exact ⟨m', hm', hs, x, g, by rw [hx, show ts = g.trees from ht], hg⟩

end

/-- C64: forests made by different threads compare with `==` exactly as their sets do. -/
theorem threads_compare (ps : Nat → Matrix.Prog T) :
    ∃ F : Nat → Nat, ∀ f : Nat → Nat, (∀ t, F t ≤ f t) → ∀ m, MRun (boot f ps) m → ∀ s t x y xs ys,
      m.threads s = .run (.ret (x, xs)) → m.threads t = .run (.ret (y, ys)) →
      (x = y ↔ Spec.family xs = Spec.family ys) := by
  obtain ⟨F, hF⟩ := boot_ok ps
  refine ⟨F, fun f hf m hm s t x y xs ys es et => ?_⟩
  have hs := (schedules_sound (fun t => forest_stable (ps t)) hm (init_inv (by decide)) (hF f hf) s).2.1 _ es
  have ht := (schedules_sound (fun t => forest_stable (ps t)) hm (init_inv (by decide)) (hF f hf) t).2.1 _ et
  have hI : m.arena.Inv := (mrun_ok (fun t => forest_stable (ps t)) hm (init_inv (by decide)) (hF f hf)).1.right
  obtain ⟨g, hg, ⟨hr, hu⟩, rfl⟩ := hs
  obtain ⟨g', hg', ⟨hr', hu'⟩, rfl⟩ := ht
  rw [← eq_iff_family ⟨_, hg⟩ ⟨_, hg'⟩]
  constructor
  · rintro rfl
    have h1 : g.root = g'.root := tr_inj.1 (unfolds_fun hr hr')
    have h2 : g.univ = g'.univ := hu.symm.trans hu'
    cases g; cases g'
    simp only at h1 h2
    rw [h1, h2]
  · rintro rfl
    have h1 : x.root = y.root := unfolds_inj hI hr hr'
    have h2 : x.univ = y.univ := hu.trans hu'.symm
    cases x; cases y
    simp only at h1 h2
    rw [h1, h2]

/-- The theorems are not vacuous: two threads really can finish, in one run, with forests of the same two
sets written differently, and those compare equal. -/
example : ∃ m : Machine Nat Bool (fun _ => ForestC Nat × List (List Nat)), ∃ f x y,
    MRun (boot f (fun t => if t = 0 then .many [[1, 2], [3]] else .union (.unit [3]) (.unit [2, 1]))) m ∧
    m.threads 0 = .run (.ret x) ∧ m.threads 1 = .run (.ret y) ∧
    Spec.family x.2 = {{1, 2}, {3}} := by
  obtain ⟨F, hF⟩ := threads_finish
    (fun t => if t = 0 then .many [[1, 2], [3]] else .union (.unit [3]) (.unit [2, 1]) : Nat → Matrix.Prog Nat)
  obtain ⟨m1, r1, _, x, g, e1, hg⟩ := hF F (fun _ => le_rfl) _ (.nil _) 0
  obtain ⟨m2, r2, k2, y, g', e2, _⟩ := hF F (fun _ => le_rfl) _ r1 1
  refine ⟨m2, F, (x, g.trees), (y, g'.trees), r1.trans r2, ?_, e2, ?_⟩
  · rw [k2 0 (by decide)]; exact e1
  · simp only [if_true, run, Option.some.injEq] at hg
    subst hg
    rw [many_family]
    ext s
    simp only [Spec.family, Set.mem_ofPred_eq, Set.mem_insert_iff, Set.mem_singleton_iff]
    constructor
    · rintro ⟨⟨l, hl, rfl⟩, _⟩
      simp only [List.mem_cons, List.not_mem_nil, or_false] at hl
      rcases hl with rfl | rfl
      · left; decide
      · right; decide
    · rintro (rfl | rfl)
      · exact ⟨⟨[1, 2], by simp, by decide⟩, by decide⟩
      · exact ⟨⟨[3], by simp, by decide⟩, by decide⟩

end Verif.ArenaZdd2
