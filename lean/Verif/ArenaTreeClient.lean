import Verif.ArenaText
import Verif.ArenaZdd1
import Verif.Debug
import Verif.Zdd1.Foreign

/-!
# Clients of the whole v1 tree API next to other threads (C104)

As `ArenaForestClient`, for `weave::zdd`: a client decides each next call from the answers it got so far, keeps any
number of trees, and may use every public operation of `Universe` and `Tree`.  A universe owns no node, so a client
passes it by value: any universe at all, made from a list of items or read from any data.
-/

set_option linter.unusedSimpArgs false
set_option linter.unusedSectionVars false
set_option linter.unusedVariables false

namespace Verif.ArenaZdd1
open Verif Verif.Weave Verif.Arena Verif.Zdd1 Verif.Debug Verif.Text

universe u w

variable {T : Type u} [LinearOrder T]

deriving instance DecidableEq for Zdd1.Universe
deriving instance DecidableEq for Zdd1.Tree
deriving instance DecidableEq for TreeC

/-! ## The remaining operations as programs over the arena -/

/-- weave/src/zdd/node/mod.rs:32-47: `fmt_inner`. -/
def fmtInnerP : Nat → Nat → C → Prog Nat Bool (List Char)
  | 0, _, _ => .spin
  | _ + 1, _, .leaf val => .ret (boolText val)
  | f + 1, indent, .branch id low high =>
    .load low fun low => (fmtInnerP f (indent + 1) low).bind fun low =>
    .load high fun high => (fmtInnerP f (indent + 1) high).bind fun high =>
    .ret (dec id ++ [':', '\n'] ++ bars indent ++ low ++ ['\n'] ++ bars indent ++ high)

/-- weave/src/zdd/tree/mod.rs:32-36, weave/src/zdd/node/mod.rs:12-16, 26-30 -/
def treeDebugP (f : Nat) (t : TreeC T) : Prog Nat Bool (List Char) :=
  .load t.root fun root => (fmtInnerP f 1 root).bind fun s => .ret ('\n' :: s)

/-- weave/src/zdd/tree/mod.rs:51-79 (see `Zdd1.Tree.counts`, `Zdd1.Tree.summarize`; the order in which the hash map
is visited does not matter, C27). -/
def summarizeP (f : Nat) (t : TreeC T) (inclusions exclusions : List T) : Prog Nat Bool (List (ItemStatus T)) :=
  (combinationsWithP f t inclusions exclusions).bind fun combinations =>
  .ret (sorted (((t.univ.items.map (fun f => (f, 0)) ++ groupCount (sorted combinations.flatten)).foldl
    (fun m (p : T × Nat) => insertKV p.1 p.2 m) []).map (Tree.classify inclusions combinations.length)))

/-- weave/src/zdd/tree/mod.rs:26-30, weave/src/zdd/node/serialize.rs:8-20, weave/src/zdd/node/parser.rs:9-20
(see `Zdd1.serializeTree`; the order in which the hash map is visited does not matter, C27). -/
def saveP (f : Nat) (t : TreeC T) : Prog Nat Bool (TreeData T) :=
  .load t.root fun root => (buildTextP ['(', 'T', ')'] ['(', 'F', ')'] f root).bind fun s =>
  .ret ⟨s, t.univ.items, t.univ.itemIndex.foldl (fun m p => insertKV p.1 p.2 m) []⟩

/-- weave/src/zdd/tree/mod.rs:26-30, weave/src/zdd/node/serialize.rs:22-56, weave/src/zdd/node/parser.rs:22-50;
`none` is a deserialization error. -/
def loadP (f : Nat) (d : TreeData T) : Prog Nat Bool (Option (TreeC T)) :=
  (readTextP ['(', 'T', ')'] ['(', 'F', ')'] (fun id low high => branchP id (.node low) (.node high)) d.root).bind fun
  | none => .ret none
  | some root => .intern root fun root =>
    .ret (some ⟨root, ⟨d.items, d.itemIndex.foldl (fun m p => insertKV p.1 p.2 m) []⟩⟩)

theorem fmtInner_ok (n : Node) (d : Nat) :
    ∃ F, ∀ f ≥ F, ∀ (a : Arena Nat Bool) (c : C), a.Inv → CellDen a c (tr n) →
      Yields (fmtInnerP f d c) a (fun _ r => r = zdd1Inner d n) := by
  induction n generalizing d with
  | Leaf v =>
    refine ⟨1, fun f hf a c hI hc => ?_⟩
    obtain ⟨f, rfl⟩ : ∃ g, f = g + 1 := ⟨f - 1, by omega⟩
    obtain rfl := hc.leaf_inv
    exact Yields.ret hI rfl
  | Branch id l h ihl ihh =>
    obtain ⟨F1, k1⟩ := ihl (d + 1)
    obtain ⟨F2, k2⟩ := ihh (d + 1)
    refine ⟨F1 + F2 + 1, fun f hf a c hI hc => ?_⟩
    obtain ⟨f, rfl⟩ : ∃ g, f = g + 1 := ⟨f - 1, by omega⟩
    obtain ⟨lo, hi, rfl, ul, uh⟩ := hc.branch_inv
    refine yields_load ul fun b1 c1 x1 d1 => ?_
    refine yields_bind (k1 f (by omega) b1 c1 x1.right d1) fun b2 t2 x2 q2 => ?_
    refine yields_load (uh.mono (x1.trans x2)) fun b3 c3 x3 d3 => ?_
    refine yields_bind (k2 f (by omega) b3 c3 x3.right d3) fun b4 t4 x4 q4 => ?_
    exact Yields.ret x4.right (by rw [q2, q4, zdd1Inner])

theorem traverse_fails (uni : Universe T) (n : Node) (h : fromNode uni n = none) :
    ∃ F, ∀ f ≥ F, ∀ (a : Arena Nat Bool) root, a.Inv → Unfolds a root (tr n) → Fails (traverseP uni f root) a := by
  induction n with
  | Leaf v => cases h
  | Branch i l r ihl ihr =>
    rw [fromNode] at h
    cases hi : uni.getItem i with
    | none =>
      refine ⟨1, fun f hf a root hI hu => ?_⟩
      obtain ⟨f, rfl⟩ : ∃ g, f = g + 1 := ⟨f - 1, by omega⟩
      refine fails_load hu fun b c e d => ?_
      obtain ⟨lo, hi', rfl, ul, uh⟩ := d.branch_inv
      dsimp only
      rw [hi]
      exact rfl
    | some value =>
      cases hl : fromNode uni l with
      | none =>
        obtain ⟨F, k⟩ := ihl hl
        refine ⟨F + 1, fun f hf a root hI hu => ?_⟩
        obtain ⟨f, rfl⟩ : ∃ g, f = g + 1 := ⟨f - 1, by omega⟩
        refine fails_load hu fun b c e d => ?_
        obtain ⟨lo, hi', rfl, ul, uh⟩ := d.branch_inv
        dsimp only
        rw [hi]
        exact (k f (by omega) b lo e.right ul).bind _
      | some tl =>
        obtain ⟨F1, k1⟩ := traverse_ok uni l tl hl
        cases hr : fromNode uni r with
        | none =>
          obtain ⟨F2, k2⟩ := ihr hr
          refine ⟨F1 + F2 + 1, fun f hf a root hI hu => ?_⟩
          obtain ⟨f, rfl⟩ : ∃ g, f = g + 1 := ⟨f - 1, by omega⟩
          refine fails_load hu fun b c e d => ?_
          obtain ⟨lo, hi', rfl, ul, uh⟩ := d.branch_inv
          dsimp only
          rw [hi]
          refine fails_bind (k1 f (by omega) b lo e.right ul) fun b2 _ e2 _ => ?_
          exact (k2 f (by omega) b2 hi' e2.right (uh.mono e2)).bind _
        | some th =>
          rw [hi, hl, hr] at h
          cases h

/-- The text of a tree.  Not code: used to state or prove properties. -/
def trText : Tr Nat Bool → List Char
  | .leaf true => ['(', 'T', ')']
  | .leaf false => ['(', 'F', ')']
  | .branch i l h => branchText i (trText l) (trText h)

theorem trText_tr (n : Node) : trText (tr n) = n.buildNodeString := by
  induction n with
  | Branch i l h ihl ihh => simp [tr, trText, Node.buildNodeString, ihl, ihh]
  | Leaf b => cases b <;> rfl

theorem load_ok (d : TreeData T) :
    ∃ F, ∀ f ≥ F, ∀ a : Arena Nat Bool, a.Inv → Yields (loadP f d) a (fun b r =>
      (deserializeTree d = none ∧ r = none) ∨
      ∃ g x, deserializeTree d = some g ∧ r = some x ∧ TreeDen g b x) := by
  obtain ⟨F, h⟩ := readText_ok (tr := tr) (g := Node.grammar) rfl rfl
    (br := fun f id low high => branchP id (.node low) (.node high)) (by
      intro id n m
      exact ⟨0, fun f hf a c d hI hc hd => branch_ok hI (.node hc) (.node hd)⟩) d.root
  refine ⟨F, fun f hf a hI => yields_bind (h f hf a hI) fun b r e hr => ?_⟩
  rcases hr with ⟨h1, rfl⟩ | ⟨n, c, h1, rfl, hc⟩
  · exact Yields.ret e.right (.inl ⟨by rw [deserializeTree, Node.parseNodeString, h1]; rfl, rfl⟩)
  · refine yields_intern hc fun b2 i e2 u => Yields.ret e2.right
      (.inr ⟨⟨n, ⟨d.items, d.itemIndex.foldl (fun m p => insertKV p.1 p.2 m) []⟩⟩, ⟨i, _⟩, ?_, rfl, u, rfl⟩)
    rw [deserializeTree, Node.parseNodeString, h1]; rfl

/-! ## The API -/

/-- The calls of the public API of `weave::zdd` (numbers are positions in the client's list of trees):
weave/src/zdd/tree/mod.rs:26, 32, 51-142, weave/src/zdd/tree/universe.rs:40-70. -/
inductive TOp (T : Type u) where
  | empty (uni : Universe T)
  | unit (uni : Universe T)
  | tree (uni : Universe T) (c : List T)
  | unique (uni : Universe T) (xs : List T)
  | hyper (uni : Universe T) (cs : List (List T))
  | union (x y : Nat)
  | intersect (x y : Nat)
  | product (x y : Nat)
  | restrict (x : Nat) (inc exc : List T)
  | combinations (x : Nat)
  | combinationsRecursive (x : Nat)
  | combinationsWith (x : Nat) (inc exc : List T)
  | summarize (x : Nat) (inc exc : List T)
  | traverse (x : Nat)
  | same (x y : Nat)
  | debug (x : Nat)
  | save (x : Nat)
  | load (d : TreeData T)

/-- What a call answers; a new tree is put at the end of the list and answered by `done`.
Not code: used to state or prove properties. -/
inductive TReply (T : Type u) where
  | done
  | bool (b : Bool)
  | sets (l : List (List T))
  | statuses (l : List (ItemStatus T))
  | node (t : TreeNode T)
  | text (t : List Char)
  | data (d : TreeData T)
  | readFailed

/-- One call in a process of its own, over the sequential model; `none` is a panic: of the client (it names nothing
it holds) or of the library.  Not code: used to state or prove properties. -/
def TOp.alone (s : List (Tree T)) : TOp T → Option (List (Tree T) × TReply T)
  | .empty uni => some (s ++ [uni.emptyTree], .done)
  | .unit uni => some (s ++ [uni.unitTree], .done)
  | .tree uni c => some (s ++ [uni.tree c], .done)
  | .unique uni xs => some (s ++ [uni.uniqueTree xs], .done)
  | .hyper uni cs => some (s ++ [uni.hyperTree cs], .done)
  | .union x y => s[x]?.bind fun x => s[y]?.bind fun y => some (s ++ [x.union y], .done)
  | .intersect x y => s[x]?.bind fun x => s[y]?.bind fun y => some (s ++ [x.intersect y], .done)
  | .product x y => s[x]?.bind fun x => s[y]?.bind fun y => some (s ++ [x.product y], .done)
  | .restrict x inc exc => s[x]?.bind fun x => some (s ++ [x.restrict inc exc], .done)
  | .combinations x => s[x]?.bind fun x => some (s, .sets x.combinations)
  | .combinationsRecursive x => s[x]?.bind fun x => some (s, .sets x.combinationsRecursive)
  | .combinationsWith x inc exc => s[x]?.bind fun x => some (s, .sets (x.combinationsWith inc exc))
  | .summarize x inc exc => s[x]?.bind fun x => some (s, .statuses (x.summarize inc exc (x.counts inc exc)))
  | .traverse x => s[x]?.bind fun x => x.traverse.bind fun t => some (s, .node t)
  | .same x y => s[x]?.bind fun x => s[y]?.bind fun y => some (s, .bool (decide (x = y)))
  | .debug x => s[x]?.bind fun x => some (s, .text (treeDebug x))
  | .save x => s[x]?.bind fun x => some (s, .data (serializeTree x x.univ.itemIndex))
  | .load d => match deserializeTree d with
    | none => some (s, .readFailed)
    | some x => some (s ++ [x], .done)

/-- A new tree.  Not code: used to state or prove properties. -/
def made (s : List (TreeC T)) (p : Prog Nat Bool (TreeC T)) : Prog Nat Bool (List (TreeC T) × TReply T) :=
  p.bind fun x => .ret (s ++ [x], .done)

/-- The same call as a program over the shared arena: weave/src/zdd/tree/mod.rs:26, 32, 38-142,
weave/src/zdd/tree/universe.rs:40-70 and the functions cited at the programs used. -/
def TOp.prog (f : Nat) (s : List (TreeC T)) : TOp T → Prog Nat Bool (List (TreeC T) × TReply T)
  | .empty uni => made s (.ret ⟨0, uni⟩)
  | .unit uni => made s (.ret ⟨1, uni⟩)
  | .tree uni c => made s (treeP uni c)
  | .unique uni xs => made s (uniqueP f uni xs)
  | .hyper uni cs => made s (hyperP f uni cs)
  | .union x y => named s[x]? fun x => named s[y]? fun y => made s (binaryP unionP f x y)
  | .intersect x y => named s[x]? fun x => named s[y]? fun y => made s (binaryP intersectP f x y)
  | .product x y => named s[x]? fun x => named s[y]? fun y => made s (binaryP productP f x y)
  | .restrict x inc exc => named s[x]? fun x => made s (restrictP f x inc exc)
  | .combinations x => named s[x]? fun x => (combinationsP f x).bind fun l => .ret (s, .sets l)
  | .combinationsRecursive x => named s[x]? fun x => (combinationsRecursiveP f x).bind fun l => .ret (s, .sets l)
  | .combinationsWith x inc exc => named s[x]? fun x => (combinationsWithP f x inc exc).bind fun l => .ret (s, .sets l)
  | .summarize x inc exc => named s[x]? fun x => (summarizeP f x inc exc).bind fun l => .ret (s, .statuses l)
  | .traverse x => named s[x]? fun x => (traverseP x.univ f x.root).bind fun t => .ret (s, .node t)
  | .same x y => named s[x]? fun x => named s[y]? fun y => .ret (s, .bool (decide (x = y)))
  | .debug x => named s[x]? fun x => (treeDebugP f x).bind fun t => .ret (s, .text t)
  | .save x => named s[x]? fun x => (saveP f x).bind fun d => .ret (s, .data d)
  | .load d => (loadP f d).bind fun
    | none => .ret (s, .readFailed)
    | some x => .ret (s ++ [x], .done)

/-- The tree library over the arena.  Not code: used to state or prove properties. -/
def treeApi (T : Type u) [LinearOrder T] : Api Nat Bool where
  Op := TOp T
  Reply := TReply T
  V := Tree T
  VC := TreeC T
  good := Leaves
  den := TreeDen
  alone := TOp.alone
  prog := TOp.prog

/-- Not code: used to state or prove properties. -/
def Kept (g : List (Tree T)) (a : Arena Nat Bool) (s : List (TreeC T)) : Prop :=
  List.Forall₂ (fun x v => TreeDen v a x) s g

theorem Kept.mono {g : List (Tree T)} {a b : Arena Nat Bool} {s : List (TreeC T)} (h : Kept g a s) (e : Ext a b) :
    Kept g b s := List.Forall₂.imp (fun _ _ hx => TreeDen.mono hx e) h

theorem made_ok {g : List (Tree T)} {a : Arena Nat Bool} {s : List (TreeC T)} {p : Prog Nat Bool (TreeC T)}
    {v : Tree T} (hp : Yields p a (TreeDen v)) (hs : Kept g a s) :
    Yields (made s p) a (fun b x => Kept (g ++ [v]) b x.1 ∧ x.2 = .done) :=
  yields_bind hp fun b x e hx => Yields.ret e.right ⟨List.rel_append (hs.mono e) (.cons hx .nil), rfl⟩

theorem told_ok {α : Type w} {g : List (Tree T)} {a : Arena Nat Bool} {s : List (TreeC T)} {p : Prog Nat Bool α}
    {v : α} {q : α → TReply T} (hp : Yields p a (fun _ r => r = v)) (hs : Kept g a s) :
    Yields (p.bind fun x => .ret (s, q x)) a (fun b x => Kept g b x.1 ∧ x.2 = q v) :=
  yields_bind hp fun b x e hx => Yields.ret e.right ⟨hs.mono e, by rw [hx]⟩

theorem summarize_ok (t : Tree T) (inc exc : List T) :
    ∃ F, ∀ f ≥ F, ∀ (a : Arena Nat Bool) x, a.Inv → TreeDen t a x →
      Yields (summarizeP f x inc exc) a (fun _ r => r = t.summarize inc exc (t.counts inc exc)) := by
  obtain ⟨F, h⟩ := combinationsWith_ok t inc exc
  refine ⟨F, fun f hf a x hI hx => ?_⟩
  refine yields_bind (h f hf a x hI hx) fun b l e hl => Yields.ret e.right ?_
  rw [hl, hx.2]; rfl

theorem op_ok (op : TOp T) (g g' : List (Tree T)) (r : TReply T)
    (h : op.alone g = some (g', r)) : ∃ F, ∀ f ≥ F, ∀ (a : Arena Nat Bool) s, a.Inv → Leaves a → Kept g a s →
      Yields (op.prog f s) a (fun b x => Kept g' b x.1 ∧ x.2 = r) := by
  have bin : ∀ (p : Nat → C → C → P) (pN : Node → Node → Node), (∀ n m, OpOk p n m (pN n m)) → ∀ (x y : Nat),
      (g[x]?.bind fun x => g[y]?.bind fun y =>
        some (g ++ [(⟨pN x.root y.root, x.univ⟩ : Tree T)], (.done : TReply T))) = some (g', r) →
      ∃ F, ∀ f ≥ F, ∀ (a : Arena Nat Bool) s, a.Inv → Leaves a → Kept g a s →
        Yields (named s[x]? fun x => named s[y]? fun y => made s (binaryP p f x y)) a
          (fun b x => Kept g' b x.1 ∧ x.2 = r) := by
    intro p pN hp x y h
    simp only [Option.bind_eq_some_iff, Option.some.injEq, Prod.mk.injEq] at h
    obtain ⟨v, hv, v', hv', rfl, rfl⟩ := h
    obtain ⟨F, hF⟩ := binary_ok p pN hp v v'
    refine ⟨F, fun f hf a s hI h0 hs => ?_⟩
    obtain ⟨xc, ex, hx⟩ := held_rel hs hv
    obtain ⟨yc, ey, hy⟩ := held_rel hs hv'
    simp only [ex, ey, named]
    exact made_ok (hF f hf a xc yc hI hx hy) hs
  have tell : ∀ {β : Type u} (p : Nat → TreeC T → Prog Nat Bool β) (pN : Tree T → β) (q : β → TReply T),
      (∀ v, ∃ F, ∀ f ≥ F, ∀ (a : Arena Nat Bool) (xc : TreeC T), a.Inv → TreeDen v a xc →
        Yields (p f xc) a (fun _ r => r = pN v)) → ∀ (x : Nat),
      (g[x]?.bind fun x => some (g, q (pN x))) = some (g', r) →
      ∃ F, ∀ f ≥ F, ∀ (a : Arena Nat Bool) s, a.Inv → Leaves a → Kept g a s →
        Yields (named s[x]? fun x => (p f x).bind fun l => .ret (s, q l)) a (fun b x => Kept g' b x.1 ∧ x.2 = r) := by
    intro β p pN q hp x h
    simp only [Option.bind_eq_some_iff, Option.some.injEq, Prod.mk.injEq] at h
    obtain ⟨v, hv, rfl, rfl⟩ := h
    obtain ⟨F, hF⟩ := hp v
    refine ⟨F, fun f hf a s hI h0 hs => ?_⟩
    obtain ⟨xc, ex, hx⟩ := held_rel hs hv
    simp only [ex, named]
    exact told_ok (hF f hf a xc hI hx) hs
  have tell0 : ∀ (p : Nat → TreeC T → Prog Nat Bool (List Char)) (pN : Tree T → List Char)
      (q : List Char → TReply T),
      (∀ v, ∃ F, ∀ f ≥ F, ∀ (a : Arena Nat Bool) (xc : TreeC T), a.Inv → TreeDen v a xc →
        Yields (p f xc) a (fun _ r => r = pN v)) → ∀ (x : Nat),
      (g[x]?.bind fun x => some (g, q (pN x))) = some (g', r) →
      ∃ F, ∀ f ≥ F, ∀ (a : Arena Nat Bool) s, a.Inv → Leaves a → Kept g a s →
        Yields (named s[x]? fun x => (p f x).bind fun l => .ret (s, q l)) a (fun b x => Kept g' b x.1 ∧ x.2 = r) := by
    intro p pN q hp x h
    simp only [Option.bind_eq_some_iff, Option.some.injEq, Prod.mk.injEq] at h
    obtain ⟨v, hv, rfl, rfl⟩ := h
    obtain ⟨F, hF⟩ := hp v
    refine ⟨F, fun f hf a s hI h0 hs => ?_⟩
    obtain ⟨xc, ex, hx⟩ := held_rel hs hv
    simp only [ex, named]
    exact told_ok (hF f hf a xc hI hx) hs
  cases op with
  | empty uni =>
    cases h
    exact ⟨0, fun f hf a s hI h0 hs => made_ok (Yields.ret hI ⟨h0.1, rfl⟩) hs⟩
  | unit uni =>
    cases h
    exact ⟨0, fun f hf a s hI h0 hs => made_ok (Yields.ret hI ⟨h0.2, rfl⟩) hs⟩
  | tree uni c =>
    cases h
    exact ⟨0, fun f hf a s hI h0 hs => made_ok (tree_ok uni c hI h0) hs⟩
  | unique uni xs =>
    cases h
    obtain ⟨F, hF⟩ := unique_ok uni xs
    exact ⟨F, fun f hf a s hI h0 hs => made_ok (hF f hf a hI h0) hs⟩
  | hyper uni cs =>
    cases h
    obtain ⟨F, hF⟩ := hyper_ok uni cs
    exact ⟨F, fun f hf a s hI h0 hs => made_ok (hF f hf a hI h0) hs⟩
  | union x y => exact bin unionP Node.union union_ok x y h
  | intersect x y => exact bin intersectP Node.intersect intersect_ok x y h
  | product x y => exact bin productP Node.product product_ok x y h
  | restrict x inc exc =>
    simp only [TOp.alone, Option.bind_eq_some_iff, Option.some.injEq, Prod.mk.injEq] at h
    obtain ⟨v, hv, rfl, rfl⟩ := h
    obtain ⟨F, hF⟩ := restrict_ok v inc exc
    refine ⟨F, fun f hf a s hI h0 hs => ?_⟩
    obtain ⟨xc, ex, hx⟩ := held_rel hs hv
    simp only [TOp.prog, ex, named]
    exact made_ok (hF f hf a xc hI h0 hx) hs
  | combinations x => exact tell combinationsP Tree.combinations .sets combinations_ok x h
  | combinationsRecursive x =>
    exact tell combinationsRecursiveP Tree.combinationsRecursive .sets combinationsRecursive_ok x h
  | combinationsWith x inc exc =>
    exact tell (fun f t => combinationsWithP f t inc exc) (fun t => t.combinationsWith inc exc) .sets
      (fun v => combinationsWith_ok v inc exc) x h
  | summarize x inc exc =>
    exact tell (fun f t => summarizeP f t inc exc) (fun t => t.summarize inc exc (t.counts inc exc)) .statuses
      (fun v => summarize_ok v inc exc) x h
  | traverse x =>
    simp only [TOp.alone, Option.bind_eq_some_iff, Option.some.injEq, Prod.mk.injEq] at h
    obtain ⟨v, hv, t, ht, rfl, rfl⟩ := h
    obtain ⟨F, hF⟩ := traverse_ok v.univ v.root t ht
    refine ⟨F, fun f hf a s hI h0 hs => ?_⟩
    obtain ⟨xc, ex, hx⟩ := held_rel hs hv
    simp only [TOp.prog, ex, named]
    rw [hx.2]
    exact told_ok (q := .node) (hF f hf a _ hI hx.1) hs
  | same x y =>
    simp only [TOp.alone, Option.bind_eq_some_iff, Option.some.injEq, Prod.mk.injEq] at h
    obtain ⟨v, hv, v', hv', rfl, rfl⟩ := h
    refine ⟨0, fun f hf a s hI h0 hs => ?_⟩
    obtain ⟨xc, ex, hx⟩ := held_rel hs hv
    obtain ⟨yc, ey, hy⟩ := held_rel hs hv'
    simp only [TOp.prog, ex, ey, named]
    refine Yields.ret hI ⟨hs, ?_⟩
    have : xc = yc ↔ v = v' := by
      obtain ⟨xr, xu⟩ := xc
      obtain ⟨yr, yu⟩ := yc
      obtain ⟨vr, vu⟩ := v
      obtain ⟨wr, wu⟩ := v'
      obtain ⟨hr, rfl⟩ := hx
      obtain ⟨hr', rfl⟩ := hy
      simp only [TreeC.mk.injEq, Tree.mk.injEq]
      refine and_congr_left' ?_
      constructor
      · rintro rfl; exact tr_inj.1 (unfolds_fun hr hr')
      · rintro rfl; exact unfolds_inj hI hr hr'
    simp only [this]
  | debug x =>
    refine tell0 (fun f t => treeDebugP f t) treeDebug .text (fun v => ?_) x h
    obtain ⟨F, hF⟩ := fmtInner_ok v.root 1
    refine ⟨F, fun f hf a xc hI hx => yields_load hx.1 fun b c e1 hc => ?_⟩
    exact yields_bind (hF f hf b c e1.right hc) fun b2 t2 e2 h2 => Yields.ret e2.right (by rw [h2]; rfl)
  | save x =>
    refine tell saveP (fun x => serializeTree x x.univ.itemIndex) .data (fun v => ?_) x h
    obtain ⟨F, hF⟩ := buildText_ok (t1 := ['(', 'T', ')']) (t0 := ['(', 'F', ')']) (text := trText) rfl rfl
      (fun _ _ _ => rfl) (tr v.root)
    refine ⟨F, fun f hf a xc hI hx => yields_load hx.1 fun b c e1 hc => ?_⟩
    refine yields_bind (hF f hf b c e1.right hc) fun b2 t2 e2 h2 => Yields.ret e2.right ?_
    rw [h2, hx.2, trText_tr]; rfl
  | load d =>
    obtain ⟨F, hF⟩ := load_ok d
    refine ⟨F, fun f hf a s hI h0 hs => yields_bind (hF f hf a hI) fun b q e1 hq => ?_⟩
    simp only [TOp.alone] at h
    rcases hq with ⟨h1, rfl⟩ | ⟨v, x, h1, rfl, hx⟩
    · rw [h1] at h; cases h
      exact Yields.ret e1.right ⟨hs.mono e1, rfl⟩
    · rw [h1] at h; cases h
      exact Yields.ret e1.right ⟨List.rel_append (hs.mono e1) (.cons hx .nil), rfl⟩

theorem named_fails {α : Type w} {γ : Type u} {δ : Type u} {R : γ → δ → Prop} {s : List γ} {g : List δ}
    (hs : List.Forall₂ R s g) {i : Nat} (hi : g[i]? = none) {a : Arena Nat Bool} {k : γ → Prog Nat Bool α} :
    Fails (named s[i]? k) a := by
  have : s[i]? = none := by
    rw [List.getElem?_eq_none_iff] at hi ⊢
    rw [hs.length_eq]; exact hi
  rw [this]
  exact rfl

theorem op_fails (op : TOp T) (g : List (Tree T)) (h : op.alone g = none) :
    ∃ F, ∀ f ≥ F, ∀ (a : Arena Nat Bool) s, a.Inv → Leaves a → Kept g a s → Fails (op.prog f s) a := by
  have un : ∀ {α : Type u} (x : Nat) (k : Tree T → α)
      (p : Nat → List (TreeC T) → TreeC T → Prog Nat Bool (List (TreeC T) × TReply T)),
      (g[x]?.bind fun x => some (k x)) = none →
      ∃ F, ∀ f ≥ F, ∀ (a : Arena Nat Bool) s, a.Inv → Leaves a → Kept g a s → Fails (named s[x]? (p f s)) a := by
    intro α x k p h
    cases hv : g[x]? with
    | none => exact ⟨0, fun f hf a s hI h0 hs => named_fails hs hv⟩
    | some v => rw [hv] at h; cases h
  have bin : ∀ {α : Type u} (x y : Nat) (k : Tree T → Tree T → α)
      (p : Nat → List (TreeC T) → TreeC T → TreeC T → Prog Nat Bool (List (TreeC T) × TReply T)),
      (g[x]?.bind fun x => g[y]?.bind fun y => some (k x y)) = none →
      ∃ F, ∀ f ≥ F, ∀ (a : Arena Nat Bool) s, a.Inv → Leaves a → Kept g a s →
        Fails (named s[x]? fun x => named s[y]? fun y => p f s x y) a := by
    intro α x y k p h
    cases hv : g[x]? with
    | none => exact ⟨0, fun f hf a s hI h0 hs => named_fails hs hv⟩
    | some v =>
      cases hv' : g[y]? with
      | none =>
        refine ⟨0, fun f hf a s hI h0 hs => ?_⟩
        obtain ⟨xc, ex, hx⟩ := held_rel hs hv
        rw [ex]
        exact named_fails hs hv'
      | some v' => rw [hv, hv'] at h; cases h
  cases op with
  | empty => cases h
  | unit => cases h
  | tree => cases h
  | unique => cases h
  | hyper => cases h
  | union x y =>
    exact bin x y (fun x y => (g ++ [x.union y], (.done : TReply T))) (fun f s x y => made s (binaryP unionP f x y)) h
  | intersect x y =>
    exact bin x y (fun x y => (g ++ [x.intersect y], (.done : TReply T)))
      (fun f s x y => made s (binaryP intersectP f x y)) h
  | product x y =>
    exact bin x y (fun x y => (g ++ [x.product y], (.done : TReply T)))
      (fun f s x y => made s (binaryP productP f x y)) h
  | same x y =>
    exact bin x y (fun x y => (g, (.bool (decide (x = y)) : TReply T)))
      (fun f s x y => .ret (s, .bool (decide (x = y)))) h
  | restrict x inc exc =>
    exact un x (fun x => (g ++ [x.restrict inc exc], (.done : TReply T))) (fun f s x => made s (restrictP f x inc exc)) h
  | combinations x =>
    exact un x (fun x => (g, (.sets x.combinations : TReply T)))
      (fun f s x => (combinationsP f x).bind fun l => .ret (s, .sets l)) h
  | combinationsRecursive x =>
    exact un x (fun x => (g, (.sets x.combinationsRecursive : TReply T)))
      (fun f s x => (combinationsRecursiveP f x).bind fun l => .ret (s, .sets l)) h
  | combinationsWith x inc exc =>
    exact un x (fun x => (g, (.sets (x.combinationsWith inc exc) : TReply T)))
      (fun f s x => (combinationsWithP f x inc exc).bind fun l => .ret (s, .sets l)) h
  | summarize x inc exc =>
    exact un x (fun x => (g, (.statuses (x.summarize inc exc (x.counts inc exc)) : TReply T)))
      (fun f s x => (summarizeP f x inc exc).bind fun l => .ret (s, .statuses l)) h
  | traverse x =>
    simp only [TOp.alone] at h
    cases hv : g[x]? with
    | none => exact ⟨0, fun f hf a s hI h0 hs => named_fails hs hv⟩
    | some v =>
      rw [hv, Option.bind_some] at h
      have hn : fromNode v.univ v.root = none := by
        cases e : v.traverse with
        | none => exact e
        | some t => rw [e] at h; cases h
      obtain ⟨F, hF⟩ := traverse_fails v.univ v.root hn
      refine ⟨F, fun f hf a s hI h0 hs => ?_⟩
      obtain ⟨xc, ex, hx⟩ := held_rel hs hv
      simp only [TOp.prog]
      rw [ex]
      show Fails ((traverseP xc.univ f xc.root).bind _) a
      rw [hx.2]
      exact (hF f hf a _ hI hx.1).bind _
  | debug x =>
    exact un x (fun x => (g, (.text (treeDebug x) : TReply T)))
      (fun f s x => (treeDebugP f x).bind fun t => .ret (s, .text t)) h
  | save x =>
    exact un x (fun x => (g, (.data (serializeTree x x.univ.itemIndex) : TReply T)))
      (fun f s x => (saveP f x).bind fun d => .ret (s, .data d)) h
  | load d =>
    simp only [TOp.alone] at h
    split at h <;> cases h

theorem tree_sound : (treeApi T).Sound false true where
  init := init_leaves
  good_mono := fun h e => Leaves.mono h e
  den_mono := fun h e => TreeDen.mono h e
  ok := op_ok
  fails := op_fails

/-- C104: clients of the whole v1 tree API, deciding each call from the answers so far, started at any time with any
trees that finished client threads hold, next to threads doing anything at all, under every schedule: a client's
thread panics only if the client panics in a process of its own; one that finishes has exactly the output it has
alone, and holds as much; one that has done neither can go on; and at every moment it can come to its end, the same
as alone, while all others stand still. -/
theorem worlds_exact {O : Type w} :
    ∃ need : Client (TOp T) (TReply T) O → List (Tree T) → Nat,
    ∀ w : World (treeApi T) O, World.Run false true need w → ∀ t out, w.alone t = some out →
      (w.machine.threads t = .panicked → out = none) ∧
      (∀ s o, w.machine.threads t = .run (.ret (s, o)) → ∃ g, out = some (g, o) ∧ s.length = g.length) ∧
      (w.machine.threads t = .panicked ∨ (∃ r, w.machine.threads t = .run (.ret r)) ∨
        ∃ a th, TStep w.machine.arena (w.machine.threads t) a th) ∧
      ∃ m, World.Run false true need ⟨m, w.alone⟩ ∧ MRun w.machine m ∧
        (∀ s, s ≠ t → m.threads s = w.machine.threads s) ∧
        (out = none → m.threads t = .panicked) ∧
        ∀ g o, out = some (g, o) → ∃ s, m.threads t = .run (.ret (s, o)) ∧ s.length = g.length :=
  Arena.worlds_exact tree_sound (by decide)

/-- C104 with every lock operation and every read and write of the arena interleaved at will, for clients started
with the process; v1 takes the write lock without looking first. -/
theorem clients_locked {O : Type w} (G : Nat → Prop) (cl : Nat → Client (TOp T) (TReply T) O) :
    ∃ F : Nat → Nat, ∀ (f : Nat → Nat) (ths : Nat → Thread Nat Bool (List (TreeC T) × O)),
      (∀ t, G t → F t ≤ f t ∧ ths t = .run (clientP (treeApi T) (f t) (cl t) [])) →
      ∀ m, FRun true false true (fstart ths) m →
      (∀ t, G t → m.threads t = .out .panicked → (cl t).alone (treeApi T) [] = none) ∧
      (∀ t, G t → ∀ s o, m.threads t = .out (.run (.ret (s, o))) → ∃ g, (cl t).alone (treeApi T) [] = some (g, o)) ∧
      ({t | ¬ (FThread.out (ths t)).Finished}.Finite →
        (∀ P : Policy Nat Bool (fun _ => List (TreeC T) × O), P.Live →
          (∃ t, G t ∧ (cl t).alone (treeApi T) [] ≠ none ∧ ¬ (m.threads t).Finished) →
          ∃ t m', PStep P true false true t m m') ∧
        (∀ P : Policy Nat Bool (fun _ => List (TreeC T) × O), P.Live →
          ∃ m', PRun P true false true m m' ∧
            ∀ t, G t → (cl t).alone (treeApi T) [] ≠ none → ∃ s, m'.threads t = .out (.run (.ret s))) ∧
        (∀ σ : Nat → FMachine Nat Bool (fun _ => List (TreeC T) × O), σ 0 = m →
          ¬ ∀ k, ∃ t, FStep true false true t (σ k) (σ (k + 1)))) :=
  Arena.clients_locked tree_sound (by decide) true G cl

/-! ## When a client panics -/

/-- The positions a call names.  Not code: used to state or prove properties. -/
def TOp.names : TOp T → List Nat
  | .empty _ | .unit _ | .tree _ _ | .unique _ _ | .hyper _ _ | .load _ => []
  | .union x y | .intersect x y | .product x y | .same x y => [x, y]
  | .restrict x _ _ | .combinations x | .combinationsRecursive x | .combinationsWith x _ _ => [x]
  | .summarize x _ _ | .traverse x | .debug x | .save x => [x]

/-- An id occurs in a node.  Not code: used to state or prove properties. -/
def Occurs (i : Nat) : Node → Prop
  | .Leaf _ => False
  | .Branch j l h => i = j ∨ Occurs i l ∨ Occurs i h

theorem traverse_none {uni : Universe T} {n : Node} :
    fromNode uni n = none ↔ ∃ i, Occurs i n ∧ uni.items.length ≤ i := by
  induction n with
  | Leaf v => simp [fromNode, Occurs]
  | Branch j l h ihl ihh =>
    have hj : uni.getItem j = none ↔ uni.items.length ≤ j := by simp [Universe.getItem]
    have : fromNode uni (.Branch j l h) = none ↔
        uni.getItem j = none ∨ fromNode uni l = none ∨ fromNode uni h = none := by
      rw [fromNode]
      cases uni.getItem j <;> cases fromNode uni l <;> cases fromNode uni h <;> simp
    rw [this, hj, ihl, ihh]
    constructor
    · rintro (h | ⟨i, h1, h2⟩ | ⟨i, h1, h2⟩)
      · exact ⟨j, .inl rfl, h⟩
      · exact ⟨i, .inr (.inl h1), h2⟩
      · exact ⟨i, .inr (.inr h1), h2⟩
    · rintro ⟨i, rfl | h1 | h1, h2⟩
      · exact .inl h2
      · exact .inr (.inl ⟨i, h1, h2⟩)
      · exact .inr (.inr ⟨i, h1, h2⟩)

/-- C104: in a process of its own, a client panics at a call exactly if it names a tree it does not hold, or traverses
a tree in which some id stands for no item; whatever it holds.  With `worlds_exact`: next to other threads exactly
then, too. -/
theorem op_panics_iff (op : TOp T) (g : List (Tree T)) :
    op.alone g = none ↔ (∃ i ∈ op.names, g.length ≤ i) ∨
      ∃ x v i, op = .traverse x ∧ g[x]? = some v ∧ Occurs i v.root ∧ v.univ.items.length ≤ i := by
  have un : ∀ {γ : Type u} (x : Nat) (k : Tree T → γ),
      ((g[x]?.bind fun x => some (k x)) = none ↔ ∃ i ∈ [x], g.length ≤ i) := by
    intro γ x k
    simp only [List.mem_cons, List.not_mem_nil, or_false, exists_eq_left, ← List.getElem?_eq_none_iff]
    cases hx : g[x]? <;> simp
  have bin : ∀ {γ : Type u} (x y : Nat) (k : Tree T → Tree T → γ),
      ((g[x]?.bind fun x => g[y]?.bind fun y => some (k x y)) = none ↔ ∃ i ∈ [x, y], g.length ≤ i) := by
    intro γ x y k
    simp only [List.mem_cons, List.not_mem_nil, or_false, exists_eq_or_imp, exists_eq_left,
      ← List.getElem?_eq_none_iff]
    cases hx : g[x]? <;> cases hy : g[y]? <;> simp
  cases op with
  | traverse x =>
    simp only [TOp.alone, TOp.names, TOp.traverse.injEq, List.mem_cons, List.not_mem_nil, or_false, exists_eq_left,
      ]
    cases hx : g[x]? with
    | none => simp only [Option.bind_none, true_iff]; exact .inl (List.getElem?_eq_none_iff.1 hx)
    | some v =>
      have h := traverse_none (uni := v.univ) (n := v.root)
      have h2 : (v.traverse.bind fun t => some (g, (TReply.node t : TReply T))) = none ↔ v.traverse = none := by
        cases v.traverse <;> simp
      rw [Option.bind_some, h2, Tree.traverse, h]
      constructor
      · rintro ⟨i, h1, h3⟩; exact .inr ⟨x, v, i, rfl, hx, h1, h3⟩
      · rintro (h1 | ⟨x', v', i, rfl, h1, h3, h4⟩)
        · have := (List.getElem?_eq_some_iff.1 hx).1
          omega
        · rw [hx] at h1; cases h1; exact ⟨i, h3, h4⟩
  | load d =>
    simp only [TOp.alone, TOp.names]
    cases deserializeTree d <;> simp
  | empty => simp [TOp.alone, TOp.names]
  | unit => simp [TOp.alone, TOp.names]
  | tree => simp [TOp.alone, TOp.names]
  | unique => simp [TOp.alone, TOp.names]
  | hyper => simp [TOp.alone, TOp.names]
  | union x y => simp only [reduceCtorEq, false_and, exists_false, or_false]; exact bin x y _
  | intersect x y => simp only [reduceCtorEq, false_and, exists_false, or_false]; exact bin x y _
  | product x y => simp only [reduceCtorEq, false_and, exists_false, or_false]; exact bin x y _
  | same x y => simp only [reduceCtorEq, false_and, exists_false, or_false]; exact bin x y _
  | restrict x => simp only [reduceCtorEq, false_and, exists_false, or_false]; exact un x _
  | combinations x => simp only [reduceCtorEq, false_and, exists_false, or_false]; exact un x _
  | combinationsRecursive x => simp only [reduceCtorEq, false_and, exists_false, or_false]; exact un x _
  | combinationsWith x => simp only [reduceCtorEq, false_and, exists_false, or_false]; exact un x _
  | summarize x => simp only [reduceCtorEq, false_and, exists_false, or_false]; exact un x _
  | debug x => simp only [reduceCtorEq, false_and, exists_false, or_false]; exact un x _
  | save x => simp only [reduceCtorEq, false_and, exists_false, or_false]; exact un x _

/-- A client that makes a tree.  Not code: used to state or prove properties. -/
def maker : Client (TOp Nat) (TReply Nat) (TReply Nat) :=
  .call (.tree (Universe.fromVec [7, 8]) [8]) fun r => .ends r

/-- A client that writes the tree it was given, reads it back and compares.
Not code: used to state or prove properties. -/
def copier : Client (TOp Nat) (TReply Nat) (TReply Nat) := .call (.save 0) fun
  | .data d => .call (.load d) fun _ => .call (.same 0 1) fun r => .ends r
  | r => .ends r

/-- A client that combines the tree it was given with a tree over a universe of no items, and traverses the result.
Not code: used to state or prove properties. -/
def careless : Client (TOp Nat) (TReply Nat) (TReply Nat) :=
  .call (.empty (Universe.fromVec [])) fun _ => .call (.union 1 0) fun _ => .call (.traverse 2) fun r => .ends r

/-- Not vacuous: in one process, thread 0 makes a tree, thread 1 then gets it, writes it, reads it back and finds
the copy equal, while thread 2, given the same tree, traverses it over the wrong universe and panics. -/
example : ∃ need, ∃ w : World (treeApi Nat) (TReply Nat),
    World.Run false true need w ∧ w.machine.threads 2 = .panicked ∧
      (∃ s, w.machine.threads 0 = .run (.ret (s, .done))) ∧
      ∃ s, w.machine.threads 1 = .run (.ret (s, .bool true)) := by
  obtain ⟨need, hn⟩ := world_ok (O := TReply Nat) (tree_sound (T := Nat)) (by decide)
  refine ⟨need, ?_⟩
  have a0 : maker.alone (treeApi Nat) [] = some ([(Universe.fromVec [7, 8]).tree [8]], .done) := rfl
  have hb : Built (fun _ => True) [7, 8] ((Universe.fromVec [7, 8]).tree [8]) := .tree trivial
  have a1 : copier.alone (treeApi Nat) [(Universe.fromVec [7, 8]).tree [8]] =
      some ([(Universe.fromVec [7, 8]).tree [8], (Universe.fromVec [7, 8]).tree [8]],
        .bool true) := by
    have := tree_roundtrip (show [7, 8].length ≤ 2 ^ 64 by decide) hb (List.Perm.refl _)
    simp [copier, Client.alone, treeApi, TOp.alone, this]
  have a2 : careless.alone (treeApi Nat) [(Universe.fromVec [7, 8]).tree [8]] = none := by
    have h := empty_union (Universe.fromVec []) ((Universe.fromVec [7, 8]).tree [8])
    have h2 : Tree.traverse (⟨((Universe.fromVec [7, 8]).tree [8]).root, Universe.fromVec []⟩ : Tree Nat)
        = none := by
      rw [Tree.traverse, traverse_none]
      exact ⟨1, .inl rfl, by decide⟩
    simp [careless, Client.alone, treeApi, TOp.alone, h, h2]
  have hs := tree_sound (T := Nat)
  have r0 : World.Run (A := treeApi Nat) (O := TReply Nat) false true need
    ⟨⟨Arena.init false true, fun _ => .panicked⟩, fun _ => none⟩ := .boot _
  obtain ⟨m1, r1, k1, _, e1⟩ := spawn hs hn r0 0 maker [] rfl rfl a0
  obtain ⟨s1, e1, l1⟩ := e1 _ _ rfl
  obtain ⟨x, rfl⟩ := List.length_eq_one_iff.1 l1
  obtain ⟨m2, r2, k2, _, e2⟩ := spawn hs hn r1 1 copier [(0, 0)] (s := [x])
    (g := [(Universe.fromVec [7, 8]).tree [8]])
    (by simp only [pick, held, List.mapM_cons, List.mapM_nil, e1]; rfl) rfl a1
  obtain ⟨s2, e2, _⟩ := e2 _ _ rfl
  have e1' := k2 0 (by decide)
  dsimp only at e1'
  rw [e1] at e1'
  obtain ⟨m3, r3, k3, e3, _⟩ := spawn hs hn r2 2 careless [(0, 0)] (s := [x])
    (g := [(Universe.fromVec [7, 8]).tree [8]])
    (by simp only [pick, held, List.mapM_cons, List.mapM_nil, e1']; rfl) rfl a2
  refine ⟨⟨m3, _⟩, r3, e3 rfl, ⟨[x], ?_⟩, ⟨s2, ?_⟩⟩
  · show m3.threads 0 = _
    rw [k3 0 (by decide)]
    exact e1'
  · show m3.threads 1 = _
    rw [k3 1 (by decide)]
    exact e2

end Verif.ArenaZdd1
