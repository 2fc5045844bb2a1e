import Verif.ArenaText
import Verif.Debug
import Verif.Zdd2.Foreign

/-!
# Clients of the whole zdd2 forest API next to other threads (C103)

A client here decides each next call from the answers it got so far, keeps any number of forests, and may use every
public operation of `Forest`: the constructors, the set operations and filters, counting and listing, comparing,
printing, serializing, and reading any data whatever.  Forests read from inconsistent data make some calls panic
(C58); next to other threads they panic exactly then as well.
-/

set_option linter.unusedSimpArgs false
set_option linter.unusedSectionVars false
set_option linter.unusedVariables false

namespace Verif.ArenaZdd2
open Verif Verif.Arena Verif.Zdd2 Verif.Debug Verif.Text

universe u w

variable {T : Type u} [LinearOrder T]

/-! ## The remaining operations as programs over the arena -/

/-- weave/src/zdd2/forest/mod.rs:37-55: `fmt_inner`; a missing item is the failed `unwrap`. -/
def fmtInnerP (dbg : T → List Char) (univ : Universe T) : Nat → Nat → C → Prog Nat Bool (List Char)
  | 0, _, _ => .spin
  | _ + 1, _, .leaf true => .ret ['A', 'l', 'w', 'a', 'y', 's']
  | _ + 1, _, .leaf false => .ret ['N', 'e', 'v', 'e', 'r']
  | f + 1, indent, .branch id low high =>
    match univ.getItem id with
    | none => .panic
    | some item =>
      .load low fun low => (fmtInnerP dbg univ f (indent + 1) low).bind fun low =>
      .load high fun high => (fmtInnerP dbg univ f (indent + 1) high).bind fun high =>
      .ret (prioText id ++ [':', ' '] ++ dbg item ++ ['\n'] ++ bars indent ++ low ++ ['\n'] ++ bars indent ++ high)

/-- weave/src/zdd2/forest/mod.rs:31-35 -/
def forestDebugP (dbg : T → List Char) (f : Nat) (x : ForestC T) : Prog Nat Bool (List Char) :=
  .load x.root fun root => (fmtInnerP dbg x.univ f 1 root).bind fun t => .ret ('\n' :: t)

/-- weave/src/zdd2/forest/mod.rs:25-29, weave/src/zdd2/forest/node/serialize.rs:10-22,
weave/src/zdd2/forest/universe/serialize.rs:12-17 (see `Zdd2.serializeForest`; the order in which the hash map is
visited does not matter, C27). -/
def saveP (f : Nat) (x : ForestC T) : Prog Nat Bool (ForestData T) :=
  .load x.root fun root => (buildTextP ['(', 'A', ')'] ['(', 'N', ')'] f root).bind fun t =>
  .ret ⟨t, serializeUniverse x.univ.occurrences⟩

/-- weave/src/zdd2/forest/mod.rs:25-29, weave/src/zdd2/forest/node/serialize.rs:44-58,
weave/src/zdd2/forest/universe/serialize.rs:23-39; `none` is a deserialization error. -/
def loadP (f : Nat) (d : ForestData T) : Prog Nat Bool (Option (ForestC T)) :=
  (readTextP ['(', 'A', ')'] ['(', 'N', ')'] (fun id low high => branchP f id (.node low) (.node high))
    (trim d.root)).bind fun
  | none => .ret none
  | some root => .intern root fun root => .ret (some ⟨root, deserializeUniverse d.univ⟩)

theorem fmtInner_ok (dbg : T → List Char) (univ : Universe T) (n : Node) (d : Nat) :
    ∃ F, ∀ f ≥ F, ∀ (a : Arena Nat Bool) (c : C), a.Inv → CellDen a c (tr n) →
      (∀ t, forestInner dbg univ d n = some t → Yields (fmtInnerP dbg univ f d c) a (fun _ r => r = t)) ∧
      (forestInner dbg univ d n = none → Fails (fmtInnerP dbg univ f d c) a) := by
  induction n generalizing d with
  | Always =>
    refine ⟨1, fun f hf a c hI hc => ?_⟩
    obtain ⟨f, rfl⟩ : ∃ g, f = g + 1 := ⟨f - 1, by omega⟩
    obtain rfl := hc.leaf_inv
    exact ⟨fun t ht => by cases ht; exact Yields.ret hI rfl, fun h => by cases h⟩
  | Never =>
    refine ⟨1, fun f hf a c hI hc => ?_⟩
    obtain ⟨f, rfl⟩ : ∃ g, f = g + 1 := ⟨f - 1, by omega⟩
    obtain rfl := hc.leaf_inv
    exact ⟨fun t ht => by cases ht; exact Yields.ret hI rfl, fun h => by cases h⟩
  | Branch id l h ihl ihh =>
    obtain ⟨F1, k1⟩ := ihl (d + 1)
    obtain ⟨F2, k2⟩ := ihh (d + 1)
    refine ⟨F1 + F2 + 1, fun f hf a c hI hc => ?_⟩
    obtain ⟨f, rfl⟩ : ∃ g, f = g + 1 := ⟨f - 1, by omega⟩
    obtain ⟨lo, hi, rfl, ul, uh⟩ := hc.branch_inv
    rw [forestInner, fmtInnerP]
    cases e1 : univ.getItem id with
    | none => exact ⟨fun t ht => (by cases ht), fun _ => rfl⟩
    | some item =>
      dsimp only
      cases e2 : forestInner dbg univ (d + 1) l with
      | none =>
        refine ⟨fun t ht => (by cases ht), fun _ => fails_load ul fun b1 c1 x1 d1 => ?_⟩
        exact ((k1 f (by omega) b1 c1 x1.right d1).2 e2).bind _
      | some tl =>
        cases e3 : forestInner dbg univ (d + 1) h with
        | none =>
          refine ⟨fun t ht => (by cases ht), fun _ => fails_load ul fun b1 c1 x1 d1 => ?_⟩
          refine fails_bind ((k1 f (by omega) b1 c1 x1.right d1).1 tl e2) fun b2 t2 x2 _ => ?_
          refine fails_load (uh.mono (x1.trans x2)) fun b3 c3 x3 d3 => ?_
          exact ((k2 f (by omega) b3 c3 x3.right d3).2 e3).bind _
        | some th =>
          refine ⟨fun t ht => ?_, fun h => by cases h⟩
          cases ht
          refine yields_load ul fun b1 c1 x1 d1 => ?_
          refine yields_bind ((k1 f (by omega) b1 c1 x1.right d1).1 tl e2) fun b2 t2 x2 q2 => ?_
          refine yields_load (uh.mono (x1.trans x2)) fun b3 c3 x3 d3 => ?_
          refine yields_bind ((k2 f (by omega) b3 c3 x3.right d3).1 th e3) fun b4 t4 x4 q4 => ?_
          exact Yields.ret x4.right (by rw [q2, q4])

/-- The text of a tree.  Not code: used to state or prove properties. -/
def trText : Tr Nat Bool → List Char
  | .leaf true => ['(', 'A', ')']
  | .leaf false => ['(', 'N', ')']
  | .branch i l h => branchText i (trText l) (trText h)

theorem trText_tr (n : Node) : trText (tr n) = n.buildNodeString := by
  induction n with
  | Branch i l h ihl ihh => simp [tr, trText, Node.buildNodeString, ihl, ihh]
  | _ => rfl

theorem translateRoot_fails (oldU newU : Universe T) (n : Node) (h : Forest.translateRoot oldU newU n = none) :
    ∃ F, ∀ f ≥ F, ∀ (a : Arena Nat Bool) (c : C), a.Inv → Zero a → CellDen a c (tr n) →
      Fails (translateRootP f oldU newU c) a := by
  induction n with
  | Always => cases h
  | Never => cases h
  | Branch id l r ihl ihr =>
    rw [Forest.translateRoot] at h
    cases e1 : Forest.translateRoot oldU newU l with
    | none =>
      obtain ⟨F1, k1⟩ := ihl e1
      refine ⟨F1 + 1, fun f hf a c hI h0 hc => ?_⟩
      obtain ⟨f, rfl⟩ : ∃ g, f = g + 1 := ⟨f - 1, by omega⟩
      obtain ⟨lo, hi, rfl, ul, uh⟩ := hc.branch_inv
      exact fails_load ul fun b1 c1 x1 d1 => (k1 f (by omega) b1 c1 x1.right (h0.mono x1) d1).bind _
    | some low =>
      obtain ⟨F1, k1⟩ := translateRoot_ok oldU newU l low e1
      cases e2 : Forest.translateRoot oldU newU r with
      | none =>
        obtain ⟨F2, k2⟩ := ihr e2
        refine ⟨F1 + F2 + 1, fun f hf a c hI h0 hc => ?_⟩
        obtain ⟨f, rfl⟩ : ∃ g, f = g + 1 := ⟨f - 1, by omega⟩
        obtain ⟨lo, hi, rfl, ul, uh⟩ := hc.branch_inv
        refine fails_load ul fun b1 c1 x1 d1 => ?_
        refine fails_bind (k1 f (by omega) b1 c1 x1.right (h0.mono x1) d1) fun b2 c2 x2 _ => ?_
        refine fails_load (uh.mono (x1.trans x2)) fun b3 c3 x3 d3 => ?_
        exact (k2 f (by omega) b3 c3 x3.right (h0.mono ((x1.trans x2).trans x3)) d3).bind _
      | some high =>
        obtain ⟨F2, k2⟩ := translateRoot_ok oldU newU r high e2
        refine ⟨F1 + F2 + 1, fun f hf a c hI h0 hc => ?_⟩
        obtain ⟨f, rfl⟩ : ∃ g, f = g + 1 := ⟨f - 1, by omega⟩
        obtain ⟨lo, hi, rfl, ul, uh⟩ := hc.branch_inv
        rw [translateRootP, translateRootBody]
        refine fails_load ul fun b1 c1 x1 d1 => ?_
        refine fails_bind (k1 f (by omega) b1 c1 x1.right (h0.mono x1) d1) fun b2 c2 x2 _ => ?_
        refine fails_load (uh.mono (x1.trans x2)) fun b3 c3 x3 d3 => ?_
        refine fails_bind (k2 f (by omega) b3 c3 x3.right (h0.mono ((x1.trans x2).trans x3)) d3) fun b4 c4 x4 _ => ?_
        rw [e1, e2] at h
        cases e3 : oldU.getItem id with
        | none => exact rfl
        | some item =>
          rw [e3] at h
          dsimp only at h ⊢
          cases e4 : newU.getPriority item with
          | none => exact rfl
          | some k => rw [e4] at h; cases h

theorem binary_fails (op : Nat → C → C → P) (opN : Node → Node → Node) (x y : Forest T)
    (h : (Forest.translateRoots x y).map (fun r => Forest.canonical (opN r.2.1 r.2.2) r.1) = none) :
    ∃ F, ∀ f ≥ F, ∀ (a : Arena Nat Bool) (xc yc : ForestC T), a.Inv → Zero a → ForestDen x a xc →
      ForestDen y a yc → Fails (binaryP op f xc yc) a := by
  rw [Option.map_eq_none_iff, Forest.translateRoots] at h
  cases e1 : Forest.translateRoot x.univ (Universe.merge x.univ y.univ) x.root with
  | none =>
    obtain ⟨F1, k1⟩ := translateRoot_fails _ _ _ e1
    refine ⟨F1, fun f hf a xc yc hI h0 hx hy => ?_⟩
    rw [binaryP, hx.2, hy.2]
    refine fails_load hx.1 fun b1 c1 x1 d1 => fails_load (hy.1.mono x1) fun b2 c2 x2 d2 => ?_
    exact (k1 f (by omega) b2 c1 x2.right (h0.mono (x1.trans x2)) (d1.mono x2)).bind _
  | some r1 =>
    obtain ⟨F1, k1⟩ := translateRoot_ok _ _ _ _ e1
    cases e2 : Forest.translateRoot y.univ (Universe.merge x.univ y.univ) y.root with
    | none =>
      obtain ⟨F2, k2⟩ := translateRoot_fails _ _ _ e2
      refine ⟨F1 + F2, fun f hf a xc yc hI h0 hx hy => ?_⟩
      rw [binaryP, hx.2, hy.2]
      refine fails_load hx.1 fun b1 c1 x1 d1 => fails_load (hy.1.mono x1) fun b2 c2 x2 d2 => ?_
      refine fails_bind (k1 f (by omega) b2 c1 x2.right (h0.mono (x1.trans x2)) (d1.mono x2)) fun b3 c3 x3 _ => ?_
      exact (k2 f (by omega) b3 c2 x3.right (h0.mono ((x1.trans x2).trans x3)) (d2.mono x3)).bind _
    | some r2 => simp only [e1, e2] at h; cases h

theorem load_ok (d : ForestData T) :
    ∃ F, ∀ f ≥ F, ∀ a : Arena Nat Bool, a.Inv → Yields (loadP f d) a (fun b r =>
      (deserializeForest d = none ∧ r = none) ∨
      ∃ g x, deserializeForest d = some g ∧ r = some x ∧ ForestDen g b x) := by
  obtain ⟨F, h⟩ := readText_ok (tr := tr) (g := Node.grammar) rfl rfl
    (br := fun f id low high => branchP f id (.node low) (.node high)) (by
      intro id n m
      obtain ⟨F, h⟩ := branch_ok id n m
      exact ⟨F, fun f hf a c d hI hc hd => h f hf a _ _ hI (.node hc) (.node hd)⟩) (trim d.root)
  refine ⟨F, fun f hf a hI => yields_bind (h f hf a hI) fun b r e hr => ?_⟩
  rcases hr with ⟨h1, rfl⟩ | ⟨n, c, h1, rfl, hc⟩
  · exact Yields.ret e.right (.inl ⟨by rw [deserializeForest, Node.parseNodeString, h1]; rfl, rfl⟩)
  · refine yields_intern hc fun b2 i e2 u => Yields.ret e2.right (.inr ⟨⟨n, deserializeUniverse d.univ⟩, ⟨i, _⟩, ?_, rfl, u, rfl⟩)
    rw [deserializeForest, Node.parseNodeString, h1]; rfl

/-! ## The API -/

/-- The calls of the public API of `Forest` (numbers are positions in the client's list of forests):
weave/src/zdd2/forest/mod.rs:25, 31, 57-177. -/
inductive FOp (T : Type u) where
  | empty
  | unit (items : List T)
  | many (matrix : List (List T))
  | unique (items : List T)
  | union (x y : Nat)
  | intersect (x y : Nat)
  | product (x y : Nat)
  | subset (x : Nat) (e : T)
  | subsetNot (x : Nat) (e : T)
  | subsetAll (x : Nat) (es : List T)
  | subsetNone (x : Nat) (es : List T)
  | len (x : Nat)
  | isEmpty (x : Nat)
  | trees (x : Nat)
  | occurrences (x : Nat)
  | same (x y : Nat)
  | debug (x : Nat)
  | save (x : Nat)
  | load (d : ForestData T)

/-- What a call answers; a new forest is put at the end of the list and answered by `done`.
Not code: used to state or prove properties. -/
inductive FReply (T : Type u) where
  | done
  | count (n : Nat)
  | bool (b : Bool)
  | sets (l : List (List T))
  | counts (l : List (T × Nat))
  | text (t : List Char)
  | data (d : ForestData T)
  | readFailed

/-- One call in a process of its own, over the sequential model; `none` is a panic: of the client (it names nothing
it holds) or of the library.  Not code: used to state or prove properties. -/
def FOp.alone (dbg : T → List Char) (s : List (Forest T)) : FOp T → Option (List (Forest T) × FReply T)
  | .empty => some (s ++ [Forest.empty], .done)
  | .unit items => some (s ++ [Forest.unit items], .done)
  | .many matrix => some (s ++ [Forest.many matrix], .done)
  | .unique items => some (s ++ [Forest.unique items], .done)
  | .union x y => s[x]?.bind fun x => s[y]?.bind fun y => (x.union y).bind fun r => some (s ++ [r], .done)
  | .intersect x y => s[x]?.bind fun x => s[y]?.bind fun y => (x.intersect y).bind fun r => some (s ++ [r], .done)
  | .product x y => s[x]?.bind fun x => s[y]?.bind fun y => (x.product y).bind fun r => some (s ++ [r], .done)
  | .subset x e => s[x]?.bind fun x => some (s ++ [x.subset e], .done)
  | .subsetNot x e => s[x]?.bind fun x => some (s ++ [x.subsetNot e], .done)
  | .subsetAll x es => s[x]?.bind fun x => some (s ++ [x.subsetAll es], .done)
  | .subsetNone x es => s[x]?.bind fun x => some (s ++ [x.subsetNone es], .done)
  | .len x => s[x]?.bind fun x => some (s, .count x.len)
  | .isEmpty x => s[x]?.bind fun x => some (s, .bool x.isEmpty)
  | .trees x => s[x]?.bind fun x => some (s, .sets x.trees)
  | .occurrences x => s[x]?.bind fun x => some (s, .counts x.occurrences)
  | .same x y => s[x]?.bind fun x => s[y]?.bind fun y => some (s, .bool (decide (x = y)))
  | .debug x => s[x]?.bind fun x => (forestDebug dbg x).bind fun t => some (s, .text t)
  | .save x => s[x]?.bind fun x => some (s, .data (serializeForest x.univ.occurrences x))
  | .load d => match deserializeForest d with
    | none => some (s, .readFailed)
    | some x => some (s ++ [x], .done)

/-- A new forest.  Not code: used to state or prove properties. -/
def made (s : List (ForestC T)) (p : Prog Nat Bool (ForestC T)) : Prog Nat Bool (List (ForestC T) × FReply T) :=
  p.bind fun x => .ret (s ++ [x], .done)

/-- The same call as a program over the shared arena: weave/src/zdd2/forest/mod.rs:25, 31, 57-177 and the
functions cited at the programs used. -/
def FOp.prog (dbg : T → List Char) (f : Nat) (s : List (ForestC T)) :
    FOp T → Prog Nat Bool (List (ForestC T) × FReply T)
  | .empty => made s emptyP
  | .unit items => made s (unitP f items)
  | .many matrix => made s (manyP f matrix)
  | .unique items => made s (uniqueP f items)
  | .union x y => named s[x]? fun x => named s[y]? fun y => made s (binaryP unionP f x y)
  | .intersect x y => named s[x]? fun x => named s[y]? fun y => made s (binaryP intersectP f x y)
  | .product x y => named s[x]? fun x => named s[y]? fun y => made s (binaryP productP f x y)
  | .subset x e => named s[x]? fun x => made s (forestSubsetP f x e)
  | .subsetNot x e => named s[x]? fun x => made s (forestSubsetNotP f x e)
  | .subsetAll x es => named s[x]? fun x => made s (subsetManyP f x es (fun _ => emptyP) subsetAllP)
  | .subsetNone x es => named s[x]? fun x => made s (subsetManyP f x es .ret subsetNoneP)
  | .len x => named s[x]? fun x => (treesP f x.root).bind fun l => .ret (s, .count l.length)
  | .isEmpty x => named s[x]? fun x => (treesP f x.root).bind fun l => .ret (s, .bool l.isEmpty)
  | .trees x => named s[x]? fun x => (forestTreesP f x).bind fun l => .ret (s, .sets l)
  | .occurrences x => named s[x]? fun x => .ret (s, .counts (sortByKey x.univ.occurrences))
  | .same x y => named s[x]? fun x => named s[y]? fun y => .ret (s, .bool (decide (x = y)))
  | .debug x => named s[x]? fun x => (forestDebugP dbg f x).bind fun t => .ret (s, .text t)
  | .save x => named s[x]? fun x => (saveP f x).bind fun d => .ret (s, .data d)
  | .load d => (loadP f d).bind fun
    | none => .ret (s, .readFailed)
    | some x => .ret (s ++ [x], .done)

/-- The forest library over the arena.  Not code: used to state or prove properties. -/
def forestApi (dbg : T → List Char) : Api Nat Bool where
  Op := FOp T
  Reply := FReply T
  V := Forest T
  VC := ForestC T
  good := Zero
  den := ForestDen
  alone := FOp.alone dbg
  prog := FOp.prog dbg

/-- Not code: used to state or prove properties. -/
def Kept (g : List (Forest T)) (a : Arena Nat Bool) (s : List (ForestC T)) : Prop :=
  List.Forall₂ (fun x v => ForestDen v a x) s g

theorem Kept.mono {g : List (Forest T)} {a b : Arena Nat Bool} {s : List (ForestC T)} (h : Kept g a s) (e : Ext a b) :
    Kept g b s := List.Forall₂.imp (fun _ _ hx => ForestDen.mono hx e) h

theorem made_ok {g : List (Forest T)} {a : Arena Nat Bool} {s : List (ForestC T)} {p : Prog Nat Bool (ForestC T)}
    {v : Forest T} (hp : Yields p a (ForestDen v)) (hs : Kept g a s) :
    Yields (made s p) a (fun b x => Kept (g ++ [v]) b x.1 ∧ x.2 = .done) :=
  yields_bind hp fun b x e hx => Yields.ret e.right ⟨List.rel_append (hs.mono e) (.cons hx .nil), rfl⟩

theorem told_ok {α : Type w} {g : List (Forest T)} {a : Arena Nat Bool} {s : List (ForestC T)} {p : Prog Nat Bool α}
    {v : α} {q : α → FReply T} (hp : Yields p a (fun _ r => r = v)) (hs : Kept g a s) :
    Yields (p.bind fun x => .ret (s, q x)) a (fun b x => Kept g b x.1 ∧ x.2 = q v) :=
  yields_bind hp fun b x e hx => Yields.ret e.right ⟨hs.mono e, by rw [hx]⟩

theorem op_ok (dbg : T → List Char) (op : FOp T) (g g' : List (Forest T)) (r : FReply T)
    (h : op.alone dbg g = some (g', r)) : ∃ F, ∀ f ≥ F, ∀ (a : Arena Nat Bool) s, a.Inv → Zero a → Kept g a s →
      Yields (op.prog dbg f s) a (fun b x => Kept g' b x.1 ∧ x.2 = r) := by
  have bin : ∀ (p : Nat → C → C → P) (pN : Node → Node → Node), (∀ n m, OpOk p n m (pN n m)) → ∀ (x y : Nat),
      (g[x]?.bind fun x => g[y]?.bind fun y =>
        ((Forest.translateRoots x y).map (fun r => Forest.canonical (pN r.2.1 r.2.2) r.1)).bind fun r =>
        some (g ++ [r], (.done : FReply T))) = some (g', r) →
      ∃ F, ∀ f ≥ F, ∀ (a : Arena Nat Bool) s, a.Inv → Zero a → Kept g a s →
        Yields (named s[x]? fun x => named s[y]? fun y => made s (binaryP p f x y)) a
          (fun b x => Kept g' b x.1 ∧ x.2 = r) := by
    intro p pN hp x y h
    simp only [Option.bind_eq_some_iff, Option.some.injEq, Prod.mk.injEq] at h
    obtain ⟨v, hv, v', hv', z, hz, rfl, rfl⟩ := h
    obtain ⟨F, hF⟩ := binary_ok p pN hp v v' z hz
    refine ⟨F, fun f hf a s hI h0 hs => ?_⟩
    obtain ⟨xc, ex, hx⟩ := held_rel hs hv
    obtain ⟨yc, ey, hy⟩ := held_rel hs hv'
    simp only [ex, ey, named]
    exact made_ok (hF f hf a xc yc hI h0 hx hy) hs
  have un : ∀ (p : Nat → ForestC T → Prog Nat Bool (ForestC T)) (pN : Forest T → Forest T),
      (∀ v, ∃ F, ∀ f ≥ F, ∀ (a : Arena Nat Bool) (xc : ForestC T), a.Inv → Zero a → ForestDen v a xc →
        Yields (p f xc) a (ForestDen (pN v))) → ∀ (x : Nat),
      (g[x]?.bind fun x => some (g ++ [pN x], (.done : FReply T))) = some (g', r) →
      ∃ F, ∀ f ≥ F, ∀ (a : Arena Nat Bool) s, a.Inv → Zero a → Kept g a s →
        Yields (named s[x]? fun x => made s (p f x)) a (fun b x => Kept g' b x.1 ∧ x.2 = r) := by
    intro p pN hp x h
    simp only [Option.bind_eq_some_iff, Option.some.injEq, Prod.mk.injEq] at h
    obtain ⟨v, hv, rfl, rfl⟩ := h
    obtain ⟨F, hF⟩ := hp v
    refine ⟨F, fun f hf a s hI h0 hs => ?_⟩
    obtain ⟨xc, ex, hx⟩ := held_rel hs hv
    simp only [ex, named]
    exact made_ok (hF f hf a xc hI h0 hx) hs
  cases op with
  | empty =>
    cases h
    obtain ⟨F, hF⟩ := empty_ok (T := T)
    exact ⟨F, fun f hf a s hI h0 hs => made_ok (hF f hf a hI h0) hs⟩
  | unit items =>
    cases h
    obtain ⟨F, hF⟩ := unit_ok items
    exact ⟨F, fun f hf a s hI h0 hs => made_ok (hF f hf a hI h0) hs⟩
  | many matrix =>
    cases h
    obtain ⟨F, hF⟩ := many_ok matrix
    exact ⟨F, fun f hf a s hI h0 hs => made_ok (hF f hf a hI h0) hs⟩
  | unique items =>
    cases h
    obtain ⟨F, hF⟩ := unique_ok items
    exact ⟨F, fun f hf a s hI h0 hs => made_ok (hF f hf a hI h0) hs⟩
  | union x y => exact bin unionP Node.union union_ok x y h
  | intersect x y => exact bin intersectP Node.intersect intersect_ok x y h
  | product x y => exact bin productP Node.product product_ok x y h
  | subset x e =>
    exact un (fun f x => forestSubsetP f x e) (fun x => x.subset e) (fun v => forestSubset_ok v e) x h
  | subsetNot x e =>
    exact un (fun f x => forestSubsetNotP f x e) (fun x => x.subsetNot e) (fun v => forestSubsetNot_ok v e) x h
  | subsetAll x es =>
    exact un (fun f x => subsetManyP f x es (fun _ => emptyP) subsetAllP) (fun x => x.subsetAll es)
      (fun v => subsetMany_ok v es _ (fun _ => Forest.empty) _ _ (fun a xc hI h0 _ => Yields.ret hI ⟨h0, rfl⟩)
        subsetAll_ok) x h
  | subsetNone x es =>
    exact un (fun f x => subsetManyP f x es .ret subsetNoneP) (fun x => x.subsetNone es)
      (fun v => subsetMany_ok v es _ (fun f => f) _ _ (fun a xc hI _ hx => Yields.ret hI hx) subsetNone_ok) x h
  | len x =>
    simp only [FOp.alone, Option.bind_eq_some_iff, Option.some.injEq, Prod.mk.injEq] at h
    obtain ⟨v, hv, rfl, rfl⟩ := h
    obtain ⟨F, hF⟩ := trees_ok v.root
    refine ⟨F, fun f hf a s hI h0 hs => ?_⟩
    obtain ⟨xc, ex, hx⟩ := held_rel hs hv
    simp only [FOp.prog, ex, named]
    exact told_ok (q := fun l => .count l.length) (hF f hf a _ hI hx.1) hs
  | isEmpty x =>
    simp only [FOp.alone, Option.bind_eq_some_iff, Option.some.injEq, Prod.mk.injEq] at h
    obtain ⟨v, hv, rfl, rfl⟩ := h
    obtain ⟨F, hF⟩ := trees_ok v.root
    refine ⟨F, fun f hf a s hI h0 hs => ?_⟩
    obtain ⟨xc, ex, hx⟩ := held_rel hs hv
    simp only [FOp.prog, ex, named]
    exact told_ok (q := fun l => .bool l.isEmpty) (hF f hf a _ hI hx.1) hs
  | trees x =>
    simp only [FOp.alone, Option.bind_eq_some_iff, Option.some.injEq, Prod.mk.injEq] at h
    obtain ⟨v, hv, rfl, rfl⟩ := h
    obtain ⟨F, hF⟩ := forestTrees_ok v
    refine ⟨F, fun f hf a s hI h0 hs => ?_⟩
    obtain ⟨xc, ex, hx⟩ := held_rel hs hv
    simp only [FOp.prog, ex, named]
    exact told_ok (q := .sets) (hF f hf a _ hI hx) hs
  | occurrences x =>
    simp only [FOp.alone, Option.bind_eq_some_iff, Option.some.injEq, Prod.mk.injEq] at h
    obtain ⟨v, hv, rfl, rfl⟩ := h
    refine ⟨0, fun f hf a s hI h0 hs => ?_⟩
    obtain ⟨xc, ex, hx⟩ := held_rel hs hv
    simp only [FOp.prog, ex, named]
    exact Yields.ret hI ⟨hs, by rw [hx.2]; rfl⟩
  | same x y =>
    simp only [FOp.alone, Option.bind_eq_some_iff, Option.some.injEq, Prod.mk.injEq] at h
    obtain ⟨v, hv, v', hv', rfl, rfl⟩ := h
    refine ⟨0, fun f hf a s hI h0 hs => ?_⟩
    obtain ⟨xc, ex, hx⟩ := held_rel hs hv
    obtain ⟨yc, ey, hy⟩ := held_rel hs hv'
    simp only [FOp.prog, ex, ey, named]
    refine Yields.ret hI ⟨hs, ?_⟩
    have : xc = yc ↔ v = v' := by
      obtain ⟨xr, xu⟩ := xc
      obtain ⟨yr, yu⟩ := yc
      obtain ⟨vr, vu⟩ := v
      obtain ⟨wr, wu⟩ := v'
      obtain ⟨hr, rfl⟩ := hx
      obtain ⟨hr', rfl⟩ := hy
      simp only [ForestC.mk.injEq, Forest.mk.injEq]
      refine and_congr_left' ?_
      constructor
      · rintro rfl; exact tr_inj.1 (unfolds_fun hr hr')
      · rintro rfl; exact unfolds_inj hI hr hr'
    simp only [this]
  | debug x =>
    simp only [FOp.alone, forestDebug, Option.bind_eq_some_iff, Option.map_eq_some_iff, Option.some.injEq,
      Prod.mk.injEq] at h
    obtain ⟨v, hv, _, ⟨t, ht, rfl⟩, rfl, rfl⟩ := h
    obtain ⟨F, hF⟩ := fmtInner_ok dbg v.univ v.root 1
    refine ⟨F, fun f hf a s hI h0 hs => ?_⟩
    obtain ⟨xc, ex, hx⟩ := held_rel hs hv
    simp only [FOp.prog, ex, named]
    refine told_ok (q := .text) (yields_load hx.1 fun b c e1 hc => ?_) hs
    rw [hx.2]
    exact yields_bind ((hF f hf b c e1.right hc).1 t ht) fun b2 t2 e2 h2 => Yields.ret e2.right (by rw [h2])
  | save x =>
    simp only [FOp.alone, Option.bind_eq_some_iff, Option.some.injEq, Prod.mk.injEq] at h
    obtain ⟨v, hv, rfl, rfl⟩ := h
    obtain ⟨F, hF⟩ := buildText_ok (t1 := ['(', 'A', ')']) (t0 := ['(', 'N', ')']) (text := trText) rfl rfl
      (fun _ _ _ => rfl) (tr v.root)
    refine ⟨F, fun f hf a s hI h0 hs => ?_⟩
    obtain ⟨xc, ex, hx⟩ := held_rel hs hv
    simp only [FOp.prog, ex, named]
    refine told_ok (q := .data) (yields_load hx.1 fun b c e1 hc => ?_) hs
    refine yields_bind (hF f hf b c e1.right hc) fun b2 t2 e2 h2 => Yields.ret e2.right ?_
    rw [h2, hx.2, trText_tr]; rfl
  | load d =>
    obtain ⟨F, hF⟩ := load_ok d
    refine ⟨F, fun f hf a s hI h0 hs => yields_bind (hF f hf a hI) fun b q e1 hq => ?_⟩
    simp only [FOp.alone] at h
    rcases hq with ⟨h1, rfl⟩ | ⟨v, x, h1, rfl, hx⟩
    · rw [h1] at h; cases h
      exact Yields.ret e1.right ⟨hs.mono e1, rfl⟩
    · rw [h1] at h; cases h
      exact Yields.ret e1.right ⟨List.rel_append (hs.mono e1) (.cons hx .nil), rfl⟩

theorem named_fails {α : Type w} {γ : Type u} {δ : Type u} {R : γ → δ → Prop} {s : List γ} {g : List δ}
    (hs : List.Forall₂ R s g) {i : Nat} (hi : g[i]? = none) {a : Arena Nat Bool} {k : γ → Prog Nat Bool α} :
    Fails (named s[i]? k) a := by
  have : s[i]? = none := by
    rw [List.getElem?_eq_none_iff] at hi ⊢
    rw [hs.length_eq]; exact hi
  rw [this]
  exact rfl

theorem op_fails (dbg : T → List Char) (op : FOp T) (g : List (Forest T)) (h : op.alone dbg g = none) :
    ∃ F, ∀ f ≥ F, ∀ (a : Arena Nat Bool) s, a.Inv → Zero a → Kept g a s → Fails (op.prog dbg f s) a := by
  have bin : ∀ (p : Nat → C → C → P) (pN : Node → Node → Node), ∀ (x y : Nat),
      (g[x]?.bind fun x => g[y]?.bind fun y =>
        ((Forest.translateRoots x y).map (fun r => Forest.canonical (pN r.2.1 r.2.2) r.1)).bind fun r =>
        some (g ++ [r], (.done : FReply T))) = none →
      ∃ F, ∀ f ≥ F, ∀ (a : Arena Nat Bool) s, a.Inv → Zero a → Kept g a s →
        Fails (named s[x]? fun x => named s[y]? fun y => made s (binaryP p f x y)) a := by
    intro p pN x y h
    cases hv : g[x]? with
    | none => exact ⟨0, fun f hf a s hI h0 hs => named_fails hs hv⟩
    | some v =>
      cases hv' : g[y]? with
      | none =>
        refine ⟨0, fun f hf a s hI h0 hs => ?_⟩
        obtain ⟨xc, ex, hx⟩ := held_rel hs hv
        rw [ex]
        exact named_fails hs hv'
      | some v' =>
        rw [hv, hv', Option.bind_some, Option.bind_some, Option.bind_eq_none_iff] at h
        have h' : (Forest.translateRoots v v').map (fun r => Forest.canonical (pN r.2.1 r.2.2) r.1) = none := by
          cases hz : (Forest.translateRoots v v').map (fun r => Forest.canonical (pN r.2.1 r.2.2) r.1) with
          | none => rfl
          | some z => exact absurd (h z hz) (by simp)
        obtain ⟨F, hF⟩ := binary_fails p pN v v' h'
        refine ⟨F, fun f hf a s hI h0 hs => ?_⟩
        obtain ⟨xc, ex, hx⟩ := held_rel hs hv
        obtain ⟨yc, ey, hy⟩ := held_rel hs hv'
        rw [ex, ey]
        exact (hF f hf a xc yc hI h0 hx hy).bind _
  have un : ∀ {α : Type u} (x : Nat) (k : Forest T → α)
      (p : Nat → List (ForestC T) → ForestC T → Prog Nat Bool (List (ForestC T) × FReply T)),
      (g[x]?.bind fun x => some (k x)) = none →
      ∃ F, ∀ f ≥ F, ∀ (a : Arena Nat Bool) s, a.Inv → Zero a → Kept g a s → Fails (named s[x]? (p f s)) a := by
    intro α x k p h
    cases hv : g[x]? with
    | none => exact ⟨0, fun f hf a s hI h0 hs => named_fails hs hv⟩
    | some v => rw [hv] at h; cases h
  cases op with
  | empty => cases h
  | unit => cases h
  | many => cases h
  | unique => cases h
  | union x y => exact bin unionP Node.union x y h
  | intersect x y => exact bin intersectP Node.intersect x y h
  | product x y => exact bin productP Node.product x y h
  | subset x e => exact un x (fun v => (g ++ [v.subset e], (.done : FReply T))) (fun f s x => made s (forestSubsetP f x e)) h
  | subsetNot x e =>
    exact un x (fun v => (g ++ [v.subsetNot e], (.done : FReply T))) (fun f s x => made s (forestSubsetNotP f x e)) h
  | subsetAll x es =>
    exact un x (fun v => (g ++ [v.subsetAll es], (.done : FReply T)))
      (fun f s x => made s (subsetManyP f x es (fun _ => emptyP) subsetAllP)) h
  | subsetNone x es =>
    exact un x (fun v => (g ++ [v.subsetNone es], (.done : FReply T)))
      (fun f s x => made s (subsetManyP f x es .ret subsetNoneP)) h
  | len x =>
    exact un x (fun v => (g, (.count v.len : FReply T)))
      (fun f s x => (treesP f x.root).bind fun l => .ret (s, .count l.length)) h
  | isEmpty x =>
    exact un x (fun v => (g, (.bool v.isEmpty : FReply T)))
      (fun f s x => (treesP f x.root).bind fun l => .ret (s, .bool l.isEmpty)) h
  | trees x =>
    exact un x (fun v => (g, (.sets v.trees : FReply T)))
      (fun f s x => (forestTreesP f x).bind fun l => .ret (s, .sets l)) h
  | occurrences x =>
    exact un x (fun v => (g, (.counts v.occurrences : FReply T)))
      (fun f s x => .ret (s, .counts (sortByKey x.univ.occurrences))) h
  | same x y =>
    simp only [FOp.alone] at h
    cases hv : g[x]? with
    | none => exact ⟨0, fun f hf a s hI h0 hs => named_fails hs hv⟩
    | some v =>
      rw [hv, Option.bind_some] at h
      cases hv' : g[y]? with
      | none =>
        refine ⟨0, fun f hf a s hI h0 hs => ?_⟩
        obtain ⟨xc, ex, hx⟩ := held_rel hs hv
        simp only [FOp.prog]
        rw [ex]
        exact named_fails hs hv'
      | some v' => rw [hv'] at h; cases h
  | debug x =>
    simp only [FOp.alone] at h
    cases hv : g[x]? with
    | none => exact ⟨0, fun f hf a s hI h0 hs => named_fails hs hv⟩
    | some v =>
      rw [hv, Option.bind_some, forestDebug] at h
      have hn : forestInner dbg v.univ 1 v.root = none := by
        cases e : forestInner dbg v.univ 1 v.root with
        | none => rfl
        | some t => rw [e] at h; cases h
      obtain ⟨F, hF⟩ := fmtInner_ok dbg v.univ v.root 1
      refine ⟨F, fun f hf a s hI h0 hs => ?_⟩
      obtain ⟨xc, ex, hx⟩ := held_rel hs hv
      simp only [FOp.prog]
      rw [ex]
      show Fails ((forestDebugP dbg f xc).bind _) a
      refine Fails.bind (fails_load hx.1 fun b c e1 hc => ?_) _
      rw [hx.2]
      exact ((hF f hf b c e1.right hc).2 hn).bind _
  | save x =>
    exact un x (fun v => (g, (.data (serializeForest v.univ.occurrences v) : FReply T)))
      (fun f s x => (saveP f x).bind fun d => .ret (s, .data d)) h
  | load d =>
    simp only [FOp.alone] at h
    split at h <;> cases h

theorem forest_sound (dbg : T → List Char) : (forestApi dbg).Sound false true where
  init := init_zero
  good_mono := fun h e => Zero.mono h e
  den_mono := fun h e => ForestDen.mono h e
  ok := op_ok dbg
  fails := op_fails dbg

/-- C103: clients of the whole forest API, deciding each call from the answers so far, started at any time with any
forests that finished client threads hold, next to threads doing anything at all, under every schedule: a client's
thread panics only if the client panics in a process of its own; one that finishes has exactly the output it has
alone, and holds as much; one that has done neither can go on; and at every moment it can come to its end, the same
as alone, while all others stand still. -/
theorem worlds_exact {O : Type w} (dbg : T → List Char) :
    ∃ need : Client (FOp T) (FReply T) O → List (Forest T) → Nat,
    ∀ w : World (forestApi dbg) O, World.Run false true need w → ∀ t out, w.alone t = some out →
      (w.machine.threads t = .panicked → out = none) ∧
      (∀ s o, w.machine.threads t = .run (.ret (s, o)) → ∃ g, out = some (g, o) ∧ s.length = g.length) ∧
      (w.machine.threads t = .panicked ∨ (∃ r, w.machine.threads t = .run (.ret r)) ∨
        ∃ a th, TStep w.machine.arena (w.machine.threads t) a th) ∧
      ∃ m, World.Run false true need ⟨m, w.alone⟩ ∧ MRun w.machine m ∧
        (∀ s, s ≠ t → m.threads s = w.machine.threads s) ∧
        (out = none → m.threads t = .panicked) ∧
        ∀ g o, out = some (g, o) → ∃ s, m.threads t = .run (.ret (s, o)) ∧ s.length = g.length :=
  Arena.worlds_exact (forest_sound dbg) (by decide)

/-- C103 with every lock operation and every read and write of the arena interleaved at will, for clients started
with the process; zdd2 looks under the read lock before it takes the write lock. -/
theorem clients_locked {O : Type w} (dbg : T → List Char) (G : Nat → Prop)
    (cl : Nat → Client (FOp T) (FReply T) O) :
    ∃ F : Nat → Nat, ∀ (f : Nat → Nat) (ths : Nat → Thread Nat Bool (List (ForestC T) × O)),
      (∀ t, G t → F t ≤ f t ∧ ths t = .run (clientP (forestApi dbg) (f t) (cl t) [])) →
      ∀ m, FRun false false true (fstart ths) m →
      (∀ t, G t → m.threads t = .out .panicked → (cl t).alone (forestApi dbg) [] = none) ∧
      (∀ t, G t → ∀ s o, m.threads t = .out (.run (.ret (s, o))) → ∃ g, (cl t).alone (forestApi dbg) [] = some (g, o)) ∧
      ({t | ¬ (FThread.out (ths t)).Finished}.Finite →
        (∀ P : Policy Nat Bool (fun _ => List (ForestC T) × O), P.Live →
          (∃ t, G t ∧ (cl t).alone (forestApi dbg) [] ≠ none ∧ ¬ (m.threads t).Finished) →
          ∃ t m', PStep P false false true t m m') ∧
        (∀ P : Policy Nat Bool (fun _ => List (ForestC T) × O), P.Live →
          ∃ m', PRun P false false true m m' ∧
            ∀ t, G t → (cl t).alone (forestApi dbg) [] ≠ none → ∃ s, m'.threads t = .out (.run (.ret s))) ∧
        (∀ σ : Nat → FMachine Nat Bool (fun _ => List (ForestC T) × O), σ 0 = m →
          ¬ ∀ k, ∃ t, FStep false false true t (σ k) (σ (k + 1)))) :=
  Arena.clients_locked (forest_sound dbg) (by decide) false G cl

/-! ## When a client panics -/

/-- The positions a call names.  Not code: used to state or prove properties. -/
def FOp.names : FOp T → List Nat
  | .empty | .unit _ | .many _ | .unique _ | .load _ => []
  | .union x y | .intersect x y | .product x y | .same x y => [x, y]
  | .subset x _ | .subsetNot x _ | .subsetAll x _ | .subsetNone x _ => [x]
  | .len x | .isEmpty x | .trees x | .occurrences x | .debug x | .save x => [x]

/-- The positions at which a call needs a forest each of whose ids stands for an item.
Not code: used to state or prove properties. -/
def FOp.needs : FOp T → List Nat
  | .union x y | .intersect x y | .product x y => [x, y]
  | .debug x => [x]
  | _ => []

theorem held_alone (dbg : T → List Char) (op : FOp T) {g g' : List (Forest T)} {r : FReply T}
    (hg : ∀ v ∈ g, Held v) (h : op.alone dbg g = some (g', r)) : ∀ v ∈ g', Held v := by
  have add : ∀ {v : Forest T}, Held v → ∀ w ∈ g ++ [v], Held w := by
    intro v hv w hw
    rcases List.mem_append.1 hw with hw | hw
    · exact hg w hw
    · rw [List.mem_singleton] at hw; subst hw; exact hv
  have get : ∀ {i : Nat} {v : Forest T}, g[i]? = some v → Held v := fun h => hg _ (List.mem_of_getElem? h)
  have fin : ∀ n (u : Universe T), Held (Forest.canonical n u) := fun n u => by
    obtain ⟨m, hm⟩ := Forest.canon_canonical n u
    rw [hm]; exact .inl (reach_many m)
  have filt : ∀ {v : Forest T}, Held v → ∀ es (dflt : Forest T → Forest T) func, Held (dflt v) →
      Held (Forest.subsetMany v es dflt func) := by
    intro v hv es dflt func hd
    rw [Forest.subsetMany]
    split_ifs
    · exact hv
    · simp only []
      split_ifs
      · exact hd
      · exact fin _ _
  cases op with
  | empty => cases h; exact add (.inl reach_empty)
  | unit items => cases h; exact add (.inl (reach_unit items))
  | many matrix => cases h; exact add (.inl (reach_many matrix))
  | unique items => cases h; exact add (.inl (reach_unique items))
  | union x y =>
    simp only [FOp.alone, Option.bind_eq_some_iff, Option.some.injEq, Prod.mk.injEq] at h
    obtain ⟨v, _, v', _, z, hz, rfl, rfl⟩ := h
    exact add (.inl (held_result_reach (.inl hz)))
  | intersect x y =>
    simp only [FOp.alone, Option.bind_eq_some_iff, Option.some.injEq, Prod.mk.injEq] at h
    obtain ⟨v, _, v', _, z, hz, rfl, rfl⟩ := h
    exact add (.inl (held_result_reach (.inr (.inl hz))))
  | product x y =>
    simp only [FOp.alone, Option.bind_eq_some_iff, Option.some.injEq, Prod.mk.injEq] at h
    obtain ⟨v, _, v', _, z, hz, rfl, rfl⟩ := h
    exact add (.inl (held_result_reach (.inr (.inr (.inl hz)))))
  | subset x e =>
    simp only [FOp.alone, Option.bind_eq_some_iff, Option.some.injEq, Prod.mk.injEq] at h
    obtain ⟨v, hv, rfl, rfl⟩ := h
    refine add ?_
    rw [Forest.subset]
    split
    · exact .inl reach_empty
    · exact fin _ _
  | subsetNot x e =>
    simp only [FOp.alone, Option.bind_eq_some_iff, Option.some.injEq, Prod.mk.injEq] at h
    obtain ⟨v, hv, rfl, rfl⟩ := h
    refine add ?_
    rw [Forest.subsetNot]
    split
    · exact get hv
    · exact fin _ _
  | subsetAll x es =>
    simp only [FOp.alone, Option.bind_eq_some_iff, Option.some.injEq, Prod.mk.injEq] at h
    obtain ⟨v, hv, rfl, rfl⟩ := h
    exact add (filt (get hv) _ _ _ (.inl reach_empty))
  | subsetNone x es =>
    simp only [FOp.alone, Option.bind_eq_some_iff, Option.some.injEq, Prod.mk.injEq] at h
    obtain ⟨v, hv, rfl, rfl⟩ := h
    exact add (filt (get hv) _ _ _ (get hv))
  | load d =>
    simp only [FOp.alone] at h
    cases e : deserializeForest d with
    | none => rw [e] at h; cases h; exact hg
    | some v => rw [e] at h; cases h; exact add (.inr ⟨d, e⟩)
  | debug x =>
    simp only [FOp.alone, Option.bind_eq_some_iff, Option.some.injEq, Prod.mk.injEq] at h
    obtain ⟨_, _, _, _, rfl, rfl⟩ := h
    exact hg
  | same x y =>
    simp only [FOp.alone, Option.bind_eq_some_iff, Option.some.injEq, Prod.mk.injEq] at h
    obtain ⟨_, _, _, _, rfl, rfl⟩ := h
    exact hg
  | _ =>
    simp only [FOp.alone, Option.bind_eq_some_iff, Option.some.injEq, Prod.mk.injEq] at h
    obtain ⟨_, _, rfl, rfl⟩ := h
    exact hg

/-- C103: in a process of its own, a client that started with nothing (or with forests of other clients), whatever it
has done and read before, panics at a call exactly if it names a forest it does not hold, or combines or prints a
forest in which some id stands for no item.  With `worlds_exact`: next to other threads exactly then, too. -/
theorem op_panics_iff (dbg : T → List Char) (op : FOp T) {g : List (Forest T)} (hg : ∀ v ∈ g, Held v) :
    op.alone dbg g = none ↔
      (∃ i ∈ op.names, g.length ≤ i) ∨ ∃ i ∈ op.needs, ∃ v, g[i]? = some v ∧ ¬ Sane v := by
  have get : ∀ {i : Nat} {v : Forest T}, g[i]? = some v → Held v := fun h => hg _ (List.mem_of_getElem? h)
  have bin : ∀ (x y : Nat) (p : Forest T → Forest T → Option (Forest T)),
      (∀ v v', Held v → Held v' → ((∃ r, p v v' = some r) ↔ Sane v ∧ Sane v')) →
      ((g[x]?.bind fun x => g[y]?.bind fun y => (p x y).bind fun r => some (g ++ [r], (FReply.done : FReply T))) = none ↔
      (∃ i ∈ [x, y], g.length ≤ i) ∨ ∃ i ∈ [x, y], ∃ v, g[i]? = some v ∧ ¬ Sane v) := by
    intro x y p hp
    simp only [List.mem_cons, List.not_mem_nil, or_false, exists_eq_or_imp, exists_eq_left,
      ← List.getElem?_eq_none_iff]
    cases hx : g[x]? with
    | none => simp
    | some v =>
      cases hy : g[y]? with
      | none => simp
      | some v' =>
        have h := hp v v' (get hx) (get hy)
        cases e : p v v' with
        | none =>
          rw [e] at h
          simp only [reduceCtorEq, exists_false, false_iff, not_and_or] at h
          simpa [e] using h
        | some z =>
          rw [e] at h
          have := h.1 ⟨z, rfl⟩
          simp [e, this.1, this.2]
  have un : ∀ {γ : Type u} (x : Nat) (k : Forest T → γ), ((g[x]?.bind fun x => some (k x)) = none ↔
      (∃ i ∈ [x], g.length ≤ i) ∨ ∃ i ∈ ([] : List Nat), ∃ v, g[i]? = some v ∧ ¬ Sane v) := by
    intro γ x k
    simp only [List.mem_cons, List.not_mem_nil, or_false, exists_eq_left, false_and, exists_false,
      ← List.getElem?_eq_none_iff]
    cases hx : g[x]? <;> simp
  cases op with
  | union x y => exact bin x y Forest.union fun v v' h h' => (held_use_iff_partial dbg h h').1
  | intersect x y => exact bin x y Forest.intersect fun v v' h h' => (held_use_iff_partial dbg h h').2.1
  | product x y => exact bin x y Forest.product fun v v' h h' => (held_use_iff_partial dbg h h').2.2.1
  | debug x =>
    simp only [FOp.alone, FOp.names, FOp.needs, List.mem_cons, List.not_mem_nil, or_false, exists_eq_left,
      ← List.getElem?_eq_none_iff]
    cases hx : g[x]? with
    | none => simp
    | some v =>
      have h := (held_use_iff_partial dbg (get hx) (get hx)).2.2.2
      cases e : forestDebug dbg v with
      | none => rw [e] at h; simpa [e] using h
      | some t => rw [e] at h; simpa [e] using h
  | same x y =>
    simp only [FOp.alone, FOp.names, FOp.needs, List.mem_cons, List.not_mem_nil, or_false, exists_eq_left,
      exists_eq_or_imp, ← List.getElem?_eq_none_iff, false_and, exists_false]
    cases hx : g[x]? <;> cases hy : g[y]? <;> simp
  | load d =>
    simp only [FOp.alone, FOp.names, FOp.needs]
    cases deserializeForest d <;> simp
  | empty => simp [FOp.alone, FOp.names, FOp.needs]
  | unit => simp [FOp.alone, FOp.names, FOp.needs]
  | many => simp [FOp.alone, FOp.names, FOp.needs]
  | unique => simp [FOp.alone, FOp.names, FOp.needs]
  | subset x e => exact un x _
  | subsetNot x e => exact un x _
  | subsetAll x es => exact un x _
  | subsetNone x es => exact un x _
  | len x => exact un x _
  | isEmpty x => exact un x _
  | trees x => exact un x _
  | occurrences x => exact un x _
  | save x => exact un x _

/-- C103: whatever a client does, alone, what it ends up holding is made with the API or read from data. -/
theorem client_held {O : Type w} (dbg : T → List Char) (cl : Client (FOp T) (FReply T) O) {g g' : List (Forest T)}
    {o : O} (hg : ∀ v ∈ g, Held v) (h : cl.alone (forestApi dbg) g = some (g', o)) : ∀ v ∈ g', Held v := by
  induction cl generalizing g with
  | ends o => cases h; exact hg
  | call op k ih =>
    obtain ⟨⟨g1, r⟩, h1, h2⟩ := Option.bind_eq_some_iff.1 h
    exact ih r (held_alone dbg op hg h1) h2

/-- A client that makes a forest.  Not code: used to state or prove properties. -/
def maker : Client (FOp Nat) (FReply Nat) (FReply Nat) :=
  .call (.many [[1, 2], [1, 3]]) fun r => .ends r

/-- A client that writes the forest it was given, reads it back and compares.
Not code: used to state or prove properties. -/
def copier : Client (FOp Nat) (FReply Nat) (FReply Nat) := .call (.save 0) fun
  | .data d => .call (.load d) fun _ => .call (.same 0 1) fun r => .ends r
  | r => .ends r

/-- A client that reads a diagram whose only id stands for no item, and combines it with itself.
Not code: used to state or prove properties. -/
def careless : Client (FOp Nat) (FReply Nat) (FReply Nat) :=
  .call (.load ⟨"(5 (N) (A))".toList, []⟩) fun _ =>
  .call (.union 0 0) fun r => .ends r

/-- Not vacuous: in one process, thread 0 makes a forest, thread 1 then gets it, writes it, reads it back and finds
the copy equal, while thread 2 reads data in which an id stands for no item and panics. -/
example (dbg : Nat → List Char) : ∃ need, ∃ w : World (forestApi dbg) (FReply Nat),
    World.Run false true need w ∧ w.machine.threads 2 = .panicked ∧
      (∃ s, w.machine.threads 0 = .run (.ret (s, .done))) ∧
      ∃ s, w.machine.threads 1 = .run (.ret (s, .bool true)) := by
  obtain ⟨need, hn⟩ := world_ok (O := FReply Nat) (forest_sound dbg) (by decide)
  refine ⟨need, ?_⟩
  have a0 : maker.alone (forestApi dbg) [] = some ([Forest.many [[1, 2], [1, 3]]], .done) := rfl
  have a1 : copier.alone (forestApi dbg) [Forest.many [[1, 2], [1, 3]]] =
      some ([Forest.many [[1, 2], [1, 3]], Forest.many [[1, 2], [1, 3]]], .bool true) := by
    have := forest_roundtrip (reach_many [[1, 2], [1, 3]]) (List.Perm.refl _)
      (show (Forest.many [[1, 2], [1, 3]] : Forest ℕ).occurrences.length ≤ 2 ^ 64 by decide)
    simp [copier, Client.alone, forestApi, FOp.alone, this]
  have a2 : careless.alone (forestApi dbg) [] = none := by
    have h2 : deserializeForest (⟨"(5 (N) (A))".toList, []⟩ : ForestData ℕ) =
        some ⟨.Branch 5 .Never .Always, Universe.default⟩ := by
      have h2 : deserializeForest (⟨"(5 (N) (A))".toList, []⟩ : ForestData ℕ) =
        some ⟨Node.branch 5 .Never .Always, Universe.default⟩ := rfl
      rw [h2]
      simp [Node.branch]
    have h3 : Forest.union (⟨.Branch 5 .Never .Always, Universe.default⟩ : Forest ℕ)
      ⟨.Branch 5 .Never .Always, Universe.default⟩ = none := rfl
    simp only [careless, Client.alone, forestApi, FOp.alone, h2]
    simp [h3]
  have hs := forest_sound (T := Nat) dbg
  have r0 : World.Run (A := forestApi dbg) (O := FReply Nat) false true need
    ⟨⟨Arena.init false true, fun _ => .panicked⟩, fun _ => none⟩ := .boot _
  obtain ⟨m1, r1, k1, _, e1⟩ := spawn hs hn r0 0 maker [] rfl rfl a0
  obtain ⟨s1, e1, l1⟩ := e1 _ _ rfl
  obtain ⟨x, rfl⟩ := List.length_eq_one_iff.1 l1
  obtain ⟨m2, r2, k2, _, e2⟩ := spawn hs hn r1 1 copier [(0, 0)] (s := [x]) (g := [Forest.many [[1, 2], [1, 3]]])
    (by simp only [pick, held, List.mapM_cons, List.mapM_nil, e1]; rfl) rfl a1
  obtain ⟨s2, e2, _⟩ := e2 _ _ rfl
  obtain ⟨m3, r3, k3, e3, _⟩ := spawn hs hn r2 2 careless [] rfl rfl a2
  refine ⟨⟨m3, _⟩, r3, e3 rfl, ⟨[x], ?_⟩, ⟨s2, ?_⟩⟩
  · show m3.threads 0 = _
    rw [k3 0 (by decide), k2 0 (by decide)]
    exact e1
  · show m3.threads 1 = _
    rw [k3 1 (by decide)]
    exact e2

end Verif.ArenaZdd2
