import Verif.Zdd1.Ops

/-!
# How deep the zdd operations recurse (C85)

The recursive functions of weave/src/zdd, with a bound on the number of nested calls: `opF f` is `op` on
a stack with room for `f` frames, and `none` if a call finds no room.  The value computed is compared
with the unbounded function of `Verif.Zdd1.Model`.  Frames of non-recursive functions (conversions,
arena access, iterator adapters, one-line wrappers) are not counted: there is a fixed number of them
per counted frame.
-/

set_option linter.unusedSimpArgs false
set_option linter.unusedSectionVars false
set_option linter.unusedVariables false

namespace Verif.Zdd1
open Verif Verif.Weave Verif.Spec

universe u
variable {T : Type u} [LinearOrder T]

namespace Node

/-- weave/src/zdd/tree/union.rs:3-52 on a stack of the given depth. -/
def unionF : Nat → Node → Node → Option Node
  | 0, _, _ => none
  | f + 1, node1, node2 =>
    if node1 = node2 then some node1
    else
      match node1, node2 with
      | node1, .Leaf false => some node1
      | .Leaf false, node2 => some node2
      | .Leaf true, .Leaf true => some (.Leaf true)
      | .Branch id low high, .Leaf true => (unionF f low (.Leaf true)).map fun low => finish id low high
      | .Leaf true, .Branch id low high => (unionF f (.Leaf true) low).map fun low => finish id low high
      | .Branch id1 low1 high1, .Branch id2 low2 high2 =>
        if id1 < id2 then
          (unionF f low1 (.Branch id2 low2 high2)).map fun low => finish id1 low high1
        else if id1 > id2 then
          (unionF f (.Branch id1 low1 high1) low2).map fun low => finish id2 low high2
        else
          (unionF f low1 low2).bind fun low => (unionF f high1 high2).map fun high => finish id1 low high

/-- weave/src/zdd/tree/intersect.rs:3-40 on a stack of the given depth. -/
def intersectF : Nat → Node → Node → Option Node
  | 0, _, _ => none
  | f + 1, node1, node2 =>
    if node1 = node2 then some node1
    else
      match node1, node2 with
      | node1, .Leaf true => some node1
      | .Leaf true, node2 => some node2
      | _, .Leaf false => some (.Leaf false)
      | .Leaf false, _ => some (.Leaf false)
      | .Branch id1 low1 high1, .Branch id2 low2 high2 =>
        if id1 < id2 then
          (intersectF f high1 (.Branch id2 low2 high2)).map fun high => finish id1 low1 high
        else if id1 > id2 then
          (intersectF f (.Branch id1 low1 high1) high2).map fun high => finish id2 low2 high
        else
          (intersectF f low1 low2).bind fun low => (intersectF f high1 high2).map fun high =>
          finish id1 low high

/-- weave/src/zdd/tree/product.rs:3-40 on a stack of the given depth. -/
def productF : Nat → Node → Node → Option Node
  | 0, _, _ => none
  | f + 1, node1, node2 =>
    if node1 = node2 then some node1
    else
      match node1, node2 with
      | node1, .Leaf true => some node1
      | .Leaf true, node2 => some node2
      | _, .Leaf false => some (.Leaf false)
      | .Leaf false, _ => some (.Leaf false)
      | .Branch id1 low1 high1, .Branch id2 low2 high2 =>
        if id1 < id2 then
          (productF f low1 (.Branch id2 low2 high2)).bind fun low =>
          (productF f high1 (.Branch id2 low2 high2)).map fun high => finish id1 low high
        else if id1 > id2 then
          (productF f (.Branch id1 low1 high1) low2).bind fun low =>
          (productF f (.Branch id1 low1 high1) high2).map fun high => finish id2 low high
        else
          (productF f low1 low2).bind fun low => (productF f high1 high2).map fun high =>
          finish id1 low high

/-- `combinations_inner`, weave/src/zdd/tree/combinations.rs:10-32, on a stack of the given depth: the
outer `none` is the overflow. -/
def combinationsInnerF : Nat → Node → List Nat → Option (Option (List (List Nat)))
  | 0, _, _ => none
  | f + 1, root, path =>
    match root with
    | .Branch id low high =>
      (combinationsInnerF f low path).bind fun low =>
      (combinationsInnerF f high (path ++ [id])).map fun high =>
      some (([low, high].filterMap (fun f => f)).flatten)
    | .Leaf true => some (some [path])
    | .Leaf false => some none

end Node

/-- weave/src/zdd/tree/combinations.rs:5-8 and weave/src/zdd/tree/mod.rs:81-86 on a stack of the given depth. -/
def Tree.combinationsRecursiveF (f : Nat) (t : Tree T) : Option (List (List T)) :=
  (Node.combinationsInnerF f t.root []).map fun r =>
    filterRepeats ((match r with | some v => v | none => []).map t.univ.getItems)

/-- `from_node`, weave/src/zdd/tree/traversable.rs:26-38, on a stack of the given depth: the outer `none`
is the overflow, the inner one the failed `unwrap`. -/
def fromNodeF (uni : Universe T) : Nat → Node → Option (Option (TreeNode T))
  | 0, _ => none
  | f + 1, .Leaf value => some (some (.Leaf value))
  | f + 1, .Branch id low high =>
    match uni.getItem id with
    | none => some none
    | some value =>
      (fromNodeF uni f low).bind fun l =>
      match l with
      | none => some none
      | some low =>
        (fromNodeF uni f high).map fun h =>
        match h with
        | none => none
        | some high => some (.Branch value low high)

/-- weave/src/zdd/tree/mod.rs:140-142 on a stack of the given depth. -/
def Tree.traverseF (f : Nat) (t : Tree T) : Option (Option (TreeNode T)) := fromNodeF t.univ f t.root

/-- weave/src/zdd/tree/mod.rs:107-113 on a stack of the given depth. -/
def Tree.unionF (f : Nat) (t other : Tree T) : Option (Tree T) :=
  (Node.unionF f t.root other.root).map fun r => ⟨r, t.univ⟩

/-- weave/src/zdd/tree/mod.rs:115-121 on a stack of the given depth. -/
def Tree.intersectF (f : Nat) (t other : Tree T) : Option (Tree T) :=
  (Node.intersectF f t.root other.root).map fun r => ⟨r, t.univ⟩

/-- weave/src/zdd/tree/mod.rs:123-129 on a stack of the given depth. -/
def Tree.productF (f : Nat) (t other : Tree T) : Option (Tree T) :=
  (Node.productF f t.root other.root).map fun r => ⟨r, t.univ⟩

/-- The fold of weave/src/zdd/tree/universe.rs:60-70 on a stack of the given depth. -/
def foldUnionF (f : Nat) (ts : List (Tree T)) (t0 : Tree T) : Option (Tree T) :=
  ts.foldlM (fun root next => root.unionF f next) t0

/-- weave/src/zdd/tree/universe.rs:60-64 on a stack of the given depth. -/
def Universe.uniqueTreeF (f : Nat) (uni : Universe T) (items : List T) : Option (Tree T) :=
  foldUnionF f (items.map (fun item => uni.tree [item])) uni.emptyTree

/-- weave/src/zdd/tree/universe.rs:66-70 on a stack of the given depth. -/
def Universe.hyperTreeF (f : Nat) (uni : Universe T) (cs : List (List T)) : Option (Tree T) :=
  foldUnionF f (cs.map (fun cb => uni.tree cb)) uni.emptyTree

/-- weave/src/zdd/tree/mod.rs:131-138 on a stack of the given depth. -/
def Tree.restrictF (f : Nat) (t : Tree T) (inclusions exclusions : List T) : Option (Tree T) :=
  t.univ.hyperTreeF f (t.combinationsWith inclusions exclusions)

/-! ### enough room -/

namespace Node

/-- The root id (if any) is at least `m`.  Not code: used to state or prove properties. -/
def From (m : Nat) : Node → Prop
  | .Branch i _ _ => m ≤ i
  | _ => True

theorem From.of_above {i : Nat} {n : Node} (h : Above i n) : From (i + 1) n := by
  cases n with
  | Leaf b => trivial
  | Branch j l r => exact Nat.succ_le_of_lt h

theorem From.zero (n : Node) : From 0 n := by cases n <;> simp [From]

/-- All ids are below `N`.  Not code: used to state or prove properties. -/
abbrev Lt (N : Nat) (n : Node) : Prop := n.Ids (· < N)

theorem unionF_eq {N : Nat} (a b : Node) (oa : a.Ordered) (ob : b.Ordered) (la : a.Lt N) (lb : b.Lt N) :
    ∀ {m f : Nat}, From m a → From m b → m ≤ N → N + 1 ≤ f + m → unionF f a b = some (union a b) := by
  fun_induction union a b with
  | case1 a => intro m f _ _ hm hf; obtain ⟨f, rfl⟩ : ∃ g, f = g + 1 := ⟨f - 1, by omega⟩; simp [unionF]
  | case2 a h => intro m f _ _ hm hf; obtain ⟨f, rfl⟩ : ∃ g, f = g + 1 := ⟨f - 1, by omega⟩; simp [unionF, h]
  | case3 b h h' =>
    intro m f _ _ hm hf; obtain ⟨f, rfl⟩ : ∃ g, f = g + 1 := ⟨f - 1, by omega⟩
    cases b with
    | Branch => simp_all [unionF]
    | Leaf b => cases b <;> simp_all [unionF]
  | case4 h => exact absurd rfl h
  | case5 i l h ne ih =>
    intro m f fa fb hm hf; obtain ⟨f, rfl⟩ : ∃ g, f = g + 1 := ⟨f - 1, by omega⟩
    simp only [Ordered, Ids, From] at oa la fa
    rw [unionF, if_neg ne]
    rw [ih oa.2.2.2.1 trivial la.2.1 trivial (m := i + 1) (f := f) (From.of_above oa.1) trivial (by omega)
      (by omega)]
    rfl
  | case6 i l h ne ih =>
    intro m f fa fb hm hf; obtain ⟨f, rfl⟩ : ∃ g, f = g + 1 := ⟨f - 1, by omega⟩
    simp only [Ordered, Ids, From] at ob lb fb
    rw [unionF, if_neg ne]
    rw [ih trivial ob.2.2.2.1 trivial lb.2.1 (m := i + 1) (f := f) trivial (From.of_above ob.1) (by omega)
      (by omega)]
    rfl
  | case7 i l h j l' h' hlt ne ih =>
    intro m f fa fb hm hf; obtain ⟨f, rfl⟩ : ∃ g, f = g + 1 := ⟨f - 1, by omega⟩
    simp only [Ordered, Ids, From] at oa la fa
    rw [unionF, if_neg ne]
    simp only [if_pos hlt]
    rw [ih oa.2.2.2.1 ob la.2.1 lb (m := i + 1) (f := f) (From.of_above oa.1) hlt (by omega) (by omega)]
    rfl
  | case8 i l h j l' h' hge hlt ne ih =>
    intro m f fa fb hm hf; obtain ⟨f, rfl⟩ : ∃ g, f = g + 1 := ⟨f - 1, by omega⟩
    simp only [Ordered, Ids, From] at ob lb fb
    rw [unionF, if_neg ne]
    simp only [if_neg hge, if_pos hlt]
    rw [ih oa ob.2.2.2.1 la lb.2.1 (m := j + 1) (f := f) hlt (From.of_above ob.1) (by omega) (by omega)]
    rfl
  | case9 i l h j l' h' h1 h2 ne ih1 ih2 =>
    intro m f fa fb hm hf; obtain ⟨f, rfl⟩ : ∃ g, f = g + 1 := ⟨f - 1, by omega⟩
    obtain rfl : i = j := by omega
    simp only [Ordered, Ids, From] at oa la fa ob lb fb
    rw [unionF, if_neg ne]
    simp only [if_neg h1, if_neg h2]
    rw [ih1 oa.2.2.2.1 ob.2.2.2.1 la.2.1 lb.2.1 (m := i + 1) (f := f) (From.of_above oa.1) (From.of_above ob.1)
        (by omega) (by omega),
      ih2 oa.2.2.2.2 ob.2.2.2.2 la.2.2 lb.2.2 (m := i + 1) (f := f) (From.of_above oa.2.1)
        (From.of_above ob.2.1) (by omega) (by omega)]
    rfl

theorem intersectF_eq {N : Nat} (a b : Node) (oa : a.Ordered) (ob : b.Ordered) (la : a.Lt N) (lb : b.Lt N) :
    ∀ {m f : Nat}, From m a → From m b → m ≤ N → N + 1 ≤ f + m → intersectF f a b = some (intersect a b) := by
  fun_induction intersect a b with
  | case1 a => intro m f _ _ hm hf; obtain ⟨f, rfl⟩ : ∃ g, f = g + 1 := ⟨f - 1, by omega⟩; simp [intersectF]
  | case2 a h => intro m f _ _ hm hf; obtain ⟨f, rfl⟩ : ∃ g, f = g + 1 := ⟨f - 1, by omega⟩; simp [intersectF, h]
  | case3 b h h' =>
    intro m f _ _ hm hf; obtain ⟨f, rfl⟩ : ∃ g, f = g + 1 := ⟨f - 1, by omega⟩
    cases b with
    | Branch => simp_all [intersectF]
    | Leaf b => cases b <;> simp_all [intersectF]
  | case4 a h h' =>
    intro m f _ _ hm hf; obtain ⟨f, rfl⟩ : ∃ g, f = g + 1 := ⟨f - 1, by omega⟩
    cases a with
    | Branch => simp_all [intersectF]
    | Leaf b => cases b <;> simp_all [intersectF]
  | case5 b h h' h'' =>
    intro m f _ _ hm hf; obtain ⟨f, rfl⟩ : ∃ g, f = g + 1 := ⟨f - 1, by omega⟩
    cases b with
    | Branch => simp_all [intersectF]
    | Leaf b => cases b <;> simp_all [intersectF]
  | case6 i l h j l' h' hlt ne ih =>
    intro m f fa fb hm hf; obtain ⟨f, rfl⟩ : ∃ g, f = g + 1 := ⟨f - 1, by omega⟩
    simp only [Ordered, Ids, From] at oa la fa
    rw [intersectF, if_neg ne]
    simp only [if_pos hlt]
    rw [ih oa.2.2.2.2 ob la.2.2 lb (m := i + 1) (f := f) (From.of_above oa.2.1) hlt (by omega) (by omega)]
    rfl
  | case7 i l h j l' h' hge hlt ne ih =>
    intro m f fa fb hm hf; obtain ⟨f, rfl⟩ : ∃ g, f = g + 1 := ⟨f - 1, by omega⟩
    simp only [Ordered, Ids, From] at ob lb fb
    rw [intersectF, if_neg ne]
    simp only [if_neg hge, if_pos hlt]
    rw [ih oa ob.2.2.2.2 la lb.2.2 (m := j + 1) (f := f) hlt (From.of_above ob.2.1) (by omega) (by omega)]
    rfl
  | case8 i l h j l' h' h1 h2 ne ih1 ih2 =>
    intro m f fa fb hm hf; obtain ⟨f, rfl⟩ : ∃ g, f = g + 1 := ⟨f - 1, by omega⟩
    obtain rfl : i = j := by omega
    simp only [Ordered, Ids, From] at oa la fa ob lb fb
    rw [intersectF, if_neg ne]
    simp only [if_neg h1, if_neg h2]
    rw [ih1 oa.2.2.2.1 ob.2.2.2.1 la.2.1 lb.2.1 (m := i + 1) (f := f) (From.of_above oa.1) (From.of_above ob.1)
        (by omega) (by omega),
      ih2 oa.2.2.2.2 ob.2.2.2.2 la.2.2 lb.2.2 (m := i + 1) (f := f) (From.of_above oa.2.1)
        (From.of_above ob.2.1) (by omega) (by omega)]
    rfl

theorem productF_eq {N : Nat} (a b : Node) (oa : a.Ordered) (ob : b.Ordered) (la : a.Lt N) (lb : b.Lt N) :
    ∀ {m f : Nat}, From m a → From m b → m ≤ N → N + 1 ≤ f + m → productF f a b = some (product a b) := by
  fun_induction product a b with
  | case1 a => intro m f _ _ hm hf; obtain ⟨f, rfl⟩ : ∃ g, f = g + 1 := ⟨f - 1, by omega⟩; simp [productF]
  | case2 a h => intro m f _ _ hm hf; obtain ⟨f, rfl⟩ : ∃ g, f = g + 1 := ⟨f - 1, by omega⟩; simp [productF, h]
  | case3 b h h' =>
    intro m f _ _ hm hf; obtain ⟨f, rfl⟩ : ∃ g, f = g + 1 := ⟨f - 1, by omega⟩
    cases b with
    | Branch => simp_all [productF]
    | Leaf b => cases b <;> simp_all [productF]
  | case4 a h h' =>
    intro m f _ _ hm hf; obtain ⟨f, rfl⟩ : ∃ g, f = g + 1 := ⟨f - 1, by omega⟩
    cases a with
    | Branch => simp_all [productF]
    | Leaf b => cases b <;> simp_all [productF]
  | case5 b h h' h'' =>
    intro m f _ _ hm hf; obtain ⟨f, rfl⟩ : ∃ g, f = g + 1 := ⟨f - 1, by omega⟩
    cases b with
    | Branch => simp_all [productF]
    | Leaf b => cases b <;> simp_all [productF]
  | case6 i l h j l' h' hlt ne ih1 ih2 =>
    intro m f fa fb hm hf; obtain ⟨f, rfl⟩ : ∃ g, f = g + 1 := ⟨f - 1, by omega⟩
    simp only [Ordered, Ids, From] at oa la fa
    rw [productF, if_neg ne]
    simp only [if_pos hlt]
    rw [ih1 oa.2.2.2.1 ob la.2.1 lb (m := i + 1) (f := f) (From.of_above oa.1) hlt (by omega) (by omega),
      ih2 oa.2.2.2.2 ob la.2.2 lb (m := i + 1) (f := f) (From.of_above oa.2.1) hlt (by omega) (by omega)]
    rfl
  | case7 i l h j l' h' hge hlt ne ih1 ih2 =>
    intro m f fa fb hm hf; obtain ⟨f, rfl⟩ : ∃ g, f = g + 1 := ⟨f - 1, by omega⟩
    simp only [Ordered, Ids, From] at ob lb fb
    rw [productF, if_neg ne]
    simp only [if_neg hge, if_pos hlt]
    rw [ih1 oa ob.2.2.2.1 la lb.2.1 (m := j + 1) (f := f) hlt (From.of_above ob.1) (by omega) (by omega),
      ih2 oa ob.2.2.2.2 la lb.2.2 (m := j + 1) (f := f) hlt (From.of_above ob.2.1) (by omega) (by omega)]
    rfl
  | case8 i l h j l' h' h1 h2 ne ih1 ih2 =>
    intro m f fa fb hm hf; obtain ⟨f, rfl⟩ : ∃ g, f = g + 1 := ⟨f - 1, by omega⟩
    obtain rfl : i = j := by omega
    simp only [Ordered, Ids, From] at oa la fa ob lb fb
    rw [productF, if_neg ne]
    simp only [if_neg h1, if_neg h2]
    rw [ih1 oa.2.2.2.1 ob.2.2.2.1 la.2.1 lb.2.1 (m := i + 1) (f := f) (From.of_above oa.1) (From.of_above ob.1)
        (by omega) (by omega),
      ih2 oa.2.2.2.2 ob.2.2.2.2 la.2.2 lb.2.2 (m := i + 1) (f := f) (From.of_above oa.2.1)
        (From.of_above ob.2.1) (by omega) (by omega)]
    rfl

theorem combinationsInnerF_eq {N : Nat} (a : Node) (oa : a.Ordered) (la : a.Lt N) :
    ∀ {m f : Nat} (path : List Nat), From m a → m ≤ N → N + 1 ≤ f + m →
      combinationsInnerF f a path = some (combinationsInner a path) := by
  induction a with
  | Leaf b =>
    intro m f path _ hm hf; obtain ⟨f, rfl⟩ : ∃ g, f = g + 1 := ⟨f - 1, by omega⟩
    cases b <;> rfl
  | Branch i l h ihl ihh =>
    intro m f path fa hm hf; obtain ⟨f, rfl⟩ : ∃ g, f = g + 1 := ⟨f - 1, by omega⟩
    simp only [Ordered, Ids, From] at oa la fa
    rw [combinationsInnerF, combinationsInner]
    rw [ihl oa.2.2.2.1 la.2.1 (m := i + 1) (f := f) path (From.of_above oa.1) (by omega) (by omega),
      ihh oa.2.2.2.2 la.2.2 (m := i + 1) (f := f) _ (From.of_above oa.2.1) (by omega) (by omega)]
    rfl

end Node

open Node in
theorem fromNodeF_eq {N : Nat} (uni : Universe T) (a : Node) (oa : a.Ordered) (la : a.Lt N) :
    ∀ {m f : Nat}, From m a → m ≤ N → N + 1 ≤ f + m → fromNodeF uni f a = some (fromNode uni a) := by
  induction a with
  | Leaf b =>
    intro m f _ hm hf; obtain ⟨f, rfl⟩ : ∃ g, f = g + 1 := ⟨f - 1, by omega⟩
    rfl
  | Branch i l h ihl ihh =>
    intro m f fa hm hf; obtain ⟨f, rfl⟩ : ∃ g, f = g + 1 := ⟨f - 1, by omega⟩
    simp only [Node.Ordered, Ids, From] at oa la fa
    rw [fromNodeF, fromNode]
    cases uni.getItem i with
    | none => rfl
    | some v =>
      simp only
      rw [ihl oa.2.2.2.1 la.2.1 (m := i + 1) (f := f) (From.of_above oa.1) (by omega) (by omega)]
      cases fromNode uni l with
      | none => rfl
      | some l' =>
        simp only [Option.bind_some]
        rw [ihh oa.2.2.2.2 la.2.2 (m := i + 1) (f := f) (From.of_above oa.2.1) (by omega) (by omega)]
        cases fromNode uni h <;> rfl

theorem Built.lt {P : List T → Prop} {items : List T} {t : Tree T} (h : Built P items t) :
    t.root.Lt items.length :=
  h.ids.mono (fun i hi => by
    obtain ⟨x, hx, _⟩ := Universe.known_get hi
    exact (List.getElem?_eq_some_iff.mp hx).1)

theorem foldUnionF_eq {room N : Nat} (h : N + 1 ≤ room) (ts : List (Tree T)) (t0 : Tree T)
    (h0 : t0.root.Ordered ∧ t0.root.Lt N) (hts : ∀ t ∈ ts, t.root.Ordered ∧ t.root.Lt N) :
    foldUnionF room ts t0 = some (ts.foldl (fun root next => root.union next) t0) := by
  induction ts generalizing t0 with
  | nil => rfl
  | cons a ts ih =>
    obtain ⟨oa, la⟩ := hts a (by simp)
    have e : t0.unionF room a = some (t0.union a) := by
      rw [Tree.unionF, Node.unionF_eq _ _ h0.1 oa h0.2 la (Node.From.zero _) (Node.From.zero _) (by omega) h]
      rfl
    have := ih (t0.union a) ⟨(Node.union_ordered _ _ h0.1 oa).1, h0.2.union la⟩ (fun t ht => hts t (by simp [ht]))
    rw [foldUnionF] at this ⊢
    rw [List.foldlM_cons, e]
    exact this

/-! ## C85 -/

/-- C85: over a universe made from `n` items, no operation on trees built from combinations without
repeated items nests more than `n + 1` recursive calls, however many combinations the trees have. -/
theorem ops_stack {items : List T} {room : Nat} (h : items.length + 1 ≤ room) :
    (∀ xs, (Universe.fromVec items).uniqueTreeF room xs = some ((Universe.fromVec items).uniqueTree xs)) ∧
    (∀ cs, (∀ c ∈ cs, c.Nodup) →
      (Universe.fromVec items).hyperTreeF room cs = some ((Universe.fromVec items).hyperTree cs)) ∧
    (∀ a b : Tree T, Built List.Nodup items a → Built List.Nodup items b →
      a.unionF room b = some (a.union b) ∧ a.intersectF room b = some (a.intersect b) ∧
      a.productF room b = some (a.product b)) ∧
    (∀ a : Tree T, Built List.Nodup items a →
      (∀ inc exc, a.restrictF room inc exc = some (a.restrict inc exc)) ∧
      a.combinationsRecursiveF room = some a.combinationsRecursive ∧
      a.traverseF room = some a.traverse) := by
  have hyper : ∀ cs : List (List T), (∀ c ∈ cs, c.Nodup) →
      (Universe.fromVec items).hyperTreeF room cs = some ((Universe.fromVec items).hyperTree cs) := by
    intro cs hcs
    refine foldUnionF_eq h _ _ ⟨trivial, trivial⟩ ?_
    simp only [List.mem_map]
    rintro _ ⟨c, hc, rfl⟩
    have b := Built.tree (items := items) (P := List.Nodup) (hcs c hc)
    exact ⟨b.ordered, b.lt⟩
  refine ⟨?_, hyper, ?_, ?_⟩
  · intro xs
    refine foldUnionF_eq h _ _ ⟨trivial, trivial⟩ ?_
    simp only [List.mem_map]
    rintro _ ⟨c, hc, rfl⟩
    have b := Built.tree (items := items) (P := List.Nodup) (c := [c]) (by simp)
    exact ⟨b.ordered, b.lt⟩
  · intro a b ha hb
    refine ⟨?_, ?_, ?_⟩
    · rw [Tree.unionF, Node.unionF_eq _ _ ha.ordered hb.ordered ha.lt hb.lt (Node.From.zero _)
        (Node.From.zero _) (by omega) h]; rfl
    · rw [Tree.intersectF, Node.intersectF_eq _ _ ha.ordered hb.ordered ha.lt hb.lt (Node.From.zero _)
        (Node.From.zero _) (by omega) h]; rfl
    · rw [Tree.productF, Node.productF_eq _ _ ha.ordered hb.ordered ha.lt hb.lt (Node.From.zero _)
        (Node.From.zero _) (by omega) h]; rfl
  · intro a ha
    refine ⟨?_, ?_, ?_⟩
    · intro inc exc
      rw [Tree.restrictF, Tree.restrict, ha.univ_eq]
      refine hyper _ ?_
      intro c hc
      rw [combinations_with_exact, List.mem_filter] at hc
      exact nodup_of_lt (Tree.combinations_mem_lt _ c hc.1)
    · rw [Tree.combinationsRecursiveF, Node.combinationsInnerF_eq _ ha.ordered ha.lt [] (Node.From.zero _)
        (by omega) h]
      rfl
    · exact fromNodeF_eq _ _ ha.ordered ha.lt (Node.From.zero _) (by omega) h

theorem fromNodeF_needs {uni : Universe T} {room : Nat} {n : Node} {r : TreeNode T}
    (h : fromNodeF uni room n = some (some r)) : ∀ p ∈ n.paths, p.length < room := by
  induction room generalizing n r with
  | zero => cases h
  | succ room ih =>
    cases n with
    | Leaf b => cases b <;> simp [Node.paths]
    | Branch i lo hi =>
      rw [fromNodeF] at h
      cases hg : uni.getItem i with
      | none => simp [hg] at h
      | some v =>
        simp only [hg, Option.bind_eq_some_iff] at h
        obtain ⟨l, hl, h⟩ := h
        cases l with
        | none => simp at h
        | some l =>
          simp only [Option.map_eq_some_iff] at h
          obtain ⟨r', hr, h⟩ := h
          cases r' with
          | none => simp at h
          | some r' =>
            have h1 := ih hl
            have h2 := ih hr
            intro p hp
            simp only [Node.paths, List.mem_append, List.mem_map] at hp
            rcases hp with hp | hp
            all_goals first
              | (have := h1 p hp; omega)
              | (obtain ⟨q, hq, rfl⟩ := hp
                 have := h2 q hq
                 simp only [List.length_cons]; omega)

theorem combinationsInnerF_needs {room : Nat} {n : Node} {path : List Nat} {r : Option (List (List Nat))}
    (h : Node.combinationsInnerF room n path = some r) : ∀ p ∈ n.paths, p.length < room := by
  induction room generalizing n path r with
  | zero => cases h
  | succ room ih =>
    cases n with
    | Leaf b => cases b <;> simp [Node.paths]
    | Branch i lo hi =>
      rw [Node.combinationsInnerF, Option.bind_eq_some_iff] at h
      obtain ⟨l, hl, h⟩ := h
      rw [Option.map_eq_some_iff] at h
      obtain ⟨r', hr, h⟩ := h
      have h1 := ih hl
      have h2 := ih hr
      intro p hp
      simp only [Node.paths, List.mem_append, List.mem_map] at hp
      rcases hp with hp | hp
      all_goals first
        | (have := h1 p hp; omega)
        | (obtain ⟨q, hq, rfl⟩ := hp
           have := h2 q hq
           simp only [List.length_cons]; omega)

theorem fromNodeF_sound {uni : Universe T} {room : Nat} {n : Node} {r : Option (TreeNode T)}
    (h : fromNodeF uni room n = some r) : fromNode uni n = r := by
  induction room generalizing n r with
  | zero => cases h
  | succ room ih =>
    cases n with
    | Leaf b => exact Option.some.inj h
    | Branch i lo hi =>
      rw [fromNodeF] at h
      rw [fromNode]
      cases hg : uni.getItem i with
      | none => simpa [hg] using h
      | some v =>
        simp only [hg, Option.bind_eq_some_iff] at h ⊢
        obtain ⟨l, hl, h⟩ := h
        rw [ih hl]
        cases l with
        | none => simpa using h
        | some l =>
          simp only [Option.map_eq_some_iff] at h
          obtain ⟨r', hr, h⟩ := h
          simp only
          rw [ih hr]
          exact h

theorem card_le_path {t : Tree T} {room : Nat} (h : ∀ p ∈ t.root.paths, p.length < room) :
    ∀ A ∈ family t.combinations, A.card < room := by
  intro A hA
  obtain ⟨s, hs, rfl⟩ := (t.mem_combinations A).mp hA
  obtain ⟨p, hp, rfl⟩ := (Node.mem_paths _ _).mpr hs
  rw [← Universe.toFinset_getItems]
  refine lt_of_le_of_lt (List.toFinset_card_le _) (lt_of_le_of_lt ?_ (h p hp))
  have := List.length_filterMap_le (fun q => t.univ.items[q]?) p
  refine le_trans ?_ this
  rw [Universe.getItems]
  have h1 := List.toFinset_card_of_nodup (nodup_of_lt (filterRepeats_lt (p.filterMap (fun q => t.univ.items[q]?))))
  rw [← h1]
  refine le_trans (le_of_eq ?_) (List.toFinset_card_le (p.filterMap (fun q => t.univ.items[q]?)))
  congr 1
  ext x
  simp

/-- C85: the number of nested calls does grow with the items: a tree that can be walked on a stack of
depth `room` has only combinations of fewer than `room` items. -/
theorem stack_needed {t : Tree T} {room : Nat}
    (h : (∃ r, t.traverseF room = some (some r)) ∨ (∃ r, t.combinationsRecursiveF room = some r)) :
    ∀ A ∈ family t.combinations, A.card < room := by
  refine card_le_path ?_
  rcases h with ⟨r, h⟩ | ⟨r, h⟩
  · exact fromNodeF_needs h
  · rw [Tree.combinationsRecursiveF, Option.map_eq_some_iff] at h
    obtain ⟨a, ha, _⟩ := h
    exact combinationsInnerF_needs ha

theorem paths_required (l : List Nat) (n : Node) :
    (l.foldl (fun next id => Node.requiredBranch id next) n).paths = n.paths.map (fun p => l.reverse ++ p) := by
  induction l generalizing n with
  | nil => simp
  | cons i l ih =>
    rw [List.foldl_cons, ih]
    simp [Node.requiredBranch, Node.branch, Node.paths]

theorem paths_tree (uni : Universe T) (c : List T) :
    (uni.tree c).root.paths = [sorted (c.filterMap (fun item => lookup item uni.itemIndex))] := by
  rw [Universe.tree, paths_required]
  simp [Node.paths]

/-- C85: the bound is for combinations without repeated items.  Repeating an item in the argument of
`tree` gives the same one combination but a longer chain of nodes: over a universe of a single item, every
stack is overflowed. -/
theorem repeats_overflow (room : Nat) : ∃ c : List ℕ,
    family ((Universe.fromVec [7]).tree c).combinations = {{7}} ∧
    ((Universe.fromVec [7]).tree c).traverseF room = none ∧
    ((Universe.fromVec [7]).tree c).combinationsRecursiveF room = none := by
  have hp : ((Universe.fromVec [7]).tree (List.replicate (room + 1) 7)).root.paths = [List.replicate (room + 1) 0] := by
    rw [paths_tree]
    have h1 : (List.replicate (room + 1) 7).filterMap (fun item => lookup item (Universe.fromVec [7]).itemIndex) =
        List.replicate (room + 1) 0 := by
      rw [List.filterMap_replicate]
      have : lookup 7 (Universe.fromVec [7]).itemIndex = some 0 := by decide
      rw [this]
    rw [h1]
    congr 1
    refine List.eq_replicate_iff.mpr ⟨?_, ?_⟩
    · rw [length_sorted, List.length_replicate]
    · intro b hb
      rw [mem_sorted] at hb
      exact (List.mem_replicate.mp hb).2
  have hb : Built (fun _ => True) [7] ((Universe.fromVec [7]).tree (List.replicate (room + 1) 7)) := .tree trivial
  refine ⟨List.replicate (room + 1) 7, ?_, ?_, ?_⟩
  · rw [tree_exact]
    congr 1
    ext x
    simp
  · cases e : ((Universe.fromVec [7]).tree (List.replicate (room + 1) 7)).traverseF room with
    | none => rfl
    | some r =>
      have hn := traverse_total_built hb
      rw [Tree.traverse, fromNodeF_sound e] at hn
      obtain ⟨n, rfl⟩ := Option.ne_none_iff_exists'.mp hn
      have := fromNodeF_needs e (List.replicate (room + 1) 0) (by rw [hp]; simp)
      rw [List.length_replicate] at this
      omega
  · rw [Tree.combinationsRecursiveF, Option.map_eq_none_iff]
    cases e : Node.combinationsInnerF room ((Universe.fromVec [7]).tree (List.replicate (room + 1) 7)).root [] with
    | none => rfl
    | some r =>
      have := combinationsInnerF_needs e (List.replicate (room + 1) 0) (by rw [hp]; simp)
      rw [List.length_replicate] at this
      omega

theorem index_range {N x : Nat} (h : x < N) : lookup x (Universe.fromVec (List.range N)).itemIndex = some x := by
  obtain ⟨i, hi⟩ := Universe.index_some.mpr (List.mem_range.mpr h)
  have := Universe.index_get hi
  rw [List.getElem?_eq_some_iff] at this
  obtain ⟨_, h2⟩ := this
  rw [List.getElem_range] at h2
  rw [hi, h2]

theorem unionF_chain {l : List Nat} {x y : Node} {room : Nat} {r : Node} (hne : x ≠ y)
    (h : Node.unionF room (l.foldr Node.requiredBranch x) (l.foldr Node.requiredBranch y) = some r) :
    l.length < room := by
  induction l generalizing room r with
  | nil => cases room with
    | zero => cases h
    | succ => simp
  | cons i l ih =>
    have inj : ∀ l : List Nat, l.foldr Node.requiredBranch x ≠ l.foldr Node.requiredBranch y := by
      intro l
      induction l with
      | nil => exact hne
      | cons i l ih =>
        intro e
        simp only [List.foldr_cons, Node.requiredBranch, Node.branch, Node.Branch.injEq, true_and] at e
        exact ih e
    cases room with
    | zero => cases h
    | succ room =>
      rw [Node.unionF.eq_def] at h
      simp only [if_neg (inj (i :: l))] at h
      simp only [List.foldr_cons, Node.requiredBranch, Node.branch, lt_irrefl, if_false, gt_iff_lt,
        Option.bind_eq_some_iff, Option.map_eq_some_iff] at h
      obtain ⟨_, _, a, ha, _⟩ := h
      have := ih ha
      simp only [List.length_cons]
      omega

theorem tree_range {N k : Nat} (h : k ≤ N) : ((Universe.fromVec (List.range N)).tree (List.range k)).root =
    (List.range k).foldr Node.requiredBranch (.Leaf true) := by
  have h1 : (List.range k).filterMap (fun item => lookup item (Universe.fromVec (List.range N)).itemIndex) =
      List.range k := by
    conv_rhs => rw [← List.filterMap_some (l := List.range k)]
    refine List.filterMap_congr ?_
    intro x hx
    exact index_range (by have := List.mem_range.mp hx; omega)
  have h2 : sorted (List.range k) = List.range k := by
    refine lt_ext (sorted_lt_of_nodup List.nodup_range) List.pairwise_lt_range ?_
    intro x; exact mem_sorted
  rw [Universe.tree, h1, h2, List.foldl_reverse]

/-- C85: so no fixed stack is enough: whatever its depth, the union of some two trees over one
duplicate-free universe overflows it. -/
theorem no_fixed_stack (room : Nat) : ∃ (items : List ℕ) (a b : Tree ℕ), items.Nodup ∧
    Built List.Nodup items a ∧ Built List.Nodup items b ∧ a.unionF room b = none := by
  refine ⟨List.range (room + 1), _, _, List.nodup_range, .tree (c := List.range room) List.nodup_range,
    .tree (c := List.range (room + 1)) List.nodup_range, ?_⟩
  rw [Tree.unionF, Option.map_eq_none_iff, tree_range (by omega), tree_range (le_refl _),
    List.range_succ, List.foldr_append]
  cases e : Node.unionF room ((List.range room).foldr Node.requiredBranch (.Leaf true))
      ((List.range room).foldr Node.requiredBranch ([room].foldr Node.requiredBranch (.Leaf true))) with
  | none => rfl
  | some r =>
    have := unionF_chain (by simp [Node.requiredBranch, Node.branch]) e
    simp at this

example : ∃ (items : List ℕ) (a b : Tree ℕ), Built List.Nodup items a ∧ Built List.Nodup items b ∧
    a.unionF 4 b = some (a.union b) ∧ family a.combinations = {{1, 2}, {2, 3}} ∧
    family b.combinations = {{3}, {1}} := by
  have ha : Built List.Nodup [1, 2, 3] ((Universe.fromVec [1, 2, 3]).hyperTree [[1, 2], [2, 3]]) :=
    .hyper (by simp)
  have hb : Built List.Nodup [1, 2, 3] ((Universe.fromVec [1, 2, 3]).uniqueTree [3, 1]) := .unique _
  refine ⟨_, _, _, ha, hb, ((ops_stack (by simp)).2.2.1 _ _ ha hb).1, ?_, ?_⟩
  · rw [hyper_tree_exact]; ext s
    have e1 : ([1, 2].filter (fun x => x ∈ [1, 2, 3])).toFinset = ({1, 2} : Finset ℕ) := by decide
    have e2 : ([2, 3].filter (fun x => x ∈ [1, 2, 3])).toFinset = ({2, 3} : Finset ℕ) := by decide
    constructor
    · rintro ⟨c, hc, rfl⟩
      rcases List.mem_cons.mp hc with rfl | hc
      · rw [e1]; simp
      · rw [List.mem_singleton.mp hc, e2]; simp
    · rintro (rfl | rfl)
      · exact ⟨[1, 2], by simp, e1.symm⟩
      · exact ⟨[2, 3], by simp, e2.symm⟩
  · rw [unique_tree_exact]; ext s; simp

end Verif.Zdd1
