import Verif.Matrix.Props

/-!
# Trees: weave/src/matrix/tree and weave/src/zdd2/tree (C09, C10)

The two directories differ only in how `many` writes its insertion loop, and in which `Forest`
`product` returns; the model is shared and `product` is parametrised by the forest constructors.
-/

set_option linter.unusedSimpArgs false
set_option linter.dupNamespace false

namespace Verif.Tree
open Verif Verif.Spec

universe u v
variable {T : Type u} [LinearOrder T]

/-- weave/src/matrix/tree/mod.rs:11-17, weave/src/zdd2/tree/mod.rs:11-17 -/
inductive Tree (T : Type u) [LinearOrder T] where
  | Empty
  | One (element : T)
  | Many (set : Finset T)
deriving DecidableEq

namespace Tree

/-- weave/src/matrix/tree/mod.rs:36-38 (and `Default`, 19-23) -/
def empty : Tree T := .Empty

/-- weave/src/matrix/tree/mod.rs:40-42 -/
def one (e : T) : Tree T := .One e

/-- weave/src/matrix/tree/mod.rs:44-58, weave/src/zdd2/tree/mod.rs:44-59: insert each element into a
fresh hash set. -/
def many : List T → Tree T
  | [] => .Empty
  | [e] => .One e
  | es => .Many (es.foldl (fun set e => insert e set) ∅)

/-- weave/src/matrix/tree/mod.rs:60-66 -/
def len : Tree T → Nat
  | .Empty => 0
  | .One _ => 1
  | .Many s => s.card

/-- weave/src/matrix/tree/mod.rs:68-73 -/
def isEmpty : Tree T → Bool
  | .Empty => true
  | _ => false

/-- `Into<Vec<T>>`, weave/src/matrix/tree/mod.rs:25-33 -/
def items (h : HashOrder T) : Tree T → List T
  | .Empty => []
  | .One e => [e]
  | .Many s => h.iter s

/-- weave/src/matrix/tree/intersect.rs:7-33 -/
def intersect (h : HashOrder T) (t1 t2 : Tree T) : Tree T :=
  if t1 = t2 then t1 else
  match t1, t2 with
  | _, .Empty => empty
  | .Empty, _ => empty
  | .Many s, .One e => if e ∈ s then t2 else .Empty
  | .One e, .Many s => if e ∈ s then t1 else .Empty
  | .Many s1, .Many s2 =>
    if s1 ⊆ s2 then t1
    else if s2 ⊆ s1 then t2
    else many (h.iter (s1 ∩ s2))
  | .One _, .One _ => .Empty

/-- weave/src/matrix/tree/union.rs:7-30.  The last arm `(_, _) => Tree::Empty` is reached by
`One`/`Many` pairs whose element is not in the set. -/
def union (h : HashOrder T) (t1 t2 : Tree T) : Tree T :=
  if t1 = t2 then t1 else
  match t1, t2 with
  | _, .Empty => t1
  | .Empty, _ => t2
  | .One e1, .One e2 => many [e1, e2]
  | .Many s, .One e => if e ∈ s then t1 else .Empty
  | .One e, .Many s => if e ∈ s then t2 else .Empty
  | .Many s1, .Many s2 =>
    if s1 ⊆ s2 then t2
    else if s2 ⊆ s1 then t1
    else many (h.iter (s1 ∪ s2))

/-- weave/src/matrix/tree/product.rs:8-40 (`product`, `one_to_many`, `many_to_many`) over a forest
type given by its constructors. -/
def productWith {F : Type v} (emptyF : F) (unitF : List T → F) (manyF : List (List T) → F)
    (h1 h2 : HashOrder T) (t1 t2 : Tree T) : F :=
  match t1, t2 with
  | _, .Empty => emptyF
  | .Empty, _ => emptyF
  | .One e1, .One e2 => unitF [e1, e2]
  | .One e, .Many s => manyF ((h2.iter s).map (fun b => [e, b]))
  | .Many s, .One e => manyF ((h1.iter s).map (fun b => [e, b]))
  | .Many s1, .Many s2 =>
    manyF ((h1.iter s1).flatMap (fun e1 => (h2.iter s2).map (fun e2 => [e1, e2])))

/-- `matrix::Tree::product`.  weave/src/matrix/tree/mod.rs (`product`), weave/src/matrix/tree/product.rs:8-40. -/
def product (h1 h2 : HashOrder T) (t1 t2 : Tree T) : Matrix.Forest T :=
  productWith Matrix.Forest.empty Matrix.Forest.unit Matrix.Forest.many h1 h2 t1 t2

end Tree

/-! ## Helper lemmas -/

namespace Tree

/-- The elements, as a set.  Not code: used to state or prove properties. -/
def elems : Tree T → Finset T
  | .Empty => ∅
  | .One e => {e}
  | .Many s => s

theorem items_toFinset (h : HashOrder T) (t : Tree T) : (t.items h).toFinset = t.elems := by
  cases t <;> simp [items, elems]

theorem foldl_insert (es : List T) (s : Finset T) :
    es.foldl (fun set e => insert e set) s = s ∪ es.toFinset := by
  induction es generalizing s with
  | nil => simp
  | cons a es ih => rw [List.foldl_cons, ih]; ext x; simp

theorem elems_many (es : List T) : (many es).elems = es.toFinset := by
  match es with
  | [] => rfl
  | [e] => simp [many, elems]
  | a :: b :: es =>
    simp only [many, elems]
    rw [foldl_insert]; simp

/-- Trees obtainable through the API.  Not code: used to state or prove properties. -/
inductive Reach : Tree T → Prop where
  | empty : Reach empty
  | one (e : T) : Reach (one e)
  | many (es : List T) : Reach (many es)
  | intersect {a b} (h : HashOrder T) : Reach a → Reach b → Reach (intersect h a b)
  | union {a b} (h : HashOrder T) : Reach a → Reach b → Reach (union h a b)

theorem many_nonempty {es : List T} {s : Finset T} (e : many es = .Many s) : s.Nonempty := by
  match es with
  | [] => cases e
  | [e'] => cases e
  | a :: b :: es =>
    simp only [many] at e
    injection e with e
    rw [foldl_insert] at e
    subst e
    exact ⟨a, by simp⟩

theorem Reach.nonempty {t : Tree T} (ht : Reach t) : ∀ s, t = .Many s → s.Nonempty := by
  induction ht with
  | empty => intro s e; cases e
  | one e => intro s e; cases e
  | many es => intro s e; exact many_nonempty e
  | @intersect a b h ha hb iha ihb =>
    intro s e
    unfold Tree.intersect at e
    split_ifs at e
    · exact iha s e
    · split at e <;> first
        | cases e
        | (split_ifs at e <;> first
            | exact many_nonempty e
            | exact iha s e
            | exact ihb s e
            | cases e)
  | @union a b h ha hb iha ihb =>
    intro s e
    unfold Tree.union at e
    split_ifs at e
    · exact iha s e
    · split at e <;> first
        | exact iha s e
        | exact ihb s e
        | exact many_nonempty e
        | (split_ifs at e <;> first
            | exact many_nonempty e
            | exact iha s e
            | exact ihb s e
            | cases e)

end Tree

/-! ## C09 -/

/-- C09: construction. -/
theorem tree_construct (h : HashOrder T) (es : List T) (e : T) :
    ((Tree.many es).items h).toFinset = es.toFinset ∧
    ((Tree.one e).items h).toFinset = {e} ∧ ((Tree.empty : Tree T).items h).toFinset = ∅ := by
  refine ⟨?_, ?_, ?_⟩ <;> rw [Tree.items_toFinset]
  · exact Tree.elems_many es
  · rfl
  · rfl

/-- C09: `len` and `is_empty` count the items. -/
theorem tree_len (h : HashOrder T) {t : Tree T} (ht : Tree.Reach t) :
    t.len = (t.items h).toFinset.card ∧ (t.isEmpty = true ↔ (t.items h).toFinset = ∅) ∧
    (t.items h).Nodup := by
  rw [Tree.items_toFinset]
  cases t with
  | Empty => simp [Tree.len, Tree.elems, Tree.isEmpty, Tree.items]
  | One e => simp [Tree.len, Tree.elems, Tree.isEmpty, Tree.items]
  | Many s =>
    obtain ⟨a, ha⟩ := ht.nonempty s rfl
    refine ⟨rfl, ?_, h.nodup s⟩
    simp only [Tree.isEmpty, Tree.elems]
    exact ⟨fun hh => absurd hh (by simp), fun hh => by simp [hh] at ha⟩

/-- The hypothesis is met. -/
example (h : HashOrder ℕ) := tree_len h (t := Tree.intersect h (Tree.many [3, 1, 3]) (Tree.many [3, 2]))
  (.intersect _ (.many _) (.many _))

/-- C09: intersect is set intersection. -/
theorem tree_intersect (h h' : HashOrder T) (a b : Tree T) :
    ((Tree.intersect h a b).items h').toFinset = (a.items h').toFinset ∩ (b.items h').toFinset := by
  simp only [Tree.items_toFinset]
  unfold Tree.intersect
  split_ifs with e
  · subst e; simp
  · cases a with
    | Empty => cases b <;> simp [Tree.elems, Tree.empty]
    | One x =>
      cases b with
      | Empty => simp [Tree.elems, Tree.empty]
      | One y =>
        simp only [Tree.elems]
        have : x ≠ y := fun e' => e (by rw [e'])
        ext z; simp only [Finset.notMem_empty, Finset.mem_inter, Finset.mem_singleton, false_iff,
          not_and]
        rintro rfl; exact this
      | Many s =>
        simp only
        split_ifs with h1
        · ext z; simp only [Tree.elems, Finset.mem_inter, Finset.mem_singleton]
          exact ⟨fun e' => ⟨e', e' ▸ h1⟩, fun e' => e'.1⟩
        · ext z; simp only [Tree.elems, Finset.mem_inter, Finset.mem_singleton,
            Finset.notMem_empty, false_iff, not_and]; rintro rfl; exact h1
    | Many s =>
      cases b with
      | Empty => simp [Tree.elems, Tree.empty]
      | One y =>
        simp only
        split_ifs with h1
        · ext z; simp only [Tree.elems, Finset.mem_inter, Finset.mem_singleton]
          exact ⟨fun e' => ⟨e' ▸ h1, e'⟩, fun e' => e'.2⟩
        · ext z; simp only [Tree.elems, Finset.mem_inter, Finset.mem_singleton,
            Finset.notMem_empty, false_iff, not_and]; rintro h2 rfl; exact h1 h2
      | Many s2 =>
        simp only
        split_ifs with h1 h2
        · simp only [Tree.elems]; exact (Finset.inter_eq_left.2 h1).symm
        · simp only [Tree.elems]; exact (Finset.inter_eq_right.2 h2).symm
        · rw [Tree.elems_many]; simp [Tree.elems]

/-- C09: product is the forest of all pairs. -/
theorem tree_product (h1 h2 : HashOrder T) (h' : HashOrder (List T)) (k : HashOrder T)
    (a b : Tree T) :
    family ((Tree.product h1 h2 a b).trees h') =
      {s | ∃ x ∈ a.items k, ∃ y ∈ b.items k, s = {x, y}} := by
  cases a with
  | Empty =>
    cases b <;> (simp only [Tree.product, Tree.productWith, Matrix.empty_family]; ext s; simp [Tree.items])
  | One x =>
    cases b with
    | Empty =>
      simp only [Tree.product, Tree.productWith, Matrix.empty_family]; ext s; simp [Tree.items]
    | One y =>
      simp only [Tree.product, Tree.productWith, Matrix.unit_family]; ext s; simp [Tree.items]
    | Many s =>
      simp only [Tree.product, Tree.productWith, Matrix.many_family]; ext t
      simp [family, Tree.items, eq_comm]
  | Many s =>
    cases b with
    | Empty =>
      simp only [Tree.product, Tree.productWith, Matrix.empty_family]; ext s; simp [Tree.items]
    | One y =>
      simp only [Tree.product, Tree.productWith, Matrix.many_family]; ext t
      simp [family, Tree.items, eq_comm, Finset.pair_comm]
    | Many s2 =>
      simp only [Tree.product, Tree.productWith, Matrix.many_family]; ext t
      simp only [family, List.mem_flatMap, List.mem_map, HashOrder.mem_iter, Set.mem_ofPred_eq,
        Tree.items]
      constructor
      · rintro ⟨_, ⟨x, hx, y, hy, rfl⟩, rfl⟩; exact ⟨x, hx, y, hy, by simp⟩
      · rintro ⟨x, hx, y, hy, rfl⟩; exact ⟨_, ⟨x, hx, y, hy, rfl⟩, by simp⟩

example : Tree.Reach (Tree.many [3, 1, 3] : Tree ℕ) := .many _

/-! ## C10 -/

/-- C10 is false of the code: the union of `{3}` and `{1, 2}` is empty. -/
theorem tree_union_not_exact :
    ∃ a b : Tree ℕ, Tree.Reach a ∧ Tree.Reach b ∧ ∀ h h',
      ((Tree.union h a b).items h').toFinset ≠ (a.items h').toFinset ∪ (b.items h').toFinset := by
  refine ⟨Tree.one 3, Tree.many [1, 2], .one _, .many _, fun h h' => ?_⟩
  simp only [Tree.items_toFinset]
  have : Tree.union h (Tree.one 3) (Tree.many [1, 2]) = .Empty := by
    have e : ¬ (Tree.one 3 = (Tree.many [1, 2] : Tree ℕ)) := by decide
    have e2 : (3 : ℕ) ∉ ([1, 2] : List ℕ).foldl (fun set e => insert e set) (∅ : Finset ℕ) := by
      decide
    unfold Tree.union
    rw [if_neg e]
    simp only [Tree.one, Tree.many]
    rw [if_neg e2]
  rw [this]; decide

/-- When the code loses everything: one operand a `One`, the other a `Many` without its element.
Not code: used to state or prove properties. -/
def Tree.Lossy (a b : Tree T) : Prop :=
  ∃ e s, e ∉ s ∧ ((a = .One e ∧ b = .Many s) ∨ (a = .Many s ∧ b = .One e))

/-- C10, exact boundary: on obtainable trees the union is the set union *iff* the operands are not a
one-element tree and a `many` tree without that element; in that case the result is empty.  The full
property (no side condition) is refuted by `tree_union_not_exact`. -/
theorem tree_union_partial (h h' : HashOrder T) (a b : Tree T) :
    (¬ Tree.Lossy a b →
      ((Tree.union h a b).items h').toFinset = (a.items h').toFinset ∪ (b.items h').toFinset) ∧
    (Tree.Lossy a b → Tree.union h a b = Tree.empty) := by
  simp only [Tree.items_toFinset]
  constructor
  · intro hl
    unfold Tree.union
    split_ifs with e
    · subst e; simp
    · cases a with
      | Empty => cases b <;> simp [Tree.elems]
      | One x =>
        cases b with
        | Empty => simp [Tree.elems]
        | One y => simp only [Tree.elems_many]; ext z; simp [Tree.elems]
        | Many s =>
          simp only
          split_ifs with h1
          · simp [Tree.elems, h1]
          · exact absurd ⟨x, s, h1, Or.inl ⟨rfl, rfl⟩⟩ hl
      | Many s =>
        cases b with
        | Empty => simp [Tree.elems]
        | One y =>
          simp only
          split_ifs with h1
          · simp [Tree.elems, h1]
          · exact absurd ⟨y, s, h1, Or.inr ⟨rfl, rfl⟩⟩ hl
        | Many s2 =>
          simp only
          split_ifs with h1 h2
          · simp only [Tree.elems]; exact (Finset.union_eq_right.2 h1).symm
          · simp only [Tree.elems]; exact (Finset.union_eq_left.2 h2).symm
          · rw [Tree.elems_many]; simp [Tree.elems]
  · rintro ⟨e, s, he, ⟨rfl, rfl⟩ | ⟨rfl, rfl⟩⟩ <;> simp [Tree.union, he, Tree.empty]

example : ¬ Tree.Lossy (Tree.many [1, 2, 3] : Tree ℕ) (Tree.many [3, 4]) := by
  rintro ⟨e, s, _, ⟨h, _⟩ | ⟨_, h⟩⟩ <;> cases h

example : Tree.Lossy (Tree.one 3 : Tree ℕ) (Tree.many [1, 2]) :=
  ⟨3, {1, 2}, by decide, Or.inl ⟨rfl, congrArg Tree.Many (by decide)⟩⟩

end Verif.Tree
