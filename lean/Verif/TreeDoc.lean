import Verif.Tree

/-!
# Trees: equality, laws, and trees read from documents (C92, C93)

`Tree` derives `PartialEq`, `Serialize` and `Deserialize` and has public variants
(weave/src/matrix/tree/mod.rs:12-17, weave/src/zdd2/tree/mod.rs:12-17), so values like `Many({x})` and `Many({})` come
from repeated inputs, from documents, or are written down.  The theorems hold for every value of the type unless
they say `Reach`.
-/

set_option linter.unusedSimpArgs false
set_option linter.dupNamespace false

namespace Verif.Tree
open Verif Verif.Spec

universe u
variable {T : Type u} [LinearOrder T]

namespace Tree

theorem many_perm {a b : List T} (hp : a.Perm b) : many a = many b := by
  match a, b, hp with
  | [], b, hp => rw [hp.nil_eq]
  | [s], b, hp => rw [List.perm_singleton.1 hp.symm]
  | x :: y :: m, b, hp =>
    match b, hp with
    | [], hp => simpa using hp.length_eq
    | [_], hp => simpa using hp.length_eq
    | c :: d :: m', hp =>
      simp only [many, foldl_insert, Many.injEq]
      ext l
      simp only [Finset.empty_union, List.mem_toFinset]
      exact hp.mem_iff

end Tree

/-! ## C92 -/

/-- C92 is false of the code: the tree made from a repeated element and the tree of that element have the same
items and are different values. -/
theorem tree_eq_not_extensional :
    ∃ a b : Tree ℕ, Tree.Reach a ∧ Tree.Reach b ∧
      (∀ h, (a.items h).toFinset = (b.items h).toFinset) ∧ a ≠ b := by
  refine ⟨Tree.many [1, 1], Tree.one 1, .many _, .one _, fun h => ?_, by decide⟩
  simp only [Tree.items_toFinset]; decide

/-- C92, exactly when it holds: two trees obtainable from the API are equal iff they have the same items and, if
that is one item, both are `One` or both are `Many`. -/
theorem tree_eq_iff_partial (h : HashOrder T) {a b : Tree T} (ha : Tree.Reach a) (hb : Tree.Reach b) :
    a = b ↔ (a.items h).toFinset = (b.items h).toFinset ∧
      ((∃ e, a = .One e) ↔ ∃ e, b = .One e) := by
  simp only [Tree.items_toFinset]
  constructor
  · rintro rfl; exact ⟨rfl, Iff.rfl⟩
  · rintro ⟨e, k⟩
    cases a with
    | Empty =>
      cases b with
      | Empty => rfl
      | One y => exact absurd (k.mpr ⟨y, rfl⟩) (by simp)
      | Many s =>
        obtain ⟨x, hx⟩ := hb.nonempty s rfl
        simp only [Tree.elems] at e; rw [← e] at hx; simp at hx
    | One x =>
      cases b with
      | Empty => exact absurd (k.mp ⟨x, rfl⟩) (by simp)
      | One y => simp only [Tree.elems, Finset.singleton_inj] at e; rw [e]
      | Many s => exact absurd (k.mp ⟨x, rfl⟩) (by simp)
    | Many s =>
      cases b with
      | Empty =>
        obtain ⟨x, hx⟩ := ha.nonempty s rfl
        simp only [Tree.elems] at e; rw [e] at hx; simp at hx
      | One y => exact absurd (k.mpr ⟨y, rfl⟩) (by simp)
      | Many s2 => simp only [Tree.elems] at e; rw [e]

/-- C92: trees with no item or with at least two are equal iff they have the same items. -/
theorem tree_eq_other_partial (h : HashOrder T) {a b : Tree T} (ha : Tree.Reach a) (hb : Tree.Reach b)
    (hn : a.len ≠ 1) : a = b ↔ (a.items h).toFinset = (b.items h).toFinset := by
  rw [tree_eq_iff_partial h ha hb]
  refine ⟨fun e => e.1, fun e => ⟨e, ?_⟩⟩
  have hl := (tree_len h ha).1
  constructor
  · rintro ⟨x, rfl⟩; exact absurd rfl hn
  · rintro ⟨x, rfl⟩
    rw [e] at hl
    exact absurd (hl.trans (by simp [Tree.items])) hn

/-- The hypotheses are met. -/
example (h : HashOrder ℕ) := tree_eq_other_partial h (a := Tree.many [3, 1]) (b := Tree.many [1, 3, 3])
  (.many _) (.many _) (by decide)

/-- C92: the value of `union` and `intersect` depends neither on hash order nor on the order of the operands;
a tree with itself gives itself. -/
theorem tree_laws (h h' : HashOrder T) (a b : Tree T) :
    Tree.union h a b = Tree.union h' b a ∧ Tree.intersect h a b = Tree.intersect h' b a ∧
    Tree.union h a a = a ∧ Tree.intersect h a a = a ∧
    Tree.union h a Tree.empty = a ∧ Tree.intersect h a Tree.empty = Tree.empty := by
  refine ⟨?_, ?_, by simp [Tree.union], by simp [Tree.intersect], ?_, ?_⟩
  · unfold Tree.union
    by_cases e : a = b
    · subst e; simp
    · rw [if_neg e, if_neg (fun e' => e e'.symm)]
      cases a with
      | Empty => cases b <;> first | rfl | exact absurd rfl e
      | One x =>
        cases b with
        | Empty => rfl
        | One y => exact Tree.many_perm (List.Perm.swap _ _ _)
        | Many s => rfl
      | Many s =>
        cases b with
        | Empty => rfl
        | One y => rfl
        | Many s2 =>
          simp only
          by_cases c1 : s ⊆ s2
          · by_cases c2 : s2 ⊆ s
            · exact absurd (congrArg Tree.Many (Finset.Subset.antisymm c1 c2)) e
            · simp [c1, c2]
          · by_cases c2 : s2 ⊆ s
            · simp [c1, c2]
            · simp only [c1, c2, if_false]
              rw [Finset.union_comm]; exact Tree.many_perm (h.perm h' _)
  · unfold Tree.intersect
    by_cases e : a = b
    · subst e; simp
    · rw [if_neg e, if_neg (fun e' => e e'.symm)]
      cases a with
      | Empty => cases b <;> rfl
      | One x => cases b <;> rfl
      | Many s =>
        cases b with
        | Empty => rfl
        | One y => rfl
        | Many s2 =>
          simp only
          by_cases c1 : s ⊆ s2
          · by_cases c2 : s2 ⊆ s
            · exact absurd (congrArg Tree.Many (Finset.Subset.antisymm c1 c2)) e
            · simp [c1, c2]
          · by_cases c2 : s2 ⊆ s
            · simp [c1, c2]
            · simp only [c1, c2, if_false]
              rw [Finset.inter_comm]; exact Tree.many_perm (h.perm h' _)
  · cases a <;> simp [Tree.union, Tree.empty]
  · cases a <;> simp [Tree.intersect, Tree.empty]

/-! ## C93 -/

/-- The serde data model of a tree: the derived externally tagged enum, a `HashSet` as a sequence.
weave/src/matrix/tree/mod.rs:12-17, weave/src/zdd2/tree/mod.rs:12-17. -/
inductive TreeDoc (T : Type u) where
  | Empty
  | One (element : T)
  | Many (seq : List T)

/-- `derive(Serialize)`: the set is written in its iteration order.  weave/src/matrix/tree/mod.rs:12-17. -/
def Tree.write (h : HashOrder T) : Tree T → TreeDoc T
  | .Empty => .Empty
  | .One e => .One e
  | .Many s => .Many (h.iter s)

/-- `derive(Deserialize)`: each element of the sequence is inserted.  weave/src/matrix/tree/mod.rs:12-17. -/
def Tree.read : TreeDoc T → Tree T
  | .Empty => .Empty
  | .One e => .One e
  | .Many l => .Many (l.foldl (fun set e => insert e set) ∅)

/-- The items a document lists.  Not code: used to state or prove properties. -/
def TreeDoc.lists : TreeDoc T → List T
  | .Empty => []
  | .One e => [e]
  | .Many l => l

/-- C93: a written tree reads back as itself, in whatever order its set was written. -/
theorem tree_roundtrip (h : HashOrder T) (t : Tree T) : Tree.read (t.write h) = t := by
  cases t with
  | Empty => rfl
  | One e => rfl
  | Many s => simp [Tree.write, Tree.read, Tree.foldl_insert]

/-- C93: every document is read, as the tree with exactly the items it lists, each once. -/
theorem tree_read_exact (h : HashOrder T) (d : TreeDoc T) :
    ((Tree.read d).items h).toFinset = d.lists.toFinset ∧ ((Tree.read d).items h).Nodup ∧
    (Tree.read d).len = d.lists.toFinset.card := by
  cases d with
  | Empty => simp [Tree.read, TreeDoc.lists, Tree.items, Tree.len]
  | One e => simp [Tree.read, TreeDoc.lists, Tree.items, Tree.len]
  | Many l =>
    simp only [Tree.read, TreeDoc.lists, Tree.items, Tree.len, Tree.foldl_insert, Finset.empty_union,
      HashOrder.toFinset_iter, true_and]
    exact ⟨h.nodup _, trivial⟩

/-- C93: trees read from any documents (or written down) intersect, multiply and count exactly; `is_empty` is
right except for the tree that is `Many` of no items. -/
theorem tree_any_value (h h1 h2 k : HashOrder T) (h' : HashOrder (List T)) (a b : Tree T) :
    ((Tree.intersect h a b).items k).toFinset = (a.items k).toFinset ∩ (b.items k).toFinset ∧
    family ((Tree.product h1 h2 a b).trees h') = {s | ∃ x ∈ a.items k, ∃ y ∈ b.items k, s = {x, y}} ∧
    a.len = (a.items k).toFinset.card ∧
    ((a.isEmpty = true ↔ (a.items k).toFinset = ∅) ↔ a ≠ .Many ∅) := by
  refine ⟨tree_intersect h k a b, tree_product h1 h2 h' k a b, ?_, ?_⟩
  · cases a <;> simp [Tree.len, Tree.items]
  · cases a with
    | Empty => simp [Tree.isEmpty, Tree.items]
    | One e => simp [Tree.isEmpty, Tree.items]
    | Many s => simp [Tree.isEmpty, Tree.items]

/-- C93: which trees can be made with the API: all but `Many` of no items; so a document that the library wrote
reads back as an API tree, and the document with an empty `Many` is the only kind that does not. -/
theorem tree_reach_iff (t : Tree T) : Tree.Reach t ↔ t ≠ .Many ∅ := by
  constructor
  · rintro hr rfl; simpa using hr.nonempty ∅ rfl
  · intro hne
    cases t with
    | Empty => exact .empty
    | One e => exact .one e
    | Many s =>
      obtain ⟨a, ha⟩ := Finset.nonempty_iff_ne_empty.mpr (fun e : s = ∅ => hne (by rw [e]))
      have key : Tree.many (a :: a :: (HashOrder.anyOrder T).iter s) = .Many s := by
        simp only [Tree.many, Tree.foldl_insert, Tree.Many.injEq]
        ext x
        simp only [Finset.empty_union, List.toFinset_cons, HashOrder.toFinset_iter, Finset.mem_insert]
        constructor
        · rintro (rfl | rfl | hx) <;> assumption
        · intro hx; exact Or.inr (Or.inr hx)
      exact key ▸ .many _

/-- A document written by hand, with a repeated item: three entries, two items. -/
example (h : HashOrder ℕ) : (Tree.read (.Many [3, 1, 3])).len = 2 ∧ Tree.Reach (Tree.read (.Many [3, 1, 3])) := by
  refine ⟨(tree_read_exact h _).2.2.trans (by decide), (tree_reach_iff _).mpr (by decide)⟩

end Verif.Tree
