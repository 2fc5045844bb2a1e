import Verif.Trait
import Mathlib.Data.Finset.Sort

/-!
# The forest and tree operations in the form the repository's own tests call them

The modules of `Verif/Conform` replay the test suite of the repository on the model: each `example` is one
assertion of one test, with string items replaced by their rank (the order of items is all the code uses).
They are tests of the *model*, not properties: nothing in MANIFEST.json rests on them.
-/

namespace Verif.Conform
open Verif

/-- One way to iterate a hash set: in ascending order (C07: the order is irrelevant).
Not code: used to test the model. -/
def asc (α : Type) [LinearOrder α] [DecidableEq α] : HashOrder α where
  iter s := Quot.liftOn s.val sorted (fun a b h => by
    apply List.Perm.eq_of_pairwise (le := (· ≤ ·)) (fun _ _ _ _ => le_antisymm)
    · exact List.pairwise_insertionSort _ _
    · exact List.pairwise_insertionSort _ _
    · exact (List.perm_insertionSort _ _).trans (h.trans (List.perm_insertionSort _ _).symm))
  nodup s := by
    obtain ⟨⟨l⟩, h⟩ := s
    exact (List.perm_insertionSort _ l).nodup_iff.2 h
  mem s a := by
    obtain ⟨⟨l⟩, h⟩ := s
    exact (List.perm_insertionSort _ l).mem_iff

namespace matrix

/-- Not code: used to test the model. -/
abbrev F := Matrix.Forest Nat
/-- Not code: used to test the model. -/
abbrev rows : HashOrder (List Nat) := asc (List Nat)
/-- weave/src/matrix/forest/mod.rs:46-77, on numbers. -/
abbrev empty : F := Matrix.Forest.empty
@[inherit_doc empty] abbrev unit (s : List Nat) : F := Matrix.Forest.unit s
@[inherit_doc empty] abbrev many (m : List (List Nat)) : F := Matrix.Forest.many m
@[inherit_doc empty] abbrev unique (s : List Nat) : F := Matrix.Forest.unique s
/-- weave/src/matrix/forest/mod.rs:83-144, hash sets iterated in ascending order. -/
abbrev len (f : F) : Nat := f.len
@[inherit_doc len] abbrev isEmpty (f : F) : Bool := f.isEmpty
@[inherit_doc len] abbrev trees (f : F) : List (List Nat) := f.trees rows
@[inherit_doc len] abbrev occurrences (f : F) : List (Nat × Nat) :=
  f.occurrences rows (asc (Nat ×ₗ Nat) : HashOrder (Nat × Nat))
@[inherit_doc len] abbrev union (f g : F) : F := Matrix.Forest.union rows f g
@[inherit_doc len] abbrev intersect (f g : F) : F := Matrix.Forest.intersect rows f g
@[inherit_doc len] abbrev product (f g : F) : F := Matrix.Forest.product rows rows f g
@[inherit_doc len] abbrev subset (f : F) (x : Nat) : F := Matrix.Forest.subset rows f x
@[inherit_doc len] abbrev subsetNot (f : F) (x : Nat) : F := Matrix.Forest.subsetNot rows f x
@[inherit_doc len] abbrev subsetAll (f : F) (xs : List Nat) : F := Matrix.Forest.subsetAll rows f xs
@[inherit_doc len] abbrev subsetNone (f : F) (xs : List Nat) : F := Matrix.Forest.subsetNone rows f xs
@[inherit_doc len] abbrev treeProduct (a b : Tree.Tree Nat) : F :=
  Tree.Tree.product (asc Nat) (asc Nat) a b

end matrix

namespace zdd2

/-- A forest, or a panic.  Not code: used to test the model. -/
abbrev F := Option (Zdd2.Forest Nat)
/-- weave/src/zdd2/forest/mod.rs:57-89, on numbers. -/
abbrev empty : F := some Zdd2.Forest.empty
@[inherit_doc empty] abbrev unit (s : List Nat) : F := some (Zdd2.Forest.unit s)
@[inherit_doc empty] abbrev many (m : List (List Nat)) : F := some (Zdd2.Forest.many m)
@[inherit_doc empty] abbrev unique (s : List Nat) : F := some (Zdd2.Forest.unique s)
/-- weave/src/zdd2/forest/mod.rs:100-177, a panic of an argument being a panic of the call. -/
abbrev len (f : F) : Option Nat := f.map Zdd2.Forest.len
@[inherit_doc len] abbrev isEmpty (f : F) : Option Bool := f.map Zdd2.Forest.isEmpty
@[inherit_doc len] abbrev trees (f : F) : Option (List (List Nat)) := f.map Zdd2.Forest.trees
@[inherit_doc len] abbrev occurrences (f : F) : Option (List (Nat × Nat)) := f.map Zdd2.Forest.occurrences
@[inherit_doc len] abbrev union (f g : F) : F := f.bind (fun f => g.bind (fun g => f.union g))
@[inherit_doc len] abbrev intersect (f g : F) : F := f.bind (fun f => g.bind (fun g => f.intersect g))
@[inherit_doc len] abbrev product (f g : F) : F := f.bind (fun f => g.bind (fun g => f.product g))
@[inherit_doc len] abbrev subset (f : F) (x : Nat) : F := f.map (fun f => f.subset x)
@[inherit_doc len] abbrev subsetNot (f : F) (x : Nat) : F := f.map (fun f => f.subsetNot x)
@[inherit_doc len] abbrev subsetAll (f : F) (xs : List Nat) : F := f.map (fun f => f.subsetAll xs)
@[inherit_doc len] abbrev subsetNone (f : F) (xs : List Nat) : F := f.map (fun f => f.subsetNone xs)
@[inherit_doc len] abbrev treeProduct (a b : Tree.Tree Nat) : F :=
  some (Trait.zdd2TreeProduct (asc Nat) (asc Nat) a b)

end zdd2

namespace tree

/-- Not code: used to test the model. -/
abbrev F := Tree.Tree Nat
/-- weave/src/matrix/tree/mod.rs:36-58, on numbers. -/
abbrev empty : F := Tree.Tree.empty
@[inherit_doc empty] abbrev one (e : Nat) : F := Tree.Tree.one e
@[inherit_doc empty] abbrev many (s : List Nat) : F := Tree.Tree.many s
/-- weave/src/matrix/tree/mod.rs:25-85, hash sets iterated in ascending order. -/
abbrev len (f : F) : Nat := f.len
@[inherit_doc len] abbrev isEmpty (f : F) : Bool := f.isEmpty
@[inherit_doc len] abbrev items (f : F) : List Nat := f.items (asc Nat)
@[inherit_doc len] abbrev union (f g : F) : F := Tree.Tree.union (asc Nat) f g
@[inherit_doc len] abbrev intersect (f g : F) : F := Tree.Tree.intersect (asc Nat) f g

end tree

end Verif.Conform
