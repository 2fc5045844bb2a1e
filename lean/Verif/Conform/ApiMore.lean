import Verif.Zdd1.Model
import Verif.Bdd.Closet
import Verif.Bdd.Structure
import Verif.Status

/-!
# Closets and older ZDD trees in the form the repository's own tests call them

Like `Verif/Conform/Api.lean`: used to replay the repository's tests on the model, with string items replaced by their rank.
-/

namespace Verif.Conform
open Verif

deriving instance DecidableEq for Zdd1.Universe
deriving instance DecidableEq for Zdd1.Tree
deriving instance DecidableEq for Zdd1.TreeNode
deriving instance DecidableEq for Bdd.Status
deriving instance DecidableEq for Bdd.Closet
deriving instance DecidableEq for Except

/-- A computation that did not panic (in the tests: `unwrap`, `expect`).  Not code: used to test the model. -/
def ok {ε α : Type} : Except ε α → Option α
  | .ok a => some a
  | .error _ => none

/-- `expect_err`.  Not code: used to test the model. -/
def err {ε α : Type} : Except ε α → Option ε
  | .ok _ => none
  | .error e => some e

namespace bdd

/-- Not code: used to test the model. -/
abbrev N := Bdd.Node Nat
/-- Not code: used to test the model. -/
abbrev B := Bdd.ClosetBuilder Nat Nat
/-- A closet, or a panic of the test.  Not code: used to test the model. -/
abbrev C := Option (Bdd.Closet Nat Nat)
/-- bowtie-core/src/bdd/node/mod.rs:29-45, on numbers. -/
abbrev branch (i : Nat) (l h : N) : N := .Branch i l h
@[inherit_doc branch] abbrev T : N := .Leaf true
@[inherit_doc branch] abbrev F : N := .Leaf false
@[inherit_doc branch] abbrev pos (i : Nat) : N := Bdd.Node.positiveBranch i
@[inherit_doc branch] abbrev neg (i : Nat) : N := Bdd.Node.negativeBranch i
/-- bowtie-core/src/bdd/node/bit_operations.rs:6-114, on numbers. -/
abbrev and (a b : N) : N := a.bitand b
@[inherit_doc and] abbrev or (a b : N) : N := a.bitor b
@[inherit_doc and] abbrev xor (a b : N) : N := a.bitxor b
@[inherit_doc and] abbrev not (a : N) : N := a.bitnot
/-- bowtie-core/src/bdd/node/reduce.rs:4-22, bowtie-core/src/bdd/node/restrict.rs:5-27, bowtie-core/src/bdd/node/summarize.rs:10-37,
on numbers. -/
abbrev reduce (a : N) : N := a.reduce
@[inherit_doc reduce] abbrev restrict (a : N) (i : Nat) (b : Bool) : N := a.restrict i b
@[inherit_doc reduce] abbrev summarize (a : N) : List (Bdd.Status Nat) := Bdd.summarize a
/-- bowtie-core/src/bdd/closet_builder/mod.rs:18-116, on numbers. -/
abbrev builder : B := Bdd.ClosetBuilder.new
@[inherit_doc builder] abbrev addItem (b : B) (f i : Nat) : B := b.addItem f i
@[inherit_doc builder] abbrev addItems (b : B) (f : Nat) (is : List Nat) : B := b.addItems f is
@[inherit_doc builder] abbrev addExclusionRule (b : B) (i j : Nat) : B := b.addExclusionRule i j
@[inherit_doc builder] abbrev addInclusionRule (b : B) (i j : Nat) : B := b.addInclusionRule i j
@[inherit_doc builder] abbrev build (b : B) : Except (Bdd.BuilderError Nat Nat) (Bdd.Closet Nat Nat) := b.build
@[inherit_doc builder] abbrev mustBuild (b : B) : C := ok b.build
/-- bowtie-core/src/bdd/closet/mod.rs:31-43, on numbers; a panic of an argument is a panic of the call. -/
abbrev root (c : C) : Option N := c.map Bdd.Closet.root
@[inherit_doc root] abbrev summary (c : C) : Option (List (Bdd.Status Nat)) := c.map Bdd.Closet.summary
@[inherit_doc root] abbrev select (c : C) (i : Nat) :
    Option (Except (Bdd.SelectItemError Nat) (Bdd.Closet Nat Nat)) := c.map (fun c => c.selectItem i)
@[inherit_doc root] abbrev complete (c : C) (is : List Nat) :
    Option (Except (Bdd.OutfitError Nat Nat) (List Nat)) := c.bind (fun c => c.completeOutfit is)
@[inherit_doc root] abbrev categorize (c : C) (is : List Nat) : Option (List (Nat × List Nat)) :=
  c.map (fun c => c.categorize 0 is)
@[inherit_doc root] abbrev nodeCount (c : C) : Option Nat := c.map (fun c => c.root.nodeCount)
@[inherit_doc root] abbrev leafCount (c : C) : Option Nat := c.map (fun c => c.root.leafCount)
@[inherit_doc root] abbrev outfitCount (c : C) : Option Nat := c.map (fun c => c.root.outfitCount)
@[inherit_doc root] abbrev depth (c : C) : Option Nat := c.map (fun c => c.root.depth)

end bdd

namespace zdd1

/-- Not code: used to test the model. -/
abbrev U := Zdd1.Universe Nat
/-- Not code: used to test the model. -/
abbrev F := Zdd1.Tree Nat
/-- weave/src/zdd/tree/universe.rs:22-77, on numbers. -/
abbrev items (l : List Nat) : U := Zdd1.Universe.fromVec l
@[inherit_doc items] abbrev default : U := Zdd1.Universe.default
@[inherit_doc items] abbrev tree (u : U) (l : List Nat) : F := u.tree l
@[inherit_doc items] abbrev hyperTree (u : U) (l : List (List Nat)) : F := u.hyperTree l
@[inherit_doc items] abbrev uniqueTree (u : U) (l : List Nat) : F := u.uniqueTree l
@[inherit_doc items] abbrev emptyTree (u : U) : F := u.emptyTree
@[inherit_doc items] abbrev unitTree (u : U) : F := u.unitTree
/-- weave/src/zdd/tree/mod.rs:41-143, on numbers. -/
abbrev union (a b : F) : F := a.union b
@[inherit_doc union] abbrev intersect (a b : F) : F := a.intersect b
@[inherit_doc union] abbrev product (a b : F) : F := a.product b
@[inherit_doc union] abbrev combinations (a : F) : List (List Nat) := a.combinations
@[inherit_doc union] abbrev combinationsRecursive (a : F) : List (List Nat) := a.combinationsRecursive
@[inherit_doc union] abbrev combinationsWith (a : F) (i e : List Nat) : List (List Nat) := a.combinationsWith i e
@[inherit_doc union] abbrev restrict (a : F) (i e : List Nat) : F := a.restrict i e
@[inherit_doc union] abbrev traverse (a : F) : Option (Zdd1.TreeNode Nat) := a.traverse

end zdd1

end Verif.Conform
