import Verif.Zdd2.Universe

/-!
# Model of weave/src/zdd2/forest/mod.rs and forest/subset.rs

`root: NodeId` is the diagram it denotes (see `Verif.Arena`).  The `unwrap`s of `translate_root` are
modelled by `Option`: `none` is a panic.
-/

namespace Verif.Zdd2
open Verif

universe u
variable {T : Type u} [LinearOrder T]

/-- weave/src/zdd2/forest/mod.rs:25-29.  `#[derive(Eq, PartialEq)]` is structural equality. -/
structure Forest (T : Type u) where
  root : Node
  univ : Universe T
deriving DecidableEq

namespace Forest

/-- weave/src/zdd2/forest/mod.rs:57-62 -/
def empty : Forest T := ⟨.Never, Universe.default⟩

/-- weave/src/zdd2/forest/mod.rs:64-69 -/
def unit (items : List T) : Forest T :=
  let univ := Universe.fromItems items
  ⟨univ.getPrioritiesNode items, univ⟩

/-- weave/src/zdd2/forest/mod.rs:71-79 -/
def many (matrix : List (List T)) : Forest T :=
  let univ := Universe.fromMatrix matrix
  ⟨(matrix.map (fun items => univ.getPrioritiesNode items)).foldl Node.union .Never, univ⟩

/-- weave/src/zdd2/forest/mod.rs:81-89 -/
def unique (set : List T) : Forest T :=
  let univ := Universe.fromItems set
  ⟨(univ.getPriorities set).foldl (fun root item => Node.branch item root .Always) .Never,
    univ⟩

/-- weave/src/zdd2/forest/mod.rs:91-98 -/
def canonical (root : Node) (univ : Universe T) : Forest T :=
  many ((Node.trees root).map (fun set => univ.getItems set))

/-- weave/src/zdd2/forest/mod.rs:100-102 -/
def len (f : Forest T) : Nat := (Node.trees f.root).length

/-- weave/src/zdd2/forest/mod.rs:104-106 -/
def isEmpty (f : Forest T) : Bool := (Node.trees f.root).isEmpty

/-- weave/src/zdd2/forest/mod.rs:108-113 -/
def trees (f : Forest T) : List (List T) :=
  (Node.trees f.root).map (fun set => f.univ.getItems set)

/-- weave/src/zdd2/forest/mod.rs:115-121.  `e` is the order in which the cloned hash map is
consumed. -/
def occurrencesIter (e : List (T × Nat)) (_f : Forest T) : List (T × Nat) := sortByKey e

/-- weave/src/zdd2/forest/mod.rs:115-121, iterating in key order. -/
def occurrences (f : Forest T) : List (T × Nat) := occurrencesIter f.univ.occurrences f

/-- weave/src/zdd2/forest/mod.rs:189-202; `none` is a failed `unwrap`. -/
def translateRoot (oldU newU : Universe T) : Node → Option Node
  | .Branch id low high =>
    match translateRoot oldU newU low, translateRoot oldU newU high, oldU.getItem id with
    | some low, some high, some item =>
      match newU.getPriority item with
      | some id => some (Node.branch id low high)
      | none => none
    | _, _, _ => none
  | .Always => some .Always
  | .Never => some .Never

/-- weave/src/zdd2/forest/mod.rs:180-187 -/
def translateRoots (self other : Forest T) : Option (Universe T × Node × Node) :=
  let univ := Universe.merge self.univ other.univ
  match translateRoot self.univ univ self.root, translateRoot other.univ univ other.root with
  | some selfRoot, some otherRoot => some (univ, selfRoot, otherRoot)
  | _, _ => none

/-- weave/src/zdd2/forest/mod.rs:123-131 -/
def intersect (self other : Forest T) : Option (Forest T) :=
  (translateRoots self other).map (fun r => canonical (Node.intersect r.2.1 r.2.2) r.1)

/-- weave/src/zdd2/forest/mod.rs:133-141 -/
def union (self other : Forest T) : Option (Forest T) :=
  (translateRoots self other).map (fun r => canonical (Node.union r.2.1 r.2.2) r.1)

/-- weave/src/zdd2/forest/mod.rs:143-151 -/
def product (self other : Forest T) : Option (Forest T) :=
  (translateRoots self other).map (fun r => canonical (Node.product r.2.1 r.2.2) r.1)

/-- weave/src/zdd2/forest/subset.rs:7-16 -/
def subset (f : Forest T) (element : T) : Forest T :=
  match f.univ.getPriority element with
  | none => empty
  | some e => canonical (Node.subset f.root e) f.univ

/-- weave/src/zdd2/forest/subset.rs:18-27 -/
def subsetNot (f : Forest T) (element : T) : Forest T :=
  match f.univ.getPriority element with
  | none => f
  | some e => canonical (Node.subsetNot f.root e) f.univ

/-- weave/src/zdd2/forest/subset.rs:29-49 -/
def subsetMany (f : Forest T) (elements : List T) (dflt : Forest T → Forest T)
    (func : Node → List Nat → Node) : Forest T :=
  if elements.isEmpty then f
  else
    let known := f.univ.getPriorities elements
    if elements.length ≠ known.length then dflt f
    else canonical (func f.root known) f.univ

/-- weave/src/zdd2/forest/mod.rs:161-168 -/
def subsetAll (f : Forest T) (elements : List T) : Forest T :=
  subsetMany f elements (fun _ => empty) Node.subsetAll

/-- weave/src/zdd2/forest/mod.rs:170-177 -/
def subsetNone (f : Forest T) (elements : List T) : Forest T :=
  subsetMany f elements (fun f => f) Node.subsetNone

end Forest
end Verif.Zdd2
