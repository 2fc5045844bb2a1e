import Verif.Bdd.Node
import Verif.Bdd.Spec
import Mathlib.Data.Prod.Lex

/-!
# Model of bowtie-core: closets, the closet builder, selection and outfit completion

Items (`I`) and families (`F`) are any linearly ordered types (in the code both are strings).
`BTreeMap`s are key-sorted association lists.
-/

namespace Verif.Bdd
open Verif

universe u v
variable {I : Type u} {F : Type v}

/-- bowtie-core/src/core.rs:33-38 -/
inductive Status (I : Type u) where
  | Excluded (i : I)
  | Available (i : I)
  | Selected (i : I)

namespace Status

/-- bowtie-core/src/core.rs:41-47 -/
def isExcluded : Status I → Bool
  | .Excluded _ => true
  | .Available _ => false
  | .Selected _ => false

/-- bowtie-core/src/core.rs:49-55 -/
def isAvailable : Status I → Bool
  | .Excluded _ => false
  | .Available _ => true
  | .Selected _ => false

/-- bowtie-core/src/core.rs:57-63 -/
def isSelected : Status I → Bool
  | .Excluded _ => false
  | .Available _ => false
  | .Selected _ => true

/-- The carried item.  The item projection inside bowtie-core/src/core.rs:65-71. -/
def item : Status I → I
  | .Excluded i => i
  | .Available i => i
  | .Selected i => i

/-- bowtie-core/src/core.rs:65-71 -/
def is [DecidableEq I] (s : Status I) (other : I) : Bool := decide (s.item = other)

/-- Sort key of the derived `Ord` (bowtie-core/src/core.rs:33): variant first, then the item. -/
def key (s : Status I) : ℕ ×ₗ I :=
  match s with
  | .Excluded i => toLex (0, i)
  | .Available i => toLex (1, i)
  | .Selected i => toLex (2, i)

theorem key_injective : Function.Injective (key : Status I → ℕ ×ₗ I) := by
  intro a b h
  cases a <;> cases b <;> simp_all [key]

/-- `#[derive(Ord)]` on `ItemStatus` (bowtie-core/src/core.rs:33). -/
instance [LinearOrder I] : LinearOrder (Status I) :=
  LinearOrder.lift' key key_injective

/-- C50, for bowtie-core: a status is exactly one of the three, and the predicates together with the item
determine it; `is` compares the carried item. -/
theorem predicates_exact (s : Status I) (x : I) :
    (s = .Excluded x ↔ s.isExcluded = true ∧ s.item = x) ∧
    (s = .Available x ↔ s.isAvailable = true ∧ s.item = x) ∧
    (s = .Selected x ↔ s.isSelected = true ∧ s.item = x) ∧
    [s.isExcluded, s.isAvailable, s.isSelected].count true = 1 := by
  cases s <;> simp [isExcluded, isAvailable, isSelected, item]

theorem is_iff [DecidableEq I] (s : Status I) (x : I) :
    s.is x = true ↔ s = .Excluded x ∨ s = .Available x ∨ s = .Selected x := by
  cases s <;> simp [is, item] <;> exact decide_eq_true_iff

/-- C50, for bowtie-core: excluded items come first, then available, then selected ones; inside a variant the
order is that of the items. -/
theorem order_spec [LinearOrder I] (x y : I) :
    Status.Excluded x < .Available y ∧ Status.Available x < .Selected y ∧
    (Status.Excluded x < .Excluded y ↔ x < y) ∧ (Status.Available x < .Available y ↔ x < y) ∧
    (Status.Selected x < .Selected y ↔ x < y) := by
  have h : ∀ a b : Status I, a < b ↔ a.key < b.key := fun _ _ => Iff.rfl
  simp only [h, key, Prod.Lex.toLex_lt_toLex]
  simp

end Status

variable [LinearOrder I] [LinearOrder F]

/-- One turn of the work-list loop of `summarize` for a popped node
(bowtie-core/src/bdd/node/summarize.rs:15-31): the status recorded for a branch. -/
def branchStatus (item : I) (high : Node I) : Status I :=
  match high with
  | .Leaf false => .Excluded item
  | _ => .Available item

/-- Total size of a work list.  Not code: used to state or prove properties. -/
def queueSize (q : List (Node I)) : Nat := (q.map Node.size).sum

/-- The loop of `summarize` (summarize.rs:12-31).  `queue` is a stack (`push`/`pop` at its end; here
the head is the top); `nodes` maps each item to the statuses pushed on its heap. -/
def summarizeLoop (queue : List (Node I)) (nodes : List (I × List (Status I))) :
    List (I × List (Status I)) :=
  match queue with
  | [] => nodes
  | .Leaf _ :: q => summarizeLoop q nodes
  | .Branch item low high :: q =>
    summarizeLoop (high :: low :: q) (pushTo item (branchStatus item high) nodes)
termination_by queueSize queue
decreasing_by all_goals simp [queueSize, Node.size]; try omega

/-- `BinaryHeap::peek`: the greatest element.  bowtie-core/src/bdd/node/summarize.rs:33. -/
def peek {α : Type u} [LinearOrder α] : List α → Option α
  | [] => none
  | a :: l => some (l.foldl max a)

/-- bowtie-core/src/bdd/node/summarize.rs:10-37.  `HashMap::values()` comes in arbitrary order; the
result is sorted by a total order afterwards, so the order does not matter (`summarize_perm`). -/
def summarize (node : Node I) : List (Status I) :=
  sorted ((summarizeLoop [node] []).filterMap (fun e => peek e.2))

/-- bowtie-core/src/bdd/closet/mod.rs:12-17 -/
structure Closet (I : Type u) (F : Type v) where
  itemIndex : List (I × F)
  summary : List (Status I)
  root : Node I

namespace Closet

/-- closet/mod.rs:20-29 -/
def new (itemIndex : List (I × F)) (root : Node I) : Closet I F :=
  { itemIndex := itemIndex, summary := summarize root, root := root }

/-- closet/mod.rs:41-43 -/
def getFamily (c : Closet I F) (item : I) : Option F := lookup item c.itemIndex

end Closet

/-! ## The builder -/

/-- bowtie-core/src/bdd/closet_builder/mod.rs:9-15 -/
structure ClosetBuilder (I : Type u) (F : Type v) where
  contents : List (F × List I)
  itemIndex : List (I × F)
  exclusions : List (I × List I)
  inclusions : List (I × List I)

/-- The leaves of bowtie-core/src/closet_builder.rs:7-14 (`ClosetBuilderError` without
`CompoundError`, which the code never nests). -/
inductive Conflict (I : Type u) (F : Type v) where
  | MissingFamily (i : I)
  | ConflictingFamilies (i : I) (fs : List F)
  | InclusionError (f : F) (is : List I)
  | ExclusionError (f : F) (is : List I)
deriving DecidableEq

/-- bowtie-core/src/closet_builder.rs:7-14 as returned by `validate_closet`. -/
inductive BuilderError (I : Type u) (F : Type v) where
  | Single (c : Conflict I F)
  | CompoundError (cs : List (Conflict I F))
deriving DecidableEq

/-- closet_builder.rs:42-60 -/
def findConflictingFamilies (contents : List (F × List I)) (itemIndex : List (I × F)) :
    List (Conflict I F) :=
  contents.flatMap (fun (family, items) =>
    items.filterMap (fun item =>
      match lookup item itemIndex with
      | none => some (.MissingFamily item)
      | some itemFamily =>
        if itemFamily ≠ family then some (.ConflictingFamilies item [itemFamily, family])
        else none))

/-- closet_builder.rs:62-95 -/
def findIllegalRules (rules : List (I × List I)) (itemIndex : List (I × F))
    (ruleError : F → List I → Conflict I F) : List (Conflict I F) :=
  rules.flatMap (fun (selection, items) =>
    match lookup selection itemIndex with
    | none => [.MissingFamily selection]
    | some selectionFamily =>
      items.filterMap (fun item =>
        match lookup item itemIndex with
        | none => some (.MissingFamily item)
        | some itemFamily =>
          if selectionFamily = itemFamily then
            some (ruleError selectionFamily (sorted [selection, item]))
          else none))

/-- All conflicts, in the order of closet_builder.rs:22-31. -/
def allConflicts (contents : List (F × List I)) (itemIndex : List (I × F))
    (exclusions inclusions : List (I × List I)) : List (Conflict I F) :=
  uniq (findConflictingFamilies contents itemIndex ++
    findIllegalRules exclusions itemIndex .ExclusionError ++
    findIllegalRules inclusions itemIndex .InclusionError)

/-- closet_builder.rs:16-40 -/
def validateCloset (contents : List (F × List I)) (itemIndex : List (I × F))
    (exclusions inclusions : List (I × List I)) : Except (BuilderError I F) Unit :=
  match allConflicts contents itemIndex exclusions inclusions with
  | [] => .ok ()
  | [c] => .error (.Single c)
  | cs => .error (.CompoundError cs)

namespace ClosetBuilder

/-- bdd/closet_builder/mod.rs:18-25 -/
def new : ClosetBuilder I F := { contents := [], itemIndex := [], exclusions := [], inclusions := [] }

/-- bdd/closet_builder/mod.rs:27-36 -/
def addItem (b : ClosetBuilder I F) (family : F) (item : I) : ClosetBuilder I F :=
  { b with
    contents := pushTo family item b.contents
    itemIndex := orInsert item family b.itemIndex }

/-- bdd/closet_builder/mod.rs:38-41 -/
def addItems (b : ClosetBuilder I F) (family : F) (items : List I) : ClosetBuilder I F :=
  items.foldl (fun b item => b.addItem family item) b

/-- bdd/closet_builder/mod.rs:43-49 -/
def addExclusionRule (b : ClosetBuilder I F) (selection exclusion : I) : ClosetBuilder I F :=
  { b with exclusions := pushTo selection exclusion b.exclusions }

/-- bdd/closet_builder/mod.rs:51-54 -/
def addExclusionRules (b : ClosetBuilder I F) (selection : I) (exclusions : List I) :
    ClosetBuilder I F :=
  exclusions.foldl (fun b item => b.addExclusionRule selection item) b

/-- bdd/closet_builder/mod.rs:56-62 -/
def addInclusionRule (b : ClosetBuilder I F) (selection inclusion : I) : ClosetBuilder I F :=
  { b with inclusions := pushTo selection inclusion b.inclusions }

/-- bdd/closet_builder/mod.rs:64-67 -/
def addInclusionRules (b : ClosetBuilder I F) (selection : I) (inclusions : List I) :
    ClosetBuilder I F :=
  inclusions.foldl (fun b item => b.addInclusionRule selection item) b

/-- bdd/closet_builder/mod.rs:94-108 -/
def siblingRelationship (items : List I) : Node I :=
  let allNodes : List (I × Node I) :=
    items.foldl (fun m item => insertKV item (Node.negativeBranch item) m) []
  (items.map (fun item =>
      (insertKV item (Node.positiveBranch item) allNodes).foldl
        (fun newRoot e => Node.bitand newRoot e.2) Node.TRUE_LEAF)).foldl
    (fun other item => Node.bitor other item) Node.FALSE_LEAF

/-- bdd/closet_builder/mod.rs:110-112 -/
def exclusionRelationship (selection exclusion : I) : Node I :=
  Node.bitor (Node.negativeBranch selection) (Node.negativeBranch exclusion)

/-- bdd/closet_builder/mod.rs:114-116 -/
def inclusionRelationship (selection inclusion : I) : Node I :=
  Node.bitor (Node.negativeBranch selection) (Node.positiveBranch inclusion)

/-- `rules.iter().flat_map(|(s, es)| es.iter().map(|e| (s, e)))`, bdd/closet_builder/mod.rs:80-81,
85-86. -/
def rulePairs (rules : List (I × List I)) : List (I × I) :=
  rules.flatMap (fun e => e.2.map (fun x => (e.1, x)))

/-- The root computed by bdd/closet_builder/mod.rs:76-88. -/
def buildRoot (b : ClosetBuilder I F) : Node I :=
  let root := (b.contents.map (fun e => siblingRelationship e.2)).foldl
    (fun other familyNode => Node.bitand other familyNode) Node.TRUE_LEAF
  let root := ((rulePairs b.exclusions).map (fun p => exclusionRelationship p.1 p.2)).foldl
    (fun newRoot e => Node.bitand newRoot e) root
  ((rulePairs b.inclusions).map (fun p => inclusionRelationship p.1 p.2)).foldl
    (fun newRoot e => Node.bitand newRoot e) root

/-- bdd/closet_builder/mod.rs:73-92 -/
def build (b : ClosetBuilder I F) : Except (BuilderError I F) (Closet I F) :=
  match validateCloset b.contents b.itemIndex b.exclusions b.inclusions with
  | .error e => .error e
  | .ok () => .ok (Closet.new b.itemIndex b.buildRoot)

end ClosetBuilder

/-- Performing one builder call (bdd/closet_builder/mod.rs:27-36, 43-49, 56-62). -/
def ClosetBuilder.call (b : ClosetBuilder I F) : Spec.Call I F → ClosetBuilder I F
  | .item f i => b.addItem f i
  | .exclude x y => b.addExclusionRule x y
  | .incl x y => b.addInclusionRule x y

/-- Performing a history of builder calls from `ClosetBuilder::new()` (bdd/closet_builder/mod.rs:18-67;
the plural `add_*s` are such histories, theorem `plural_calls`). -/
def ClosetBuilder.run (cs : List (Spec.Call I F)) : ClosetBuilder I F :=
  cs.foldl ClosetBuilder.call ClosetBuilder.new

/-! ## Selecting and completing -/

/-- bowtie-core/src/core.rs:96-100 -/
inductive SelectItemError (I : Type u) where
  | ExcludedItem (excluded : I)
  | UnknownItem (i : I)
deriving DecidableEq

/-- bowtie-core/src/core.rs:89-94 -/
inductive OutfitError (I : Type u) (F : Type v) where
  | UnknownItems (is : List I)
  | IncompatibleSelections (is : List I)
  | MultipleItemsPerFamily (m : List (F × List I))
deriving DecidableEq

namespace Closet

/-- bowtie-core/src/bdd/closet/select.rs:10-41 (with its two validation helpers). -/
def selectItem (c : Closet I F) (item : I) : Except (SelectItemError I) (Closet I F) :=
  match c.getFamily item with
  | none => .error (.UnknownItem item)
  | some _ =>
    match (c.summary.filter (fun s => s.isExcluded)).find? (fun s => s.is item) with
    | some _ => .error (.ExcludedItem item)
    | none =>
      let root := Node.restrict c.root item true
      let summary := summarize root
      let summary := sorted (uniq ((c.summary.filter (fun s => s.isSelected)) ++
        [Status.Selected item] ++ summary))
      .ok { itemIndex := c.itemIndex, summary := summary, root := root }

/-- A history of `select_item` calls (bdd/closet/select.rs:10-30), stopping at the first error. -/
def selectAll (c : Closet I F) : List I → Except (SelectItemError I) (Closet I F)
  | [] => .ok c
  | x :: xs =>
    match c.selectItem x with
    | .error e => .error e
    | .ok c' => c'.selectAll xs

/-- bowtie-core/src/bdd/closet/complete_outfit.rs:59-70 -/
def findUnknownItems (c : Closet I F) (selections : List I) : Option (List I) :=
  let unknown := selections.filter (fun i => (c.getFamily i).isNone)
  if !unknown.isEmpty then some unknown else none

/-- complete_outfit.rs:72-90.  The inner `none` is the panic of `family.unwrap()`. -/
def findDuplicateItems (c : Closet I F) (selections : List I) :
    Option (Option (List (F × List I))) :=
  match selections.mapM (fun i => (c.getFamily i).map (fun f => (f, i))) with
  | none => none
  | some pairs =>
    let duplicates := (groupPush pairs).filter (fun e => decide (1 < e.2.length))
    some (if !duplicates.isEmpty then some duplicates else none)

/-- `selections.iter().fold(root, |r, s| Node::restrict(&r, s, true))`, complete_outfit.rs:16-19,
93-94. -/
def restrictAll (root : Node I) (selections : List I) : Node I :=
  selections.foldl (fun r s => Node.restrict r s true) root

/-- complete_outfit.rs:92-104 -/
def findConflictingItems (c : Closet I F) (selections : List I) : Option (List I) :=
  match restrictAll c.root selections with
  | .Leaf false => some (sorted selections)
  | _ => none

/-- The loop of complete_outfit.rs:22-41: take the high child unless it is the false leaf. -/
def walk : Node I → List I → List I
  | .Leaf _, outfit => sorted outfit
  | .Branch id low high, outfit =>
    if high = .Leaf false then walk low outfit else walk high (outfit ++ [id])

/-- complete_outfit.rs:13-43, 45-57.  The outer `none` is a panic. -/
def completeOutfit (c : Closet I F) (selections : List I) :
    Option (Except (OutfitError I F) (List I)) :=
  match c.findUnknownItems selections with
  | some items => some (.error (.UnknownItems items))
  | none =>
    match c.findDuplicateItems selections with
    | none => none
    | some (some items) => some (.error (.MultipleItemsPerFamily items))
    | some none =>
      match c.findConflictingItems selections with
      | some items => some (.error (.IncompatibleSelections items))
      | none => some (.ok (walk (restrictAll c.root selections) selections))

/-- bowtie-core/src/bdd/closet/categorize.rs:7-17; `unknown` is `Family::new("UNKNOWN")`. -/
def categorize (c : Closet I F) (unknown : F) (items : List I) : List (F × List I) :=
  groupPush (items.map (fun item => ((c.getFamily item).getD unknown, item)))

end Closet

namespace Node

/-- bowtie-core/src/bdd/closet/node_count.rs:10-20 -/
def nodeCount : Node I → Nat
  | .Leaf _ => 1
  | .Branch _ l h => 1 + l.nodeCount + h.nodeCount

/-- node_count.rs:26-36 -/
def leafCount : Node I → Nat
  | .Leaf _ => 1
  | .Branch _ l h => l.leafCount + h.leafCount

/-- node_count.rs:42-52 (`u64` arithmetic modelled by `Nat`). -/
def outfitCount : Node I → Nat
  | .Leaf val => if val then 1 else 0
  | .Branch _ l h => l.outfitCount + h.outfitCount

/-- node_count.rs:58-74 -/
def depth : Node I → Nat
  | .Leaf _ => 1
  | .Branch _ l h => if l.depth < h.depth then 1 + h.depth else 1 + l.depth

end Node

end Verif.Bdd
