import Verif.Cost
import Verif.Bdd.Stack
import Verif.Bdd.Machine
import Mathlib.Tactic.Ring
import Mathlib.Tactic.GCongr
import Mathlib.Data.Finset.NAry
import Mathlib.Algebra.BigOperators.Group.Finset.Basic

/-!
# How many calls the operations on closets make (C90)

The recursive functions of bowtie-core/src/bdd with a counter of calls: one for every call of a recursive
function (`bitor`, `bitand`, `restrict`, the four counts) and one for every iteration of the loops of
`summarize` and `complete_outfit`.  None of these functions caches results: a subdiagram that is shared is
visited once for every path that leads to it.  Maps and sorting are not counted.
-/

set_option linter.unusedSimpArgs false
set_option linter.unusedSectionVars false
set_option linter.unusedVariables false

namespace Verif.Bdd
open Verif Verif.Bdd.Spec Ticked

universe u v
variable {I : Type u} [LinearOrder I] {F : Type v} [LinearOrder F]

namespace Node

/-- bowtie-core/src/bdd/node/bit_operations.rs:22-59, counting calls. -/
def bitorT (node1 node2 : Node I) : Ticked (Node I) :=
  call <| match node1, node2 with
  | n1, .Leaf false => ret n1
  | .Leaf false, n2 => ret n2
  | .Leaf v1, .Leaf v2 => ret (.Leaf (v1 || v2))
  | .Branch id l h, .Leaf v =>
    (bitorT l (.Leaf v)).bind fun low => (bitorT h (.Leaf v)).map fun high => mk id low high
  | .Leaf v, .Branch id l h =>
    (bitorT (.Leaf v) l).bind fun low => (bitorT (.Leaf v) h).map fun high => mk id low high
  | .Branch id1 l1 h1, .Branch id2 l2 h2 =>
    let firstId := if id1 ≤ id2 then id1 else id2
    let s1 := splitBranch (.Branch id1 l1 h1) firstId
    let s2 := splitBranch (.Branch id2 l2 h2) firstId
    (bitorT s1.1 s2.1).bind fun low => (bitorT s1.2 s2.2).map fun high => mk firstId low high
termination_by node1.size + node2.size
decreasing_by
  all_goals first
    | (simp only [size]; omega)
    | exact (size_split_pair _ _ _ _ _ _).1
    | exact (size_split_pair _ _ _ _ _ _).2

/-- bowtie-core/src/bdd/node/bit_operations.rs:61-94, counting calls. -/
def bitandT (node1 node2 : Node I) : Ticked (Node I) :=
  call <| match node1, node2 with
  | n1, .Leaf true => ret n1
  | .Leaf true, n2 => ret n2
  | .Leaf v1, .Leaf v2 => ret (.Leaf (v1 && v2))
  | .Branch id l h, .Leaf v =>
    (bitandT l (.Leaf v)).bind fun low => (bitandT h (.Leaf v)).map fun high => mk id low high
  | .Leaf v, .Branch id l h =>
    (bitandT (.Leaf v) l).bind fun low => (bitandT (.Leaf v) h).map fun high => mk id low high
  | .Branch id1 l1 h1, .Branch id2 l2 h2 =>
    let firstId := if id1 ≤ id2 then id1 else id2
    let s1 := splitBranch (.Branch id1 l1 h1) firstId
    let s2 := splitBranch (.Branch id2 l2 h2) firstId
    (bitandT s1.1 s2.1).bind fun low => (bitandT s1.2 s2.2).map fun high => mk firstId low high
termination_by node1.size + node2.size
decreasing_by
  all_goals first
    | (simp only [size]; omega)
    | exact (size_split_pair _ _ _ _ _ _).1
    | exact (size_split_pair _ _ _ _ _ _).2

/-- bowtie-core/src/bdd/node/restrict.rs:5-27, counting calls. -/
def restrictT (node : Node I) (item : I) (selected : Bool) : Ticked (Node I) :=
  call <| match node with
  | .Leaf true => ret TRUE_LEAF
  | .Leaf false => ret FALSE_LEAF
  | .Branch id low high =>
    if id = item then ret (if !selected then low else high)
    else
      (restrictT low item selected).bind fun restrictedLow =>
      (restrictT high item selected).map fun restrictedHigh =>
      if restrictedLow = restrictedHigh then restrictedLow
      else .Branch id restrictedLow restrictedHigh

/-- bowtie-core/src/bdd/closet/node_count.rs:10-20, counting calls. -/
def nodeCountT : Node I → Ticked Nat
  | .Leaf _ => call (ret 1)
  | .Branch _ l h => call (l.nodeCountT.bind fun a => h.nodeCountT.map fun b => 1 + a + b)

/-- bowtie-core/src/bdd/closet/node_count.rs:26-36, counting calls. -/
def leafCountT : Node I → Ticked Nat
  | .Leaf _ => call (ret 1)
  | .Branch _ l h => call (l.leafCountT.bind fun a => h.leafCountT.map fun b => a + b)

/-- bowtie-core/src/bdd/closet/node_count.rs:42-52, counting calls. -/
def outfitCountT : Node I → Ticked Nat
  | .Leaf val => call (ret (if val then 1 else 0))
  | .Branch _ l h => call (l.outfitCountT.bind fun a => h.outfitCountT.map fun b => a + b)

/-- bowtie-core/src/bdd/closet/node_count.rs:58-74, counting calls. -/
def depthT : Node I → Ticked Nat
  | .Leaf _ => call (ret 1)
  | .Branch _ l h => call (l.depthT.bind fun a => h.depthT.map fun b => if a < b then 1 + b else 1 + a)

end Node

/-- bowtie-core/src/bdd/node/summarize.rs:12-31, counting iterations. -/
def summarizeLoopT (queue : List (Node I)) (nodes : List (I × List (Status I))) :
    Ticked (List (I × List (Status I))) :=
  match queue with
  | [] => ret nodes
  | .Leaf _ :: q => call (summarizeLoopT q nodes)
  | .Branch item low high :: q =>
    call (summarizeLoopT (high :: low :: q) (pushTo item (branchStatus item high) nodes))
termination_by queueSize queue
decreasing_by all_goals simp [queueSize, Node.size]; try omega

/-- bowtie-core/src/bdd/node/summarize.rs:10-37, counting iterations. -/
def summarizeT (node : Node I) : Ticked (List (Status I)) :=
  (summarizeLoopT [node] []).map fun m => sorted (m.filterMap (fun e => peek e.2))

namespace ClosetBuilder

/-- bowtie-core/src/bdd/closet_builder/mod.rs:94-108, counting calls. -/
def siblingRelationshipT (items : List I) : Ticked (Node I) :=
  let allNodes : List (I × Node I) :=
    items.foldl (fun m item => insertKV item (Node.negativeBranch item) m) []
  fold (fun other item =>
    (fold (fun newRoot e => Node.bitandT newRoot e.2) Node.TRUE_LEAF
      (insertKV item (Node.positiveBranch item) allNodes)).bind fun node => Node.bitorT other node)
    Node.FALSE_LEAF items

/-- The root computed by bowtie-core/src/bdd/closet_builder/mod.rs:76-88, counting calls. -/
def buildRootT (b : ClosetBuilder I F) : Ticked (Node I) :=
  (fold (fun other e => (siblingRelationshipT e.2).bind fun familyNode => Node.bitandT other familyNode)
    Node.TRUE_LEAF b.contents).bind fun root =>
  (fold (fun newRoot p => (Node.bitorT (Node.negativeBranch p.1) (Node.negativeBranch p.2)).bind fun e =>
    Node.bitandT newRoot e) root (rulePairs b.exclusions)).bind fun root =>
  fold (fun newRoot p => (Node.bitorT (Node.negativeBranch p.1) (Node.positiveBranch p.2)).bind fun e =>
    Node.bitandT newRoot e) root (rulePairs b.inclusions)

/-- bowtie-core/src/bdd/closet_builder/mod.rs:73-92 with bdd/closet/mod.rs:20-29, counting calls. -/
def buildT (b : ClosetBuilder I F) : Ticked (Except (BuilderError I F) (Closet I F)) :=
  match validateCloset b.contents b.itemIndex b.exclusions b.inclusions with
  | .error e => ret (.error e)
  | .ok () => b.buildRootT.bind fun root => (summarizeT root).map fun summary =>
    .ok { itemIndex := b.itemIndex, summary := summary, root := root }

end ClosetBuilder

namespace Closet

/-- bowtie-core/src/bdd/closet/select.rs:10-41, counting calls. -/
def selectItemT (c : Closet I F) (item : I) : Ticked (Except (SelectItemError I) (Closet I F)) :=
  match c.getFamily item with
  | none => ret (.error (.UnknownItem item))
  | some _ =>
    match (c.summary.filter (fun s => s.isExcluded)).find? (fun s => s.is item) with
    | some _ => ret (.error (.ExcludedItem item))
    | none =>
      (Node.restrictT c.root item true).bind fun root => (summarizeT root).map fun summary =>
      .ok { itemIndex := c.itemIndex, summary := sorted (uniq ((c.summary.filter (fun s => s.isSelected)) ++
        [Status.Selected item] ++ summary)), root := root }

/-- bowtie-core/src/bdd/closet/complete_outfit.rs:16-19, 93-94, counting calls. -/
def restrictAllT (root : Node I) (selections : List I) : Ticked (Node I) :=
  fold (fun r s => Node.restrictT r s true) root selections

/-- bowtie-core/src/bdd/closet/complete_outfit.rs:22-41, counting iterations. -/
def walkT : Node I → List I → Ticked (List I)
  | .Leaf _, outfit => call (ret (sorted outfit))
  | .Branch id low high, outfit =>
    call (if high = .Leaf false then walkT low outfit else walkT high (outfit ++ [id]))

/-- bowtie-core/src/bdd/closet/complete_outfit.rs:13-57, 92-104, counting calls: the root is restricted once
in the validation and once more for the completion. -/
def completeOutfitT (c : Closet I F) (selections : List I) :
    Ticked (Option (Except (OutfitError I F) (List I))) :=
  match c.findUnknownItems selections with
  | some items => ret (some (.error (.UnknownItems items)))
  | none =>
    match c.findDuplicateItems selections with
    | none => ret none
    | some (some items) => ret (some (.error (.MultipleItemsPerFamily items)))
    | some none =>
      (restrictAllT c.root selections).bind fun checked =>
      match checked with
      | .Leaf false => ret (some (.error (.IncompatibleSelections (sorted selections))))
      | _ => (restrictAllT c.root selections).bind fun root => (walkT root selections).map fun o => some (.ok o)

end Closet

/-! ### the values are those of the plain functions -/

namespace Node

theorem bitorT_val (a b : Node I) : (bitorT a b).val = bitor a b := by
  fun_induction bitor a b with
  | case6 i1 l1 h1 i2 l2 h2 =>
    rename_i ih1 ih2
    rw [bitorT.eq_def]
    simp only [call_val, bind_val, map_val]
    exact congrArg₂ (mk _) ih1 ih2
  | _ => rw [bitorT.eq_def]; simp_all [bind_val, map_val]

theorem bitandT_val (a b : Node I) : (bitandT a b).val = bitand a b := by
  fun_induction bitand a b with
  | case6 i1 l1 h1 i2 l2 h2 =>
    rename_i ih1 ih2
    rw [bitandT.eq_def]
    simp only [call_val, bind_val, map_val]
    exact congrArg₂ (mk _) ih1 ih2
  | _ => rw [bitandT.eq_def]; simp_all [bind_val, map_val]

theorem restrictT_val (n : Node I) (x : I) (b : Bool) : (restrictT n x b).val = restrict n x b := by
  induction n with
  | Leaf v => cases v <;> rfl
  | Branch i l h ihl ihh =>
    rw [restrictT, restrict]
    by_cases e : i = x
    · simp [e]
    · simp only [e, if_false, call_val, bind_val, map_val, ihl, ihh]

theorem counts_val (n : Node I) : n.nodeCountT.val = n.nodeCount ∧ n.leafCountT.val = n.leafCount ∧
    n.outfitCountT.val = n.outfitCount ∧ n.depthT.val = n.depth := by
  induction n with
  | Leaf b => exact ⟨rfl, rfl, rfl, rfl⟩
  | Branch i l h ihl ihh =>
    obtain ⟨a1, a2, a3, a4⟩ := ihl
    obtain ⟨b1, b2, b3, b4⟩ := ihh
    simp only [nodeCountT, leafCountT, outfitCountT, depthT, call_val, bind_val, map_val, nodeCount, leafCount,
      outfitCount, depth, a1, a2, a3, a4, b1, b2, b3, b4, and_self]

theorem counts_calls (n : Node I) : n.nodeCountT.calls = n.nodeCount ∧ n.leafCountT.calls = n.nodeCount ∧
    n.outfitCountT.calls = n.nodeCount ∧ n.depthT.calls = n.nodeCount := by
  induction n with
  | Leaf b => exact ⟨rfl, rfl, rfl, rfl⟩
  | Branch i l h ihl ihh =>
    obtain ⟨a1, a2, a3, a4⟩ := ihl
    obtain ⟨b1, b2, b3, b4⟩ := ihh
    simp only [nodeCountT, leafCountT, outfitCountT, depthT, call_calls, bind_calls, map_calls, nodeCount,
      a1, a2, a3, a4, b1, b2, b3, b4]
    omega

theorem nodeCount_size (n : Node I) : n.nodeCount = n.size := by
  induction n with
  | Leaf b => rfl
  | Branch i l h ihl ihh => rw [nodeCount, size, ihl, ihh]

end Node

theorem summarizeLoopT_eq (q : List (Node I)) (m : List (I × List (Status I))) :
    (summarizeLoopT q m).val = summarizeLoop q m ∧ (summarizeLoopT q m).calls = queueSize q := by
  fun_induction summarizeLoop q m with
  | case1 m => rw [summarizeLoopT]; exact ⟨rfl, rfl⟩
  | case2 m b q ih =>
    rw [summarizeLoopT, call_val, call_calls, ih.1, ih.2]
    simp [queueSize, Node.size]; omega
  | case3 m i l h q ih =>
    rw [summarizeLoopT, call_val, call_calls, ih.1, ih.2]
    simp [queueSize, Node.size]; omega

theorem summarizeT_val (n : Node I) : (summarizeT n).val = summarize n := by
  rw [summarizeT, map_val, (summarizeLoopT_eq _ _).1]; rfl

theorem summarizeT_calls (n : Node I) : (summarizeT n).calls = n.size := by
  rw [summarizeT, map_calls, (summarizeLoopT_eq _ _).2]; simp [queueSize]

namespace ClosetBuilder

theorem siblingT_val (items : List I) : (siblingRelationshipT items).val = siblingRelationship items := by
  rw [siblingRelationshipT, fold_val (g := fun other item => Node.bitor other
    ((insertKV item (Node.positiveBranch item)
      (items.foldl (fun m item => insertKV item (Node.negativeBranch item) m) [])).foldl
        (fun newRoot e => Node.bitand newRoot e.2) Node.TRUE_LEAF)), siblingRelationship, List.foldl_map]
  intro a b
  rw [bind_val, Node.bitorT_val, fold_val (g := fun newRoot e => Node.bitand newRoot e.2)]
  intro a b; exact Node.bitandT_val _ _

theorem buildRootT_val (b : ClosetBuilder I F) : b.buildRootT.val = b.buildRoot := by
  rw [buildRootT, bind_val, bind_val,
    fold_val (g := fun r p => Node.bitand r (inclusionRelationship p.1 p.2))
      (fun a e => by rw [bind_val, Node.bitorT_val, Node.bitandT_val]; rfl),
    fold_val (g := fun r p => Node.bitand r (exclusionRelationship p.1 p.2))
      (fun a e => by rw [bind_val, Node.bitorT_val, Node.bitandT_val]; rfl),
    fold_val (g := fun other e => Node.bitand other (siblingRelationship e.2))
      (fun a e => by rw [bind_val, siblingT_val, Node.bitandT_val])]
  rw [buildRoot]
  simp only [List.foldl_map]

theorem buildT_val (b : ClosetBuilder I F) : b.buildT.val = b.build := by
  rw [buildT, build]
  cases validateCloset b.contents b.itemIndex b.exclusions b.inclusions with
  | error e => rfl
  | ok u => simp only [bind_val, map_val, buildRootT_val, summarizeT_val]; rfl

end ClosetBuilder

namespace Closet

theorem selectItemT_val (c : Closet I F) (x : I) : (c.selectItemT x).val = c.selectItem x := by
  rw [selectItemT, selectItem]
  cases c.getFamily x with
  | none => rfl
  | some f =>
    simp only
    cases (c.summary.filter (fun s => s.isExcluded)).find? (fun s => s.is x) with
    | some s => rfl
    | none => simp only [bind_val, map_val, Node.restrictT_val, summarizeT_val]

theorem restrictAllT_val (n : Node I) (xs : List I) : (restrictAllT n xs).val = restrictAll n xs := by
  rw [restrictAllT, fold_val (g := fun r s => Node.restrict r s true) (fun a b => Node.restrictT_val _ _ _)]; rfl

theorem walkT_eq (n : Node I) (acc : List I) : (walkT n acc).val = walk n acc ∧ (walkT n acc).calls ≤ n.depth := by
  induction n generalizing acc with
  | Leaf b => exact ⟨rfl, le_refl _⟩
  | Branch i l h ihl ihh =>
    rw [walkT, walk]
    by_cases e : h = .Leaf false
    · rw [if_pos e, if_pos e, call_val, call_calls]
      refine ⟨(ihl acc).1, ?_⟩
      have := (ihl acc).2
      rw [Node.depth]; split_ifs <;> omega
    · rw [if_neg e, if_neg e, call_val, call_calls]
      refine ⟨(ihh _).1, ?_⟩
      have := (ihh (acc ++ [i])).2
      rw [Node.depth]; split_ifs <;> omega

theorem completeOutfitT_val (c : Closet I F) (xs : List I) : (c.completeOutfitT xs).val = c.completeOutfit xs := by
  rw [completeOutfitT, completeOutfit]
  cases c.findUnknownItems xs with
  | some items => rfl
  | none =>
    simp only
    cases c.findDuplicateItems xs with
    | none => rfl
    | some d =>
      cases d with
      | some items => rfl
      | none =>
        simp only [bind_val, findConflictingItems, restrictAllT_val]
        cases e : restrictAll c.root xs with
        | Leaf b => cases b <;> simp [restrictAllT_val, (walkT_eq _ _).1, walk, e]
        | Branch i l h => simp [restrictAllT_val, (walkT_eq _ _).1, e]

end Closet

/-! ### calls and sizes -/

namespace Node

theorem size_pos (n : Node I) : 0 < n.size := by cases n <;> simp only [size] <;> omega

theorem split_mul (i1 i2 : I) (l1 h1 l2 h2 : Node I) :
    (splitBranch (.Branch i1 l1 h1) (if i1 ≤ i2 then i1 else i2)).1.size *
      (splitBranch (.Branch i2 l2 h2) (if i1 ≤ i2 then i1 else i2)).1.size +
    (splitBranch (.Branch i1 l1 h1) (if i1 ≤ i2 then i1 else i2)).2.size *
      (splitBranch (.Branch i2 l2 h2) (if i1 ≤ i2 then i1 else i2)).2.size + 1 ≤
    (Node.Branch i1 l1 h1).size * (Node.Branch i2 l2 h2).size := by
  have p1 := l1.size_pos
  have p2 := h1.size_pos
  have p3 := l2.size_pos
  have p4 := h2.size_pos
  simp only [splitBranch]
  have key : ∀ a b c d : Nat, a * c + b * d + 1 ≤ (1 + a + b) * (1 + c + d) := fun a b c d => by
    ring_nf; omega
  have key2 : ∀ a b c d : Nat, a * (1 + c + d) + b * (1 + c + d) + 1 ≤ (1 + a + b) * (1 + c + d) :=
    fun a b c d => by ring_nf; omega
  have key3 : ∀ a b c d : Nat, (1 + a + b) * c + (1 + a + b) * d + 1 ≤ (1 + a + b) * (1 + c + d) :=
    fun a b c d => by ring_nf; omega
  by_cases a : i1 ≤ i2
  · rw [if_pos a, if_pos rfl]
    by_cases e : i1 = i2
    · rw [if_pos e]; exact key _ _ _ _
    · rw [if_neg e]; exact key2 _ _ _ _
  · rw [if_neg a, if_pos rfl, if_neg (by rintro rfl; exact a (le_refl _))]
    exact key3 _ _ _ _

theorem bitandT_calls (a b : Node I) : (bitandT a b).calls ≤ a.size * b.size := by
  fun_induction bitand a b with
  | case1 n => rw [bitandT.eq_def]; have := n.size_pos; simp [size]; omega
  | case2 n h => rw [bitandT.eq_def]; have := n.size_pos; simp [size]; omega
  | case3 => rw [bitandT.eq_def]; simp_all [size]
  | case4 i l h v hv ih1 ih2 =>
    rw [bitandT.eq_def]
    cases v with
    | true => exact absurd rfl hv
    | false => simp only [call_calls, bind_calls, map_calls, size, Nat.mul_one] at *; omega
  | case5 v i l h hv ih1 ih2 =>
    rw [bitandT.eq_def]
    cases v with
    | true => exact absurd rfl hv
    | false => simp only [call_calls, bind_calls, map_calls, size, Nat.one_mul] at *; omega
  | case6 i1 l1 h1 i2 l2 h2 =>
    rename_i ih1 ih2
    rw [bitandT.eq_def]
    simp only [call_calls, bind_calls, map_calls]
    exact (Nat.add_le_add_right (Nat.add_le_add ih1 ih2) 1).trans (split_mul i1 i2 l1 h1 l2 h2)

theorem bitorT_calls (a b : Node I) : (bitorT a b).calls ≤ a.size * b.size := by
  fun_induction bitor a b with
  | case1 n => rw [bitorT.eq_def]; have := n.size_pos; simp [size]; omega
  | case2 n h => rw [bitorT.eq_def]; have := n.size_pos; simp [size]; omega
  | case3 => rw [bitorT.eq_def]; simp_all [size]
  | case4 i l h v hv ih1 ih2 =>
    rw [bitorT.eq_def]
    cases v with
    | false => exact absurd rfl hv
    | true => simp only [call_calls, bind_calls, map_calls, size, Nat.mul_one] at *; omega
  | case5 v i l h hv ih1 ih2 =>
    rw [bitorT.eq_def]
    cases v with
    | false => exact absurd rfl hv
    | true => simp only [call_calls, bind_calls, map_calls, size, Nat.one_mul] at *; omega
  | case6 i1 l1 h1 i2 l2 h2 =>
    rename_i ih1 ih2
    rw [bitorT.eq_def]
    simp only [call_calls, bind_calls, map_calls]
    exact (Nat.add_le_add_right (Nat.add_le_add ih1 ih2) 1).trans (split_mul i1 i2 l1 h1 l2 h2)

theorem size_mk (i : I) (l h : Node I) : (mk i l h).size ≤ 1 + l.size + h.size := by
  rw [mk]; split_ifs with e
  · omega
  · simp only [size]; omega

theorem size_bitor (a b : Node I) : (bitor a b).size ≤ a.size * b.size := by
  fun_induction bitor a b with
  | case1 n => simp [size]
  | case2 n h => simp [size]
  | case3 => simp [size]
  | case4 i l h v hv ih1 ih2 =>
    refine (size_mk _ _ _).trans ?_
    simp only [size, Nat.mul_one] at *; omega
  | case5 v i l h hv ih1 ih2 =>
    refine (size_mk _ _ _).trans ?_
    simp only [size, Nat.one_mul] at *; omega
  | case6 i1 l1 h1 i2 l2 h2 =>
    rename_i ih1 ih2
    refine (size_mk _ _ _).trans (le_trans ?_ (split_mul i1 i2 l1 h1 l2 h2))
    rw [Nat.add_assoc, Nat.add_comm 1]
    exact Nat.add_le_add_right (Nat.add_le_add ih1 ih2) 1

theorem restrictT_calls (n : Node I) (x : I) (b : Bool) : (restrictT n x b).calls ≤ n.size := by
  induction n with
  | Leaf v => cases v <;> simp [restrictT, size]
  | Branch i l h ihl ihh =>
    rw [restrictT]
    split_ifs <;> simp only [call_calls, ret_calls, bind_calls, map_calls, size] <;> omega

theorem size_restrict (n : Node I) (x : I) (b : Bool) : (restrict n x b).size ≤ n.size := by
  induction n with
  | Leaf v => cases v <;> simp [restrict, size]
  | Branch i l h ihl ihh =>
    rw [restrict_branch]
    split_ifs with e1 e2
    all_goals first
      | (simp only [size]; omega)
      | (refine (size_mk _ _ _).trans ?_; simp only [size]; omega)

/-- In a reduced diagram where every accepting path passes all of `S`, every branch is on an accepting path:
there are at most `|S|` branches per accepting path. -/
theorem Lvl.size_le {S : List I} {n : Node I} (h : Lvl S n) (hr : n.Reduced) :
    n.size ≤ 2 * (S.length * n.outfitCount) + 1 := by
  induction n generalizing S with
  | Leaf b => simp [size]
  | Branch i l h' ihl ihh =>
    cases S with
    | nil => exact h.elim
    | cons x s =>
      have h1 := ihl h.2.1 hr.2.1
      have h2 := ihh h.2.2 hr.2.2
      have hp : 0 < (Node.Branch i l h').outfitCount := by
        rw [← length_sols]
        exact List.length_pos_iff.mpr (sols_ne_nil hr (by simp))
      simp only [size, outfitCount, List.length_cons] at *
      have e : (s.length + 1) * (l.outfitCount + h'.outfitCount) =
        s.length * l.outfitCount + s.length * h'.outfitCount + (l.outfitCount + h'.outfitCount) := by ring
      rw [e]; omega

/-- The size of a diagram that accepts only sets of a family `M`, no two of which differ in a single item. -/
theorem size_of_rigid {S : Finset I} {n : Node I} (hg : Good (fun i => i ∈ S) n) (M : Finset (Finset I))
    (hM : ∀ σ, n.eval σ = true → S.filter (fun i => σ i = true) ∈ M)
    (hrig : ∀ σ, n.eval σ = true → ∀ x ∈ S, n.eval (Function.update σ x (!σ x)) = false) :
    n.size ≤ 2 * (S.card * M.card) + 1 := by
  have hS : (sorted S.toList).Pairwise (· < ·) := sorted_lt_of_nodup (Finset.nodup_toList S)
  have hmem : ∀ x, x ∈ sorted S.toList ↔ x ∈ S := fun x => by rw [mem_sorted, Finset.mem_toList]
  have hl : Lvl (sorted S.toList) n := lvl_of_rigid hS hg.1 hg.2 (fun x hx => (hmem x).mpr (hg.3 x hx))
    (fun σ h x hx => hrig σ h x ((hmem x).mp hx))
  refine (hl.size_le hg.2).trans ?_
  have hlen : (sorted S.toList).length = S.card := by rw [length_sorted, Finset.length_toList]
  rw [hlen]
  have hc : n.outfitCount ≤ M.card := by
    rw [← length_sols]
    have hnd := hl.sols_nodup hS
    have hnd' : (n.sols.map List.toFinset).Nodup := by
      refine List.Nodup.map_on ?_ hnd
      intro p hp q hq e
      have h1 := hS.sublist (hl.sol_sublist hp)
      have h2 := hS.sublist (hl.sol_sublist hq)
      exact toFinset_inj_of_lt h1 h2 e
    rw [← List.length_map (f := List.toFinset), ← List.toFinset_card_of_nodup hnd']
    refine Finset.card_le_card fun s hs => ?_
    rw [List.mem_toFinset, List.mem_map] at hs
    obtain ⟨p, hp, rfl⟩ := hs
    have hsub := hl.sol_sublist hp
    have hfilter : (sorted S.toList).filter (fun x => decide (x ∈ p)) = p := by
      refine lt_ext (hS.filter _) (hS.sublist hsub) fun x => ?_
      rw [List.mem_filter, decide_eq_true_eq]
      exact ⟨fun h => h.2, fun h => ⟨hsub.subset h, h⟩⟩
    have he : n.eval (fun x => decide (x ∈ p)) = true := by
      rw [hl.eval_iff hS, hfilter]; exact hp
    have := hM _ he
    convert this using 1
    ext x
    simp only [List.mem_toFinset, Finset.mem_filter, decide_eq_true_eq]
    exact ⟨fun h => ⟨(hmem x).mp (hsub.subset h), h⟩, fun h => h.2⟩
  gcongr

end Node

open Node Closet

theorem depth_le_size (n : Node I) : n.depth ≤ n.size := by
  induction n with
  | Leaf b => exact le_refl _
  | Branch i l h ihl ihh => simp only [depth, size]; split_ifs <;> omega

theorem restrictAllT_calls (n : Node I) (xs : List I) (C : Nat) (h : n.size ≤ C) :
    (restrictAllT n xs).calls ≤ xs.length * C ∧ (restrictAll n xs).size ≤ C := by
  constructor
  · refine fold_calls (g := fun r s => restrict r s true) (fun a b => restrictT_val _ _ _)
      (fun r => r.size ≤ C) C n xs ?_ h
    intro a b ha _
    exact ⟨(size_restrict a b true).trans ha, (restrictT_calls a b true).trans ha⟩
  · rw [restrictAll]
    induction xs generalizing n with
    | nil => exact h
    | cons x xs ih => exact ih _ ((size_restrict n x true).trans h)

/-! ## C90 -/

/-- C90: the number of nodes visited by one pass over a closet is, up to the number of items, the number of
outfits it still allows: at least that many, and at most `2 · N · K + 1`. -/
theorem closet_size (cs : List (Call I F)) (xs : List I) (c : Closet I F) (h : Reached cs xs c)
    (S : Finset I) (hS : ∀ i, i ∈ S ↔ Known cs i ∧ i ∉ xs)
    (L : Finset (Finset I)) (hL : ∀ w, w ∈ L ↔ Outfit cs w ∧ ∀ x ∈ xs, x ∈ w) :
    L.card ≤ c.root.nodeCount ∧ c.root.nodeCount ≤ 2 * (S.card * L.card) + 1 := by
  obtain ⟨L', hL', e⟩ := outfit_count_exact cs xs c h
  have : L' = L := by ext w; rw [hL, hL']
  subst this
  obtain ⟨_, h1, h2, h3⟩ := h.state
  have hlen : (free cs xs).length = S.card := by
    rw [← List.toFinset_card_of_nodup (nodup_of_lt (free_lt cs xs))]
    congr 1; ext i; rw [List.mem_toFinset, mem_free, hS]
  obtain ⟨k1, k2⟩ := counts c.root
  refine ⟨by omega, ?_⟩
  rw [nodeCount_size, ← hlen, ← e]
  exact h1.lvl.size_le h1.good.2

theorem demo_left (i : ℕ) : i ∈ ({2, 3} : Finset ℕ) ↔ Known demo i ∧ i ∉ [4, 1] := by
  rw [demo_known]; simp; omega

theorem demo_outfits (w : Finset ℕ) : w ∈ ({{1, 4}} : Finset (Finset ℕ)) ↔ Outfit demo w ∧ ∀ x ∈ [4, 1], x ∈ w := by
  rw [Finset.mem_singleton]
  constructor
  · rintro rfl; exact ⟨demo_outfit, by simp⟩
  · rintro ⟨h, hx⟩
    have h4 := hx 4 (by simp)
    have h1 := hx 1 (by simp)
    have f := h.2.1
    obtain ⟨a, -, ha⟩ := f 0 1 (by simp [demo])
    obtain ⟨b, -, hb⟩ := f 1 4 (by simp [demo])
    ext i
    simp only [Finset.mem_insert, Finset.mem_singleton]
    constructor
    · intro hi
      have hk := (demo_known i).mp (h.known i hi)
      rcases hk with rfl | rfl | rfl | rfl
      · exact Or.inl rfl
      · have e1 := ha 1 ⟨by simp [demo], h1⟩
        have e2 := ha 2 ⟨by simp [demo], hi⟩
        omega
      · have e1 := hb 4 ⟨by simp [demo], h4⟩
        have e2 := hb 3 ⟨by simp [demo], hi⟩
        omega
      · exact Or.inr rfl
    · rintro (rfl | rfl) <;> assumption

example : ∃ c, Reached demo [4, 1] c ∧ 1 ≤ c.root.nodeCount ∧ c.root.nodeCount ≤ 2 * (2 * 1) + 1 := by
  obtain ⟨c, hc⟩ := demo_reached
  exact ⟨c, hc, closet_size demo _ c hc _ demo_left _ demo_outfits⟩

/-- C90: each of the four counts (`node_count`, `leaf_count`, `outfit_count`, `depth`) makes exactly
`node_count` calls, so at least as many as there are outfits and at most `2 · N · K + 1`. -/
theorem query_calls (cs : List (Call I F)) (xs : List I) (c : Closet I F) (h : Reached cs xs c)
    (S : Finset I) (hS : ∀ i, i ∈ S ↔ Known cs i ∧ i ∉ xs)
    (L : Finset (Finset I)) (hL : ∀ w, w ∈ L ↔ Outfit cs w ∧ ∀ x ∈ xs, x ∈ w)
    (q : Ticked Nat)
    (hq : q = c.root.nodeCountT ∨ q = c.root.leafCountT ∨ q = c.root.outfitCountT ∨ q = c.root.depthT) :
    (c.root.outfitCountT.val = L.card ∧ c.root.nodeCountT.val = c.root.nodeCount ∧
      c.root.leafCountT.val = c.root.leafCount ∧ c.root.depthT.val = c.root.depth) ∧
    q.calls = c.root.nodeCount ∧ L.card ≤ q.calls ∧ q.calls ≤ 2 * (S.card * L.card) + 1 := by
  obtain ⟨a, b⟩ := closet_size cs xs c h S hS L hL
  obtain ⟨v1, v2, v3, v4⟩ := counts_val c.root
  obtain ⟨c1, c2, c3, c4⟩ := counts_calls c.root
  obtain ⟨L', hL', e⟩ := outfit_count_exact cs xs c h
  have : L' = L := by ext w; rw [hL, hL']
  subst this
  have hc : q.calls = c.root.nodeCount := by
    rcases hq with rfl | rfl | rfl | rfl
    · exact c1
    · exact c2
    · exact c3
    · exact c4
  exact ⟨⟨v3.trans e, v1, v2, v4⟩, hc, by omega, by omega⟩

example : ∃ c, Reached demo [4, 1] c ∧ c.root.outfitCountT.calls ≤ 2 * (2 * 1) + 1 := by
  obtain ⟨c, hc⟩ := demo_reached
  exact ⟨c, hc, (query_calls demo _ c hc _ demo_left _ demo_outfits _ (Or.inr (Or.inr (Or.inl rfl)))).2.2.2⟩

/-- C90: `select_item` makes at most `4 · N · K + 2` calls, and at least one for every outfit that remains. -/
theorem select_calls (cs : List (Call I F)) (xs : List I) (c : Closet I F) (h : Reached cs xs c)
    (S : Finset I) (hS : ∀ i, i ∈ S ↔ Known cs i ∧ i ∉ xs)
    (L : Finset (Finset I)) (hL : ∀ w, w ∈ L ↔ Outfit cs w ∧ ∀ x ∈ xs, x ∈ w) (x : I) :
    (c.selectItemT x).val = c.selectItem x ∧
    (c.selectItemT x).calls ≤ 4 * (S.card * L.card) + 2 ∧
    ∀ d, c.selectItem x = .ok d → d.root.nodeCount ≤ (c.selectItemT x).calls ∧
      (L.filter (fun w => x ∈ w)).card ≤ (c.selectItemT x).calls := by
  obtain ⟨a, b⟩ := closet_size cs xs c h S hS L hL
  have low : ∀ d, c.selectItem x = .ok d → d.root.nodeCount ≤ (c.selectItemT x).calls := by
    intro d hd
    rw [← selectItemT_val] at hd
    rw [selectItemT] at hd ⊢
    cases e1 : c.getFamily x with
    | none => rw [e1] at hd; simp at hd
    | some f =>
      rw [e1] at hd
      simp only at hd ⊢
      cases e2 : (c.summary.filter (fun s => s.isExcluded)).find? (fun s => s.is x) with
      | some s => rw [e2] at hd; simp at hd
      | none =>
        rw [e2] at hd
        simp only [bind_val, map_val] at hd ⊢
        cases hd
        simp only [bind_calls, map_calls, summarizeT_calls, nodeCount_size]
        omega
  refine ⟨selectItemT_val c x, ?_, fun d hd => ⟨low d hd, ?_⟩⟩
  · rw [selectItemT]
    cases c.getFamily x with
    | none => simp
    | some f =>
      simp only
      cases (c.summary.filter (fun s => s.isExcluded)).find? (fun s => s.is x) with
      | some s => simp
      | none =>
        have h1 := restrictT_calls c.root x true
        have h2 := size_restrict c.root x true
        rw [nodeCount_size] at b
        simp only [bind_calls, map_calls, summarizeT_calls, restrictT_val]
        omega
  · refine le_trans ?_ (low d hd)
    have hr : Reached cs (xs ++ [x]) d := by
      obtain ⟨c0, h1, h2⟩ := h
      exact ⟨c0, h1, by rw [selectAll_append c0 xs [x] h2]; simp [Closet.selectAll, hd]⟩
    refine (closet_size cs (xs ++ [x]) d hr (S.erase x) ?_ (L.filter (fun w => x ∈ w)) ?_).1
    · intro i; simp only [Finset.mem_erase, hS, List.mem_append, List.mem_singleton]; tauto
    · intro w
      simp only [Finset.mem_filter, hL, List.mem_append, List.mem_singleton]
      constructor
      · rintro ⟨⟨h1, h2⟩, h3⟩
        exact ⟨h1, fun y hy => hy.elim (h2 y) (fun e => e ▸ h3)⟩
      · rintro ⟨h1, h2⟩
        exact ⟨⟨h1, fun y hy => h2 y (Or.inl hy)⟩, h2 x (Or.inr rfl)⟩

example : ∃ c, Reached demo [4, 1] c ∧ (c.selectItemT 3).calls ≤ 4 * (2 * 1) + 2 := by
  obtain ⟨c, hc⟩ := demo_reached
  exact ⟨c, hc, (select_calls demo _ c hc _ demo_left _ demo_outfits 3).2.1⟩

/-- C90: `complete_outfit` with `k` selections makes at most `(2 k + 1) · (2 · N · K + 1)` calls. -/
theorem complete_calls (cs : List (Call I F)) (xs : List I) (c : Closet I F) (h : Reached cs xs c)
    (S : Finset I) (hS : ∀ i, i ∈ S ↔ Known cs i ∧ i ∉ xs)
    (L : Finset (Finset I)) (hL : ∀ w, w ∈ L ↔ Outfit cs w ∧ ∀ x ∈ xs, x ∈ w) (sel : List I) :
    (c.completeOutfitT sel).val = c.completeOutfit sel ∧
    (c.completeOutfitT sel).calls ≤ (2 * sel.length + 1) * (2 * (S.card * L.card) + 1) := by
  refine ⟨completeOutfitT_val c sel, ?_⟩
  obtain ⟨_, b⟩ := closet_size cs xs c h S hS L hL
  rw [nodeCount_size] at b
  obtain ⟨h1, h2⟩ := restrictAllT_calls c.root sel _ b
  have h3 := (walkT_eq (restrictAll c.root sel) sel).2
  have h4 := depth_le_size (restrictAll c.root sel)
  generalize 2 * (S.card * L.card) + 1 = C at *
  have e : (2 * sel.length + 1) * C = sel.length * C + sel.length * C + C := by ring
  rw [completeOutfitT, e]
  cases c.findUnknownItems sel with
  | some items => simp
  | none =>
    simp only
    cases c.findDuplicateItems sel with
    | none => simp
    | some d =>
      cases d with
      | some items => simp
      | none =>
        simp only [bind_calls]
        rw [restrictAllT_val]
        cases e : restrictAll c.root sel with
        | Leaf v =>
          rw [e] at h2 h3 h4
          cases v
          · simp only [ret_calls]; omega
          · simp only [bind_calls, map_calls, restrictAllT_val, e]; omega
        | Branch i l k =>
          rw [e] at h2 h3 h4
          simp only [bind_calls, map_calls, restrictAllT_val, e]; omega

example : ∃ c, Reached demo [4, 1] c ∧ (c.completeOutfitT [4, 1]).calls ≤ (2 * 2 + 1) * (2 * (2 * 1) + 1) := by
  obtain ⟨c, hc⟩ := demo_reached
  exact ⟨c, hc, (complete_calls demo _ c hc _ demo_left _ demo_outfits [4, 1]).2⟩

/-! ### building -/

theorem sum_pushTo {K V : Type*} [LinearOrder K] (k : K) (v : V) (m : List (K × List V)) :
    ((pushTo k v m).map (fun e => e.2.length)).sum = (m.map (fun e => e.2.length)).sum + 1 := by
  unfold pushTo
  induction m with
  | nil => simp [upsert]
  | cons e m ih =>
    obtain ⟨a, l⟩ := e
    rw [upsert]
    split_ifs
    all_goals simp only [List.map_cons, List.sum_cons, List.length_append, List.length_singleton,
      Option.getD_some, Option.getD_none, List.nil_append] at *
    all_goals omega

theorem sum_groupPush {K V : Type*} [LinearOrder K] (l : List (K × V)) :
    ((groupPush l).map (fun e => e.2.length)).sum = l.length := by
  induction l using List.reverseRecOn with
  | nil => rfl
  | append_singleton l p ih => rw [groupPush_concat, sum_pushTo, ih]; simp

theorem length_rulePairs (l : List (I × I)) : (ClosetBuilder.rulePairs (groupPush l)).length = l.length := by
  rw [← sum_groupPush l, ClosetBuilder.rulePairs, List.length_flatMap]
  simp

theorem eval_exact {items : List I} {i : I} (hi : i ∈ items) (pre : List (I × Node I))
    (hp : ∀ e ∈ pre, e ∈ insertKV i (positiveBranch i)
      (items.foldl (fun m item => insertKV item (negativeBranch item) m) [])) (σ : I → Bool) :
    ((pre.map Prod.snd).foldl bitand TRUE_LEAF).eval σ = true ↔ ∀ k ∈ pre.map Prod.fst, σ k = decide (k = i) := by
  rw [eval_foldl_and]
  simp only [eval, true_and, List.mem_map]
  have key : ∀ e ∈ pre, (e.2.eval σ = true ↔ σ e.1 = decide (e.1 = i)) := by
    rintro ⟨k, n⟩ he
    obtain ⟨_, e⟩ := (mem_chosen items i hi k n).mp (hp _ he)
    dsimp only at e ⊢
    rw [e]
    by_cases hk : k = i
    · rw [if_pos hk, eval_positive]; simp [hk]
    · rw [if_neg hk, eval_negative]; simp [hk]
  constructor
  · rintro h _ ⟨e, he, rfl⟩; exact (key e he).mp (h _ ⟨e, he, rfl⟩)
  · rintro h _ ⟨e, he, rfl⟩; exact (key e he).mpr (h _ ⟨e, he, rfl⟩)

theorem good_exact {items : List I} {i : I} (hi : i ∈ items) (pre : List (I × Node I))
    (hp : ∀ e ∈ pre, e ∈ insertKV i (positiveBranch i)
      (items.foldl (fun m item => insertKV item (negativeBranch item) m) [])) :
    Good (fun k => k ∈ (pre.map Prod.fst).toFinset) ((pre.map Prod.snd).foldl bitand TRUE_LEAF) := by
  apply good_foldl_and _ _ (good_leaf _ _)
  intro n hn
  obtain ⟨⟨k, m⟩, he, rfl⟩ := List.mem_map.1 hn
  obtain ⟨_, e⟩ := (mem_chosen items i hi k m).mp (hp _ he)
  have hk : k ∈ (pre.map Prod.fst).toFinset := by
    rw [List.mem_toFinset, List.mem_map]; exact ⟨_, he, rfl⟩
  dsimp only
  rw [e]
  split_ifs
  · exact good_positive hk
  · exact good_negative hk

theorem size_exact {items : List I} {i : I} (hi : i ∈ items) (pre : List (I × Node I))
    (hp : ∀ e ∈ pre, e ∈ insertKV i (positiveBranch i)
      (items.foldl (fun m item => insertKV item (negativeBranch item) m) [])) :
    ((pre.map Prod.snd).foldl bitand TRUE_LEAF).size ≤ 2 * items.toFinset.card + 1 := by
  have ev := eval_exact hi pre hp
  refine (size_of_rigid (good_exact hi pre hp) {(pre.map Prod.fst).toFinset.filter (fun k => k = i)} ?_ ?_).trans ?_
  · intro σ h
    rw [ev] at h
    rw [Finset.mem_singleton]
    refine Finset.filter_congr fun k hk => ?_
    rw [h k (List.mem_toFinset.mp hk)]; simp
  · intro σ h x hx
    rw [ev] at h
    rw [List.mem_toFinset] at hx
    rw [Bool.eq_false_iff, Ne, ev]
    intro h2
    have a := h x hx
    have b := h2 x hx
    rw [Function.update_self, a] at b
    simp at b
  · rw [Finset.card_singleton, Nat.mul_one]
    have : (pre.map Prod.fst).toFinset.card ≤ items.toFinset.card := by
      refine Finset.card_le_card fun k hk => ?_
      rw [List.mem_toFinset, List.mem_map] at hk
      obtain ⟨⟨a, n⟩, he, rfl⟩ := hk
      rw [List.mem_toFinset]
      exact ((mem_chosen items i hi a n).mp (hp _ he)).1
    omega

/-- One item of a family exactly.  Not code: used to state or prove properties. -/
def exactly (items : List I) (i : I) : Node I :=
  ((insertKV i (positiveBranch i) (items.foldl (fun m item => insertKV item (negativeBranch item) m) [])).map
    Prod.snd).foldl bitand TRUE_LEAF

theorem eval_exactly {items : List I} {i : I} (hi : i ∈ items) (σ : I → Bool) :
    (exactly items i).eval σ = true ↔ ∀ k ∈ items, σ k = decide (k = i) := by
  rw [exactly, eval_exact hi _ (fun e h => h)]
  have : ∀ k, k ∈ (insertKV i (positiveBranch i)
      (items.foldl (fun m item => insertKV item (negativeBranch item) m) [])).map Prod.fst ↔ k ∈ items := by
    intro k
    rw [List.mem_map]
    constructor
    · rintro ⟨⟨a, n⟩, h, rfl⟩; exact ((mem_chosen items i hi a n).mp h).1
    · intro h; exact ⟨_, (mem_chosen items i hi k _).mpr ⟨h, rfl⟩, rfl⟩
  exact forall_congr' fun k => by rw [this]

theorem one_flip {items : List I} {σ : I → Bool} (h : ∃! j, j ∈ items ∧ σ j = true) {x : I} (hx : x ∈ items) :
    ¬ ∃! j, j ∈ items ∧ Function.update σ x (!σ x) j = true := by
  rintro ⟨b, ⟨hb, eb⟩, ub⟩
  obtain ⟨a, ⟨ha, ea⟩, ua⟩ := h
  by_cases e : x = a
  · subst e
    have hbx : b ≠ x := by rintro rfl; rw [Function.update_self, ea] at eb; simp at eb
    rw [Function.update_of_ne hbx] at eb
    exact hbx (ua b ⟨hb, eb⟩)
  · have hsx : σ x = false := by
      rw [Bool.eq_false_iff]; intro h; exact e (ua x ⟨hx, h⟩)
    have h1 := ub x ⟨hx, by rw [Function.update_self, hsx]; rfl⟩
    have h2 := ub a ⟨ha, by rw [Function.update_of_ne (Ne.symm e)]; exact ea⟩
    exact e (h1.trans h2.symm)

theorem one_of_exactly {items pre : List I} (hp : ∀ i ∈ pre, i ∈ items) {σ : I → Bool}
    (h : ((pre.map (exactly items)).foldl bitor FALSE_LEAF).eval σ = true) : ∃! j, j ∈ items ∧ σ j = true := by
  rw [eval_foldl_or] at h
  rcases h with h | ⟨n, hn, h⟩
  · simp [eval] at h
  · obtain ⟨i, hi, rfl⟩ := List.mem_map.mp hn
    rw [eval_exactly (hp i hi)] at h
    refine ⟨i, ⟨hp i hi, by rw [h i (hp i hi)]; simp⟩, fun j hj => ?_⟩
    have := h j hj.1
    rw [hj.2] at this
    simpa using this.symm

theorem filter_one {items : List I} {σ : I → Bool} (h : ∃! j, j ∈ items ∧ σ j = true) :
    items.toFinset.filter (fun i => σ i = true) ∈ items.toFinset.image (fun i => ({i} : Finset I)) := by
  obtain ⟨j, ⟨hj, ej⟩, uj⟩ := h
  rw [Finset.mem_image]
  refine ⟨j, List.mem_toFinset.mpr hj, ?_⟩
  ext k
  rw [Finset.mem_singleton, Finset.mem_filter, List.mem_toFinset]
  exact ⟨fun h => h ▸ ⟨hj, ej⟩, fun h => uj k h⟩

theorem size_family {items pre : List I} (hp : ∀ i ∈ pre, i ∈ items) :
    ((pre.map (exactly items)).foldl bitor FALSE_LEAF).size ≤
      2 * (items.toFinset.card * items.toFinset.card) + 1 := by
  have hg : Good (fun i => i ∈ items.toFinset) ((pre.map (exactly items)).foldl bitor FALSE_LEAF) := by
    apply good_foldl_or _ _ (good_leaf _ _)
    intro n hn
    obtain ⟨i, hi, rfl⟩ := List.mem_map.mp hn
    have g := good_exact (hp i hi) _ (fun e h => h)
    refine ⟨g.1, g.2, fun x hx => ?_⟩
    have := g.3 x hx
    rw [List.mem_toFinset, List.mem_map] at this
    obtain ⟨⟨a, n⟩, h, rfl⟩ := this
    rw [List.mem_toFinset]
    exact ((mem_chosen items i (hp i hi) a n).mp h).1
  refine (size_of_rigid hg (items.toFinset.image (fun i => ({i} : Finset I))) (fun σ h =>
    filter_one (one_of_exactly hp h)) ?_).trans ?_
  · intro σ h x hx
    rw [Bool.eq_false_iff, Ne]
    intro h2
    exact one_flip (one_of_exactly hp h) (List.mem_toFinset.mp hx) (one_of_exactly hp h2)
  · have : (items.toFinset.image (fun i => ({i} : Finset I))).card ≤ items.toFinset.card := Finset.card_image_le
    gcongr

theorem sibling_exactly (items : List I) :
    ClosetBuilder.siblingRelationship items = (items.map (exactly items)).foldl bitor FALSE_LEAF := by
  rw [sibling_eq]; rfl

theorem siblingT_calls {items : List I} {N : Nat} (hN : items.toFinset.card ≤ N) :
    (ClosetBuilder.siblingRelationshipT items).calls ≤
      items.length * (N * ((2 * N + 1) * 3) + (2 * (N * N) + 1) * (2 * N + 1)) := by
  have inner : ∀ i ∈ items, (fold (fun newRoot (e : I × Node I) => bitandT newRoot e.2) TRUE_LEAF
      (insertKV i (positiveBranch i)
        (items.foldl (fun m item => insertKV item (negativeBranch item) m) []))).calls ≤ N * ((2 * N + 1) * 3) := by
    intro i hi
    refine (fold_calls_sum (g := fun r (e : I × Node I) => bitand r e.2) (fun a b => bitandT_val a b.2)
      (fun _ => (2 * N + 1) * 3) _ _ ?_).trans ?_
    · intro pre e post he
      rw [foldl_snd]
      refine (bitandT_calls _ _).trans (Nat.mul_le_mul ?_ ?_)
      · refine (size_exact hi pre (fun e h => by rw [he]; simp [h])).trans (by omega)
      · obtain ⟨k, n⟩ := e
        have hm := (mem_chosen items i hi k n).mp (by rw [he]; simp)
        dsimp only
        rw [hm.2]
        split_ifs <;> simp [positiveBranch, negativeBranch, size]
    · rw [List.map_const', List.sum_replicate, Nat.nsmul_eq_mul]
      refine Nat.mul_le_mul_right _ (le_trans ?_ hN)
      have hk : KeysLt (insertKV i (positiveBranch i)
          (items.foldl (fun m item => insertKV item (negativeBranch item) m) [])) :=
        keysLt_upsert (negatives_aux items [] List.Pairwise.nil).1
      have hnd : ((insertKV i (positiveBranch i)
          (items.foldl (fun m item => insertKV item (negativeBranch item) m) [])).map Prod.fst).Nodup := nodup_of_lt (List.pairwise_map.mpr hk)
      rw [← List.length_map (f := Prod.fst), ← List.toFinset_card_of_nodup hnd]
      refine Finset.card_le_card fun k hk => ?_
      rw [List.mem_toFinset, List.mem_map] at hk
      obtain ⟨⟨a, n⟩, h, rfl⟩ := hk
      rw [List.mem_toFinset]
      exact ((mem_chosen items i hi a n).mp h).1
  have ival : ∀ i, (fold (fun newRoot (e : I × Node I) => bitandT newRoot e.2) TRUE_LEAF
      (insertKV i (positiveBranch i)
        (items.foldl (fun m item => insertKV item (negativeBranch item) m) []))).val = exactly items i := by
    intro i
    rw [fold_val (g := fun r (e : I × Node I) => bitand r e.2) (fun a b => bitandT_val a b.2), foldl_snd]; rfl
  rw [ClosetBuilder.siblingRelationshipT]
  refine (fold_calls_sum (g := fun other i => bitor other (exactly items i))
    (fun a i => by rw [bind_val, ival, bitorT_val])
    (fun _ => N * ((2 * N + 1) * 3) + (2 * (N * N) + 1) * (2 * N + 1)) _ _ ?_).trans ?_
  · intro pre i post he
    have hi : i ∈ items := by rw [he]; simp
    rw [bind_calls, ival]
    refine Nat.add_le_add (inner i hi) ((bitorT_calls _ _).trans (Nat.mul_le_mul ?_ ?_))
    · rw [← List.foldl_map]
      refine (size_family (fun j hj => by rw [he]; simp [hj])).trans ?_
      have := Nat.mul_le_mul hN hN
      omega
    · exact (size_exact hi _ (fun e h => h)).trans (by omega)
  · rw [List.map_const', List.sum_replicate, Nat.nsmul_eq_mul]

/-- The ways to choose one item of every family of a list.  Not code: used to state or prove properties. -/
def choices (fams : List (List I)) : Finset (Finset I) :=
  fams.foldl (fun M items => Finset.image₂ (· ∪ ·) M (items.toFinset.image (fun i => ({i} : Finset I)))) {∅}

theorem choices_snoc (fams : List (List I)) (items : List I) : choices (fams ++ [items]) =
    Finset.image₂ (· ∪ ·) (choices fams) (items.toFinset.image (fun i => ({i} : Finset I))) := by
  simp [choices]

theorem card_choices (fams : List (List I)) :
    (choices fams).card ≤ (fams.map (fun items => items.toFinset.card)).prod := by
  induction fams using List.reverseRecOn with
  | nil => simp [choices]
  | append_singleton fams items ih =>
    rw [choices_snoc, List.map_append, List.prod_append]
    refine (Finset.card_image₂_le _ _ _).trans (Nat.mul_le_mul ih ?_)
    simpa using Finset.card_image_le

theorem mem_choices {fams : List (List I)} {σ : I → Bool}
    (h : ∀ items ∈ fams, ∃! j, j ∈ items ∧ σ j = true) :
    fams.flatten.toFinset.filter (fun i => σ i = true) ∈ choices fams := by
  induction fams using List.reverseRecOn with
  | nil => simp [choices]
  | append_singleton fams items ih =>
    rw [choices_snoc, Finset.mem_image₂]
    refine ⟨_, ih fun l hl => h l (by simp [hl]), _, filter_one (h items (by simp)), ?_⟩
    ext i
    simp only [Finset.mem_union, Finset.mem_filter, List.mem_toFinset, List.mem_flatten, List.mem_append,
      List.mem_singleton]
    constructor
    · rintro (⟨⟨l, hl, hi⟩, hs⟩ | ⟨hi, hs⟩)
      · exact ⟨⟨l, Or.inl hl, hi⟩, hs⟩
      · exact ⟨⟨items, Or.inr rfl, hi⟩, hs⟩
    · rintro ⟨⟨l, hl | rfl, hi⟩, hs⟩
      · exact Or.inl ⟨⟨l, hl, hi⟩, hs⟩
      · exact Or.inr ⟨hi, hs⟩

/-- A diagram that needs one item of every family has at most `2 · N · W + 1` nodes, whatever else it needs. -/
theorem size_root {fams : List (List I)} {n : Node I} (hg : Good (fun i => i ∈ fams.flatten.toFinset) n)
    (hn : ∀ σ, n.eval σ = true → ∀ items ∈ fams, ∃! j, j ∈ items ∧ σ j = true) :
    n.size ≤ 2 * (fams.flatten.toFinset.card * (fams.map (fun items => items.toFinset.card)).prod) + 1 := by
  refine (size_of_rigid hg (choices fams) (fun σ h => mem_choices (hn σ h)) ?_).trans ?_
  · intro σ h x hx
    rw [Bool.eq_false_iff, Ne]
    intro h2
    rw [List.mem_toFinset, List.mem_flatten] at hx
    obtain ⟨l, hl, hx⟩ := hx
    exact one_flip (hn σ h l hl) hx (hn _ h2 l hl)
  · have := card_choices fams
    gcongr

theorem prod_prefix (l : List (List I)) (post : List (List I)) (h : ∀ items ∈ post, items ≠ []) :
    (l.map (fun items => items.toFinset.card)).prod ≤
      ((l ++ post).map (fun items => items.toFinset.card)).prod := by
  rw [List.map_append, List.prod_append]
  refine Nat.le_mul_of_pos_right _ ?_
  induction post with
  | nil => simp
  | cons a post ih =>
    rw [List.map_cons, List.prod_cons]
    refine Nat.mul_pos ?_ (ih fun i hi => h i (List.mem_cons_of_mem _ hi))
    obtain ⟨x, hx⟩ := List.exists_mem_of_ne_nil _ (h a (List.mem_cons_self ..))
    exact Finset.card_pos.mpr ⟨x, List.mem_toFinset.mpr hx⟩

theorem sum_map_mul {α : Type*} (l : List α) (f : α → Nat) (k : Nat) :
    (l.map fun a => f a * k).sum = (l.map f).sum * k := by
  induction l with
  | nil => simp
  | cons a l ih => simp [ih, Nat.add_mul]

theorem arith_build (N W E X Y : Nat) :
    E * (N * ((2 * N + 1) * 3) + (2 * (N * N) + 1) * (2 * N + 1)) + E * ((2 * (N * W) + 1) * (2 * (N * N) + 1)) +
      (X * (9 + (2 * (N * W) + 1) * 9) + Y * (9 + (2 * (N * W) + 1) * 9)) + (2 * (N * W) + 1) ≤
    18 * ((E + X + Y) + 1) * (N + 1) ^ 3 * (W + 1) := by
  ring_nf
  omega

theorem rules_calls {fams : List (List I)} {root : Node I} {N W : Nat}
    (hN : fams.flatten.toFinset.card ≤ N) (hW : (fams.map (fun items => items.toFinset.card)).prod ≤ W)
    (hg : Good (fun i => i ∈ fams.flatten.toFinset) root)
    (hn : ∀ σ, root.eval σ = true → ∀ items ∈ fams, ∃! j, j ∈ items ∧ σ j = true)
    (rules : List (I × I)) (hr : ∀ p ∈ rules, p.1 ∈ fams.flatten.toFinset ∧ p.2 ∈ fams.flatten.toFinset)
    (l r : I → Node I) (hl : ∀ i, (l i).size = 3) (hr' : ∀ i, (r i).size = 3)
    (gl : ∀ i ∈ fams.flatten.toFinset, Good (fun i => i ∈ fams.flatten.toFinset) (l i))
    (gr : ∀ i ∈ fams.flatten.toFinset, Good (fun i => i ∈ fams.flatten.toFinset) (r i)) :
    (fold (fun newRoot (p : I × I) => (bitorT (l p.1) (r p.2)).bind fun e => bitandT newRoot e) root rules).calls ≤
      rules.length * (9 + (2 * (N * W) + 1) * 9) ∧
    Good (fun i => i ∈ fams.flatten.toFinset) (rules.foldl (fun newRoot p => bitand newRoot (bitor (l p.1) (r p.2))) root) ∧
    ∀ σ, (rules.foldl (fun newRoot p => bitand newRoot (bitor (l p.1) (r p.2))) root).eval σ = true →
      ∀ items ∈ fams, ∃! j, j ∈ items ∧ σ j = true := by
  have pre : ∀ pre : List (I × I), (∀ p ∈ pre, p ∈ rules) →
      Good (fun i => i ∈ fams.flatten.toFinset) (pre.foldl (fun newRoot p => bitand newRoot (bitor (l p.1) (r p.2))) root) ∧
      ∀ σ, (pre.foldl (fun newRoot p => bitand newRoot (bitor (l p.1) (r p.2))) root).eval σ = true →
        ∀ items ∈ fams, ∃! j, j ∈ items ∧ σ j = true := by
    intro pre hp
    rw [← List.foldl_map (f := fun p : I × I => bitor (l p.1) (r p.2)) (g := bitand)]
    constructor
    · apply good_foldl_and _ _ hg
      intro n hm
      obtain ⟨p, h, rfl⟩ := List.mem_map.mp hm
      exact good_or (gl _ (hr p (hp p h)).1) (gr _ (hr p (hp p h)).2)
    · intro σ h
      rw [eval_foldl_and] at h
      exact hn σ h.1
  refine ⟨?_, pre rules fun p h => h⟩
  refine (fold_calls_sum (g := fun newRoot (p : I × I) => bitand newRoot (bitor (l p.1) (r p.2)))
    (fun a p => by rw [bind_val, bitorT_val, bitandT_val]) (fun _ => 9 + (2 * (N * W) + 1) * 9) _ _ ?_).trans ?_
  · intro pr p post he
    rw [bind_calls, bitorT_val]
    have s1 := bitorT_calls (l p.1) (r p.2)
    have s2 := size_bitor (l p.1) (r p.2)
    rw [hl, hr'] at s1 s2
    obtain ⟨g1, g2⟩ := pre pr (fun q hq => by rw [he]; simp [hq])
    have s3 := size_root g1 g2
    have s4 := Nat.mul_le_mul hN hW
    refine Nat.add_le_add s1 ((bitandT_calls _ _).trans (Nat.mul_le_mul (by omega) s2))
  · rw [List.map_const', List.sum_replicate, Nat.nsmul_eq_mul]

/-- C90: building a closet over `N` items with `n` builder calls, where the families alone allow `W` outfits,
makes at most `18 · (n+1) · (N+1)³ · (W+1)` calls, and at least one for every outfit of the closet. -/
theorem build_calls (cs : List (Call I F)) (S : Finset I) (hS : ∀ i, i ∈ S ↔ Known cs i)
    (fams : Finset F) (hf : ∀ f, f ∈ fams ↔ ∃ i, Call.item f i ∈ cs)
    (items : F → Finset I) (hit : ∀ f i, i ∈ items f ↔ Call.item f i ∈ cs) :
    (ClosetBuilder.run cs).buildT.val = (ClosetBuilder.run cs).build ∧
    (ClosetBuilder.run cs).buildT.calls ≤
      18 * (cs.length + 1) * (S.card + 1) ^ 3 * ((∏ f ∈ fams, (items f).card) + 1) ∧
    ∀ c, (ClosetBuilder.run cs).build = .ok c → ∀ L : Finset (Finset I), (∀ w, w ∈ L ↔ Outfit cs w) →
      L.card ≤ (ClosetBuilder.run cs).buildT.calls := by
  refine ⟨ClosetBuilder.buildT_val _, ?_, ?_⟩
  · by_cases hl : Legal cs
    swap
    · obtain ⟨e, he⟩ : ∃ e, validateCloset (ClosetBuilder.run cs).contents (ClosetBuilder.run cs).itemIndex
          (ClosetBuilder.run cs).exclusions (ClosetBuilder.run cs).inclusions = .error e := by
        by_contra hne
        apply hl
        apply (build_validates cs).1.2
        rw [ClosetBuilder.build]
        cases h : validateCloset (ClosetBuilder.run cs).contents (ClosetBuilder.run cs).itemIndex
          (ClosetBuilder.run cs).exclusions (ClosetBuilder.run cs).inclusions with
        | error e => exact absurd ⟨e, h⟩ hne
        | ok u => exact ⟨_, rfl⟩
      rw [ClosetBuilder.buildT, he]; simp
    have hcalls : (ClosetBuilder.run cs).buildT.calls ≤
        (ClosetBuilder.run cs).buildRootT.calls + (ClosetBuilder.run cs).buildRoot.size := by
      rw [ClosetBuilder.buildT]
      split
      · simp
      · rw [bind_calls, map_calls, summarizeT_calls, ClosetBuilder.buildRootT_val]
    refine hcalls.trans ?_
    rw [run_eq]
    set contents := groupPush (itemPairs cs) with hcont
    set L := contents.map Prod.snd with hLdef
    have hflat : L.flatten.toFinset = S := by
      ext i
      rw [List.mem_toFinset, List.mem_flatten, hS]
      constructor
      · rintro ⟨l, hl, hi⟩
        obtain ⟨⟨f, l⟩, hm, rfl⟩ := List.mem_map.mp hl
        obtain ⟨_, e⟩ := mem_groupPush.1 hm
        dsimp only at hi
        rw [e] at hi
        exact ⟨f, mem_itemPairs.1 (mem_group_items.1 hi)⟩
      · rintro ⟨f, h⟩
        refine ⟨_, List.mem_map.mpr ⟨(f, _), mem_groupPush.2 ⟨⟨i, mem_itemPairs.2 h⟩, rfl⟩, rfl⟩, ?_⟩
        exact mem_group_items.2 (mem_itemPairs.2 h)
    have hne : ∀ l ∈ L, l ≠ [] := by
      intro l hl
      obtain ⟨⟨f, l⟩, hm, rfl⟩ := List.mem_map.mp hl
      obtain ⟨⟨w, hw⟩, e⟩ := mem_groupPush.1 hm
      dsimp only
      rw [e]
      exact List.ne_nil_of_mem (mem_group_items.2 hw)
    have hW : (L.map (fun items => items.toFinset.card)).prod = ∏ f ∈ fams, (items f).card := by
      have hkeys : (contents.map Prod.fst).Nodup := nodup_of_lt (List.pairwise_map.mpr (groupPush_keysLt _))
      have hfam : (contents.map Prod.fst).toFinset = fams := by
        ext f
        rw [List.mem_toFinset, hf, List.mem_map]
        constructor
        · rintro ⟨⟨g, l⟩, hm, rfl⟩
          obtain ⟨⟨w, hw⟩, _⟩ := mem_groupPush.1 hm
          exact ⟨w, mem_itemPairs.1 hw⟩
        · rintro ⟨i, h⟩
          exact ⟨(f, _), mem_groupPush.2 ⟨⟨i, mem_itemPairs.2 h⟩, rfl⟩, rfl⟩
      rw [← hfam, List.prod_toFinset _ hkeys, hLdef, List.map_map, List.map_map]
      refine congrArg _ (List.map_congr_left ?_)
      rintro ⟨f, l⟩ hm
      obtain ⟨_, e⟩ := mem_groupPush.1 hm
      simp only [Function.comp_apply]
      congr 1
      ext i
      rw [List.mem_toFinset, hit, e, mem_group_items, mem_itemPairs]
    set W := ∏ f ∈ fams, (items f).card with hWdef
    set N := S.card with hNdef
    have gsib : ∀ l ∈ L, Good (fun i => i ∈ L.flatten.toFinset) (ClosetBuilder.siblingRelationship l) := by
      intro l hl
      exact good_sibling fun i hi => List.mem_toFinset.mpr (List.mem_flatten.mpr ⟨l, hl, hi⟩)
    have step1 : (fold (fun other (e : F × List I) => (ClosetBuilder.siblingRelationshipT e.2).bind fun familyNode =>
        bitandT other familyNode) TRUE_LEAF contents).calls ≤
        cs.length * 0 + (itemPairs cs).length * (N * ((2 * N + 1) * 3) + (2 * (N * N) + 1) * (2 * N + 1)) +
          (itemPairs cs).length * ((2 * (N * W) + 1) * (2 * (N * N) + 1)) := by
      refine (fold_calls_sum (g := fun other (e : F × List I) =>
          bitand other (ClosetBuilder.siblingRelationship e.2))
        (fun a e => by rw [bind_val, ClosetBuilder.siblingT_val, bitandT_val])
        (fun e => e.2.length * ((N * ((2 * N + 1) * 3) + (2 * (N * N) + 1) * (2 * N + 1)) +
          ((2 * (N * W) + 1) * (2 * (N * N) + 1)))) _ _ ?_).trans ?_
      · rintro pre ⟨f, l⟩ post he
        have hl : l ∈ L := by rw [hLdef, he]; simp
        have hk : l.toFinset.card ≤ N := by
          rw [hNdef, ← hflat]
          refine Finset.card_le_card fun i hi => ?_
          rw [List.mem_toFinset] at hi ⊢
          exact List.mem_flatten.mpr ⟨l, hl, hi⟩
        have hpos : 1 ≤ l.length := List.length_pos_iff.mpr (hne l hl)
        rw [bind_calls, ClosetBuilder.siblingT_val, Nat.mul_add]
        refine Nat.add_le_add (siblingT_calls hk) ?_
        refine le_trans ?_ (Nat.le_mul_of_pos_left _ hpos)
        refine (bitandT_calls _ _).trans (Nat.mul_le_mul ?_ ?_)
        · rw [← List.foldl_map (f := fun e : F × List I => ClosetBuilder.siblingRelationship e.2) (g := bitand)]
          have hsz := size_root (fams := pre.map Prod.snd)
            (n := (pre.map (fun e => ClosetBuilder.siblingRelationship e.2)).foldl bitand TRUE_LEAF) (by
              apply good_foldl_and _ _ (good_leaf _ _)
              intro n hn
              obtain ⟨e, h, rfl⟩ := List.mem_map.mp hn
              exact good_sibling fun i hi => List.mem_toFinset.mpr (List.mem_flatten.mpr
                ⟨e.2, List.mem_map.mpr ⟨e, h, rfl⟩, hi⟩)) (by
              intro σ h its hi
              rw [eval_foldl_and] at h
              obtain ⟨e, he, rfl⟩ := List.mem_map.mp hi
              exact (eval_sibling _ σ).mp (h.2 _ (List.mem_map.mpr ⟨e, he, rfl⟩)))
          refine hsz.trans ?_
          have a1 : (pre.map Prod.snd).flatten.toFinset.card ≤ N := by
            rw [hNdef, ← hflat]
            refine Finset.card_le_card fun i hi => ?_
            rw [List.mem_toFinset, List.mem_flatten] at hi ⊢
            obtain ⟨l, hl, hi⟩ := hi
            exact ⟨l, by rw [hLdef, he, List.map_append]; exact List.mem_append_left _ hl, hi⟩
          have a2 : ((pre.map Prod.snd).map (fun items => items.toFinset.card)).prod ≤ W := by
            rw [← hW, hLdef, he, List.map_append]
            exact prod_prefix _ _ fun l hl => hne l (by
              rw [hLdef, he, List.map_append]; exact List.mem_append_right _ hl)
          have := Nat.mul_le_mul a1 a2
          omega
        · rw [sibling_exactly]
          refine (size_family (items := l) (pre := l) (fun i hi => hi)).trans ?_
          have := Nat.mul_le_mul hk hk
          omega
      · have hsum := sum_groupPush (itemPairs cs)
        rw [← hcont] at hsum
        rw [sum_map_mul, hsum, Nat.mul_zero, Nat.zero_add, Nat.mul_add]
    have v1 : (fold (fun other (e : F × List I) => (ClosetBuilder.siblingRelationshipT e.2).bind fun familyNode =>
        bitandT other familyNode) TRUE_LEAF contents).val =
        (contents.map (fun e => ClosetBuilder.siblingRelationship e.2)).foldl bitand TRUE_LEAF := by
      rw [fold_val (g := fun other (e : F × List I) => bitand other (ClosetBuilder.siblingRelationship e.2))
        (fun a e => by rw [bind_val, ClosetBuilder.siblingT_val, bitandT_val]), List.foldl_map]
    set r1 := (contents.map (fun e => ClosetBuilder.siblingRelationship e.2)).foldl bitand TRUE_LEAF with hr1
    have g1 : Good (fun i => i ∈ L.flatten.toFinset) r1 := by
      apply good_foldl_and _ _ (good_leaf _ _)
      intro n hn
      obtain ⟨e, h, rfl⟩ := List.mem_map.mp hn
      exact gsib _ (List.mem_map.mpr ⟨e, h, rfl⟩)
    have n1 : ∀ σ, r1.eval σ = true → ∀ items ∈ L, ∃! j, j ∈ items ∧ σ j = true := by
      intro σ h its hi
      rw [hr1, eval_foldl_and] at h
      obtain ⟨e, he, rfl⟩ := List.mem_map.mp hi
      exact (eval_sibling _ σ).mp (h.2 _ (List.mem_map.mpr ⟨e, he, rfl⟩))
    have hNle : L.flatten.toFinset.card ≤ N := by rw [hflat]
    have hWle : (L.map (fun items => items.toFinset.card)).prod ≤ W := hW.le
    have known : ∀ f i, Call.item f i ∈ cs → i ∈ L.flatten.toFinset := by
      intro f i h; rw [hflat, hS]; exact ⟨f, h⟩
    obtain ⟨c2, g2, n2⟩ := rules_calls hNle hWle g1 n1 (ClosetBuilder.rulePairs (groupPush (exclPairs cs))) (by
        rintro ⟨a, b⟩ h
        rw [mem_rulePairs, mem_exclPairs] at h
        obtain ⟨f, g, ha, hb, _⟩ := hl.exclusions a b h
        exact ⟨known f a ha, known g b hb⟩) negativeBranch negativeBranch (fun _ => rfl) (fun _ => rfl)
      (fun i hi => good_negative hi) (fun i hi => good_negative hi)
    set r2 := (ClosetBuilder.rulePairs (groupPush (exclPairs cs))).foldl
      (fun newRoot p => bitand newRoot (bitor (negativeBranch p.1) (negativeBranch p.2))) r1 with hr2
    obtain ⟨c3, g3, n3⟩ := rules_calls hNle hWle g2 n2 (ClosetBuilder.rulePairs (groupPush (inclPairs cs))) (by
        rintro ⟨a, b⟩ h
        rw [mem_rulePairs, mem_inclPairs] at h
        obtain ⟨f, g, ha, hb, _⟩ := hl.inclusions a b h
        exact ⟨known f a ha, known g b hb⟩) negativeBranch positiveBranch (fun _ => rfl) (fun _ => rfl)
      (fun i hi => good_negative hi) (fun i hi => good_positive hi)
    have sz := size_root g3 n3
    rw [length_rulePairs] at c2 c3
    have v2 : (fold (fun newRoot (p : I × I) => (bitorT (negativeBranch p.1) (negativeBranch p.2)).bind fun e =>
        bitandT newRoot e) r1 (ClosetBuilder.rulePairs (groupPush (exclPairs cs)))).val = r2 := by
      rw [fold_val (g := fun newRoot (p : I × I) => bitand newRoot (bitor (negativeBranch p.1) (negativeBranch p.2)))
        (fun a e => by rw [bind_val, bitorT_val, bitandT_val])]
    have hroot : (ClosetBuilder.buildRoot (F := F) ⟨contents, indexOf (itemPairs cs), groupPush (exclPairs cs),
        groupPush (inclPairs cs)⟩) = (ClosetBuilder.rulePairs (groupPush (inclPairs cs))).foldl
        (fun newRoot p => bitand newRoot (bitor (negativeBranch p.1) (positiveBranch p.2))) r2 := by
      rw [ClosetBuilder.buildRoot, hr2, hr1]
      simp only [List.foldl_map]
      rfl
    have hlen : (itemPairs cs).length + (exclPairs cs).length + (inclPairs cs).length ≤ cs.length := by
      clear * -
      induction cs with
      | nil => simp [itemPairs, exclPairs, inclPairs]
      | cons c cs ih =>
        cases c <;> simp [itemPairs, exclPairs, inclPairs] at ih ⊢ <;> omega
    have hsz : 2 * (L.flatten.toFinset.card * (L.map (fun items => items.toFinset.card)).prod) + 1 ≤
        2 * (N * W) + 1 := by
      have := Nat.mul_le_mul hNle hWle
      omega
    rw [hroot, ClosetBuilder.buildRootT, bind_calls, bind_calls]
    dsimp only
    rw [v1, v2]
    refine le_trans (Nat.add_le_add (Nat.add_le_add step1 (Nat.add_le_add c2 c3)) (sz.trans hsz)) ?_
    rw [Nat.mul_zero, Nat.zero_add]
    refine (arith_build N W _ _ _).trans ?_
    gcongr
  · intro c hc K hK
    have hr : Reached cs [] c := ⟨c, hc, rfl⟩
    refine le_trans (closet_size cs [] c hr S (by intro i; rw [hS]; simp) K (by intro w; rw [hK]; simp)).1 ?_
    rw [← ClosetBuilder.buildT_val] at hc
    rw [ClosetBuilder.buildT] at hc ⊢
    split at hc
    · cases hc
    · rename_i h
      simp only [bind_val, map_val] at hc ⊢
      cases hc
      simp only [bind_calls, map_calls, summarizeT_calls, nodeCount_size]
      omega

/-! ### a small diagram that takes exponentially many calls -/

/-- The distinct subdiagrams of a diagram, itself included.  Not code: used to state or prove properties. -/
def Node.subs : Node I → Finset (Node I)
  | .Leaf v => {.Leaf v}
  | .Branch i l h => insert (.Branch i l h) (l.subs ∪ h.subs)

/-- The diagram of `d` families of two items from item `2 k` on.  Not code: used to state or prove properties. -/
def chain : Nat → Nat → Node Nat
  | 0, _ => TRUE_LEAF
  | d + 1, k => .Branch (2 * k) (.Branch (2 * k + 1) FALSE_LEAF (chain d (k + 1)))
      (.Branch (2 * k + 1) (chain d (k + 1)) FALSE_LEAF)

theorem chain_ne (d k : Nat) : chain d k ≠ FALSE_LEAF := by
  cases d <;> simp [chain]

theorem chain_above {d k x : Nat} (h : x < 2 * k) : Above x (chain d k) := by
  cases d
  · trivial
  · exact h

theorem chain_ordered (d : Nat) : ∀ k, (chain d k).Ordered ∧ (chain d k).Reduced := by
  induction d with
  | zero => intro k; exact ⟨trivial, trivial⟩
  | succ d ih =>
    intro k
    obtain ⟨o, r⟩ := ih (k + 1)
    have a : Above (2 * k + 1) (chain d (k + 1)) := chain_above (by omega)
    have hne := chain_ne d (k + 1)
    refine ⟨⟨Nat.lt_succ_self _, Nat.lt_succ_self _, ⟨trivial, a, trivial, o⟩, ⟨a, trivial, o, trivial⟩⟩,
      ⟨?_, ⟨hne.symm, trivial, r⟩, ⟨hne, r, trivial⟩⟩⟩
    rw [Ne, Node.Branch.injEq]
    rintro ⟨_, h, _⟩
    exact hne h.symm

theorem chain_eval (d : Nat) : ∀ k (σ : Nat → Bool), (chain d k).eval σ = true ↔
    ∀ f, k ≤ f → f < k + d → σ (2 * f) ≠ σ (2 * f + 1) := by
  induction d with
  | zero => intro k σ; simp only [chain, eval, true_iff]; intro f h1 h2; omega
  | succ d ih =>
    intro k σ
    have hs : (∀ f, k ≤ f → f < k + (d + 1) → σ (2 * f) ≠ σ (2 * f + 1)) ↔
        σ (2 * k) ≠ σ (2 * k + 1) ∧ ∀ f, k + 1 ≤ f → f < k + 1 + d → σ (2 * f) ≠ σ (2 * f + 1) := by
      constructor
      · intro h; exact ⟨h k (le_refl _) (by omega), fun f h1 h2 => h f (by omega) (by omega)⟩
      · rintro ⟨h1, h2⟩ f h3 h4
        by_cases e : f = k
        · subst e; exact h1
        · exact h2 f (by omega) (by omega)
    rw [hs, ← ih (k + 1) σ]
    simp only [chain, eval]
    cases σ (2 * k) <;> cases σ (2 * k + 1) <;> simp

theorem chain_subs (d : Nat) : ∀ k, (chain d k).subs.card ≤ 3 * d + 2 ∧
    (insert FALSE_LEAF (chain d k).subs).card ≤ 3 * d + 2 := by
  induction d with
  | zero =>
    intro k
    exact ⟨by simp [chain, Node.subs], by simp [chain, Node.subs]⟩
  | succ d ih =>
    intro k
    have h : insert FALSE_LEAF (chain (d + 1) k).subs ⊆
        insert (chain (d + 1) k) (insert (.Branch (2 * k + 1) FALSE_LEAF (chain d (k + 1)))
          (insert (.Branch (2 * k + 1) (chain d (k + 1)) FALSE_LEAF)
            (insert FALSE_LEAF (chain d (k + 1)).subs))) := by
      intro n hn
      simp only [chain, Node.subs, Finset.mem_insert, Finset.mem_union, Finset.mem_singleton] at hn ⊢
      rcases hn with h | h | (h | h | h) | h | h | h <;> simp [h]
    have c := Finset.card_le_card h
    have h2 := (ih (k + 1)).2
    have h3 : (insert FALSE_LEAF (chain (d + 1) k).subs).card ≤ 3 * (d + 1) + 2 := by
      refine c.trans ?_
      refine (Finset.card_insert_le _ _).trans ?_
      have a1 := Finset.card_insert_le (Node.Branch (2 * k + 1) FALSE_LEAF (chain d (k + 1)))
        (insert (.Branch (2 * k + 1) (chain d (k + 1)) FALSE_LEAF) (insert FALSE_LEAF (chain d (k + 1)).subs))
      have a2 := Finset.card_insert_le (Node.Branch (2 * k + 1) (chain d (k + 1)) FALSE_LEAF)
        (insert FALSE_LEAF (chain d (k + 1)).subs)
      omega
    exact ⟨(Finset.card_le_card (Finset.subset_insert _ _)).trans h3, h3⟩

/-- C90: nothing is cached.  The closet of `n` families of two items has at most `3 n + 2` distinct subdiagrams;
counting its outfits and building it each take at least `2 ^ n` calls. -/
theorem calls_exponential (n : Nat) : ∃ c, (ClosetBuilder.run (pairs n)).build = .ok c ∧
    c.root.subs.card ≤ 3 * n + 2 ∧ 2 ^ n ≤ c.root.outfitCountT.calls ∧ c.root.outfitCountT.val = 2 ^ n ∧
    2 ^ n ≤ (ClosetBuilder.run (pairs n)).buildT.calls := by
  obtain ⟨c, hc, hcount⟩ := pairs_count n
  have hr : Reached (pairs n) [] c := ⟨c, hc, rfl⟩
  obtain ⟨hl, st, _, _⟩ := hr.state
  have hroot : c.root = chain n 0 := by
    obtain ⟨o, r⟩ := chain_ordered n 0
    refine canonical st.good.1 o st.good.2 r fun σ => ?_
    rw [Bool.eq_iff_iff, st.eval, chain_eval]
    constructor
    · intro h f _ hf e
      have hm : Call.item f (2 * f) ∈ pairs n := mem_pairs.mpr ⟨by omega, Or.inl rfl⟩
      obtain ⟨j, ⟨hj, wj⟩, uj⟩ := h.one f _ hm
      simp only [List.not_mem_nil, false_or] at wj uj
      rcases (mem_pairs.mp hj).2 with rfl | rfl
      · have := uj (2 * f + 1) ⟨mem_pairs.mpr ⟨by omega, Or.inr rfl⟩, by rw [← e]; exact wj⟩
        omega
      · have := uj (2 * f) ⟨hm, by rw [e]; exact wj⟩
        omega
    · intro h
      refine ⟨?_, by intro a b hab; simp [pairs] at hab, by intro a b hab; simp [pairs] at hab⟩
      intro f i hi
      have hf := (mem_pairs.mp hi).1
      have hne := h f (by omega) (by omega)
      simp only [List.not_mem_nil, false_or, mem_pairs]
      cases h0 : σ (2 * f)
      · have h1 : σ (2 * f + 1) = true := by
          rw [h0] at hne; cases h2 : σ (2 * f + 1)
          · exact absurd h2.symm hne
          · rfl
        refine ⟨2 * f + 1, ⟨⟨hf, Or.inr rfl⟩, h1⟩, ?_⟩
        rintro j ⟨⟨_, rfl | rfl⟩, wj⟩
        · rw [h0] at wj; cases wj
        · rfl
      · have h1 : σ (2 * f + 1) = false := by
          rw [h0] at hne; cases h2 : σ (2 * f + 1)
          · rfl
          · exact absurd h2.symm hne
        refine ⟨2 * f, ⟨⟨hf, Or.inl rfl⟩, h0⟩, ?_⟩
        rintro j ⟨⟨_, rfl | rfl⟩, wj⟩
        · rfl
        · rw [h1] at wj; cases wj
  have hsz : 2 ^ n ≤ c.root.nodeCount := by
    obtain ⟨L, hL, e⟩ := outfit_count_exact (pairs n) [] c hr
    rw [← hcount, e]
    exact (closet_size (pairs n) [] c hr (Finset.range (2 * n)) (by
      intro i
      rw [Finset.mem_range]
      constructor
      · intro h
        refine ⟨⟨i / 2, mem_pairs.mpr ⟨by omega, by omega⟩⟩, by simp⟩
      · rintro ⟨⟨f, hf⟩, _⟩
        have := mem_pairs.mp hf
        omega) L hL).1
  refine ⟨c, hc, ?_, ?_, ?_, ?_⟩
  · rw [hroot]; exact (chain_subs n 0).1
  · rw [(counts_calls c.root).2.2.1]; exact hsz
  · rw [(counts_val c.root).2.2.1]; exact hcount
  · refine hsz.trans ?_
    have hc' := hc
    rw [← ClosetBuilder.buildT_val] at hc'
    rw [ClosetBuilder.buildT] at hc' ⊢
    split at hc'
    · cases hc'
    · simp only [bind_val, map_val] at hc' ⊢
      cases hc'
      simp only [bind_calls, map_calls, summarizeT_calls, nodeCount_size]
      omega

/-! ### the hypotheses are met -/

/-- Two families of two items (4 builder calls, 4 items, 4 outfits): building makes between 4 and 56250 calls. -/
example : (ClosetBuilder.run (pairs 2)).buildT.calls ≤ 56250 ∧ 4 ≤ (ClosetBuilder.run (pairs 2)).buildT.calls := by
  have h := (build_calls (pairs 2) (Finset.range 4) (by
      intro i
      rw [Finset.mem_range]
      constructor
      · intro h; exact ⟨i / 2, mem_pairs.mpr ⟨by omega, by omega⟩⟩
      · rintro ⟨f, hf⟩; have := mem_pairs.mp hf; omega)
    (Finset.range 2) (by
      intro f
      rw [Finset.mem_range]
      constructor
      · intro h; exact ⟨2 * f, mem_pairs.mpr ⟨h, Or.inl rfl⟩⟩
      · rintro ⟨i, hi⟩; exact (mem_pairs.mp hi).1)
    (fun f => if f < 2 then {2 * f, 2 * f + 1} else ∅) (by
      intro f i
      rw [mem_pairs]
      by_cases hf : f < 2
      · simp [hf]
      · simp [hf])).2.1
  have e : ∏ f ∈ Finset.range 2, (if f < 2 then ({2 * f, 2 * f + 1} : Finset Nat) else ∅).card = 4 := by decide
  rw [e] at h
  obtain ⟨c, _, _, _, _, h2⟩ := calls_exponential 2
  exact ⟨by simpa [pairs] using h, h2⟩

end Verif.Bdd
