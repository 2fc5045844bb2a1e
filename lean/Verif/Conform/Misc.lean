import Verif.Conform.Run
import Verif.Conform.ApiMore
import Verif.Zdd2.Serialize
import Verif.Zdd1.Serialize
import Verif.Arena

/-!
# The repository's own tests, replayed on the model (texts, documents, universes, node constructor)

Written by hand from the test functions cited.  Strings of items are replaced by numbers in the same order.
-/

namespace Verif.Conform.ReplayMisc
open Verif.Conform Verif

/-- The macro `node!` of weave/src/zdd2/forest/node/macros.rs:1-19. -/
abbrev nd (id : Nat) (low : Zdd2.Node := .Never) (high : Zdd2.Node := .Always) : Zdd2.Node :=
  Zdd2.Node.branch id low high

/-! weave/src/zdd2/forest/node/macros.rs:27 `leaves`, :47 `branches`, :96 `nested_branches` -/
example : nd 0 .Always = .Branch 0 .Always .Always := by rw [nd, branch_eq]; decide +kernel
example : nd 0 .Always .Never = .Always := by rw [nd, branch_eq]; decide +kernel
example : nd 0 .Never .Never = .Never := by rw [nd, branch_eq]; decide +kernel
example : nd 0 = .Branch 0 .Never .Always := by rw [nd, branch_eq]; decide +kernel
example : nd 1 .Never (nd 2) = .Branch 1 .Never (.Branch 2 .Never .Always) := by
  simp only [nd, branch_eq]; decide +kernel

/-! weave/src/zdd2/forest/node/mod.rs:191 `zdd_nodes_reduce_when_high_is_never_node` … `zdd_nodes_dedup_when_high_has_same_priority` -/
example : nd 0 .Always .Always = .Branch 0 .Always .Always := by rw [nd, branch_eq]; decide +kernel
example : nd 1 (nd 0) (nd 2) = nd 0 (nd 1 .Never (nd 2)) .Always := by simp only [nd, branch_eq]; decide +kernel
example : nd 1 (nd 2) (nd 0) = nd 0 (nd 2) (nd 1) := by simp only [nd, branch_eq]; decide +kernel
example : nd 1 (nd 0 .Never (nd 2)) (nd 0 (nd 3) .Always) = nd 0 (nd 1 .Never (nd 3)) (nd 1 (nd 2) .Always) := by
  simp only [nd, branch_eq]; decide +kernel
example : nd 1 .Always (nd 0) = nd 0 .Always (nd 1) := by simp only [nd, branch_eq]; decide +kernel
example : nd 1 (nd 1) (nd 2) = nd 1 .Never (nd 2) := by simp only [nd, branch_eq]; decide +kernel
example : nd 1 .Never (nd 1 .Never (nd 2)) = nd 1 .Never (nd 2) := by simp only [nd, branch_eq]; decide +kernel

/-- The grammar with the kernel-computable twin of the constructor.  Not code: used to test the model. -/
theorem grammar_eq : Zdd2.Node.grammar = ⟨['(', 'A', ')'], .Always, ['(', 'N', ')'], .Never, br⟩ := by
  rw [Zdd2.Node.grammar, branch_eq]

/-! weave/src/zdd2/forest/node/parser.rs:60 `parse_leafs` … `parse_branches_recursively` -/
example : Zdd2.Node.parseNodeString "(A)".toList = some .Always := by
  rw [Zdd2.Node.parseNodeString, grammar_eq]; decide +kernel
example : Zdd2.Node.parseNodeString "(N)".toList = some .Never := by
  rw [Zdd2.Node.parseNodeString, grammar_eq]; decide +kernel
example : Zdd2.Node.parseNodeString "(0(A)(N))".toList = some (nd 0 .Always .Never) := by
  rw [Zdd2.Node.parseNodeString, grammar_eq]; simp only [nd, branch_eq]; decide +kernel
example : Zdd2.Node.parseNodeString "(0(N)(A))".toList = some (nd 0) := by
  rw [Zdd2.Node.parseNodeString, grammar_eq]; simp only [nd, branch_eq]; decide +kernel
example : Zdd2.Node.parseNodeString " (  0 (N)   \n             (A) \t )".toList = some (nd 0) := by
  rw [Zdd2.Node.parseNodeString, grammar_eq]; simp only [nd, branch_eq]; decide +kernel
example : Zdd2.Node.parseNodeString "(0 (A)(1 (N)(A)))".toList = some (nd 0 .Always (nd 1)) := by
  rw [Zdd2.Node.parseNodeString, grammar_eq]; simp only [nd, branch_eq]; decide +kernel
example : Zdd2.Node.parseNodeString "(0 (1 (N) (A)) (A))".toList = some (nd 0 (nd 1) .Always) := by
  rw [Zdd2.Node.parseNodeString, grammar_eq]; simp only [nd, branch_eq]; decide +kernel

/-! weave/src/zdd2/forest/node/serialize.rs:71 `tokenize_leaves`, `tokenize_branch`, `tokenize_nested_branches`
(`assert_tokens` checks writing and reading) -/
example : Zdd2.Node.buildNodeString .Always = "(A)".toList := by decide +kernel
example : Zdd2.Node.buildNodeString .Never = "(N)".toList := by decide +kernel
example : Zdd2.Node.buildNodeString (nd 1) = "(1 (N) (A))".toList := by simp only [nd, branch_eq]; decide +kernel
example : Zdd2.Node.parseNodeString "(1 (N) (A))".toList = some (nd 1) := by
  rw [Zdd2.Node.parseNodeString, grammar_eq]; simp only [nd, branch_eq]; decide +kernel
example : Zdd2.Node.buildNodeString (nd 1 .Always (nd 2)) = "(1 (A) (2 (N) (A)))".toList := by
  simp only [nd, branch_eq]; decide +kernel
example : Zdd2.Node.parseNodeString "(1 (A) (2 (N) (A)))".toList = some (nd 1 .Always (nd 2)) := by
  rw [Zdd2.Node.parseNodeString, grammar_eq]; simp only [nd, branch_eq]; decide +kernel

/-! weave/src/zdd2/forest/universe/mod.rs:130 `from_matrix` -/
/-- The matrix of weave/src/zdd2/forest/universe/mod.rs:131-150. -/
abbrev table : List (List Nat) :=
  [[1, 4, 7], [1, 4, 8], [1, 4, 9], [1, 5, 7], [1, 5, 8], [1, 5, 9], [1, 6, 7], [1, 6, 8], [1, 6, 9],
   [2, 4, 7], [2, 4, 8], [2, 4, 9], [2, 5, 7], [2, 5, 8], [2, 5, 9], [3, 4, 7], [3, 4, 8], [3, 4, 9]]
example : (Zdd2.Universe.fromMatrix table).occurrences =
    [(1, 9), (2, 6), (3, 3), (4, 9), (5, 6), (6, 3), (7, 6), (8, 6), (9, 6)] := by decide +kernel
example : (Zdd2.Universe.fromMatrix table).priority =
    [(1, 0), (2, 2), (3, 7), (4, 1), (5, 3), (6, 8), (7, 4), (8, 5), (9, 6)] := by decide +kernel
example : (Zdd2.Universe.fromMatrix table).index = [1, 4, 2, 5, 7, 8, 9, 3, 6] := by decide +kernel

/-! `from_matrix_does_not_duplicate_occurances` -/
example : (Zdd2.Universe.fromMatrix [[1, 4], [1, 4], [2, 5]]).occurrences = [(1, 1), (2, 1), (4, 1), (5, 1)] := by
  decide +kernel
example : (Zdd2.Universe.fromMatrix [[1, 4], [1, 4], [2, 5]]).priority = [(1, 0), (2, 1), (4, 2), (5, 3)] := by
  decide +kernel
example : (Zdd2.Universe.fromMatrix [[1, 4], [1, 4], [2, 5]]).index = [1, 2, 4, 5] := by decide +kernel

/-! `from_items` -/
example : (Zdd2.Universe.fromItems [1, 2, 3, 2]).occurrences = [(1, 1), (2, 1), (3, 1)] := by decide +kernel
example : (Zdd2.Universe.fromItems [1, 2, 3, 2]).priority = [(1, 0), (2, 1), (3, 2)] := by decide +kernel
example : (Zdd2.Universe.fromItems [1, 2, 3, 2]).index = [1, 2, 3] := by decide +kernel

/-! `get_item_is_consistent` -/
/-- The universe of that test, weave/src/zdd2/forest/universe/mod.rs:257-263. Not code: used to test the model. -/
abbrev small : Zdd2.Universe Nat := Zdd2.Universe.fromMatrix [[1, 4, 7], [1, 4, 8], [1, 5, 8]]
example : small.getPriority 1 = some 0 ∧ small.getItem 0 = some 1 := by decide +kernel
example : small.getPriority 4 = some 1 ∧ small.getItem 1 = some 4 := by decide +kernel
example : small.getPriority 7 = some 4 ∧ small.getItem 4 = some 7 := by decide +kernel

/-! `merge` -/
example : (Zdd2.Universe.fromMatrix [[1, 4, 7]]).merge (Zdd2.Universe.fromMatrix [[1, 4, 8], [1, 5, 8]]) = small := by
  decide +kernel

/-! weave/src/zdd2/forest/universe/serialize.rs `tokenize_empty`, `tokenize_from_items`, `tokenize_from_matrix` -/
example : Zdd2.serializeUniverse (Zdd2.Universe.default : Zdd2.Universe Nat).occurrences = [] := by decide +kernel
example : Zdd2.serializeUniverse (Zdd2.Universe.fromItems [11, 22, 33]).occurrences = [(11, 1), (22, 1), (33, 1)] := by
  decide +kernel
example : Zdd2.deserializeUniverse [(11, 1), (22, 1), (33, 1)] = Zdd2.Universe.fromItems [11, 22, 33] := by
  decide +kernel
example : Zdd2.serializeUniverse
    (Zdd2.Universe.fromMatrix [[11, 22, 33], [11, 22], [22, 33], [11, 33], [11]]).occurrences =
    [(11, 4), (22, 3), (33, 3)] := by decide +kernel
example : Zdd2.deserializeUniverse [(11, 4), (22, 3), (33, 3)] =
    Zdd2.Universe.fromMatrix [[11, 22, 33], [11, 22], [22, 33], [11, 33], [11]] := by decide +kernel

/-! weave/tests/node_zdd_serde.rs `tokenize_small_node` -/
/-- The tree of weave/tests/node_zdd_serde.rs:12-17. Not code: used to test the model. -/
abbrev pair : Zdd1.Tree Nat := (Zdd1.Universe.fromVec [1, 2]).hyperTree [[1, 2]]
example : (Zdd1.serializeTree pair pair.univ.itemIndex).root = "(0 (F) (1 (F) (T)))".toList := by decide +kernel
example : (Zdd1.serializeTree pair pair.univ.itemIndex).items = [1, 2] := by decide +kernel
example : (Zdd1.serializeTree pair pair.univ.itemIndex).itemIndex = [(1, 0), (2, 1)] := by decide +kernel
example : Zdd1.deserializeTree (Zdd1.serializeTree pair pair.univ.itemIndex) = some pair := by decide +kernel

/-! weave/src/zdd/node/parser.rs `test_parse_leafs` … `test_parse_branches_recursively` -/
example : Zdd1.Node.parseNodeString "(T)".toList = some (.Leaf true) := by decide +kernel
example : Zdd1.Node.parseNodeString "(F)".toList = some (.Leaf false) := by decide +kernel
example : Zdd1.Node.parseNodeString "(0(T)(F))".toList = some (.branch 0 (.Leaf true) (.Leaf false)) := by
  decide +kernel
example : Zdd1.Node.parseNodeString "(  0 (T)   \n             (F) \t )".toList =
    some (.branch 0 (.Leaf true) (.Leaf false)) := by decide +kernel
example : Zdd1.Node.parseNodeString "(0 (T)(1 (T)(F)))".toList =
    some (.branch 0 (.Leaf true) (.branch 1 (.Leaf true) (.Leaf false))) := by decide +kernel
example : Zdd1.Node.parseNodeString "(0 (1 (T) (F)) (T))".toList =
    some (.branch 0 (.branch 1 (.Leaf true) (.Leaf false)) (.Leaf true)) := by decide +kernel

/-! weave/src/zdd/tree/traversable.rs `test` -/
example : ((Zdd1.Universe.fromVec [1, 2]).tree [1, 2]).traverse =
    some (.Branch 1 (.Leaf false) (.Branch 2 (.Leaf false) (.Leaf true))) := by decide +kernel

/-! bowtie-core/src/bdd/node/structure.rs `structure_represents_*` (`pants:jeans` = 1, `shirts:blue` = 2) -/
example : Bdd.toStructure (bdd.branch 2 (bdd.pos 1) (bdd.neg 1)) 0 =
    .Available 0 (.Required 1 (.Outcome true)) (.Excluded 1 (.Outcome true)) := by decide +kernel
example : Bdd.toStructure (bdd.pos 2) 0 = .Required 0 (.Outcome true) := by decide +kernel
example : Bdd.toStructure (bdd.neg 2) 0 = .Excluded 0 (.Outcome true) := by decide +kernel

/-! bowtie-core/src/bdd/node/hash_structure.rs `hash_structure_of_*`, for every hash function -/
example {H : Type} (leaf : Bool → H) (two : H → H → H) : Bdd.hashStructure leaf two bdd.T = leaf true := rfl
example {H : Type} (leaf : Bool → H) (two : H → H → H) : Bdd.hashStructure leaf two bdd.F = leaf false := rfl
example {H : Type} (leaf : Bool → H) (two : H → H → H) :
    Bdd.hashStructure leaf two (bdd.branch 3 bdd.F bdd.T) = two (leaf false) (leaf true) := rfl
example {H : Type} (leaf : Bool → H) (two : H → H → H) :
    Bdd.hashStructure leaf two (bdd.branch 1 bdd.F (bdd.branch 3 bdd.F bdd.T)) =
      two (leaf false) (two (leaf false) (leaf true)) := rfl
example {H : Type} (leaf : Bool → H) (two : H → H → H) :
    Bdd.hashStructure leaf two (bdd.branch 2 (bdd.branch 1 bdd.T bdd.F) (bdd.branch 3 bdd.F bdd.T)) =
      two (two (leaf true) (leaf false)) (two (leaf false) (leaf true)) := rfl

/-! bowtie-core/tests/node_bdd_serde.rs:13 `tokenize_small_node` (`shirts:blue` = 1, `shirts:red` = 2) -/
example : Bdd.serializeNode (bdd.and (bdd.pos 1) (bdd.pos 2)) =
    (.Required 0 (.Required 1 (.Outcome true)), [(0, 1), (1, 2)]) := by decide +kernel
example : Bdd.deserializeNode (.Required 0 (.Required 1 (.Outcome true)), [(0, 1), (1, 2)]) =
    some (bdd.and (bdd.pos 1) (bdd.pos 2)) := by decide +kernel

/-! bowtie-core/tests/node_bdd_serde.rs:48 `tokenize_large_node` (`pants:jeans` … `shoes:topsiders` = 1 … 8; the
families `pants`, `shirts`, `shoes` = 1, 2, 3) -/
/-- The builder of bowtie-core/tests/node_bdd_serde.rs:61-74. -/
abbrev shop : bdd.B :=
  let b := bdd.builder
  let b := bdd.addItem (bdd.addItem (bdd.addItem b 2 3) 2 5) 2 4
  let b := bdd.addItem (bdd.addItem b 1 1) 1 2
  let b := bdd.addItem (bdd.addItem (bdd.addItem b 3 6) 3 7) 3 8
  let b := bdd.addExclusionRule (bdd.addExclusionRule (bdd.addExclusionRule b 3 1) 5 2) 4 1
  bdd.addInclusionRule (bdd.addInclusionRule b 6 2) 6 3
/-- The document of bowtie-core/tests/node_bdd_serde.rs:78-228. -/
abbrev shopText : Bdd.Structure × List (Nat × Nat) :=
  (.Available 0
    (.Required 1 (.Available 2
      (.Required 3 (.Excluded 4 (.Excluded 5
        (.Available 6 (.Required 7 (.Outcome true)) (.Excluded 7 (.Outcome true))))))
      (.Excluded 3 (.Excluded 4 (.Available 5
        (.Available 6 (.Required 7 (.Outcome true)) (.Excluded 7 (.Outcome true)))
        (.Excluded 6 (.Excluded 7 (.Outcome true))))))))
    (.Excluded 1 (.Excluded 2 (.Excluded 3 (.Required 4 (.Excluded 5
      (.Available 6 (.Required 7 (.Outcome true)) (.Excluded 7 (.Outcome true)))))))),
   [(0, 1), (1, 2), (2, 3), (3, 4), (4, 5), (5, 6), (6, 7), (7, 8)])
example : (bdd.root (bdd.mustBuild shop)).map Bdd.serializeNode = some shopText := by decide +kernel
example : Bdd.deserializeNode shopText = bdd.root (bdd.mustBuild shop) := by decide +kernel

/-! weave/tests/zdd.rs:29 `empty`, `unit`, `many` of `serde_tests` -/
example : Zdd2.serializeForest [] (Zdd2.Forest.empty : Zdd2.Forest Nat) = ⟨"(N)".toList, []⟩ := by
  refine Zdd2.ForestData.mk.injEq .. ▸ ⟨?_, ?_⟩ <;> decide +kernel
example : (Zdd2.Forest.unit [1, 2]).root = nd 0 .Never (nd 1) := by
  simp only [nd, Zdd2.Forest.unit, Zdd2.Universe.getPrioritiesNode, Zdd2.Node.fromIter, branch_eq]; decide +kernel
example : Zdd2.Node.buildNodeString (nd 0 .Never (nd 1)) = "(0 (N) (1 (N) (A)))".toList := by
  simp only [nd, branch_eq]; decide +kernel
example : (Zdd2.Forest.unit [1, 2]).univ = Zdd2.deserializeUniverse [(1, 1), (2, 1)] := by
  simp only [Zdd2.Forest.unit]; decide +kernel
example : (zdd2.many [[1, 2], [2, 3]]).map (fun f => Zdd2.Node.buildNodeString f.root) =
    some "(0 (N) (1 (2 (N) (A)) (A)))".toList := by zrun
example : (zdd2.many [[1, 2], [2, 3]]).map (fun f => f.univ) =
    some (Zdd2.deserializeUniverse [(1, 1), (2, 2), (3, 1)]) := by zrun

/-! The arenas: weave/src/zdd2/forest/node/arena.rs `get_has_always_node_saved` … and
bowtie-core/src/bdd/node/arena.rs `add`, `add_does_not_duplicate` (cells over two leaves) -/
/-- `NodeArena::new` with its two leaves. Not code: used to test the model. -/
abbrev fresh : Arena.Arena Nat Bool := Arena.Arena.init true false
example : fresh.getById 0 = some (.leaf true) ∧ fresh.getById 1 = some (.leaf false) := by decide +kernel
example : let (a, i) := fresh.add (.branch 1 1 0)
    let (b, j) := a.add (.branch 2 0 1)
    b.getById i = some (.branch 1 1 0) ∧ b.getById j = some (.branch 2 0 1) := by decide +kernel
example : let (a, i) := fresh.add (.branch 1 1 0)
    (a.add (.branch 1 1 0)).2 = i := by decide +kernel
example : let (a, i) := fresh.add (.leaf true)
    let (b, j) := a.add (.leaf false)
    b.getById i = some (.leaf true) ∧ b.getById j = some (.leaf false) := by decide +kernel

end Verif.Conform.ReplayMisc
