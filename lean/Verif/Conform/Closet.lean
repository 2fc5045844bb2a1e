import Verif.Conform.ApiMore

/-!
# The repository's own tests, replayed on the model (Closet)

Generated by tools/conform2.py from the test functions cited; items are ranks of string literals.
-/

namespace Verif.Conform.ReplayCloset
open Verif.Conform

set_option maxRecDepth 4000

/-! bowtie-core/src/bdd/node/reduce.rs:31 `or_can_be_reduced_if_low_and_high_are_equal` -/
example : (bdd.reduce (bdd.branch 2 (bdd.pos 1) (bdd.pos 1))) = (bdd.pos 1) :=
  by decide +kernel

/-! bowtie-core/src/bdd/node/reduce.rs:50 `sibling_relationship_cannot_be_reduced_in_nodes` -/
example : (bdd.reduce (bdd.branch 2 (bdd.neg 1) (bdd.pos 1))) = (bdd.branch 2 (bdd.neg 1) (bdd.pos 1)) :=
  by decide +kernel

/-! bowtie-core/src/bdd/node/reduce.rs:68 `exclusion_rule_can_be_reduced` -/
example : (bdd.reduce (bdd.branch 2 (bdd.branch 1 bdd.T bdd.T) (bdd.neg 1))) = (bdd.branch 2 bdd.T (bdd.neg
    1)) :=
  by decide +kernel

/-! bowtie-core/src/bdd/node/reduce.rs:86 `inclusion_rule_can_be_reduced` -/
example : (bdd.reduce (bdd.branch 2 (bdd.branch 1 bdd.T bdd.T) (bdd.pos 1))) = (bdd.branch 2 bdd.T (bdd.pos
    1)) :=
  by decide +kernel

/-! bowtie-core/src/bdd/node/restrict.rs:36 `selecting_child_returns_correct_node` -/
example : (bdd.restrict (bdd.branch 2 (bdd.neg 1) (bdd.pos 1)) 1 true) = (bdd.pos 2) :=
  by decide +kernel
example : (bdd.restrict (bdd.branch 2 (bdd.neg 1) (bdd.pos 1)) 1 false) = (bdd.neg 2) :=
  by decide +kernel

/-! bowtie-core/src/bdd/node/restrict.rs:63 `selecting_parent_returns_correct_node` -/
example : (bdd.restrict (bdd.branch 2 (bdd.neg 1) (bdd.pos 1)) 2 true) = (bdd.pos 1) :=
  by decide +kernel
example : (bdd.restrict (bdd.branch 2 (bdd.neg 1) (bdd.pos 1)) 2 false) = (bdd.neg 1) :=
  by decide +kernel

/-! bowtie-core/src/bdd/node/summarize.rs:47 `summarize_returns_empty_for_leaves` -/
example : (bdd.summarize bdd.T) = [] :=
  by decide +kernel
example : (bdd.summarize bdd.F) = [] :=
  by decide +kernel

/-! bowtie-core/src/bdd/node/summarize.rs:58 `summarize_returns_available_items_for_depth_1` -/
example : (bdd.summarize (bdd.pos 1)) = [(.Available 1)] :=
  by decide +kernel

/-! bowtie-core/src/bdd/node/summarize.rs:68 `summarize_returns_excluded_items_for_depth_1` -/
example : (bdd.summarize (bdd.neg 1)) = [(.Excluded 1)] :=
  by decide +kernel

/-! bowtie-core/src/bdd/node/summarize.rs:78 `summarize_returns_available_items_for_depth_2` -/
example : (bdd.summarize (bdd.xor (bdd.pos 2) (bdd.pos 1))) = [(.Available 1), (.Available 2)] :=
  by decide +kernel

/-! bowtie-core/src/bdd/node/bit_operations.rs:122 `and_leaf_nodes` -/
example : (bdd.and bdd.T bdd.T) = bdd.T :=
  by decide +kernel
example : (bdd.and bdd.F bdd.T) = bdd.F :=
  by decide +kernel
example : (bdd.and bdd.T bdd.F) = bdd.F :=
  by decide +kernel
example : (bdd.and bdd.F bdd.F) = bdd.F :=
  by decide +kernel

/-! bowtie-core/src/bdd/node/bit_operations.rs:131 `and_leaf_node_with_branch` -/
example : (bdd.and bdd.T (bdd.pos 1)) = (bdd.pos 1) :=
  by decide +kernel
example : (bdd.and (bdd.pos 1) bdd.T) = (bdd.pos 1) :=
  by decide +kernel
example : (bdd.and bdd.F (bdd.pos 1)) = bdd.F :=
  by decide +kernel
example : (bdd.and (bdd.pos 1) bdd.F) = bdd.F :=
  by decide +kernel

/-! bowtie-core/src/bdd/node/bit_operations.rs:144 `and_with_identical_branches_is_a_tautology` -/
example : (bdd.and (bdd.pos 1) (bdd.pos 1)) = (bdd.pos 1) :=
  by decide +kernel

/-! bowtie-core/src/bdd/node/bit_operations.rs:153 `and_with_opposite_branches_is_always_false` -/
example : (bdd.and (bdd.pos 1) (bdd.neg 1)) = bdd.F :=
  by decide +kernel

/-! bowtie-core/src/bdd/node/bit_operations.rs:163 `and_two_branches` -/
example : (bdd.and (bdd.branch 2 (bdd.pos 1) (bdd.neg 1)) (bdd.branch 3 (bdd.pos 4) (bdd.neg 4))) =
    (bdd.branch 2 (bdd.branch 1 bdd.F (bdd.branch 3 (bdd.pos 4) (bdd.neg 4))) (bdd.branch 1 (bdd.branch 3
    (bdd.pos 4) (bdd.neg 4)) bdd.F)) :=
  by decide +kernel
example : (bdd.and (bdd.branch 3 (bdd.pos 4) (bdd.neg 4)) (bdd.branch 2 (bdd.pos 1) (bdd.neg 1))) =
    (bdd.branch 2 (bdd.branch 1 bdd.F (bdd.branch 3 (bdd.pos 4) (bdd.neg 4))) (bdd.branch 1 (bdd.branch 3
    (bdd.pos 4) (bdd.neg 4)) bdd.F)) :=
  by decide +kernel

/-! bowtie-core/src/bdd/node/bit_operations.rs:196 `nand_leaf_nodes` -/
example : (bdd.not (bdd.and bdd.T bdd.T)) = bdd.F :=
  by decide +kernel
example : (bdd.not (bdd.and bdd.F bdd.T)) = bdd.T :=
  by decide +kernel
example : (bdd.not (bdd.and bdd.T bdd.F)) = bdd.T :=
  by decide +kernel
example : (bdd.not (bdd.and bdd.F bdd.F)) = bdd.T :=
  by decide +kernel

/-! bowtie-core/src/bdd/node/bit_operations.rs:205 `nand_two_branches` -/
example : (bdd.not (bdd.and (bdd.branch 2 (bdd.pos 1) (bdd.neg 1)) (bdd.branch 3 (bdd.pos 4) (bdd.neg 4)))) =
    (bdd.branch 2 (bdd.branch 1 (bdd.branch 3 (bdd.pos 4) (bdd.neg 4)) bdd.F) (bdd.branch 1 bdd.F (bdd.branch
    3 (bdd.pos 4) (bdd.neg 4)))) :=
  by decide +kernel
example : (bdd.not (bdd.and (bdd.branch 3 (bdd.pos 4) (bdd.neg 4)) (bdd.branch 2 (bdd.pos 1) (bdd.neg 1)))) =
    (bdd.branch 2 (bdd.branch 1 (bdd.branch 3 (bdd.pos 4) (bdd.neg 4)) bdd.F) (bdd.branch 1 bdd.F (bdd.branch
    3 (bdd.pos 4) (bdd.neg 4)))) :=
  by decide +kernel

/-! bowtie-core/src/bdd/node/bit_operations.rs:232 `nand_two_items_from_different_families` -/
example : (bdd.and (bdd.and (bdd.pos 1) (bdd.branch 2 (bdd.neg 3) (bdd.pos 3))) (bdd.restrict (bdd.restrict
    (bdd.and (bdd.pos 1) (bdd.branch 2 (bdd.neg 3) (bdd.pos 3))) 1 true) 2 false)) = (bdd.branch 1 bdd.F
    (bdd.branch 2 (bdd.neg 3) bdd.F)) :=
  by decide +kernel

/-! bowtie-core/src/bdd/node/bit_operations.rs:273 `or_leaf_nodes` -/
example : (bdd.or bdd.T bdd.T) = bdd.T :=
  by decide +kernel
example : (bdd.or bdd.F bdd.T) = bdd.T :=
  by decide +kernel
example : (bdd.or bdd.T bdd.F) = bdd.T :=
  by decide +kernel
example : (bdd.or bdd.F bdd.F) = bdd.F :=
  by decide +kernel

/-! bowtie-core/src/bdd/node/bit_operations.rs:281 `or_leaf_node_with_branch` -/
example : (bdd.or bdd.T (bdd.pos 1)) = bdd.T :=
  by decide +kernel
example : (bdd.or (bdd.pos 1) bdd.T) = bdd.T :=
  by decide +kernel
example : (bdd.or bdd.F (bdd.pos 1)) = (bdd.pos 1) :=
  by decide +kernel
example : (bdd.or (bdd.pos 1) bdd.F) = (bdd.pos 1) :=
  by decide +kernel

/-! bowtie-core/src/bdd/node/bit_operations.rs:294 `or_with_identical_branches_is_a_tautology` -/
example : (bdd.or (bdd.pos 1) (bdd.pos 1)) = (bdd.pos 1) :=
  by decide +kernel

/-! bowtie-core/src/bdd/node/bit_operations.rs:303 `or_with_opposite_branches_is_always_false` -/
example : (bdd.or (bdd.pos 1) (bdd.neg 1)) = bdd.T :=
  by decide +kernel

/-! bowtie-core/src/bdd/node/bit_operations.rs:313 `or_two_branches` -/
example : (bdd.or (bdd.or (bdd.or (bdd.pos 4) (bdd.pos 3)) (bdd.pos 1)) (bdd.pos 2)) = (bdd.branch 1
    (bdd.branch 2 (bdd.branch 3 (bdd.pos 4) bdd.T) bdd.T) bdd.T) :=
  by decide +kernel
example : (bdd.or (bdd.or (bdd.or (bdd.pos 3) (bdd.pos 4)) (bdd.pos 2)) (bdd.pos 1)) = (bdd.branch 1
    (bdd.branch 2 (bdd.branch 3 (bdd.pos 4) bdd.T) bdd.T) bdd.T) :=
  by decide +kernel

/-! bowtie-core/src/bdd/node/bit_operations.rs:343 `xor_leaf_nodes` -/
example : (bdd.xor bdd.T bdd.T) = bdd.F :=
  by decide +kernel
example : (bdd.xor bdd.F bdd.T) = bdd.T :=
  by decide +kernel
example : (bdd.xor bdd.T bdd.F) = bdd.T :=
  by decide +kernel
example : (bdd.xor bdd.F bdd.F) = bdd.F :=
  by decide +kernel

/-! bowtie-core/src/bdd/node/bit_operations.rs:351 `xor_leaf_node_with_branch` -/
example : (bdd.xor bdd.T (bdd.pos 1)) = (bdd.not (bdd.pos 1)) :=
  by decide +kernel
example : (bdd.xor (bdd.pos 1) bdd.T) = (bdd.not (bdd.pos 1)) :=
  by decide +kernel
example : (bdd.xor bdd.F (bdd.pos 1)) = (bdd.pos 1) :=
  by decide +kernel
example : (bdd.xor (bdd.pos 1) bdd.F) = (bdd.pos 1) :=
  by decide +kernel

/-! bowtie-core/src/bdd/node/bit_operations.rs:364 `xor_with_identical_branches_is_always_false` -/
example : (bdd.xor (bdd.pos 1) (bdd.pos 1)) = bdd.F :=
  by decide +kernel

/-! bowtie-core/src/bdd/node/bit_operations.rs:373 `xor_with_opposite_branches_is_always_true` -/
example : (bdd.xor (bdd.pos 1) (bdd.neg 1)) = bdd.T :=
  by decide +kernel

/-! bowtie-core/src/bdd/node/bit_operations.rs:383 `xor_between_two_different_positive_items_expands` -/
example : (bdd.xor (bdd.pos 1) (bdd.pos 2)) = (bdd.branch 1 (bdd.pos 2) (bdd.neg 2)) :=
  by decide +kernel

/-! bowtie-core/src/bdd/node/bit_operations.rs:401 `xor_two_branches` -/
example : (bdd.xor (bdd.xor (bdd.xor (bdd.pos 4) (bdd.pos 3)) (bdd.pos 1)) (bdd.pos 2)) = (bdd.branch 1
    (bdd.branch 2 (bdd.branch 3 (bdd.pos 4) (bdd.neg 4)) (bdd.not (bdd.branch 3 (bdd.pos 4) (bdd.neg 4))))
    (bdd.branch 2 (bdd.not (bdd.branch 3 (bdd.pos 4) (bdd.neg 4))) (bdd.branch 3 (bdd.pos 4) (bdd.neg 4)))) :=
  by decide +kernel
example : (bdd.xor (bdd.xor (bdd.xor (bdd.pos 3) (bdd.pos 4)) (bdd.pos 2)) (bdd.pos 1)) = (bdd.branch 1
    (bdd.branch 2 (bdd.branch 3 (bdd.pos 4) (bdd.neg 4)) (bdd.not (bdd.branch 3 (bdd.pos 4) (bdd.neg 4))))
    (bdd.branch 2 (bdd.not (bdd.branch 3 (bdd.pos 4) (bdd.neg 4))) (bdd.branch 3 (bdd.pos 4) (bdd.neg 4)))) :=
  by decide +kernel

/-! bowtie-core/src/bdd/closet/select.rs:52 `one_selection_families_2_items_4` -/
example : (bdd.summary ((bdd.select (bdd.mustBuild (bdd.addItem (bdd.addItem (bdd.addItem (bdd.addItem
    bdd.builder 4 6) 4 5) 1 2) 1 3)) 5).bind ok)) = some [(.Excluded 6), (.Available 2), (.Available 3),
    (.Selected 5)] :=
  by decide +kernel

/-! bowtie-core/src/bdd/closet/select.rs:81 `one_selection_families_2_items_4_selecting_two_same_item` -/
example : (bdd.summary ((bdd.select ((bdd.select (bdd.mustBuild (bdd.addItem (bdd.addItem (bdd.addItem
    (bdd.addItem bdd.builder 4 6) 4 5) 1 2) 1 3)) 5).bind ok) 5).bind ok)) = some [(.Excluded 6), (.Available
    2), (.Available 3), (.Selected 5)] :=
  by decide +kernel

/-! bowtie-core/src/bdd/closet/select.rs:111 `one_selection_families_2_items_4_selecting_unknown_item` -/
example : (bdd.select (bdd.mustBuild (bdd.addItem (bdd.addItem (bdd.addItem (bdd.addItem bdd.builder 4 7) 4
    6) 1 2) 1 3)) 5) = some (.error (.UnknownItem 5)) :=
  by decide +kernel

/-! bowtie-core/src/bdd/closet/select.rs:138 `one_selection_families_2_items_4_one_exclusion_rule` -/
example : (bdd.summary ((bdd.select (bdd.mustBuild (bdd.addExclusionRule (bdd.addItem (bdd.addItem
    (bdd.addItem (bdd.addItem bdd.builder 4 6) 4 5) 1 2) 1 3) 6 2)) 6).bind ok)) = some [(.Excluded 2),
    (.Excluded 5), (.Available 3), (.Selected 6)] :=
  by decide +kernel

/-! bowtie-core/src/bdd/closet/select.rs:168 `one_selection_families_2_items_4_one_inclusion_rule` -/
example : (bdd.summary ((bdd.select (bdd.mustBuild (bdd.addInclusionRule (bdd.addItem (bdd.addItem
    (bdd.addItem (bdd.addItem bdd.builder 4 6) 4 5) 1 2) 1 3) 6 2)) 6).bind ok)) = some [(.Excluded 3),
    (.Excluded 5), (.Available 2), (.Selected 6)] :=
  by decide +kernel

/-! bowtie-core/src/bdd/closet/select.rs:198 `one_selection_families_2_items_4_selecting_two_same_family` -/
example : (bdd.select ((bdd.select (bdd.mustBuild (bdd.addItem (bdd.addItem (bdd.addItem (bdd.addItem
    bdd.builder 4 6) 4 5) 1 2) 1 3)) 6).bind ok) 5) = some (.error (.ExcludedItem 5)) :=
  by decide +kernel

/-! bowtie-core/src/bdd/closet/node_count.rs:84 `count_nodes_families_2_items_4` -/
example : (bdd.nodeCount (bdd.mustBuild (bdd.addItem (bdd.addItem (bdd.addItem (bdd.addItem bdd.builder 4 5)
    4 6) 1 2) 1 3))) = some 19 :=
  by decide +kernel
example : (bdd.leafCount (bdd.mustBuild (bdd.addItem (bdd.addItem (bdd.addItem (bdd.addItem bdd.builder 4 5)
    4 6) 1 2) 1 3))) = some 10 :=
  by decide +kernel
example : (bdd.outfitCount (bdd.mustBuild (bdd.addItem (bdd.addItem (bdd.addItem (bdd.addItem bdd.builder 4
    5) 4 6) 1 2) 1 3))) = some 4 :=
  by decide +kernel
example : (bdd.depth (bdd.mustBuild (bdd.addItem (bdd.addItem (bdd.addItem (bdd.addItem bdd.builder 4 5) 4 6)
    1 2) 1 3))) = some 5 :=
  by decide +kernel

/-! bowtie-core/src/bdd/closet/node_count.rs:109 `count_nodes_families_2_items_4_one_exclusion` -/
example : (bdd.nodeCount (bdd.mustBuild (bdd.addExclusionRule (bdd.addItem (bdd.addItem (bdd.addItem
    (bdd.addItem bdd.builder 4 5) 4 6) 1 2) 1 3) 5 2))) = some 17 :=
  by decide +kernel
example : (bdd.leafCount (bdd.mustBuild (bdd.addExclusionRule (bdd.addItem (bdd.addItem (bdd.addItem
    (bdd.addItem bdd.builder 4 5) 4 6) 1 2) 1 3) 5 2))) = some 9 :=
  by decide +kernel
example : (bdd.outfitCount (bdd.mustBuild (bdd.addExclusionRule (bdd.addItem (bdd.addItem (bdd.addItem
    (bdd.addItem bdd.builder 4 5) 4 6) 1 2) 1 3) 5 2))) = some 3 :=
  by decide +kernel
example : (bdd.depth (bdd.mustBuild (bdd.addExclusionRule (bdd.addItem (bdd.addItem (bdd.addItem (bdd.addItem
    bdd.builder 4 5) 4 6) 1 2) 1 3) 5 2))) = some 5 :=
  by decide +kernel

/-! bowtie-core/src/bdd/closet/node_count.rs:135 `count_nodes_families_2_items_16` -/
example : (bdd.nodeCount (bdd.mustBuild (bdd.addItem (bdd.addItem (bdd.addItem (bdd.addItem (bdd.addItem
    (bdd.addItem (bdd.addItem (bdd.addItem (bdd.addItem (bdd.addItem (bdd.addItem (bdd.addItem (bdd.addItem
    (bdd.addItem (bdd.addItem (bdd.addItem bdd.builder 10 11) 10 12) 10 13) 10 14) 10 15) 10 16) 10 17) 10
    18) 1 2) 1 3) 1 4) 1 5) 1 6) 1 7) 1 8) 1 9))) = some 649 :=
  by decide +kernel
example : (bdd.leafCount (bdd.mustBuild (bdd.addItem (bdd.addItem (bdd.addItem (bdd.addItem (bdd.addItem
    (bdd.addItem (bdd.addItem (bdd.addItem (bdd.addItem (bdd.addItem (bdd.addItem (bdd.addItem (bdd.addItem
    (bdd.addItem (bdd.addItem (bdd.addItem bdd.builder 10 11) 10 12) 10 13) 10 14) 10 15) 10 16) 10 17) 10
    18) 1 2) 1 3) 1 4) 1 5) 1 6) 1 7) 1 8) 1 9))) = some 325 :=
  by decide +kernel
example : (bdd.outfitCount (bdd.mustBuild (bdd.addItem (bdd.addItem (bdd.addItem (bdd.addItem (bdd.addItem
    (bdd.addItem (bdd.addItem (bdd.addItem (bdd.addItem (bdd.addItem (bdd.addItem (bdd.addItem (bdd.addItem
    (bdd.addItem (bdd.addItem (bdd.addItem bdd.builder 10 11) 10 12) 10 13) 10 14) 10 15) 10 16) 10 17) 10
    18) 1 2) 1 3) 1 4) 1 5) 1 6) 1 7) 1 8) 1 9))) = some 64 :=
  by decide +kernel
example : (bdd.depth (bdd.mustBuild (bdd.addItem (bdd.addItem (bdd.addItem (bdd.addItem (bdd.addItem
    (bdd.addItem (bdd.addItem (bdd.addItem (bdd.addItem (bdd.addItem (bdd.addItem (bdd.addItem (bdd.addItem
    (bdd.addItem (bdd.addItem (bdd.addItem bdd.builder 10 11) 10 12) 10 13) 10 14) 10 15) 10 16) 10 17) 10
    18) 1 2) 1 3) 1 4) 1 5) 1 6) 1 7) 1 8) 1 9))) = some 17 :=
  by decide +kernel

/-! bowtie-core/src/bdd/closet/node_count.rs:184 `count_nodes_families_4_items_16` -/
example : (bdd.nodeCount (bdd.mustBuild (bdd.addItem (bdd.addItem (bdd.addItem (bdd.addItem (bdd.addItem
    (bdd.addItem (bdd.addItem (bdd.addItem (bdd.addItem (bdd.addItem (bdd.addItem (bdd.addItem (bdd.addItem
    (bdd.addItem (bdd.addItem (bdd.addItem bdd.builder 6 7) 6 8) 6 9) 6 10) 1 2) 1 3) 1 4) 1 5) 16 17) 16 18)
    16 19) 16 20) 11 12) 11 13) 11 14) 11 15))) = some 1701 :=
  by decide +kernel
example : (bdd.leafCount (bdd.mustBuild (bdd.addItem (bdd.addItem (bdd.addItem (bdd.addItem (bdd.addItem
    (bdd.addItem (bdd.addItem (bdd.addItem (bdd.addItem (bdd.addItem (bdd.addItem (bdd.addItem (bdd.addItem
    (bdd.addItem (bdd.addItem (bdd.addItem bdd.builder 6 7) 6 8) 6 9) 6 10) 1 2) 1 3) 1 4) 1 5) 16 17) 16 18)
    16 19) 16 20) 11 12) 11 13) 11 14) 11 15))) = some 851 :=
  by decide +kernel
example : (bdd.outfitCount (bdd.mustBuild (bdd.addItem (bdd.addItem (bdd.addItem (bdd.addItem (bdd.addItem
    (bdd.addItem (bdd.addItem (bdd.addItem (bdd.addItem (bdd.addItem (bdd.addItem (bdd.addItem (bdd.addItem
    (bdd.addItem (bdd.addItem (bdd.addItem bdd.builder 6 7) 6 8) 6 9) 6 10) 1 2) 1 3) 1 4) 1 5) 16 17) 16 18)
    16 19) 16 20) 11 12) 11 13) 11 14) 11 15))) = some 256 :=
  by decide +kernel
example : (bdd.depth (bdd.mustBuild (bdd.addItem (bdd.addItem (bdd.addItem (bdd.addItem (bdd.addItem
    (bdd.addItem (bdd.addItem (bdd.addItem (bdd.addItem (bdd.addItem (bdd.addItem (bdd.addItem (bdd.addItem
    (bdd.addItem (bdd.addItem (bdd.addItem bdd.builder 6 7) 6 8) 6 9) 6 10) 1 2) 1 3) 1 4) 1 5) 16 17) 16 18)
    16 19) 16 20) 11 12) 11 13) 11 14) 11 15))) = some 17 :=
  by decide +kernel

/-! bowtie-core/src/bdd/closet/categorize.rs:28 `count_nodes_families_2_items_4` -/
example : (bdd.categorize (bdd.mustBuild (bdd.addItem (bdd.addItem (bdd.addItems bdd.builder 4 [5, 6]) 1 2) 1
    3)) [5, 6, 2, 3]) = some [(1, [2, 3]), (4, [5, 6])] :=
  by decide +kernel

/-! bowtie-core/src/bdd/closet_builder/mod.rs:127 `two_families_with_one_item_each` -/
example : (bdd.root (bdd.mustBuild (bdd.addItem (bdd.addItem bdd.builder 3 4) 1 2))) = some (bdd.branch 2
    bdd.F (bdd.pos 4)) :=
  by decide +kernel
example : (bdd.root ((bdd.select ((bdd.select (bdd.mustBuild (bdd.addItem (bdd.addItem bdd.builder 3 4) 1 2))
    2).bind ok) 4).bind ok)) = some bdd.T :=
  by decide +kernel
example : (bdd.root ((bdd.select (bdd.mustBuild (bdd.addItem (bdd.addItem bdd.builder 3 4) 1 2)) 4).bind ok))
    = some (bdd.pos 2) :=
  by decide +kernel
example : (bdd.root ((bdd.select (bdd.mustBuild (bdd.addItem (bdd.addItem bdd.builder 3 4) 1 2)) 2).bind ok))
    = some (bdd.pos 4) :=
  by decide +kernel

/-! bowtie-core/src/bdd/closet_builder/mod.rs:179 `one_family_with_two_items` -/
example : (bdd.root (bdd.mustBuild (bdd.addItem (bdd.addItem bdd.builder 1 3) 1 2))) = some (bdd.branch 2
    (bdd.pos 3) (bdd.neg 3)) :=
  by decide +kernel
example : (bdd.root ((bdd.select (bdd.mustBuild (bdd.addItem (bdd.addItem bdd.builder 1 3) 1 2)) 3).bind ok))
    = some (bdd.neg 2) :=
  by decide +kernel
example : (bdd.root ((bdd.select (bdd.mustBuild (bdd.addItem (bdd.addItem bdd.builder 1 3) 1 2)) 2).bind ok))
    = some (bdd.neg 3) :=
  by decide +kernel

/-! bowtie-core/src/bdd/closet_builder/mod.rs:219 `two_families_with_two_items` -/
example : (bdd.root (bdd.mustBuild (bdd.addItem (bdd.addItem (bdd.addItem (bdd.addItem bdd.builder 4 6) 4 5)
    1 2) 1 3))) = some (bdd.branch 2 (bdd.branch 3 bdd.F (bdd.branch 5 (bdd.pos 6) (bdd.neg 6))) (bdd.branch
    3 (bdd.branch 5 (bdd.pos 6) (bdd.neg 6)) bdd.F)) :=
  by decide +kernel
example : (bdd.root ((bdd.select (bdd.mustBuild (bdd.addItem (bdd.addItem (bdd.addItem (bdd.addItem
    bdd.builder 4 6) 4 5) 1 2) 1 3)) 6).bind ok)) = some (bdd.branch 2 (bdd.and (bdd.pos 3) (bdd.neg 5))
    (bdd.and (bdd.neg 3) (bdd.neg 5))) :=
  by decide +kernel
example : (bdd.root ((bdd.select (bdd.mustBuild (bdd.addItem (bdd.addItem (bdd.addItem (bdd.addItem
    bdd.builder 4 6) 4 5) 1 2) 1 3)) 5).bind ok)) = some (bdd.branch 2 (bdd.and (bdd.pos 3) (bdd.neg 6))
    (bdd.and (bdd.neg 3) (bdd.neg 6))) :=
  by decide +kernel

/-! bowtie-core/src/bdd/closet_builder/mod.rs:279 `one_families_with_three_items` -/
example : (bdd.root (bdd.mustBuild (bdd.addItem (bdd.addItem (bdd.addItem bdd.builder 1 4) 1 3) 1 2))) = some
    (bdd.branch 2 (bdd.branch 3 (bdd.pos 4) (bdd.neg 4)) (bdd.branch 3 (bdd.neg 4) bdd.F)) :=
  by decide +kernel

/-! bowtie-core/src/bdd/closet_builder/mod.rs:308 `one_families_with_four_items` -/
example : (bdd.root (bdd.mustBuild (bdd.addItem (bdd.addItem (bdd.addItem (bdd.addItem bdd.builder 1 5) 1 3)
    1 2) 1 4))) = some (bdd.branch 2 (bdd.branch 3 (bdd.branch 4 (bdd.pos 5) (bdd.neg 5)) (bdd.branch 4
    (bdd.neg 5) bdd.F)) (bdd.branch 3 (bdd.branch 4 (bdd.neg 5) bdd.F) bdd.F)) :=
  by decide +kernel

/-! bowtie-core/src/bdd/closet_builder/mod.rs:341 `one_families_with_five_items` -/
example : (bdd.root (bdd.mustBuild (bdd.addItem (bdd.addItem (bdd.addItem (bdd.addItem (bdd.addItem
    bdd.builder 1 6) 1 3) 1 2) 1 5) 1 4))) = some (bdd.branch 2 (bdd.branch 3 (bdd.branch 4 (bdd.branch 5
    (bdd.pos 6) (bdd.neg 6)) (bdd.branch 5 (bdd.neg 6) bdd.F)) (bdd.branch 4 (bdd.branch 5 (bdd.neg 6) bdd.F)
    bdd.F)) (bdd.branch 3 (bdd.branch 4 (bdd.branch 5 (bdd.neg 6) bdd.F) bdd.F) bdd.F)) :=
  by decide +kernel

/-! bowtie-core/src/bdd/closet_builder/mod.rs:386 `exclusion_rule_produces_expected_bdd` -/
example : (bdd.root (bdd.mustBuild (bdd.addExclusionRule (bdd.addItem (bdd.addItem (bdd.addItem (bdd.addItem
    bdd.builder 4 6) 4 5) 1 3) 1 2) 6 2))) = some (bdd.and (bdd.and (bdd.xor (bdd.pos 6) (bdd.pos 5))
    (bdd.xor (bdd.pos 3) (bdd.pos 2))) (bdd.or (bdd.neg 6) (bdd.neg 2))) :=
  by decide +kernel

/-! bowtie-core/src/bdd/closet_builder/mod.rs:421 `selecting_red_disallows_selecting_jeans` -/
example : (bdd.root ((bdd.select (bdd.mustBuild (bdd.addExclusionRule (bdd.addItem (bdd.addItem (bdd.addItem
    (bdd.addItem bdd.builder 4 6) 4 5) 1 3) 1 2) 6 2)) 6).bind ok)) = some (bdd.and (bdd.and (bdd.neg 2)
    (bdd.pos 3)) (bdd.neg 5)) :=
  by decide +kernel

/-! bowtie-core/src/bdd/closet_builder/mod.rs:451 `selecting_jeans_does_not_allow_selecting_red` -/
example : (bdd.root ((bdd.select (bdd.mustBuild (bdd.addExclusionRule (bdd.addItem (bdd.addItem (bdd.addItem
    (bdd.addItem bdd.builder 4 6) 4 5) 1 3) 1 2) 6 2)) 2).bind ok)) = some (bdd.and (bdd.and (bdd.pos 5)
    (bdd.neg 6)) (bdd.neg 3)) :=
  by decide +kernel

/-! bowtie-core/src/bdd/closet_builder/mod.rs:481 `selecting_blue_does_not_exclude_any_selection` -/
example : (bdd.root ((bdd.select (bdd.mustBuild (bdd.addExclusionRule (bdd.addItem (bdd.addItem (bdd.addItem
    (bdd.addItem bdd.builder 4 6) 4 5) 1 3) 1 2) 6 2)) 5).bind ok)) = some (bdd.xor (bdd.pos 3) (bdd.and
    (bdd.pos 2) (bdd.neg 6))) :=
  by decide +kernel

/-! bowtie-core/src/bdd/closet_builder/mod.rs:511 `selecting_slacks_does_not_exclude_any_selection` -/
example : (bdd.root ((bdd.select (bdd.mustBuild (bdd.addExclusionRule (bdd.addItem (bdd.addItem (bdd.addItem
    (bdd.addItem bdd.builder 4 6) 4 5) 1 3) 1 2) 6 2)) 3).bind ok)) = some (bdd.and (bdd.xor (bdd.pos 5)
    (bdd.pos 6)) (bdd.neg 2)) :=
  by decide +kernel

/-! bowtie-core/src/bdd/closet_builder/mod.rs:549 `inclusion_rule_produces_expected_bdd` -/
example : (bdd.root (bdd.mustBuild (bdd.addInclusionRule (bdd.addItem (bdd.addItem (bdd.addItem (bdd.addItem
    bdd.builder 4 6) 4 5) 1 3) 1 2) 6 2))) = some (bdd.and (bdd.and (bdd.xor (bdd.pos 6) (bdd.pos 5))
    (bdd.xor (bdd.pos 3) (bdd.pos 2))) (bdd.or (bdd.neg 6) (bdd.pos 2))) :=
  by decide +kernel

/-! bowtie-core/src/bdd/closet_builder/mod.rs:584 `selecting_red_requires_selecting_jeans` -/
example : (bdd.root ((bdd.select (bdd.mustBuild (bdd.addInclusionRule (bdd.addItem (bdd.addItem (bdd.addItem
    (bdd.addItem bdd.builder 4 6) 4 5) 1 3) 1 2) 6 2)) 6).bind ok)) = some (bdd.and (bdd.and (bdd.neg 3)
    (bdd.pos 2)) (bdd.neg 5)) :=
  by decide +kernel

/-! bowtie-core/src/bdd/closet_builder/mod.rs:614 `selecting_blue_does_not_require_any_selection` -/
example : (bdd.root ((bdd.select (bdd.mustBuild (bdd.addInclusionRule (bdd.addItem (bdd.addItem (bdd.addItem
    (bdd.addItem bdd.builder 4 6) 4 5) 1 3) 1 2) 6 2)) 5).bind ok)) = some (bdd.xor (bdd.pos 3) (bdd.and
    (bdd.pos 2) (bdd.neg 6))) :=
  by decide +kernel

/-! bowtie-core/src/bdd/closet_builder/mod.rs:644 `selecting_jeans_does_not_require_any_selection` -/
example : (bdd.root ((bdd.select (bdd.mustBuild (bdd.addInclusionRule (bdd.addItem (bdd.addItem (bdd.addItem
    (bdd.addItem bdd.builder 4 6) 4 5) 1 3) 1 2) 6 2)) 2).bind ok)) = some (bdd.and (bdd.xor (bdd.pos 5)
    (bdd.pos 6)) (bdd.neg 3)) :=
  by decide +kernel

/-! bowtie-core/src/bdd/closet_builder/mod.rs:674 `selecting_slacks_does_not_require_any_selection` -/
example : (bdd.root ((bdd.select (bdd.mustBuild (bdd.addInclusionRule (bdd.addItem (bdd.addItem (bdd.addItem
    (bdd.addItem bdd.builder 4 6) 4 5) 1 3) 1 2) 6 2)) 3).bind ok)) = some (bdd.and (bdd.and (bdd.pos 5)
    (bdd.neg 6)) (bdd.neg 2)) :=
  by decide +kernel

/-! bowtie-core/tests/closet_builder_bdd.rs:11 `adding_item_to_two_families_returns_error` -/
example : (err (bdd.build (bdd.addItem (bdd.addItem bdd.builder 2 3) 1 3))) = some (.Single
    (.ConflictingFamilies 3 [2, 1])) :=
  by decide +kernel

/-! bowtie-core/tests/closet_builder_bdd.rs:31 `include_rule_on_same_family_returns_error` -/
example : (err (bdd.build (bdd.addInclusionRule (bdd.addItem (bdd.addItem (bdd.addItem (bdd.addItem
    bdd.builder 4 5) 4 6) 1 2) 1 3) 5 6))) = some (.Single (.InclusionError 4 [5, 6])) :=
  by decide +kernel

/-! bowtie-core/tests/closet_builder_bdd.rs:58 `include_rule_on_unknown_item_returns_error` -/
example : (err (bdd.build (bdd.addInclusionRule (bdd.addItem (bdd.addItem (bdd.addItem (bdd.addItem
    bdd.builder 4 5) 4 7) 1 2) 1 3) 6 2))) = some (.Single (.MissingFamily 6)) :=
  by decide +kernel

/-! bowtie-core/tests/closet_builder_bdd.rs:86 `exclude_rule_on_same_family_returns_error` -/
example : (err (bdd.build (bdd.addExclusionRule (bdd.addItem (bdd.addItem (bdd.addItem (bdd.addItem
    bdd.builder 4 5) 4 6) 1 2) 1 3) 5 6))) = some (.Single (.ExclusionError 4 [5, 6])) :=
  by decide +kernel

/-! bowtie-core/tests/closet_builder_bdd.rs:113 `exclude_rule_on_unknown_item_returns_error` -/
example : (err (bdd.build (bdd.addExclusionRule (bdd.addExclusionRule (bdd.addItem (bdd.addItem (bdd.addItem
    (bdd.addItem bdd.builder 4 5) 4 7) 1 2) 1 3) 6 2) 3 6))) = some (.Single (.MissingFamily 6)) :=
  by decide +kernel

/-! bowtie-core/tests/complete_outfit_bdd.rs:14 `no_rules_no_selections` -/
example : (bdd.complete (bdd.mustBuild (bdd.addItem (bdd.addItem (bdd.addItem (bdd.addItem (bdd.addItem
    bdd.builder 4 5) 4 7) 4 6) 1 2) 1 3)) []) = some (.ok [2, 5]) :=
  by decide +kernel

/-! bowtie-core/tests/complete_outfit_bdd.rs:41 `no_rules_one_selection` -/
example : (bdd.complete (bdd.mustBuild (bdd.addItem (bdd.addItem (bdd.addItem (bdd.addItem bdd.builder 4 5) 4
    6) 1 2) 1 3)) [6]) = some (.ok [2, 6]) :=
  by decide +kernel

/-! bowtie-core/tests/complete_outfit_bdd.rs:66 `no_rules_selection_for_each_family` -/
example : (bdd.complete (bdd.mustBuild (bdd.addItem (bdd.addItem (bdd.addItem (bdd.addItem bdd.builder 4 5) 4
    6) 1 2) 1 3)) [3, 5]) = some (.ok [3, 5]) :=
  by decide +kernel

/-! bowtie-core/tests/complete_outfit_bdd.rs:91 `no_rules_unknown_selection` -/
example : (bdd.complete (bdd.mustBuild (bdd.addItem (bdd.addItem (bdd.addItem (bdd.addItem bdd.builder 4 6) 4
    7) 1 2) 1 3)) [2, 5]) = some (.error (.UnknownItems [5])) :=
  by decide +kernel

/-! bowtie-core/tests/complete_outfit_bdd.rs:117 `no_rules_more_selections_than_families` -/
example : (bdd.complete (bdd.mustBuild (bdd.addItem (bdd.addItem (bdd.addItem (bdd.addItem bdd.builder 4 5) 4
    6) 1 2) 1 3)) [2, 5, 3]) = some (.error (.MultipleItemsPerFamily [(1, [2, 3])])) :=
  by decide +kernel

/-! bowtie-core/tests/complete_outfit_bdd.rs:157 `exclusion_rule_with_one_selection` -/
example : (bdd.complete (bdd.mustBuild (bdd.addExclusionRule (bdd.addItem (bdd.addItem (bdd.addItem
    (bdd.addItem bdd.builder 4 5) 4 6) 1 2) 1 3) 5 2)) [5]) = some (.ok [3, 5]) :=
  by decide +kernel
example : (bdd.complete (bdd.mustBuild (bdd.addExclusionRule (bdd.addItem (bdd.addItem (bdd.addItem
    (bdd.addItem bdd.builder 4 5) 4 6) 1 2) 1 3) 5 2)) [2]) = some (.ok [2, 6]) :=
  by decide +kernel

/-! bowtie-core/tests/complete_outfit_bdd.rs:189 `exclusion_rule_with_conflicting_selection` -/
example : (bdd.complete (bdd.mustBuild (bdd.addExclusionRule (bdd.addItem (bdd.addItem (bdd.addItem
    (bdd.addItem bdd.builder 4 5) 4 6) 1 2) 1 3) 5 2)) [5, 2]) = some (.error (.IncompatibleSelections [2,
    5])) :=
  by decide +kernel

/-! bowtie-core/tests/complete_outfit_bdd.rs:215 `exclusion_rules_with_impossible_selection` -/
example : (bdd.complete (bdd.mustBuild (bdd.addExclusionRule (bdd.addExclusionRule (bdd.addItem (bdd.addItem
    (bdd.addItem (bdd.addItem bdd.builder 4 5) 4 6) 1 2) 1 3) 5 2) 5 3)) [5]) = some (.error
    (.IncompatibleSelections [5])) :=
  by decide +kernel

/-! bowtie-core/tests/complete_outfit_bdd.rs:250 `inclusion_rule_with_one_selection` -/
example : (bdd.complete (bdd.mustBuild (bdd.addItem (bdd.addItem (bdd.addItem (bdd.addItem bdd.builder 4 5) 4
    6) 1 2) 1 3)) []) = some (.ok [2, 5]) :=
  by decide +kernel
example : (bdd.complete (bdd.mustBuild (bdd.addInclusionRule (bdd.addItem (bdd.addItem (bdd.addItem
    (bdd.addItem bdd.builder 4 5) 4 6) 1 2) 1 3) 2 6)) []) = some (.ok [2, 6]) :=
  by decide +kernel

/-! bowtie-core/tests/complete_outfit_bdd.rs:290 `inclusion_rule_is_one_way` -/
example : (bdd.complete (bdd.mustBuild (bdd.addInclusionRule (bdd.addItem (bdd.addItem (bdd.addItem
    (bdd.addItem bdd.builder 4 5) 4 6) 1 2) 1 3) 6 3)) [3]) = some (.ok [3, 5]) :=
  by decide +kernel

/-! bowtie-core/tests/complete_outfit_bdd.rs:324 `three_families_eight_items` -/
example : (bdd.complete (bdd.mustBuild (bdd.addItem (bdd.addItem (bdd.addItem (bdd.addItem (bdd.addItem
    (bdd.addItem (bdd.addItem (bdd.addItem bdd.builder 4 5) 4 7) 4 6) 1 2) 1 3) 8 9) 8 10) 8 11)) []) = some
    (.ok [2, 5, 9]) :=
  by decide +kernel

end Verif.Conform.ReplayCloset
