import Verif.Conform.ApiMore

/-!
# The repository's own tests, replayed on the model (Zdd1)

Generated by tools/conform2.py from the test functions cited; items are ranks of string literals.
-/

namespace Verif.Conform.ReplayZdd1
open Verif.Conform

set_option maxRecDepth 4000

/-! weave/src/zdd/tree/mod.rs:150 `universe_can_create_empty_tree` -/
example : (zdd1.combinations (zdd1.emptyTree zdd1.default)) = [] :=
  by decide +kernel

/-! weave/src/zdd/tree/mod.rs:161 `universe_can_create_unit_tree` -/
example : (zdd1.combinations (zdd1.unitTree zdd1.default)) = [[]] :=
  by decide +kernel

/-! weave/src/zdd/tree/mod.rs:172 `universe_can_create_tree_that_represents_a_set_of_none` -/
example : (zdd1.tree zdd1.default []) = (zdd1.unitTree zdd1.default) :=
  by decide +kernel
example : (zdd1.combinations (zdd1.tree zdd1.default [])) = [[]] :=
  by decide +kernel

/-! weave/src/zdd/tree/mod.rs:187 `universe_can_create_tree_that_represents_a_set_of_one` -/
example : (zdd1.combinations (zdd1.tree (zdd1.items [1]) [1])) = [[1]] :=
  by decide +kernel

/-! weave/src/zdd/tree/mod.rs:199 `universe_can_create_tree_that_represents_a_set_of_multiple` -/
example : (zdd1.combinations (zdd1.tree (zdd1.items [1, 2]) [1, 2])) = [[1, 2]] :=
  by decide +kernel

/-! weave/src/zdd/tree/mod.rs:213
    `universe_can_create_tree_that_represents_an_empty_set_unknown_items_are_ignored` -/
example : (zdd1.tree zdd1.default [1, 2]) = (zdd1.unitTree zdd1.default) :=
  by decide +kernel
example : (zdd1.combinations (zdd1.tree zdd1.default [1, 2])) = [[]] :=
  by decide +kernel

/-! weave/src/zdd/tree/mod.rs:231 `universe_can_create_tree_that_represents_a_set_unknown_items_are_ignored`
    -/
example : (zdd1.combinations (zdd1.tree (zdd1.items [1]) [1, 2])) = [[1]] :=
  by decide +kernel

/-! weave/src/zdd/tree/intersect.rs:48 `intersect_returns_tree_that_has_shared_combination` -/
example : (zdd1.combinations (zdd1.intersect (zdd1.tree (zdd1.items [1, 2]) [1, 2]) (zdd1.tree (zdd1.items
    [1, 2]) [2]))) = [[1, 2]] :=
  by decide +kernel
example : (zdd1.combinations (zdd1.intersect (zdd1.tree (zdd1.items [1, 2]) [2]) (zdd1.tree (zdd1.items [1,
    2]) [1, 2]))) = [[1, 2]] :=
  by decide +kernel
example : (zdd1.intersect (zdd1.tree (zdd1.items [1, 2]) [2]) (zdd1.tree (zdd1.items [1, 2]) [1, 2])) =
    (zdd1.hyperTree (zdd1.items [1, 2]) [[1, 2]]) :=
  by decide +kernel

/-! weave/src/zdd/tree/intersect.rs:76 `intersect_returns_identity_when_trees_are_equal` -/
example : (zdd1.combinations (zdd1.intersect (zdd1.tree (zdd1.items [1, 2]) [1]) (zdd1.tree (zdd1.items [1,
    2]) [1]))) = [[1]] :=
  by decide +kernel
example : (zdd1.combinations (zdd1.intersect (zdd1.tree (zdd1.items [1, 2]) [1]) (zdd1.tree (zdd1.items [1,
    2]) [1]))) = [[1]] :=
  by decide +kernel
example : (zdd1.intersect (zdd1.tree (zdd1.items [1, 2]) [1]) (zdd1.tree (zdd1.items [1, 2]) [1])) =
    (zdd1.hyperTree (zdd1.items [1, 2]) [[1]]) :=
  by decide +kernel

/-! weave/src/zdd/tree/intersect.rs:104 `intersect_returns_empty_when_one_tree_is_empty` -/
example : (zdd1.combinations (zdd1.intersect (zdd1.emptyTree (zdd1.items [1, 2])) (zdd1.tree (zdd1.items [1,
    2]) [1]))) = [] :=
  by decide +kernel
example : (zdd1.combinations (zdd1.intersect (zdd1.tree (zdd1.items [1, 2]) [1]) (zdd1.emptyTree (zdd1.items
    [1, 2])))) = [] :=
  by decide +kernel
example : (zdd1.intersect (zdd1.tree (zdd1.items [1, 2]) [1]) (zdd1.emptyTree (zdd1.items [1, 2]))) =
    (zdd1.hyperTree (zdd1.items [1, 2]) []) :=
  by decide +kernel

/-! weave/src/zdd/tree/intersect.rs:132 `intersect_returns_unit_when_one_tree_is_unit` -/
example : (zdd1.combinations (zdd1.intersect (zdd1.unitTree (zdd1.items [1, 2])) (zdd1.tree (zdd1.items [1,
    2]) [1]))) = [[1]] :=
  by decide +kernel
example : (zdd1.combinations (zdd1.intersect (zdd1.tree (zdd1.items [1, 2]) [1]) (zdd1.unitTree (zdd1.items
    [1, 2])))) = [[1]] :=
  by decide +kernel
example : (zdd1.intersect (zdd1.tree (zdd1.items [1, 2]) [1]) (zdd1.unitTree (zdd1.items [1, 2]))) =
    (zdd1.hyperTree (zdd1.items [1, 2]) [[1]]) :=
  by decide +kernel

/-! weave/src/zdd/tree/intersect.rs:160 `intersect_returns_unit_when_both_trees_are_unit` -/
example : (zdd1.combinations (zdd1.intersect (zdd1.unitTree zdd1.default) (zdd1.unitTree zdd1.default))) =
    [[]] :=
  by decide +kernel
example : (zdd1.intersect (zdd1.unitTree zdd1.default) (zdd1.unitTree zdd1.default)) = (zdd1.hyperTree
    zdd1.default [[]]) :=
  by decide +kernel

/-! weave/src/zdd/tree/intersect.rs:179 `intersect_returns_empty_when_both_trees_are_empty` -/
example : (zdd1.combinations (zdd1.intersect (zdd1.emptyTree zdd1.default) (zdd1.emptyTree zdd1.default))) =
    [] :=
  by decide +kernel
example : (zdd1.intersect (zdd1.emptyTree zdd1.default) (zdd1.emptyTree zdd1.default)) = (zdd1.hyperTree
    zdd1.default []) :=
  by decide +kernel

/-! weave/src/zdd/tree/intersect.rs:198
    `intersect_returns_empty_when_there_are_no_common_combinations_THIS_MIGHT_BE_A_BUG` -/
example : (zdd1.combinations (zdd1.intersect (zdd1.tree (zdd1.items [1, 2, 3]) [1, 2]) (zdd1.tree (zdd1.items
    [1, 2, 3]) [3]))) = [[1, 2, 3]] :=
  by decide +kernel
example : (zdd1.combinations (zdd1.intersect (zdd1.tree (zdd1.items [1, 2, 3]) [3]) (zdd1.tree (zdd1.items
    [1, 2, 3]) [1, 2]))) = [[1, 2, 3]] :=
  by decide +kernel
example : (zdd1.intersect (zdd1.tree (zdd1.items [1, 2, 3]) [3]) (zdd1.tree (zdd1.items [1, 2, 3]) [1, 2])) =
    (zdd1.hyperTree (zdd1.items [1, 2, 3]) [[1, 2, 3]]) :=
  by decide +kernel

/-! weave/src/zdd/tree/intersect.rs:227
    `intersect_returns_empty_when_there_are_no_common_items_THIS_MIGHT_BE_A_BUG` -/
example : (zdd1.combinations (zdd1.intersect (zdd1.tree (zdd1.items [1, 2]) [1]) (zdd1.tree (zdd1.items [1,
    2]) [2]))) = [[1, 2]] :=
  by decide +kernel
example : (zdd1.combinations (zdd1.intersect (zdd1.tree (zdd1.items [1, 2]) [2]) (zdd1.tree (zdd1.items [1,
    2]) [1]))) = [[1, 2]] :=
  by decide +kernel
example : (zdd1.intersect (zdd1.tree (zdd1.items [1, 2]) [2]) (zdd1.tree (zdd1.items [1, 2]) [1])) =
    (zdd1.hyperTree (zdd1.items [1, 2]) [[1, 2]]) :=
  by decide +kernel

/-! weave/src/zdd/tree/union.rs:60 `union_returns_tree_that_has_both_combinations` -/
example : (zdd1.combinations (zdd1.union (zdd1.tree (zdd1.items [1, 2]) [1]) (zdd1.tree (zdd1.items [1, 2])
    [2]))) = [[1], [2]] :=
  by decide +kernel
example : (zdd1.combinations (zdd1.union (zdd1.tree (zdd1.items [1, 2]) [2]) (zdd1.tree (zdd1.items [1, 2])
    [1]))) = [[1], [2]] :=
  by decide +kernel
example : (zdd1.union (zdd1.tree (zdd1.items [1, 2]) [2]) (zdd1.tree (zdd1.items [1, 2]) [1])) =
    (zdd1.hyperTree (zdd1.items [1, 2]) [[1], [2]]) :=
  by decide +kernel

/-! weave/src/zdd/tree/union.rs:88 `union_returns_identity_when_trees_are_equal` -/
example : (zdd1.combinations (zdd1.union (zdd1.tree (zdd1.items [1, 2]) [1]) (zdd1.tree (zdd1.items [1, 2])
    [1]))) = [[1]] :=
  by decide +kernel
example : (zdd1.combinations (zdd1.union (zdd1.tree (zdd1.items [1, 2]) [1]) (zdd1.tree (zdd1.items [1, 2])
    [1]))) = [[1]] :=
  by decide +kernel
example : (zdd1.union (zdd1.tree (zdd1.items [1, 2]) [1]) (zdd1.tree (zdd1.items [1, 2]) [1])) =
    (zdd1.hyperTree (zdd1.items [1, 2]) [[1]]) :=
  by decide +kernel

/-! weave/src/zdd/tree/union.rs:116 `union_returns_identity_when_one_tree_is_empty` -/
example : (zdd1.combinations (zdd1.union (zdd1.emptyTree (zdd1.items [1, 2])) (zdd1.tree (zdd1.items [1, 2])
    [1]))) = [[1]] :=
  by decide +kernel
example : (zdd1.combinations (zdd1.union (zdd1.tree (zdd1.items [1, 2]) [1]) (zdd1.emptyTree (zdd1.items [1,
    2])))) = [[1]] :=
  by decide +kernel
example : (zdd1.union (zdd1.tree (zdd1.items [1, 2]) [1]) (zdd1.emptyTree (zdd1.items [1, 2]))) =
    (zdd1.hyperTree (zdd1.items [1, 2]) [[1]]) :=
  by decide +kernel

/-! weave/src/zdd/tree/union.rs:144 `union_returns_correct_when_one_tree_is_unit` -/
example : (zdd1.combinations (zdd1.union (zdd1.unitTree (zdd1.items [1, 2])) (zdd1.tree (zdd1.items [1, 2])
    [1]))) = [[], [1]] :=
  by decide +kernel
example : (zdd1.combinations (zdd1.union (zdd1.tree (zdd1.items [1, 2]) [1]) (zdd1.unitTree (zdd1.items [1,
    2])))) = [[], [1]] :=
  by decide +kernel
example : (zdd1.union (zdd1.tree (zdd1.items [1, 2]) [1]) (zdd1.unitTree (zdd1.items [1, 2]))) =
    (zdd1.hyperTree (zdd1.items [1, 2]) [[1], []]) :=
  by decide +kernel

/-! weave/src/zdd/tree/union.rs:172 `union_returns_unit_when_both_trees_are_unit` -/
example : (zdd1.combinations (zdd1.union (zdd1.unitTree zdd1.default) (zdd1.unitTree zdd1.default))) = [[]] :=
  by decide +kernel
example : (zdd1.union (zdd1.unitTree zdd1.default) (zdd1.unitTree zdd1.default)) = (zdd1.hyperTree
    zdd1.default [[]]) :=
  by decide +kernel

/-! weave/src/zdd/tree/union.rs:191 `union_returns_empty_when_both_trees_are_empty` -/
example : (zdd1.combinations (zdd1.union (zdd1.emptyTree zdd1.default) (zdd1.emptyTree zdd1.default))) = [] :=
  by decide +kernel
example : (zdd1.union (zdd1.emptyTree zdd1.default) (zdd1.emptyTree zdd1.default)) = (zdd1.hyperTree
    zdd1.default []) :=
  by decide +kernel

/-! weave/src/zdd/tree/product.rs:48 `product_returns_tree_that_has_correct_combination` -/
example : (zdd1.combinations (zdd1.product (zdd1.tree (zdd1.items [1, 2]) [1]) (zdd1.tree (zdd1.items [1, 2])
    [2]))) = [[1, 2]] :=
  by decide +kernel
example : (zdd1.combinations (zdd1.product (zdd1.tree (zdd1.items [1, 2]) [2]) (zdd1.tree (zdd1.items [1, 2])
    [1]))) = [[1, 2]] :=
  by decide +kernel
example : (zdd1.product (zdd1.tree (zdd1.items [1, 2]) [2]) (zdd1.tree (zdd1.items [1, 2]) [1])) =
    (zdd1.hyperTree (zdd1.items [1, 2]) [[1, 2]]) :=
  by decide +kernel

/-! weave/src/zdd/tree/product.rs:76 `product_returns_tree_that_has_correct_combinations_one` -/
example : (zdd1.combinations (zdd1.product (zdd1.uniqueTree (zdd1.items [1, 2, 3, 4]) [1, 2, 3])
    (zdd1.uniqueTree (zdd1.items [1, 2, 3, 4]) [4]))) = [[1, 4], [2, 4], [3, 4]] :=
  by decide +kernel
example : (zdd1.combinations (zdd1.product (zdd1.uniqueTree (zdd1.items [1, 2, 3, 4]) [4]) (zdd1.uniqueTree
    (zdd1.items [1, 2, 3, 4]) [1, 2, 3]))) = [[1, 4], [2, 4], [3, 4]] :=
  by decide +kernel
example : (zdd1.product (zdd1.uniqueTree (zdd1.items [1, 2, 3, 4]) [4]) (zdd1.uniqueTree (zdd1.items [1, 2,
    3, 4]) [1, 2, 3])) = (zdd1.hyperTree (zdd1.items [1, 2, 3, 4]) [[1, 4], [2, 4], [3, 4]]) :=
  by decide +kernel

/-! weave/src/zdd/tree/product.rs:116 `product_returns_tree_that_has_correct_combinations_many` -/
example : (zdd1.combinations (zdd1.product (zdd1.uniqueTree (zdd1.items [1, 2, 3, 4]) [1, 2])
    (zdd1.uniqueTree (zdd1.items [1, 2, 3, 4]) [3, 4]))) = [[1, 3], [1, 4], [2, 3], [2, 4]] :=
  by decide +kernel
example : (zdd1.combinations (zdd1.product (zdd1.uniqueTree (zdd1.items [1, 2, 3, 4]) [3, 4])
    (zdd1.uniqueTree (zdd1.items [1, 2, 3, 4]) [1, 2]))) = [[1, 3], [1, 4], [2, 3], [2, 4]] :=
  by decide +kernel
example : (zdd1.product (zdd1.uniqueTree (zdd1.items [1, 2, 3, 4]) [3, 4]) (zdd1.uniqueTree (zdd1.items [1,
    2, 3, 4]) [1, 2])) = (zdd1.hyperTree (zdd1.items [1, 2, 3, 4]) [[1, 3], [1, 4], [2, 3], [2, 4]]) :=
  by decide +kernel

/-! weave/src/zdd/tree/combinations.rs:63 `hyper_tree_with_two_sets_with_no_overlap` -/
example : (zdd1.combinationsRecursive (zdd1.hyperTree (zdd1.items [1, 2]) [[1], [2]])) = [[1], [2]] :=
  by decide +kernel
example : (zdd1.combinations (zdd1.hyperTree (zdd1.items [1, 2]) [[1], [2]])) = [[1], [2]] :=
  by decide +kernel
example : (zdd1.combinationsWith (zdd1.hyperTree (zdd1.items [1, 2]) [[1], [2]]) [] [2]) = [[1]] :=
  by decide +kernel
example : (zdd1.combinationsWith (zdd1.hyperTree (zdd1.items [1, 2]) [[1], [2]]) [1] []) = [[1]] :=
  by decide +kernel

/-! weave/src/zdd/tree/combinations.rs:95 `unique_tree_with_two_sets_with_no_overlap` -/
example : (zdd1.combinationsRecursive (zdd1.uniqueTree (zdd1.items [1, 2]) [1, 2, 2])) = [[1], [2]] :=
  by decide +kernel
example : (zdd1.combinations (zdd1.uniqueTree (zdd1.items [1, 2]) [1, 2, 2])) = [[1], [2]] :=
  by decide +kernel
example : (zdd1.combinationsWith (zdd1.uniqueTree (zdd1.items [1, 2]) [1, 2, 2]) [] [2]) = [[1]] :=
  by decide +kernel
example : (zdd1.combinationsWith (zdd1.uniqueTree (zdd1.items [1, 2]) [1, 2, 2]) [1] []) = [[1]] :=
  by decide +kernel

/-! weave/src/zdd/tree/combinations.rs:128 `tree_with_two_sets_with_one_overlap` -/
example : (zdd1.combinations (zdd1.hyperTree (zdd1.items [1, 2, 3]) [[1, 2], [2, 3]])) = [[1, 2], [2, 3]] :=
  by decide +kernel
example : (zdd1.combinationsWith (zdd1.hyperTree (zdd1.items [1, 2, 3]) [[1, 2], [2, 3]]) [] [2]) = [] :=
  by decide +kernel
example : (zdd1.combinationsWith (zdd1.hyperTree (zdd1.items [1, 2, 3]) [[1, 2], [2, 3]]) [] [1]) = [[2, 3]]
    :=
  by decide +kernel
example : (zdd1.combinationsWith (zdd1.hyperTree (zdd1.items [1, 2, 3]) [[1, 2], [2, 3]]) [1] []) = [[1, 2]]
    :=
  by decide +kernel

/-! weave/src/zdd/tree/restrict.rs:6
    `restrict_returns_tree_that_has_no_combinations_when_requiring_an_item_that_does_not_exist` -/
example : (zdd1.combinations (zdd1.restrict (zdd1.hyperTree (zdd1.items [1, 2]) [[1]]) [2] [])) = [] :=
  by decide +kernel

/-! weave/src/zdd/tree/restrict.rs:23 `restrict_returns_tree_that_has_no_combinations_when_requiring` -/
example : (zdd1.combinations (zdd1.restrict (zdd1.hyperTree (zdd1.items [1, 2]) [[1], [2]]) [1, 2] [])) = []
    :=
  by decide +kernel

/-! weave/src/zdd/tree/restrict.rs:41 `restrict_returns_tree_that_has_one_combination_when_requiring` -/
example : (zdd1.combinations (zdd1.restrict (zdd1.hyperTree (zdd1.items [1, 2]) [[1], [2]]) [1] [])) = [[1]]
    :=
  by decide +kernel

/-! weave/src/zdd/tree/restrict.rs:59 `restrict_returns_tree_that_has_many_combination_when_requiring` -/
example : (zdd1.combinations (zdd1.restrict (zdd1.hyperTree (zdd1.items [1, 2, 3]) [[1], [2], [3], [1, 2],
    [1, 3], [2, 3]]) [1] [])) = [[1], [1, 2], [1, 3]] :=
  by decide +kernel
example : (zdd1.combinations (zdd1.restrict (zdd1.hyperTree (zdd1.items [1, 2, 3]) [[1], [2], [3], [1, 2],
    [1, 3], [2, 3]]) [1, 2] [])) = [[1, 2]] :=
  by decide +kernel

/-! weave/src/zdd/tree/restrict.rs:98 `restrict_returns_tree_that_has_no_combinations_when_excluding` -/
example : (zdd1.combinations (zdd1.restrict (zdd1.hyperTree (zdd1.items [1, 2]) [[1], [2]]) [] [1, 2])) = []
    :=
  by decide +kernel

/-! weave/src/zdd/tree/restrict.rs:116 `restrict_returns_tree_that_has_one_combination_when_excluding` -/
example : (zdd1.combinations (zdd1.restrict (zdd1.hyperTree (zdd1.items [1, 2]) [[1], [2]]) [] [1])) = [[2]]
    :=
  by decide +kernel

/-! weave/src/zdd/tree/restrict.rs:134 `restrict_returns_tree_that_has_many_combination_when_excluding` -/
example : (zdd1.combinations (zdd1.restrict (zdd1.hyperTree (zdd1.items [1, 2, 3]) [[1], [2], [3], [1, 2],
    [1, 3], [2, 3]]) [] [1])) = [[2], [2, 3], [3]] :=
  by decide +kernel

/-! weave/src/zdd/tree/summarize.rs:47 `summarize_returns_all_excluded_for_empty_tree` -/
example : ((zdd1.emptyTree (zdd1.items [1, 2])).summarize [] [] ((zdd1.emptyTree (zdd1.items [1, 2])).counts
    [] [])) = [(.Excluded 1), (.Excluded 2)] :=
  by decide +kernel

/-! weave/src/zdd/tree/summarize.rs:64
    `summarize_returns_available_item_status_if_item_is_in_all_combinations` -/
example : ((zdd1.hyperTree (zdd1.items [1, 2]) [[1, 2], [1]]).summarize [] [] ((zdd1.hyperTree (zdd1.items
    [1, 2]) [[1, 2], [1]]).counts [] [])) = [(.Required 1), (.Available 2)] :=
  by decide +kernel

/-! weave/src/zdd/tree/summarize.rs:84
    `summarize_returns_available_item_status_if_item_is_in_some_combinations` -/
example : ((zdd1.hyperTree (zdd1.items [1, 2, 3, 4]) [[1, 3], [1, 4], [2, 3], [2, 4]]).summarize [] []
    ((zdd1.hyperTree (zdd1.items [1, 2, 3, 4]) [[1, 3], [1, 4], [2, 3], [2, 4]]).counts [] [])) =
    [(.Available 1), (.Available 2), (.Available 3), (.Available 4)] :=
  by decide +kernel

/-! weave/src/zdd/tree/summarize.rs:111 `summarize_returns_selected_item_status_if_item_is_selected` -/
example : ((zdd1.hyperTree (zdd1.items [1, 2, 3, 4]) [[1, 3], [1, 4], [2, 3], [2, 4]]).summarize [1] []
    ((zdd1.hyperTree (zdd1.items [1, 2, 3, 4]) [[1, 3], [1, 4], [2, 3], [2, 4]]).counts [1] [])) =
    [(.Excluded 2), (.Available 3), (.Available 4), (.Selected 1)] :=
  by decide +kernel

end Verif.Conform.ReplayZdd1
