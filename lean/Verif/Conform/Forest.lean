import Verif.Conform.Run

/-!
# The repository's own tests, replayed on the model (Forest)

Generated by tools/conform.py from the test functions cited; items are ranks of string literals.
-/

namespace Verif.Conform.ReplayForest
open Verif.Conform

/-! weave/src/zdd2/forest/mod.rs:209 `empty_forest` -/
example : zdd2.empty = zdd2.empty :=
  by zrun

/-! weave/src/zdd2/forest/mod.rs:217 `unit_forest` -/
example : (zdd2.unit [2, 1]) = (zdd2.unit [1, 2]) :=
  by zrun

/-! weave/src/zdd2/forest/mod.rs:225 `many_forest` -/
example : (zdd2.many [[2, 1]]) = (zdd2.many [[1, 2]]) :=
  by zrun

/-! weave/src/zdd2/forest/mod.rs:233 `unit_forest_with_none` -/
example : zdd2.empty = (zdd2.unit []) :=
  by zrun

/-! weave/src/zdd2/forest/mod.rs:241 `many_forest_with_none` -/
example : zdd2.empty = (zdd2.many []) :=
  by zrun

/-! weave/src/zdd2/forest/mod.rs:249 `many_forest_with_one` -/
example : (zdd2.unit [1]) = (zdd2.many [[1]]) :=
  by zrun

/-! weave/src/zdd2/forest/mod.rs:262 `empty_forest_has_size_0` -/
example : (zdd2.len zdd2.empty) = some 0 :=
  by zrun

/-! weave/src/zdd2/forest/mod.rs:269 `empty_forest_is_empty` -/
example : (zdd2.isEmpty zdd2.empty) = some true :=
  by zrun

/-! weave/src/zdd2/forest/mod.rs:276 `empty_forest_into` -/
example : (zdd2.trees zdd2.empty) = some [] :=
  by zrun

/-! weave/src/zdd2/forest/mod.rs:291 `unit_forest_has_size_1` -/
example : (zdd2.len (zdd2.unit [1, 2])) = some 1 :=
  by zrun

/-! weave/src/zdd2/forest/mod.rs:298 `unit_forest_is_empty` -/
example : (zdd2.isEmpty (zdd2.unit [1, 2])) = some false :=
  by zrun

/-! weave/src/zdd2/forest/mod.rs:305 `unit_forest_into` -/
example : (zdd2.trees (zdd2.unit [1, 2])) = some [[1, 2]] :=
  by zrun

/-! weave/src/zdd2/forest/mod.rs:321 `many_forest_has_size_2` -/
example : (zdd2.len (zdd2.many [[1, 2], [2, 3]])) = some 2 :=
  by zrun

/-! weave/src/zdd2/forest/mod.rs:331 `many_forest_is_not_empty` -/
example : (zdd2.isEmpty (zdd2.many [[1, 2], [2, 3]])) = some false :=
  by zrun

/-! weave/src/zdd2/forest/mod.rs:341 `many_forest_into` -/
example : (zdd2.trees (zdd2.many [[1, 2], [2, 3]])) = some [[1, 2], [2, 3]] :=
  by zrun

/-! weave/src/zdd2/forest/mod.rs:358 `unique_forest_into` -/
example : (zdd2.trees (zdd2.unique [1, 2])) = some [[1], [2]] :=
  by zrun

/-! weave/src/zdd2/forest/mod.rs:377 `product_of_two_forests_of_two` -/
example : (zdd2.len (zdd2.product (zdd2.unique [1, 2, 3]) (zdd2.unique [4, 5, 6]))) = some 9 :=
  by zrun
example : (zdd2.product (zdd2.unique [1, 2, 3]) (zdd2.unique [4, 5, 6])) = (zdd2.many [[3, 4], [3, 5], [6,
    2], [1, 5], [2, 5], [4, 2], [3, 6], [1, 4], [1, 6]]) :=
  by zrun

/-! weave/src/zdd2/forest/mod.rs:402 `product_of_three_forests_of_three` -/
example : (zdd2.len (zdd2.product (zdd2.product (zdd2.unique [1, 2, 3]) (zdd2.unique [4, 5, 6])) (zdd2.unique
    [7, 8, 9]))) = some 27 :=
  by zrun
example : (zdd2.product (zdd2.product (zdd2.unique [1, 2, 3]) (zdd2.unique [4, 5, 6])) (zdd2.unique [7, 8,
    9])) = (zdd2.many [[1, 4, 7], [1, 4, 8], [1, 4, 9], [1, 5, 7], [1, 5, 8], [1, 5, 9], [1, 6, 7], [1, 6,
    8], [1, 6, 9], [2, 4, 7], [2, 4, 8], [2, 4, 9], [2, 5, 7], [2, 5, 8], [2, 5, 9], [2, 6, 7], [2, 6, 8],
    [2, 6, 9], [3, 4, 7], [3, 4, 8], [3, 4, 9], [3, 5, 7], [3, 5, 8], [3, 5, 9], [3, 6, 7], [3, 6, 8], [3, 6,
    9]]) :=
  by zrun

/-! weave/src/zdd2/forest/intersect.rs:6 `intersect_returns_identity_when_both_trees_are_empty` -/
example : (zdd2.intersect zdd2.empty zdd2.empty) = zdd2.empty :=
  by zrun

/-! weave/src/zdd2/forest/intersect.rs:17 `intersect_returns_empty_when_left_is_empty_right_is_unit` -/
example : (zdd2.intersect zdd2.empty (zdd2.unit [1, 2])) = zdd2.empty :=
  by zrun

/-! weave/src/zdd2/forest/intersect.rs:28 `intersect_returns_empty_when_left_is_empty_right_is_many` -/
example : (zdd2.intersect zdd2.empty (zdd2.many [[1, 2], [2, 3]])) = zdd2.empty :=
  by zrun

/-! weave/src/zdd2/forest/intersect.rs:42 `intersect_returns_empty_when_left_is_unit_right_is_empty` -/
example : (zdd2.intersect (zdd2.unit [1, 2]) zdd2.empty) = zdd2.empty :=
  by zrun

/-! weave/src/zdd2/forest/intersect.rs:53 `intersect_returns_identity_when_trees_are_equal_unit` -/
example : (zdd2.intersect (zdd2.unit [1, 2]) (zdd2.unit [1, 2])) = (zdd2.unit [1, 2]) :=
  by zrun

/-! weave/src/zdd2/forest/intersect.rs:64 `intersect_returns_empty_when_trees_are_disjoint_units` -/
example : (zdd2.intersect (zdd2.unit [1, 2]) (zdd2.unit [2, 3])) = zdd2.empty :=
  by zrun

/-! weave/src/zdd2/forest/intersect.rs:75 `intersect_returns_unit_when_left_is_unit_right_is_many` -/
example : (zdd2.intersect (zdd2.unit [1, 2]) (zdd2.many [[1, 2], [2, 3]])) = (zdd2.unit [1, 2]) :=
  by zrun

/-! weave/src/zdd2/forest/intersect.rs:89 `intersect_returns_identity_when_trees_are_equal_many` -/
example : (zdd2.intersect (zdd2.many [[1, 2], [2, 3]]) (zdd2.many [[1, 2], [2, 3]])) = (zdd2.many [[1, 2],
    [2, 3]]) :=
  by zrun

/-! weave/src/zdd2/forest/intersect.rs:109 `intersect_returns_empty_when_trees_are_disjoint_many` -/
example : (zdd2.intersect (zdd2.many [[1, 2], [2, 3]]) (zdd2.many [[1, 3], [2, 4]])) = zdd2.empty :=
  by zrun

/-! weave/src/zdd2/forest/intersect.rs:126 `intersect_returns_one_when_trees_are_have_commonality` -/
example : (zdd2.intersect (zdd2.many [[1, 2], [2, 3]]) (zdd2.many [[2, 3], [3, 4], [4, 5]])) = (zdd2.unit [2,
    3]) :=
  by zrun

/-! weave/src/zdd2/forest/intersect.rs:144 `intersect_returns_many_when_trees_are_have_commonality` -/
example : (zdd2.intersect (zdd2.many [[1, 2], [2, 3], [3, 4]]) (zdd2.many [[2, 3], [3, 4], [4, 5]])) =
    (zdd2.many [[2, 3], [3, 4]]) :=
  by zrun

/-! weave/src/zdd2/forest/union.rs:6 `union_returns_identity_when_both_trees_are_empty` -/
example : (zdd2.union zdd2.empty zdd2.empty) = zdd2.empty :=
  by zrun

/-! weave/src/zdd2/forest/union.rs:17 `union_returns_unit_when_left_is_empty_right_is_unit` -/
example : (zdd2.union zdd2.empty (zdd2.unit [1, 2])) = (zdd2.unit [1, 2]) :=
  by zrun

/-! weave/src/zdd2/forest/union.rs:28 `union_returns_many_when_left_is_empty_right_is_many` -/
example : (zdd2.union zdd2.empty (zdd2.many [[1, 2], [2, 3]])) = (zdd2.many [[1, 2], [2, 3]]) :=
  by zrun

/-! weave/src/zdd2/forest/union.rs:45 `union_returns_unit_when_left_is_unit_right_is_empty` -/
example : (zdd2.union (zdd2.unit [1, 2]) zdd2.empty) = (zdd2.unit [1, 2]) :=
  by zrun

/-! weave/src/zdd2/forest/union.rs:56 `union_returns_identity_when_trees_are_equal_unit` -/
example : (zdd2.union (zdd2.unit [1, 2]) (zdd2.unit [1, 2])) = (zdd2.unit [1, 2]) :=
  by zrun

/-! weave/src/zdd2/forest/union.rs:67 `union_returns_many_when_trees_are_disjoint_units` -/
example : (zdd2.union (zdd2.unit [1, 2]) (zdd2.unit [2, 3])) = (zdd2.many [[1, 2], [2, 3]]) :=
  by zrun

/-! weave/src/zdd2/forest/union.rs:81 `union_returns_many_when_left_is_unit_right_is_many` -/
example : (zdd2.union (zdd2.unit [3, 4]) (zdd2.many [[1, 2], [2, 3]])) = (zdd2.many [[1, 2], [2, 3], [3, 4]])
    :=
  by zrun

/-! weave/src/zdd2/forest/union.rs:99 `union_returns_many_when_left_is_many_right_is_unit` -/
example : (zdd2.union (zdd2.many [[1, 2], [2, 3]]) (zdd2.unit [3, 4])) = (zdd2.many [[1, 2], [2, 3], [3, 4]])
    :=
  by zrun

/-! weave/src/zdd2/forest/union.rs:117 `union_returns_identity_when_trees_are_equal_many` -/
example : (zdd2.union (zdd2.many [[1, 2], [2, 3]]) (zdd2.many [[1, 2], [2, 3]])) = (zdd2.many [[1, 2], [2,
    3]]) :=
  by zrun

/-! weave/src/zdd2/forest/union.rs:137 `union_returns_many_when_trees_are_disjoint_many` -/
example : (zdd2.union (zdd2.many [[1, 2], [2, 3]]) (zdd2.many [[1, 3], [2, 4]])) = (zdd2.many [[1, 2], [1,
    3], [2, 3], [2, 4]]) :=
  by zrun

/-! weave/src/zdd2/forest/union.rs:159 `union_returns_many_when_trees_are_have_commonality` -/
example : (zdd2.union (zdd2.many [[1, 2], [2, 3], [3, 4]]) (zdd2.many [[2, 3], [3, 4], [4, 5]])) = (zdd2.many
    [[1, 2], [2, 3], [3, 4], [4, 5]]) :=
  by zrun

/-! weave/src/zdd2/forest/union.rs:183 `union_returns_identity_when_left_is_unit_right_is_many` -/
example : (zdd2.union (zdd2.unit [1, 2]) (zdd2.many [[1, 2], [2, 3]])) = (zdd2.many [[1, 2], [2, 3]]) :=
  by zrun

/-! weave/src/zdd2/forest/product.rs:6 `empty_right_returns_empty` -/
example : (zdd2.product (zdd2.unit [1, 2]) zdd2.empty) = zdd2.empty :=
  by zrun

/-! weave/src/zdd2/forest/product.rs:17 `empty_left_returns_empty` -/
example : (zdd2.product zdd2.empty (zdd2.unit [1])) = zdd2.empty :=
  by zrun

/-! weave/src/zdd2/forest/product.rs:28 `unit_forests_with_overlap_returns_many` -/
example : (zdd2.product (zdd2.unit [1, 2]) (zdd2.unit [1])) = (zdd2.many [[1, 2]]) :=
  by zrun

/-! weave/src/zdd2/forest/product.rs:41 `disjoint_unit_forests_returns_many_1` -/
example : (zdd2.product (zdd2.unit [1, 2]) (zdd2.unit [3])) = (zdd2.many [[1, 2, 3]]) :=
  by zrun

/-! weave/src/zdd2/forest/product.rs:54 `disjoint_unit_forests_returns_unit` -/
example : (zdd2.product (zdd2.unit [1, 2]) (zdd2.unit [3, 4])) = (zdd2.unit [1, 2, 3, 4]) :=
  by zrun

/-! weave/src/zdd2/forest/product.rs:65 `many_forest_and_single_unit_forest_returns_many` -/
example : (zdd2.product (zdd2.many [[1, 2], [2, 3]]) (zdd2.unit [4])) = (zdd2.many [[1, 2, 4], [2, 3, 4]]) :=
  by zrun

/-! weave/src/zdd2/forest/product.rs:82 `many_forest_and_double_unit_forest_with_overlap_returns_many` -/
example : (zdd2.product (zdd2.many [[1, 2], [2, 3]]) (zdd2.unit [3, 4])) = (zdd2.many [[1, 2, 3, 4], [2, 3,
    4]]) :=
  by zrun

/-! weave/src/zdd2/forest/product.rs:99 `many_forest_and_unique_forest_with_overlap_returns_many` -/
example : (zdd2.product (zdd2.many [[1, 2], [2, 3]]) (zdd2.unique [3, 4])) = (zdd2.many [[1, 2, 3], [1, 2,
    4], [2, 3], [2, 3, 4]]) :=
  by zrun

/-! weave/src/zdd2/forest/product.rs:118 `many_forest_and_unique_forest_returns_many` -/
example : (zdd2.product (zdd2.many [[1, 2], [5, 6]]) (zdd2.unique [3, 4])) = (zdd2.many [[1, 2, 3], [1, 2,
    4], [5, 6, 3], [5, 6, 4]]) :=
  by zrun

/-! weave/src/zdd2/forest/product.rs:137 `many_forest_and_double_unit_forest_returns_many` -/
example : (zdd2.product (zdd2.many [[1, 2], [5, 6]]) (zdd2.unit [3, 4])) = (zdd2.many [[1, 2, 3, 4], [5, 6,
    3, 4]]) :=
  by zrun

/-! weave/src/zdd2/forest/product.rs:154 `many_forests_returns_many_1` -/
example : (zdd2.product (zdd2.unique [1, 2]) (zdd2.unique [3, 4])) = (zdd2.many [[1, 3], [1, 4], [2, 3], [2,
    4]]) :=
  by zrun

/-! weave/src/zdd2/forest/product.rs:170 `many_forests_returns_many_2` -/
example : (zdd2.product (zdd2.unique [1, 2]) (zdd2.many [[3, 4], [5, 6]])) = (zdd2.many [[1, 3, 4], [1, 5,
    6], [2, 3, 4], [2, 5, 6]]) :=
  by zrun

/-! weave/src/zdd2/forest/subset.rs:56 `subset_of_empty_returns_empty` -/
example : (zdd2.subset zdd2.empty 1) = zdd2.empty :=
  by zrun

/-! weave/src/zdd2/forest/subset.rs:67 `subset_of_disjoint_unit_returns_empty` -/
example : (zdd2.subset (zdd2.unit [2, 3]) 1) = zdd2.empty :=
  by zrun

/-! weave/src/zdd2/forest/subset.rs:78 `subset_of_disjoint_many_returns_empty` -/
example : (zdd2.subset (zdd2.many [[1, 3], [2, 3]]) 4) = zdd2.empty :=
  by zrun

/-! weave/src/zdd2/forest/subset.rs:92 `subset_of_containing_returns_identity` -/
example : (zdd2.subset (zdd2.unit [1, 2]) 1) = (zdd2.unit [1, 2]) :=
  by zrun

/-! weave/src/zdd2/forest/subset.rs:103 `subset_of_containing_returns_unit_1` -/
example : (zdd2.subset (zdd2.many [[1, 3], [2, 3]]) 1) = (zdd2.unit [1, 3]) :=
  by zrun

/-! weave/src/zdd2/forest/subset.rs:117 `subset_of_containing_returns_unit_2` -/
example : (zdd2.subset (zdd2.many [[1, 3], [2, 3]]) 2) = (zdd2.unit [2, 3]) :=
  by zrun

/-! weave/src/zdd2/forest/subset.rs:136 `subset_all_of_empty_returns_empty` -/
example : (zdd2.subsetAll zdd2.empty [1]) = zdd2.empty :=
  by zrun

/-! weave/src/zdd2/forest/subset.rs:147 `subset_all_with_empty_elements_returns_identity` -/
example : (zdd2.subsetAll (zdd2.unit [1, 2]) []) = (zdd2.unit [1, 2]) :=
  by zrun

/-! weave/src/zdd2/forest/subset.rs:158 `subset_all_with_one_element_returns_identity` -/
example : (zdd2.subsetAll (zdd2.unit [1, 2]) [1]) = (zdd2.unit [1, 2]) :=
  by zrun

/-! weave/src/zdd2/forest/subset.rs:169 `subset_all_with_disjoint_elements_returns_empty` -/
example : (zdd2.subsetAll (zdd2.unit [2, 3]) [1, 2]) = zdd2.empty :=
  by zrun

/-! weave/src/zdd2/forest/subset.rs:180 `subset_all_with_one_element_returns_many` -/
example : (zdd2.subsetAll (zdd2.many [[1, 3], [2, 3], [1, 2]]) [3]) = (zdd2.many [[1, 3], [2, 3]]) :=
  by zrun

/-! weave/src/zdd2/forest/subset.rs:198 `subset_all_with_many_elements_returns_unit` -/
example : (zdd2.subsetAll (zdd2.many [[1, 3], [2, 3], [1, 2]]) [1, 3]) = (zdd2.unit [1, 3]) :=
  by zrun

/-! weave/tests/forest/intersect.rs:5 `both_forests_are_empty` -/
example : (zdd2.intersect zdd2.empty zdd2.empty) = zdd2.empty :=
  by zrun
example : (zdd2.intersect zdd2.empty zdd2.empty) = zdd2.empty :=
  by zrun

/-! weave/tests/forest/intersect.rs:14 `left_is_empty_right_is_unit` -/
example : (zdd2.intersect zdd2.empty (zdd2.unit [1, 2])) = zdd2.empty :=
  by zrun
example : (zdd2.intersect (zdd2.unit [1, 2]) zdd2.empty) = zdd2.empty :=
  by zrun

/-! weave/tests/forest/intersect.rs:23 `left_is_empty_right_is_many` -/
example : (zdd2.intersect zdd2.empty (zdd2.many [[1, 2], [2, 3]])) = zdd2.empty :=
  by zrun
example : (zdd2.intersect (zdd2.many [[1, 2], [2, 3]]) zdd2.empty) = zdd2.empty :=
  by zrun

/-! weave/tests/forest/intersect.rs:35 `left_is_unit_right_is_empty` -/
example : (zdd2.intersect (zdd2.unit [1, 2]) zdd2.empty) = zdd2.empty :=
  by zrun
example : (zdd2.intersect zdd2.empty (zdd2.unit [1, 2])) = zdd2.empty :=
  by zrun

/-! weave/tests/forest/intersect.rs:44 `forests_are_equal_unit` -/
example : (zdd2.intersect (zdd2.unit [1, 2]) (zdd2.unit [1, 2])) = (zdd2.unit [1, 2]) :=
  by zrun
example : (zdd2.intersect (zdd2.unit [1, 2]) (zdd2.unit [1, 2])) = (zdd2.unit [1, 2]) :=
  by zrun

/-! weave/tests/forest/intersect.rs:53 `forests_are_disjoint_units` -/
example : (zdd2.intersect (zdd2.unit [1, 2]) (zdd2.unit [2, 3])) = zdd2.empty :=
  by zrun
example : (zdd2.intersect (zdd2.unit [2, 3]) (zdd2.unit [1, 2])) = zdd2.empty :=
  by zrun

/-! weave/tests/forest/intersect.rs:62 `left_is_unit_right_is_many` -/
example : (zdd2.intersect (zdd2.unit [1, 2]) (zdd2.many [[1, 2], [2, 3]])) = (zdd2.unit [1, 2]) :=
  by zrun
example : (zdd2.intersect (zdd2.many [[1, 2], [2, 3]]) (zdd2.unit [1, 2])) = (zdd2.unit [1, 2]) :=
  by zrun

/-! weave/tests/forest/intersect.rs:74 `forests_are_equal_many` -/
example : (zdd2.intersect (zdd2.many [[1, 2], [2, 3]]) (zdd2.many [[1, 2], [2, 3]])) = (zdd2.many [[1, 2],
    [2, 3]]) :=
  by zrun
example : (zdd2.intersect (zdd2.many [[1, 2], [2, 3]]) (zdd2.many [[1, 2], [2, 3]])) = (zdd2.many [[1, 2],
    [2, 3]]) :=
  by zrun

/-! weave/tests/forest/intersect.rs:92 `forests_are_disjoint_many` -/
example : (zdd2.intersect (zdd2.many [[1, 2], [2, 3]]) (zdd2.many [[1, 3], [2, 4]])) = zdd2.empty :=
  by zrun
example : (zdd2.intersect (zdd2.many [[1, 3], [2, 4]]) (zdd2.many [[1, 2], [2, 3]])) = zdd2.empty :=
  by zrun

/-! weave/tests/forest/intersect.rs:107 `forests_are_have_single_commonality` -/
example : (zdd2.intersect (zdd2.many [[1, 2], [2, 3]]) (zdd2.many [[2, 3], [3, 4], [4, 5]])) = (zdd2.unit [2,
    3]) :=
  by zrun
example : (zdd2.intersect (zdd2.many [[2, 3], [3, 4], [4, 5]]) (zdd2.many [[1, 2], [2, 3]])) = (zdd2.unit [2,
    3]) :=
  by zrun

/-! weave/tests/forest/intersect.rs:123 `forests_are_have_multiple_commonality` -/
example : (zdd2.intersect (zdd2.many [[1, 2], [2, 3], [3, 4]]) (zdd2.many [[2, 3], [3, 4], [4, 5]])) =
    (zdd2.many [[2, 3], [3, 4]]) :=
  by zrun
example : (zdd2.intersect (zdd2.many [[2, 3], [3, 4], [4, 5]]) (zdd2.many [[1, 2], [2, 3], [3, 4]])) =
    (zdd2.many [[2, 3], [3, 4]]) :=
  by zrun

/-! weave/tests/forest/union.rs:5 `both_forests_are_empty` -/
example : (zdd2.union zdd2.empty zdd2.empty) = zdd2.empty :=
  by zrun
example : (zdd2.union zdd2.empty zdd2.empty) = zdd2.empty :=
  by zrun

/-! weave/tests/forest/union.rs:14 `left_is_empty_right_is_unit` -/
example : (zdd2.union zdd2.empty (zdd2.unit [1, 2])) = (zdd2.unit [1, 2]) :=
  by zrun
example : (zdd2.union (zdd2.unit [1, 2]) zdd2.empty) = (zdd2.unit [1, 2]) :=
  by zrun

/-! weave/tests/forest/union.rs:23 `left_is_empty_right_is_many` -/
example : (zdd2.union zdd2.empty (zdd2.many [[1, 2], [2, 3]])) = (zdd2.many [[1, 2], [2, 3]]) :=
  by zrun
example : (zdd2.union (zdd2.many [[1, 2], [2, 3]]) zdd2.empty) = (zdd2.many [[1, 2], [2, 3]]) :=
  by zrun

/-! weave/tests/forest/union.rs:38 `forests_are_equal_unit` -/
example : (zdd2.union (zdd2.unit [1, 2]) (zdd2.unit [1, 2])) = (zdd2.unit [1, 2]) :=
  by zrun
example : (zdd2.union (zdd2.unit [1, 2]) (zdd2.unit [1, 2])) = (zdd2.unit [1, 2]) :=
  by zrun

/-! weave/tests/forest/union.rs:47 `forests_are_disjoint_units` -/
example : (zdd2.union (zdd2.unit [1, 2]) (zdd2.unit [2, 3])) = (zdd2.many [[1, 2], [2, 3]]) :=
  by zrun
example : (zdd2.union (zdd2.unit [2, 3]) (zdd2.unit [1, 2])) = (zdd2.many [[1, 2], [2, 3]]) :=
  by zrun

/-! weave/tests/forest/union.rs:59 `left_is_unit_right_is_many` -/
example : (zdd2.union (zdd2.unit [3, 4]) (zdd2.many [[1, 2], [2, 3]])) = (zdd2.many [[1, 2], [2, 3], [3, 4]])
    :=
  by zrun
example : (zdd2.union (zdd2.many [[1, 2], [2, 3]]) (zdd2.unit [3, 4])) = (zdd2.many [[1, 2], [2, 3], [3, 4]])
    :=
  by zrun

/-! weave/tests/forest/union.rs:75 `forests_are_equal_many` -/
example : (zdd2.union (zdd2.many [[1, 2], [2, 3]]) (zdd2.many [[1, 2], [2, 3]])) = (zdd2.many [[1, 2], [2,
    3]]) :=
  by zrun
example : (zdd2.union (zdd2.many [[1, 2], [2, 3]]) (zdd2.many [[1, 2], [2, 3]])) = (zdd2.many [[1, 2], [2,
    3]]) :=
  by zrun

/-! weave/tests/forest/union.rs:93 `forests_are_disjoint_many` -/
example : (zdd2.union (zdd2.many [[1, 2], [2, 3]]) (zdd2.many [[1, 3], [2, 4]])) = (zdd2.many [[1, 2], [1,
    3], [2, 3], [2, 4]]) :=
  by zrun
example : (zdd2.union (zdd2.many [[1, 3], [2, 4]]) (zdd2.many [[1, 2], [2, 3]])) = (zdd2.many [[1, 2], [1,
    3], [2, 3], [2, 4]]) :=
  by zrun

/-! weave/tests/forest/union.rs:113 `forests_are_have_commonality` -/
example : (zdd2.union (zdd2.many [[1, 2], [2, 3], [3, 4]]) (zdd2.many [[2, 3], [3, 4], [4, 5]])) = (zdd2.many
    [[1, 2], [2, 3], [3, 4], [4, 5]]) :=
  by zrun
example : (zdd2.union (zdd2.many [[2, 3], [3, 4], [4, 5]]) (zdd2.many [[1, 2], [2, 3], [3, 4]])) = (zdd2.many
    [[1, 2], [2, 3], [3, 4], [4, 5]]) :=
  by zrun

/-! weave/tests/forest/union.rs:135 `left_is_unit_right_is_many_overlapping` -/
example : (zdd2.union (zdd2.unit [1, 2]) (zdd2.many [[1, 2], [2, 3]])) = (zdd2.many [[1, 2], [2, 3]]) :=
  by zrun
example : (zdd2.union (zdd2.many [[1, 2], [2, 3]]) (zdd2.unit [1, 2])) = (zdd2.many [[1, 2], [2, 3]]) :=
  by zrun

/-! weave/tests/forest/product.rs:5 `left_is_empty_right_is_unit` -/
example : (zdd2.product (zdd2.unit [1, 2]) zdd2.empty) = zdd2.empty :=
  by zrun
example : (zdd2.product zdd2.empty (zdd2.unit [1, 2])) = zdd2.empty :=
  by zrun

/-! weave/tests/forest/product.rs:14 `overlapping_unit_forests` -/
example : (zdd2.product (zdd2.unit [1, 2]) (zdd2.unit [1])) = (zdd2.many [[1, 2]]) :=
  by zrun
example : (zdd2.product (zdd2.unit [1]) (zdd2.unit [1, 2])) = (zdd2.many [[1, 2]]) :=
  by zrun

/-! weave/tests/forest/product.rs:25 `overlapping_many_forest_and_double_unit_forest` -/
example : (zdd2.product (zdd2.many [[1, 2], [2, 3]]) (zdd2.unit [3, 4])) = (zdd2.many [[1, 2, 3, 4], [2, 3,
    4]]) :=
  by zrun
example : (zdd2.product (zdd2.unit [3, 4]) (zdd2.many [[1, 2], [2, 3]])) = (zdd2.many [[1, 2, 3, 4], [2, 3,
    4]]) :=
  by zrun

/-! weave/tests/forest/product.rs:40 `overlapping_many_forest_and_unique_forest` -/
example : (zdd2.product (zdd2.many [[1, 2], [2, 3]]) (zdd2.unique [3, 4])) = (zdd2.many [[1, 2, 3], [1, 2,
    4], [2, 3], [2, 3, 4]]) :=
  by zrun
example : (zdd2.product (zdd2.unique [3, 4]) (zdd2.many [[1, 2], [2, 3]])) = (zdd2.many [[1, 2, 3], [1, 2,
    4], [2, 3], [2, 3, 4]]) :=
  by zrun

/-! weave/tests/forest/product.rs:57 `disjoint_unit_forest_and_single_unit_forest` -/
example : (zdd2.product (zdd2.unit [1, 2]) (zdd2.unit [3])) = (zdd2.many [[1, 2, 3]]) :=
  by zrun
example : (zdd2.product (zdd2.unit [3]) (zdd2.unit [1, 2])) = (zdd2.many [[1, 2, 3]]) :=
  by zrun

/-! weave/tests/forest/product.rs:68 `disjoint_unit_forest_and_double_unit_forest` -/
example : (zdd2.product (zdd2.unit [1, 2]) (zdd2.unit [3, 4])) = (zdd2.unit [1, 2, 3, 4]) :=
  by zrun
example : (zdd2.product (zdd2.unit [3, 4]) (zdd2.unit [1, 2])) = (zdd2.unit [1, 2, 3, 4]) :=
  by zrun

/-! weave/tests/forest/product.rs:77 `disjoint_many_forest_and_single_unit_forest` -/
example : (zdd2.product (zdd2.many [[1, 2], [2, 3]]) (zdd2.unit [4])) = (zdd2.many [[1, 2, 4], [2, 3, 4]]) :=
  by zrun
example : (zdd2.product (zdd2.unit [4]) (zdd2.many [[1, 2], [2, 3]])) = (zdd2.many [[1, 2, 4], [2, 3, 4]]) :=
  by zrun

/-! weave/tests/forest/product.rs:92 `disjoint_many_forest_and_unique_forest` -/
example : (zdd2.product (zdd2.many [[1, 2], [5, 6]]) (zdd2.unique [3, 4])) = (zdd2.many [[1, 2, 3], [1, 2,
    4], [5, 6, 3], [5, 6, 4]]) :=
  by zrun
example : (zdd2.product (zdd2.unique [3, 4]) (zdd2.many [[1, 2], [5, 6]])) = (zdd2.many [[1, 2, 3], [1, 2,
    4], [5, 6, 3], [5, 6, 4]]) :=
  by zrun

/-! weave/tests/forest/product.rs:109 `disjoint_many_forest_and_double_unit_forest` -/
example : (zdd2.product (zdd2.many [[1, 2], [5, 6]]) (zdd2.unit [3, 4])) = (zdd2.many [[1, 2, 3, 4], [5, 6,
    3, 4]]) :=
  by zrun
example : (zdd2.product (zdd2.unit [3, 4]) (zdd2.many [[1, 2], [5, 6]])) = (zdd2.many [[1, 2, 3, 4], [5, 6,
    3, 4]]) :=
  by zrun

/-! weave/tests/forest/product.rs:124 `disjoint_unique_forests` -/
example : (zdd2.product (zdd2.unique [1, 2]) (zdd2.unique [3, 4])) = (zdd2.many [[1, 3], [1, 4], [2, 3], [2,
    4]]) :=
  by zrun
example : (zdd2.product (zdd2.unique [3, 4]) (zdd2.unique [1, 2])) = (zdd2.many [[1, 3], [1, 4], [2, 3], [2,
    4]]) :=
  by zrun

/-! weave/tests/forest/product.rs:138 `forests_are_disjoint_many` -/
example : (zdd2.product (zdd2.unique [1, 2]) (zdd2.many [[3, 4], [5, 6]])) = (zdd2.many [[1, 3, 4], [1, 5,
    6], [2, 3, 4], [2, 5, 6]]) :=
  by zrun
example : (zdd2.product (zdd2.many [[3, 4], [5, 6]]) (zdd2.unique [1, 2])) = (zdd2.many [[1, 3, 4], [1, 5,
    6], [2, 3, 4], [2, 5, 6]]) :=
  by zrun

/-! weave/tests/forest/subset.rs:5 `empty_forest` -/
example : (zdd2.subset zdd2.empty 1) = zdd2.empty :=
  by zrun

/-! weave/tests/forest/subset.rs:14 `unit_forest_with_disjoint_element` -/
example : (zdd2.subset (zdd2.unit [2, 3]) 1) = zdd2.empty :=
  by zrun

/-! weave/tests/forest/subset.rs:23 `many_forest_with_disjoint_element` -/
example : (zdd2.subset (zdd2.many [[1, 3], [2, 3]]) 4) = zdd2.empty :=
  by zrun

/-! weave/tests/forest/subset.rs:35 `unit_forest_with_matching_element` -/
example : (zdd2.subset (zdd2.unit [1, 2]) 1) = (zdd2.unit [1, 2]) :=
  by zrun

/-! weave/tests/forest/subset.rs:44 `many_forest_with_matching_element_1` -/
example : (zdd2.subset (zdd2.many [[1, 3], [2, 3]]) 1) = (zdd2.unit [1, 3]) :=
  by zrun

/-! weave/tests/forest/subset.rs:56 `many_forest_with_matching_element_2` -/
example : (zdd2.subset (zdd2.many [[1, 3], [2, 3]]) 2) = (zdd2.unit [2, 3]) :=
  by zrun

/-! weave/tests/forest/subset_not.rs:5 `empty_forest` -/
example : (zdd2.subsetNot zdd2.empty 1) = zdd2.empty :=
  by zrun

/-! weave/tests/forest/subset_not.rs:14 `unit_forest_with_disjoint_element` -/
example : (zdd2.subsetNot (zdd2.unit [2, 3]) 1) = (zdd2.unit [2, 3]) :=
  by zrun

/-! weave/tests/forest/subset_not.rs:23 `many_forest_with_disjoint_element` -/
example : (zdd2.subsetNot (zdd2.many [[1, 3], [2, 3]]) 4) = (zdd2.many [[1, 3], [2, 3]]) :=
  by zrun

/-! weave/tests/forest/subset_not.rs:38 `unit_forest_with_matching_element` -/
example : (zdd2.subsetNot (zdd2.unit [1, 2]) 1) = zdd2.empty :=
  by zrun

/-! weave/tests/forest/subset_not.rs:47 `many_forest_with_matching_element_1` -/
example : (zdd2.subsetNot (zdd2.many [[1, 3], [2, 3]]) 1) = (zdd2.unit [2, 3]) :=
  by zrun

/-! weave/tests/forest/subset_not.rs:59 `many_forest_with_matching_element_2` -/
example : (zdd2.subsetNot (zdd2.many [[1, 3], [2, 3]]) 2) = (zdd2.unit [1, 3]) :=
  by zrun

/-! weave/tests/forest/subset_all.rs:5 `empty_forest_with_single_element` -/
example : (zdd2.subsetAll zdd2.empty [1]) = zdd2.empty :=
  by zrun

/-! weave/tests/forest/subset_all.rs:14 `unit_forest_with_empty_elements` -/
example : (zdd2.subsetAll (zdd2.unit [1, 2]) []) = (zdd2.unit [1, 2]) :=
  by zrun

/-! weave/tests/forest/subset_all.rs:23 `unit_forest_with_one_element` -/
example : (zdd2.subsetAll (zdd2.unit [1, 2]) [1]) = (zdd2.unit [1, 2]) :=
  by zrun

/-! weave/tests/forest/subset_all.rs:32 `unit_forest_with_disjoint_elements` -/
example : (zdd2.subsetAll (zdd2.unit [2, 3]) [1, 2]) = zdd2.empty :=
  by zrun

/-! weave/tests/forest/subset_all.rs:41 `many_forest_with_one_element` -/
example : (zdd2.subsetAll (zdd2.many [[1, 3], [2, 3], [1, 2]]) [3]) = (zdd2.many [[1, 3], [2, 3]]) :=
  by zrun

/-! weave/tests/forest/subset_all.rs:57 `many_forest_with_many_elements` -/
example : (zdd2.subsetAll (zdd2.many [[1, 3], [2, 3], [1, 2]]) [1, 3]) = (zdd2.unit [1, 3]) :=
  by zrun

/-! weave/tests/forest/subset_none.rs:5 `empty_forest_with_single_element` -/
example : (zdd2.subsetNone zdd2.empty [1]) = zdd2.empty :=
  by zrun

/-! weave/tests/forest/subset_none.rs:14 `unit_forest_with_empty_elements` -/
example : (zdd2.subsetNone (zdd2.unit [1, 2]) []) = (zdd2.unit [1, 2]) :=
  by zrun

/-! weave/tests/forest/subset_none.rs:23 `unit_forest_with_one_element` -/
example : (zdd2.subsetNone (zdd2.unit [1, 2]) [1]) = zdd2.empty :=
  by zrun

/-! weave/tests/forest/subset_none.rs:32 `unit_forest_with_disjoint_elements` -/
example : (zdd2.subsetNone (zdd2.unit [2, 3]) [1]) = (zdd2.unit [2, 3]) :=
  by zrun

/-! weave/tests/forest/subset_none.rs:41 `many_forest_with_one_element` -/
example : (zdd2.subsetNone (zdd2.many [[1, 3], [2, 3], [1, 2]]) [3]) = (zdd2.unit [1, 2]) :=
  by zrun

/-! weave/tests/forest/subset_none.rs:54 `many_forest_with_many_elements` -/
example : (zdd2.subsetNone (zdd2.many [[1, 3], [2, 3], [1, 2]]) [1, 3]) = zdd2.empty :=
  by zrun

/-! weave/tests/forest/occurrences.rs:5 `empty` -/
example : (zdd2.occurrences zdd2.empty) = some [] :=
  by zrun

/-! weave/tests/forest/occurrences.rs:13 `unit_with_one` -/
example : (zdd2.occurrences (zdd2.unit [1, 1])) = some [(1, 1)] :=
  by zrun

/-! weave/tests/forest/occurrences.rs:23 `unit_with_two` -/
example : (zdd2.occurrences (zdd2.unit [1, 2])) = some [(1, 1), (2, 1)] :=
  by zrun

/-! weave/tests/forest/occurrences.rs:34 `overlapping_many` -/
example : (zdd2.occurrences (zdd2.many [[1, 2], [2, 3]])) = some [(1, 1), (2, 2), (3, 1)] :=
  by zrun

/-! weave/tests/forest/occurrences.rs:49 `disjoint_many` -/
example : (zdd2.occurrences (zdd2.many [[1, 2], [3, 4], [1, 2]])) = some [(1, 1), (2, 1), (3, 1), (4, 1)] :=
  by zrun

end Verif.Conform.ReplayForest
