import Verif.Conform.Run

/-!
# The repository's own tests, replayed on the model (Matrix)

Generated by tools/conform.py from the test functions cited; items are ranks of string literals.
-/

namespace Verif.Conform.ReplayMatrix
open Verif.Conform

/-! weave/src/matrix/forest/mod.rs:152 `empty_forest` -/
example : matrix.empty = matrix.empty :=
  eq_of_same (by decide +kernel)

/-! weave/src/matrix/forest/mod.rs:160 `unit_forest` -/
example : (matrix.unit [2, 1]) = (matrix.unit [1, 2]) :=
  eq_of_same (by decide +kernel)

/-! weave/src/matrix/forest/mod.rs:168 `many_forest` -/
example : (matrix.many [[2, 1]]) = (matrix.many [[1, 2]]) :=
  eq_of_same (by decide +kernel)

/-! weave/src/matrix/forest/mod.rs:176 `many_forest_with_none` -/
example : matrix.empty = (matrix.many []) :=
  eq_of_same (by decide +kernel)

/-! weave/src/matrix/forest/mod.rs:184 `many_forest_with_one` -/
example : (matrix.unit [1]) = (matrix.many [[1]]) :=
  eq_of_same (by decide +kernel)

/-! weave/src/matrix/forest/mod.rs:197 `empty_forest_has_size_0` -/
example : (matrix.len matrix.empty) = 0 :=
  by decide +kernel

/-! weave/src/matrix/forest/mod.rs:204 `empty_forest_is_empty` -/
example : (matrix.isEmpty matrix.empty) = true :=
  by decide +kernel

/-! weave/src/matrix/forest/mod.rs:211 `empty_forest_into` -/
example : ((matrix.trees matrix.empty)).isPerm [] = true :=
  by decide +kernel

/-! weave/src/matrix/forest/mod.rs:226 `unit_forest_has_size_1` -/
example : (matrix.len (matrix.unit [1, 2])) = 1 :=
  by decide +kernel

/-! weave/src/matrix/forest/mod.rs:233 `unit_forest_is_empty` -/
example : (matrix.isEmpty (matrix.unit [1, 2])) = false :=
  by decide +kernel

/-! weave/src/matrix/forest/mod.rs:240 `unit_forest_into` -/
example : ((matrix.trees (matrix.unit [1, 2]))).isPerm [[1, 2]] = true :=
  by decide +kernel

/-! weave/src/matrix/forest/mod.rs:256 `many_forest_has_size_2` -/
example : (matrix.len (matrix.many [[1, 2], [2, 3]])) = 2 :=
  by decide +kernel

/-! weave/src/matrix/forest/mod.rs:266 `many_forest_is_not_empty` -/
example : (matrix.isEmpty (matrix.many [[1, 2], [2, 3]])) = false :=
  by decide +kernel

/-! weave/src/matrix/forest/mod.rs:276 `many_forest_into` -/
example : ((matrix.trees (matrix.many [[1, 2], [2, 3]]))).isPerm [[1, 2], [2, 3]] = true :=
  by decide +kernel

/-! weave/src/matrix/forest/mod.rs:293 `unique_forest_into` -/
example : ((matrix.trees (matrix.unique [1, 2]))).isPerm [[2], [1]] = true :=
  by decide +kernel

/-! weave/src/matrix/forest/mod.rs:312 `product_of_two_forests_of_two` -/
example : (matrix.len (matrix.product (matrix.unique [1, 2, 3]) (matrix.unique [4, 5, 6]))) = 9 :=
  by decide +kernel
example : (matrix.product (matrix.unique [1, 2, 3]) (matrix.unique [4, 5, 6])) = (matrix.many [[3, 4], [3,
    5], [6, 2], [1, 5], [2, 5], [4, 2], [3, 6], [1, 4], [1, 6]]) :=
  eq_of_same (by decide +kernel)

/-! weave/src/matrix/forest/mod.rs:337 `product_of_three_forests_of_three` -/
example : (matrix.len (matrix.product (matrix.product (matrix.unique [1, 2, 3]) (matrix.unique [4, 5, 6]))
    (matrix.unique [7, 8, 9]))) = 27 :=
  by decide +kernel
example : (matrix.product (matrix.product (matrix.unique [1, 2, 3]) (matrix.unique [4, 5, 6])) (matrix.unique
    [7, 8, 9])) = (matrix.many [[1, 4, 7], [1, 4, 8], [1, 4, 9], [1, 5, 7], [1, 5, 8], [1, 5, 9], [1, 6, 7],
    [1, 6, 8], [1, 6, 9], [2, 4, 7], [2, 4, 8], [2, 4, 9], [2, 5, 7], [2, 5, 8], [2, 5, 9], [2, 6, 7], [2, 6,
    8], [2, 6, 9], [3, 4, 7], [3, 4, 8], [3, 4, 9], [3, 5, 7], [3, 5, 8], [3, 5, 9], [3, 6, 7], [3, 6, 8],
    [3, 6, 9]]) :=
  eq_of_same (by decide +kernel)

/-! weave/src/matrix/forest/intersect.rs:31 `intersect_returns_identity_when_both_trees_are_empty` -/
example : (matrix.intersect matrix.empty matrix.empty) = matrix.empty :=
  eq_of_same (by decide +kernel)

/-! weave/src/matrix/forest/intersect.rs:42 `intersect_returns_empty_when_left_is_empty_right_is_unit` -/
example : (matrix.intersect matrix.empty (matrix.unit [1, 2])) = matrix.empty :=
  eq_of_same (by decide +kernel)

/-! weave/src/matrix/forest/intersect.rs:53 `intersect_returns_empty_when_left_is_empty_right_is_many` -/
example : (matrix.intersect matrix.empty (matrix.many [[1, 2], [2, 3]])) = matrix.empty :=
  eq_of_same (by decide +kernel)

/-! weave/src/matrix/forest/intersect.rs:67 `intersect_returns_empty_when_left_is_unit_right_is_empty` -/
example : (matrix.intersect (matrix.unit [1, 2]) matrix.empty) = matrix.empty :=
  eq_of_same (by decide +kernel)

/-! weave/src/matrix/forest/intersect.rs:78 `intersect_returns_identity_when_trees_are_equal_unit` -/
example : (matrix.intersect (matrix.unit [1, 2]) (matrix.unit [1, 2])) = (matrix.unit [1, 2]) :=
  eq_of_same (by decide +kernel)

/-! weave/src/matrix/forest/intersect.rs:89 `intersect_returns_empty_when_trees_are_disjoint_units` -/
example : (matrix.intersect (matrix.unit [1, 2]) (matrix.unit [2, 3])) = matrix.empty :=
  eq_of_same (by decide +kernel)

/-! weave/src/matrix/forest/intersect.rs:100 `intersect_returns_unit_when_left_is_unit_right_is_many` -/
example : (matrix.intersect (matrix.unit [1, 2]) (matrix.many [[1, 2], [2, 3]])) = (matrix.unit [1, 2]) :=
  eq_of_same (by decide +kernel)

/-! weave/src/matrix/forest/intersect.rs:114 `intersect_returns_identity_when_trees_are_equal_many` -/
example : (matrix.intersect (matrix.many [[1, 2], [2, 3]]) (matrix.many [[1, 2], [2, 3]])) = (matrix.many
    [[1, 2], [2, 3]]) :=
  eq_of_same (by decide +kernel)

/-! weave/src/matrix/forest/intersect.rs:134 `intersect_returns_empty_when_trees_are_disjoint_many` -/
example : (matrix.intersect (matrix.many [[1, 2], [2, 3]]) (matrix.many [[1, 3], [2, 4]])) = matrix.empty :=
  eq_of_same (by decide +kernel)

/-! weave/src/matrix/forest/intersect.rs:151 `intersect_returns_one_when_trees_are_have_commonality` -/
example : (matrix.intersect (matrix.many [[1, 2], [2, 3]]) (matrix.many [[2, 3], [3, 4], [4, 5]])) =
    (matrix.unit [2, 3]) :=
  eq_of_same (by decide +kernel)

/-! weave/src/matrix/forest/intersect.rs:169 `intersect_returns_many_when_trees_are_have_commonality` -/
example : (matrix.intersect (matrix.many [[1, 2], [2, 3], [3, 4]]) (matrix.many [[2, 3], [3, 4], [4, 5]])) =
    (matrix.many [[2, 3], [3, 4]]) :=
  eq_of_same (by decide +kernel)

/-! weave/src/matrix/forest/union.rs:52 `union_returns_identity_when_both_trees_are_empty` -/
example : (matrix.union matrix.empty matrix.empty) = matrix.empty :=
  eq_of_same (by decide +kernel)

/-! weave/src/matrix/forest/union.rs:63 `union_returns_unit_when_left_is_empty_right_is_unit` -/
example : (matrix.union matrix.empty (matrix.unit [1, 2])) = (matrix.unit [1, 2]) :=
  eq_of_same (by decide +kernel)

/-! weave/src/matrix/forest/union.rs:74 `union_returns_many_when_left_is_empty_right_is_many` -/
example : (matrix.union matrix.empty (matrix.many [[1, 2], [2, 3]])) = (matrix.many [[1, 2], [2, 3]]) :=
  eq_of_same (by decide +kernel)

/-! weave/src/matrix/forest/union.rs:91 `union_returns_unit_when_left_is_unit_right_is_empty` -/
example : (matrix.union (matrix.unit [1, 2]) matrix.empty) = (matrix.unit [1, 2]) :=
  eq_of_same (by decide +kernel)

/-! weave/src/matrix/forest/union.rs:102 `union_returns_identity_when_trees_are_equal_unit` -/
example : (matrix.union (matrix.unit [1, 2]) (matrix.unit [1, 2])) = (matrix.unit [1, 2]) :=
  eq_of_same (by decide +kernel)

/-! weave/src/matrix/forest/union.rs:113 `union_returns_many_when_trees_are_disjoint_units` -/
example : (matrix.union (matrix.unit [1, 2]) (matrix.unit [2, 3])) = (matrix.many [[1, 2], [2, 3]]) :=
  eq_of_same (by decide +kernel)

/-! weave/src/matrix/forest/union.rs:127 `union_returns_many_when_left_is_unit_right_is_many` -/
example : (matrix.union (matrix.unit [3, 4]) (matrix.many [[1, 2], [2, 3]])) = (matrix.many [[1, 2], [2, 3],
    [3, 4]]) :=
  eq_of_same (by decide +kernel)

/-! weave/src/matrix/forest/union.rs:145 `union_returns_many_when_left_is_many_right_is_unit` -/
example : (matrix.union (matrix.many [[1, 2], [2, 3]]) (matrix.unit [3, 4])) = (matrix.many [[1, 2], [2, 3],
    [3, 4]]) :=
  eq_of_same (by decide +kernel)

/-! weave/src/matrix/forest/union.rs:163 `union_returns_identity_when_trees_are_equal_many` -/
example : (matrix.union (matrix.many [[1, 2], [2, 3]]) (matrix.many [[1, 2], [2, 3]])) = (matrix.many [[1,
    2], [2, 3]]) :=
  eq_of_same (by decide +kernel)

/-! weave/src/matrix/forest/union.rs:183 `union_returns_many_when_trees_are_disjoint_many` -/
example : (matrix.union (matrix.many [[1, 2], [2, 3]]) (matrix.many [[1, 3], [2, 4]])) = (matrix.many [[1,
    2], [1, 3], [2, 3], [2, 4]]) :=
  eq_of_same (by decide +kernel)

/-! weave/src/matrix/forest/union.rs:205 `union_returns_many_when_trees_are_have_commonality` -/
example : (matrix.union (matrix.many [[1, 2], [2, 3], [3, 4]]) (matrix.many [[2, 3], [3, 4], [4, 5]])) =
    (matrix.many [[1, 2], [2, 3], [3, 4], [4, 5]]) :=
  eq_of_same (by decide +kernel)

/-! weave/src/matrix/forest/union.rs:229 `union_returns_identity_when_left_is_unit_right_is_many` -/
example : (matrix.union (matrix.unit [1, 2]) (matrix.many [[1, 2], [2, 3]])) = (matrix.many [[1, 2], [2, 3]])
    :=
  eq_of_same (by decide +kernel)

/-! weave/src/matrix/forest/product.rs:54 `empty_right_returns_empty` -/
example : (matrix.product (matrix.unit [1, 2]) matrix.empty) = matrix.empty :=
  eq_of_same (by decide +kernel)

/-! weave/src/matrix/forest/product.rs:65 `empty_left_returns_empty` -/
example : (matrix.product matrix.empty (matrix.unit [1])) = matrix.empty :=
  eq_of_same (by decide +kernel)

/-! weave/src/matrix/forest/product.rs:76 `unit_forests_with_overlap_returns_many` -/
example : (matrix.product (matrix.unit [1, 2]) (matrix.unit [1])) = (matrix.many [[1, 2]]) :=
  eq_of_same (by decide +kernel)

/-! weave/src/matrix/forest/product.rs:89 `disjoint_unit_forests_returns_many_1` -/
example : (matrix.product (matrix.unit [1, 2]) (matrix.unit [3])) = (matrix.many [[1, 2, 3]]) :=
  eq_of_same (by decide +kernel)

/-! weave/src/matrix/forest/product.rs:102 `disjoint_unit_forests_returns_unit` -/
example : (matrix.product (matrix.unit [1, 2]) (matrix.unit [3, 4])) = (matrix.unit [1, 2, 3, 4]) :=
  eq_of_same (by decide +kernel)

/-! weave/src/matrix/forest/product.rs:113 `many_forest_and_single_unit_forest_returns_many` -/
example : (matrix.product (matrix.many [[1, 2], [2, 3]]) (matrix.unit [4])) = (matrix.many [[1, 2, 4], [2, 3,
    4]]) :=
  eq_of_same (by decide +kernel)

/-! weave/src/matrix/forest/product.rs:130 `many_forest_and_double_unit_forest_with_overlap_returns_many` -/
example : (matrix.product (matrix.many [[1, 2], [2, 3]]) (matrix.unit [3, 4])) = (matrix.many [[1, 2, 3, 4],
    [2, 3, 4]]) :=
  eq_of_same (by decide +kernel)

/-! weave/src/matrix/forest/product.rs:147 `many_forest_and_unique_forest_with_overlap_returns_many` -/
example : (matrix.product (matrix.many [[1, 2], [2, 3]]) (matrix.unique [3, 4])) = (matrix.many [[1, 2, 3],
    [1, 2, 4], [2, 3], [2, 3, 4]]) :=
  eq_of_same (by decide +kernel)

/-! weave/src/matrix/forest/product.rs:166 `many_forest_and_unique_forest_returns_many` -/
example : (matrix.product (matrix.many [[1, 2], [5, 6]]) (matrix.unique [3, 4])) = (matrix.many [[1, 2, 3],
    [1, 2, 4], [5, 6, 3], [5, 6, 4]]) :=
  eq_of_same (by decide +kernel)

/-! weave/src/matrix/forest/product.rs:185 `many_forest_and_double_unit_forest_returns_many` -/
example : (matrix.product (matrix.many [[1, 2], [5, 6]]) (matrix.unit [3, 4])) = (matrix.many [[1, 2, 3, 4],
    [5, 6, 3, 4]]) :=
  eq_of_same (by decide +kernel)

/-! weave/src/matrix/forest/product.rs:202 `many_forests_returns_many_1` -/
example : (matrix.product (matrix.unique [1, 2]) (matrix.unique [3, 4])) = (matrix.many [[1, 3], [1, 4], [2,
    3], [2, 4]]) :=
  eq_of_same (by decide +kernel)

/-! weave/src/matrix/forest/product.rs:218 `many_forests_returns_many_2` -/
example : (matrix.product (matrix.unique [1, 2]) (matrix.many [[3, 4], [5, 6]])) = (matrix.many [[1, 3, 4],
    [1, 5, 6], [2, 3, 4], [2, 5, 6]]) :=
  eq_of_same (by decide +kernel)

/-! weave/src/matrix/forest/subset.rs:88 `subset_of_empty_returns_empty` -/
example : (matrix.subset matrix.empty 1) = matrix.empty :=
  eq_of_same (by decide +kernel)

/-! weave/src/matrix/forest/subset.rs:99 `subset_of_disjoint_unit_returns_empty` -/
example : (matrix.subset (matrix.unit [2, 3]) 1) = matrix.empty :=
  eq_of_same (by decide +kernel)

/-! weave/src/matrix/forest/subset.rs:110 `subset_of_disjoint_many_returns_empty` -/
example : (matrix.subset (matrix.many [[1, 3], [2, 3]]) 4) = matrix.empty :=
  eq_of_same (by decide +kernel)

/-! weave/src/matrix/forest/subset.rs:124 `subset_of_containing_returns_identity` -/
example : (matrix.subset (matrix.unit [1, 2]) 1) = (matrix.unit [1, 2]) :=
  eq_of_same (by decide +kernel)

/-! weave/src/matrix/forest/subset.rs:135 `subset_of_containing_returns_unit_1` -/
example : (matrix.subset (matrix.many [[1, 3], [2, 3]]) 1) = (matrix.unit [1, 3]) :=
  eq_of_same (by decide +kernel)

/-! weave/src/matrix/forest/subset.rs:149 `subset_of_containing_returns_unit_2` -/
example : (matrix.subset (matrix.many [[1, 3], [2, 3]]) 2) = (matrix.unit [2, 3]) :=
  eq_of_same (by decide +kernel)

/-! weave/src/matrix/forest/subset.rs:168 `subset_all_of_empty_returns_empty` -/
example : (matrix.subsetAll matrix.empty [1]) = matrix.empty :=
  eq_of_same (by decide +kernel)

/-! weave/src/matrix/forest/subset.rs:179 `subset_all_with_empty_elements_returns_identity` -/
example : (matrix.subsetAll (matrix.unit [1, 2]) []) = (matrix.unit [1, 2]) :=
  eq_of_same (by decide +kernel)

/-! weave/src/matrix/forest/subset.rs:190 `subset_all_with_one_element_returns_identity` -/
example : (matrix.subsetAll (matrix.unit [1, 2]) [1]) = (matrix.unit [1, 2]) :=
  eq_of_same (by decide +kernel)

/-! weave/src/matrix/forest/subset.rs:201 `subset_all_with_disjoint_elements_returns_empty` -/
example : (matrix.subsetAll (matrix.unit [2, 3]) [1, 2]) = matrix.empty :=
  eq_of_same (by decide +kernel)

/-! weave/src/matrix/forest/subset.rs:212 `subset_all_with_one_element_returns_many` -/
example : (matrix.subsetAll (matrix.many [[1, 3], [2, 3], [1, 2]]) [3]) = (matrix.many [[1, 3], [2, 3]]) :=
  eq_of_same (by decide +kernel)

/-! weave/src/matrix/forest/subset.rs:230 `subset_all_with_many_elements_returns_unit` -/
example : (matrix.subsetAll (matrix.many [[1, 3], [2, 3], [1, 2]]) [1, 3]) = (matrix.unit [1, 3]) :=
  eq_of_same (by decide +kernel)

/-! weave/tests/forest/intersect.rs:5 `both_forests_are_empty` -/
example : (matrix.intersect matrix.empty matrix.empty) = matrix.empty :=
  eq_of_same (by decide +kernel)
example : (matrix.intersect matrix.empty matrix.empty) = matrix.empty :=
  eq_of_same (by decide +kernel)

/-! weave/tests/forest/intersect.rs:14 `left_is_empty_right_is_unit` -/
example : (matrix.intersect matrix.empty (matrix.unit [1, 2])) = matrix.empty :=
  eq_of_same (by decide +kernel)
example : (matrix.intersect (matrix.unit [1, 2]) matrix.empty) = matrix.empty :=
  eq_of_same (by decide +kernel)

/-! weave/tests/forest/intersect.rs:23 `left_is_empty_right_is_many` -/
example : (matrix.intersect matrix.empty (matrix.many [[1, 2], [2, 3]])) = matrix.empty :=
  eq_of_same (by decide +kernel)
example : (matrix.intersect (matrix.many [[1, 2], [2, 3]]) matrix.empty) = matrix.empty :=
  eq_of_same (by decide +kernel)

/-! weave/tests/forest/intersect.rs:35 `left_is_unit_right_is_empty` -/
example : (matrix.intersect (matrix.unit [1, 2]) matrix.empty) = matrix.empty :=
  eq_of_same (by decide +kernel)
example : (matrix.intersect matrix.empty (matrix.unit [1, 2])) = matrix.empty :=
  eq_of_same (by decide +kernel)

/-! weave/tests/forest/intersect.rs:44 `forests_are_equal_unit` -/
example : (matrix.intersect (matrix.unit [1, 2]) (matrix.unit [1, 2])) = (matrix.unit [1, 2]) :=
  eq_of_same (by decide +kernel)
example : (matrix.intersect (matrix.unit [1, 2]) (matrix.unit [1, 2])) = (matrix.unit [1, 2]) :=
  eq_of_same (by decide +kernel)

/-! weave/tests/forest/intersect.rs:53 `forests_are_disjoint_units` -/
example : (matrix.intersect (matrix.unit [1, 2]) (matrix.unit [2, 3])) = matrix.empty :=
  eq_of_same (by decide +kernel)
example : (matrix.intersect (matrix.unit [2, 3]) (matrix.unit [1, 2])) = matrix.empty :=
  eq_of_same (by decide +kernel)

/-! weave/tests/forest/intersect.rs:62 `left_is_unit_right_is_many` -/
example : (matrix.intersect (matrix.unit [1, 2]) (matrix.many [[1, 2], [2, 3]])) = (matrix.unit [1, 2]) :=
  eq_of_same (by decide +kernel)
example : (matrix.intersect (matrix.many [[1, 2], [2, 3]]) (matrix.unit [1, 2])) = (matrix.unit [1, 2]) :=
  eq_of_same (by decide +kernel)

/-! weave/tests/forest/intersect.rs:74 `forests_are_equal_many` -/
example : (matrix.intersect (matrix.many [[1, 2], [2, 3]]) (matrix.many [[1, 2], [2, 3]])) = (matrix.many
    [[1, 2], [2, 3]]) :=
  eq_of_same (by decide +kernel)
example : (matrix.intersect (matrix.many [[1, 2], [2, 3]]) (matrix.many [[1, 2], [2, 3]])) = (matrix.many
    [[1, 2], [2, 3]]) :=
  eq_of_same (by decide +kernel)

/-! weave/tests/forest/intersect.rs:92 `forests_are_disjoint_many` -/
example : (matrix.intersect (matrix.many [[1, 2], [2, 3]]) (matrix.many [[1, 3], [2, 4]])) = matrix.empty :=
  eq_of_same (by decide +kernel)
example : (matrix.intersect (matrix.many [[1, 3], [2, 4]]) (matrix.many [[1, 2], [2, 3]])) = matrix.empty :=
  eq_of_same (by decide +kernel)

/-! weave/tests/forest/intersect.rs:107 `forests_are_have_single_commonality` -/
example : (matrix.intersect (matrix.many [[1, 2], [2, 3]]) (matrix.many [[2, 3], [3, 4], [4, 5]])) =
    (matrix.unit [2, 3]) :=
  eq_of_same (by decide +kernel)
example : (matrix.intersect (matrix.many [[2, 3], [3, 4], [4, 5]]) (matrix.many [[1, 2], [2, 3]])) =
    (matrix.unit [2, 3]) :=
  eq_of_same (by decide +kernel)

/-! weave/tests/forest/intersect.rs:123 `forests_are_have_multiple_commonality` -/
example : (matrix.intersect (matrix.many [[1, 2], [2, 3], [3, 4]]) (matrix.many [[2, 3], [3, 4], [4, 5]])) =
    (matrix.many [[2, 3], [3, 4]]) :=
  eq_of_same (by decide +kernel)
example : (matrix.intersect (matrix.many [[2, 3], [3, 4], [4, 5]]) (matrix.many [[1, 2], [2, 3], [3, 4]])) =
    (matrix.many [[2, 3], [3, 4]]) :=
  eq_of_same (by decide +kernel)

/-! weave/tests/forest/union.rs:5 `both_forests_are_empty` -/
example : (matrix.union matrix.empty matrix.empty) = matrix.empty :=
  eq_of_same (by decide +kernel)
example : (matrix.union matrix.empty matrix.empty) = matrix.empty :=
  eq_of_same (by decide +kernel)

/-! weave/tests/forest/union.rs:14 `left_is_empty_right_is_unit` -/
example : (matrix.union matrix.empty (matrix.unit [1, 2])) = (matrix.unit [1, 2]) :=
  eq_of_same (by decide +kernel)
example : (matrix.union (matrix.unit [1, 2]) matrix.empty) = (matrix.unit [1, 2]) :=
  eq_of_same (by decide +kernel)

/-! weave/tests/forest/union.rs:23 `left_is_empty_right_is_many` -/
example : (matrix.union matrix.empty (matrix.many [[1, 2], [2, 3]])) = (matrix.many [[1, 2], [2, 3]]) :=
  eq_of_same (by decide +kernel)
example : (matrix.union (matrix.many [[1, 2], [2, 3]]) matrix.empty) = (matrix.many [[1, 2], [2, 3]]) :=
  eq_of_same (by decide +kernel)

/-! weave/tests/forest/union.rs:38 `forests_are_equal_unit` -/
example : (matrix.union (matrix.unit [1, 2]) (matrix.unit [1, 2])) = (matrix.unit [1, 2]) :=
  eq_of_same (by decide +kernel)
example : (matrix.union (matrix.unit [1, 2]) (matrix.unit [1, 2])) = (matrix.unit [1, 2]) :=
  eq_of_same (by decide +kernel)

/-! weave/tests/forest/union.rs:47 `forests_are_disjoint_units` -/
example : (matrix.union (matrix.unit [1, 2]) (matrix.unit [2, 3])) = (matrix.many [[1, 2], [2, 3]]) :=
  eq_of_same (by decide +kernel)
example : (matrix.union (matrix.unit [2, 3]) (matrix.unit [1, 2])) = (matrix.many [[1, 2], [2, 3]]) :=
  eq_of_same (by decide +kernel)

/-! weave/tests/forest/union.rs:59 `left_is_unit_right_is_many` -/
example : (matrix.union (matrix.unit [3, 4]) (matrix.many [[1, 2], [2, 3]])) = (matrix.many [[1, 2], [2, 3],
    [3, 4]]) :=
  eq_of_same (by decide +kernel)
example : (matrix.union (matrix.many [[1, 2], [2, 3]]) (matrix.unit [3, 4])) = (matrix.many [[1, 2], [2, 3],
    [3, 4]]) :=
  eq_of_same (by decide +kernel)

/-! weave/tests/forest/union.rs:75 `forests_are_equal_many` -/
example : (matrix.union (matrix.many [[1, 2], [2, 3]]) (matrix.many [[1, 2], [2, 3]])) = (matrix.many [[1,
    2], [2, 3]]) :=
  eq_of_same (by decide +kernel)
example : (matrix.union (matrix.many [[1, 2], [2, 3]]) (matrix.many [[1, 2], [2, 3]])) = (matrix.many [[1,
    2], [2, 3]]) :=
  eq_of_same (by decide +kernel)

/-! weave/tests/forest/union.rs:93 `forests_are_disjoint_many` -/
example : (matrix.union (matrix.many [[1, 2], [2, 3]]) (matrix.many [[1, 3], [2, 4]])) = (matrix.many [[1,
    2], [1, 3], [2, 3], [2, 4]]) :=
  eq_of_same (by decide +kernel)
example : (matrix.union (matrix.many [[1, 3], [2, 4]]) (matrix.many [[1, 2], [2, 3]])) = (matrix.many [[1,
    2], [1, 3], [2, 3], [2, 4]]) :=
  eq_of_same (by decide +kernel)

/-! weave/tests/forest/union.rs:113 `forests_are_have_commonality` -/
example : (matrix.union (matrix.many [[1, 2], [2, 3], [3, 4]]) (matrix.many [[2, 3], [3, 4], [4, 5]])) =
    (matrix.many [[1, 2], [2, 3], [3, 4], [4, 5]]) :=
  eq_of_same (by decide +kernel)
example : (matrix.union (matrix.many [[2, 3], [3, 4], [4, 5]]) (matrix.many [[1, 2], [2, 3], [3, 4]])) =
    (matrix.many [[1, 2], [2, 3], [3, 4], [4, 5]]) :=
  eq_of_same (by decide +kernel)

/-! weave/tests/forest/union.rs:135 `left_is_unit_right_is_many_overlapping` -/
example : (matrix.union (matrix.unit [1, 2]) (matrix.many [[1, 2], [2, 3]])) = (matrix.many [[1, 2], [2, 3]])
    :=
  eq_of_same (by decide +kernel)
example : (matrix.union (matrix.many [[1, 2], [2, 3]]) (matrix.unit [1, 2])) = (matrix.many [[1, 2], [2, 3]])
    :=
  eq_of_same (by decide +kernel)

/-! weave/tests/forest/product.rs:5 `left_is_empty_right_is_unit` -/
example : (matrix.product (matrix.unit [1, 2]) matrix.empty) = matrix.empty :=
  eq_of_same (by decide +kernel)
example : (matrix.product matrix.empty (matrix.unit [1, 2])) = matrix.empty :=
  eq_of_same (by decide +kernel)

/-! weave/tests/forest/product.rs:14 `overlapping_unit_forests` -/
example : (matrix.product (matrix.unit [1, 2]) (matrix.unit [1])) = (matrix.many [[1, 2]]) :=
  eq_of_same (by decide +kernel)
example : (matrix.product (matrix.unit [1]) (matrix.unit [1, 2])) = (matrix.many [[1, 2]]) :=
  eq_of_same (by decide +kernel)

/-! weave/tests/forest/product.rs:25 `overlapping_many_forest_and_double_unit_forest` -/
example : (matrix.product (matrix.many [[1, 2], [2, 3]]) (matrix.unit [3, 4])) = (matrix.many [[1, 2, 3, 4],
    [2, 3, 4]]) :=
  eq_of_same (by decide +kernel)
example : (matrix.product (matrix.unit [3, 4]) (matrix.many [[1, 2], [2, 3]])) = (matrix.many [[1, 2, 3, 4],
    [2, 3, 4]]) :=
  eq_of_same (by decide +kernel)

/-! weave/tests/forest/product.rs:40 `overlapping_many_forest_and_unique_forest` -/
example : (matrix.product (matrix.many [[1, 2], [2, 3]]) (matrix.unique [3, 4])) = (matrix.many [[1, 2, 3],
    [1, 2, 4], [2, 3], [2, 3, 4]]) :=
  eq_of_same (by decide +kernel)
example : (matrix.product (matrix.unique [3, 4]) (matrix.many [[1, 2], [2, 3]])) = (matrix.many [[1, 2, 3],
    [1, 2, 4], [2, 3], [2, 3, 4]]) :=
  eq_of_same (by decide +kernel)

/-! weave/tests/forest/product.rs:57 `disjoint_unit_forest_and_single_unit_forest` -/
example : (matrix.product (matrix.unit [1, 2]) (matrix.unit [3])) = (matrix.many [[1, 2, 3]]) :=
  eq_of_same (by decide +kernel)
example : (matrix.product (matrix.unit [3]) (matrix.unit [1, 2])) = (matrix.many [[1, 2, 3]]) :=
  eq_of_same (by decide +kernel)

/-! weave/tests/forest/product.rs:68 `disjoint_unit_forest_and_double_unit_forest` -/
example : (matrix.product (matrix.unit [1, 2]) (matrix.unit [3, 4])) = (matrix.unit [1, 2, 3, 4]) :=
  eq_of_same (by decide +kernel)
example : (matrix.product (matrix.unit [3, 4]) (matrix.unit [1, 2])) = (matrix.unit [1, 2, 3, 4]) :=
  eq_of_same (by decide +kernel)

/-! weave/tests/forest/product.rs:77 `disjoint_many_forest_and_single_unit_forest` -/
example : (matrix.product (matrix.many [[1, 2], [2, 3]]) (matrix.unit [4])) = (matrix.many [[1, 2, 4], [2, 3,
    4]]) :=
  eq_of_same (by decide +kernel)
example : (matrix.product (matrix.unit [4]) (matrix.many [[1, 2], [2, 3]])) = (matrix.many [[1, 2, 4], [2, 3,
    4]]) :=
  eq_of_same (by decide +kernel)

/-! weave/tests/forest/product.rs:92 `disjoint_many_forest_and_unique_forest` -/
example : (matrix.product (matrix.many [[1, 2], [5, 6]]) (matrix.unique [3, 4])) = (matrix.many [[1, 2, 3],
    [1, 2, 4], [5, 6, 3], [5, 6, 4]]) :=
  eq_of_same (by decide +kernel)
example : (matrix.product (matrix.unique [3, 4]) (matrix.many [[1, 2], [5, 6]])) = (matrix.many [[1, 2, 3],
    [1, 2, 4], [5, 6, 3], [5, 6, 4]]) :=
  eq_of_same (by decide +kernel)

/-! weave/tests/forest/product.rs:109 `disjoint_many_forest_and_double_unit_forest` -/
example : (matrix.product (matrix.many [[1, 2], [5, 6]]) (matrix.unit [3, 4])) = (matrix.many [[1, 2, 3, 4],
    [5, 6, 3, 4]]) :=
  eq_of_same (by decide +kernel)
example : (matrix.product (matrix.unit [3, 4]) (matrix.many [[1, 2], [5, 6]])) = (matrix.many [[1, 2, 3, 4],
    [5, 6, 3, 4]]) :=
  eq_of_same (by decide +kernel)

/-! weave/tests/forest/product.rs:124 `disjoint_unique_forests` -/
example : (matrix.product (matrix.unique [1, 2]) (matrix.unique [3, 4])) = (matrix.many [[1, 3], [1, 4], [2,
    3], [2, 4]]) :=
  eq_of_same (by decide +kernel)
example : (matrix.product (matrix.unique [3, 4]) (matrix.unique [1, 2])) = (matrix.many [[1, 3], [1, 4], [2,
    3], [2, 4]]) :=
  eq_of_same (by decide +kernel)

/-! weave/tests/forest/product.rs:138 `forests_are_disjoint_many` -/
example : (matrix.product (matrix.unique [1, 2]) (matrix.many [[3, 4], [5, 6]])) = (matrix.many [[1, 3, 4],
    [1, 5, 6], [2, 3, 4], [2, 5, 6]]) :=
  eq_of_same (by decide +kernel)
example : (matrix.product (matrix.many [[3, 4], [5, 6]]) (matrix.unique [1, 2])) = (matrix.many [[1, 3, 4],
    [1, 5, 6], [2, 3, 4], [2, 5, 6]]) :=
  eq_of_same (by decide +kernel)

/-! weave/tests/forest/subset.rs:5 `empty_forest` -/
example : (matrix.subset matrix.empty 1) = matrix.empty :=
  eq_of_same (by decide +kernel)

/-! weave/tests/forest/subset.rs:14 `unit_forest_with_disjoint_element` -/
example : (matrix.subset (matrix.unit [2, 3]) 1) = matrix.empty :=
  eq_of_same (by decide +kernel)

/-! weave/tests/forest/subset.rs:23 `many_forest_with_disjoint_element` -/
example : (matrix.subset (matrix.many [[1, 3], [2, 3]]) 4) = matrix.empty :=
  eq_of_same (by decide +kernel)

/-! weave/tests/forest/subset.rs:35 `unit_forest_with_matching_element` -/
example : (matrix.subset (matrix.unit [1, 2]) 1) = (matrix.unit [1, 2]) :=
  eq_of_same (by decide +kernel)

/-! weave/tests/forest/subset.rs:44 `many_forest_with_matching_element_1` -/
example : (matrix.subset (matrix.many [[1, 3], [2, 3]]) 1) = (matrix.unit [1, 3]) :=
  eq_of_same (by decide +kernel)

/-! weave/tests/forest/subset.rs:56 `many_forest_with_matching_element_2` -/
example : (matrix.subset (matrix.many [[1, 3], [2, 3]]) 2) = (matrix.unit [2, 3]) :=
  eq_of_same (by decide +kernel)

/-! weave/tests/forest/subset_not.rs:5 `empty_forest` -/
example : (matrix.subsetNot matrix.empty 1) = matrix.empty :=
  eq_of_same (by decide +kernel)

/-! weave/tests/forest/subset_not.rs:14 `unit_forest_with_disjoint_element` -/
example : (matrix.subsetNot (matrix.unit [2, 3]) 1) = (matrix.unit [2, 3]) :=
  eq_of_same (by decide +kernel)

/-! weave/tests/forest/subset_not.rs:23 `many_forest_with_disjoint_element` -/
example : (matrix.subsetNot (matrix.many [[1, 3], [2, 3]]) 4) = (matrix.many [[1, 3], [2, 3]]) :=
  eq_of_same (by decide +kernel)

/-! weave/tests/forest/subset_not.rs:38 `unit_forest_with_matching_element` -/
example : (matrix.subsetNot (matrix.unit [1, 2]) 1) = matrix.empty :=
  eq_of_same (by decide +kernel)

/-! weave/tests/forest/subset_not.rs:47 `many_forest_with_matching_element_1` -/
example : (matrix.subsetNot (matrix.many [[1, 3], [2, 3]]) 1) = (matrix.unit [2, 3]) :=
  eq_of_same (by decide +kernel)

/-! weave/tests/forest/subset_not.rs:59 `many_forest_with_matching_element_2` -/
example : (matrix.subsetNot (matrix.many [[1, 3], [2, 3]]) 2) = (matrix.unit [1, 3]) :=
  eq_of_same (by decide +kernel)

/-! weave/tests/forest/subset_all.rs:5 `empty_forest_with_single_element` -/
example : (matrix.subsetAll matrix.empty [1]) = matrix.empty :=
  eq_of_same (by decide +kernel)

/-! weave/tests/forest/subset_all.rs:14 `unit_forest_with_empty_elements` -/
example : (matrix.subsetAll (matrix.unit [1, 2]) []) = (matrix.unit [1, 2]) :=
  eq_of_same (by decide +kernel)

/-! weave/tests/forest/subset_all.rs:23 `unit_forest_with_one_element` -/
example : (matrix.subsetAll (matrix.unit [1, 2]) [1]) = (matrix.unit [1, 2]) :=
  eq_of_same (by decide +kernel)

/-! weave/tests/forest/subset_all.rs:32 `unit_forest_with_disjoint_elements` -/
example : (matrix.subsetAll (matrix.unit [2, 3]) [1, 2]) = matrix.empty :=
  eq_of_same (by decide +kernel)

/-! weave/tests/forest/subset_all.rs:41 `many_forest_with_one_element` -/
example : (matrix.subsetAll (matrix.many [[1, 3], [2, 3], [1, 2]]) [3]) = (matrix.many [[1, 3], [2, 3]]) :=
  eq_of_same (by decide +kernel)

/-! weave/tests/forest/subset_all.rs:57 `many_forest_with_many_elements` -/
example : (matrix.subsetAll (matrix.many [[1, 3], [2, 3], [1, 2]]) [1, 3]) = (matrix.unit [1, 3]) :=
  eq_of_same (by decide +kernel)

/-! weave/tests/forest/subset_none.rs:5 `empty_forest_with_single_element` -/
example : (matrix.subsetNone matrix.empty [1]) = matrix.empty :=
  eq_of_same (by decide +kernel)

/-! weave/tests/forest/subset_none.rs:14 `unit_forest_with_empty_elements` -/
example : (matrix.subsetNone (matrix.unit [1, 2]) []) = (matrix.unit [1, 2]) :=
  eq_of_same (by decide +kernel)

/-! weave/tests/forest/subset_none.rs:23 `unit_forest_with_one_element` -/
example : (matrix.subsetNone (matrix.unit [1, 2]) [1]) = matrix.empty :=
  eq_of_same (by decide +kernel)

/-! weave/tests/forest/subset_none.rs:32 `unit_forest_with_disjoint_elements` -/
example : (matrix.subsetNone (matrix.unit [2, 3]) [1]) = (matrix.unit [2, 3]) :=
  eq_of_same (by decide +kernel)

/-! weave/tests/forest/subset_none.rs:41 `many_forest_with_one_element` -/
example : (matrix.subsetNone (matrix.many [[1, 3], [2, 3], [1, 2]]) [3]) = (matrix.unit [1, 2]) :=
  eq_of_same (by decide +kernel)

/-! weave/tests/forest/subset_none.rs:54 `many_forest_with_many_elements` -/
example : (matrix.subsetNone (matrix.many [[1, 3], [2, 3], [1, 2]]) [1, 3]) = matrix.empty :=
  eq_of_same (by decide +kernel)

/-! weave/tests/forest/occurrences.rs:5 `empty` -/
example : (matrix.occurrences matrix.empty) = [] :=
  by decide +kernel

/-! weave/tests/forest/occurrences.rs:13 `unit_with_one` -/
example : (matrix.occurrences (matrix.unit [1, 1])) = [(1, 1)] :=
  by decide +kernel

/-! weave/tests/forest/occurrences.rs:23 `unit_with_two` -/
example : (matrix.occurrences (matrix.unit [1, 2])) = [(1, 1), (2, 1)] :=
  by decide +kernel

/-! weave/tests/forest/occurrences.rs:34 `overlapping_many` -/
example : (matrix.occurrences (matrix.many [[1, 2], [2, 3]])) = [(1, 1), (2, 2), (3, 1)] :=
  by decide +kernel

/-! weave/tests/forest/occurrences.rs:49 `disjoint_many` -/
example : (matrix.occurrences (matrix.many [[1, 2], [3, 4], [1, 2]])) = [(1, 1), (2, 1), (3, 1), (4, 1)] :=
  by decide +kernel

end Verif.Conform.ReplayMatrix
