import Verif.Conform.Run

/-!
# The repository's own tests, replayed on the model (Tree)

Generated by tools/conform.py from the test functions cited; items are ranks of string literals.
-/

namespace Verif.Conform.ReplayTree
open Verif.Conform

/-! weave/src/matrix/tree/mod.rs:93 `empty_tree` -/
example : tree.empty = tree.empty :=
  eq_of_sameT (by decide +kernel)

/-! weave/src/matrix/tree/mod.rs:101 `single_element` -/
example : (tree.one 1) = (tree.one 1) :=
  eq_of_sameT (by decide +kernel)

/-! weave/src/matrix/tree/mod.rs:109 `many_element` -/
example : (tree.many [1, 2]) = (tree.many [1, 2]) :=
  eq_of_sameT (by decide +kernel)

/-! weave/src/matrix/tree/mod.rs:117 `many_element_with_none` -/
example : tree.empty = (tree.many []) :=
  eq_of_sameT (by decide +kernel)

/-! weave/src/matrix/tree/mod.rs:125 `many_element_with_one` -/
example : (tree.one 1) = (tree.many [1]) :=
  eq_of_sameT (by decide +kernel)

/-! weave/src/matrix/tree/mod.rs:138 `empty_tree_is_default` -/
example : (tree.len tree.empty) = 0 :=
  by decide +kernel

/-! weave/src/matrix/tree/mod.rs:145 `empty_tree_has_size_0` -/
example : (tree.len tree.empty) = 0 :=
  by decide +kernel

/-! weave/src/matrix/tree/mod.rs:152 `empty_tree_is_empty` -/
example : (tree.isEmpty tree.empty) = true :=
  by decide +kernel

/-! weave/src/matrix/tree/mod.rs:159 `empty_tree_into` -/
example : ((tree.items tree.empty)).isPerm [] = true :=
  by decide +kernel

/-! weave/src/matrix/tree/mod.rs:171 `one_element_tree_has_size_1` -/
example : (tree.len (tree.one 1)) = 1 :=
  by decide +kernel

/-! weave/src/matrix/tree/mod.rs:178 `one_element_tree_is_not_empty` -/
example : (tree.isEmpty (tree.one 1)) = false :=
  by decide +kernel

/-! weave/src/matrix/tree/mod.rs:185 `one_element_tree_into` -/
example : ((tree.items (tree.one 1))).isPerm [1] = true :=
  by decide +kernel

/-! weave/src/matrix/tree/mod.rs:197 `many_element_tree_has_size_n` -/
example : (tree.len (tree.many [1, 2])) = 2 :=
  by decide +kernel

/-! weave/src/matrix/tree/mod.rs:204 `many_element_tree_is_not_empty` -/
example : (tree.isEmpty (tree.many [1, 2])) = false :=
  by decide +kernel

/-! weave/src/matrix/tree/mod.rs:211 `many_element_tree_into` -/
example : ((tree.items (tree.many [1, 2]))).isPerm [1, 2] = true :=
  by decide +kernel

/-! weave/src/matrix/tree/intersect.rs:40 `intersect_returns_left_when_left_is_subset_one` -/
example : (tree.intersect (tree.one 1) (tree.many [1, 2])) = (tree.one 1) :=
  eq_of_sameT (by decide +kernel)

/-! weave/src/matrix/tree/intersect.rs:51 `intersect_returns_right_when_right_is_subset_one` -/
example : (tree.intersect (tree.many [1, 2]) (tree.one 2)) = (tree.one 2) :=
  eq_of_sameT (by decide +kernel)

/-! weave/src/matrix/tree/intersect.rs:62 `intersect_returns_left_when_left_is_subset_many` -/
example : (tree.intersect (tree.many [1, 2]) (tree.many [1, 2, 3])) = (tree.many [1, 2]) :=
  eq_of_sameT (by decide +kernel)

/-! weave/src/matrix/tree/intersect.rs:73 `intersect_returns_right_when_right_is_subset_many` -/
example : (tree.intersect (tree.many [1, 2, 3]) (tree.many [1, 2])) = (tree.many [1, 2]) :=
  eq_of_sameT (by decide +kernel)

/-! weave/src/matrix/tree/intersect.rs:89 `left_side_empty` -/
example : (tree.intersect tree.empty (tree.one 1)) = tree.empty :=
  eq_of_sameT (by decide +kernel)

/-! weave/src/matrix/tree/intersect.rs:100 `right_side_empty` -/
example : (tree.intersect (tree.one 1) tree.empty) = tree.empty :=
  eq_of_sameT (by decide +kernel)

/-! weave/src/matrix/tree/intersect.rs:111 `returns_empty_when_trees_are_disjoint` -/
example : (tree.intersect (tree.one 1) (tree.one 2)) = tree.empty :=
  eq_of_sameT (by decide +kernel)

/-! weave/src/matrix/tree/intersect.rs:122 `intersect_returns_identity_when_both_trees_are_empty` -/
example : (tree.intersect tree.empty tree.empty) = tree.empty :=
  eq_of_sameT (by decide +kernel)

/-! weave/src/matrix/tree/intersect.rs:133 `intersect_returns_identity_when_trees_are_equal_one` -/
example : (tree.intersect (tree.one 1) (tree.one 1)) = (tree.one 1) :=
  eq_of_sameT (by decide +kernel)

/-! weave/src/matrix/tree/intersect.rs:144 `intersect_returns_identity_when_trees_are_equal_many` -/
example : (tree.intersect (tree.many [1, 2]) (tree.many [1, 2])) = (tree.many [1, 2]) :=
  eq_of_sameT (by decide +kernel)

/-! weave/src/matrix/tree/intersect.rs:155 `intersect_returns_common_one` -/
example : (tree.intersect (tree.many [2, 3]) (tree.many [1, 2])) = (tree.one 2) :=
  eq_of_sameT (by decide +kernel)

/-! weave/src/matrix/tree/intersect.rs:166 `intersect_returns_common_many` -/
example : (tree.intersect (tree.many [1, 2, 3]) (tree.many [2, 3, 4])) = (tree.many [2, 3]) :=
  eq_of_sameT (by decide +kernel)

/-! weave/src/matrix/tree/union.rs:37 `union_returns_right_when_left_is_one_subset` -/
example : (tree.union (tree.one 1) (tree.many [1, 2])) = (tree.many [1, 2]) :=
  eq_of_sameT (by decide +kernel)

/-! weave/src/matrix/tree/union.rs:48 `union_returns_left_when_right_is_one_subset` -/
example : (tree.union (tree.many [1, 2]) (tree.one 2)) = (tree.many [1, 2]) :=
  eq_of_sameT (by decide +kernel)

/-! weave/src/matrix/tree/union.rs:59 `union_returns_left_when_left_is_many_subset` -/
example : (tree.union (tree.many [1, 2]) (tree.many [1, 2, 3])) = (tree.many [1, 2, 3]) :=
  eq_of_sameT (by decide +kernel)

/-! weave/src/matrix/tree/union.rs:70 `union_returns_right_when_right_is_many_subset` -/
example : (tree.union (tree.many [1, 2, 3]) (tree.many [1, 2])) = (tree.many [1, 2, 3]) :=
  eq_of_sameT (by decide +kernel)

/-! weave/src/matrix/tree/union.rs:86 `left_side_empty` -/
example : (tree.union tree.empty (tree.one 1)) = (tree.one 1) :=
  eq_of_sameT (by decide +kernel)

/-! weave/src/matrix/tree/union.rs:97 `right_side_empty` -/
example : (tree.union (tree.one 1) tree.empty) = (tree.one 1) :=
  eq_of_sameT (by decide +kernel)

/-! weave/src/matrix/tree/union.rs:108 `returns_all_when_trees_are_disjoint` -/
example : (tree.union (tree.one 1) (tree.one 2)) = (tree.many [1, 2]) :=
  eq_of_sameT (by decide +kernel)

/-! weave/src/matrix/tree/union.rs:119 `union_returns_identity_when_trees_are_equal` -/
example : (tree.union tree.empty tree.empty) = tree.empty :=
  eq_of_sameT (by decide +kernel)

/-! weave/src/matrix/tree/union.rs:130 `union_returns_identity_when_trees_are_equal_one` -/
example : (tree.union (tree.one 1) (tree.one 1)) = (tree.one 1) :=
  eq_of_sameT (by decide +kernel)

/-! weave/src/matrix/tree/union.rs:141 `union_returns_identity_when_trees_are_equal_many` -/
example : (tree.union (tree.many [1, 2]) (tree.many [1, 2])) = (tree.many [1, 2]) :=
  eq_of_sameT (by decide +kernel)

/-! weave/src/matrix/tree/union.rs:152 `union_returns_many` -/
example : (tree.union (tree.many [2, 3]) (tree.many [1, 2])) = (tree.many [1, 2, 3]) :=
  eq_of_sameT (by decide +kernel)

/-! weave/src/matrix/tree/product.rs:48 `left_side_empty` -/
example : (matrix.treeProduct tree.empty (tree.one 1)) = matrix.empty :=
  eq_of_same (by decide +kernel)

/-! weave/src/matrix/tree/product.rs:59 `right_side_empty` -/
example : (matrix.treeProduct (tree.one 1) tree.empty) = matrix.empty :=
  eq_of_same (by decide +kernel)

/-! weave/src/matrix/tree/product.rs:70 `returns_unit_when_trees_are_disjoint` -/
example : (matrix.treeProduct (tree.one 1) (tree.one 2)) = (matrix.unit [1, 2]) :=
  eq_of_same (by decide +kernel)

/-! weave/src/matrix/tree/product.rs:81 `product_returns_identity_when_both_trees_are_empty` -/
example : (matrix.treeProduct tree.empty tree.empty) = matrix.empty :=
  eq_of_same (by decide +kernel)

/-! weave/src/matrix/tree/product.rs:92 `product_returns_identity_when_trees_are_equal_one` -/
example : (matrix.treeProduct (tree.one 1) (tree.one 1)) = (matrix.unit [1]) :=
  eq_of_same (by decide +kernel)

/-! weave/src/matrix/tree/product.rs:103 `product_returns_many_when_trees_are_equal_many` -/
example : (matrix.treeProduct (tree.many [1, 2]) (tree.many [1, 2])) = (matrix.many [[1], [1, 2], [2]]) :=
  eq_of_same (by decide +kernel)

/-! weave/src/matrix/tree/product.rs:118 `product_returns_many_trees_of_2` -/
example : (matrix.treeProduct (tree.many [2, 3]) (tree.many [1, 2])) = (matrix.many [[1, 2], [1, 3], [2, 3],
    [2]]) :=
  eq_of_same (by decide +kernel)

/-! weave/src/matrix/tree/product.rs:134 `product_returns_many_trees_of_3` -/
example : (matrix.treeProduct (tree.many [1, 2, 3]) (tree.many [2, 3, 4])) = (matrix.many [[1, 2], [1, 3],
    [1, 4], [2], [2, 3], [2, 4], [3], [3, 4]]) :=
  eq_of_same (by decide +kernel)

end Verif.Conform.ReplayTree
