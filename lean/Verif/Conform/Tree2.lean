import Verif.Conform.Run

/-!
# The repository's own tests, replayed on the model (Tree2)

Generated by tools/conform.py from the test functions cited; items are ranks of string literals.
-/

namespace Verif.Conform.ReplayTree2
open Verif.Conform

/-! weave/src/zdd2/tree/mod.rs:94 `empty_tree` -/
example : tree.empty = tree.empty :=
  eq_of_sameT (by decide +kernel)

/-! weave/src/zdd2/tree/mod.rs:102 `single_element` -/
example : (tree.one 1) = (tree.one 1) :=
  eq_of_sameT (by decide +kernel)

/-! weave/src/zdd2/tree/mod.rs:110 `many_element` -/
example : (tree.many [1, 2]) = (tree.many [1, 2]) :=
  eq_of_sameT (by decide +kernel)

/-! weave/src/zdd2/tree/mod.rs:118 `many_element_with_none` -/
example : tree.empty = (tree.many []) :=
  eq_of_sameT (by decide +kernel)

/-! weave/src/zdd2/tree/mod.rs:126 `many_element_with_one` -/
example : (tree.one 1) = (tree.many [1]) :=
  eq_of_sameT (by decide +kernel)

/-! weave/src/zdd2/tree/mod.rs:139 `empty_tree_is_default` -/
example : (tree.len tree.empty) = 0 :=
  by decide +kernel

/-! weave/src/zdd2/tree/mod.rs:146 `empty_tree_has_size_0` -/
example : (tree.len tree.empty) = 0 :=
  by decide +kernel

/-! weave/src/zdd2/tree/mod.rs:153 `empty_tree_is_empty` -/
example : (tree.isEmpty tree.empty) = true :=
  by decide +kernel

/-! weave/src/zdd2/tree/mod.rs:160 `empty_tree_into` -/
example : ((tree.items tree.empty)).isPerm [] = true :=
  by decide +kernel

/-! weave/src/zdd2/tree/mod.rs:172 `one_element_tree_has_size_1` -/
example : (tree.len (tree.one 1)) = 1 :=
  by decide +kernel

/-! weave/src/zdd2/tree/mod.rs:179 `one_element_tree_is_not_empty` -/
example : (tree.isEmpty (tree.one 1)) = false :=
  by decide +kernel

/-! weave/src/zdd2/tree/mod.rs:186 `one_element_tree_into` -/
example : ((tree.items (tree.one 1))).isPerm [1] = true :=
  by decide +kernel

/-! weave/src/zdd2/tree/mod.rs:198 `many_element_tree_has_size_n` -/
example : (tree.len (tree.many [1, 2])) = 2 :=
  by decide +kernel

/-! weave/src/zdd2/tree/mod.rs:205 `many_element_tree_is_not_empty` -/
example : (tree.isEmpty (tree.many [1, 2])) = false :=
  by decide +kernel

/-! weave/src/zdd2/tree/mod.rs:212 `many_element_tree_into` -/
example : ((tree.items (tree.many [1, 2]))).isPerm [1, 2] = true :=
  by decide +kernel

/-! weave/src/zdd2/tree/intersect.rs:40 `intersect_returns_left_when_left_is_subset_one` -/
example : (tree.intersect (tree.one 1) (tree.many [1, 2])) = (tree.one 1) :=
  eq_of_sameT (by decide +kernel)

/-! weave/src/zdd2/tree/intersect.rs:51 `intersect_returns_right_when_right_is_subset_one` -/
example : (tree.intersect (tree.many [1, 2]) (tree.one 2)) = (tree.one 2) :=
  eq_of_sameT (by decide +kernel)

/-! weave/src/zdd2/tree/intersect.rs:62 `intersect_returns_left_when_left_is_subset_many` -/
example : (tree.intersect (tree.many [1, 2]) (tree.many [1, 2, 3])) = (tree.many [1, 2]) :=
  eq_of_sameT (by decide +kernel)

/-! weave/src/zdd2/tree/intersect.rs:73 `intersect_returns_right_when_right_is_subset_many` -/
example : (tree.intersect (tree.many [1, 2, 3]) (tree.many [1, 2])) = (tree.many [1, 2]) :=
  eq_of_sameT (by decide +kernel)

/-! weave/src/zdd2/tree/intersect.rs:89 `left_side_empty` -/
example : (tree.intersect tree.empty (tree.one 1)) = tree.empty :=
  eq_of_sameT (by decide +kernel)

/-! weave/src/zdd2/tree/intersect.rs:100 `right_side_empty` -/
example : (tree.intersect (tree.one 1) tree.empty) = tree.empty :=
  eq_of_sameT (by decide +kernel)

/-! weave/src/zdd2/tree/intersect.rs:111 `returns_empty_when_trees_are_disjoint` -/
example : (tree.intersect (tree.one 1) (tree.one 2)) = tree.empty :=
  eq_of_sameT (by decide +kernel)

/-! weave/src/zdd2/tree/intersect.rs:122 `intersect_returns_identity_when_both_trees_are_empty` -/
example : (tree.intersect tree.empty tree.empty) = tree.empty :=
  eq_of_sameT (by decide +kernel)

/-! weave/src/zdd2/tree/intersect.rs:133 `intersect_returns_identity_when_trees_are_equal_one` -/
example : (tree.intersect (tree.one 1) (tree.one 1)) = (tree.one 1) :=
  eq_of_sameT (by decide +kernel)

/-! weave/src/zdd2/tree/intersect.rs:144 `intersect_returns_identity_when_trees_are_equal_many` -/
example : (tree.intersect (tree.many [1, 2]) (tree.many [1, 2])) = (tree.many [1, 2]) :=
  eq_of_sameT (by decide +kernel)

/-! weave/src/zdd2/tree/intersect.rs:155 `intersect_returns_common_one` -/
example : (tree.intersect (tree.many [2, 3]) (tree.many [1, 2])) = (tree.one 2) :=
  eq_of_sameT (by decide +kernel)

/-! weave/src/zdd2/tree/intersect.rs:166 `intersect_returns_common_many` -/
example : (tree.intersect (tree.many [1, 2, 3]) (tree.many [2, 3, 4])) = (tree.many [2, 3]) :=
  eq_of_sameT (by decide +kernel)

/-! weave/src/zdd2/tree/union.rs:37 `union_returns_right_when_left_is_one_subset` -/
example : (tree.union (tree.one 1) (tree.many [1, 2])) = (tree.many [1, 2]) :=
  eq_of_sameT (by decide +kernel)

/-! weave/src/zdd2/tree/union.rs:48 `union_returns_left_when_right_is_one_subset` -/
example : (tree.union (tree.many [1, 2]) (tree.one 2)) = (tree.many [1, 2]) :=
  eq_of_sameT (by decide +kernel)

/-! weave/src/zdd2/tree/union.rs:59 `union_returns_left_when_left_is_many_subset` -/
example : (tree.union (tree.many [1, 2]) (tree.many [1, 2, 3])) = (tree.many [1, 2, 3]) :=
  eq_of_sameT (by decide +kernel)

/-! weave/src/zdd2/tree/union.rs:70 `union_returns_right_when_right_is_many_subset` -/
example : (tree.union (tree.many [1, 2, 3]) (tree.many [1, 2])) = (tree.many [1, 2, 3]) :=
  eq_of_sameT (by decide +kernel)

/-! weave/src/zdd2/tree/union.rs:86 `left_side_empty` -/
example : (tree.union tree.empty (tree.one 1)) = (tree.one 1) :=
  eq_of_sameT (by decide +kernel)

/-! weave/src/zdd2/tree/union.rs:97 `right_side_empty` -/
example : (tree.union (tree.one 1) tree.empty) = (tree.one 1) :=
  eq_of_sameT (by decide +kernel)

/-! weave/src/zdd2/tree/union.rs:108 `returns_all_when_trees_are_disjoint` -/
example : (tree.union (tree.one 1) (tree.one 2)) = (tree.many [1, 2]) :=
  eq_of_sameT (by decide +kernel)

/-! weave/src/zdd2/tree/union.rs:119 `union_returns_identity_when_trees_are_equal` -/
example : (tree.union tree.empty tree.empty) = tree.empty :=
  eq_of_sameT (by decide +kernel)

/-! weave/src/zdd2/tree/union.rs:130 `union_returns_identity_when_trees_are_equal_one` -/
example : (tree.union (tree.one 1) (tree.one 1)) = (tree.one 1) :=
  eq_of_sameT (by decide +kernel)

/-! weave/src/zdd2/tree/union.rs:141 `union_returns_identity_when_trees_are_equal_many` -/
example : (tree.union (tree.many [1, 2]) (tree.many [1, 2])) = (tree.many [1, 2]) :=
  eq_of_sameT (by decide +kernel)

/-! weave/src/zdd2/tree/union.rs:152 `union_returns_many` -/
example : (tree.union (tree.many [2, 3]) (tree.many [1, 2])) = (tree.many [1, 2, 3]) :=
  eq_of_sameT (by decide +kernel)

/-! weave/src/zdd2/tree/product.rs:48 `left_side_empty` -/
example : (zdd2.treeProduct tree.empty (tree.one 1)) = zdd2.empty :=
  by zrun

/-! weave/src/zdd2/tree/product.rs:59 `right_side_empty` -/
example : (zdd2.treeProduct (tree.one 1) tree.empty) = zdd2.empty :=
  by zrun

/-! weave/src/zdd2/tree/product.rs:70 `returns_unit_when_trees_are_disjoint` -/
example : (zdd2.treeProduct (tree.one 1) (tree.one 2)) = (zdd2.unit [1, 2]) :=
  by zrun

/-! weave/src/zdd2/tree/product.rs:81 `product_returns_identity_when_both_trees_are_empty` -/
example : (zdd2.treeProduct tree.empty tree.empty) = zdd2.empty :=
  by zrun

/-! weave/src/zdd2/tree/product.rs:92 `product_returns_identity_when_trees_are_equal_one` -/
example : (zdd2.treeProduct (tree.one 1) (tree.one 1)) = (zdd2.unit [1]) :=
  by zrun

/-! weave/src/zdd2/tree/product.rs:103 `product_returns_many_when_trees_are_equal_many` -/
example : (zdd2.treeProduct (tree.many [1, 2]) (tree.many [1, 2])) = (zdd2.many [[1], [1, 2], [2]]) :=
  by zrun

/-! weave/src/zdd2/tree/product.rs:118 `product_returns_many_trees_of_2` -/
example : (zdd2.treeProduct (tree.many [2, 3]) (tree.many [1, 2])) = (zdd2.many [[1, 2], [1, 3], [2, 3],
    [2]]) :=
  by zrun

/-! weave/src/zdd2/tree/product.rs:134 `product_returns_many_trees_of_3` -/
example : (zdd2.treeProduct (tree.many [1, 2, 3]) (tree.many [2, 3, 4])) = (zdd2.many [[1, 2], [1, 3], [1,
    4], [2], [2, 3], [2, 4], [3], [3, 4]]) :=
  by zrun

end Verif.Conform.ReplayTree2
