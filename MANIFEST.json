{
 "claims": [
  {
   "property": "C01",
   "status": "proved",
   "theorems": [
    "Verif.Matrix.many_family",
    "Verif.Matrix.unit_family",
    "Verif.Matrix.unique_family",
    "Verif.Matrix.empty_family"
   ],
   "note": ""
  },
  {
   "property": "C02",
   "status": "proved",
   "theorems": [
    "Verif.Matrix.union_family",
    "Verif.Matrix.run_family"
   ],
   "note": ""
  },
  {
   "property": "C03",
   "status": "proved",
   "theorems": [
    "Verif.Matrix.intersect_family",
    "Verif.Matrix.run_family"
   ],
   "note": ""
  },
  {
   "property": "C04",
   "status": "proved",
   "theorems": [
    "Verif.Matrix.product_family",
    "Verif.Matrix.run_family"
   ],
   "note": ""
  },
  {
   "property": "C05",
   "status": "proved",
   "theorems": [
    "Verif.Matrix.subset_family",
    "Verif.Matrix.subsetNot_family",
    "Verif.Matrix.subsetAll_family",
    "Verif.Matrix.subsetNone_family",
    "Verif.Matrix.run_family"
   ],
   "note": ""
  },
  {
   "property": "C06",
   "status": "proved",
   "theorems": [
    "Verif.Matrix.trees_exact",
    "Verif.Matrix.len_exact",
    "Verif.Matrix.isEmpty_exact",
    "Verif.Matrix.occurrences_exact"
   ],
   "note": ""
  },
  {
   "property": "C07",
   "status": "proved",
   "theorems": [
    "Verif.Matrix.runs_deterministic",
    "Verif.Matrix.occurrences_deterministic"
   ],
   "note": ""
  },
  {
   "property": "C08",
   "status": "partial",
   "theorems": [
    "Verif.Matrix.eq_not_extensional",
    "Verif.Matrix.eq_extensional_partial",
    "Verif.Matrix.eq_iff_partial"
   ],
   "note": "False of the code in general (negation proved); eq_iff_partial says exactly when two forests are equal."
  },
  {
   "property": "C09",
   "status": "proved",
   "theorems": [
    "Verif.Tree.tree_construct",
    "Verif.Tree.tree_len",
    "Verif.Tree.tree_intersect",
    "Verif.Tree.tree_product",
    "Verif.Trait.tree_product_zdd2"
   ],
   "note": ""
  },
  {
   "property": "C10",
   "status": "partial",
   "theorems": [
    "Verif.Tree.tree_union_not_exact",
    "Verif.Tree.tree_union_partial"
   ],
   "note": "False of the code in general (negation proved)."
  },
  {
   "property": "C11",
   "status": "proved",
   "theorems": [
    "Verif.Arena.returned_resolves",
    "Verif.Arena.returned_same_iff",
    "Verif.Arena.resolve_stable",
    "Verif.Arena.leaf_constants",
    "Verif.Arena.missed_can_finish"
   ],
   "note": ""
  },
  {
   "property": "C12",
   "status": "proved",
   "theorems": [
    "Verif.Arena.id_denotes",
    "Verif.Arena.id_eq_iff",
    "Verif.Arena.denotation_stable",
    "Verif.Arena.conversion_denotes"
   ],
   "note": ""
  },
  {
   "property": "C13",
   "status": "proved",
   "theorems": [
    "Verif.Zdd2.many_family",
    "Verif.Zdd2.unit_family",
    "Verif.Zdd2.unique_family",
    "Verif.Zdd2.empty_family"
   ],
   "note": ""
  },
  {
   "property": "C14",
   "status": "proved",
   "theorems": [
    "Verif.Zdd2.trees_exact",
    "Verif.Zdd2.trees_nonempty",
    "Verif.Zdd2.len_exact",
    "Verif.Zdd2.isEmpty_exact"
   ],
   "note": ""
  },
  {
   "property": "C15",
   "status": "proved",
   "theorems": [
    "Verif.Zdd2.occurrences_exact"
   ],
   "note": ""
  },
  {
   "property": "C16",
   "status": "proved",
   "theorems": [
    "Verif.Zdd2.eq_iff_family",
    "Verif.Zdd2.many_eq_iff"
   ],
   "note": ""
  },
  {
   "property": "C17",
   "status": "partial",
   "theorems": [
    "Verif.Zdd2.union_not_exact",
    "Verif.Zdd2.union_family_partial",
    "Verif.Zdd2.union_cases_partial",
    "Verif.Zdd2.union_exact",
    "Verif.Zdd2.union_right_iff",
    "Verif.Zdd2.union_keeps_partial",
    "Verif.Zdd2.union_disjoint_iff",
    "Verif.Zdd2.union_members_le"
   ],
   "note": "False of the code in general (negation proved); set union under the Compatible condition on frequencies. What it does compute is characterised exactly for every pair of forests (union_exact); for forests without a common member it is set union if and only if both families satisfy Keeps, a condition on the members and their frequencies (union_disjoint_iff)."
  },
  {
   "property": "C18",
   "status": "partial",
   "theorems": [
    "Verif.Zdd2.intersect_not_exact",
    "Verif.Zdd2.intersect_bounds",
    "Verif.Zdd2.intersect_family_partial",
    "Verif.Zdd2.intersect_disjoint_partial",
    "Verif.Zdd2.intersect_unique_partial",
    "Verif.Zdd2.intersect_exact_partial",
    "Verif.Zdd2.intersect_right_iff_partial",
    "Verif.Zdd2.intersect_exact",
    "Verif.Zdd2.intersect_keeps_partial"
   ],
   "note": "False of the code in general (negation proved). What it does compute is characterised exactly for every pair (intersect_exact) and, more simply, for Compatible operands, with a necessary and sufficient condition for it to be the intersection; bounds without Compatible."
  },
  {
   "property": "C19",
   "status": "partial",
   "theorems": [
    "Verif.Zdd2.product_not_exact",
    "Verif.Zdd2.product_bounds",
    "Verif.Zdd2.product_self",
    "Verif.Zdd2.product_family_partial",
    "Verif.Zdd2.product_disjoint_partial",
    "Verif.Zdd2.product_exact_partial",
    "Verif.Zdd2.product_exact",
    "Verif.Zdd2.product_keeps_partial"
   ],
   "note": "False of the code in general (negation proved). What it does compute is characterised exactly for every pair (product_exact) and, more simply, for Compatible operands; it is the product when a family is UnionClosed or they are ItemDisjoint."
  },
  {
   "property": "C20",
   "status": "proved",
   "theorems": [
    "Verif.Zdd2.subset_family",
    "Verif.Zdd2.subsetNot_family"
   ],
   "note": ""
  },
  {
   "property": "C21",
   "status": "proved",
   "theorems": [
    "Verif.Zdd2.subsetAll_family"
   ],
   "note": ""
  },
  {
   "property": "C22",
   "status": "partial",
   "theorems": [
    "Verif.Zdd2.subsetNone_not_exact",
    "Verif.Zdd2.subsetNone_bounds",
    "Verif.Zdd2.subsetNone_unknown",
    "Verif.Zdd2.subsetNone_family_partial",
    "Verif.Zdd2.subsetNone_one_partial",
    "Verif.Zdd2.subsetNone_exact_partial"
   ],
   "note": "False of the code in general (negation proved). What it does compute is characterised exactly for every forest and element list; bounds and a condition for the intended result."
  },
  {
   "property": "C23",
   "status": "proved",
   "theorems": [
    "Verif.Zdd2.priority_bijective",
    "Verif.Zdd2.priority_known",
    "Verif.Zdd2.priority_dense",
    "Verif.Zdd2.priority_order",
    "Verif.Zdd2.priorities_roundtrip"
   ],
   "note": ""
  },
  {
   "property": "C24",
   "status": "proved",
   "theorems": [
    "Verif.Zdd2.merge_exact"
   ],
   "note": ""
  },
  {
   "property": "C25",
   "status": "proved",
   "theorems": [
    "Verif.Zdd2.branch_ordered",
    "Verif.Zdd2.branch_exact",
    "Verif.Zdd2.branch_not_exact"
   ],
   "note": ""
  },
  {
   "property": "C26",
   "status": "proved",
   "theorems": [
    "Verif.Zdd2.node_text_roundtrip",
    "Verif.Zdd2.node_text_injective",
    "Verif.Zdd2.parsed_ordered",
    "Verif.Zdd2.parse_ignores_rest",
    "Verif.Zdd2.parse_iff",
    "Verif.Zdd2.parse_white",
    "Verif.Zdd2.parse_first",
    "Verif.Text.trim_spec",
    "Verif.Text.isWhite_iff"
   ],
   "note": ""
  },
  {
   "property": "C27",
   "status": "proved",
   "theorems": [
    "Verif.Zdd2.universe_roundtrip",
    "Verif.Zdd2.forest_roundtrip",
    "Verif.Zdd2.serialize_deterministic"
   ],
   "note": ""
  },
  {
   "property": "C28",
   "status": "proved",
   "theorems": [
    "Verif.Zdd2.backends_agree",
    "Verif.Zdd2.backends_agree_build",
    "Verif.Zdd2.safe_family"
   ],
   "note": ""
  },
  {
   "property": "C29",
   "status": "proved",
   "theorems": [
    "Verif.Zdd1.tree_exact",
    "Verif.Zdd1.hyper_tree_exact",
    "Verif.Zdd1.unique_tree_exact",
    "Verif.Zdd1.empty_unit_exact",
    "Verif.Zdd1.combinations_listing",
    "Verif.Zdd1.hyper_tree_order"
   ],
   "note": ""
  },
  {
   "property": "C30",
   "status": "proved",
   "theorems": [
    "Verif.Zdd1.union_exact",
    "Verif.Zdd1.union_exact_built"
   ],
   "note": ""
  },
  {
   "property": "C31",
   "status": "partial",
   "theorems": [
    "Verif.Zdd1.intersect_not_exact",
    "Verif.Zdd1.intersect_bounds_partial",
    "Verif.Zdd1.intersect_trivial_partial",
    "Verif.Zdd1.intersect_right_iff",
    "Verif.Zdd1.intersect_never_empty",
    "Verif.Zdd1.intersect_bags",
    "Verif.Zdd1.intersect_bags_right_iff",
    "Verif.Zdd1.intersect_never_empty_any"
   ],
   "note": "False of the code in general (negation proved); intersect_right_iff says exactly when it holds, intersect_bags and intersect_bags_right_iff for every tree over one universe, repeated items included."
  },
  {
   "property": "C32",
   "status": "partial",
   "theorems": [
    "Verif.Zdd1.product_not_exact",
    "Verif.Zdd1.product_sound_partial",
    "Verif.Zdd1.product_complete_partial",
    "Verif.Zdd1.product_exact_disjoint_partial",
    "Verif.Zdd1.product_exact_partial",
    "Verif.Zdd1.product_bags"
   ],
   "note": "False of the code in general (negation proved). What it does compute is characterised exactly for all trees over one universe (product_bags; without repeated items product_exact_partial)."
  },
  {
   "property": "C33",
   "status": "proved",
   "theorems": [
    "Verif.Zdd1.combinations_with_exact",
    "Verif.Zdd1.combinations_with_family",
    "Verif.Zdd1.restrict_exact",
    "Verif.Zdd1.restrict_restrict"
   ],
   "note": ""
  },
  {
   "property": "C34",
   "status": "proved",
   "theorems": [
    "Verif.Zdd1.summarize_exact",
    "Verif.Zdd1.summarize_once",
    "Verif.Zdd1.summarize_deterministic"
   ],
   "note": ""
  },
  {
   "property": "C35",
   "status": "proved",
   "theorems": [
    "Verif.Zdd1.node_text_roundtrip",
    "Verif.Zdd1.node_text_injective",
    "Verif.Zdd1.parse_iff"
   ],
   "note": ""
  },
  {
   "property": "C36",
   "status": "proved",
   "theorems": [
    "Verif.Bdd.and_or_eval"
   ],
   "note": ""
  },
  {
   "property": "C37",
   "status": "partial",
   "theorems": [
    "Verif.Bdd.not_xor_wrong",
    "Verif.Bdd.not_partial",
    "Verif.Bdd.xor_partial",
    "Verif.Bdd.not_xor_iff_partial"
   ],
   "note": "False of the code (Not only swaps the root's children); negation proved, and not_xor_iff_partial says exactly for which choices each operator is right."
  },
  {
   "property": "C38",
   "status": "proved",
   "theorems": [
    "Verif.Bdd.nodes_canonical",
    "Verif.Bdd.build_order_irrelevant"
   ],
   "note": ""
  },
  {
   "property": "C39",
   "status": "proved",
   "theorems": [
    "Verif.Bdd.build_accepts"
   ],
   "note": ""
  },
  {
   "property": "C40",
   "status": "proved",
   "theorems": [
    "Verif.Bdd.build_validates",
    "Verif.Bdd.plural_calls"
   ],
   "note": ""
  },
  {
   "property": "C41",
   "status": "proved",
   "theorems": [
    "Verif.Bdd.summary_exact",
    "Verif.Bdd.summary_one_status",
    "Verif.Bdd.select_unsatisfiable"
   ],
   "note": ""
  },
  {
   "property": "C42",
   "status": "proved",
   "theorems": [
    "Verif.Bdd.select_exact",
    "Verif.Bdd.selected_accepts",
    "Verif.Bdd.select_order_irrelevant",
    "Verif.Bdd.select_all_ok_iff",
    "Verif.Bdd.select_unsatisfiable"
   ],
   "note": ""
  },
  {
   "property": "C43",
   "status": "proved",
   "theorems": [
    "Verif.Bdd.complete_exact",
    "Verif.Bdd.complete_general"
   ],
   "note": ""
  },
  {
   "property": "C44",
   "status": "partial",
   "theorems": [
    "Verif.Bdd.complete_after_select_wrong",
    "Verif.Bdd.complete_after_select_partial"
   ],
   "note": "False of the code (selected items are missing from the completed outfit); negation proved."
  },
  {
   "property": "C45",
   "status": "proved",
   "theorems": [
    "Verif.Bdd.outfit_count_exact"
   ],
   "note": ""
  },
  {
   "property": "C46",
   "status": "proved",
   "theorems": [
    "Verif.Bdd.closet_roundtrip",
    "Verif.Bdd.node_roundtrip_wrong"
   ],
   "note": ""
  },
  {
   "property": "C47",
   "status": "proved",
   "theorems": [
    "Verif.Zdd2.run_total",
    "Verif.Zdd2.binary_total",
    "Verif.Zdd2.fmt_total",
    "Verif.Arena.returned_resolves",
    "Verif.Zdd1.traverse_total_built",
    "Verif.Bdd.complete_general",
    "Verif.Bdd.closet_roundtrip",
    "Verif.ArenaZdd2.threads_exact"
   ],
   "note": "zdd2 and v1 unwraps, arena look-ups, complete_outfit (its Option result is the pop/unwrap) and reading back a closet."
  },
  {
   "property": "C48",
   "status": "proved",
   "theorems": [
    "Verif.Bdd.restrict_cofactor"
   ],
   "note": ""
  },
  {
   "property": "C49",
   "status": "proved",
   "theorems": [
    "Verif.Matrix.comm_laws",
    "Verif.Matrix.member_laws"
   ],
   "note": ""
  },
  {
   "property": "C50",
   "status": "proved",
   "theorems": [
    "Verif.Weave.ItemStatus.predicates_exact",
    "Verif.Weave.ItemStatus.is_iff",
    "Verif.Weave.ItemStatus.map_spec",
    "Verif.Weave.ItemStatus.option_map_spec",
    "Verif.Weave.ItemStatus.map_laws",
    "Verif.Weave.ItemStatus.order_spec",
    "Verif.Bdd.Status.predicates_exact",
    "Verif.Bdd.Status.is_iff",
    "Verif.Bdd.Status.order_spec"
   ],
   "note": ""
  },
  {
   "property": "C51",
   "status": "proved",
   "theorems": [
    "Verif.Bdd.categorize_exact"
   ],
   "note": ""
  },
  {
   "property": "C52",
   "status": "proved",
   "theorems": [
    "Verif.Zdd2.same_universe_bounds",
    "Verif.Zdd2.intersect_bounds",
    "Verif.Zdd2.product_bounds"
   ],
   "note": ""
  },
  {
   "property": "C53",
   "status": "proved",
   "theorems": [
    "Verif.Bdd.hash_structure_shape"
   ],
   "note": ""
  },
  {
   "property": "C54",
   "status": "proved",
   "theorems": [
    "Verif.Bdd.closet_counts"
   ],
   "note": ""
  },
  {
   "property": "C55",
   "status": "proved",
   "theorems": [
    "Verif.Zdd2.ops_comm",
    "Verif.Zdd2.ops_idem",
    "Verif.Zdd2.ops_empty"
   ],
   "note": ""
  },
  {
   "property": "C56",
   "status": "proved",
   "theorems": [
    "Verif.Zdd2.ops_items"
   ],
   "note": ""
  },
  {
   "property": "C57",
   "status": "proved",
   "theorems": [
    "Verif.Zdd2.universe_deterministic",
    "Verif.Zdd2.merge_deterministic",
    "Verif.Zdd2.occurrences_deterministic"
   ],
   "note": ""
  },
  {
   "property": "C58",
   "status": "partial",
   "theorems": [
    "Verif.Zdd2.foreign_data_panics",
    "Verif.Zdd2.own_data_safe_partial",
    "Verif.Zdd2.held_use_iff_partial",
    "Verif.Zdd2.held_result_reach",
    "Verif.Zdd2.sane_iff"
   ],
   "note": "False of the code for foreign data (witness theorem); proved for data the library wrote, and held_use_iff_partial says exactly which forests can be used."
  },
  {
   "property": "C59",
   "status": "partial",
   "theorems": [
    "Verif.Zdd1.eq_not_extensional",
    "Verif.Zdd1.eq_iff_combinations_partial",
    "Verif.Zdd1.tree_eq_iff_partial",
    "Verif.Zdd1.ops_comm",
    "Verif.Zdd1.ops_idem",
    "Verif.Zdd1.union_assoc",
    "Verif.Zdd1.eq_iff_bags",
    "Verif.Zdd1.union_assoc_any"
   ],
   "note": "False of combinations given with repeated items (negation proved); eq_iff_bags says exactly when any two trees over one universe are equal. Commutativity, idempotence and associativity hold for all trees (ops_comm, ops_idem, union_assoc_any)."
  },
  {
   "property": "C60",
   "status": "partial",
   "theorems": [
    "Verif.Zdd1.traverse_can_panic",
    "Verif.Zdd1.traverse_total_partial",
    "Verif.Zdd1.traverse_iff",
    "Verif.Zdd1.union_traverse_iff_partial",
    "Verif.Zdd1.traverse_exact"
   ],
   "note": "False across universes (witness proved); traverse_iff and union_traverse_iff_partial say exactly when it returns."
  },
  {
   "property": "C61",
   "status": "proved",
   "theorems": [
    "Verif.Zdd1.tree_roundtrip",
    "Verif.Zdd1.serialize_deterministic",
    "Verif.Zdd1.tree_roundtrip_any"
   ],
   "note": ""
  },
  {
   "property": "C62",
   "status": "partial",
   "theorems": [
    "Verif.Bdd.node_roundtrip_wrong",
    "Verif.Bdd.node_roundtrip_partial"
   ],
   "note": "False of the code in general (negation proved); the partial theorem says exactly which nodes survive."
  },
  {
   "property": "C63",
   "status": "partial",
   "theorems": [
    "Verif.Bdd.foreign_closet_panics",
    "Verif.Bdd.closet_read_iff_partial"
   ],
   "note": "False of the code (witness proved); the partial theorem says exactly which documents are read."
  },
  {
   "property": "C64",
   "status": "proved",
   "theorems": [
    "Verif.ArenaZdd2.threads_exact",
    "Verif.ArenaZdd2.threads_compare",
    "Verif.ArenaZdd2.run_ok",
    "Verif.Arena.schedules_sound",
    "Verif.ArenaBdd.threads_exact",
    "Verif.ArenaBdd.threads_compare",
    "Verif.ArenaBdd.alone_total",
    "Verif.ArenaZdd1.threads_exact",
    "Verif.ArenaZdd1.threads_compare",
    "Verif.ArenaZdd1.traverse_ok"
   ],
   "note": ""
  },
  {
   "property": "C65",
   "status": "proved",
   "theorems": [
    "Verif.ArenaZdd2.threads_finish",
    "Verif.ArenaZdd1.threads_finish",
    "Verif.ArenaBdd.threads_finish",
    "Verif.Arena.no_livelock",
    "Verif.Arena.can_finish",
    "Verif.Arena.steps_finite"
   ],
   "note": ""
  },
  {
   "property": "C66",
   "status": "proved",
   "theorems": [
    "Verif.Bdd.complete_least",
    "Verif.Bdd.complete_determined"
   ],
   "note": ""
  },
  {
   "property": "C67",
   "status": "partial",
   "theorems": [
    "Verif.Bdd.more_rules_partial",
    "Verif.Bdd.more_rules_iff_partial",
    "Verif.Bdd.more_rules_wrong"
   ],
   "note": "False of the code: if the added rules leave no outfit nothing is Excluded any more and everything can be selected (more_rules_wrong); counts and completions are proved in every case, exclusions and selections exactly when an outfit is left or nothing was excluded."
  },
  {
   "property": "C68",
   "status": "proved",
   "theorems": [
    "Verif.Bdd.guided_selection"
   ],
   "note": ""
  },
  {
   "property": "C69",
   "status": "proved",
   "theorems": [
    "Verif.Bdd.outfit_count_family",
    "Verif.Bdd.outfit_count_no_rules",
    "Verif.Bdd.outfit_size"
   ],
   "note": ""
  },
  {
   "property": "C70",
   "status": "proved",
   "theorems": [
    "Verif.ArenaZdd2.repeat_allocates_nothing",
    "Verif.ArenaBdd.repeat_allocates_nothing",
    "Verif.ArenaZdd1.repeat_allocates_nothing",
    "Verif.Arena.repeat_free"
   ],
   "note": ""
  },
  {
   "property": "C71",
   "status": "proved",
   "theorems": [
    "Verif.Zdd2.size_bounds",
    "Verif.Zdd2.len_bounds",
    "Verif.Zdd2.empty_iff"
   ],
   "note": ""
  },
  {
   "property": "C72",
   "status": "proved",
   "theorems": [
    "Verif.Trait.client_total",
    "Verif.Trait.clients_agree",
    "Verif.Trait.eval_zdd2",
    "Verif.Trait.eval_matrix"
   ],
   "note": ""
  },
  {
   "property": "C73",
   "status": "proved",
   "theorems": [
    "Verif.Trait.disjoint_exact",
    "Verif.Trait.menu_exact"
   ],
   "note": ""
  },
  {
   "property": "C74",
   "status": "proved",
   "theorems": [
    "Verif.Zdd2.filters_commute",
    "Verif.Zdd2.subsetAll_fold",
    "Verif.Zdd2.split_len"
   ],
   "note": ""
  },
  {
   "property": "C75",
   "status": "partial",
   "theorems": [
    "Verif.Zdd2.reunite_wrong",
    "Verif.Zdd2.reunite_partial",
    "Verif.Zdd2.reunite_iff_partial"
   ],
   "note": "False of the code (the union loses members when the sides order items differently); negation proved. Proved: it holds when the sides are Compatible, bounds for every forest, and exactly when (reunite_iff_partial)."
  },
  {
   "property": "C76",
   "status": "proved",
   "theorems": [
    "Verif.Zdd2.union_exact",
    "Verif.Zdd2.intersect_exact",
    "Verif.Zdd2.product_exact",
    "Verif.Zdd2.ranking_unique",
    "Verif.Zdd2.rerank_safe"
   ],
   "note": ""
  },
  {
   "property": "C77",
   "status": "proved",
   "theorems": [
    "Verif.Bdd.outfit_count_machine",
    "Verif.Bdd.counts_fit",
    "Verif.Bdd.outfit_count_overflow",
    "Verif.Bdd.Node.checked",
    "Verif.Bdd.Node.wrapped"
   ],
   "note": ""
  },
  {
   "property": "C78",
   "status": "proved",
   "theorems": [
    "Verif.Arena.cmpCell_total",
    "Verif.Arena.cmp_order",
    "Verif.Arena.cmp_eq_iff",
    "Verif.Arena.cmp_stable",
    "Verif.Arena.part_before",
    "Verif.Arena.cmp_depends_on_history"
   ],
   "note": ""
  },
  {
   "property": "C79",
   "status": "proved",
   "theorems": [
    "Verif.Zdd1.intersect_meaning",
    "Verif.Zdd1.intersect_right_iff",
    "Verif.Zdd1.intersect_never_empty",
    "Verif.Zdd1.intersect_hidden",
    "Verif.Zdd1.intersect_bags"
   ],
   "note": ""
  },
  {
   "property": "C80",
   "status": "proved",
   "theorems": [
    "Verif.Viewer.page_lists",
    "Verif.Viewer.page_total",
    "Verif.Viewer.viewNode_inj",
    "Verif.Viewer.drawing_determines",
    "Verif.Viewer.drawing_reads",
    "Verif.Viewer.line_determines",
    "Verif.Viewer.page_shows"
   ],
   "note": ""
  },
  {
   "property": "C81",
   "status": "proved",
   "theorems": [
    "Verif.Debug.bdd_debug_iff",
    "Verif.Debug.zdd1_debug_iff",
    "Verif.Debug.tree_debug_iff",
    "Verif.Debug.tree_debug_blind",
    "Verif.Debug.zdd2_debug_iff",
    "Verif.Debug.forest_debug_total",
    "Verif.Debug.forest_debug_iff",
    "Verif.Debug.bdd_layout",
    "Verif.Debug.zdd1_layout",
    "Verif.Debug.zdd2_layout",
    "Verif.Debug.forest_layout",
    "Verif.Zdd2.fmt_is_debug"
   ],
   "note": ""
  },
  {
   "property": "C82",
   "status": "proved",
   "theorems": [
    "Verif.Zdd2.merge_checked",
    "Verif.Zdd2.many_checked",
    "Verif.Zdd2.binary_checked",
    "Verif.Zdd2.filter_checked",
    "Verif.Zdd2.foreign_counts_overflow",
    "Verif.Zdd2.wrapped_total",
    "Verif.Zdd2.wrapped_counts"
   ],
   "note": ""
  },
  {
   "property": "C83",
   "status": "proved",
   "theorems": [
    "Verif.Arena.guards_exclusive",
    "Verif.Arena.sections_atomic",
    "Verif.Arena.locks_sound",
    "Verif.Arena.deadlock_free",
    "Verif.Arena.locks_no_livelock",
    "Verif.Arena.every_schedule_ends",
    "Verif.Arena.stuck_is_finished",
    "Verif.Arena.all_finish",
    "Verif.Arena.crew_runs",
    "Verif.Arena.crew_finish",
    "Verif.ArenaZdd2.locked_exact",
    "Verif.ArenaZdd2.locked_compare",
    "Verif.ArenaZdd2.locked_finish",
    "Verif.ArenaBdd.locked_exact",
    "Verif.ArenaBdd.locked_finish",
    "Verif.ArenaZdd1.locked_exact",
    "Verif.ArenaZdd1.locked_finish"
   ],
   "note": ""
  },
  {
   "property": "C84",
   "status": "proved",
   "theorems": [
    "Verif.Zdd2.run_stack",
    "Verif.Zdd2.ops_stack",
    "Verif.Zdd2.stack_needed",
    "Verif.Zdd2.no_fixed_stack"
   ],
   "note": ""
  },
  {
   "property": "C85",
   "status": "proved",
   "theorems": [
    "Verif.Zdd1.ops_stack",
    "Verif.Zdd1.stack_needed",
    "Verif.Zdd1.repeats_overflow",
    "Verif.Zdd1.no_fixed_stack"
   ],
   "note": ""
  },
  {
   "property": "C86",
   "status": "proved",
   "theorems": [
    "Verif.Bdd.closet_stack",
    "Verif.Bdd.counts_stack",
    "Verif.Bdd.complete_stack",
    "Verif.Bdd.no_fixed_stack"
   ],
   "note": ""
  },
  {
   "property": "C87",
   "status": "proved",
   "theorems": [
    "Verif.Zdd2.read_stack",
    "Verif.Zdd2.read_overflows",
    "Verif.Zdd2.write_read_exact",
    "Verif.Zdd2.forest_text_stack",
    "Verif.Zdd2.forest_text_needs",
    "Verif.Zdd1.read_stack",
    "Verif.Zdd1.read_overflows",
    "Verif.Zdd1.write_read_exact",
    "Verif.Zdd1.tree_text_stack",
    "Verif.Zdd1.tree_text_needs"
   ],
   "note": ""
  },
  {
   "property": "C88",
   "status": "partial",
   "theorems": [
    "Verif.Arena.saved_id_same_run_partial",
    "Verif.Arena.saved_leaf_any_run",
    "Verif.Arena.saved_id_other_run",
    "Verif.Arena.read_id_loops",
    "Verif.Arena.outfitCountA_denotes"
   ],
   "note": "False of the code across processes (for every id but the two leaves, and every diagram, there is a run that reads another one and a run that panics); proved within a run. A number read from a document can even make a node its own child."
  },
  {
   "property": "C89",
   "status": "proved",
   "theorems": [
    "Verif.Zdd2.forest_calls",
    "Verif.Zdd2.filter_calls",
    "Verif.Zdd2.forest_calls_lower",
    "Verif.Zdd2.listing_calls",
    "Verif.Zdd2.many_calls"
   ],
   "note": ""
  },
  {
   "property": "C90",
   "status": "proved",
   "theorems": [
    "Verif.Bdd.closet_size",
    "Verif.Bdd.query_calls",
    "Verif.Bdd.select_calls",
    "Verif.Bdd.complete_calls",
    "Verif.Bdd.build_calls",
    "Verif.Bdd.calls_exponential"
   ],
   "note": ""
  },
  {
   "property": "C91",
   "status": "partial",
   "theorems": [
    "Verif.Matrix.written_ops_partial",
    "Verif.Matrix.written_intersect_partial",
    "Verif.Matrix.written_len_partial",
    "Verif.Matrix.written_occurrences_partial",
    "Verif.Matrix.written_values_wrong",
    "Verif.Matrix.written_reach_iff",
    "Verif.Matrix.written_normalise",
    "Verif.Matrix.written_deterministic"
   ],
   "note": "False of the code: intersect, len, is_empty and occurrences compare or count vectors, not sets (negation: written_values_wrong); union, product and the filters are right for every value, the others exactly under the stated conditions."
  },
  {
   "property": "C92",
   "status": "partial",
   "theorems": [
    "Verif.Tree.tree_eq_not_extensional",
    "Verif.Tree.tree_eq_iff_partial",
    "Verif.Tree.tree_eq_other_partial",
    "Verif.Tree.tree_laws"
   ],
   "note": "False of the code: Tree::many(&[x, x]) and Tree::one(x) have the same items and differ (tree_eq_not_extensional); exact characterisation proved."
  },
  {
   "property": "C93",
   "status": "proved",
   "theorems": [
    "Verif.Tree.tree_roundtrip",
    "Verif.Tree.tree_read_exact",
    "Verif.Tree.tree_any_value",
    "Verif.Tree.tree_reach_iff"
   ],
   "note": ""
  },
  {
   "property": "C94",
   "status": "partial",
   "theorems": [
    "Verif.Bdd.handmade_errors",
    "Verif.Bdd.handmade_complete_partial",
    "Verif.Bdd.handmade_reduce",
    "Verif.Bdd.plain_meets",
    "Verif.Bdd.handmade_wrong"
   ],
   "note": "False of the code for diagrams with equal children or with an item tested twice on a path (handmade_wrong); the errors and absence of panics are proved for every closet, the completion for all other diagrams, which include all that the operators make; what it does on every diagram is C111."
  },
  {
   "property": "C95",
   "status": "partial",
   "theorems": [
    "Verif.Bdd.handmade_summary_partial",
    "Verif.Bdd.handmade_select_partial",
    "Verif.Bdd.handmade_summary_wrong"
   ],
   "note": "False of the code: in the closet of an inclusion rule alone an item that an accepted choice wears is Excluded (handmade_summary_wrong); exactly what the statuses say is proved for ordered reduced diagrams (all that the operators make), and for every diagram in C111."
  },
  {
   "property": "C96",
   "status": "partial",
   "theorems": [
    "Verif.Bdd.handmade_count_partial",
    "Verif.Bdd.handmade_count_wrong"
   ],
   "note": "False of the code: outfit_count counts paths (handmade_count_wrong); proved: never more than the accepted choices, equal exactly if every item matters in every accepted choice, 0 iff none; C111 has every diagram."
  },
  {
   "property": "C97",
   "status": "proved",
   "theorems": [
    "Verif.Arena.among_sound",
    "Verif.Arena.among_finish",
    "Verif.Arena.among_locks_sound",
    "Verif.Arena.among_deadlock_free",
    "Verif.Arena.among_stuck",
    "Verif.Arena.among_all_finish",
    "Verif.Arena.among_runs",
    "Verif.ArenaBdd.rogue_exact",
    "Verif.ArenaBdd.rogue_finish",
    "Verif.ArenaBdd.rogue_compare",
    "Verif.ArenaBdd.rogue_locked",
    "Verif.ArenaZdd2.rogue_locked",
    "Verif.ArenaZdd1.rogue_locked"
   ],
   "note": "The other threads are arbitrary programs over the arena interface; a panic under a read guard does not poison a std RwLock."
  },
  {
   "property": "C98",
   "status": "proved",
   "theorems": [
    "Verif.ArenaBdd.worlds_exact",
    "Verif.ArenaBdd.clients_locked",
    "Verif.ArenaBdd.op_panics_iff",
    "Verif.ArenaBdd.crowds_exact",
    "Verif.ArenaBdd.clients_exact",
    "Verif.ArenaBdd.op_fails"
   ],
   "note": "Clients hold nodes, node ids and closets; order and Hash of nodes are left out (they depend on the arena, C78). u64 counts are Nat here, their overflow is C77."
  },
  {
   "property": "C99",
   "status": "proved",
   "theorems": [
    "Verif.Zdd1.guided_never_stuck",
    "Verif.Zdd1.guided_next",
    "Verif.Zdd1.guided_end",
    "Verif.Zdd1.guided_shrinks",
    "Verif.Zdd1.guided_reaches",
    "Verif.Zdd1.guided_singles_out"
   ],
   "note": ""
  },
  {
   "property": "C100",
   "status": "proved",
   "theorems": [
    "Verif.Zdd1.restrict_summarize",
    "Verif.Zdd1.summarize_monotone",
    "Verif.Zdd1.summarize_wishes",
    "Verif.Zdd1.summarize_union"
   ],
   "note": ""
  },
  {
   "property": "C101",
   "status": "proved",
   "theorems": [
    "Verif.Zdd1.union_foreign",
    "Verif.Zdd1.foreign_reread_first",
    "Verif.Zdd1.foreign_round_trip",
    "Verif.Zdd1.foreign_native",
    "Verif.Zdd1.foreign_agreeing",
    "Verif.Zdd1.universe_grows"
   ],
   "note": ""
  },
  {
   "property": "C102",
   "status": "proved",
   "theorems": [
    "Verif.Zdd1.tree_calls",
    "Verif.Zdd1.listing_calls",
    "Verif.Zdd1.hyper_calls",
    "Verif.Zdd1.restrict_calls",
    "Verif.Zdd1.mentions_le"
   ],
   "note": "Calls of the recursive functions and nodes popped by the work list are counted; work inside BTreeSet and HashMap is not."
  },
  {
   "property": "C103",
   "status": "proved",
   "theorems": [
    "Verif.ArenaZdd2.worlds_exact",
    "Verif.ArenaZdd2.clients_locked",
    "Verif.ArenaZdd2.op_panics_iff",
    "Verif.ArenaZdd2.client_held"
   ],
   "note": "Clients hold forests by position; Hash and order of nodes are left out (they depend on the arena, C78). Which forests are sane: C58."
  },
  {
   "property": "C104",
   "status": "proved",
   "theorems": [
    "Verif.ArenaZdd1.worlds_exact",
    "Verif.ArenaZdd1.clients_locked",
    "Verif.ArenaZdd1.op_panics_iff",
    "Verif.ArenaZdd1.crowds_exact",
    "Verif.ArenaZdd1.clients_exact",
    "Verif.ArenaZdd1.op_fails"
   ],
   "note": "Clients hold trees by position; universes own no node and are passed by value."
  },
  {
   "property": "C105",
   "status": "proved",
   "theorems": [
    "Verif.Zdd1.read_iff",
    "Verif.Zdd1.read_write_read",
    "Verif.Zdd1.read_combinations",
    "Verif.Zdd1.read_summary",
    "Verif.Zdd1.read_traverse",
    "Verif.Zdd1.read_builds",
    "Verif.Zdd1.read_restrict",
    "Verif.Zdd1.read_restrict_iff",
    "Verif.Zdd1.read_universe_iff",
    "Verif.Zdd1.read_universe_restrict",
    "Verif.Zdd1.library_universe_ok",
    "Verif.Zdd1.swapped_restrict",
    "Verif.Zdd1.overrun_read"
   ],
   "note": "JSON syntax itself is serde_json, not modelled: a document is its three fields."
  },
  {
   "property": "C106",
   "status": "proved",
   "theorems": [
    "Verif.Zdd1.combinations_bags",
    "Verif.Zdd1.eq_iff_bags",
    "Verif.Zdd1.union_bags",
    "Verif.Zdd1.union_assoc_any",
    "Verif.Zdd1.tree_bags",
    "Verif.Zdd1.hyper_tree_bags",
    "Verif.Zdd1.restrict_bags",
    "Verif.Zdd1.product_bags",
    "Verif.Zdd1.intersect_bags",
    "Verif.Zdd1.intersect_bags_right_iff",
    "Verif.Zdd1.intersect_never_empty_any",
    "Verif.Zdd1.doubled_product"
   ],
   "note": ""
  },
  {
   "property": "C107",
   "status": "proved",
   "theorems": [
    "Verif.ArenaZdd2.memory_same",
    "Verif.ArenaZdd2.memory_within",
    "Verif.ArenaZdd2.memory_adds_up",
    "Verif.ArenaZdd1.memory_same",
    "Verif.ArenaZdd1.memory_within",
    "Verif.ArenaZdd1.memory_adds_up",
    "Verif.ArenaBdd.memory_same",
    "Verif.ArenaBdd.memory_within",
    "Verif.ArenaBdd.memory_adds_up"
   ],
   "note": ""
  },
  {
   "property": "C108",
   "status": "proved",
   "theorems": [
    "Verif.ArenaZdd2.clients_leave",
    "Verif.ArenaZdd2.clients_within",
    "Verif.ArenaZdd2.clients_same",
    "Verif.ArenaZdd1.clients_leave",
    "Verif.ArenaZdd1.clients_within",
    "Verif.ArenaZdd1.clients_same",
    "Verif.ArenaBdd.clients_leave",
    "Verif.ArenaBdd.clients_within",
    "Verif.ArenaBdd.clients_same"
   ],
   "note": ""
  },
  {
   "property": "C109",
   "status": "proved",
   "theorems": [
    "Verif.Bdd.closet_eq_iff",
    "Verif.Bdd.closet_eq_iff_observed",
    "Verif.Bdd.redundant_iff",
    "Verif.Bdd.exclude_symm"
   ],
   "note": ""
  },
  {
   "property": "C110",
   "status": "proved",
   "theorems": [
    "Verif.Wardrobe.recipe_exact",
    "Verif.Wardrobe.zdd2_recipe_exact",
    "Verif.Wardrobe.matrix_follows",
    "Verif.Wardrobe.zdd2_follows",
    "Verif.Wardrobe.tree_follows",
    "Verif.Wardrobe.nothing_fits",
    "Verif.Wardrobe.zdd2_recipe_wrong"
   ],
   "note": "zdd2_recipe_wrong: with a rule the same operations on zdd2 give non-outfits and lose outfits, which is why the statement has zdd2 only without rules or from a listing"
  },
  {
   "property": "C111",
   "status": "proved",
   "theorems": [
    "Verif.Bdd.count_routes",
    "Verif.Bdd.status_routes",
    "Verif.Bdd.restrict_routes",
    "Verif.Bdd.select_routes",
    "Verif.Bdd.complete_routes",
    "Verif.Bdd.greedy_unique",
    "Verif.Bdd.complete_right_iff"
   ],
   "note": ""
  },
  {
   "property": "C112",
   "status": "proved",
   "theorems": [
    "Verif.Matrix.runs_alone",
    "Verif.Matrix.values_exact",
    "Verif.Matrix.values_agree",
    "Verif.Matrix.union_values",
    "Verif.Matrix.intersect_values",
    "Verif.Matrix.filter_values",
    "Verif.Matrix.lossy_values",
    "Verif.Matrix.laws_fail"
   ],
   "note": ""
  },
  {
   "property": "C113",
   "status": "proved",
   "theorems": [
    "Verif.Matrix.len_union_intersect",
    "Verif.Matrix.len_split",
    "Verif.Matrix.len_product",
    "Verif.Matrix.len_mono"
   ],
   "note": ""
  },
  {
   "property": "C114",
   "status": "proved",
   "theorems": [
    "Verif.Zdd1.ops_assoc",
    "Verif.Zdd1.ops_constants",
    "Verif.Zdd1.ops_comm",
    "Verif.Zdd1.ops_idem",
    "Verif.Zdd1.any_plan",
    "Verif.Zdd1.laws_fail"
   ],
   "note": "laws_fail gives a witness for each law that fails."
  },
  {
   "property": "C115",
   "status": "proved",
   "theorems": [
    "Verif.Zdd2.unions_apart",
    "Verif.Zdd2.products_apart",
    "Verif.Zdd2.apart_any_order",
    "Verif.Zdd2.singles_exact",
    "Verif.Zdd2.singles_laws",
    "Verif.Zdd2.safe_laws",
    "Verif.Zdd2.laws_fail"
   ],
   "note": "laws_fail gives a witness for each law that fails."
  },
  {
   "property": "C116",
   "status": "proved",
   "theorems": [
    "Verif.Bdd.formula_exact",
    "Verif.Bdd.formula_eq_iff",
    "Verif.Bdd.formula_decides",
    "Verif.Bdd.formula_laws",
    "Verif.Bdd.formula_complete",
    "Verif.Bdd.not_laws_fail"
   ],
   "note": ""
  },
  {
   "property": "C117",
   "status": "proved",
   "theorems": [
    "Verif.Tree.intersect_many",
    "Verif.Tree.union_many",
    "Verif.Tree.union_any_order",
    "Verif.Tree.collected_two",
    "Verif.Tree.grouping_matters"
   ],
   "note": ""
  },
  {
   "property": "C118",
   "status": "proved",
   "theorems": [
    "Verif.Bdd.builder_eq_iff",
    "Verif.Bdd.calls_commute",
    "Verif.Bdd.closet_order_free",
    "Verif.Bdd.report_order_free",
    "Verif.Bdd.report_groups",
    "Verif.Bdd.first_family_matters"
   ],
   "note": ""
  },
  {
   "property": "C119",
   "status": "proved",
   "theorems": [
    "Verif.ArenaBdd.store_growth",
    "Verif.Bdd.shared_size"
   ],
   "note": ""
  },
  {
   "property": "C120",
   "status": "proved",
   "theorems": [
    "Verif.ArenaZdd1.store_growth",
    "Verif.ArenaZdd1.shared_size"
   ],
   "note": ""
  },
  {
   "property": "C121",
   "status": "proved",
   "theorems": [
    "Verif.ArenaZdd2.store_growth"
   ],
   "note": ""
  },
  {
   "property": "C122",
   "status": "proved",
   "theorems": [
    "Verif.Zdd2.rerank_keeps_iff",
    "Verif.Zdd2.kept_iff",
    "Verif.Zdd2.union_disjoint_iff",
    "Verif.Zdd2.keeps_of_compatible",
    "Verif.Zdd2.union_members_le"
   ],
   "note": ""
  },
  {
   "property": "C123",
   "status": "proved",
   "theorems": [
    "Verif.ArenaBdd.sessions_growth"
   ],
   "note": ""
  },
  {
   "property": "C124",
   "status": "proved",
   "theorems": [
    "Verif.Trait.guided_members",
    "Verif.Trait.guided_next",
    "Verif.Trait.guided_end",
    "Verif.Trait.guided_shrinks",
    "Verif.Trait.guided_singles_out"
   ],
   "note": ""
  },
  {
   "property": "C125",
   "status": "proved",
   "theorems": [
    "Verif.ArenaBdd.restart_exact",
    "Verif.ArenaZdd2.restart_exact",
    "Verif.ArenaZdd1.restart_exact"
   ],
   "note": ""
  },
  {
   "property": "C126",
   "status": "proved",
   "theorems": [
    "Verif.Bdd.countAfter_exact",
    "Verif.Bdd.countAfter_zero",
    "Verif.Bdd.exclude_count",
    "Verif.Bdd.incl_count",
    "Verif.Bdd.exclude_left",
    "Verif.Bdd.incl_left",
    "Verif.Bdd.exclude_redundant",
    "Verif.Bdd.incl_redundant"
   ],
   "note": ""
  },
  {
   "property": "C127",
   "status": "proved",
   "theorems": [
    "Verif.Bdd.parts_build",
    "Verif.Bdd.Parts.legal",
    "Verif.Bdd.Parts.outfits",
    "Verif.Bdd.Together.count",
    "Verif.Bdd.Together.statuses",
    "Verif.Bdd.Together.select",
    "Verif.Bdd.Together.untouched",
    "Verif.Bdd.Together.complete"
   ],
   "note": ""
  },
  {
   "property": "C128",
   "status": "proved",
   "theorems": [
    "Verif.Bdd.build_renamed",
    "Verif.Bdd.count_renamed",
    "Verif.Bdd.statuses_renamed",
    "Verif.Bdd.select_renamed",
    "Verif.Bdd.completable_renamed",
    "Verif.Bdd.complete_renamed",
    "Verif.Bdd.order_decides"
   ],
   "note": ""
  },
  {
   "property": "C129",
   "status": "proved",
   "theorems": [
    "Verif.Zdd2.run_renamed",
    "Verif.Zdd2.views_renamed",
    "Verif.Zdd2.panic_renamed",
    "Verif.Zdd2.equal_renamed",
    "Verif.Zdd2.document_renamed",
    "Verif.Zdd2.order_decides"
   ],
   "note": ""
  },
  {
   "property": "C130",
   "status": "proved",
   "theorems": [
    "Verif.Zdd1.eval_renamed",
    "Verif.Zdd1.combinations_renamed",
    "Verif.Zdd1.with_renamed",
    "Verif.Zdd1.summarize_renamed",
    "Verif.Zdd1.traverse_renamed",
    "Verif.Zdd1.text_renamed",
    "Verif.Zdd1.equal_renamed"
   ],
   "note": ""
  },
  {
   "property": "C131",
   "status": "proved",
   "theorems": [
    "Verif.Matrix.trees_renamed",
    "Verif.Matrix.size_renamed",
    "Verif.Matrix.occurrences_renamed",
    "Verif.Matrix.equal_renamed"
   ],
   "note": ""
  }
 ]
}