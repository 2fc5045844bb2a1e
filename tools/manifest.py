#!/usr/bin/env python3
"""Regenerates MANIFEST.json."""
import json
claims=[]
def c(p,ns,ths,note="",st="proved"):
    claims.append({"property":p,"status":st,"theorems":[f"Verif.{ns}.{t}" if not t.startswith("Verif.") else t for t in ths.split()],"note":note})
c("C01","Matrix","many_family unit_family unique_family empty_family")
c("C02","Matrix","union_family run_family")
c("C03","Matrix","intersect_family run_family")
c("C04","Matrix","product_family run_family")
c("C05","Matrix","subset_family subsetNot_family subsetAll_family subsetNone_family run_family")
c("C06","Matrix","trees_exact len_exact isEmpty_exact occurrences_exact")
c("C07","Matrix","runs_deterministic occurrences_deterministic")
c("C08","Matrix","eq_not_extensional eq_extensional_partial eq_iff_partial","False of the code in general (negation proved); eq_iff_partial says exactly when two forests are equal.","partial")
c("C09","Tree","tree_construct tree_len tree_intersect tree_product Verif.Trait.tree_product_zdd2")
c("C10","Tree","tree_union_not_exact tree_union_partial","False of the code in general (negation proved).","partial")
c("C11","Arena","returned_resolves returned_same_iff resolve_stable leaf_constants missed_can_finish")
c("C12","Arena","id_denotes id_eq_iff denotation_stable conversion_denotes")
c("C13","Zdd2","many_family unit_family unique_family empty_family")
c("C14","Zdd2","trees_exact trees_nonempty len_exact isEmpty_exact")
c("C15","Zdd2","occurrences_exact")
c("C16","Zdd2","eq_iff_family many_eq_iff")
c("C17","Zdd2","union_not_exact union_family_partial union_cases_partial union_exact union_right_iff union_keeps_partial union_disjoint_iff union_members_le","False of the code in general (negation proved); set union under the Compatible condition on frequencies. What it does compute is characterised exactly for every pair of forests (union_exact); for forests without a common member it is set union if and only if both families satisfy Keeps, a condition on the members and their frequencies (union_disjoint_iff).","partial")
c("C18","Zdd2","intersect_not_exact intersect_bounds intersect_family_partial intersect_disjoint_partial intersect_unique_partial intersect_exact_partial intersect_right_iff_partial intersect_exact intersect_keeps_partial","False of the code in general (negation proved). What it does compute is characterised exactly for every pair (intersect_exact) and, more simply, for Compatible operands, with a necessary and sufficient condition for it to be the intersection; bounds without Compatible.","partial")
c("C19","Zdd2","product_not_exact product_bounds product_self product_family_partial product_disjoint_partial product_exact_partial product_exact product_keeps_partial","False of the code in general (negation proved). What it does compute is characterised exactly for every pair (product_exact) and, more simply, for Compatible operands; it is the product when a family is UnionClosed or they are ItemDisjoint.","partial")
c("C20","Zdd2","subset_family subsetNot_family")
c("C21","Zdd2","subsetAll_family")
c("C22","Zdd2","subsetNone_not_exact subsetNone_bounds subsetNone_unknown subsetNone_family_partial subsetNone_one_partial subsetNone_exact_partial","False of the code in general (negation proved). What it does compute is characterised exactly for every forest and element list; bounds and a condition for the intended result.","partial")
c("C23","Zdd2","priority_bijective priority_known priority_dense priority_order priorities_roundtrip")
c("C24","Zdd2","merge_exact")
c("C25","Zdd2","branch_ordered branch_exact branch_not_exact")
c("C28","Zdd2","backends_agree backends_agree_build safe_family")
c("C47","Zdd2","run_total binary_total fmt_total Verif.Arena.returned_resolves Verif.Zdd1.traverse_total_built Verif.Bdd.complete_general Verif.Bdd.closet_roundtrip Verif.ArenaZdd2.threads_exact","zdd2 and v1 unwraps, arena look-ups, complete_outfit (its Option result is the pop/unwrap) and reading back a closet.")
c("C52","Zdd2","same_universe_bounds intersect_bounds product_bounds")
c("C55","Zdd2","ops_comm ops_idem ops_empty")
c("C56","Zdd2","ops_items")
c("C57","Zdd2","universe_deterministic merge_deterministic occurrences_deterministic")
c("C26","Zdd2","node_text_roundtrip node_text_injective parsed_ordered parse_ignores_rest parse_iff parse_white parse_first Verif.Text.trim_spec Verif.Text.isWhite_iff")
c("C27","Zdd2","universe_roundtrip forest_roundtrip serialize_deterministic")
c("C58","Zdd2","foreign_data_panics own_data_safe_partial held_use_iff_partial held_result_reach sane_iff","False of the code for foreign data (witness theorem); proved for data the library wrote, and held_use_iff_partial says exactly which forests can be used.","partial")
c("C29","Zdd1","tree_exact hyper_tree_exact unique_tree_exact empty_unit_exact combinations_listing hyper_tree_order")
c("C30","Zdd1","union_exact union_exact_built")
c("C31","Zdd1","intersect_not_exact intersect_bounds_partial intersect_trivial_partial intersect_right_iff intersect_never_empty intersect_bags intersect_bags_right_iff intersect_never_empty_any","False of the code in general (negation proved); intersect_right_iff says exactly when it holds, intersect_bags and intersect_bags_right_iff for every tree over one universe, repeated items included.","partial")
c("C32","Zdd1","product_not_exact product_sound_partial product_complete_partial product_exact_disjoint_partial product_exact_partial product_bags","False of the code in general (negation proved). What it does compute is characterised exactly for all trees over one universe (product_bags; without repeated items product_exact_partial).","partial")
c("C33","Zdd1","combinations_with_exact combinations_with_family restrict_exact restrict_restrict")
c("C34","Zdd1","summarize_exact summarize_once summarize_deterministic")
c("C35","Zdd1","node_text_roundtrip node_text_injective parse_iff")
c("C50","Weave.ItemStatus","predicates_exact is_iff map_spec option_map_spec map_laws order_spec Verif.Bdd.Status.predicates_exact Verif.Bdd.Status.is_iff Verif.Bdd.Status.order_spec")
c("C59","Zdd1","eq_not_extensional eq_iff_combinations_partial tree_eq_iff_partial ops_comm ops_idem union_assoc eq_iff_bags union_assoc_any","False of combinations given with repeated items (negation proved); eq_iff_bags says exactly when any two trees over one universe are equal. Commutativity, idempotence and associativity hold for all trees (ops_comm, ops_idem, union_assoc_any).","partial")
c("C60","Zdd1","traverse_can_panic traverse_total_partial traverse_iff union_traverse_iff_partial traverse_exact","False across universes (witness proved); traverse_iff and union_traverse_iff_partial say exactly when it returns.","partial")
c("C61","Zdd1","tree_roundtrip serialize_deterministic tree_roundtrip_any")
c("C36","Bdd","and_or_eval")
c("C37","Bdd","not_xor_wrong not_partial xor_partial not_xor_iff_partial","False of the code (Not only swaps the root's children); negation proved, and not_xor_iff_partial says exactly for which choices each operator is right.","partial")
c("C38","Bdd","nodes_canonical build_order_irrelevant")
c("C39","Bdd","build_accepts")
c("C40","Bdd","build_validates plural_calls")
c("C41","Bdd","summary_exact summary_one_status select_unsatisfiable")
c("C42","Bdd","select_exact selected_accepts select_order_irrelevant select_all_ok_iff select_unsatisfiable")
c("C43","Bdd","complete_exact complete_general")
c("C44","Bdd","complete_after_select_wrong complete_after_select_partial","False of the code (selected items are missing from the completed outfit); negation proved.","partial")
c("C45","Bdd","outfit_count_exact")
c("C46","Bdd","closet_roundtrip node_roundtrip_wrong")
c("C48","Bdd","restrict_cofactor")
c("C49","Matrix","comm_laws member_laws")
c("C51","Bdd","categorize_exact")
c("C53","Bdd","hash_structure_shape")
c("C54","Bdd","closet_counts")
c("C62","Bdd","node_roundtrip_wrong node_roundtrip_partial","False of the code in general (negation proved); the partial theorem says exactly which nodes survive.","partial")
c("C63","Bdd","foreign_closet_panics closet_read_iff_partial","False of the code (witness proved); the partial theorem says exactly which documents are read.","partial")
c("C64","ArenaZdd2","threads_exact threads_compare run_ok Verif.Arena.schedules_sound Verif.ArenaBdd.threads_exact Verif.ArenaBdd.threads_compare Verif.ArenaBdd.alone_total Verif.ArenaZdd1.threads_exact Verif.ArenaZdd1.threads_compare Verif.ArenaZdd1.traverse_ok")
c("C65","ArenaZdd2","threads_finish Verif.ArenaZdd1.threads_finish Verif.ArenaBdd.threads_finish Verif.Arena.no_livelock Verif.Arena.can_finish Verif.Arena.steps_finite")
c("C66","Bdd","complete_least complete_determined")
c("C67","Bdd","more_rules_partial more_rules_iff_partial more_rules_wrong","False of the code: if the added rules leave no outfit nothing is Excluded any more and everything can be selected (more_rules_wrong); counts and completions are proved in every case, exclusions and selections exactly when an outfit is left or nothing was excluded.","partial")
c("C68","Bdd","guided_selection")
c("C69","Bdd","outfit_count_family outfit_count_no_rules outfit_size")
c("C70","ArenaZdd2","repeat_allocates_nothing Verif.ArenaBdd.repeat_allocates_nothing Verif.ArenaZdd1.repeat_allocates_nothing Verif.Arena.repeat_free")
c("C71","Zdd2","size_bounds len_bounds empty_iff")
c("C72","Trait","client_total clients_agree eval_zdd2 eval_matrix")
c("C73","Trait","disjoint_exact menu_exact")
c("C74","Zdd2","filters_commute subsetAll_fold split_len")
c("C75","Zdd2","reunite_wrong reunite_partial reunite_iff_partial","False of the code (the union loses members when the sides order items differently); negation proved. Proved: it holds when the sides are Compatible, bounds for every forest, and exactly when (reunite_iff_partial).","partial")
c("C76","Zdd2","union_exact intersect_exact product_exact ranking_unique rerank_safe")
c("C77","Bdd","outfit_count_machine counts_fit outfit_count_overflow Verif.Bdd.Node.checked Verif.Bdd.Node.wrapped")
c("C78","Arena","cmpCell_total cmp_order cmp_eq_iff cmp_stable part_before cmp_depends_on_history")
c("C79","Zdd1","intersect_meaning intersect_right_iff intersect_never_empty intersect_hidden intersect_bags")
c("C80","Viewer","page_lists page_total viewNode_inj drawing_determines drawing_reads line_determines page_shows")
c("C81","Debug","bdd_debug_iff zdd1_debug_iff tree_debug_iff tree_debug_blind zdd2_debug_iff forest_debug_total forest_debug_iff bdd_layout zdd1_layout zdd2_layout forest_layout Verif.Zdd2.fmt_is_debug")
c("C82","Zdd2","merge_checked many_checked binary_checked filter_checked foreign_counts_overflow wrapped_total wrapped_counts")
c("C83","Arena","guards_exclusive sections_atomic locks_sound deadlock_free locks_no_livelock every_schedule_ends stuck_is_finished all_finish crew_runs crew_finish Verif.ArenaZdd2.locked_exact Verif.ArenaZdd2.locked_compare Verif.ArenaZdd2.locked_finish Verif.ArenaBdd.locked_exact Verif.ArenaBdd.locked_finish Verif.ArenaZdd1.locked_exact Verif.ArenaZdd1.locked_finish")
c("C84","Zdd2","run_stack ops_stack stack_needed no_fixed_stack")
c("C85","Zdd1","ops_stack stack_needed repeats_overflow no_fixed_stack")
c("C86","Bdd","closet_stack counts_stack complete_stack no_fixed_stack")
c("C87","Zdd2","read_stack read_overflows write_read_exact forest_text_stack forest_text_needs Verif.Zdd1.read_stack Verif.Zdd1.read_overflows Verif.Zdd1.write_read_exact Verif.Zdd1.tree_text_stack Verif.Zdd1.tree_text_needs")
c("C88","Arena","saved_id_same_run_partial saved_leaf_any_run saved_id_other_run read_id_loops outfitCountA_denotes","False of the code across processes (for every id but the two leaves, and every diagram, there is a run that reads another one and a run that panics); proved within a run. A number read from a document can even make a node its own child.","partial")
c("C89","Zdd2","forest_calls filter_calls forest_calls_lower listing_calls many_calls")
c("C90","Bdd","closet_size query_calls select_calls complete_calls build_calls calls_exponential")
c("C91","Matrix","written_ops_partial written_intersect_partial written_len_partial written_occurrences_partial written_values_wrong written_reach_iff written_normalise written_deterministic","False of the code: intersect, len, is_empty and occurrences compare or count vectors, not sets (negation: written_values_wrong); union, product and the filters are right for every value, the others exactly under the stated conditions.","partial")
c("C92","Tree","tree_eq_not_extensional tree_eq_iff_partial tree_eq_other_partial tree_laws","False of the code: Tree::many(&[x, x]) and Tree::one(x) have the same items and differ (tree_eq_not_extensional); exact characterisation proved.","partial")
c("C93","Tree","tree_roundtrip tree_read_exact tree_any_value tree_reach_iff")
c("C94","Bdd","handmade_errors handmade_complete_partial handmade_reduce plain_meets handmade_wrong","False of the code for diagrams with equal children or with an item tested twice on a path (handmade_wrong); the errors and absence of panics are proved for every closet, the completion for all other diagrams, which include all that the operators make; what it does on every diagram is C111.","partial")
c("C95","Bdd","handmade_summary_partial handmade_select_partial handmade_summary_wrong","False of the code: in the closet of an inclusion rule alone an item that an accepted choice wears is Excluded (handmade_summary_wrong); exactly what the statuses say is proved for ordered reduced diagrams (all that the operators make), and for every diagram in C111.","partial")
c("C96","Bdd","handmade_count_partial handmade_count_wrong","False of the code: outfit_count counts paths (handmade_count_wrong); proved: never more than the accepted choices, equal exactly if every item matters in every accepted choice, 0 iff none; C111 has every diagram.","partial")
c("C97","Arena","among_sound among_finish among_locks_sound among_deadlock_free among_stuck among_all_finish among_runs Verif.ArenaBdd.rogue_exact Verif.ArenaBdd.rogue_finish Verif.ArenaBdd.rogue_compare Verif.ArenaBdd.rogue_locked Verif.ArenaZdd2.rogue_locked Verif.ArenaZdd1.rogue_locked","The other threads are arbitrary programs over the arena interface; a panic under a read guard does not poison a std RwLock.")
c("C98","ArenaBdd","worlds_exact clients_locked op_panics_iff crowds_exact clients_exact op_fails","Clients hold nodes, node ids and closets; order and Hash of nodes are left out (they depend on the arena, C78). u64 counts are Nat here, their overflow is C77.")
c("C99","Zdd1","guided_never_stuck guided_next guided_end guided_shrinks guided_reaches guided_singles_out","")
c("C100","Zdd1","restrict_summarize summarize_monotone summarize_wishes summarize_union","")
c("C101","Zdd1","union_foreign foreign_reread_first foreign_round_trip foreign_native foreign_agreeing universe_grows","")
c("C102","Zdd1","tree_calls listing_calls hyper_calls restrict_calls mentions_le","Calls of the recursive functions and nodes popped by the work list are counted; work inside BTreeSet and HashMap is not.")
c("C103","ArenaZdd2","worlds_exact clients_locked op_panics_iff client_held","Clients hold forests by position; Hash and order of nodes are left out (they depend on the arena, C78). Which forests are sane: C58.")
c("C104","ArenaZdd1","worlds_exact clients_locked op_panics_iff crowds_exact clients_exact op_fails","Clients hold trees by position; universes own no node and are passed by value.")
c("C105","Zdd1","read_iff read_write_read read_combinations read_summary read_traverse read_builds read_restrict read_restrict_iff read_universe_iff read_universe_restrict library_universe_ok swapped_restrict overrun_read","JSON syntax itself is serde_json, not modelled: a document is its three fields.")
c("C106","Zdd1","combinations_bags eq_iff_bags union_bags union_assoc_any tree_bags hyper_tree_bags restrict_bags product_bags intersect_bags intersect_bags_right_iff intersect_never_empty_any doubled_product","")
c("C107","ArenaZdd2","memory_same memory_within memory_adds_up Verif.ArenaZdd1.memory_same Verif.ArenaZdd1.memory_within Verif.ArenaZdd1.memory_adds_up Verif.ArenaBdd.memory_same Verif.ArenaBdd.memory_within Verif.ArenaBdd.memory_adds_up","")
c("C108","ArenaZdd2","clients_leave clients_within clients_same Verif.ArenaZdd1.clients_leave Verif.ArenaZdd1.clients_within Verif.ArenaZdd1.clients_same Verif.ArenaBdd.clients_leave Verif.ArenaBdd.clients_within Verif.ArenaBdd.clients_same","")
c("C109","Bdd","closet_eq_iff closet_eq_iff_observed redundant_iff exclude_symm","")
c("C110","Wardrobe","recipe_exact zdd2_recipe_exact matrix_follows zdd2_follows tree_follows nothing_fits zdd2_recipe_wrong","zdd2_recipe_wrong: with a rule the same operations on zdd2 give non-outfits and lose outfits, which is why the statement has zdd2 only without rules or from a listing")
c("C111","Bdd","count_routes status_routes restrict_routes select_routes complete_routes greedy_unique complete_right_iff","")
c("C112","Matrix","runs_alone values_exact values_agree union_values intersect_values filter_values lossy_values laws_fail","")
c("C113","Matrix","len_union_intersect len_split len_product len_mono","")
c("C114","Zdd1","ops_assoc ops_constants ops_comm ops_idem any_plan laws_fail","laws_fail gives a witness for each law that fails.")
c("C115","Zdd2","unions_apart products_apart apart_any_order singles_exact singles_laws safe_laws laws_fail","laws_fail gives a witness for each law that fails.")
c("C116","Bdd","formula_exact formula_eq_iff formula_decides formula_laws formula_complete not_laws_fail","")
c("C117","Tree","intersect_many union_many union_any_order collected_two grouping_matters","")
c("C118","Bdd","builder_eq_iff calls_commute closet_order_free report_order_free report_groups first_family_matters","")
c("C119","ArenaBdd","store_growth Verif.Bdd.shared_size","")
c("C120","ArenaZdd1","store_growth shared_size","")
c("C121","ArenaZdd2","store_growth","")
c("C122","Zdd2","rerank_keeps_iff kept_iff union_disjoint_iff keeps_of_compatible union_members_le","")
c("C123","ArenaBdd","sessions_growth","")
c("C124","Trait","guided_members guided_next guided_end guided_shrinks guided_singles_out","")
c("C125","ArenaBdd","restart_exact Verif.ArenaZdd2.restart_exact Verif.ArenaZdd1.restart_exact","")
c("C126","Bdd","countAfter_exact countAfter_zero exclude_count incl_count exclude_left incl_left exclude_redundant incl_redundant","")
c("C127","Bdd","parts_build Parts.legal Parts.outfits Together.count Together.statuses Together.select Together.untouched Together.complete","")
c("C128","Bdd","build_renamed count_renamed statuses_renamed select_renamed completable_renamed complete_renamed order_decides","")
c("C129","Zdd2","run_renamed views_renamed panic_renamed equal_renamed document_renamed order_decides","")
c("C130","Zdd1","eval_renamed combinations_renamed with_renamed summarize_renamed traverse_renamed text_renamed equal_renamed","")
c("C131","Matrix","trees_renamed size_renamed occurrences_renamed equal_renamed","")
claims.sort(key=lambda x:int(x["property"][1:]))
json.dump({"claims":claims},open("/verif/MANIFEST.json","w"),indent=1,ensure_ascii=False)
