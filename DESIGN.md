# Formal model of tchupp/ignition in Lean 4: design, trusted base, findings

## 1. What the repository is and what is modelled

| code | model | status |
|---|---|---|
| `weave/src/matrix/forest` (explicit sets of sets, hash sets, rayon) | `Verif/Matrix/` | every function |
| `weave/src/matrix/tree`, `weave/src/zdd2/tree` (the two files differ only in how the constructor fills its hash set: `for_each` against `fold`) | `Verif/Tree.lean`, `TreeDoc.lean`, `TreeMany.lean` | every function |
| `weave/src/zdd2/forest` (ZDD forest, universe, node operations) | `Verif/Zdd2/`, `Verif/Rename.lean` | every function, incl. `fmt_inner` totality |
| `weave/src/zdd2/forest/node/{parser,serialize}.rs`, `universe/serialize.rs` | `Verif/Text.lean`, `Verif/Zdd2/Serialize.lean` | text grammar and data model |
| `weave/src/zdd` (older ZDD tree with an explicit universe) | `Verif/Zdd1/` | every function |
| `weave/src/types.rs`, `weave/src/matrix/mod.rs`, `weave/src/zdd2/mod.rs` (the `Forest` and `Tree` traits and their impls) | `Verif/Trait.lean`, `TraitGuided.lean` | every method |
| `weave/src/status.rs` | `Verif/Status.lean` | every function |
| `bowtie-core/src/bdd/node` (BDD nodes) | `Verif/Bdd/Node.lean`, `Structure.lean`, `NodeSerde.lean` | every function reachable from the crate root |
| `bowtie-core/src/bdd/{closet,closet_builder}`, `bowtie-core/src/{core,closet_builder}.rs` | `Verif/Bdd/Closet.lean`, `Builder.lean`, `More.lean`, `Equal.lean`, `RuleEffect.lean`, `Parts.lean`, `Renaming.lean`, `Handmade.lean`, `Routes.lean`, `BuilderEq.lean` | every function |
| `weave-visualizer/src/visualizer.rs` | `Verif/Viewer.lean` | every function; the page as a tree of elements |
| the test suites of `bowtie-core` and `weave` | `Verif/Conform/` | replayed on the model (section 3) |
| hand-written `Debug` impls of nodes, trees and forests | `Verif/Debug.lean` | every function |
| the three node arenas (`lazy_static` `RwLock`) | `Verif/Arena.lean`, `Verif/ArenaProg.lean`, `Verif/ArenaLock.lean` | transition systems: one step per critical section, and one step per lock operation and per access of vector and map inside (with the first-use initialisation and any admission policy), the second refining the first |
| all of the above operations again, **as programs over the shared arena** | `Verif/ArenaZdd2.lean`, `ArenaForest.lean`, `ArenaBdd.lean`, `ArenaZdd1.lean`, `ArenaRepeat.lean`, `ArenaForge.lean`, `ArenaRogue.lean`, `ArenaClient.lean`, `ArenaApi.lean`, `ArenaText.lean`, `ArenaForestClient.lean`, `ArenaTreeClient.lean`, `ArenaMemory.lean`, `ArenaMemoryForest.lean`, `ArenaMemoryTree.lean`, `ArenaMemoryCloset.lean`, `ArenaMemoryWorld.lean`, `ArenaMemoryText.lean`, `ArenaMemoryForestClient.lean`, `ArenaMemoryTreeClient.lean`, `ArenaMemoryClosetClient.lean`, `ArenaClosetCrowd.lean`, `ArenaGrowth.lean`, `ArenaGrowthTree.lean`, `ArenaGrowthForest.lean`, `ArenaGrowthBuild.lean`, `ArenaRestart.lean` | zdd2 forest API, closet API, v1 tree API; forged ids, misbehaving threads, adaptive clients handing values to each other |
| (no code of its own: compares the packages) | `Verif/Wardrobe.lean` | one wardrobe as closet, matrix forest, zdd2 forest and v1 tree |

Not modelled (nothing is claimed about it):

* what yew does with the page of `weave-visualizer` (diffing, the DOM), `benches/`, `ci/`, `ignition/` (an empty package).
* `bowtie-core/src/bdd/node/apply.rs`: not in any module tree (dead file).  `weave/src/zdd/tree/{restrict,summarize}.rs`:
  `cfg(test)` only.  `zdd2/forest/node/macros.rs`: test macros.
* Overflow of `usize` counters other than the item counts of zdd2 forests (`Nat` in the model; the `u64` counts of closets and
  the item counts of zdd2 universes are modelled with their overflow in `Verif/Bdd/Machine.lean` and `Verif/Zdd2/Machine.lean`), out of memory.  Stack overflow: the nesting depth of every recursive function is modelled (`Zdd2/Stack`, `Zdd1/Stack`, `Bdd/Stack`, `TextStack`; C84-C87), the byte size of frames is not.  The 2^64 bound is modelled where
  text is parsed (`parse::<usize>`), and round trips assume priorities below it.
* Lock poisoning.  A panic under a *write* guard would poison the `RwLock`; `add` cannot panic except by allocation failure.
  `get` of a missing id panics under a *read* guard, which does not poison (std): that is modelled (`rdDone panicked`) and covered by C97.
* The concrete serde formats and the code generated by `derive(Serialize, Deserialize)`: the model has the serde *data model*
  (sequence, map, string, struct fields) and the hand written impls; a format is assumed to return what it was given.
* `nom` macros are modelled by their documented meaning on complete `&str` input (`Verif/Text.lean` says which combinators).
* Hash functions: a `HashSet`/`HashMap` is its contents plus an arbitrary iteration order; `DefaultHasher` in `hash_structure`
  is an arbitrary function of the hashed sequence.
* Derived `Debug` texts (the hand-written ones of nodes, trees and forests are modelled in `Debug`).

## 2. Modelling conventions

* Items: any type with `LinearOrder`.
* Hash sets: `Finset`/list plus an *iteration-order oracle*: every model function iterating one takes an arbitrary enumeration;
  theorems hold for every oracle, hence for every hash seed and every rayon split.
* `HashMap`/`BTreeMap`: strictly key-sorted association list (`Verif/Base.lean`), iteration of a `HashMap` an arbitrary permutation.
* A panic (`unwrap`, missing arena entry, `expect`) is `none` or an explicit error; totality theorems show when it is not reached.
* Interned nodes: the functional models use plain inductive diagrams.  This is not an assumption: `Verif/Arena*.lean`
  model the code with node ids and one global arena, one lock acquisition per step, any number of threads and any schedule, and
  prove (C64) that every thread ends with an id denoting the functional result, and that ids are equal iff diagrams are.
* Recursion bounds (`fuel`) occur only in the arena programs; every theorem about them is "for all sufficiently large fuel", and
  reaching the bound counts as a failure (`Prog.spin` satisfies no specification), so termination is part of what is proved.

Specifications are separate from the model: `Verif/Spec.lean` (families of sets), `Verif/Zdd2/Spec.lean`, `Verif/Bdd/Spec.lean`
(outfits in terms of the calls made on the builder).

## 3. Trusted base

* Lean 4.33.0's kernel; Mathlib definitions used in statements (`Finset`, `Set`, `LinearOrder`, `List.Perm`, ...).
* Axioms: every theorem depends on a subset of `propext`, `Classical.choice`, `Quot.sound` (checked with `#print axioms` on every
  theorem named in MANIFEST.json).  No axiom is added, no compiled evaluation is used.
* That the model says what the Rust code does.  Every definition cites the file and lines it models (`tools/cites.py` prints
  the cited lines for review); definitions that model no code are marked "Not code".  Seeded wrong programs
  (`seeded/LOG.jsonl`, 590+ edits to the model) test that theorems fail when the program is wrong.
* Tests of the model, not proofs: `Verif/Conform/` replays the repository's own test suite on the model, one `example` per
  assertion, evaluated by the kernel (about 500 tests, 700 assertions: every test of `bowtie-core` and `weave` except those
  of the dead file `apply.rs`).  String items become their rank, hash sets are visited in ascending order.
  `tools/conform.py` and `tools/conform2.py` generate the modules from the test sources; `Misc.lean` is written by hand.
  They raise confidence that the model is the code; nothing in MANIFEST.json rests on them.

## 4. Findings: properties that are false of the code

Each is proved false by a concrete witness theorem; a `_partial` theorem says what does hold.

| id | what goes wrong | witness |
|---|---|---|
| C08 | matrix forests of the same sets can compare unequal: `many(&[[1],[1]])` is the variant `Many({[1]})`, `unit(&[1])` the variant `Unit([1])` | `Matrix.eq_not_extensional` |
| C10 | `Tree::union` is not the union of the items: the union of `{3}` and `{1,2}` is empty | `Tree.tree_union_not_exact` |
| C17 | zdd2 `union`: when the merged universe reorders items, translating a root with the smart constructor loses or adds sets: `{{1,2},{1,3}} ∪ {{2},{2,3}}` is computed without `{1,3}` | `Zdd2.union_not_exact` |
| C75 | zdd2: `f.subset(x).union(f.subset_not(x))` may lose members (same cause) | `Zdd2.reunite_wrong` |
| C110 | an exclusion rule written as `union(f.subset_not(a), f.subset(a).subset_not(b))` is wrong on zdd2 (same cause as C17): two families of two with one exclusion give `{1,2}`, two items of one family, and lose the outfit `{1,4}` | `Wardrobe.zdd2_recipe_wrong` |
| C18 | zdd2 `intersect` treats the unit set as neutral: keeps sets that are in one operand only | `Zdd2.intersect_not_exact` |
| C19 | zdd2 `product(a, a)` returns `a` | `Zdd2.product_not_exact` |
| C22 | zdd2 `subset_none` keeps sets it should drop: with an element that no member contains among the excluded ones it returns the forest unfiltered (`many(&[[1]])` excluding `[1, 2]`); it never drops a member free of the excluded elements | `Zdd2.subsetNone_not_exact` |
| C31, C32 | v1 `intersect`, `product`: as C18, C19 and the product of equal ids pairs low with low and high with high only | `Zdd1.intersect_not_exact`, `Zdd1.product_not_exact` |
| C37 | BDD `!` swaps the children of the root only; `^` inherits it | `Bdd.not_xor_wrong` |
| C44 | `complete_outfit` after `select_item` omits the selected items | `Bdd.complete_after_select_wrong` |
| C58, C63 | foreign documents that deserialize make later calls (or the reading itself) panic | `Zdd2.foreign_data_panics`, `Bdd.foreign_closet_panics` |
| C59 | v1 trees with a repeated item in a combination compare unequal | `Zdd1.eq_not_extensional` |
| C60 | v1 `traverse` panics after `union` with a tree of a larger universe | `Zdd1.traverse_can_panic` |
| C67 | a closet whose rules leave no outfit excludes nothing: with one more rule an excluded item becomes selectable | `Bdd.more_rules_wrong` |
| C88 | a BDD `NodeId` is written as a bare number: in another process it is another node or panics, and a number read that is the next free id makes a branch its own child, on which counting never ends | `Arena.saved_id_other_run`, `Arena.read_id_loops` |
| C91 | matrix: `Forest` variants are public; of values no constructor makes, `intersect`, `len`, `is_empty` and `occurrences` may be wrong (`Unit([2,1])` and `Unit([1,2])` intersect to nothing) | `Matrix.written_values_wrong` |
| C92 | `Tree::many(&[x, x])` is `Many({x})`, which is not equal to `One(x)` though it has the same items | `Tree.tree_eq_not_extensional` |
| C94 | a closet made with `Closet::new` from a diagram with equal children, or one that tests an item twice, is completed with a choice it rejects | `Bdd.handmade_wrong` |
| C95 | in a closet made by hand from an inclusion rule alone (`2` needs `1`), `2` is Excluded and cannot be selected though `{1,2}` is accepted | `Bdd.handmade_summary_wrong` |
| C96 | `outfit_count` counts paths, so a hand-made closet that accepts 3 choices counts 2 | `Bdd.handmade_count_wrong` |
| C62 | the serialized BDD node keeps one item per depth, so a node with different items at one depth (`if 1 then 3 else 2`) is read back differently | `Bdd.node_roundtrip_wrong` |
| C105 | a v1 document whose index disagrees with its item list is read without complaint; `restrict` then returns combinations that are not in the tree | `Zdd1.swapped_restrict`, `Zdd1.overrun_read` |
| C112 | `f × unit([])`, `f ∩ (f ∪ g)` and reuniting a split are not `==` to `f` when `f` is a hash set of one vector; product is not associative and nothing distributes under `==`, though all these laws hold member by member (C49) | `Matrix.lossy_values`, `Matrix.laws_fail` |
| C114 | v1 `union`, `intersect` and `product` are associative but `a ∪ (a ∩ b) = a`, `a ∩ (a ∪ b) = a` and the distributive laws fail, already for `a = {∅}`, `b = {{1}}` | `Zdd1.laws_fail` |
| C115 | zdd2 `union`, `intersect` and `product` are not associative (`({1} ∪ {2}) ∪ {1,2}` differs from `{1} ∪ ({2} ∪ {1,2})`, which loses `{2}`), do not absorb or distribute, and uniting twice with the same forest changes the result | `Zdd2.laws_fail` |
| C116 | `a \| !a`, `a & !a`, De Morgan and `a ^ a` give the wrong node, because `!` reverses the choice for one item instead of negating | `Bdd.not_laws_fail`, `Bdd.formula_exact` |
| C117 | Collecting items one by one with `Tree::union` never holds more than two; the third different item empties the tree | `Tree.collected_two`, `Tree.grouping_matters` |
| C118 | For an illegal builder the number of violations reported depends on the order of the calls (an item's first family counts as its family) | `Bdd.first_family_matters` |

<!-- TABLE -->
## 5. Per property

| id | property | status | how it is modelled and proved | theorems |
|---|---|---|---|---|
| C01 | Matrix forest holds exactly the sets it was built from | proved | per-operation refinement to sets of sets; API expressions (`Prog`) by induction, for every iteration order | `Matrix.many_family`, `Matrix.unit_family`, `Matrix.unique_family`, `Matrix.empty_family` |
| C02 | Matrix union is set union | proved | per-operation refinement to sets of sets; API expressions (`Prog`) by induction, for every iteration order | `Matrix.union_family`, `Matrix.run_family` |
| C03 | Matrix intersect is set intersection | proved | per-operation refinement to sets of sets; API expressions (`Prog`) by induction, for every iteration order | `Matrix.intersect_family`, `Matrix.run_family` |
| C04 | Matrix product is the pairwise-union product | proved | per-operation refinement to sets of sets; API expressions (`Prog`) by induction, for every iteration order | `Matrix.product_family`, `Matrix.run_family` |
| C05 | Matrix subset queries filter exactly | proved | per-operation refinement to sets of sets; API expressions (`Prog`) by induction, for every iteration order | `Matrix.subset_family`, `Matrix.subsetNot_family`, `Matrix.subsetAll_family`, `Matrix.subsetNone_family`, `Matrix.run_family` |
| C06 | Matrix len / is_empty / occurrences / trees count exactly | proved | per-operation refinement to sets of sets; API expressions (`Prog`) by induction, for every iteration order | `Matrix.trees_exact`, `Matrix.len_exact`, `Matrix.isEmpty_exact`, `Matrix.occurrences_exact` |
| C07 | Matrix results do not depend on hash order or thread schedule | proved | two runs with arbitrary different oracles are related by induction over the API expression | `Matrix.runs_deterministic`, `Matrix.occurrences_deterministic` |
| C08 | Matrix forest equality is extensional | partial | negation by witness; equality characterised exactly | `Matrix.eq_not_extensional`, `Matrix.eq_extensional_partial`, `Matrix.eq_iff_partial` |
| C09 | Tree construction, intersect and product are exact | proved | case analysis over finite sets; C10 negation by witness and exact condition | `Tree.tree_construct`, `Tree.tree_len`, `Tree.tree_intersect`, `Tree.tree_product`, `Trait.tree_product_zdd2` |
| C10 | Tree union is set union | partial | case analysis over finite sets; C10 negation by witness and exact condition | `Tree.tree_union_not_exact`, `Tree.tree_union_partial` |
| C11 | Hash-consing is sound under every thread interleaving | proved | invariant of a transition system of arbitrarily many interleaved threads; unfolding ids into diagrams | `Arena.returned_resolves`, `Arena.returned_same_iff`, `Arena.resolve_stable`, `Arena.leaf_constants`, `Arena.missed_can_finish` |
| C12 | Node id equality decides structural equality | proved | invariant of a transition system of arbitrarily many interleaved threads; unfolding ids into diagrams | `Arena.id_denotes`, `Arena.id_eq_iff`, `Arena.denotation_stable`, `Arena.conversion_denotes` |
| C13 | ZDD forest holds exactly the sets it was built from | proved | set-of-sets semantics of ordered diagrams, canonicity by structural induction, invariant over API expressions | `Zdd2.many_family`, `Zdd2.unit_family`, `Zdd2.unique_family`, `Zdd2.empty_family` |
| C14 | ZDD forest trees() enumerates each set once, sorted | proved | set-of-sets semantics of ordered diagrams, canonicity by structural induction, invariant over API expressions | `Zdd2.trees_exact`, `Zdd2.trees_nonempty`, `Zdd2.len_exact`, `Zdd2.isEmpty_exact` |
| C15 | ZDD forest occurrences are exact | proved | set-of-sets semantics of ordered diagrams, canonicity by structural induction, invariant over API expressions | `Zdd2.occurrences_exact` |
| C16 | ZDD forest equality is extensional (canonicity) | proved | set-of-sets semantics of ordered diagrams, canonicity by structural induction, invariant over API expressions | `Zdd2.eq_iff_family`, `Zdd2.many_eq_iff` |
| C17 | ZDD union is set union | partial | negation by witness; semantics of the node operations by functional induction, bounds for all inputs, exact characterisation of what is computed, and the condition for it to be the intended result | `Zdd2.union_not_exact`, `Zdd2.union_family_partial`, `Zdd2.union_cases_partial`, `Zdd2.union_exact`, `Zdd2.union_right_iff`, `Zdd2.union_keeps_partial`, `Zdd2.union_disjoint_iff`, `Zdd2.union_members_le` |
| C18 | ZDD intersect is set intersection | partial | negation by witness; semantics of the node operations by functional induction, bounds for all inputs, exact characterisation of what is computed, and the condition for it to be the intended result | `Zdd2.intersect_not_exact`, `Zdd2.intersect_bounds`, `Zdd2.intersect_family_partial`, `Zdd2.intersect_disjoint_partial`, `Zdd2.intersect_unique_partial`, `Zdd2.intersect_exact_partial`, `Zdd2.intersect_right_iff_partial`, `Zdd2.intersect_exact`, `Zdd2.intersect_keeps_partial` |
| C19 | ZDD product is the pairwise-union product | partial | negation by witness; semantics of the node operations by functional induction, bounds for all inputs, exact characterisation of what is computed, and the condition for it to be the intended result | `Zdd2.product_not_exact`, `Zdd2.product_bounds`, `Zdd2.product_self`, `Zdd2.product_family_partial`, `Zdd2.product_disjoint_partial`, `Zdd2.product_exact_partial`, `Zdd2.product_exact`, `Zdd2.product_keeps_partial` |
| C20 | ZDD subset and subset_not filter exactly | proved | set-of-sets semantics of ordered diagrams, canonicity by structural induction, invariant over API expressions | `Zdd2.subset_family`, `Zdd2.subsetNot_family` |
| C21 | ZDD subset_all filters exactly | proved | set-of-sets semantics of ordered diagrams, canonicity by structural induction, invariant over API expressions | `Zdd2.subsetAll_family` |
| C22 | ZDD subset_none filters exactly | partial | negation by witness; semantics of the node operations by functional induction, bounds for all inputs, exact characterisation of what is computed, and the condition for it to be the intended result | `Zdd2.subsetNone_not_exact`, `Zdd2.subsetNone_bounds`, `Zdd2.subsetNone_unknown`, `Zdd2.subsetNone_family_partial`, `Zdd2.subsetNone_one_partial`, `Zdd2.subsetNone_exact_partial` |
| C23 | Universe priorities are a bijection ordered by frequency | proved | sorting lemmas on association lists; permutation invariance | `Zdd2.priority_bijective`, `Zdd2.priority_known`, `Zdd2.priority_dense`, `Zdd2.priority_order`, `Zdd2.priorities_roundtrip` |
| C24 | Universe merge is commutative, adds counts, and loses no item | proved | sorting lemmas on association lists; permutation invariance | `Zdd2.merge_exact` |
| C25 | Ordered-node smart constructor keeps the diagram ordered and never loops | proved | functional induction on the smart constructor, termination measure | `Zdd2.branch_ordered`, `Zdd2.branch_exact`, `Zdd2.branch_not_exact` |
| C26 | ZDD node text round-trips | proved | printer/parser over character lists, induction on nodes with remaining input; serde data model | `Zdd2.node_text_roundtrip`, `Zdd2.node_text_injective`, `Zdd2.parsed_ordered`, `Zdd2.parse_ignores_rest`, `Zdd2.parse_iff`, `Zdd2.parse_white`, `Zdd2.parse_first`, `Text.trim_spec`, `Text.isWhite_iff` |
| C27 | ZDD forest and universe serialization round-trips | proved | printer/parser over character lists, induction on nodes with remaining input; serde data model | `Zdd2.universe_roundtrip`, `Zdd2.forest_roundtrip`, `Zdd2.serialize_deterministic` |
| C28 | Matrix and ZDD backends agree | proved | corollary of the two refinements, for expressions whose zdd2 operations are exact | `Zdd2.backends_agree`, `Zdd2.backends_agree_build`, `Zdd2.safe_family` |
| C29 | ZDD tree (v1) construction is exact | proved | path-list semantics of v1 diagrams, no condition on universes or arguments | `Zdd1.tree_exact`, `Zdd1.hyper_tree_exact`, `Zdd1.unique_tree_exact`, `Zdd1.empty_unit_exact`, `Zdd1.combinations_listing`, `Zdd1.hyper_tree_order` |
| C30 | ZDD tree (v1) union is set union | proved | path-list semantics of v1 diagrams, no condition on universes or arguments | `Zdd1.union_exact`, `Zdd1.union_exact_built` |
| C31 | ZDD tree (v1) intersect is set intersection | partial | negation by witness; semantics by functional induction | `Zdd1.intersect_not_exact`, `Zdd1.intersect_bounds_partial`, `Zdd1.intersect_trivial_partial`, `Zdd1.intersect_right_iff`, `Zdd1.intersect_never_empty`, `Zdd1.intersect_bags`, `Zdd1.intersect_bags_right_iff`, `Zdd1.intersect_never_empty_any` |
| C32 | ZDD tree (v1) product is the pairwise-union product | partial | negation by witness; semantics by functional induction | `Zdd1.product_not_exact`, `Zdd1.product_sound_partial`, `Zdd1.product_complete_partial`, `Zdd1.product_exact_disjoint_partial`, `Zdd1.product_exact_partial`, `Zdd1.product_bags` |
| C33 | combinations_with and restrict filter exactly | proved | path-list semantics of v1 diagrams, no condition on universes or arguments | `Zdd1.combinations_with_exact`, `Zdd1.combinations_with_family`, `Zdd1.restrict_exact`, `Zdd1.restrict_restrict` |
| C34 | summarize classifies each item exactly | proved | path-list semantics of v1 diagrams, no condition on universes or arguments | `Zdd1.summarize_exact`, `Zdd1.summarize_once`, `Zdd1.summarize_deterministic` |
| C35 | ZDD node (v1) text round-trips | proved | printer/parser over character lists, induction on nodes with remaining input; serde data model | `Zdd1.node_text_roundtrip`, `Zdd1.node_text_injective`, `Zdd1.parse_iff` |
| C36 | BDD and / or compute conjunction and disjunction | proved | boolean semantics of BDDs, ordered and reduced diagrams are canonical | `Bdd.and_or_eval` |
| C37 | BDD not / xor compute negation and exclusive or | partial | boolean semantics of BDDs, ordered and reduced diagrams are canonical | `Bdd.not_xor_wrong`, `Bdd.not_partial`, `Bdd.xor_partial`, `Bdd.not_xor_iff_partial` |
| C38 | BDD nodes are canonical | proved | boolean semantics of BDDs, ordered and reduced diagrams are canonical | `Bdd.nodes_canonical`, `Bdd.build_order_irrelevant` |
| C39 | A built closet accepts exactly the valid outfits | proved | refinement to outfits in terms of builder calls, invariant `State` over selection histories | `Bdd.build_accepts` |
| C40 | Builder validation reports exactly the invalid rules | proved | refinement to outfits in terms of builder calls, invariant `State` over selection histories | `Bdd.build_validates`, `Bdd.plural_calls` |
| C41 | Item summary is exact | proved | refinement to outfits in terms of builder calls, invariant `State` over selection histories | `Bdd.summary_exact`, `Bdd.summary_one_status`, `Bdd.select_unsatisfiable` |
| C42 | select_item restricts to outfits containing the item | proved | refinement to outfits in terms of builder calls, invariant `State` over selection histories | `Bdd.select_exact`, `Bdd.selected_accepts`, `Bdd.select_order_irrelevant`, `Bdd.select_all_ok_iff`, `Bdd.select_unsatisfiable` |
| C43 | complete_outfit is sound and complete | proved | refinement to outfits in terms of builder calls, invariant `State` over selection histories | `Bdd.complete_exact`, `Bdd.complete_general` |
| C44 | complete_outfit after select_item includes earlier selections | partial | refinement to outfits in terms of builder calls, invariant `State` over selection histories | `Bdd.complete_after_select_wrong`, `Bdd.complete_after_select_partial` |
| C45 | outfit_count counts the valid outfits | proved | refinement to outfits in terms of builder calls, invariant `State` over selection histories | `Bdd.outfit_count_exact` |
| C46 | Closet serialization round-trips | proved | serde data model of nodes and closets, exact set of surviving documents | `Bdd.closet_roundtrip`, `Bdd.node_roundtrip_wrong` |
| C47 | API calls on API-made values never panic | proved | error values unreachable: totality theorems | `Zdd2.run_total`, `Zdd2.binary_total`, `Zdd2.fmt_total`, `Arena.returned_resolves`, `Zdd1.traverse_total_built`, `Bdd.complete_general`, `Bdd.closet_roundtrip`, `ArenaZdd2.threads_exact` |
| C48 | Node restrict computes the cofactor | proved | boolean semantics of BDDs, ordered and reduced diagrams are canonical | `Bdd.restrict_cofactor` |
| C49 | Algebraic laws of the matrix forest | proved | per-operation refinement to sets of sets; API expressions (`Prog`) by induction, for every iteration order | `Matrix.comm_laws`, `Matrix.member_laws` |
| C50 | ItemStatus helpers agree with the variant | proved | case analysis | `Weave.ItemStatus.predicates_exact`, `Weave.ItemStatus.is_iff`, `Weave.ItemStatus.map_spec`, `Weave.ItemStatus.option_map_spec`, `Weave.ItemStatus.map_laws`, `Weave.ItemStatus.order_spec`, `Bdd.Status.predicates_exact`, `Bdd.Status.is_iff`, `Bdd.Status.order_spec` |
| C51 | categorize partitions the summary by family | proved | refinement to outfits in terms of builder calls, invariant `State` over selection histories | `Bdd.categorize_exact` |
| C52 | Members returned by approximate ZDD operations are bounded | proved | negation by witness; semantics of the node operations by functional induction, bounds for all inputs, exact characterisation of what is computed, and the condition for it to be the intended result | `Zdd2.same_universe_bounds`, `Zdd2.intersect_bounds`, `Zdd2.product_bounds` |
| C53 | hash_structure depends on shape only | proved | arbitrary hash functions as parameters | `Bdd.hash_structure_shape` |
| C54 | Closet node counts and depth | proved | refinement to outfits in terms of builder calls, invariant `State` over selection histories | `Bdd.closet_counts` |
| C55 | ZDD forest laws that hold for every forest | proved | set-of-sets semantics of ordered diagrams, canonicity by structural induction, invariant over API expressions | `Zdd2.ops_comm`, `Zdd2.ops_idem`, `Zdd2.ops_empty` |
| C56 | ZDD operations invent no item | proved | set-of-sets semantics of ordered diagrams, canonicity by structural induction, invariant over API expressions | `Zdd2.ops_items` |
| C57 | ZDD results do not depend on hash map iteration order | proved | sorting lemmas on association lists; permutation invariance | `Zdd2.universe_deterministic`, `Zdd2.merge_deterministic`, `Zdd2.occurrences_deterministic` |
| C58 | A forest that deserializes successfully can be used without panics | partial | printer/parser over character lists, induction on nodes with remaining input; serde data model | `Zdd2.foreign_data_panics`, `Zdd2.own_data_safe_partial`, `Zdd2.held_use_iff_partial`, `Zdd2.held_result_reach`, `Zdd2.sane_iff` |
| C59 | ZDD tree (v1) equality is extensional | partial | negation by witness; semantics by functional induction | `Zdd1.eq_not_extensional`, `Zdd1.eq_iff_combinations_partial`, `Zdd1.tree_eq_iff_partial`, `Zdd1.ops_comm`, `Zdd1.ops_idem`, `Zdd1.union_assoc`, `Zdd1.eq_iff_bags`, `Zdd1.union_assoc_any` |
| C60 | traverse never panics and mirrors combinations | partial | negation by witness; semantics by functional induction | `Zdd1.traverse_can_panic`, `Zdd1.traverse_total_partial`, `Zdd1.traverse_iff`, `Zdd1.union_traverse_iff_partial`, `Zdd1.traverse_exact` |
| C61 | ZDD tree (v1) serialization round-trips | proved | printer/parser over character lists, induction on nodes with remaining input; serde data model | `Zdd1.tree_roundtrip`, `Zdd1.serialize_deterministic`, `Zdd1.tree_roundtrip_any` |
| C62 | BDD node serialization round-trips | partial | serde data model of nodes and closets, exact set of surviving documents | `Bdd.node_roundtrip_wrong`, `Bdd.node_roundtrip_partial` |
| C63 | Reading a closet from a document never panics | partial | serde data model of nodes and closets, exact set of surviving documents | `Bdd.foreign_closet_panics`, `Bdd.closet_read_iff_partial` |
| C64 | Results do not depend on the other threads sharing the node arena | proved | programs over the shared arena, a weakest-precondition logic stable under other threads, per-operation theorems, then all schedules of all thread families | `ArenaZdd2.threads_exact`, `ArenaZdd2.threads_compare`, `ArenaZdd2.run_ok`, `Arena.schedules_sound`, `ArenaBdd.threads_exact`, `ArenaBdd.threads_compare`, `ArenaBdd.alone_total`, `ArenaZdd1.threads_exact`, `ArenaZdd1.threads_compare`, `ArenaZdd1.traverse_ok` |
| C65 | Threads sharing the arena make progress | proved | programs over the shared arena, a weakest-precondition logic stable under other threads, per-operation theorems, then all schedules of all thread families | `ArenaZdd2.threads_finish`, `ArenaZdd1.threads_finish`, `ArenaBdd.threads_finish`, `Arena.no_livelock`, `Arena.can_finish`, `Arena.steps_finite` |
| C66 | Which outfit complete_outfit returns | proved | consequences of the outfit refinement; induction along the diagram walk, along guided selections, and double counting over families | `Bdd.complete_least`, `Bdd.complete_determined` |
| C67 | Adding rules never adds outfits | partial | consequences of the outfit refinement; induction along the diagram walk, along guided selections, and double counting over families | `Bdd.more_rules_partial`, `Bdd.more_rules_iff_partial`, `Bdd.more_rules_wrong` |
| C68 | Picking only Available items always leads to an outfit | proved | consequences of the outfit refinement; induction along the diagram walk, along guided selections, and double counting over families | `Bdd.guided_selection` |
| C69 | Outfit counts add up | proved | consequences of the outfit refinement; induction along the diagram walk, along guided selections, and double counting over families | `Bdd.outfit_count_family`, `Bdd.outfit_count_no_rules`, `Bdd.outfit_size` |
| C70 | Repeating a computation allocates no node | proved | a program whose finished run is settled in the arena finds every node again; invariant over all schedules | `ArenaZdd2.repeat_allocates_nothing`, `ArenaBdd.repeat_allocates_nothing`, `ArenaZdd1.repeat_allocates_nothing`, `Arena.repeat_free` |
| C71 | Bounds on the results of zdd2 set operations | proved | path counts by size never grow under the smart constructor (functional induction) nor under translation; transferred to members | `Zdd2.size_bounds`, `Zdd2.len_bounds`, `Zdd2.empty_iff` |
| C72 | Generic clients of the Forest trait observe the same on both backends | proved | the trait as a relational structure with one instance per backend; corollaries of both refinements, induction over the list of menus | `Trait.client_total`, `Trait.clients_agree`, `Trait.eval_zdd2`, `Trait.eval_matrix` |
| C73 | Forests over separate items combine exactly | proved | the trait as a relational structure with one instance per backend; corollaries of both refinements, induction over the list of menus | `Trait.disjoint_exact`, `Trait.menu_exact` |
| C74 | Filters split a forest consistently | proved | canonicity of reachable forests turns equal families into equal values; C75 negation by witness | `Zdd2.filters_commute`, `Zdd2.subsetAll_fold`, `Zdd2.split_len` |
| C75 | Reuniting the two sides of a split gives the forest back | partial | canonicity of reachable forests turns equal families into equal values; C75 negation by witness | `Zdd2.reunite_wrong`, `Zdd2.reunite_partial`, `Zdd2.reunite_iff_partial` |
| C76 | The forest algebra computes one documented function, on every pair of forests | proved | the smart constructor is shown equal to a family-level recursion over the item order (mutual induction over levels), transported from priorities to items and through translate_root | `Zdd2.union_exact`, `Zdd2.intersect_exact`, `Zdd2.product_exact`, `Zdd2.ranking_unique`, `Zdd2.rerank_safe` |
| C77 | Counts are right up to the range of u64 and overflow beyond it | proved | checked (Option) and wrapping (UInt64) versions of the counters related to the unbounded ones by structural induction; the overflowing closet by the product formula of C69 | `Bdd.outfit_count_machine`, `Bdd.counts_fit`, `Bdd.outfit_count_overflow`, `Bdd.Node.checked`, `Bdd.Node.wrapped` |
| C78 | The order on nodes is total, agrees with equality and is fixed within a run | proved | the derived comparison on arena cells; consequences of the arena invariant over all schedules, and two schedules that disagree | `Arena.cmpCell_total`, `Arena.cmp_order`, `Arena.cmp_eq_iff`, `Arena.cmp_stable`, `Arena.part_before`, `Arena.cmp_depends_on_history` |
| C79 | What v1 Tree::intersect computes, and when it is right | proved | the recursion of intersect is shown to compute the walk of a pair (functional induction, cofactor lemmas for what a family could go on with), transported from ids to items | `Zdd1.intersect_meaning`, `Zdd1.intersect_right_iff`, `Zdd1.intersect_never_empty`, `Zdd1.intersect_hidden`, `Zdd1.intersect_bags` |
| C80 | The viewer page shows the tree it is given | proved | the page as a tree of elements, read by independent functions (bullets, texts); structural induction on the tree, and hyper_tree_exact for the constant model | `Viewer.page_lists`, `Viewer.page_total`, `Viewer.viewNode_inj`, `Viewer.drawing_determines`, `Viewer.drawing_reads`, `Viewer.line_determines`, `Viewer.page_shows` |
| C81 | Debug texts identify what they print | proved | every printer is shown to render a tree of lines; unique readability of indented lines by induction; equal forests by canonicity | `Debug.bdd_debug_iff`, `Debug.zdd1_debug_iff`, `Debug.tree_debug_iff`, `Debug.tree_debug_blind`, `Debug.zdd2_debug_iff`, `Debug.forest_debug_total`, `Debug.forest_debug_iff`, `Debug.bdd_layout`, `Debug.zdd1_layout`, `Debug.zdd2_layout`, `Debug.forest_layout`, `Zdd2.fmt_is_debug` |
| C82 | Item counts do not overflow | proved | machine model of the counts (`Zdd2/Machine`): checked and wrapping additions next to the unbounded ones; loops by induction, counts bounded by the length through C15 and C71 | `Zdd2.merge_checked`, `Zdd2.many_checked`, `Zdd2.binary_checked`, `Zdd2.filter_checked`, `Zdd2.foreign_counts_overflow`, `Zdd2.wrapped_total`, `Zdd2.wrapped_counts` |
| C83 | The arena lock: atomic sections, no deadlock, every run ends | proved | machine with `Once`, reader list, writer and program counters inside the critical sections (`ArenaLock`); forward simulation into the one-step machine of C64; deadlock freedom by case analysis over the lock invariant for an arbitrary live admission policy; termination by a lexicographic well-founded order per thread | `Arena.guards_exclusive`, `Arena.sections_atomic`, `Arena.locks_sound`, `Arena.deadlock_free`, `Arena.locks_no_livelock`, `Arena.every_schedule_ends`, `Arena.stuck_is_finished`, `Arena.all_finish`, `Arena.crew_runs`, `Arena.crew_finish`, `ArenaZdd2.locked_exact`, `ArenaZdd2.locked_compare`, `ArenaZdd2.locked_finish`, `ArenaBdd.locked_exact`, `ArenaBdd.locked_finish`, `ArenaZdd1.locked_exact`, `ArenaZdd1.locked_finish` |
| C84 | zdd2 recursion depth depends only on the number of different items | proved | every recursive function again with a budget of frames (`Zdd2/Stack`), shown equal to the original when the budget covers the priorities still ahead (induction on the budget with the ordering invariant); lower bound by induction on translate_root | `Zdd2.run_stack`, `Zdd2.ops_stack`, `Zdd2.stack_needed`, `Zdd2.no_fixed_stack` |
| C85 | zdd recursion depth depends only on the size of the universe | proved | the recursive functions again with a budget of frames (`Zdd1/Stack`, `Bdd/Stack`), shown equal to the originals when the budget covers the ids (items) still ahead, by functional induction with the ordering invariant; lower bounds by induction on the walks | `Zdd1.ops_stack`, `Zdd1.stack_needed`, `Zdd1.repeats_overflow`, `Zdd1.no_fixed_stack` |
| C86 | Closet recursion depth depends only on the number of items | proved | the recursive functions again with a budget of frames (`Zdd1/Stack`, `Bdd/Stack`), shown equal to the originals when the budget covers the ids (items) still ahead, by functional induction with the ordering invariant; lower bounds by induction on the walks | `Bdd.closet_stack`, `Bdd.counts_stack`, `Bdd.complete_stack`, `Bdd.no_fixed_stack` |
| C87 | How deep reading and writing node text recurses, on any document | proved | the parser rule with a budget of frames that tells overflow from rejection (`TextStack`), `Node::branch` on the frames left bounded by the number of different ids; induction on the budget; an adversarial text for every budget; exact height by induction on nodes | `Zdd2.read_stack`, `Zdd2.read_overflows`, `Zdd2.write_read_exact`, `Zdd2.forest_text_stack`, `Zdd2.forest_text_needs`, `Zdd1.read_stack`, `Zdd1.read_overflows`, `Zdd1.write_read_exact`, `Zdd1.tree_text_stack`, `Zdd1.tree_text_needs` |
| C88 | A saved BDD node id stands for the node it was written for | partial | consequence of the arena invariants within a run (`ArenaForge`); negation by a family of runs; a self-referential node from the freshness of the next id | `Arena.saved_id_same_run_partial`, `Arena.saved_leaf_any_run`, `Arena.saved_id_other_run`, `Arena.read_id_loops`, `Arena.outfitCountA_denotes` |
| C89 | How many calls the operations on zdd2 forests make | proved | the recursive functions again with a counter of calls (`Cost`, `Zdd2/Cost`, `Bdd/Cost`), shown to compute the same values; upper bounds by functional induction on sizes, and the size of a diagram bounded by items times members (outfits); lower bounds because the unshared diagram has a leaf per member; the exponential witness by canonicity of an explicit chain diagram | `Zdd2.forest_calls`, `Zdd2.filter_calls`, `Zdd2.forest_calls_lower`, `Zdd2.listing_calls`, `Zdd2.many_calls` |
| C90 | How many calls building, narrowing and querying a BDD closet makes | proved | the recursive functions again with a counter of calls (`Cost`, `Zdd2/Cost`, `Bdd/Cost`), shown to compute the same values; upper bounds by functional induction on sizes, and the size of a diagram bounded by items times members (outfits); lower bounds because the unshared diagram has a leaf per member; the exponential witness by canonicity of an explicit chain diagram | `Bdd.closet_size`, `Bdd.query_calls`, `Bdd.select_calls`, `Bdd.complete_calls`, `Bdd.build_calls`, `Bdd.calls_exponential` |
| C91 | Matrix forests written with the public variants behave as the sets they list | partial | the operations on any value of the enum through the vectors it stores (`Matrix/Raw`), no reachability hypothesis; negations by witness | `Matrix.written_ops_partial`, `Matrix.written_intersect_partial`, `Matrix.written_len_partial`, `Matrix.written_occurrences_partial`, `Matrix.written_values_wrong`, `Matrix.written_reach_iff`, `Matrix.written_normalise`, `Matrix.written_deterministic` |
| C92 | Two trees are equal exactly when they have the same items | partial | case analysis on the three variants for any value (`TreeDoc`), documents as the serde data model; negation by witness | `Tree.tree_eq_not_extensional`, `Tree.tree_eq_iff_partial`, `Tree.tree_eq_other_partial`, `Tree.tree_laws` |
| C93 | A tree read from a document has the items the document lists | proved | case analysis on the three variants for any value (`TreeDoc`), documents as the serde data model; negation by witness | `Tree.tree_roundtrip`, `Tree.tree_read_exact`, `Tree.tree_any_value`, `Tree.tree_reach_iff` |
| C94 | Completing an outfit of a closet made by hand | partial | `Closet::new` on any diagram (`Bdd/Handmade`): diagrams that test no item twice on a path, ordered reduced diagrams by canonicity, structural induction; negations by witness | `Bdd.handmade_errors`, `Bdd.handmade_complete_partial`, `Bdd.handmade_reduce`, `Bdd.plain_meets`, `Bdd.handmade_wrong` |
| C95 | Statuses of a closet made by hand | partial | `Closet::new` on any diagram (`Bdd/Handmade`): diagrams that test no item twice on a path, ordered reduced diagrams by canonicity, structural induction; negations by witness | `Bdd.handmade_summary_partial`, `Bdd.handmade_select_partial`, `Bdd.handmade_summary_wrong` |
| C96 | outfit_count of a closet made by hand is the number of accepted choices | partial | `Closet::new` on any diagram (`Bdd/Handmade`): diagrams that test no item twice on a path, ordered reduced diagrams by canonicity, structural induction; negations by witness | `Bdd.handmade_count_partial`, `Bdd.handmade_count_wrong` |
| C97 | A misbehaving thread does not disturb the others | proved | the program logic and the lock machine of C64/C83 with a set of verified threads and arbitrary others (`ArenaRogue`); the arena invariant split into a part every interning keeps and a part only verified ones keep | `Arena.among_sound`, `Arena.among_finish`, `Arena.among_locks_sound`, `Arena.among_deadlock_free`, `Arena.among_stuck`, `Arena.among_all_finish`, `Arena.among_runs`, `ArenaBdd.rogue_exact`, `ArenaBdd.rogue_finish`, `ArenaBdd.rogue_compare`, `ArenaBdd.rogue_locked`, `ArenaZdd2.rogue_locked`, `ArenaZdd1.rogue_locked` |
| C98 | A client cannot tell that it shares the process | proved | every call as an arena program shown equal to the sequential model for any node (`ArenaClient`); clients as interaction trees; worlds of threads started at any time with values of finished ones, by invariant over all runs | `ArenaBdd.worlds_exact`, `ArenaBdd.clients_locked`, `ArenaBdd.op_panics_iff`, `ArenaBdd.crowds_exact`, `ArenaBdd.clients_exact`, `ArenaBdd.op_fails` |
| C99 | A configurator driven by tree summaries never reaches a dead end | proved | the summary read as a statement about the family of remaining combinations (C34); induction over the conversation; availability shrinks as a set | `Zdd1.guided_never_stuck`, `Zdd1.guided_next`, `Zdd1.guided_end`, `Zdd1.guided_shrinks`, `Zdd1.guided_reaches`, `Zdd1.guided_singles_out` |
| C100 | Narrowing a tree and narrowing the question agree | proved | both summaries read as statuses over the same family; list equality by sortedness | `Zdd1.restrict_summarize`, `Zdd1.summarize_monotone`, `Zdd1.summarize_wishes`, `Zdd1.summarize_union` |
| C101 | What combining v1 trees of different universes gives | proved | ids are positions: the second diagram is unchanged, only its reading changes; canonicity gives nativeness | `Zdd1.union_foreign`, `Zdd1.foreign_reread_first`, `Zdd1.foreign_round_trip`, `Zdd1.foreign_native`, `Zdd1.foreign_agreeing`, `Zdd1.universe_grows` |
| C102 | How many calls the v1 tree operations make | proved | functions repeated with a call counter, induction over the recursion; size of an ordered diagram bounded by the items its combinations mention | `Zdd1.tree_calls`, `Zdd1.listing_calls`, `Zdd1.hyper_calls`, `Zdd1.restrict_calls`, `Zdd1.mentions_le` |
| C103 | A client of zdd2 forests cannot tell that it shares the process | proved | a generic logic of outcomes (answer or panic) for arena programs and generic clients over any sound library (`ArenaApi`); every call of the two APIs, including the text formats (`ArenaText`), as an arena program shown to end as the sequential model does (`ArenaForestClient`, `ArenaTreeClient`) | `ArenaZdd2.worlds_exact`, `ArenaZdd2.clients_locked`, `ArenaZdd2.op_panics_iff`, `ArenaZdd2.client_held` |
| C104 | A client of v1 trees cannot tell that it shares the process | proved | a generic logic of outcomes (answer or panic) for arena programs and generic clients over any sound library (`ArenaApi`); every call of the two APIs, including the text formats (`ArenaText`), as an arena program shown to end as the sequential model does (`ArenaForestClient`, `ArenaTreeClient`) | `ArenaZdd1.worlds_exact`, `ArenaZdd1.clients_locked`, `ArenaZdd1.op_panics_iff`, `ArenaZdd1.crowds_exact`, `ArenaZdd1.clients_exact`, `ArenaZdd1.op_fails` |
| C105 | A v1 tree or universe read from any document | proved | any tree value is covered: the listing lemmas need no link between list and index; construction computed through the index; equivalences by choosing wishes that single out one combination | `Zdd1.read_iff`, `Zdd1.read_write_read`, `Zdd1.read_combinations`, `Zdd1.read_summary`, `Zdd1.read_traverse`, `Zdd1.read_builds`, `Zdd1.read_restrict`, `Zdd1.read_restrict_iff`, `Zdd1.read_universe_iff`, `Zdd1.read_universe_restrict`, `Zdd1.library_universe_ok`, `Zdd1.swapped_restrict`, `Zdd1.overrun_read` |
| C106 | v1 trees from combinations with repeated items | proved | a path with repeated items is an ordinary path over numbered copies of items; the operations commute with the numbering, so the theorems about trees without repetitions apply to the numbered diagrams (`Zdd1.Bags`) | `Zdd1.combinations_bags`, `Zdd1.eq_iff_bags`, `Zdd1.union_bags`, `Zdd1.union_assoc_any`, `Zdd1.tree_bags`, `Zdd1.hyper_tree_bags`, `Zdd1.restrict_bags`, `Zdd1.product_bags`, `Zdd1.intersect_bags`, `Zdd1.intersect_bags_right_iff`, `Zdd1.intersect_never_empty_any`, `Zdd1.doubled_product` |
| C107 | What the shared node store holds does not depend on the schedule | proved | no operation looks at the number of an id: a relational proof per operation (`Alike`) that it visits the same diagrams in any two arenas; every node of the arena was interned by a started thread, and the walk of a finished thread in the other arena found the same diagrams | `ArenaZdd2.memory_same`, `ArenaZdd2.memory_within`, `ArenaZdd2.memory_adds_up`, `ArenaZdd1.memory_same`, `ArenaZdd1.memory_within`, `ArenaZdd1.memory_adds_up`, `ArenaBdd.memory_same`, `ArenaBdd.memory_within`, `ArenaBdd.memory_adds_up` |
| C108 | What a client leaves in the shared node store is fixed | proved | the relational walk of C107 extended to every call and to adaptive, panicking clients (`Api.Blind`); what a client leaves is what it visits in any process in which it has ended; invariant over all processes: every node was visited by the client of some started thread | `ArenaZdd2.clients_leave`, `ArenaZdd2.clients_within`, `ArenaZdd2.clients_same`, `ArenaZdd1.clients_leave`, `ArenaZdd1.clients_within`, `ArenaZdd1.clients_same`, `ArenaBdd.clients_leave`, `ArenaBdd.clients_within`, `ArenaBdd.clients_same` |
| C109 | When two closets are equal | proved | canonicity of reduced ordered diagrams (C38) with the exact acceptance, summary and completion of reached closets (C39, C41, C43); only known items matter, so assignments and outfits determine each other | `Bdd.closet_eq_iff`, `Bdd.closet_eq_iff_observed`, `Bdd.redundant_iff`, `Bdd.exclude_symm` |
| C110 | One wardrobe in every package | proved | the recipe means exactly the outfits (induction over families and rules); a listing of the remaining outfits determines count, statuses and selections of the closet (C39, C41, C42); each package lists them (C01, C13, C26), zdd2 products of disjoint families are safe (C73) | `Wardrobe.recipe_exact`, `Wardrobe.zdd2_recipe_exact`, `Wardrobe.matrix_follows`, `Wardrobe.zdd2_follows`, `Wardrobe.tree_follows`, `Wardrobe.nothing_fits`, `Wardrobe.zdd2_recipe_wrong` |
| C111 | What any diagram shows, route by route | proved | routes as an inductive relation; structural induction over arbitrary diagrams | `Bdd.count_routes`, `Bdd.status_routes`, `Bdd.restrict_routes`, `Bdd.select_routes`, `Bdd.complete_routes`, `Bdd.greedy_unique`, `Bdd.complete_right_iff` |
| C112 | When matrix forests are equal as values | proved | which variant each operation returns, by cases; induction over programs with the meaning of C01-C05; laws from the decision of == on programs | `Matrix.runs_alone`, `Matrix.values_exact`, `Matrix.values_agree`, `Matrix.union_values`, `Matrix.intersect_values`, `Matrix.filter_values`, `Matrix.lossy_values`, `Matrix.laws_fail` |
| C113 | Matrix lengths add up | proved | len is the number of members (C06), members of results (C02-C05), finite cardinalities | `Matrix.len_union_intersect`, `Matrix.len_split`, `Matrix.len_product`, `Matrix.len_mono` |
| C114 | Combining many v1 trees | proved | the three operations work item by item, an operand that does not decide the item having given children; associativity by induction on the total size; a combination is the least upper bound of its trees | `Zdd1.ops_assoc`, `Zdd1.ops_constants`, `Zdd1.ops_comm`, `Zdd1.ops_idem`, `Zdd1.any_plan`, `Zdd1.laws_fail` |
| C115 | Combining many zdd2 forests | proved | induction over the grouping from the exact cases of C17-C19; equality of forests is equality of families (C16); witnesses computed by the kernel | `Zdd2.unions_apart`, `Zdd2.products_apart`, `Zdd2.apart_any_order`, `Zdd2.singles_exact`, `Zdd2.singles_laws`, `Zdd2.safe_laws`, `Zdd2.laws_fail` |
| C116 | Comparing BDD nodes decides questions about conditions | proved | induction over expressions; nodes stay ordered and reduced, so canonicity (C38) applies; the root of such a node is the smallest item its function depends on | `Bdd.formula_exact`, `Bdd.formula_eq_iff`, `Bdd.formula_decides`, `Bdd.formula_laws`, `Bdd.formula_complete`, `Bdd.not_laws_fail` |
| C117 | Combining many weave trees | proved | induction over the grouping, each call with its own hash order, and over the list of collected items; witnesses computed | `Tree.intersect_many`, `Tree.union_many`, `Tree.union_any_order`, `Tree.collected_two`, `Tree.grouping_matters` |
| C118 | When closet builders are equal and what the order of calls changes | proved | builders are four key-sorted maps whose look-ups are the calls filtered by key; closets by C109, reports as duplicate-free lists of the violations of C40; witness computed | `Bdd.builder_eq_iff`, `Bdd.calls_commute`, `Bdd.closet_order_free`, `Bdd.report_order_free`, `Bdd.report_groups`, `Bdd.first_family_matters` |
| C119 | How many nodes a BDD call can add to the shared node store | proved | Subdiagrams of a result are results on pairs of subdiagrams (induction on the operation); a program logic `Safe` walks a program in the final arena and bounds what it interns; new nodes of the arena unfold to distinct diagrams, so their number is bounded by the number of diagrams the started threads may intern. | `ArenaBdd.store_growth`, `Bdd.shared_size` |
| C120 | How many nodes a v1 tree call can add to the shared node store | proved | as C119; each operation interns one result per recursive call besides subdiagrams of its operands, which are stored already; chains and joins by induction over the list, expressions by induction over the expression. | `ArenaZdd1.store_growth`, `ArenaZdd1.shared_size` |
| C121 | How many nodes a call of the zdd2 forest API can add to the shared node store | proved | each program is followed beside the counting version of the sequential operation (C89): a call of it interns at most two nodes which were not stored before; the call bounds of C89 then bound the growth; threads as in C119. | `ArenaZdd2.store_growth` |
| C122 | Exactly when the forest algebra leaves its operands intact | proved | rebuilding never increases the weight of a family (sum over members of the positions of their items) and keeps the weight only where the recursion does nothing; that, unfolded over the levels, is the first-order condition | `Zdd2.rerank_keeps_iff`, `Zdd2.kept_iff`, `Zdd2.union_disjoint_iff`, `Zdd2.keeps_of_compatible`, `Zdd2.union_members_le` |
| C123 | How much building a closet, or a whole configurator session, can add to the shared node store | proved | every program is shown to pay for the canonical nodes it interns: each recursive call of the sequential cost model (C92) interns at most two, restricting a diagram of m nodes at most m; the payments of the threads add up because a node already in the store is not added again | `ArenaBdd.sessions_growth` |
| C124 | A configurator driven by forest counts never reaches a dead end, on either backend | proved | both backends are shown to present the same view of a finite family (exact len, is_empty, trees, occurrences, filters); the rest is about finite families, by induction over the conversation | `Trait.guided_members`, `Trait.guided_next`, `Trait.guided_end`, `Trait.guided_shrinks`, `Trait.guided_singles_out` |
| C125 | A session that is saved and continued in another process gets the same answers | proved | sequentially, saving all and reading all back restores the list of values (round trips C27, C46, C61 for what plain calls make, by induction over the client), so the continuation has the same outcome; the concurrent theorems C98, C103, C104 transfer outcomes in each process | `ArenaBdd.restart_exact`, `ArenaZdd2.restart_exact`, `ArenaZdd1.restart_exact` |
| C126 | What one more rule does to a closet can be read off the closet without it | proved | counting outfits with a list of items by induction over the selections; the rule filters the outfit set, so the counts are cardinalities of complementary filters; equality by C109 | `Bdd.countAfter_exact`, `Bdd.countAfter_zero`, `Bdd.exclude_count`, `Bdd.incl_count`, `Bdd.exclude_left`, `Bdd.incl_left`, `Bdd.exclude_redundant`, `Bdd.incl_redundant` |
| C127 | Unrelated parts of a wardrobe do not affect each other | proved | an outfit of the whole splits into one of each part and back, so the counts, statuses and selections, exact in terms of outfits (C41-C45), combine; the completed outfit is the first one in item order (C66), and first ones combine | `Bdd.parts_build`, `Bdd.Parts.legal`, `Bdd.Parts.outfits`, `Bdd.Together.count`, `Bdd.Together.statuses`, `Bdd.Together.select`, `Bdd.Together.untouched`, `Bdd.Together.complete` |
| C128 | The names of items and families do not matter to a closet, only the order of the item names does, and only to completion | proved | renaming is a bijection of the outfits, in terms of which everything but completion is exact (C41-C45); completion gives the first outfit in item order (C66), which an order-preserving renaming keeps; the witness is evaluated by the kernel | `Bdd.build_renamed`, `Bdd.count_renamed`, `Bdd.statuses_renamed`, `Bdd.select_renamed`, `Bdd.completable_renamed`, `Bdd.complete_renamed`, `Bdd.order_decides` |
| C129 | Other item names in the same order give the same zdd2 diagram | proved | every function below the API commutes with a renaming that keeps the order (sorting, `unique`, the maps, the frequency order), by induction on its input; the programs by induction; the witness by evaluating both unions | `Zdd2.run_renamed`, `Zdd2.views_renamed`, `Zdd2.panic_renamed`, `Zdd2.equal_renamed`, `Zdd2.document_renamed`, `Zdd2.order_decides` |
| C130 | The item names do not matter to a v1 tree, not even their order | proved | item ids come from the universe list, so that every constructor makes the same diagram; `restrict` walks the combinations in another order, but its diagram is ordered and thus determined by the sets in it (den_inj); the views through C33, C34 | `Zdd1.eval_renamed`, `Zdd1.combinations_renamed`, `Zdd1.with_renamed`, `Zdd1.summarize_renamed`, `Zdd1.traverse_renamed`, `Zdd1.text_renamed`, `Zdd1.equal_renamed` |
| C131 | The item names do not matter to a matrix forest, not even their order | proved | renaming commutes with what a program means (run_family), by induction over programs, and with which results are held as a single vector (Alone); the views through C06 and C112 | `Matrix.trees_renamed`, `Matrix.size_renamed`, `Matrix.occurrences_renamed`, `Matrix.equal_renamed` |
