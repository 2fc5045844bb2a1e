{"id": "C01", "title": "Matrix forest holds exactly the sets it was built from", "statement": "For every list of input lists, `matrix::Forest::many` yields a forest whose members are exactly the sets of elements of the inputs; `unit(s)` has exactly the member set(s), `unique(xs)` exactly the singletons of the elements of xs, and `empty()` none. Order and repetition inside an input list, and order and repetition of the inputs, do not matter.", "quantifier": "all item types with a total order, all finite lists of finite lists of items", "why_tests_cant": "The claim is about every list shape, duplicate pattern and permutation; tests check a handful of literals.", "anchors": ["weave/src/matrix/forest/mod.rs: Forest::many, Forest::unit, Forest::unique, Forest::filter_repeats, Forest::empty", "weave/src/types.rs: Forest"]}
{"id": "C02", "title": "Matrix union is set union", "statement": "The members of a.union(b) are exactly the sets that are a member of a or of b.", "quantifier": "all pairs of matrix forests obtainable through the API, every hash iteration order", "why_tests_cant": "All pairs of families of all sizes, plus every hash-set iteration order / rayon split.", "anchors": ["weave/src/matrix/forest/union.rs: union"]}
{"id": "C03", "title": "Matrix intersect is set intersection", "statement": "The members of a.intersect(b) are exactly the sets that are members of both.", "quantifier": "all pairs of matrix forests obtainable through the API, every hash iteration order", "why_tests_cant": "All pairs of families of all sizes, plus every hash-set iteration order / rayon split.", "anchors": ["weave/src/matrix/forest/intersect.rs: intersect"]}
{"id": "C04", "title": "Matrix product is the pairwise-union product", "statement": "The members of a.product(b) are exactly the sets s ∪ t with s a member of a and t a member of b.", "quantifier": "all pairs of matrix forests obtainable through the API, every hash iteration order", "why_tests_cant": "All pairs of families including overlapping ones and the empty forest.", "anchors": ["weave/src/matrix/forest/product.rs: product"]}
{"id": "C05", "title": "Matrix subset queries filter exactly", "statement": "subset(x) keeps exactly the members containing x; subset_not(x) exactly those not containing x; subset_all(xs) exactly those containing every x in xs; subset_none(xs) exactly those containing none of xs.", "quantifier": "all matrix forests, all items, all lists of items (including empty lists and unknown items)", "why_tests_cant": "Quantifies over all families and all query lists.", "anchors": ["weave/src/matrix/forest/subset.rs: subset, subset_not, subset_all, subset_none"]}
{"id": "C06", "title": "Matrix len / is_empty / occurrences / trees count exactly", "statement": "len() is the number of distinct member sets, is_empty() holds iff there is none, occurrences() lists, sorted by item, every item of some member exactly once with the number of members containing it.", "quantifier": "all matrix forests obtainable through the API", "why_tests_cant": "Counting claims over all families, including duplicates and empty members.", "anchors": ["weave/src/matrix/forest/mod.rs: Forest::len, Forest::is_empty, Forest::occurrences, Forest::trees"]}
{"id": "C07", "title": "Matrix results do not depend on hash order or thread schedule", "statement": "For two arbitrary hash-set iteration orders (or rayon work splits) every matrix forest operation returns the same value.", "quantifier": "all inputs, all pairs of iteration orders of every intermediate hash set", "why_tests_cant": "Hash seeds and rayon schedules cannot be enumerated by tests.", "anchors": ["weave/src/matrix/forest/union.rs: union (par_union)", "weave/src/matrix/forest/intersect.rs: intersect (par_intersection)", "weave/src/matrix/forest/subset.rs: (par_iter)", "weave/src/matrix/forest/mod.rs: occurrences"]}
{"id": "C08", "title": "Matrix forest equality is extensional", "statement": "Two matrix forests compare equal iff they have the same members.", "quantifier": "all pairs of matrix forests obtainable through the API", "why_tests_cant": "Ranges over all ways of building the same family. (False of the code: many([[1],[1]]) != unit([1]).)", "anchors": ["weave/src/matrix/forest/mod.rs: Forest (derive Eq), Forest::many"]}
{"id": "C09", "title": "Tree construction, intersect and product are exact", "statement": "weave Tree (matrix and zdd2): many/one/empty hold exactly the given items; intersect is set intersection; product is the forest of the sets {a,b} for a in the left and b in the right tree.", "quantifier": "all item lists and all pairs of trees", "why_tests_cant": "All sizes, orders and overlaps.", "anchors": ["weave/src/matrix/tree/mod.rs: Tree", "weave/src/matrix/tree/intersect.rs", "weave/src/matrix/tree/product.rs", "weave/src/zdd2/tree/mod.rs"]}
{"id": "C10", "title": "Tree union is set union", "statement": "The items of a.union(b) are exactly the items of a or of b.", "quantifier": "all pairs of trees", "why_tests_cant": "All pairs. (False of the code: one(3).union(many([1,2])) is empty.)", "anchors": ["weave/src/matrix/tree/union.rs: union", "weave/src/zdd2/tree/union.rs: union"]}
{"id": "C11", "title": "Hash-consing is sound under every thread interleaving", "statement": "In every interleaving of any number of threads interning nodes (each: look up under the read lock, then add under the write lock), every id ever returned resolves to the node it was returned for, forever; two interned nodes get the same id iff they are equal; ids never dangle.", "quantifier": "all schedules, all finite histories of intern operations by any number of threads", "why_tests_cant": "Races between the look-up and the add of different threads are schedule-dependent.", "anchors": ["weave/src/zdd2/forest/node/mod.rs: From<Node> for NodeId, From<NodeId> for Node", "weave/src/zdd2/forest/node/arena.rs: NodeArena::add, get", "weave/src/zdd/node/arena.rs", "bowtie-core/src/bdd/node/arena.rs"]}
{"id": "C12", "title": "Node id equality decides structural equality", "statement": "In every reachable arena, two node ids are equal iff the whole diagrams reachable from them are equal, so `==` on nodes may be read as equality of diagrams.", "quantifier": "all reachable arena states, all pairs of ids", "why_tests_cant": "Quantifies over all histories of interning.", "anchors": ["weave/src/zdd2/forest/node/arena.rs: NodeArena", "weave/src/zdd/node/arena.rs: NodeArena", "bowtie-core/src/bdd/node/arena.rs: NodeArena"]}
{"id": "C13", "title": "ZDD forest holds exactly the sets it was built from", "statement": "For every list of input lists, zdd2 Forest::many(xs).trees() is exactly the set of element-sets of the non-empty inputs; same for unit and unique; no item is lost or invented.", "quantifier": "all item types with a total order, all finite lists of finite lists", "why_tests_cant": "The encoding through occurrence-ordered priorities and the node fold must be right for all families.", "anchors": ["weave/src/zdd2/forest/mod.rs: Forest::many, unit, unique, empty, trees", "weave/src/zdd2/forest/trees.rs: trees", "weave/src/zdd2/forest/universe/mod.rs: from_matrix"]}
{"id": "C14", "title": "ZDD forest trees() enumerates each set once, sorted", "statement": "trees() yields every member exactly once, as a sorted, duplicate-free list of items, and len() is the number of members, is_empty() iff none.", "quantifier": "all zdd2 forests obtainable through constructors and operations", "why_tests_cant": "Every reachable forest, including results of arbitrary operation sequences.", "anchors": ["weave/src/zdd2/forest/mod.rs: Forest::trees, len, is_empty", "weave/src/zdd2/forest/trees.rs"]}
{"id": "C15", "title": "ZDD forest occurrences are exact", "statement": "occurrences() lists each item occurring in some member once, sorted, with the number of members containing it.", "quantifier": "all zdd2 forests obtainable through constructors and operations", "why_tests_cant": "Counts are cached in the universe and must stay in sync through every operation sequence.", "anchors": ["weave/src/zdd2/forest/mod.rs: Forest::occurrences", "weave/src/zdd2/forest/universe/mod.rs: from_matrix, occurrences"]}
{"id": "C16", "title": "ZDD forest equality is extensional (canonicity)", "statement": "Two zdd2 forests obtained through many/unit/unique or any operations compare equal iff they have the same members; input order and duplicates do not matter.", "quantifier": "all pairs of zdd2 forests obtainable through the API", "why_tests_cant": "Canonicity of a decision-diagram representation over all histories.", "anchors": ["weave/src/zdd2/forest/mod.rs: Forest (derive Eq), canonical, many", "weave/src/zdd2/forest/node/mod.rs: branch"]}
{"id": "C17", "title": "ZDD union is set union", "statement": "The members of a.union(b) are exactly the sets that are a member of a or of b.", "quantifier": "all pairs of zdd2 forests obtainable through the API", "why_tests_cant": "All pairs. (False of the code when the merged universe reorders items.)", "anchors": ["weave/src/zdd2/forest/mod.rs: union, translate_roots, translate_root", "weave/src/zdd2/forest/node/union.rs: union", "weave/src/zdd2/forest/node/mod.rs: branch"]}
{"id": "C18", "title": "ZDD intersect is set intersection", "statement": "The members of a.intersect(b) are exactly the sets that are members of both.", "quantifier": "all pairs of zdd2 forests obtainable through the API", "why_tests_cant": "All pairs. (False of the code: {{1,2}} ∩ {{1}} = {{1,2}}.)", "anchors": ["weave/src/zdd2/forest/mod.rs: intersect", "weave/src/zdd2/forest/node/intersect.rs: intersect"]}
{"id": "C19", "title": "ZDD product is the pairwise-union product", "statement": "The members of a.product(b) are exactly the unions of a member of a and a member of b.", "quantifier": "all pairs of zdd2 forests obtainable through the API", "why_tests_cant": "All pairs. (False of the code: F × F returns F.)", "anchors": ["weave/src/zdd2/forest/mod.rs: product", "weave/src/zdd2/forest/node/product.rs: product"]}
{"id": "C20", "title": "ZDD subset and subset_not filter exactly", "statement": "subset(x) keeps exactly the members containing x, subset_not(x) exactly those that do not, for known and unknown x.", "quantifier": "all zdd2 forests obtainable through the API, all items", "why_tests_cant": "All families and items.", "anchors": ["weave/src/zdd2/forest/subset.rs: subset, subset_not", "weave/src/zdd2/forest/node/subset.rs: subset, subset_not"]}
{"id": "C21", "title": "ZDD subset_all filters exactly", "statement": "subset_all(xs) keeps exactly the members containing every item of xs (identity on the empty list, empty on an unknown item).", "quantifier": "all zdd2 forests obtainable through the API, all lists of items", "why_tests_cant": "All families and query lists; it goes through the unsound node intersection.", "anchors": ["weave/src/zdd2/forest/subset.rs: subset_all, subset_many", "weave/src/zdd2/forest/node/subset.rs: subset_all"]}
{"id": "C22", "title": "ZDD subset_none filters exactly", "statement": "subset_none(xs) keeps exactly the members containing none of xs.", "quantifier": "all zdd2 forests obtainable through the API, all lists of items", "why_tests_cant": "All families and query lists. (False of the code in two ways: unknown items, and the prefix-unsound intersection.)", "anchors": ["weave/src/zdd2/forest/subset.rs: subset_none, subset_many", "weave/src/zdd2/forest/node/subset.rs: subset_none"]}
{"id": "C23", "title": "Universe priorities are a bijection ordered by frequency", "statement": "In every universe built by the API each item has exactly one priority, get_item(get_priority(x)) = x and conversely, more frequent items have smaller priority and ties go to the smaller item; translating a list of items to priorities and back gives the sorted list.", "quantifier": "all universes, all items and priorities", "why_tests_cant": "All occurrence maps.", "anchors": ["weave/src/zdd2/forest/universe/mod.rs: from_items, from_matrix, from_occurrences, get_priority, get_item, get_items, merge"]}
{"id": "C24", "title": "Universe merge is commutative, adds counts, and loses no item", "statement": "merge knows exactly the items of both universes with counts added (or the same universe when both are equal) and does not depend on argument order.", "quantifier": "all pairs of universes", "why_tests_cant": "All occurrence maps.", "anchors": ["weave/src/zdd2/forest/universe/mod.rs: merge"]}
{"id": "C25", "title": "Ordered-node smart constructor keeps the diagram ordered and never loops", "statement": "For every id and every two ordered child diagrams Node::branch terminates with an ordered, zero-suppressed diagram; when the children only mention larger ids it denotes exactly low ∪ {id}·high.", "quantifier": "all node diagrams of any depth, all ids", "why_tests_cant": "Recursive re-sorting over unboundedly deep diagrams.", "anchors": ["weave/src/zdd2/forest/node/mod.rs: Node::branch"]}
{"id": "C26", "title": "ZDD node text round-trips", "statement": "Parsing the text written for a node gives back exactly that node. Reading ignores Unicode white space around the text, and accepts nothing else in front of it; a text is read exactly if, trimmed, it begins with a text of the documented form.", "quantifier": "all ordered zdd2 nodes of any depth whose ids fit a usize", "why_tests_cant": "Unbounded nesting depth and all ids.", "anchors": ["weave/src/zdd2/forest/node/parser.rs: build_node_string, parse_node", "weave/src/zdd2/forest/node/serialize.rs"]}
{"id": "C27", "title": "ZDD forest and universe serialization round-trips", "statement": "Deserializing what was serialized for a zdd2 forest gives an equal forest (same universe, same members).", "quantifier": "all zdd2 forests obtainable through the API", "why_tests_cant": "All families; the universe is rebuilt from its occurrence counts only.", "anchors": ["weave/src/zdd2/forest/universe/serialize.rs", "weave/src/zdd2/forest/node/serialize.rs", "weave/src/zdd2/forest/mod.rs: Forest (derive Serialize, Deserialize)"]}
{"id": "C28", "title": "Matrix and ZDD backends agree", "statement": "On families of non-empty sets, building the same input with both backends gives the same members, and every operation that is exact on both returns the same members.", "quantifier": "all inputs and all applicable operations", "why_tests_cant": "A relation between two implementations over all inputs.", "anchors": ["weave/src/matrix/forest/mod.rs: many", "weave/src/zdd2/forest/mod.rs: many", "weave/src/types.rs: Forest"]}
{"id": "C29", "title": "ZDD tree (v1) construction is exact", "statement": "zdd Universe::tree / unique_tree / hyper_tree build trees whose combinations() are exactly the given combinations restricted to known items; restriction order and duplicates of combinations do not matter.", "quantifier": "all universes of distinct items, all lists of combinations", "why_tests_cant": "All sizes.", "anchors": ["weave/src/zdd/tree/universe.rs: tree, unique_tree, hyper_tree", "weave/src/zdd/tree/combinations.rs"]}
{"id": "C30", "title": "ZDD tree (v1) union is set union", "statement": "The combinations of a.union(b) are exactly those of a and those of b.", "quantifier": "all pairs of trees over one universe", "why_tests_cant": "All pairs of diagrams of any depth.", "anchors": ["weave/src/zdd/tree/union.rs: union"]}
{"id": "C31", "title": "ZDD tree (v1) intersect is set intersection", "statement": "The combinations of a.intersect(b) are exactly the common ones.", "quantifier": "all pairs of trees over one universe", "why_tests_cant": "All pairs. (False of the code: {{1}} ∩ {{2}} = {{1,2}}.)", "anchors": ["weave/src/zdd/tree/intersect.rs: intersect"]}
{"id": "C32", "title": "ZDD tree (v1) product is the pairwise-union product", "statement": "The combinations of a.product(b) are exactly the unions of one of each.", "quantifier": "all pairs of trees over one universe", "why_tests_cant": "All pairs. (False of the code for overlapping or equal operands.)", "anchors": ["weave/src/zdd/tree/product.rs: product"]}
{"id": "C33", "title": "combinations_with and restrict filter exactly", "statement": "combinations_with(inclusions) are exactly the combinations containing every inclusion, and restrict(inclusions) is a tree having exactly those combinations.", "quantifier": "all ordered trees, all inclusion lists", "why_tests_cant": "All trees and inclusions.", "anchors": ["weave/src/zdd/tree/mod.rs: combinations_with, restrict", "weave/src/zdd/tree/combinations.rs: combinations_with"]}
{"id": "C34", "title": "summarize classifies each item exactly", "statement": "summarize(inclusions): an item is Excluded iff no remaining combination contains it, otherwise Selected iff included, otherwise Required iff all remaining combinations contain it, otherwise Available; each universe item appears exactly once, sorted.", "quantifier": "all ordered trees, all inclusion lists", "why_tests_cant": "All trees and inclusions.", "anchors": ["weave/src/zdd/tree/mod.rs: summarize", "weave/src/status.rs: ItemStatus"]}
{"id": "C35", "title": "ZDD node (v1) text round-trips", "statement": "Parsing the text written for a v1 node gives back exactly that node.", "quantifier": "all v1 nodes of any depth whose ids fit a usize", "why_tests_cant": "Unbounded nesting depth.", "anchors": ["weave/src/zdd/node/parser.rs", "weave/src/zdd/node/serialize.rs"]}
{"id": "C36", "title": "BDD and / or compute conjunction and disjunction", "statement": "Evaluating a & b (a | b) under an assignment gives the conjunction (disjunction) of evaluating a and b.", "quantifier": "all BDD nodes of any depth (ordered or not), all assignments", "why_tests_cant": "All pairs of diagrams and all assignments.", "anchors": ["bowtie-core/src/bdd/node/bit_operations.rs: BitAnd, BitOr", "bowtie-core/src/bdd/node/reduce.rs: reduce"]}
{"id": "C37", "title": "BDD not / xor compute negation and exclusive or", "statement": "Evaluating !a gives the negation; a ^ b the exclusive or.", "quantifier": "all BDD nodes, all assignments", "why_tests_cant": "All diagrams. (False of the code: Not swaps the children of the root only; correct for literals and leaves.)", "anchors": ["bowtie-core/src/bdd/node/bit_operations.rs: Not, BitXor"]}
{"id": "C38", "title": "BDD nodes are canonical", "statement": "Ordered reduced nodes are equal iff they denote the same boolean function, and every operation used by the closet builder keeps nodes ordered and reduced; hence the built closet does not depend on the order rules were added.", "quantifier": "all nodes, all sequences of builder operations", "why_tests_cant": "Canonicity over all histories.", "anchors": ["bowtie-core/src/bdd/node/bit_operations.rs", "bowtie-core/src/bdd/node/reduce.rs", "bowtie-core/src/bdd/closet_builder/mod.rs: build"]}
{"id": "C39", "title": "A built closet accepts exactly the valid outfits", "statement": "The closet built from families, exclusion and inclusion rules evaluates to true on an item assignment iff it picks exactly one item of every family, never both items of an exclusion and never the first without the second item of an inclusion rule.", "quantifier": "all closet builders whose build succeeds, all assignments", "why_tests_cant": "Exponentially many assignments over arbitrarily many families and rules.", "anchors": ["bowtie-core/src/bdd/closet_builder/mod.rs: build, sibling_relationship, exclusion_relationship, inclusion_relationship"]}
{"id": "C40", "title": "Builder validation reports exactly the invalid rules", "statement": "build succeeds iff no item is in two families, and every rule names known items of different families; otherwise the error lists exactly the violations, each once.", "quantifier": "all sequences of builder calls", "why_tests_cant": "All rule sets and item placements.", "anchors": ["bowtie-core/src/closet_builder.rs: validate_closet, find_conflicting_families, find_illegal_rules", "bowtie-core/src/bdd/closet_builder/mod.rs: build"]}
{"id": "C41", "title": "Item summary is exact", "statement": "For a satisfiable built closet, an item is listed Available iff some valid outfit contains it, Excluded iff none does, and every item of every family is listed exactly once.", "quantifier": "all built closets with at least one valid outfit, after any sequence of successful selections", "why_tests_cant": "A claim about all valid outfits.", "anchors": ["bowtie-core/src/bdd/node/summarize.rs: summarize", "bowtie-core/src/bdd/closet/select.rs: select_item"]}
{"id": "C42", "title": "select_item restricts to outfits containing the item", "statement": "select_item fails iff the item is unknown or currently excluded; otherwise the new closet accepts exactly the old valid outfits containing the item, stays satisfiable, and lists the item as Selected; selecting in either order gives the same closet.", "quantifier": "all built closets, all selection sequences", "why_tests_cant": "All histories of selections.", "anchors": ["bowtie-core/src/bdd/closet/select.rs: select_item", "bowtie-core/src/bdd/node/restrict.rs: restrict"]}
{"id": "C43", "title": "complete_outfit is sound and complete", "statement": "complete_outfit(selections) succeeds iff all selections are known, pairwise of different families, and some valid outfit contains them all; the result is then such an outfit: one item of each family, all rules satisfied, all selections included; errors name exactly the offending items.", "quantifier": "all built closets, all selection lists", "why_tests_cant": "All closets and selection lists.", "anchors": ["bowtie-core/src/bdd/closet/complete_outfit.rs: complete_outfit"]}
{"id": "C44", "title": "complete_outfit after select_item includes earlier selections", "statement": "On a closet obtained by select_item, complete_outfit returns a complete outfit including the previously selected items.", "quantifier": "all built closets, all selection histories", "why_tests_cant": "All histories. (False of the code: earlier selections are missing from the outfit.)", "anchors": ["bowtie-core/src/bdd/closet/complete_outfit.rs", "bowtie-core/src/bdd/closet/select.rs"]}
{"id": "C45", "title": "outfit_count counts the valid outfits", "statement": "outfit_count() is the number of valid outfits.", "quantifier": "all built closets", "why_tests_cant": "Counting over exponentially many outfits.", "anchors": ["bowtie-core/src/bdd/closet/node_count.rs: outfit_count"]}
{"id": "C46", "title": "Closet serialization round-trips", "statement": "Deserializing what was serialized for a closet built by the builder, or obtained from one by selections, gives an equal closet.", "quantifier": "all built closets, all selection histories", "why_tests_cant": "The depth-keyed structure format is lossy in general; it must be shown lossless for every reachable closet.", "anchors": ["bowtie-core/src/bdd/node/structure.rs", "bowtie-core/src/bdd/node/serialize.rs"]}
{"id": "C47", "title": "API calls on API-made values never panic", "statement": "On values made through the constructors and operations of the API (one universe per v1 tree), no arena look-up, priority look-up, item look-up or unwrap panics; in particular every zdd2 forest program, traverse, closet building, selecting, completing and serializing return. (The two places where the API does admit panics are stated separately: C60, v1 trees of different universes; C58 and C63, data the library did not write.)", "quantifier": "all reachable values of each API type, all arguments", "why_tests_cant": "Absence of failure over all inputs.", "anchors": ["weave/src/zdd2/forest/mod.rs: translate_root (unwrap)", "weave/src/zdd2/forest/universe/mod.rs: get_item", "weave/src/zdd/tree/traversable.rs: unwrap", "bowtie-core/src/bdd/closet/complete_outfit.rs"]}
{"id": "C48", "title": "Node restrict computes the cofactor", "statement": "Restricting an ordered node to item=v denotes the function with item fixed to v, does not depend on item any more, and restrictions of different items commute.", "quantifier": "all ordered BDD nodes, items, values and assignments", "why_tests_cant": "All diagrams.", "anchors": ["bowtie-core/src/bdd/node/restrict.rs: restrict"]}
{"id": "C49", "title": "Algebraic laws of the matrix forest", "statement": "union and intersect are commutative, associative and idempotent, absorb each other and distribute; product is commutative, associative and distributes over union; the empty forest is neutral for union and annihilates intersect and product; subset / subset_not partition a forest. The laws hold in terms of members.", "quantifier": "all matrix forests", "why_tests_cant": "Laws over all triples of families.", "anchors": ["weave/src/matrix/forest/union.rs", "weave/src/matrix/forest/intersect.rs", "weave/src/matrix/forest/product.rs", "weave/src/matrix/forest/subset.rs"]}
{"id": "C50", "title": "ItemStatus helpers agree with the variant", "statement": "item() returns the carried item; exactly one of is_required/is_excluded/is_available/is_selected holds; map and option_map keep the variant and apply the function to the item.", "quantifier": "all statuses and functions", "why_tests_cant": "All payload types and functions.", "anchors": ["weave/src/status.rs: ItemStatus"]}
{"id": "C51", "title": "categorize partitions the summary by family", "statement": "Closet::categorize / outfit grouping puts every item under its own family and loses none.", "quantifier": "all built closets", "why_tests_cant": "All families and items.", "anchors": ["bowtie-core/src/bdd/closet/categorize.rs"]}
{"id": "C52", "title": "Members returned by approximate ZDD operations are bounded", "statement": "Even where intersect and product are not exact, every common member of a and b is a member of a.intersect(b), every member of the result is a member of a or b, and every member of the product result is a pairwise union (same universe).", "quantifier": "all pairs of zdd2 forests over one universe", "why_tests_cant": "Bounds over all pairs.", "anchors": ["weave/src/zdd2/forest/node/intersect.rs", "weave/src/zdd2/forest/node/product.rs"]}
{"id": "C53", "title": "hash_structure depends on shape only", "statement": "Node::hash_structure gives the same digest for two diagrams of the same shape whatever their items; with a collision-free hasher, equal digests mean equal shapes.", "quantifier": "every diagram, every renaming of items, every hash function", "why_tests_cant": "ranges over all diagrams and renamings", "anchors": ["bowtie-core/src/bdd/node/hash_structure.rs: Node::hash_structure"]}
{"id": "C54", "title": "Closet node counts and depth", "statement": "For every reached closet node_count()+1 = 2*leaf_count(), outfit_count() <= leaf_count(), and for a satisfiable one depth() is the number of known unselected items plus one.", "quantifier": "every legal builder history and every list of selections", "why_tests_cant": "ranges over all histories", "anchors": ["bowtie-core/src/bdd/closet/node_count.rs: node_count, leaf_count, outfit_count, depth"]}
{"id": "C55", "title": "ZDD forest laws that hold for every forest", "statement": "For all zdd2 forests reached through the API a.union(b)==b.union(a), a.intersect(b)==b.intersect(a), a.product(b)==b.product(a); a.union(a)==a, a.intersect(a)==a; union with empty() is a, intersect and product with empty() are empty.", "quantifier": "all pairs of reachable forests, including those on which the operations are not exact", "why_tests_cant": "Equality of values for all pairs of forests.", "anchors": ["weave/src/zdd2/forest/mod.rs: union, intersect, product"]}
{"id": "C56", "title": "ZDD operations invent no item", "statement": "Every item of a member of a.union(b), a.intersect(b) or a.product(b) occurs in a member of a or of b.", "quantifier": "all pairs of reachable forests", "why_tests_cant": "Ranges over all pairs of forests.", "anchors": ["weave/src/zdd2/forest/mod.rs: union, intersect, product, translate_root"]}
{"id": "C57", "title": "ZDD results do not depend on hash map iteration order", "statement": "Universe construction, Universe::merge and occurrences() return the same value whatever order the hash maps are iterated in.", "quantifier": "every permutation of the map entries at every iteration", "why_tests_cant": "Hash seeds vary between runs; a test sees one order.", "anchors": ["weave/src/zdd2/forest/universe/mod.rs: from_occurrences, merge", "weave/src/zdd2/forest/mod.rs: occurrences"]}
{"id": "C58", "title": "A forest that deserializes successfully can be used without panics", "statement": "If reading a forest from text succeeds, then printing it and combining it with any other forest does not panic.", "quantifier": "all serialized texts, including ones the library did not write", "why_tests_cant": "Ranges over all possible input documents.", "anchors": ["weave/src/zdd2/forest/mod.rs: Deserialize, translate_root", "weave/src/zdd2/forest/universe/serialize.rs", "weave/src/zdd2/forest/node/parser.rs"]}
{"id": "C59", "title": "ZDD tree (v1) equality is extensional", "statement": "Two trees of one universe are == iff they have the same combinations; union is commutative, associative and idempotent up to ==.", "quantifier": "all pairs/triples of trees over one universe", "why_tests_cant": "All diagrams of any depth. (False for universes that list an item twice.)", "anchors": ["weave/src/zdd/tree/mod.rs: Tree (derived PartialEq)", "weave/src/zdd/tree/universe.rs"]}
{"id": "C60", "title": "traverse never panics and mirrors combinations", "statement": "Tree::traverse returns an item tree whose accepting paths are exactly combinations(); it does not panic.", "quantifier": "all trees built through the API", "why_tests_cant": "Absence of failure over all trees. (False if trees of different universes are combined.)", "anchors": ["weave/src/zdd/tree/traversable.rs", "weave/src/zdd/tree/mod.rs: traverse"]}
{"id": "C61", "title": "ZDD tree (v1) serialization round-trips", "statement": "Deserializing what was serialized for a tree gives back an equal tree with equal universe and combinations.", "quantifier": "all trees", "why_tests_cant": "Unbounded size.", "anchors": ["weave/src/zdd/tree/mod.rs: Tree (derived Serialize/Deserialize)", "weave/src/zdd/node/serialize.rs"]}
{"id": "C62", "title": "BDD node serialization round-trips", "statement": "Serializing a BDD node to its (structure, items-per-depth) form and reading it back gives an equal node.", "quantifier": "all ordered, reduced nodes", "why_tests_cant": "Unbounded depth and shape. (False in general: only one item per depth is written; proved exactly for nodes with one item per depth.)", "anchors": ["bowtie-core/src/bdd/node/serialize.rs: serialize, deserialize", "bowtie-core/src/bdd/node/hash_structure.rs"]}
{"id": "C63", "title": "Reading a closet from a document never panics", "statement": "Deserializing any document of the closet's schema returns a closet or an error, it does not panic.", "quantifier": "all documents of the schema, including ones the library did not write", "why_tests_cant": "Ranges over all possible input documents. (False: short item lists panic; the exact set of readable documents is proved.)", "anchors": ["bowtie-core/src/bdd/closet/mod.rs: Closet (derived Deserialize)", "bowtie-core/src/bdd/node/serialize.rs: deserialize"]}
{"id": "C64", "title": "Results do not depend on the other threads sharing the node arena", "statement": "Any number of threads run any programs over the diagram APIs in one process: under every interleaving no thread panics, every thread that finishes has exactly the result of running its program alone, and results made in different threads compare == exactly when they mean the same.", "quantifier": "every number of threads, all programs, all schedules of the individual lock acquisitions", "why_tests_cant": "The interleavings of arena accesses cannot be enumerated by tests.", "anchors": ["weave/src/zdd2/forest/node/mod.rs: ARENA, From<Node> for NodeId, From<NodeId> for Node, branch", "weave/src/zdd2/forest/node/arena.rs", "weave/src/zdd/node/mod.rs", "bowtie-core/src/bdd/node/arena.rs", "weave/src/zdd2/forest/mod.rs"]}
{"id": "C65", "title": "Threads sharing the arena make progress", "statement": "In every execution, under every schedule, each thread makes only finitely many steps of its own, and at every moment every thread can run to its end with the others standing still.", "quantifier": "every number of threads, all programs, all schedules", "why_tests_cant": "Liveness over all infinite schedules.", "anchors": ["weave/src/zdd2/forest/node/mod.rs: From<Node> for NodeId", "weave/src/zdd2/forest/node/*.rs (recursions)", "weave/src/zdd2/forest/trees.rs"]}
{"id": "C66", "title": "Which outfit complete_outfit returns", "statement": "Among all the outfits that contain the requested items, complete_outfit returns the greedy one: compared with any other, at the first item (in item order) where they differ the returned outfit has the item. It therefore depends only on the rules and the set of items selected and requested, not on the order of builder calls, selections or arguments.", "quantifier": "every builder history, every selection history, every argument list, every competing outfit", "why_tests_cant": "The competitor ranges over exponentially many outfits, and determinism over all orders of calls.", "anchors": ["bowtie-core/src/bdd/closet/complete_outfit.rs", "bowtie-core/src/bdd/node/mod.rs: restrict", "bowtie-core/src/bdd/closet_builder/mod.rs"]}
{"id": "C67", "title": "Adding rules never adds outfits", "statement": "When a closet's builder gets further inclusion or exclusion rules, nothing becomes more permissive: outfit_count does not grow, every completion that succeeds with the rules succeeds without them, an item reported Excluded stays excluded and the items that can be selected are among those that could before.", "quantifier": "every pair of builder histories with the same items where one has at least the rules of the other, every selection history", "why_tests_cant": "Quantifies over all rule sets and all extensions of them.", "anchors": ["bowtie-core/src/bdd/closet_builder/mod.rs: add_inclusion_rule, add_exclusion_rule, build", "bowtie-core/src/bdd/closet/mod.rs"]}
{"id": "C68", "title": "Picking only Available items always leads to an outfit", "statement": "A user who only ever selects items that summarize reports as Available never gets an error and never reaches a closet without outfits; nothing is Available any more exactly when the picked items form an outfit; no item is picked twice and no two from one family.", "quantifier": "every builder history whose closet has an outfit, every finite sequence of such picks", "why_tests_cant": "All interaction histories of every closet.", "anchors": ["bowtie-core/src/bdd/closet/select.rs, closet/mod.rs"]}
{"id": "C69", "title": "Outfit counts add up", "statement": "For each family the outfit counts after selecting each of its items sum to the outfit count before; with no rules the count is the product of the family sizes; every outfit has exactly one item per family.", "quantifier": "every builder history, selection history and family", "why_tests_cant": "Sums and products over closets of every size.", "anchors": ["bowtie-core/src/bdd/closet/mod.rs, closet/select.rs", "bowtie-core/src/bdd/closet_builder/mod.rs: build"]}
{"id": "C70", "title": "Repeating a computation allocates no node", "statement": "Once a program over a diagram API has finished in some thread, running the same program again, in any thread and under any schedule with other finished programs, returns the same result and adds no node to the arena.", "quantifier": "every program, number of threads, schedule", "why_tests_cant": "Memory behaviour over all programs and interleavings.", "anchors": ["weave/src/zdd2/forest/node/arena.rs: add", "weave/src/zdd2/forest/node/mod.rs: From<Node> for NodeId", "weave/src/zdd/node/mod.rs", "bowtie-core/src/bdd/node/arena.rs"]}
{"id": "C71", "title": "Bounds on the results of zdd2 set operations", "statement": "For all zdd2 forests, also those where the operations are not exact: a union or intersection has, for every set of sizes, at most as many members of such sizes as the operands together, a product at most len*len members; a union is empty exactly when both operands are, a product exactly when one is, an intersection is empty if one is.", "quantifier": "every pair of forests made through the API", "why_tests_cant": "Quantifies over all pairs, including those whose universes order items differently.", "anchors": ["weave/src/zdd2/forest/mod.rs: union, intersect, product, translate_root", "weave/src/zdd2/forest/node/mod.rs: branch", "weave/src/zdd2/forest/node/product.rs"]}
{"id": "C72", "title": "Generic clients of the Forest trait observe the same on both backends", "statement": "A client written against the weave::Forest trait runs to its end on both backends; if its steps are in the cases where the zdd2 operations are exact and its result has no empty member, trees (up to order), len, is_empty and occurrences (identical) agree.", "quantifier": "every program over the trait, every hash order", "why_tests_cant": "All programs, all hash orders.", "anchors": ["weave/src/types.rs: Forest", "weave/src/matrix/mod.rs", "weave/src/zdd2/mod.rs"]}
{"id": "C73", "title": "Forests over separate items combine exactly", "statement": "For zdd2 forests with no item in common union, intersect and product are exact and lengths add up and multiply; the product of `unique` forests over pairwise disjoint lists holds, on both backends, exactly the sets with one item of each list, as many as the product of the list sizes.", "quantifier": "every pair of item-disjoint forests, every number of disjoint lists", "why_tests_cant": "Families of exponential size.", "anchors": ["weave/src/zdd2/forest/mod.rs", "weave/src/matrix/forest/product.rs", "weave/src/types.rs"]}
{"id": "C74", "title": "Filters split a forest consistently", "statement": "subset and subset_not by any items commute and are idempotent as values, subset_all is subset item by item in any order, each member is on exactly one side of a split, lengths of the sides add up, and occurrences reports the length of subset.", "quantifier": "every forest, all items", "why_tests_cant": "All forests and items.", "anchors": ["weave/src/zdd2/forest/mod.rs: subset, subset_not, subset_all, occurrences, len", "weave/src/zdd2/forest/node/subset.rs"]}
{"id": "C75", "title": "Reuniting the two sides of a split gives the forest back", "statement": "f.subset(x).union(f.subset_not(x)) == f.", "quantifier": "every forest and item", "why_tests_cant": "All forests and items.", "anchors": ["weave/src/zdd2/forest/mod.rs: subset, subset_not, union"]}
{"id": "C76", "title": "The forest algebra computes one documented function, on every pair of forests", "statement": "For every two forests, union, intersect and product return exactly what the specification rerank/stopIntersect/contProduct gives for the two member families: each family is first rebuilt in the item order of the combined frequencies (which may lose, merge or alter members, as spelled out by rerank) and then combined. Nothing else about the operands (how they were built) matters.", "quantifier": "every pair of forests built through the API, no side condition", "why_tests_cant": "All pairs of forests and all frequency orders.", "anchors": ["weave/src/zdd2/forest/mod.rs: union, intersect, product, translate_roots, translate_root", "weave/src/zdd2/forest/node/mod.rs: Node::branch"]}
{"id": "C77", "title": "Counts are right up to the range of u64 and overflow beyond it", "statement": "outfit_count returns the number of outfits whenever it is below 2^64; beyond, a build with overflow checks panics and one without returns the number modulo 2^64. With at most 63 known unselected items none of node_count, leaf_count, outfit_count, depth overflows; a closet of 64 two-item families does overflow outfit_count.", "quantifier": "every closet and every sequence of selections", "why_tests_cant": "The boundary is far beyond the sizes tests can build.", "anchors": ["bowtie-core/src/bdd/closet/node_count.rs: node_count, leaf_count, outfit_count, depth"]}
{"id": "C78", "title": "The order on nodes is total, agrees with equality and is fixed within a run", "statement": "Comparing BDD nodes (Node, NodeId derive Ord) is a total order, equal exactly for equal diagrams; how two diagrams compare never changes during a run, whatever threads do; the id of a part of a diagram is before the id of the diagram. It is not a property of the diagrams: in another run the same two diagrams may compare the other way round. Branches come before leaves; branches compare by item (id), then low child, then high child; leaves by value.", "quantifier": "all nodes, all thread schedules, all points in a run", "why_tests_cant": "All interleavings and allocation histories.", "anchors": ["bowtie-core/src/bdd/node/mod.rs: derive(Ord) on Node and NodeId", "bowtie-core/src/bdd/node/arena.rs"]}
{"id": "C79", "title": "What v1 Tree::intersect computes, and when it is right", "statement": "For every two trees over one universe, made from combinations without repeated items, a.intersect(b) lists exactly what this gives: follow a combination of each in the order of the universe for as long as they do the same at every item both could go on with and take every item only one of them could go on with; at the first item one of them alone could take but leaves out, drop the rest of the other one; what was taken is a combination of the result. It is the set of common combinations if and only if, wherever a combination of each agree on all earlier items, both trees could go on with the next item or neither could. It is empty only if an operand is empty, so two disjoint non-empty trees always get a wrong, non-empty answer. (For combinations given with repeated items the result is not a function of the combinations.)", "quantifier": "all pairs of trees built by any sequence of operations over one universe from combinations without repeated items", "why_tests_cant": "All pairs of families; the exact condition for correctness is an equivalence over all of them.", "anchors": ["weave/src/zdd/tree/intersect.rs: intersect", "weave/src/zdd/tree/mod.rs: Tree::intersect, Tree::combinations"]}
{"id": "C80", "title": "The viewer page shows the tree it is given", "statement": "The page of weave-visualizer lists exactly the combinations of its tree, in order, each as its item names in alphabetical order separated by ', '; for non-empty names without commas each line identifies its combination. The drawing reads as the tree does, and trees that are drawn alike have the same combinations. Whatever messages arrive, the page keeps showing the twelve shirt-jeans-shoes outfits and is always drawn.", "quantifier": "all trees and item names; all sequences of messages", "why_tests_cant": "All trees, all names, all message histories.", "anchors": ["weave-visualizer/src/visualizer.rs: Model::create, update, view, view_tree, view_node, view_branch, view_leaf, view_combinations"]}
{"id": "C81", "title": "Debug texts identify what they print", "statement": "The {:?} text of a BDD node, a v1 node or a zdd2 node is different for different diagrams; two forests have the same {:?} text if and only if they are equal, that is, have the same trees; printing a forest never panics. Two v1 trees over one universe have the same {:?} text if and only if they are equal, but over different universes trees with different combinations can print alike. (For item types whose own {:?} is injective and free of line breaks.) The text has one line per node, top to bottom and low before high, after as many bars as the node is deep (one more for BDD nodes): the item or id and a colon, the priority with its item for forests, or the name of the leaf.", "quantifier": "all diagrams; all forests and trees built by any operations", "why_tests_cant": "All pairs of diagrams of any size and item names.", "anchors": ["bowtie-core/src/bdd/node/mod.rs: Debug for Node", "weave/src/zdd/node/mod.rs: Debug for Node", "weave/src/zdd/tree/mod.rs: Debug for Tree", "weave/src/zdd2/forest/node/mod.rs: Debug for Node", "weave/src/zdd2/forest/mod.rs: Debug for Forest"]}
{"id": "C82", "title": "Item counts do not overflow", "statement": "As long as two zdd2 forests have fewer than 2^64 members together (and, for product, fewer than 2^64 pairs of members), union, intersect and product give with 64-bit item counts what they would give with unbounded ones; filters do so on every forest of fewer than 2^64 members, and many panics (overflow checks on) only if some item is in 2^64 or more different members. Counts read from data the library did not write can overflow: with checks the next operation may panic; if additions wrap around, it panics no more often than with unbounded counts and still returns a well formed forest. Where additions wrap around, the merged counts are the sums modulo 2^64 and the items are in the order of those.", "quantifier": "all zdd2 forests obtainable through the API or read from any data, all items and item lists, all orders in which the counts are visited, all counter widths", "why_tests_cant": "The counts that overflow need 2^64 members or hand-written data; the bound must hold for every history of operations.", "anchors": ["weave/src/zdd2/forest/universe/mod.rs: Universe::from_matrix, Universe::merge", "weave/src/zdd2/forest/mod.rs: Forest::many, Forest::canonical, Forest::union, Forest::intersect, Forest::product", "weave/src/zdd2/forest/subset.rs"]}
{"id": "C83", "title": "The arena lock: atomic sections, no deadlock, every run ends", "statement": "Taking each conversion between nodes and ids apart into creating the arena on first use, acquiring the lock, reading or writing its map and its vector one after the other, and dropping the guard: under every interleaving a writer is alone, a reader sees a whole arena, and the finished threads have the results of an execution that does each section in one step. As long as some thread has not finished some thread can go on, whichever waiting thread the lock lets in; N threads never run for ever; so every maximal run ends with all threads finished, none panicked, each with exactly the result of running alone.", "quantifier": "every number of threads, all programs over the three diagram APIs, all interleavings of the single steps, all admission policies of the lock that let somebody in when it is free", "why_tests_cant": "Races and deadlocks depend on the schedule and on the lock implementation; all of them must be covered.", "anchors": ["weave/src/zdd2/forest/node/mod.rs: From<Node> for NodeId, From<NodeId> for Node, ARENA", "weave/src/zdd2/forest/node/arena.rs: NodeArena::add", "weave/src/zdd/node/mod.rs: From<Node> for NodeId", "bowtie-core/src/bdd/node/arena.rs: ARENA, add, get"]}
{"id": "C84", "title": "zdd2 recursion depth depends only on the number of different items", "statement": "A zdd2 program that puts n different items into its forests never nests more than 2n+3 recursive calls, however many members its forests have and however long it is; the same bound holds for each single operation on API-made forests, n counting the items in the members of its operands. The dependence on the items is real: a binary operation that returns on a stack with room for r calls has only members of fewer than r items, so every fixed stack is overflowed by the union of some two API-made forests.", "quantifier": "all programs over the zdd2 API, all operand forests obtainable through it, all items, all stack sizes", "why_tests_cant": "A stack overflow aborts the process and appears only on inputs deep enough for the stack at hand; the bound must hold for every history of operations.", "anchors": ["weave/src/zdd2/forest/node/mod.rs: Node::branch, FromIterator<Priority> for Node", "weave/src/zdd2/forest/node/union.rs: union", "weave/src/zdd2/forest/node/intersect.rs: intersect", "weave/src/zdd2/forest/node/product.rs: product", "weave/src/zdd2/forest/node/subset.rs", "weave/src/zdd2/forest/mod.rs: translate_root"]}
{"id": "C85", "title": "zdd recursion depth depends only on the size of the universe", "statement": "Over a Universe made from n items, no operation (unique_tree, hyper_tree, union, intersect, product, restrict, combinations_recursive, traverse) on trees built from duplicate-free combinations nests more than n+1 recursive calls, however many combinations the trees have. The dependence is real: a tree that can be walked with room for r calls has only combinations of fewer than r items, and every fixed stack is overflowed by some union. The condition is needed: tree() of a list that repeats one item shows the same single combination but overflows every stack when walked, even over a universe of one item.", "quantifier": "all universes, all trees built over them by any history of operations from duplicate-free combinations, all stack sizes", "why_tests_cant": "A stack overflow aborts the process and shows only on inputs deep enough for the stack at hand.", "anchors": ["weave/src/zdd/tree/union.rs: union", "weave/src/zdd/tree/intersect.rs: intersect", "weave/src/zdd/tree/product.rs: product", "weave/src/zdd/tree/combinations.rs: combinations_recursive", "weave/src/zdd/tree/traversable.rs: from_node", "weave/src/zdd/tree/universe.rs: Universe::tree, Universe::hyper_tree"]}
{"id": "C86", "title": "Closet recursion depth depends only on the number of items", "statement": "Building a closet of n known items, and select_item, complete_outfit, node_count, leaf_count, outfit_count and depth on every closet made from it by selections, nest at most n+1 recursive calls, whatever the rules and however many outfits there are. For a closet that has an outfit the counting functions (and completing from an already selected item) need exactly one frame per known unselected item plus one, so every fixed stack is overflowed by some valid closet.", "quantifier": "all builder histories, all selections, all items, all stack sizes", "why_tests_cant": "A stack overflow aborts the process and shows only on closets large enough for the stack at hand; the bound must hold whatever the rules.", "anchors": ["bowtie-core/src/bdd/node/bit_operations.rs: BitOr, BitAnd", "bowtie-core/src/bdd/node/restrict.rs: Node::restrict", "bowtie-core/src/bdd/closet_builder/mod.rs: ClosetBuilder::build", "bowtie-core/src/bdd/closet/select.rs: Closet::select_item", "bowtie-core/src/bdd/closet/complete_outfit.rs: Closet::complete_outfit", "bowtie-core/src/bdd/closet/node_count.rs"]}
{"id": "C87", "title": "How deep reading and writing node text recurses, on any document", "statement": "Reading a zdd2 forest (a v1 tree) from any document, valid or not, nests at most three (one) recursive calls more than the node text has opening parentheses, and then gives the same forest, tree or error as an unlimited stack. Nothing limits that number: for every stack there is a text only twice as long, and not the text of any node, on which reading overflows the stack instead of returning an error. Writing a node and reading the written text back need exactly as many nested calls as the diagram is high; for a forest with k different items in its members (a tree over n items without repeats) k+1 (n+1) calls are enough, and a stack that is enough to write it is deeper than its largest member.", "quantifier": "all documents, all stack sizes, all reachable forests and trees", "why_tests_cant": "An overflow aborts the process and shows only for documents deep enough for the stack at hand; both bounds range over all texts and all stacks.", "anchors": ["weave/src/zdd2/forest/node/parser.rs: build_node_string, parse_node_string, node", "weave/src/zdd/node/parser.rs: build_node_string, parse_node_string, node", "weave/src/zdd2/forest/node/mod.rs: Node::branch", "weave/src/zdd2/forest/node/serialize.rs", "weave/src/zdd/node/serialize.rs"]}
{"id": "C88", "title": "A saved BDD node id stands for the node it was written for", "statement": "NodeId of bowtie-core can be written to and read from documents. Reading a written id gives an id of the same node.", "quantifier": "all ids, all runs before and after writing, all schedules of the threads of the reading process", "why_tests_cant": "A test reads in the process that wrote; what the number means depends on everything the reading process has interned before.", "anchors": ["bowtie-core/src/bdd/node/mod.rs: NodeId, From<NodeId> for Node", "bowtie-core/src/bdd/node/arena.rs: add, get", "bowtie-core/src/bdd/closet/node_count.rs: Closet::outfit_count"]}
{"id": "C89", "title": "How many calls the operations on zdd2 forests make", "statement": "For forests with m and n members over N different items, union and intersect make at most 21·((N+1)(m+n+1))² calls of recursive functions and loop iterations, product at most 25·(N+1)³·((m+1)(n+1))², subset and subset_not at most 16·((N+1)(m+1))², subset_all and subset_none of L elements at most 8·(L+1)·((N+1)(m+1))². Every binary operation makes at least as many calls as its result has members, and listing a forest (len and is_empty list it too) makes at least one per member and at most one more than twice the items listed: the diagram saves nothing over the list of members, but never costs more than a polynomial in it. Building a forest from k lists of at most L items over N different items makes at most 2·k·(N+1)·(L+k+2) calls and the forest has at most k members.", "quantifier": "all reachable forests, all elements, all input lists", "why_tests_cant": "A test measures a few inputs; that no input makes an operation exponential in the members it lists has to hold for all of them, and the lower bound says no input is cheaper.", "anchors": ["weave/src/zdd2/forest/node: union, intersect, product, subset*, trees", "weave/src/zdd2/forest/universe: merge, translate_root", "weave/src/zdd2/forest/mod.rs: Forest::many, trees, len, is_empty"]}
{"id": "C90", "title": "How many calls building, narrowing and querying a BDD closet makes", "statement": "On a closet with N items still open and K outfits, every count (nodes, leaves, outfits, depth) visits exactly the nodes of the unshared diagram, at least K and at most 2·N·K+1; select_item makes at most 4·N·K+2 calls and at least one per outfit that remains; complete_outfit with s selections at most (2s+1)(2·N·K+1). Building over N items with n builder calls, when the families alone allow W outfits, makes at most 18·(n+1)·(N+1)³·(W+1) calls and at least one per outfit. Nothing is cached: the closet of n families of two items has at most 3n+2 distinct subdiagrams, but building it and counting its outfits each take at least 2^n calls.", "quantifier": "all builder histories, all selections, all n", "why_tests_cant": "The number of calls grows with the number of outfits, exponentially in the families; small closets do not show it and no test covers all closets.", "anchors": ["bowtie-core/src/bdd/node/bit_operations.rs", "bowtie-core/src/bdd/node/restrict.rs", "bowtie-core/src/bdd/closet/node_count.rs", "bowtie-core/src/bdd/closet/select.rs", "bowtie-core/src/bdd/closet/complete_outfit.rs", "bowtie-core/src/bdd/closet_builder/mod.rs: build"]}
{"id": "C91", "title": "Matrix forests written with the public variants behave as the sets they list", "statement": "matrix::Forest has public variants, so a user can write Forest::Unit(vec![2,1,2]) or Forest::Many(HashSet::new()). Every operation on such values behaves as on the sets of items they list: union, product, subset, subset_not, subset_all, subset_none and intersect give the set operation, len counts the sets, is_empty says whether there are any, occurrences counts each item once per set; no result depends on hash order; product with unit(&[]) gives an ordinary forest with the same sets.", "quantifier": "all values of the enum, however made; all hash orders; all elements", "why_tests_cant": "Values that the constructors never make are not in any test; the claim ranges over all of them and over all hash orders.", "anchors": ["weave/src/matrix/forest/mod.rs: Forest (enum), len, is_empty, occurrences", "weave/src/matrix/forest/union.rs, intersect.rs, product.rs, subset*.rs"]}
{"id": "C92", "title": "Two trees are equal exactly when they have the same items", "statement": "Trees obtainable from the API compare equal (derived PartialEq) iff they have the same items; union and intersect depend neither on operand order nor on hash order, and a tree united or intersected with itself is itself.", "quantifier": "all trees obtainable from the API, all hash orders", "why_tests_cant": "The variants give several representations of one set of items; equality has to be right for every pair.", "anchors": ["weave/src/matrix/tree/mod.rs: Tree, one, many", "weave/src/zdd2/tree/mod.rs: Tree", "weave/src/matrix/tree/union.rs, intersect.rs"]}
{"id": "C93", "title": "A tree read from a document has the items the document lists", "statement": "Tree derives Serialize and Deserialize: a written tree reads back as itself in whatever order its set was written; every document of the right shape reads as the tree with exactly the items it lists, each once; the trees read this way intersect, multiply and count exactly; the only value no constructor makes is Many of no items, for which is_empty is wrong.", "quantifier": "all trees, all documents, all hash orders", "why_tests_cant": "Documents may list items repeatedly, in any order, or none; a test reads a few of them.", "anchors": ["weave/src/matrix/tree/mod.rs: Tree (derive)", "weave/src/zdd2/tree/mod.rs: Tree (derive)"]}
{"id": "C94", "title": "Completing an outfit of a closet made by hand", "statement": "Closet::new takes any item index and any diagram. complete_outfit on any closet never panics; unknown selections give UnknownItems with exactly those, selections sharing a family give MultipleItemsPerFamily with exactly those; otherwise it gives IncompatibleSelections if no choice that the diagram accepts contains the selections, and else a sorted accepted choice that contains them. It holds for every diagram made with the operators, and for one made with Node::branch after Node::reduce.", "quantifier": "all item indexes, all diagrams, all selections", "why_tests_cant": "The tests complete outfits of closets the builder made; a diagram made by hand can repeat items on a path or have equal children in infinitely many ways.", "anchors": ["bowtie-core/src/bdd/closet/mod.rs: Closet::new", "bowtie-core/src/bdd/closet/complete_outfit.rs", "bowtie-core/src/bdd/node/mod.rs: branch", "bowtie-core/src/bdd/node/reduce.rs"]}
{"id": "C95", "title": "Statuses of a closet made by hand", "statement": "In a closet made with Closet::new from any diagram, the summary lists an item as Excluded only if no accepted choice wears it, as Available only if one does, and select_item fails exactly for unknown and Excluded items, else keeps exactly the accepted choices with the item.", "quantifier": "all diagrams, all item indexes, all items", "why_tests_cant": "The statuses depend on where in the diagram an item is tested; only a proof for all diagrams tells which choices they account for.", "anchors": ["bowtie-core/src/bdd/node/summarize.rs", "bowtie-core/src/bdd/closet/select.rs", "bowtie-core/src/bdd/closet/mod.rs: Closet::new"]}
{"id": "C96", "title": "outfit_count of a closet made by hand is the number of accepted choices", "statement": "For a closet made with Closet::new from any diagram, outfit_count is the number of choices among its items that the diagram accepts, and is 0 iff none is.", "quantifier": "all diagrams, all sets of items that contain those the accepted choices depend on", "why_tests_cant": "It is true of closets that the builder makes and of no general diagram; tests count small built closets.", "anchors": ["bowtie-core/src/bdd/closet/node_count.rs: outfit_count", "bowtie-core/src/bdd/closet/mod.rs: Closet::new"]}
{"id": "C97", "title": "A misbehaving thread does not disturb the others", "statement": "Threads that build closets (or forests or trees), select and complete get exactly the answers they would get in a process of their own, never panic, never deadlock and always reach their end, even if other threads of the same process use node ids that do not exist, panic in the middle of an arena access, store nodes that are their own children, or do anything else with the shared arena through its interface. (Excluded: a stack overflow of a thread, which aborts the process.)", "quantifier": "all sets of well-behaved sessions, all programs of the other threads, all schedules of the single lock and memory operations, all lock admission policies", "why_tests_cant": "Tests run well-behaved threads; what a misbehaving one can do, and when, is unbounded.", "anchors": ["bowtie-core/src/bdd/node/arena.rs: add, get, ARENA", "bowtie-core/src/bdd/node/mod.rs: NodeId", "weave/src/zdd2/forest/node/mod.rs: From<Node> for NodeId, From<NodeId> for Node", "weave/src/zdd/node/mod.rs: From<NodeId> for Node"]}
{"id": "C98", "title": "A client cannot tell that it shares the process", "statement": "A thread that uses the node and closet API in any way (making and combining nodes, building, selecting, completing, counting, hashing, printing, comparing, serializing and reading back), choosing each call from the answers so far and starting with any nodes and closets that finished threads made, gets exactly the answers it would get in a process of its own: it panics only where it would panic alone (and a client that panics alone panics in every process), it always can reach its end, and no schedule or behaviour of other threads changes its output. A call alone panics exactly if it reads a document whose structure uses a depth without an item (or the client uses something it does not hold). Order and Hash of nodes are excepted (C78).", "quantifier": "all clients (programs over the API, adaptive), all start times, all values handed over, all programs of the other threads, all schedules", "why_tests_cant": "Clients, other threads and schedules are unbounded; tests run one client at a time.", "anchors": ["bowtie-core/src/bdd/node/mod.rs: Node, NodeId, From impls", "bowtie-core/src/bdd/node/{bit_operations,reduce,restrict,summarize,structure,serialize,hash_structure}.rs", "bowtie-core/src/bdd/closet/*.rs", "bowtie-core/src/bdd/node/arena.rs"]}
{"id": "C99", "title": "A configurator driven by tree summaries never reaches a dead end", "statement": "Start with no wishes and repeatedly read summarize(inclusions, exclusions) of a v1 tree that has combinations, then either include an item not shown as Excluded or exclude an item shown as Available or Excluded: a matching combination always remains. The statuses are exact about the next step (including an item empties the result iff it is Excluded; excluding it does iff it is Required or Selected). Deciding an Available item either way makes the set of Available items strictly smaller and nothing becomes available again; when none is Available exactly one combination remains, consisting of the items shown Selected or Required. Every combination of the tree can be singled out this way.", "quantifier": "all trees over any universe, all histories of decisions, all hash map visiting orders", "why_tests_cant": "Histories, trees and visiting orders are unbounded.", "anchors": ["weave/src/zdd/tree/mod.rs: Tree::summarize, Tree::combinations_with", "weave/src/status.rs: ItemStatus"]}
{"id": "C100", "title": "Narrowing a tree and narrowing the question agree", "statement": "t.restrict(i,e).summarize(i',e') is t.summarize(i+i', e+e') in which items wished only by the restriction read Required instead of Selected. More wishes never turn an Excluded item into another status, never turn a Required or Selected item into Available, and never make an item Available that was not. Order and repetition of wishes do not matter. An item is Excluded from a union iff it is Excluded from both sides.", "quantifier": "all trees over any universe, all inclusion and exclusion lists, all hash map visiting orders", "why_tests_cant": "Relates results of different calls for all trees and all wish lists.", "anchors": ["weave/src/zdd/tree/mod.rs: Tree::restrict, Tree::summarize, Tree::union"]}
{"id": "C101", "title": "What combining v1 trees of different universes gives", "statement": "a.union(b) with b made over another universe lists a's combinations and those of b with each item replaced by the item at the same (last) position of a's item list, dropped if that list is shorter; for all three operations the result is the same as after re-reading b first (empty tree of a's universe united with b). If all positions used exist in a's list, the re-read tree is one that could have been made over a's universe; if both lists have the items of b at the same positions (e.g. the universe only grew at its end) the union is right. Nothing is lost: reading the tree back in its own universe gives an equal tree.", "quantifier": "all pairs of universes, all trees over them", "why_tests_cant": "Ranges over all pairs of universes and trees.", "anchors": ["weave/src/zdd/tree/mod.rs: Tree::union, Tree::intersect, Tree::product", "weave/src/zdd/tree/universe.rs: Universe::get_items, From<Vec<T>>"]}
{"id": "C102", "title": "How many calls the v1 tree operations make", "statement": "For trees made from combinations without repeated items that mention A and B items in all, union and intersect make at most 2(A+B)+1 recursive calls and product at most (2A+1)(2B+1); listing (both ways) and traversing visit at least one node per combination and at most 2A+1; hyper_tree of k combinations mentioning M items makes at most k(2M+1) calls for any lists; restrict makes at most (k+1)(2A+1). A is at most the number of combinations times the number of items.", "quantifier": "all trees, all combination lists", "why_tests_cant": "A bound for all sizes; the functions cache nothing, so exponential blow-up must be excluded by proof.", "anchors": ["weave/src/zdd/tree/{union,intersect,product,combinations,traversable,universe}.rs"]}
{"id": "C103", "title": "A client of zdd2 forests cannot tell that it shares the process", "statement": "A program that uses the forest API in any way (constructors, union, intersect, product, the four filters, len, is_empty, trees, occurrences, ==, Debug, serializing, and deserializing any data whatever), deciding each call from the answers so far and handing forests to threads it starts, gets in every thread exactly the answers it gets in a process of its own, whatever the other threads do and however the steps interleave; a thread panics if and only if the same client panics alone. A call panics alone exactly if it names something the client does not hold, or it combines or prints a forest (necessarily read from inconsistent data) in which some id stands for no item.", "quantifier": "all client programs (adaptive), all numbers of threads, all schedules, all behaviours of other threads, all data read", "why_tests_cant": "Ranges over all programs, schedules and histories of the shared arena.", "anchors": ["weave/src/zdd2/forest/mod.rs: Forest", "weave/src/zdd2/forest/node/mod.rs", "weave/src/zdd2/forest/node/serialize.rs", "weave/src/zdd2/forest/node/arena.rs"]}
{"id": "C104", "title": "A client of v1 trees cannot tell that it shares the process", "statement": "A program that uses the v1 API in any way (all constructors over any universe, union, intersect, product, restrict, both listings, combinations_with, summarize, traverse, ==, Debug, serializing, and deserializing any data whatever), deciding each call from the answers so far and handing trees to threads it starts, gets in every thread exactly the answers it gets in a process of its own, whatever the other threads do and however the steps interleave; a thread panics if and only if the same client panics alone. A call panics alone exactly if it names something the client does not hold, or it traverses a tree in which some id is beyond the item list.", "quantifier": "all client programs (adaptive), all universes, all numbers of threads, all schedules, all behaviours of other threads, all data read", "why_tests_cant": "Ranges over all programs, schedules and histories of the shared arena.", "anchors": ["weave/src/zdd/tree/mod.rs: Tree", "weave/src/zdd/tree/universe.rs: Universe", "weave/src/zdd/tree/traversable.rs: TreeNode", "weave/src/zdd/node/{mod,arena,parser,serialize}.rs"]}
{"id": "C105", "title": "A v1 tree or universe read from any document", "statement": "Reading a tree succeeds exactly if the node text begins with the text of a node; item list and index are not checked. Of every tree that was read: combinations() lists the id sets of the diagram with each id replaced by the item at that position (dropped if there is none), combinations_with filters them exactly, summarize gives every listed item exactly the status the remaining combinations say, traverse panics exactly if an id is beyond the list, and write-then-read returns the same tree. tree, hyper_tree, unique_tree and restrict replace each item by the item standing where the (last entry of the) index sends it. Hence restrict agrees with combinations_with for every tree over a read universe exactly if the index sends every listed item to a position of that item, and tree(c) is as over a universe made from the list exactly if moreover every unlisted indexed item is sent beyond the list; documents written by the library are of this kind.", "quantifier": "all documents (node text, item list, index), all inclusion and exclusion lists, all combinations built", "why_tests_cant": "Ranges over every document, including ones the library never writes; the criterion is an equivalence.", "anchors": ["weave/src/zdd/tree/universe.rs: Universe (Deserialize)", "weave/src/zdd/tree/mod.rs: Tree (Deserialize), restrict, summarize, combinations_with", "weave/src/zdd/node/{parser,serialize}.rs"]}
{"id": "C106", "title": "v1 trees from combinations with repeated items", "statement": "Call the items on a path of traverse(), each as often as it occurs, a bag. For every tree over one universe, whatever lists it was made from: combinations() are the bags without repetitions; two trees are == exactly if they have the same bags; tree(c) has the one bag of the known items of c; hyper_tree one per list; union has the bags of both operands and is associative up to ==; restrict keeps the remaining combinations with every item once; product has exactly the maxima of a bag of each in which neither side passes over more of an item than it takes although it could go on with it and the other does; intersect on numbered copies of items does what C79 says of items, has exactly the common bags iff the trees offer the same copies wherever they agree, and is never empty unless an operand is.", "quantifier": "all universes (repeated items allowed), all trees made by any sequence of operations from any lists, with repeated and unknown items", "why_tests_cant": "Ranges over all construction histories and all multiplicities; equality and the operations are characterised exactly.", "anchors": ["weave/src/zdd/tree/{union,intersect,product}.rs", "weave/src/zdd/tree/universe.rs: tree, hyper_tree", "weave/src/zdd/tree/traversable.rs: traverse", "weave/src/zdd/tree/mod.rs: PartialEq, restrict"]}
{"id": "C107", "title": "What the shared node store holds does not depend on the schedule", "statement": "All trees of a process share one global node store that is never emptied. For the forest API, the v1 tree API and the closet API, with any number of threads: once a set of threads has run to its end and no other has started, the store holds the same diagrams and the same number of nodes under every schedule; while threads run it holds no diagram, and no more nodes, than it holds under any other schedule once the started threads have finished; and what it holds at the end is exactly the two leaves together with what each finished thread leaves in it when it runs alone.", "quantifier": "all programs of any number of threads over any item types, all schedules and interleavings of their accesses to the node store, all moments of a run", "why_tests_cant": "Node numbers differ from schedule to schedule, and the interleavings are unbounded; a test sees one schedule.", "anchors": ["weave/src/zdd2/forest/node/arena.rs: NodeArena", "weave/src/zdd/node/arena.rs: NodeArena", "bowtie-core/src/bdd/node/arena.rs", "weave/src/zdd2/forest/{union,intersect,product,subset}.rs", "bowtie-core/src/bdd/closet/select.rs"]}
{"id": "C108", "title": "What a client leaves in the shared node store is fixed", "statement": "Clients that use the forest API, the v1 tree API or the node and closet API in any way, choosing each call from the answers so far and possibly panicking, are started at any time on threads of their own and handed any values that finished clients hold. Each client, handed given values, has a fixed set of diagrams it leaves in the process-wide node store (for nodes it may matter whether they are handed over as a node or as an id). At every moment the store holds all that the ended clients leave, and besides the two leaves nothing that the started clients do not leave. When all have ended, its contents and its number of nodes depend only on which clients were started with which values, not on the threads, the start times, the order or the schedule.", "quantifier": "all clients (adaptive programs over the API), all values handed over, all start times and threads, all schedules, all moments", "why_tests_cant": "Clients, processes and schedules are unbounded, and node numbers differ between runs; a test sees one process.", "anchors": ["weave/src/zdd2/forest/node/arena.rs: NodeArena", "weave/src/zdd/node/arena.rs: NodeArena", "bowtie-core/src/bdd/node/arena.rs", "weave/src/zdd2/forest/{union,intersect,product,subset,serde_tree}.rs", "weave/src/zdd/tree/mod.rs", "bowtie-core/src/bdd/closet/select.rs", "bowtie-core/src/bdd/node/{bit_operations,reduce,restrict,summarize}.rs"]}
{"id": "C109", "title": "When two closets are equal", "statement": "Two closets, each built from any history of builder calls and narrowed by any selections, compare equal exactly if they have the same items in the same families, the same selected items, and the same outfits among those containing the selections; equivalently, if they name the same family for every item, list the same items as Selected and answer complete_outfit alike for every list of items. Hence adding a rule to a closet leaves it equal exactly if no outfit breaks the rule, and an exclusion may be stated from either side.", "quantifier": "all pairs of builder histories that build, all selection sequences, all rules, all completion requests", "why_tests_cant": "It compares every pair of histories and all their outfits; a test compares two diagrams.", "anchors": ["bowtie-core/src/bdd/closet/mod.rs: Closet (PartialEq), get_family", "bowtie-core/src/bdd/closet_builder/mod.rs: build, exclusion_relationship, inclusion_relationship", "bowtie-core/src/bdd/closet/{select,complete_outfit}.rs"]}
{"id": "C110", "title": "One wardrobe in every package", "statement": "Take any wardrobe (items in families, exclusion and inclusion rules, in any order of builder calls) that bowtie-core builds. Written with the forest operations (the product of one unique forest per family, then for every rule: split by the first item, filter the one side by the second, unite), it is on the matrix backend a forest of exactly the outfits of the closet: its length is outfit_count(), it is empty exactly if complete_outfit fails, and the completed outfit is one of its trees. If there are no rules the same holds on zdd2. Selecting items in the closet and filtering the forest by them (matrix: that forest; zdd2: a forest made from any listing of the outfits; v1: a tree made from any listing, asked with the selections as inclusions) go hand in hand: the length is the outfit count; an item is Available in the closet exactly if it still occurs and is not selected, Excluded exactly if it is known and does not occur; the number of its occurrences is the outfit count after selecting it; the v1 summary shows the statuses of the closet, with Required for those Available items whose selection leaves the count unchanged. The two summaries differ if the rules leave no outfit at all: the tree then excludes every item, the closet none.", "quantifier": "all builder histories that build, all selections that succeed, all listings of the outfits, all hash orders, all items", "why_tests_cant": "It compares four representations over every wardrobe and every selection sequence; no test in the repository uses two packages at once.", "anchors": ["bowtie-core/src/bdd/closet_builder/mod.rs: build", "bowtie-core/src/bdd/closet/{select,categorize,complete_outfit}.rs", "bowtie-core/src/bdd/node/summarize.rs", "weave/src/matrix/forest/mod.rs", "weave/src/zdd2/forest/mod.rs: many, subset_all, occurrences, len", "weave/src/zdd/tree/mod.rs: combinations_with, summarize"]}
{"id": "C111", "title": "What any diagram shows, route by route", "statement": "A closet can be made with Closet::new from any item index and any diagram, also one made with Node::branch that tests an item twice or has equal children. Call a way from the root to a leaf a route: a list of decisions (an item, worn or not) and the answer at its leaf. For every diagram: outfit_count is the number of routes that end in true, leaf_count the number of all routes, node_count one less than twice that, depth the longest route with its leaf. An item is in the summary, once, exactly if some route decides it; as Available if some route wears it and does not end in false right there, else as Excluded. Node::restrict fixes the first decision about the item on every route and only the first. select_item refuses unknown and Excluded items, and otherwise gives the restricted diagram with its own statuses and the items selected so far. complete_outfit (known selections, different families) restricts by the selections one after the other, fails exactly if that gives the false leaf, and otherwise adds the items of the one route that wears an item wherever that does not end in false at once. If no route decides an item twice, completing without selections goes wrong only at a node both of whose children are the false leaf.", "quantifier": "all diagrams (ordered or not, reduced or not), all item indexes, all closets, all selections, all assignments", "why_tests_cant": "Diagrams are unbounded trees; the existing tests use diagrams made by the builder.", "anchors": ["bowtie-core/src/bdd/closet/mod.rs: Closet::new", "bowtie-core/src/bdd/closet/node_count.rs", "bowtie-core/src/bdd/node/summarize.rs", "bowtie-core/src/bdd/node/restrict.rs", "bowtie-core/src/bdd/closet/{select,complete_outfit}.rs", "bowtie-core/src/bdd/node/mod.rs: Node::branch"]}
{"id": "C112", "title": "When matrix forests are equal as values", "statement": "Equality (==) of matrix forests is decided by how they were made: a forest with exactly one member is held either as a single vector or as a hash set of one vector, and the two are not ==. Which one a call gives is determined by the calls and the members involved: unit always a single vector; many and unique a single vector iff given exactly one input; union a single vector iff one side is empty and the other is a single vector, or both are the same single vector; intersect iff one member is shared, except that two equal sets-of-one stay a set-of-one; product iff both sides have one member; the filters iff one member is left (an empty item list returns the forest as it is). Two forests are == iff they have the same members and the same form; in particular forests with the same members, none or several, are ==. As values, in every hash order: union and intersect are commutative, associative and idempotent, empty is neutral and absorbing, f union (f intersect g) is f, and filters commute, are idempotent and can be applied item by item. f intersect (f union g), f times unit([]) and reuniting the halves of a split give f back except exactly when f is a set-of-one (and, for the first, g has something f lacks). Product is not associative, and the distributive laws do not hold, as values.", "quantifier": "all programs over the matrix forest API, all items, all hash orders", "why_tests_cant": "Programs and forests are unbounded; equality of results must be known for every way of computing them.", "anchors": ["weave/src/matrix/forest/mod.rs: Forest, derive(Eq, PartialEq)", "weave/src/matrix/forest/{union,intersect,product,subset}.rs"]}
{"id": "C113", "title": "Matrix lengths add up", "statement": "len(f union g) + len(f intersect g) = len f + len g. len(subset x) + len(subset_not x) = len f, occurrences reports for x exactly len(subset x), never 0, and leaves x out exactly if that is 0. len(f product g) is at most len f times len g, exactly that if no member of f shares an item with a member of g, and 0 exactly if one of them is empty. Union never shortens a forest; intersect, subset_all and subset_none never lengthen one.", "quantifier": "all pairs of matrix forests made with the API, all items, all hash orders", "why_tests_cant": "Forests are unbounded.", "anchors": ["weave/src/matrix/forest/mod.rs: len, occurrences", "weave/src/matrix/forest/{union,intersect,product,subset}.rs"]}
{"id": "C114", "title": "Combining many v1 trees", "statement": "union, intersect and product of weave::zdd trees are each associative up to ==, even across universes; combining any trees of one universe with one of these operations gives the same tree however the trees are ordered, grouped or repeated. The empty tree is neutral for union and absorbs in the other two, the unit tree is neutral for intersect and product. But the absorption laws between union and intersect, the two distributive laws, and product over union fail.", "quantifier": "all trees made by any finite sequence of API calls (empty, unit, tree, unique, hyper, union, intersect, product, restrict), over any universes, with any repetitions; all orders and groupings", "why_tests_cant": "Trees, and the ways of ordering and grouping them, are unbounded.", "anchors": ["weave/src/zdd/tree/union.rs", "weave/src/zdd/tree/intersect.rs", "weave/src/zdd/tree/product.rs", "weave/src/zdd/tree/mod.rs: Tree"]}
{"id": "C115", "title": "Combining many zdd2 forests", "statement": "Uniting or multiplying any number of zdd2 forests that share no item gives, in every order and grouping, the same forest, with exactly the members of the forests, or the unions of one member of each. Expressions that unite and intersect forests of single items are exact, so two of them are == iff they keep the same items. Two programs all of whose steps are exact are == iff they mean the same non-empty sets. In general, though, associativity of each operation, absorption, distributivity, and combining twice with the same forest all change the result.", "quantifier": "all finite collections of pairwise item-disjoint reachable forests, all groupings and orders; all expressions over unique forests; all pairs of safe programs", "why_tests_cant": "Collections, groupings and programs are unbounded.", "anchors": ["weave/src/zdd2/forest/mod.rs: Forest::{union,intersect,product}", "weave/src/zdd2/forest/node/{union,intersect,product}.rs"]}
{"id": "C116", "title": "Comparing BDD nodes decides questions about conditions", "statement": "Take any expression made with the public node operations: the leaves, positive_branch, negative_branch, &, |, ^, !, restrict and reduce. Its node stands for the boolean function got by reading & and | as and/or, restrict as fixing an item, reduce as nothing, and ! as reversing the choice for the smallest item the operand depends on (negation if it depends on none). Two expressions give == nodes exactly if these functions are the same; so == with the leaves and with p & q tells whether a condition can be met, always holds, implies or rules out another. & and | obey the laws of a distributive lattice as equalities of nodes, ^ commutes and ! undoes itself, but excluded middle, contradiction, De Morgan and a ^ a = false fail. Every condition on finitely many items is the node of an expression of &, | and items.", "quantifier": "all expressions over all items", "why_tests_cant": "Expressions, and the assignments under which two conditions may differ, are unbounded.", "anchors": ["bowtie-core/src/bdd/node/bit_operations.rs", "bowtie-core/src/bdd/node/restrict.rs", "bowtie-core/src/bdd/node/reduce.rs", "bowtie-core/src/bdd/node/mod.rs: positive_branch, negative_branch"]}
{"id": "C117", "title": "Combining many weave trees", "statement": "Intersecting any number of trees with Tree::intersect, in any order and grouping, leaves exactly the items all of them list. Uniting any number of constructible trees none of which has exactly one item, with Tree::union in any grouping, gives a tree with exactly the items of all of them, and the same (==) tree for every order, grouping and repetition of the operands. Collecting items one at a time, from the empty tree with union(one(x)), never gives a tree with more than two items, never an item that was not collected, and gives all the collected items exactly if at most two different ones were collected; three different items in turn give the empty tree, so union of trees of one item depends on the grouping, and so does the form (not the items) of an intersection.", "quantifier": "all trees, numbers of operands, groupings, lists of items and hash orders of each call", "why_tests_cant": "The number and grouping of operands, the items and the iteration orders of the hash sets are unbounded; tests unite two trees at a time.", "anchors": ["weave/src/matrix/tree/union.rs", "weave/src/matrix/tree/intersect.rs", "weave/src/zdd2/tree/union.rs", "weave/src/zdd2/tree/intersect.rs"]}
{"id": "C118", "title": "When closet builders are equal and what the order of calls changes", "statement": "Two builders made by any calls compare equal exactly if every family got the same items in the same order, every item was first added to the same family, and every selection got the same exclusions and the same inclusions in the same order; so calls about different families and items, or rules of different kinds or selections, commute. A closet that builds depends only on which calls were made: any order and any repetition of them builds an equal closet. A failed build depends besides on the family each item was added to first (then the same calls in another order may report another number of violations); otherwise the order of calls changes only the order in which violations are listed, never one that stands alone. The list has three groups: items in two families, in the order of the later family, then the violations of exclusion rules, then those of inclusion rules.", "quantifier": "all pairs of sequences of builder calls", "why_tests_cant": "Call sequences and their reorderings are unbounded.", "anchors": ["bowtie-core/src/bdd/closet_builder/mod.rs: ClosetBuilder (derived PartialEq), add_item, add_exclusion_rule, add_inclusion_rule, build", "bowtie-core/src/closet_builder.rs: validate_closet"]}
{"id": "C119", "title": "How many nodes a BDD call can add to the shared node store", "statement": "Counting distinct subdiagrams: `x & y` and `x | y` have at most |x|*|y|, `x ^ y` at most (|x|*|y|)^2, `!x` exactly |x|, `reduce` at most |x|, and `restrict` of an ordered reduced diagram at most |x|. The process-wide node store grows accordingly: threads each running one of &, |, ^, !, reduce, restrict, summarize, select_item, a history of k select_item calls or complete_outfit with k selections, on diagrams already in the store, add, whatever the interleaving and wherever they are stopped, at most the sum over the threads of |x|*|y| (for & and |), 2|x||y|+(|x||y|)^2 (^), 0 (! and summarize), |x| (reduce, restrict, select_item) and k*|root| (k selections).", "quantifier": "every diagram, every node store reached, every finite set of threads with any calls, every interleaving and stopping point", "why_tests_cant": "a bound on the growth of memory must hold for all diagrams and all schedules; tests look at the results of a few calls and never at the store", "anchors": ["bowtie-core/src/bdd/node/arena.rs: Arena::add", "bowtie-core/src/bdd/node/mod.rs: From<Node> for NodeId", "bowtie-core/src/bdd/node/bit_operations.rs", "bowtie-core/src/bdd/node/restrict.rs: restrict", "bowtie-core/src/bdd/node/reduce.rs: reduce", "bowtie-core/src/bdd/closet/select.rs: select_item", "bowtie-core/src/bdd/closet/complete_outfit.rs: complete_outfit"]}
{"id": "C120", "title": "How many nodes a v1 tree call can add to the shared node store", "statement": "With |x| the number of distinct subdiagrams of a tree and size(x) its unshared size: union and intersect of stored trees add at most min(|x||y|, size(x)+size(y)-1) nodes to the process-wide store, product at most |x||y|; combinations, combinations_recursive, combinations_with and walking the tree add none; a tree of one combination adds at most its number of items; a hyper tree of n combinations with s items in all, a unique tree, and restrict (over the combinations it keeps) add at most s + n(2s+1). Any expression over the API adds at most the sum of its calls. Threads running such calls, whatever the interleaving and wherever stopped, add at most the sum of their bounds. The result of union, intersect or product has at most |x||y|+|x|+|y| distinct subdiagrams.", "quantifier": "every tree, every node store reached, every expression over the API, every finite set of threads, every interleaving and stopping point", "why_tests_cant": "a bound on the growth of memory must hold for all trees and all schedules; tests look at the results of a few calls and never at the store", "anchors": ["weave/src/zdd/node/mod.rs: Arena, From<Node> for NodeId", "weave/src/zdd/tree/union.rs: union", "weave/src/zdd/tree/intersect.rs: intersect", "weave/src/zdd/tree/product.rs: product", "weave/src/zdd/tree/universe.rs: Universe::tree, hyper_tree, unique_tree", "weave/src/zdd/tree/mod.rs: restrict, combinations, combinations_with"]}
{"id": "C121", "title": "How many nodes a call of the zdd2 forest API can add to the shared node store", "statement": "For forests with m and n combinations over N different items in all: union and intersect add at most 42((N+1)(m+n+1))^2+2 nodes to the process-wide store, product at most 50(N+1)^3((m+1)(n+1))^2+2, subset and subset_not at most 32((N+1)(m+1))^2+2, subset_all and subset_none of L elements at most 16(L+1)((N+1)(m+1))^2+2; unit and unique of a list of L items at most 4L(N+1)+1; many of k lists with s items in all at most 4k(N+1)(s+k+2)+1; empty and trees (hence len and is_empty) add none. Any program over the API adds at most the sum of its calls. Threads running such calls or programs, whatever the interleaving and wherever stopped, add at most the sum of their bounds.", "quantifier": "every forest the API makes, every node store reached, every program over the API, every finite set of threads, every interleaving and stopping point", "why_tests_cant": "a bound on the growth of memory must hold for all forests and all schedules; tests look at the results of a few calls and never at the store", "anchors": ["weave/src/zdd2/forest/node/arena.rs: Arena, From<Node> for NodeId", "weave/src/zdd2/forest/mod.rs: Forest", "weave/src/zdd2/forest/subset.rs: subset, subset_not, subset_all, subset_none", "weave/src/zdd2/forest/node/mod.rs: Node::branch"]}
{"id": "C122", "title": "Exactly when the forest algebra leaves its operands intact", "statement": "When two zdd2 forests are combined, the members of each operand survive the change of item order unaltered if and only if its family satisfies a condition (Keeps) stated only in terms of its members and of how often each item occurs: whenever an item y of a member moves in front of an item x it occurs with, then among the members that look like this one up to there, either x and y occur only together, or y also occurs without x and every item before y that occurs only without x is followed, before y, by an item that occurs with x. Two forests without a common member have a right union exactly if both satisfy it; the condition is implied by, and strictly weaker than, the simpler Compatible; and a union never has more members than its operands together.", "quantifier": "every pair of forests built through the API; every finite family and every two frequency orders", "why_tests_cant": "an if-and-only-if over all families and all orders: tests can show one pair right and one wrong, not that the condition separates all of them", "anchors": ["weave/src/zdd2/forest/mod.rs: union, intersect, product, translate_roots, translate_root", "weave/src/zdd2/forest/node/mod.rs: Node::branch"]}
{"id": "C123", "title": "How much building a closet, or a whole configurator session, can add to the shared node store", "statement": "The node store of the bdd back end never forgets a node. If any number of threads each build a closet from its builder calls, or each run a whole session (build, then pick k items one after another and complete the outfit), then however their accesses to the shared store interleave and wherever they are stopped, the store grows by at most the sum, over the threads, of 36(n+1)(N+1)^3(W+1) + 2 + k(2NK+1), where n is the number of builder calls, N the number of known items, W the product of the family sizes and K the number of outfits of that thread's closet.", "quantifier": "every history of builder calls (legal or not), every list of picks and selections, every number of threads, every interleaving, every stopping point, every earlier content of the store", "why_tests_cant": "a bound on the memory of a process-wide store under all schedules and all closets; a test measures one closet on one schedule", "anchors": ["bowtie-core/src/bdd/closet_builder/mod.rs: build", "bowtie-core/src/bdd/closet/select.rs: select_item", "bowtie-core/src/bdd/closet/complete_outfit.rs: complete_outfit", "bowtie-core/src/bdd/node/arena.rs: Arena"]}
{"id": "C124", "title": "A configurator driven by forest counts never reaches a dead end, on either backend", "statement": "A client of the weave::Forest trait starts with a forest that has members and repeatedly reads occurrences() and len(), then either keeps the members with an item that is listed (subset) or drops those with an item that is not listed with the full count (subset_not). On both backends, whatever it decides: a member remains; the members that remain are exactly those with every item kept and no item dropped, so the order of the decisions does not matter; keeping an item empties the forest exactly if it is not listed, dropping it exactly if it is listed with the full count, and the count listed is the length after keeping. Deciding an item that some but not all members have makes the list of such items strictly shorter and nothing becomes undecided again; when none is left exactly one member remains, consisting of the items listed. Every member can be singled out this way, taking its items in any order.", "quantifier": "both backends, every forest made by any program over the trait, every conversation, every hash order met on the way", "why_tests_cant": "ranges over all forests, all sequences of decisions and all hash orders; a test follows one conversation", "anchors": ["weave/src/types.rs: Forest", "weave/src/matrix/forest/subset.rs: subset, subset_not", "weave/src/zdd2/forest/subset.rs: subset, subset_not", "weave/src/matrix/forest/mod.rs: occurrences, len", "weave/src/zdd2/forest/mod.rs: occurrences, len"]}
{"id": "C125", "title": "A session that is saved and continued in another process gets the same answers", "statement": "A client makes, combines, narrows and questions closets (built with the builder), or forests, or v1 trees, choosing each call by the answers so far; then it serializes everything it holds and ends. The process may be gone at any moment after that. In a second process, whose node store holds whatever other threads put there, a client deserializes the documents in order and goes on in any way. It gets exactly the outputs it would have got by simply going on in the first place, in a process of its own: it panics only if that does, ends with the same output and as many values, and can always come to its end, whatever threads in either process do or did, panics included.", "quantifier": "every session of such calls, every number of values, every continuation, every schedule, every two processes and every behaviour of the other threads in both; forests and universes of at most 2^64 items", "why_tests_cant": "ranges over all sessions and continuations, two processes, all schedules and all contents of the second process's store; a test restarts one session in a quiet process", "anchors": ["bowtie-core/src/bdd/node/serialize.rs", "bowtie-core/src/bdd/closet/mod.rs: Closet", "weave/src/zdd2/forest/node/serialize.rs", "weave/src/zdd2/forest/mod.rs: Forest", "weave/src/zdd/tree/mod.rs: Tree"]}
{"id": "C126", "title": "What one more rule does to a closet can be read off the closet without it", "statement": "Take two closets built from the same builder calls except that the second has one more rule (anywhere among the calls), with the same items selected. Write n(s) for the outfit count after selecting the items s in turn, 0 if a selection is refused. If the rule excludes a with b, then for every list s the first closet's n(s) is the second's n(s) plus the first's n(s, a, b); in particular the rule takes away exactly n(a, b) outfits, and the two closets are equal exactly if n(a, b) = 0. If the rule says a needs b, the second's n(s) is the first's n(s) - n(s, a) + n(s, a, b), and the two are equal exactly if n(a, b) = n(a).", "quantifier": "every list of builder calls, every place of the rule in it, every two items, every list of selections before and after; satisfiable or not, known or unknown items", "why_tests_cant": "relates two builds for all rule sets and all selections; a test compares two closets for one rule", "anchors": ["bowtie-core/src/bdd/closet/select.rs: Closet::select_item", "bowtie-core/src/bdd/closet/node_count.rs: Closet::outfit_count", "bowtie-core/src/bdd/closet_builder/mod.rs: add_exclusion_rule, add_inclusion_rule"]}
{"id": "C127", "title": "Unrelated parts of a wardrobe do not affect each other", "statement": "Let the builder calls of a closet fall, in any order, into two parts with no family and no item in common and no rule relating an item of one to an item of the other. Then the calls build exactly if each part builds on its own; the outfits are the outfits of the parts put together; and with items selected from either part, in any order, the outfit count is the product of the counts of the two closets, one per part. If both parts have an outfit, the summary is the two summaries merged and sorted, select_item on an item of one part (or an unknown one) is refused with exactly the error of that part's closet or goes on with it while the other part stays as it was, and no status of an item of the other part changes. A list of items is completed exactly if each part completes its own items of the list, and the completed outfit is the two completed outfits merged and sorted.", "quantifier": "every two lists of builder calls so unrelated and every interleaving of them, every list of selections, every list of items to complete", "why_tests_cant": "ranges over all pairs of wardrobes, their interleavings and selections; a test has one wardrobe", "anchors": ["bowtie-core/src/bdd/closet_builder/mod.rs: ClosetBuilder::build", "bowtie-core/src/bdd/closet/select.rs: Closet::select_item", "bowtie-core/src/bdd/closet/complete_outfit.rs: Closet::complete_outfit", "bowtie-core/src/bdd/closet/node_count.rs: Closet::outfit_count", "bowtie-core/src/bdd/node/summarize.rs"]}
{"id": "C128", "title": "The names of items and families do not matter to a closet, only the order of the item names does, and only to completion", "statement": "Make the same builder calls and selections with every item and every family under another name (different names staying different). The calls build exactly if they did, the same selections are refused for the same reason, every item has the status it had, the outfit count is the same and the same lists of items can be completed. If the new item names are in the same order as the old ones, the outfit that is completed is the same under the new names, whatever the family names are; if not it can be another one (exchanging the names of two items of one family does it).", "quantifier": "all lists of builder calls, all injective renamings of items and families (to any ordered types), all lists of selections and of items to complete", "why_tests_cant": "relates two closets for all rule sets and all renamings; a test uses one set of names", "anchors": ["bowtie-core/src/bdd/closet_builder/mod.rs: ClosetBuilder::build", "bowtie-core/src/bdd/closet/select.rs: Closet::select_item", "bowtie-core/src/bdd/closet/complete_outfit.rs: Closet::complete_outfit", "bowtie-core/src/bdd/closet/node_count.rs: Closet::outfit_count", "bowtie-core/src/bdd/node/summarize.rs"]}
{"id": "C129", "title": "Other item names in the same order give the same zdd2 diagram", "statement": "Run any program on the zdd2 forest API, and run it again with every item replaced by another one such that the order of the items stays the same. The second run panics exactly if the first does, and builds the same diagram over the renamed items: the trees are the renamed trees in the same order, length, emptiness and occurrence counts are the same, the serialized diagram is the same text, and two programs build equal forests exactly if they did. If the order of the items changes this is false: exchanging the names of two items changes how many members {{1}} united with {{2},{1,2}} has.", "quantifier": "all programs over the public forest API, all order-preserving renamings between ordered item types, all visiting orders of the hash maps when serializing", "why_tests_cant": "relates two runs for all programs and renamings; a test uses one set of names, and the loss of members in another order only shows for some names", "anchors": ["weave/src/zdd2/forest/mod.rs: Forest::{many, unit, unique, union, intersect, product, trees, occurrences}", "weave/src/zdd2/forest/subset.rs", "weave/src/zdd2/forest/universe/mod.rs: Universe::{from_occurrences, merge}", "weave/src/zdd2/forest/universe/serialize.rs"]}
{"id": "C130", "title": "The item names do not matter to a v1 tree, not even their order", "statement": "Evaluate any expression over the v1 tree API (universes, empty, unit, tree, unique_tree, hyper_tree, union, intersect, product, restrict) and evaluate it again with every item under another name (different names staying different, their order changing or not). The second tree has the same diagram with the same ids over the renamed universe list: its serialized node text is the same, its combinations are the renamed combinations (as many, listed in the order of the new names), also with inclusions and exclusions, every item has the status it had, traversing fails alike and shows the same tree with the new names, and two expressions make equal trees exactly if they did.", "quantifier": "all expressions over the public API (over any universes, also mixed), all injective renamings to any ordered type, all inclusions and exclusions, all visiting orders of the hash maps", "why_tests_cant": "relates two evaluations for all expressions and renamings; a test uses one set of names", "anchors": ["weave/src/zdd/tree/universe.rs: Universe::{from, tree, unique_tree, hyper_tree, get_items}", "weave/src/zdd/tree/mod.rs: Tree::{union, intersect, product, restrict, combinations, combinations_with, summarize}", "weave/src/zdd/tree/traversable.rs"]}
{"id": "C131", "title": "The item names do not matter to a matrix forest, not even their order", "statement": "Run any program over the matrix forest API and run it again with every item under another name (different names staying different, their order changing or not), in any hash orders. The second forest holds the renamed trees (each one listed in the order of the new names), has the same length and emptiness, each item occurs in it as often as it did under its old name, and two programs make equal forests exactly if they did.", "quantifier": "all programs over the public API of any size, all injective renamings to any ordered type, all iteration orders of the hash sets in either run", "why_tests_cant": "relates two runs for all programs, renamings and hash orders; a test uses one set of names and one hash seed", "anchors": ["weave/src/matrix/forest/mod.rs: Forest::{many, unit, unique, trees, len, occurrences}", "weave/src/matrix/forest/union.rs", "weave/src/matrix/forest/intersect.rs", "weave/src/matrix/forest/product.rs", "weave/src/matrix/forest/subset.rs"]}
