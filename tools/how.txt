C01 C02 C03 C04 C05 C06 C49 | per-operation refinement to sets of sets; API expressions (`Prog`) by induction, for every iteration order
C07 | two runs with arbitrary different oracles are related by induction over the API expression
C08 | negation by witness; equality characterised exactly
C09 C10 | case analysis over finite sets; C10 negation by witness and exact condition
C11 C12 | invariant of a transition system of arbitrarily many interleaved threads; unfolding ids into diagrams
C13 C14 C15 C16 C20 C21 C55 C56 | set-of-sets semantics of ordered diagrams, canonicity by structural induction, invariant over API expressions
C17 C18 C19 C22 C52 | negation by witness; semantics of the node operations by functional induction, bounds for all inputs, exact characterisation of what is computed, and the condition for it to be the intended result
C23 C24 C57 | sorting lemmas on association lists; permutation invariance
C25 | functional induction on the smart constructor, termination measure
C26 C27 C35 C58 C61 | printer/parser over character lists, induction on nodes with remaining input; serde data model
C28 | corollary of the two refinements, for expressions whose zdd2 operations are exact
C29 C30 C33 C34 | path-list semantics of v1 diagrams, no condition on universes or arguments
C31 C32 C59 C60 | negation by witness; semantics by functional induction
C36 C37 C38 C48 | boolean semantics of BDDs, ordered and reduced diagrams are canonical
C39 C40 C41 C42 C43 C44 C45 C51 C54 | refinement to outfits in terms of builder calls, invariant `State` over selection histories
C46 C62 C63 | serde data model of nodes and closets, exact set of surviving documents
C47 | error values unreachable: totality theorems
C50 | case analysis
C53 | arbitrary hash functions as parameters
C64 C65 | programs over the shared arena, a weakest-precondition logic stable under other threads, per-operation theorems, then all schedules of all thread families
C66 C67 C68 C69 | consequences of the outfit refinement; induction along the diagram walk, along guided selections, and double counting over families
C70 | a program whose finished run is settled in the arena finds every node again; invariant over all schedules
C71 | path counts by size never grow under the smart constructor (functional induction) nor under translation; transferred to members
C72 C73 | the trait as a relational structure with one instance per backend; corollaries of both refinements, induction over the list of menus
C74 C75 | canonicity of reachable forests turns equal families into equal values; C75 negation by witness
C76 | the smart constructor is shown equal to a family-level recursion over the item order (mutual induction over levels), transported from priorities to items and through translate_root
C77 | checked (Option) and wrapping (UInt64) versions of the counters related to the unbounded ones by structural induction; the overflowing closet by the product formula of C69
C78 | the derived comparison on arena cells; consequences of the arena invariant over all schedules, and two schedules that disagree
C79 | the recursion of intersect is shown to compute the walk of a pair (functional induction, cofactor lemmas for what a family could go on with), transported from ids to items
C80 | the page as a tree of elements, read by independent functions (bullets, texts); structural induction on the tree, and hyper_tree_exact for the constant model
C81 | every printer is shown to render a tree of lines; unique readability of indented lines by induction; equal forests by canonicity
C82 | machine model of the counts (`Zdd2/Machine`): checked and wrapping additions next to the unbounded ones; loops by induction, counts bounded by the length through C15 and C71
C83 | machine with `Once`, reader list, writer and program counters inside the critical sections (`ArenaLock`); forward simulation into the one-step machine of C64; deadlock freedom by case analysis over the lock invariant for an arbitrary live admission policy; termination by a lexicographic well-founded order per thread
C84 | every recursive function again with a budget of frames (`Zdd2/Stack`), shown equal to the original when the budget covers the priorities still ahead (induction on the budget with the ordering invariant); lower bound by induction on translate_root
C85 C86 | the recursive functions again with a budget of frames (`Zdd1/Stack`, `Bdd/Stack`), shown equal to the originals when the budget covers the ids (items) still ahead, by functional induction with the ordering invariant; lower bounds by induction on the walks
C87 | the parser rule with a budget of frames that tells overflow from rejection (`TextStack`), `Node::branch` on the frames left bounded by the number of different ids; induction on the budget; an adversarial text for every budget; exact height by induction on nodes
C88 | consequence of the arena invariants within a run (`ArenaForge`); negation by a family of runs; a self-referential node from the freshness of the next id
C89 C90 | the recursive functions again with a counter of calls (`Cost`, `Zdd2/Cost`, `Bdd/Cost`), shown to compute the same values; upper bounds by functional induction on sizes, and the size of a diagram bounded by items times members (outfits); lower bounds because the unshared diagram has a leaf per member; the exponential witness by canonicity of an explicit chain diagram
C91 | the operations on any value of the enum through the vectors it stores (`Matrix/Raw`), no reachability hypothesis; negations by witness
C92 C93 | case analysis on the three variants for any value (`TreeDoc`), documents as the serde data model; negation by witness
C94 C95 C96 | `Closet::new` on any diagram (`Bdd/Handmade`): diagrams that test no item twice on a path, ordered reduced diagrams by canonicity, structural induction; negations by witness
C97 | the program logic and the lock machine of C64/C83 with a set of verified threads and arbitrary others (`ArenaRogue`); the arena invariant split into a part every interning keeps and a part only verified ones keep
C98 | every call as an arena program shown equal to the sequential model for any node (`ArenaClient`); clients as interaction trees; worlds of threads started at any time with values of finished ones, by invariant over all runs
C99 | the summary read as a statement about the family of remaining combinations (C34); induction over the conversation; availability shrinks as a set
C100 | both summaries read as statuses over the same family; list equality by sortedness
C101 | ids are positions: the second diagram is unchanged, only its reading changes; canonicity gives nativeness
C102 | functions repeated with a call counter, induction over the recursion; size of an ordered diagram bounded by the items its combinations mention
C103 C104 | a generic logic of outcomes (answer or panic) for arena programs and generic clients over any sound library (`ArenaApi`); every call of the two APIs, including the text formats (`ArenaText`), as an arena program shown to end as the sequential model does (`ArenaForestClient`, `ArenaTreeClient`)
C105 | any tree value is covered: the listing lemmas need no link between list and index; construction computed through the index; equivalences by choosing wishes that single out one combination
C106 | a path with repeated items is an ordinary path over numbered copies of items; the operations commute with the numbering, so the theorems about trees without repetitions apply to the numbered diagrams (`Zdd1.Bags`)
C107 | no operation looks at the number of an id: a relational proof per operation (`Alike`) that it visits the same diagrams in any two arenas; every node of the arena was interned by a started thread, and the walk of a finished thread in the other arena found the same diagrams
C108 | the relational walk of C107 extended to every call and to adaptive, panicking clients (`Api.Blind`); what a client leaves is what it visits in any process in which it has ended; invariant over all processes: every node was visited by the client of some started thread
C109 | canonicity of reduced ordered diagrams (C38) with the exact acceptance, summary and completion of reached closets (C39, C41, C43); only known items matter, so assignments and outfits determine each other
C110 | the recipe means exactly the outfits (induction over families and rules); a listing of the remaining outfits determines count, statuses and selections of the closet (C39, C41, C42); each package lists them (C01, C13, C26), zdd2 products of disjoint families are safe (C73)
C111 | routes as an inductive relation; structural induction over arbitrary diagrams
C112 | which variant each operation returns, by cases; induction over programs with the meaning of C01-C05; laws from the decision of == on programs
C113 | len is the number of members (C06), members of results (C02-C05), finite cardinalities
C114 | the three operations work item by item, an operand that does not decide the item having given children; associativity by induction on the total size; a combination is the least upper bound of its trees
C115 | induction over the grouping from the exact cases of C17-C19; equality of forests is equality of families (C16); witnesses computed by the kernel
C116 | induction over expressions; nodes stay ordered and reduced, so canonicity (C38) applies; the root of such a node is the smallest item its function depends on
C117 | induction over the grouping, each call with its own hash order, and over the list of collected items; witnesses computed
C118 | builders are four key-sorted maps whose look-ups are the calls filtered by key; closets by C109, reports as duplicate-free lists of the violations of C40; witness computed
C119 | Subdiagrams of a result are results on pairs of subdiagrams (induction on the operation); a program logic `Safe` walks a program in the final arena and bounds what it interns; new nodes of the arena unfold to distinct diagrams, so their number is bounded by the number of diagrams the started threads may intern.
C120 | as C119; each operation interns one result per recursive call besides subdiagrams of its operands, which are stored already; chains and joins by induction over the list, expressions by induction over the expression.
C121 | each program is followed beside the counting version of the sequential operation (C89): a call of it interns at most two nodes which were not stored before; the call bounds of C89 then bound the growth; threads as in C119.
C122 | rebuilding never increases the weight of a family (sum over members of the positions of their items) and keeps the weight only where the recursion does nothing; that, unfolded over the levels, is the first-order condition
C123 | every program is shown to pay for the canonical nodes it interns: each recursive call of the sequential cost model (C92) interns at most two, restricting a diagram of m nodes at most m; the payments of the threads add up because a node already in the store is not added again
C124 | both backends are shown to present the same view of a finite family (exact len, is_empty, trees, occurrences, filters); the rest is about finite families, by induction over the conversation
C125 | sequentially, saving all and reading all back restores the list of values (round trips C27, C46, C61 for what plain calls make, by induction over the client), so the continuation has the same outcome; the concurrent theorems C98, C103, C104 transfer outcomes in each process
C126 | counting outfits with a list of items by induction over the selections; the rule filters the outfit set, so the counts are cardinalities of complementary filters; equality by C109
C127 | an outfit of the whole splits into one of each part and back, so the counts, statuses and selections, exact in terms of outfits (C41-C45), combine; the completed outfit is the first one in item order (C66), and first ones combine
C128 | renaming is a bijection of the outfits, in terms of which everything but completion is exact (C41-C45); completion gives the first outfit in item order (C66), which an order-preserving renaming keeps; the witness is evaluated by the kernel
C129 | every function below the API commutes with a renaming that keeps the order (sorting, `unique`, the maps, the frequency order), by induction on its input; the programs by induction; the witness by evaluating both unions
C130 | item ids come from the universe list, so that every constructor makes the same diagram; `restrict` walks the combinations in another order, but its diagram is ordered and thus determined by the sets in it (den_inj); the views through C33, C34
C131 | renaming commutes with what a program means (run_family), by induction over programs, and with which results are held as a single vector (Alone); the views through C06 and C112
