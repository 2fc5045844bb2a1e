import Verif.Zdd1.Exact
import Verif.Zdd1.Props
import Verif.Zdd1.Serialize
import Verif.Sharp

/-!
# v1 universes and trees read from any document (C105)

A document holds a node text, an item list and an item index.  Nothing ties the three together when they
are read (`Deserialize` is derived), so the ids of the diagram may point outside the list and the index may
send an item to a position where another one stands.
-/

set_option linter.unusedSimpArgs false
set_option linter.unusedVariables false
set_option linter.unusedSectionVars false

namespace Verif.Zdd1
open Verif Verif.Weave Verif.Spec Verif.Text Node

universe u
variable {T : Type u} [LinearOrder T]

/-- The last entry the document's index has for `x` is the position `p`.  Not code: used to state or
prove properties. -/
def IndexedAt (index : List (T × Nat)) (x : T) (p : Nat) : Prop :=
  ∃ k : Nat, index[k]? = some (x, p) ∧ ∀ j : Nat, k < j → ∀ q, index[j]? ≠ some (x, q)

/-- `x` is indexed at a position where the item list has `y`.  Not code: used to state or prove
properties. -/
def Lands (items : List T) (index : List (T × Nat)) (x y : T) : Prop :=
  ∃ p, IndexedAt index x p ∧ items[p]? = some y

/-- The items a set of positions stands for.  Not code: used to state or prove properties. -/
def At (items : List T) (s : Finset Nat) (A : Finset T) : Prop :=
  ∀ y, y ∈ A ↔ ∃ p ∈ s, items[p]? = some y

/-- `B` holds the items the members of `c` land on.  Not code: used to state or prove properties. -/
def LandsOn (items : List T) (index : List (T × Nat)) (c : List T) (B : Finset T) : Prop :=
  ∀ y, y ∈ B ↔ ∃ x ∈ c, Lands items index x y

/-- The derived `Deserialize` of a `Universe`, weave/src/zdd/tree/universe.rs:11-16: the entries of the index
are inserted into a hash map one after the other. -/
def readUniverse (items : List T) (index : List (T × Nat)) : Universe T :=
  ⟨items, index.foldl (fun m p => insertKV p.1 p.2 m) []⟩

theorem lookup_read {items : List T} {index : List (T × Nat)} {x : T} {p : Nat} :
    lookup x (readUniverse items index).itemIndex = some p ↔ IndexedAt index x p := by
  show lookup x (index.foldl (fun m p => insertKV p.1 p.2 m) []) = some p ↔ _
  induction index using List.reverseRecOn with
  | nil => simp [lookup, IndexedAt]
  | append_singleton l a ih =>
    rw [List.foldl_append, List.foldl_cons, List.foldl_nil,
      lookup_insertKV (keysLt_collect l [] List.Pairwise.nil)]
    split_ifs with hx
    · constructor
      · intro e
        cases e
        refine ⟨l.length, by simp [hx], fun j hj q h => ?_⟩
        obtain ⟨hj', -⟩ := List.getElem?_eq_some_iff.mp h
        simp at hj'
        omega
      · rintro ⟨k, hk, hlast⟩
        have hkl : k = l.length := by
          obtain ⟨hk', -⟩ := List.getElem?_eq_some_iff.mp hk
          simp at hk'
          by_contra hne
          exact hlast l.length (by omega) a.2 (by simp [hx])
        subst hkl
        simp at hk
        simp [hk]
    · rw [ih]
      constructor
      · rintro ⟨k, hk, hlast⟩
        obtain ⟨hk', -⟩ := List.getElem?_eq_some_iff.mp hk
        refine ⟨k, by rw [List.getElem?_append_left hk']; exact hk, fun j hj q h => ?_⟩
        by_cases hj' : j < l.length
        · rw [List.getElem?_append_left hj'] at h; exact hlast j hj q h
        · obtain ⟨hj'', -⟩ := List.getElem?_eq_some_iff.mp h
          simp at hj''
          have : j = l.length := by omega
          subst this
          simp at h
          exact hx (by simp [h])
      · rintro ⟨k, hk, hlast⟩
        obtain ⟨hk', -⟩ := List.getElem?_eq_some_iff.mp hk
        simp at hk'
        have hk2 : k < l.length := by
          by_contra hne
          have : k = l.length := by omega
          subst this
          simp at hk
          exact hx (by simp [hk])
        rw [List.getElem?_append_left hk2] at hk
        refine ⟨k, hk, fun j hj q h => ?_⟩
        obtain ⟨hj', -⟩ := List.getElem?_eq_some_iff.mp h
        exact hlast j hj q (by rw [List.getElem?_append_left hj']; exact h)

theorem lands_on {items : List T} {index : List (T × Nat)} (c : List T) :
    LandsOn items index c ((readUniverse items index).itemsOf
      (c.filterMap (fun item => lookup item (readUniverse items index).itemIndex)).toFinset) := by
  intro y
  rw [Universe.mem_itemsOf]
  simp only [List.mem_toFinset, List.mem_filterMap, lookup_read, Lands]
  constructor
  · rintro ⟨p, ⟨x, hx, hp⟩, hy⟩; exact ⟨x, hx, p, hp, hy⟩
  · rintro ⟨x, hx, p, hp, hy⟩; exact ⟨p, ⟨x, hx, hp⟩, hy⟩

theorem LandsOn.unique {items : List T} {index : List (T × Nat)} {c : List T} {A B : Finset T}
    (ha : LandsOn items index c A) (hb : LandsOn items index c B) : A = B := by
  ext y; rw [ha y, hb y]

/-! ## reading -/

/-- C105: reading succeeds exactly if the node text begins with a text of a node; the item list and the
index are not looked at. -/
theorem read_iff (d : TreeData T) :
    (∃ t, deserializeTree d = some t) ↔ ∃ w r n, d.root = w ++ r ∧ Reads grammar w n := by
  constructor
  · rintro ⟨t, h⟩
    rw [deserializeTree, Option.map_eq_some_iff] at h
    obtain ⟨n, hn, -⟩ := h
    obtain ⟨w, r, e, hr⟩ := parse_iff.mp hn
    exact ⟨w, r, n, e, hr⟩
  · rintro ⟨w, r, n, e, hr⟩
    exact ⟨_, by rw [deserializeTree, parse_iff.mpr ⟨w, r, e, hr⟩]; rfl⟩

theorem read_eq {d : TreeData T} {t : Tree T} (h : deserializeTree d = some t) :
    t.univ = readUniverse d.items d.itemIndex ∧ parseNodeString d.root = some t.root := by
  rw [deserializeTree, Option.map_eq_some_iff] at h
  obtain ⟨n, hn, rfl⟩ := h
  exact ⟨rfl, hn⟩

theorem fits_of_reads {w : List Char} {n : Node} (h : Reads grammar w n) : n.Fits := by
  induction h with
  | leaf1 => exact trivial
  | leaf0 => exact trivial
  | branch _ _ _ _ _ _ hv _ _ ihl ihh => exact ⟨hv, ihl, ihh⟩

/-- C105: writing a tree that was read, and reading it again, gives the same tree, whatever the document
was and in whatever order the hash map is visited. -/
theorem read_write_read {d : TreeData T} {t : Tree T} (h : deserializeTree d = some t)
    {e : List (T × Nat)} (he : e.Perm t.univ.itemIndex) : deserializeTree (serializeTree t e) = some t := by
  obtain ⟨hu, hn⟩ := read_eq h
  obtain ⟨w, r, -, hr⟩ := parse_iff.mp hn
  have hk : KeysLt t.univ.itemIndex := by rw [hu]; exact keysLt_collect _ _ List.Pairwise.nil
  rw [deserializeTree, serializeTree]
  simp only [node_text_roundtrip (fits_of_reads hr), Option.map_some, collect_perm hk he,
    collect_perm hk (List.Perm.refl _)]

/-! ## what a tree that was read shows -/

/-- C105: the combinations of a tree that was read are the sets of ids of its diagram, each id replaced
by the item at that position and dropped if there is none; in particular only listed items occur. -/
theorem read_combinations {d : TreeData T} {t : Tree T} (h : deserializeTree d = some t) (A : Finset T) :
    (A ∈ family t.combinations ↔ ∃ s ∈ t.root.Den, At d.items s A) ∧
    (A ∈ family t.combinations → ∀ x ∈ A, x ∈ d.items) := by
  obtain ⟨hu, -⟩ := read_eq h
  have hi : t.univ.items = d.items := by rw [hu]; rfl
  constructor
  · rw [Tree.mem_combinations]
    refine exists_congr fun s => and_congr_right fun _ => ?_
    constructor
    · rintro rfl y; rw [Universe.mem_itemsOf, hi]
    · intro ha; ext y; rw [ha y, Universe.mem_itemsOf, hi]
  · intro hA x hx
    rw [← hi]; exact combination_listed hA hx

/-- C105: `combinations_with` is exact for every tree that was read, and `summarize` gives every listed
item exactly one status, the one the remaining combinations say. -/
theorem read_summary {d : TreeData T} {t : Tree T} (h : deserializeTree d = some t) (inc exc : List T)
    {entries : List (T × Nat)} (he : entries.Perm (t.counts inc exc)) :
    family (t.combinationsWith inc exc) =
      {A | A ∈ family t.combinations ∧ (∀ x ∈ inc, x ∈ A) ∧ (∀ x ∈ exc, x ∉ A)} ∧
    (t.summarize inc exc entries).Pairwise (· < ·) ∧
    (∀ s, s ∈ t.summarize inc exc entries ↔ ∃ x ∈ d.items, Status (family (t.combinationsWith inc exc)) inc x s) ∧
    ∀ x, ((t.summarize inc exc entries).map ItemStatus.item).count x = if x ∈ d.items then 1 else 0 := by
  obtain ⟨hu, -⟩ := read_eq h
  have hi : t.univ.items = d.items := by rw [hu]; rfl
  obtain ⟨h1, h2⟩ := summarize_exact_any hi inc exc he
  refine ⟨combinations_with_family t inc exc, h1, ?_, summarize_once_any hi inc exc he⟩
  rw [combinations_with_family]
  exact h2

/-- C105: `traverse` succeeds exactly if every id of the diagram is a position in the item list. -/
theorem read_traverse {d : TreeData T} {t : Tree T} (h : deserializeTree d = some t) :
    t.traverse ≠ none ↔ t.root.Ids (fun i => i < d.items.length) := by
  obtain ⟨hu, -⟩ := read_eq h
  rw [traverse_iff, hu]; rfl

/-! ## what a universe that was read builds -/

/-- C105: over a universe read from any document, `tree(c)` has one combination, the items the members of
`c` land on; `hyper_tree` has one per list and `unique_tree` one per item. -/
theorem read_builds (items : List T) (index : List (T × Nat)) :
    (∀ c A, A ∈ family ((readUniverse items index).tree c).combinations ↔ LandsOn items index c A) ∧
    (∀ cs A, A ∈ family ((readUniverse items index).hyperTree cs).combinations ↔
      ∃ c ∈ cs, LandsOn items index c A) ∧
    ∀ xs A, A ∈ family ((readUniverse items index).uniqueTree xs).combinations ↔
      ∃ x ∈ xs, LandsOn items index [x] A := by
  have hyper : ∀ cs A, A ∈ family ((readUniverse items index).hyperTree cs).combinations ↔
      ∃ c ∈ cs, LandsOn items index c A := by
    intro cs A
    rw [Tree.mem_combinations, Universe.hyperTree, univ_foldUnion]
    simp only [den_foldUnion, Universe.emptyTree, Node.mem_false, false_or, List.mem_map]
    constructor
    · rintro ⟨s, ⟨_, ⟨c, hc, rfl⟩, hs⟩, rfl⟩
      rw [den_tree] at hs
      subst hs
      exact ⟨c, hc, lands_on c⟩
    · rintro ⟨c, hc, hA⟩
      exact ⟨_, ⟨_, ⟨c, hc, rfl⟩, (den_tree _ _ _).mpr rfl⟩, hA.unique (lands_on c)⟩
  refine ⟨fun c A => ?_, hyper, fun xs A => ?_⟩
  · rw [Tree.mem_combinations]
    simp only [den_tree, exists_eq_left]
    exact ⟨fun e => e ▸ lands_on c, fun hA => hA.unique (lands_on c)⟩
  · have : (readUniverse items index).uniqueTree xs =
        (readUniverse items index).hyperTree (xs.map (fun x => [x])) := by
      simp [Universe.uniqueTree, Universe.hyperTree, Function.comp_def]
    rw [this, hyper]
    simp

/-- C105: the combinations of `restrict` are what the remaining combinations land on. -/
theorem read_restrict {items : List T} {index : List (T × Nat)} {t : Tree T}
    (hu : t.univ = readUniverse items index) (inc exc : List T) (B : Finset T) : B ∈ family (t.restrict inc exc).combinations ↔
      ∃ c ∈ t.combinationsWith inc exc, LandsOn items index c B := by
  rw [Tree.restrict, hu]
  exact (read_builds items index).2.1 _ B

/-- C105: `restrict` of a tree over a universe that was read agrees with `combinations_with` for all wishes exactly if every
combination of the tree lands on itself. -/
theorem read_restrict_iff {items : List T} {index : List (T × Nat)} {t : Tree T}
    (hu : t.univ = readUniverse items index) :
    (∀ inc exc, (t.restrict inc exc).combinations = t.combinationsWith inc exc) ↔
      ∀ c ∈ t.combinations, LandsOn items index c c.toFinset := by
  have hi : t.univ.items = items := by rw [hu]; rfl
  constructor
  · intro hall c hc
    have hself : c ∈ t.combinationsWith c (items.filter (fun x => x ∉ c)) := by
      rw [combinations_with_exact, List.mem_filter]
      exact ⟨hc, by simp⟩
    have honly : ∀ c' ∈ t.combinationsWith c (items.filter (fun x => x ∉ c)), c'.toFinset = c.toFinset := by
      intro c' hc'
      rw [combinations_with_exact, List.mem_filter, decide_eq_true_eq] at hc'
      obtain ⟨hc', h1, h2⟩ := hc'
      ext x
      simp only [List.mem_toFinset]
      refine ⟨fun hx => ?_, h1 x⟩
      by_contra hn
      have hxi : x ∈ items := by
        rw [← hi]; exact combination_listed ⟨c', hc', rfl⟩ (by simpa using hx)
      exact h2 x (List.mem_filter.mpr ⟨hxi, by simpa using hn⟩) hx
    obtain ⟨c', hc', hl⟩ := (read_restrict hu c (items.filter (fun x => x ∉ c)) c.toFinset).mp
      (by rw [hall]; exact ⟨c, hself, rfl⟩)
    intro y
    rw [hl y]
    have e : ∀ x, x ∈ c' ↔ x ∈ c := fun x => by simpa using Finset.ext_iff.mp (honly c' hc') x
    exact exists_congr fun x => by rw [e x]
  · intro hall inc exc
    have hlt : ∀ c ∈ t.combinationsWith inc exc, c.Pairwise (· < ·) := by
      intro c hc
      rw [combinations_with_exact, List.mem_filter] at hc
      exact t.combinations_mem_lt c hc.1
    refine listing_ext (Tree.combinations_lt _) (filterRepeats_lt _) (Tree.combinations_mem_lt _) hlt ?_
    ext B
    rw [read_restrict hu]
    have key : ∀ c ∈ t.combinationsWith inc exc, LandsOn items index c c.toFinset := by
      intro c hc
      rw [combinations_with_exact, List.mem_filter] at hc
      exact hall c hc.1
    constructor
    · rintro ⟨c, hc, hl⟩; exact ⟨c, hc, (key c hc).unique hl⟩
    · rintro ⟨c, hc, rfl⟩; exact ⟨c, hc, key c hc⟩

/-! ## which documents hold a usable universe -/

/-- C105: a universe that was read builds `tree(c)` as one made from the same item list does, for every
`c`, exactly if its index sends every listed item to a position of that item and every other indexed item
beyond the end of the list. -/
theorem read_universe_iff (items : List T) (index : List (T × Nat)) :
    (∀ c, ((readUniverse items index).tree c).combinations = ((Universe.fromVec items).tree c).combinations) ↔
      (∀ x ∈ items, Lands items index x x) ∧
      ∀ x p, x ∉ items → IndexedAt index x p → items.length ≤ p := by
  have hne : ∀ x p, IndexedAt index x p → (items.length ≤ p ∨ ∃ y, Lands items index x y) := by
    intro x p hp
    by_cases hl : p < items.length
    · exact .inr ⟨items[p], p, hp, by simp [hl]⟩
    · exact .inl (by omega)
  constructor
  · intro hall
    have one : ∀ x, LandsOn items index [x] (if x ∈ items then {x} else ∅) := by
      intro x
      refine ((read_builds items index).1 [x] _).mp ?_
      rw [hall, tree_exact]
      by_cases hx : x ∈ items <;> simp [hx]
    constructor
    · intro x hx
      have := (one x x)
      simp only [hx, if_true, Finset.mem_singleton, List.mem_singleton, exists_eq_left, true_iff] at this
      exact this
    · intro x p hx hp
      rcases hne x p hp with hl | ⟨y, hy⟩
      · exact hl
      · have := (one x y).mpr ⟨x, by simp, hy⟩
        simp [hx] at this
  · rintro ⟨h1, h2⟩ c
    refine listing_ext (Tree.combinations_lt _) (Tree.combinations_lt _) (Tree.combinations_mem_lt _)
      (Tree.combinations_mem_lt _) ?_
    rw [tree_exact]
    ext A
    rw [(read_builds items index).1, Set.mem_singleton_iff]
    have key : LandsOn items index c (c.filter (fun x => x ∈ items)).toFinset := by
      intro y
      simp only [List.mem_toFinset, List.mem_filter, decide_eq_true_eq]
      constructor
      · rintro ⟨hc, hi⟩; exact ⟨y, hc, h1 y hi⟩
      · rintro ⟨x, hc, p, hp, hy⟩
        have hp' := lookup_read (items := items).mpr hp
        by_cases hx : x ∈ items
        · obtain ⟨q, hq, hqx⟩ := h1 x hx
          have := lookup_read (items := items).mpr hq
          rw [hp'] at this
          cases this
          rw [hy] at hqx
          cases hqx
          exact ⟨hc, hx⟩
        · obtain ⟨hl, -⟩ := List.getElem?_eq_some_iff.mp hy
          have := h2 x p hx hp
          omega
    exact ⟨fun h => h.unique key, fun h => h ▸ key⟩

/-- C105: `restrict` agrees with `combinations_with` for every tree over a universe that was read exactly if
its index sends every listed item to a position of that item. -/
theorem read_universe_restrict (items : List T) (index : List (T × Nat)) :
    (∀ t : Tree T, t.univ = readUniverse items index → ∀ inc exc,
      (t.restrict inc exc).combinations = t.combinationsWith inc exc) ↔
    ∀ x ∈ items, Lands items index x x := by
  constructor
  · intro hall x hx
    obtain ⟨p, hp⟩ := List.mem_iff_getElem?.mp hx
    have hu : (⟨.Branch p (.Leaf false) (.Leaf true), readUniverse items index⟩ : Tree T).univ =
      readUniverse items index := rfl
    have hm : {x} ∈ family (⟨.Branch p (.Leaf false) (.Leaf true), readUniverse items index⟩ : Tree T).combinations := by
      rw [Tree.mem_combinations]
      refine ⟨{p}, by simp [Node.mem_den_branch, Node.mem_true, Node.mem_false], ?_⟩
      ext y
      rw [Universe.mem_itemsOf]
      simp only [Finset.mem_singleton, exists_eq_left]
      show y = x ↔ items[p]? = some y
      rw [hp]; simp [eq_comm]
    obtain ⟨c, hc, e⟩ := hm
    have hl := (read_restrict_iff hu).mp (hall _ hu) c hc
    have hcx : ∀ z, z ∈ c ↔ z = x := fun z => by simpa using Finset.ext_iff.mp e z
    obtain ⟨z, hz, hz'⟩ := (hl x).mp (by simpa using (hcx x).mpr rfl)
    rwa [(hcx z).mp hz] at hz'
  · intro hall t hu
    refine (read_restrict_iff hu).mpr fun c hc y => ?_
    simp only [List.mem_toFinset]
    have hin : ∀ x ∈ c, x ∈ items := by
      intro x hx
      have := combination_listed (t := t) ⟨c, hc, rfl⟩ (x := x) (by simpa using hx)
      rwa [hu] at this
    constructor
    · intro hy; exact ⟨y, hy, hall y (hin y hy)⟩
    · rintro ⟨x, hx, p, hp, hy⟩
      obtain ⟨q, hq, hqx⟩ := hall x (hin x hx)
      have h1 := lookup_read (items := items).mpr hp
      have h2 := lookup_read (items := items).mpr hq
      rw [h1] at h2
      cases h2
      rw [hy] at hqx
      cases hqx
      exact hx

/-- C105: the universes the library makes are of this kind, and so is what it writes for them. -/
theorem library_universe_ok (items : List T) {e : List (T × Nat)}
    (he : e.Perm (Universe.fromVec items).itemIndex) :
    readUniverse items e = Universe.fromVec items ∧
    (∀ x ∈ items, Lands items e x x) ∧ ∀ x p, x ∉ items → IndexedAt e x p → items.length ≤ p := by
  have hr : readUniverse items e = Universe.fromVec items := by
    have := collect_perm (Universe.keysLt_index items) he
    unfold readUniverse
    rw [this]
    rfl
  refine ⟨hr, (read_universe_iff items e).mp fun c => by rw [hr]⟩

/-! ## a document that is read but not usable -/

/-- Not code: an index with the two items swapped. -/
def swapped : TreeData Nat := ⟨"(0 (F) (T))".toList, [10, 20], [(10, 1), (20, 0)]⟩

theorem swapped_parses : parseNodeString swapped.root = some (.Branch 0 (.Leaf false) (.Leaf true)) := by decide +kernel

/-- C105: with a swapped index `restrict` returns a combination that is not in the tree. -/
theorem swapped_restrict : ∃ t, deserializeTree swapped = some t ∧ t.combinations = [[10]] ∧
    t.combinationsWith [10] [] = [[10]] ∧ (t.restrict [10] []).combinations = [[20]] ∧
    t.traverse ≠ none :=
  ⟨⟨.Branch 0 (.Leaf false) (.Leaf true), readUniverse [10, 20] [(10, 1), (20, 0)]⟩,
    by rw [deserializeTree, swapped_parses]; rfl, by decide +kernel, by decide +kernel, by decide +kernel, by simp [Tree.traverse, fromNode, readUniverse, Universe.getItem]⟩

/-- Not code: a diagram with an id beyond the item list. -/
def overrun : TreeData Nat := ⟨"(7 (T) (1 (F) (T)))".toList, [10, 20], []⟩

theorem overrun_parses : parseNodeString overrun.root = some (.Branch 7 (.Leaf true) (.Branch 1 (.Leaf false) (.Leaf true))) := by decide +kernel

/-- C105: an id beyond the list is dropped from the listings, and `traverse` panics; an empty index makes
`restrict` lose every item. -/
theorem overrun_read : ∃ t, deserializeTree overrun = some t ∧ t.combinations = [[], [20]] ∧
    (t.restrict [20] []).combinations = [[]] ∧ t.traverse = none :=
  ⟨⟨.Branch 7 (.Leaf true) (.Branch 1 (.Leaf false) (.Leaf true)), readUniverse [10, 20] []⟩,
    by rw [deserializeTree, overrun_parses]; rfl, by decide +kernel, by decide +kernel, by decide +kernel⟩

example := read_iff swapped
example : Lands [10, 20] [(10, 1), (20, 0), (10, 0)] 10 10 :=
  ⟨0, ⟨2, rfl, fun j hj q h => by
    obtain ⟨h', -⟩ := List.getElem?_eq_some_iff.mp h
    simp at h'; omega⟩, rfl⟩
example (t : Tree Nat) (h : deserializeTree swapped = some t) := read_combinations h {10}
example (t : Tree Nat) (h : deserializeTree swapped = some t) := read_summary h [10] [20] (List.reverse_perm _)
example (t : Tree Nat) (h : deserializeTree swapped = some t) := read_traverse h
example (t : Tree Nat) (h : deserializeTree swapped = some t) := read_write_read h (List.reverse_perm _)
example (t : Tree Nat) (h : deserializeTree swapped = some t) := read_restrict (read_eq h).1 [10] [] {20}
example (t : Tree Nat) (h : deserializeTree swapped = some t) := read_restrict_iff (read_eq h).1
example := library_universe_ok [3, 1, 3] (List.reverse_perm _)
example := read_universe_iff [10, 20] [(10, 1), (20, 0)]

end Verif.Zdd1
