import Verif.Zdd1.Lemmas

/-! Helper lemmas about v1 universes and trees. -/

set_option linter.unusedSimpArgs false
set_option linter.unusedSectionVars false
set_option linter.unusedVariables false

namespace Verif.Zdd1
open Verif Verif.Weave Verif.Spec

universe u
variable {T : Type u} [LinearOrder T]

/-! ### maps collected from lists -/

theorem keysLt_collect {V : Type} (l acc : List (T × V)) (h : KeysLt acc) :
    KeysLt (l.foldl (fun m p => insertKV p.1 p.2 m) acc) := by
  induction l generalizing acc with
  | nil => exact h
  | cons a l ih => exact ih _ (keysLt_upsert h)

theorem lookup_insertKV {V : Type} {m : List (T × V)} (h : KeysLt m) (k x : T) (v : V) :
    lookup x (insertKV k v m) = if x = k then some v else lookup x m := by
  rw [insertKV, lookup_upsert h]

/-- A key not in the list is left alone. -/
theorem lookup_collect_of_notMem {V : Type} (l acc : List (T × V)) (h : KeysLt acc) {x : T}
    (hx : x ∉ l.map Prod.fst) :
    lookup x (l.foldl (fun m p => insertKV p.1 p.2 m) acc) = lookup x acc := by
  induction l generalizing acc with
  | nil => rfl
  | cons a l ih =>
    simp only [List.map_cons, List.mem_cons, not_or] at hx
    rw [List.foldl_cons, ih (insertKV a.1 a.2 acc) (keysLt_upsert h) hx.2, lookup_insertKV h, if_neg hx.1]

/-- A key in the list is present, with one of the listed values. -/
theorem lookup_collect_of_mem {V : Type} (l acc : List (T × V)) (h : KeysLt acc) {x : T}
    (hx : x ∈ l.map Prod.fst) :
    ∃ v, (x, v) ∈ l ∧ lookup x (l.foldl (fun m p => insertKV p.1 p.2 m) acc) = some v := by
  induction l generalizing acc with
  | nil => simp at hx
  | cons a l ih =>
    by_cases hl : x ∈ l.map Prod.fst
    · obtain ⟨v, hv, e⟩ := ih (insertKV a.1 a.2 acc) (keysLt_upsert h) hl
      exact ⟨v, List.mem_cons_of_mem _ hv, e⟩
    · have : x = a.1 := by
        simp only [List.map_cons, List.mem_cons] at hx
        exact hx.resolve_right hl
      refine ⟨a.2, by subst this; simp, ?_⟩
      rw [List.foldl_cons, lookup_collect_of_notMem l (insertKV a.1 a.2 acc) (keysLt_upsert h) hl, lookup_insertKV h, if_pos this]

/-! ### universes -/

namespace Universe

theorem index_get {items : List T} {x : T} {i : Nat}
    (h : lookup x (fromVec items).itemIndex = some i) : items[i]? = some x := by
  by_cases hx : x ∈ (items.zipIdx).map Prod.fst
  · obtain ⟨v, hv, e⟩ := lookup_collect_of_mem items.zipIdx [] List.Pairwise.nil hx
    have : lookup x (fromVec items).itemIndex = some v := e
    rw [this] at h
    cases h
    exact List.mk_mem_zipIdx_iff_getElem?.mp hv
  · have := lookup_collect_of_notMem items.zipIdx [] List.Pairwise.nil hx
    rw [show lookup x (fromVec items).itemIndex = lookup x ([] : List (T × Nat)) from this] at h
    simp [lookup] at h

theorem index_some {items : List T} {x : T} :
    (∃ i, lookup x (fromVec items).itemIndex = some i) ↔ x ∈ items := by
  constructor
  · rintro ⟨i, h⟩
    exact List.mem_of_getElem? (index_get h)
  · intro hx
    obtain ⟨v, -, e⟩ := lookup_collect_of_mem items.zipIdx [] List.Pairwise.nil
      (x := x) (by simpa [List.zipIdx_map_fst] using hx)
    exact ⟨v, e⟩

theorem index_inj {items : List T} {x y : T} {i : Nat}
    (h : lookup x (fromVec items).itemIndex = some i) (h' : lookup y (fromVec items).itemIndex = some i) :
    x = y := by
  have := (index_get h).symm.trans (index_get h')
  simpa using this

theorem keysLt_index (items : List T) : KeysLt (fromVec items).itemIndex :=
  keysLt_collect _ _ List.Pairwise.nil

/-- The items a set of ids stands for.  Not code: used to state or prove properties. -/
def itemsOf (uni : Universe T) (s : Finset Nat) : Finset T :=
  s.biUnion (fun i => (uni.items[i]?).toFinset)

theorem mem_itemsOf {uni : Universe T} {s : Finset Nat} {x : T} :
    x ∈ uni.itemsOf s ↔ ∃ i ∈ s, uni.items[i]? = some x := by
  simp [itemsOf, Option.mem_toFinset]

theorem itemsOf_union (uni : Universe T) (a b : Finset Nat) :
    uni.itemsOf (a ∪ b) = uni.itemsOf a ∪ uni.itemsOf b := by
  ext x
  simp only [mem_itemsOf, Finset.mem_union]
  constructor
  · rintro ⟨i, hi | hi, e⟩
    · exact Or.inl ⟨i, hi, e⟩
    · exact Or.inr ⟨i, hi, e⟩
  · rintro (⟨i, hi, e⟩ | ⟨i, hi, e⟩)
    · exact ⟨i, Or.inl hi, e⟩
    · exact ⟨i, Or.inr hi, e⟩

theorem itemsOf_mono (uni : Universe T) {a b : Finset Nat} (h : a ⊆ b) : uni.itemsOf a ⊆ uni.itemsOf b := by
  intro x
  simp only [mem_itemsOf]
  rintro ⟨i, hi, e⟩
  exact ⟨i, h hi, e⟩

theorem toFinset_getItems (uni : Universe T) (p : List Nat) :
    (uni.getItems p).toFinset = uni.itemsOf p.toFinset := by
  ext x
  simp [getItems, mem_itemsOf]

theorem getItems_lt (uni : Universe T) (p : List Nat) : (uni.getItems p).Pairwise (· < ·) :=
  filterRepeats_lt _

/-- An id the universe hands out.  Not code: used to state or prove properties. -/
def Known (uni : Universe T) (i : Nat) : Prop := ∃ x, lookup x uni.itemIndex = some i

theorem known_get {items : List T} {i : Nat} (h : (fromVec items).Known i) :
    ∃ x, items[i]? = some x ∧ lookup x (fromVec items).itemIndex = some i := by
  obtain ⟨x, hx⟩ := h
  exact ⟨x, index_get hx, hx⟩

/-- Among known ids, an item has one id. -/
theorem known_unique {items : List T} {i j : Nat} (hi : (fromVec items).Known i) (hj : (fromVec items).Known j)
    {x : T} (h : items[i]? = some x) (h' : items[j]? = some x) : i = j := by
  obtain ⟨y, hy, ly⟩ := known_get hi
  obtain ⟨z, hz, lz⟩ := known_get hj
  rw [h] at hy; rw [h'] at hz
  cases hy; cases hz
  rw [ly] at lz
  simpa using lz

theorem mem_itemsOf_known {items : List T} {s : Finset Nat} (hs : ∀ i ∈ s, (fromVec items).Known i)
    {i : Nat} (hi : (fromVec items).Known i) {x : T} (hx : items[i]? = some x) :
    x ∈ (fromVec items).itemsOf s ↔ i ∈ s := by
  rw [mem_itemsOf]
  constructor
  · rintro ⟨j, hj, e⟩
    rwa [known_unique hi (hs j hj) hx e]
  · intro h; exact ⟨i, h, hx⟩

theorem itemsOf_inj {items : List T} {s t : Finset Nat} (hs : ∀ i ∈ s, (fromVec items).Known i)
    (ht : ∀ i ∈ t, (fromVec items).Known i) (h : (fromVec items).itemsOf s = (fromVec items).itemsOf t) :
    s = t := by
  ext i
  constructor
  · intro hi
    obtain ⟨x, hx, _⟩ := known_get (hs i hi)
    rw [← mem_itemsOf_known ht (hs i hi) hx, ← h, mem_itemsOf_known hs (hs i hi) hx]
    exact hi
  · intro hi
    obtain ⟨x, hx, _⟩ := known_get (ht i hi)
    rw [← mem_itemsOf_known hs (ht i hi) hx, h, mem_itemsOf_known ht (ht i hi) hx]
    exact hi

end Universe

/-! ### what a tree shows -/

theorem mem_family_filterRepeats {ls : List (List T)} {A : Finset T} :
    A ∈ family (filterRepeats ls) ↔ A ∈ family ls := by
  simp [family]

theorem Tree.mem_combinations (t : Tree T) (A : Finset T) :
    A ∈ family t.combinations ↔ ∃ s ∈ t.root.Den, A = t.univ.itemsOf s := by
  rw [Tree.combinations, mem_family_filterRepeats, Node.combinationsIter_eq]
  constructor
  · rintro ⟨l, hl, rfl⟩
    obtain ⟨p, hp, rfl⟩ := List.mem_map.mp hl
    exact ⟨_, (Node.mem_paths _ _).mp ⟨p, hp, rfl⟩, Universe.toFinset_getItems _ _⟩
  · rintro ⟨s, hs, rfl⟩
    obtain ⟨p, hp, rfl⟩ := (Node.mem_paths _ _).mpr hs
    exact ⟨_, List.mem_map_of_mem hp, Universe.toFinset_getItems _ _⟩

/-- Two canonical listings of the same family are the same listing. -/
theorem listing_ext {l m : List (List T)} (hl : l.Pairwise (· < ·)) (hm : m.Pairwise (· < ·))
    (sl : ∀ c ∈ l, c.Pairwise (· < ·)) (sm : ∀ c ∈ m, c.Pairwise (· < ·))
    (h : family l = family m) : l = m := by
  refine lt_ext hl hm fun c => ?_
  constructor
  · intro hc
    have : c.toFinset ∈ family m := h ▸ ⟨c, hc, rfl⟩
    obtain ⟨d, hd, e⟩ := this
    rwa [toFinset_inj_of_lt (sl c hc) (sm d hd) e.symm]
  · intro hc
    have : c.toFinset ∈ family l := h ▸ ⟨c, hc, rfl⟩
    obtain ⟨d, hd, e⟩ := this
    rwa [toFinset_inj_of_lt (sm c hc) (sl d hd) e.symm]

theorem Tree.combinations_lt (t : Tree T) : t.combinations.Pairwise (· < ·) := filterRepeats_lt _

theorem Tree.combinations_mem_lt (t : Tree T) : ∀ c ∈ t.combinations, c.Pairwise (· < ·) := by
  intro c hc
  rw [Tree.combinations, mem_filterRepeats, List.mem_map] at hc
  obtain ⟨p, _, rfl⟩ := hc
  exact Universe.getItems_lt _ _

/-! ### construction -/

theorem den_required (l : List Nat) (n : Node) (s : Finset Nat) :
    s ∈ (l.foldl (fun next id => Node.requiredBranch id next) n).Den ↔ ∃ t ∈ n.Den, s = l.toFinset ∪ t := by
  induction l generalizing n s with
  | nil => simp
  | cons i l ih =>
    rw [List.foldl_cons, ih]
    simp only [Node.requiredBranch, Node.branch, Node.mem_den_branch, Node.mem_false, false_or]
    constructor
    · rintro ⟨_, ⟨t, ht, rfl⟩, rfl⟩
      exact ⟨t, ht, by simp⟩
    · rintro ⟨t, ht, rfl⟩
      exact ⟨_, ⟨t, ht, rfl⟩, by simp⟩

theorem den_tree (uni : Universe T) (c : List T) (s : Finset Nat) :
    s ∈ (uni.tree c).root.Den ↔ s = (c.filterMap (fun item => lookup item uni.itemIndex)).toFinset := by
  rw [Universe.tree, den_required]
  simp only [Node.mem_true, exists_eq_left, Finset.union_empty]
  have : ((sorted (c.filterMap (fun item => lookup item uni.itemIndex))).reverse).toFinset =
      (c.filterMap (fun item => lookup item uni.itemIndex)).toFinset := by
    ext i; simp
  rw [this]

theorem den_foldUnion (ts : List (Tree T)) (t0 : Tree T) (s : Finset Nat) :
    s ∈ (ts.foldl (fun root next => root.union next) t0).root.Den ↔
      s ∈ t0.root.Den ∨ ∃ t ∈ ts, s ∈ t.root.Den := by
  induction ts generalizing t0 with
  | nil => simp
  | cons a ts ih => rw [List.foldl_cons, ih, Tree.union, Node.mem_union]; simp [or_assoc]

theorem univ_foldUnion (ts : List (Tree T)) (t0 : Tree T) :
    (ts.foldl (fun root next => root.union next) t0).univ = t0.univ := by
  induction ts generalizing t0 with
  | nil => rfl
  | cons a ts ih => rw [List.foldl_cons, ih]; rfl

theorem itemsOf_lookup (items c : List T) :
    (Universe.fromVec items).itemsOf (c.filterMap (fun item => lookup item (Universe.fromVec items).itemIndex)).toFinset =
      (c.filter (fun x => x ∈ items)).toFinset := by
  ext x
  rw [Universe.mem_itemsOf]
  simp only [List.mem_toFinset, List.mem_filterMap, List.mem_filter, decide_eq_true_eq]
  constructor
  · rintro ⟨i, ⟨y, hy, e⟩, hi⟩
    have := Universe.index_get e
    rw [show items[i]? = some x from hi] at this
    cases this
    exact ⟨hy, List.mem_of_getElem? hi⟩
  · rintro ⟨hx, hx'⟩
    obtain ⟨i, e⟩ := Universe.index_some.mpr hx'
    exact ⟨i, ⟨x, hx, e⟩, Universe.index_get e⟩

/-! ### ids -/

/-- Every id in the diagram satisfies `P`.  Not code: used to state or prove properties. -/
def Node.Ids (P : Nat → Prop) : Node → Prop
  | .Branch i l h => P i ∧ l.Ids P ∧ h.Ids P
  | .Leaf _ => True

namespace Node

theorem Ids.mono {P Q : Nat → Prop} (h : ∀ i, P i → Q i) {n : Node} (hn : n.Ids P) : n.Ids Q := by
  induction n with
  | Branch i l h' ihl ihh => exact ⟨h i hn.1, ihl hn.2.1, ihh hn.2.2⟩
  | Leaf => trivial

theorem Ids.mem {P : Nat → Prop} {n : Node} (hn : n.Ids P) {s : Finset Nat} (hs : s ∈ n.Den) :
    ∀ i ∈ s, P i := by
  induction n generalizing s with
  | Branch i l h ihl ihh =>
    rcases hs with hs | ⟨t, ht, rfl⟩
    · exact ihl hn.2.1 hs
    · intro j hj
      rcases Finset.mem_insert.mp hj with rfl | hj
      · exact hn.1
      · exact ihh hn.2.2 ht j hj
  | Leaf b =>
    cases b
    · exact absurd hs (by simp [mem_false])
    · rw [mem_true] at hs; subst hs; simp

theorem Ids.finish {P : Nat → Prop} {i : Nat} {l h : Node} (hi : P i) (hl : l.Ids P) (hh : h.Ids P) :
    (finish i l h).Ids P := by
  unfold Node.finish
  split_ifs
  · exact hl
  · exact ⟨hi, hl, hh⟩

theorem Ids.union {P : Nat → Prop} {a b : Node} (ha : a.Ids P) (hb : b.Ids P) : (union a b).Ids P := by
  fun_induction Node.union a b <;> simp_all [Ids, Ids.finish]

theorem Ids.intersect {P : Nat → Prop} {a b : Node} (ha : a.Ids P) (hb : b.Ids P) : (intersect a b).Ids P := by
  fun_induction Node.intersect a b <;> simp_all [Ids, Ids.finish]

theorem Ids.product {P : Nat → Prop} {a b : Node} (ha : a.Ids P) (hb : b.Ids P) : (product a b).Ids P := by
  fun_induction Node.product a b <;> simp_all [Ids, Ids.finish]

theorem Ids.required {P : Nat → Prop} (l : List Nat) (hl : ∀ i ∈ l, P i) (n : Node) (hn : n.Ids P) :
    (l.foldl (fun next id => Node.requiredBranch id next) n).Ids P := by
  induction l generalizing n with
  | nil => exact hn
  | cons i l ih =>
    exact ih (fun j hj => hl j (by simp [hj])) _ ⟨hl i (by simp), trivial, hn⟩

/-- Adding ids in descending order below an ordered diagram. -/
theorem ordered_required (l : List Nat) (hl : l.Pairwise (fun a b => b < a)) (n : Node) (hn : n.Ordered)
    (hne : n ≠ .Leaf false) (hab : ∀ i ∈ l, Above i n) :
    (l.foldl (fun next id => Node.requiredBranch id next) n).Ordered := by
  induction l generalizing n with
  | nil => exact hn
  | cons i l ih =>
    rw [List.foldl_cons]
    refine ih hl.of_cons _ ⟨trivial, hab i (by simp), hne, trivial, hn⟩ (by simp [requiredBranch, branch]) ?_
    intro j hj
    exact (List.pairwise_cons.mp hl).1 j hj

end Node

theorem tree_ids (items c : List T) :
    ((Universe.fromVec items).tree c).root.Ids (Universe.fromVec items).Known := by
  refine Node.Ids.required _ ?_ _ trivial
  intro i hi
  simp only [List.mem_reverse, mem_sorted, List.mem_filterMap] at hi
  obtain ⟨x, _, e⟩ := hi
  exact ⟨x, e⟩

theorem tree_ordered (items c : List T) (hc : c.Nodup) :
    ((Universe.fromVec items).tree c).root.Ordered := by
  refine Node.ordered_required _ ?_ _ trivial (by simp) (fun _ _ => trivial)
  rw [List.pairwise_reverse]
  refine sorted_lt_of_nodup ?_
  refine hc.filterMap ?_
  intro a b i ha hb
  exact Universe.index_inj ha hb

end Verif.Zdd1
