import Verif.Zdd2.Forest
import Verif.Zdd2.NodeSubset
import Verif.Zdd2.NodeProduct
import Verif.Zdd2.Spec
import Verif.Matrix.Props

/-! Helper lemmas about zdd2 forests. -/

set_option linter.unusedSimpArgs false
set_option linter.unusedSectionVars false
set_option linter.unusedVariables false

namespace Verif.Zdd2
open Verif Verif.Spec Verif.Zdd2.Spec

universe u
variable {T : Type u} [LinearOrder T]

namespace Universe

/-- The priority of a known item.  Not code: used to state or prove properties. -/
def prio (u : Universe T) (x : T) : Nat := (u.getPriority x).getD 0

theorem getPriority_prio {u : Universe T} (hu : u.Ok) {x : T} (hx : x ∈ u.index) :
    u.getPriority x = some (u.prio x) := by
  have := (getPriority_isSome hu).mpr hx
  obtain ⟨k, hk⟩ := Option.isSome_iff_exists.mp this
  simp [prio, hk]

theorem getItem_prio {u : Universe T} (hu : u.Ok) {x : T} (hx : x ∈ u.index) :
    u.getItem (u.prio x) = some x := (getPriority_iff hu).mp (getPriority_prio hu hx)

theorem prio_of_getItem {u : Universe T} (hu : u.Ok) {x : T} {k : Nat} (h : u.getItem k = some x) :
    u.prio x = k := by simp [prio, (getPriority_iff hu).mpr h]

theorem mem_of_getItem {u : Universe T} {x : T} {k : Nat} (h : u.getItem k = some x) :
    x ∈ u.index := List.mem_of_getElem? h

theorem prio_inj {u : Universe T} (hu : u.Ok) {x y : T} (hx : x ∈ u.index) (hy : y ∈ u.index)
    (h : u.prio x = u.prio y) : x = y := by
  have h1 := getItem_prio hu hx
  rw [h, getItem_prio hu hy] at h1
  exact (Option.some.inj h1).symm

/-- All items of `S` are known.  Not code: used to state or prove properties. -/
def Known (u : Universe T) (S : Finset T) : Prop := ∀ x ∈ S, x ∈ u.index

theorem mem_image_prio {u : Universe T} (hu : u.Ok) {S : Finset T} (hS : u.Known S) {x : T}
    (hx : x ∈ u.index) : u.prio x ∈ S.image u.prio ↔ x ∈ S := by
  rw [Finset.mem_image]
  constructor
  · rintro ⟨y, hy, e⟩; rwa [← prio_inj hu (hS y hy) hx e]
  · intro h; exact ⟨x, h, rfl⟩

theorem image_prio_inj {u : Universe T} (hu : u.Ok) {S S' : Finset T} (hS : u.Known S)
    (hS' : u.Known S') (h : S.image u.prio = S'.image u.prio) : S = S' := by
  ext x
  constructor
  · intro hx; rw [← mem_image_prio hu hS' (hS x hx), ← h]; exact Finset.mem_image_of_mem _ hx
  · intro hx; rw [← mem_image_prio hu hS (hS' x hx), h]; exact Finset.mem_image_of_mem _ hx

theorem image_prio_subset {u : Universe T} (hu : u.Ok) {S S' : Finset T} (hS : u.Known S)
    (hS' : u.Known S') : S.image u.prio ⊆ S'.image u.prio ↔ S ⊆ S' := by
  constructor
  · intro h x hx
    rw [← mem_image_prio hu hS' (hS x hx)]; exact h (Finset.mem_image_of_mem _ hx)
  · exact Finset.image_subset_image

theorem image_prio_ssubset {u : Universe T} (hu : u.Ok) {S S' : Finset T} (hS : u.Known S)
    (hS' : u.Known S') : S.image u.prio ⊂ S'.image u.prio ↔ S ⊂ S' := by
  rw [Finset.ssubset_def, Finset.ssubset_def, image_prio_subset hu hS hS', image_prio_subset hu hS' hS]

theorem toFinset_priorities {u : Universe T} (hu : u.Ok) {l : List T} (hl : ∀ x ∈ l, x ∈ u.index) :
    (l.filterMap u.getPriority).toFinset = l.toFinset.image u.prio := by
  ext k
  simp only [List.mem_toFinset, List.mem_filterMap, Finset.mem_image]
  constructor
  · rintro ⟨x, hx, e⟩
    exact ⟨x, hx, by simp [prio, e]⟩
  · rintro ⟨x, hx, rfl⟩
    exact ⟨x, hx, getPriority_prio hu (hl x hx)⟩

/-- The sets of items a diagram stands for in a universe.  Not code: used to state or prove properties. -/
def Fam (u : Universe T) (n : Node) : Set (Finset T) :=
  {S | u.Known S ∧ S.image u.prio ∈ n.Den}

/-- All ids of the diagram are known.  Not code: used to state or prove properties. -/
def InU (u : Universe T) (n : Node) : Prop := ∀ s ∈ n.Den, ∀ k ∈ s, k < u.index.length

theorem exists_items {u : Universe T} (hu : u.Ok) {s : Finset Nat} (hs : ∀ k ∈ s, k < u.index.length) :
    ∃ S : Finset T, u.Known S ∧ S.image u.prio = s := by
  refine ⟨(u.index.filter (fun x => u.prio x ∈ s)).toFinset, ?_, ?_⟩
  · intro x hx
    simp at hx; exact hx.1
  · ext k
    simp only [Finset.mem_image, List.mem_toFinset, List.mem_filter, decide_eq_true_eq]
    constructor
    · rintro ⟨x, ⟨_, h⟩, rfl⟩; exact h
    · intro hk
      have hlt := hs k hk
      have hg : u.getItem k = some u.index[k] := List.getElem?_eq_getElem hlt
      exact ⟨u.index[k], ⟨List.getElem_mem hlt, by rwa [prio_of_getItem hu hg]⟩, prio_of_getItem hu hg⟩

/-- Two diagrams over the same universe with the same item sets have the same id sets. -/
theorem den_of_fam {u : Universe T} (hu : u.Ok) {n m : Node} (hn : u.InU n) (hm : u.InU m)
    (h : u.Fam n = u.Fam m) : n.Den = m.Den := by
  ext s
  constructor
  · intro hs
    obtain ⟨S, hS, rfl⟩ := exists_items hu (hn s hs)
    have : S ∈ u.Fam n := ⟨hS, hs⟩
    rw [h] at this; exact this.2
  · intro hs
    obtain ⟨S, hS, rfl⟩ := exists_items hu (hm s hs)
    have : S ∈ u.Fam m := ⟨hS, hs⟩
    rw [← h] at this; exact this.2

theorem items_of_path {u : Universe T} (hu : u.Ok) {p : List Nat} (hp : p.Nodup)
    (hk : ∀ k ∈ p, k < u.index.length) :
    (u.getItems p).Pairwise (· < ·) ∧ u.Known (u.getItems p).toFinset ∧
      (u.getItems p).toFinset.image u.prio = p.toFinset := by
  have hmem : ∀ x, x ∈ u.getItems p ↔ ∃ k ∈ p, u.getItem k = some x := by
    intro x; simp [getItems]
  refine ⟨?_, ?_, ?_⟩
  · apply sorted_lt_of_nodup
    refine List.Nodup.filterMap ?_ hp
    intro a b x ha hb
    have h1 := prio_of_getItem hu (Option.mem_def.mp ha)
    have h2 := prio_of_getItem hu (Option.mem_def.mp hb)
    omega
  · intro x hx
    rw [List.mem_toFinset, hmem] at hx
    obtain ⟨k, _, h⟩ := hx
    exact mem_of_getItem h
  · ext k
    simp only [Finset.mem_image, List.mem_toFinset, hmem]
    constructor
    · rintro ⟨x, ⟨j, hj, h⟩, rfl⟩; rwa [prio_of_getItem hu h]
    · intro hkp
      have hlt := hk k hkp
      have hg : u.getItem k = some u.index[k] := List.getElem?_eq_getElem hlt
      exact ⟨u.index[k], ⟨k, hkp, hg⟩, prio_of_getItem hu hg⟩

/-- Reading a diagram back as lists of items. -/
theorem trees_map {u : Universe T} (hu : u.Ok) {n : Node} (on : n.Ordered) (hn : u.InU n) :
    (∀ l ∈ (Node.trees n).map (fun set => u.getItems set), l.Pairwise (· < ·)) ∧
    ((Node.trees n).map (fun set => u.getItems set)).Nodup ∧
    family ((Node.trees n).map (fun set => u.getItems set)) = u.Fam n := by
  rw [Node.trees_eq]
  have hin : ∀ p ∈ n.paths, ∀ k ∈ p, k < u.index.length := by
    intro p hp k hk
    exact hn p.toFinset (Node.mem_paths_den.mpr ⟨p, hp, rfl⟩) k (by simpa using hk)
  have hnd : ∀ p ∈ n.paths, p.Nodup := fun p hp => nodup_of_lt (Node.paths_lt on hp)
  refine ⟨?_, ?_, ?_⟩
  · intro l hl
    obtain ⟨p, hp, rfl⟩ := List.mem_map.mp hl
    exact (items_of_path hu (hnd p hp) (hin p hp)).1
  · refine List.Nodup.map_on ?_ (Node.paths_nodup on)
    intro p hp q hq e
    have h1 := (items_of_path hu (hnd p hp) (hin p hp)).2.2
    have h2 := (items_of_path hu (hnd q hq) (hin q hq)).2.2
    rw [e, h2] at h1
    exact toFinset_inj_of_lt (Node.paths_lt on hp) (Node.paths_lt on hq) h1.symm
  · ext S
    simp only [family, List.mem_map, Set.mem_ofPred_eq, Fam]
    constructor
    · rintro ⟨l, ⟨p, hp, rfl⟩, rfl⟩
      obtain ⟨_, h2, h3⟩ := items_of_path hu (hnd p hp) (hin p hp)
      exact ⟨h2, by rw [h3]; exact Node.mem_paths_den.mpr ⟨p, hp, rfl⟩⟩
    · rintro ⟨hS, hd⟩
      obtain ⟨p, hp, e⟩ := Node.mem_paths_den.mp hd
      obtain ⟨_, h2, h3⟩ := items_of_path hu (hnd p hp) (hin p hp)
      exact ⟨_, ⟨p, hp, rfl⟩, image_prio_inj hu h2 hS (by rw [h3, e])⟩

/-! ### `from_matrix` -/

/-- Distinct input sets.  Not code: used to state or prove properties. -/
def distinct (m : List (List T)) : List (List T) := uniq (m.map filterRepeats)

theorem mem_distinct {m : List (List T)} {l : List T} :
    l ∈ distinct m ↔ ∃ x ∈ m, filterRepeats x = l := by simp [distinct]

theorem nodup_distinct (m : List (List T)) : (distinct m).Nodup := nodup_uniq _

theorem lookup_matrix (m : List (List T)) (x : T) :
    lookup x (fromMatrix m).occurrences =
      if (∃ l ∈ m, x ∈ l) then some ((distinct m).filter (fun l => decide (x ∈ l))).length else none := by
  have h1 : (fromMatrix m).occurrences = countMap (distinct m).flatten := rfl
  rw [h1, lookup_countMap, Matrix.count_flatten_of_lt]
  · congr 1
    simp [List.mem_flatten, mem_distinct]
  · intro l hl
    obtain ⟨y, _, rfl⟩ := mem_distinct.mp hl
    exact filterRepeats_lt y

theorem mem_index_matrix (m : List (List T)) (x : T) : x ∈ (fromMatrix m).index ↔ ∃ l ∈ m, x ∈ l := by
  rw [mem_index (ok_fromMatrix m)]
  have := lookup_matrix m x
  by_cases h : ∃ l ∈ m, x ∈ l
  · simp only [h, if_true, iff_true] at this ⊢
    by_contra hn
    rw [← lookup_eq_none, this] at hn
    exact absurd hn (by simp)
  · simp only [h, if_false, iff_false] at this ⊢
    rwa [lookup_eq_none] at this

theorem filter_distinct_perm {m m' : List (List T)}
    (h : nonempty (family m) = nonempty (family m')) (x : T) :
    ((distinct m).filter (fun l => decide (x ∈ l))).Perm
      ((distinct m').filter (fun l => decide (x ∈ l))) := by
  rw [List.perm_ext_iff_of_nodup ((nodup_distinct _).filter _) ((nodup_distinct _).filter _)]
  have key : ∀ {m m' : List (List T)}, nonempty (family m) ⊆ nonempty (family m') → ∀ l,
      l ∈ (distinct m).filter (fun l => decide (x ∈ l)) →
      l ∈ (distinct m').filter (fun l => decide (x ∈ l)) := by
    intro m m' h l hl
    simp only [List.mem_filter, decide_eq_true_eq, mem_distinct] at hl ⊢
    obtain ⟨⟨y, hy, rfl⟩, hx⟩ := hl
    rw [mem_filterRepeats] at hx
    have : y.toFinset ∈ nonempty (family m) := ⟨⟨y, hy, rfl⟩, ⟨x, by simpa using hx⟩⟩
    obtain ⟨⟨z, hz, e⟩, _⟩ := h this
    refine ⟨⟨z, hz, ?_⟩, by simpa using hx⟩
    rwa [filterRepeats_eq_iff_toFinset]
  intro l
  exact ⟨key h.subset l, key h.superset l⟩

theorem fromMatrix_congr {m m' : List (List T)}
    (h : nonempty (family m) = nonempty (family m')) : fromMatrix m = fromMatrix m' := by
  refine Ok.ext (ok_fromMatrix m) (ok_fromMatrix m') ?_
  refine smap_ext (ok_fromMatrix m).1 (ok_fromMatrix m').1 (fun x => ?_)
  rw [lookup_matrix, lookup_matrix, (filter_distinct_perm h x).length_eq]
  have key : ∀ {m m' : List (List T)}, nonempty (family m) ⊆ nonempty (family m') →
      (∃ l ∈ m, x ∈ l) → (∃ l ∈ m', x ∈ l) := by
    rintro m m' h ⟨l, hl, hx⟩
    have : l.toFinset ∈ nonempty (family m) := ⟨⟨l, hl, rfl⟩, ⟨x, by simpa using hx⟩⟩
    obtain ⟨⟨z, hz, e⟩, _⟩ := h this
    exact ⟨z, hz, by rw [← List.mem_toFinset, e]; simpa using hx⟩
  have : (∃ l ∈ m, x ∈ l) ↔ (∃ l ∈ m', x ∈ l) := ⟨key h.subset, key h.superset⟩
  by_cases hx : ∃ l ∈ m, x ∈ l
  · rw [if_pos hx, if_pos (this.mp hx)]
  · rw [if_neg hx, if_neg (fun h => hx (this.mpr h))]

/-- Counts of `from_matrix` are counts in the family. -/
theorem count_matrix (m : List (List T)) (x : T) :
    (fromMatrix m).count x = Spec.count (nonempty (family m)) x := by
  have hset : having (nonempty (family m)) x =
      ((((distinct m).filter (fun l => decide (x ∈ l))).map List.toFinset).toFinset : Finset (Finset T)) := by
    ext S
    simp only [having, nonempty, Set.mem_ofPred_eq, family, Finset.mem_coe, List.mem_toFinset,
      List.mem_map, List.mem_filter, decide_eq_true_eq, mem_distinct]
    constructor
    · rintro ⟨⟨⟨l, hl, rfl⟩, _⟩, hx⟩
      exact ⟨_, ⟨⟨l, hl, rfl⟩, by simpa using hx⟩, by simp⟩
    · rintro ⟨_, ⟨⟨l, hl, rfl⟩, hx⟩, rfl⟩
      rw [mem_filterRepeats] at hx
      exact ⟨⟨⟨l, hl, by simp⟩, ⟨x, by simpa using hx⟩⟩, by simpa using hx⟩
  have hcard : Spec.count (nonempty (family m)) x = ((distinct m).filter (fun l => decide (x ∈ l))).length := by
    rw [Spec.count, hset, Set.ncard_coe_finset, List.toFinset_card_of_nodup, List.length_map]
    refine List.Nodup.map_on ?_ ((nodup_distinct _).filter _)
    intro a ha b hb e
    have ha' := (List.mem_filter.mp ha).1
    have hb' := (List.mem_filter.mp hb).1
    rw [mem_distinct] at ha' hb'
    obtain ⟨y, _, rfl⟩ := ha'
    obtain ⟨z, _, rfl⟩ := hb'
    exact toFinset_inj_of_lt (filterRepeats_lt _) (filterRepeats_lt _) e
  rw [hcard, count, lookup_matrix]
  split_ifs with h
  · rfl
  · simp only [Option.getD_none]
    symm
    rw [List.length_eq_zero_iff, List.filter_eq_nil_iff]
    intro l hl hx
    obtain ⟨y, hy, rfl⟩ := mem_distinct.mp hl
    simp at hx
    exact h ⟨y, hy, hx⟩

end Universe

namespace Forest
open Universe

/-! ### `many` -/

theorem many_root (m : List (List T)) :
    (many m).root.Ordered ∧ ∀ s, s ∈ (many m).root.Den ↔
      ∃ l ∈ m, l ≠ [] ∧ s = l.toFinset.image (fromMatrix m).prio := by
  have hu := ok_fromMatrix m
  have hnode : ∀ l, ((fromMatrix m).getPrioritiesNode l).Ordered ∧
      ((fromMatrix m).getPrioritiesNode l).Den =
        if l.length == 0 then ∅ else {(l.filterMap (fromMatrix m).getPriority).toFinset} :=
    fun l => Node.fromIter_ok _ _
  obtain ⟨h1, h2⟩ := Node.union_fold (m.map (fun items => (fromMatrix m).getPrioritiesNode items))
    .Never trivial (by
      intro n hn
      obtain ⟨l, _, rfl⟩ := List.mem_map.mp hn
      exact (hnode l).1)
  refine ⟨h1, fun s => ?_⟩
  rw [many, h2]
  simp only [Node.Den, Set.mem_empty_iff_false, false_or, List.mem_map, exists_exists_and_eq_and]
  have hk : ∀ l ∈ m, ∀ x ∈ l, x ∈ (fromMatrix m).index := fun l hl x hx =>
    (mem_index_matrix m x).mpr ⟨l, hl, hx⟩
  constructor
  · rintro ⟨l, hl, hs⟩
    rw [(hnode l).2] at hs
    cases l with
    | nil => simp at hs
    | cons a l =>
      simp only [List.length_cons, Nat.add_eq_zero_iff, one_ne_zero, and_false, beq_iff_eq,
        if_false, Set.mem_singleton_iff] at hs
      refine ⟨a :: l, hl, by simp, ?_⟩
      rw [hs, toFinset_priorities hu (hk _ hl)]
  · rintro ⟨l, hl, hne, rfl⟩
    refine ⟨l, hl, ?_⟩
    rw [(hnode l).2]
    cases l with
    | nil => exact absurd rfl hne
    | cons a l =>
      simp only [List.length_cons, Nat.add_eq_zero_iff, one_ne_zero, and_false, beq_iff_eq,
        if_false, Set.mem_singleton_iff]
      rw [toFinset_priorities hu (hk _ hl)]

theorem many_univ (m : List (List T)) : (many m).univ = fromMatrix m := rfl

theorem many_inU (m : List (List T)) : (many m).univ.InU (many m).root := by
  intro s hs k hk
  obtain ⟨l, hl, _, rfl⟩ := ((many_root m).2 s).mp hs
  obtain ⟨x, hx, rfl⟩ := Finset.mem_image.mp hk
  have hx' : x ∈ (fromMatrix m).index := (mem_index_matrix m x).mpr ⟨l, hl, by simpa using hx⟩
  have := getItem_prio (ok_fromMatrix m) hx'
  rw [getItem] at this
  exact (List.getElem?_eq_some_iff.mp this).1

theorem many_fam (m : List (List T)) : (many m).univ.Fam (many m).root = nonempty (family m) := by
  have hu := ok_fromMatrix m
  ext S
  simp only [Fam, Set.mem_ofPred_eq, nonempty, family, (many_root m).2]
  constructor
  · rintro ⟨hS, l, hl, hne, e⟩
    have hk : (fromMatrix m).Known l.toFinset := fun x hx =>
      (mem_index_matrix m x).mpr ⟨l, hl, by simpa using hx⟩
    have := image_prio_inj hu hS hk e
    subst this
    exact ⟨⟨l, hl, rfl⟩, by simpa [List.toFinset_nonempty_iff] using hne⟩
  · rintro ⟨⟨l, hl, rfl⟩, hne⟩
    refine ⟨fun x hx => (mem_index_matrix m x).mpr ⟨l, hl, by simpa using hx⟩, l, hl, ?_, rfl⟩
    simpa [List.toFinset_nonempty_iff] using hne

theorem many_trees (m : List (List T)) :
    (∀ l ∈ (many m).trees, l.Pairwise (· < ·)) ∧ (many m).trees.Nodup ∧
      family (many m).trees = nonempty (family m) := by
  obtain ⟨h1, h2, h3⟩ := trees_map (ok_fromMatrix m) (many_root m).1 (many_inU m)
  exact ⟨h1, h2, h3.trans (many_fam m)⟩

theorem nonempty_nonempty (A : Set (Finset T)) : nonempty (nonempty A) = nonempty A := by
  ext s; simp [nonempty]

theorem many_congr {m m' : List (List T)} (h : nonempty (family m) = nonempty (family m')) :
    many m = many m' := by
  have hu := fromMatrix_congr h
  have hr : (many m).root = (many m').root := by
    refine Node.den_inj (many_root m).1 (many_root m').1 ?_
    refine den_of_fam (ok_fromMatrix m) (many_inU m) (by rw [hu]; exact many_inU m') ?_
    have h1 := many_fam m
    have h2 := many_fam m'
    rw [many_univ m] at h1
    rw [many_univ, ← hu] at h2
    rw [h1, h2, h]
  have e : ∀ f g : Forest T, f.root = g.root → f.univ = g.univ → f = g := by
    rintro ⟨_, _⟩ ⟨_, _⟩ h1 h2; simp_all
  exact e _ _ hr hu

/-- A forest as the API builds them.  Not code: used to state or prove properties. -/
def Canon (f : Forest T) : Prop := ∃ m, f = many m

/-- The members of a forest.  Not code: used to state or prove properties. -/
abbrev fam (f : Forest T) : Set (Finset T) := family f.trees

theorem Canon.ok {f : Forest T} (h : f.Canon) : f.univ.Ok := by
  obtain ⟨m, rfl⟩ := h; exact ok_fromMatrix m
theorem Canon.ordered {f : Forest T} (h : f.Canon) : f.root.Ordered := by
  obtain ⟨m, rfl⟩ := h; exact (many_root m).1
theorem Canon.inU {f : Forest T} (h : f.Canon) : f.univ.InU f.root := by
  obtain ⟨m, rfl⟩ := h; exact many_inU m
theorem Canon.fam {f : Forest T} (h : f.Canon) : f.univ.Fam f.root = f.fam :=
  (trees_map h.ok h.ordered h.inU).2.2.symm
theorem Canon.fam_nonempty {f : Forest T} (h : f.Canon) {s : Finset T} (hs : s ∈ f.fam) :
    s.Nonempty := by
  obtain ⟨m, rfl⟩ := h
  rw [Forest.fam, (many_trees m).2.2] at hs
  exact hs.2
theorem Canon.nonempty_fam {f : Forest T} (h : f.Canon) : nonempty f.fam = f.fam := by
  ext s; exact ⟨fun h => h.1, fun hs => ⟨hs, h.fam_nonempty hs⟩⟩
theorem Canon.ne_always {f : Forest T} (h : f.Canon) : f.root ≠ .Always := by
  intro e
  have : (∅ : Finset T) ∈ f.fam := by
    rw [← h.fam]; exact ⟨fun x hx => absurd hx (by simp), by rw [e]; simp [Node.Den]⟩
  exact absurd (h.fam_nonempty this) (by simp)
theorem Canon.eq_of_fam {f g : Forest T} (hf : f.Canon) (hg : g.Canon) (h : f.fam = g.fam) :
    f = g := by
  obtain ⟨m, rfl⟩ := hf
  obtain ⟨m', rfl⟩ := hg
  rw [Forest.fam, Forest.fam, (many_trees m).2.2, (many_trees m').2.2] at h
  exact many_congr h
theorem Canon.count {f : Forest T} (h : f.Canon) (x : T) : f.univ.count x = Spec.count f.fam x := by
  obtain ⟨m, rfl⟩ := h
  rw [Forest.fam, (many_trees m).2.2, many_univ, count_matrix]
theorem Canon.mem_index {f : Forest T} (h : f.Canon) (x : T) :
    x ∈ f.univ.index ↔ ∃ s ∈ f.fam, x ∈ s := by
  obtain ⟨m, rfl⟩ := h
  rw [Forest.fam, (many_trees m).2.2, many_univ, mem_index_matrix]
  constructor
  · rintro ⟨l, hl, hx⟩; exact ⟨l.toFinset, ⟨⟨l, hl, rfl⟩, x, by simpa using hx⟩, by simpa using hx⟩
  · rintro ⟨_, ⟨⟨l, hl, rfl⟩, _⟩, hx⟩; exact ⟨l, hl, by simpa using hx⟩

theorem canon_many (m : List (List T)) : (many m).Canon := ⟨m, rfl⟩
theorem canon_canonical (n : Node) (u : Universe T) : (canonical n u).Canon := ⟨_, rfl⟩

theorem fam_canonical {n : Node} {u : Universe T} (hu : u.Ok) (on : n.Ordered) (hn : u.InU n) :
    (canonical n u).fam = nonempty (u.Fam n) := by
  rw [Forest.fam, canonical, (many_trees _).2.2, (trees_map hu on hn).2.2]

/-! ### other constructors -/

theorem empty_eq : (empty : Forest T) = many [] := rfl

theorem fromItems_unit (items : List T) : fromItems items = fromMatrix [items] := by
  refine Ok.ext (ok_fromItems _) (ok_fromMatrix _) (smap_ext (ok_fromItems _).1 (ok_fromMatrix _).1
    (fun x => ?_))
  rw [lookup_matrix]
  have := (items_fold items [] List.Pairwise.nil).2 x
  have e : lookup x (fromItems items).occurrences = _ := this
  rw [e]
  by_cases hx : x ∈ items <;> simp [hx, distinct, uniq, lookup]

theorem union_never_left (n : Node) : Node.union .Never n = n := by
  unfold Node.union
  cases n <;> simp

theorem unit_eq (items : List T) : unit items = many [items] := by
  simp only [unit, many, fromItems_unit, List.map_cons, List.map_nil, List.foldl_cons,
    List.foldl_nil, union_never_left]

theorem fromItems_unique (set : List T) : fromItems set = fromMatrix (set.map (fun x => [x])) := by
  refine Ok.ext (ok_fromItems _) (ok_fromMatrix _) (smap_ext (ok_fromItems _).1 (ok_fromMatrix _).1
    (fun x => ?_))
  rw [lookup_matrix]
  have := (items_fold set [] List.Pairwise.nil).2 x
  have e : lookup x (fromItems set).occurrences = _ := this
  rw [e]
  by_cases hx : x ∈ set
  · have h1 : ∃ l ∈ set.map (fun x => [x]), x ∈ l := ⟨[x], by simp [hx], by simp⟩
    rw [if_pos hx, if_pos h1]
    have : (distinct (set.map (fun x => [x]))).filter (fun l => decide (x ∈ l)) = [[x]] := by
      apply List.Perm.eq_singleton
      rw [List.perm_ext_iff_of_nodup ((nodup_distinct _).filter _) (by simp)]
      intro l
      simp only [List.mem_filter, decide_eq_true_eq, mem_distinct, List.mem_map, List.mem_singleton]
      constructor
      · rintro ⟨⟨_, ⟨y, hy, rfl⟩, rfl⟩, hxl⟩
        simp at hxl; subst hxl; exact filterRepeats_of_lt (by simp)
      · rintro rfl
        exact ⟨⟨_, ⟨x, hx, rfl⟩, filterRepeats_of_lt (by simp)⟩, by simp⟩
    rw [this]; rfl
  · have h1 : ¬ ∃ l ∈ set.map (fun x => [x]), x ∈ l := by
      rintro ⟨l, hl, hxl⟩
      obtain ⟨y, hy, rfl⟩ := List.mem_map.mp hl
      simp at hxl; subst hxl; exact hx hy
    rw [if_neg hx, if_neg h1]; rfl

theorem unique_eq (set : List T) : unique set = many (set.map (fun x => [x])) := by
  have hu := fromItems_unique set
  have e : ∀ f g : Forest T, f.root = g.root → f.univ = g.univ → f = g := by
    rintro ⟨_, _⟩ ⟨_, _⟩ h1 h2; simp_all
  refine e _ _ ?_ hu
  obtain ⟨h1, h2⟩ := Node.unique_fold ((fromItems set).getPriorities set) .Never ∅ trivial
    (by intro s; simp [Node.Den])
  refine Node.den_inj h1 (many_root _).1 ?_
  ext s
  rw [(many_root _).2]
  rw [show (unique set).root.Den = ((((fromItems set).getPriorities set)).foldl
    (fun root item => Node.branch item root .Always) .Never).Den from rfl, h2]
  have hk : ∀ x ∈ set, x ∈ (fromItems set).index := by
    intro x hx; rw [hu, mem_index_matrix]; exact ⟨[x], by simp [hx], by simp⟩
  have hk' := toFinset_priorities (ok_fromItems set) hk
  have hm : ∀ a, a ∈ (fromItems set).getPriorities set ↔ ∃ x ∈ set, (fromItems set).prio x = a := by
    intro a
    rw [getPriorities, ← List.mem_toFinset, hk']; simp
  simp only [Set.mem_empty_iff_false, false_or, hm, List.mem_map]
  rw [hu]
  constructor
  · rintro ⟨_, ⟨x, hx, rfl⟩, rfl⟩; exact ⟨[x], ⟨x, hx, rfl⟩, by simp, by simp⟩
  · rintro ⟨_, ⟨x, hx, rfl⟩, _, rfl⟩; exact ⟨_, ⟨x, hx, rfl⟩, by simp⟩

end Forest
end Verif.Zdd2
