import Mathlib.Data.Set.Card
import Verif.Matrix.Props

/-!
# Matrix lengths add up (C113)

`len` read as the number of members, across the operations.
-/

namespace Verif.Matrix
open Verif Verif.Spec

universe u
variable {T : Type u} [LinearOrder T]

/-- `len` is the number of members, and there are finitely many. -/
theorem len_ncard (h : HashOrder (List T)) {f : Forest T} (hf : Reach f) :
    (family (f.trees h)).Finite ∧ f.len = (family (f.trees h)).ncard := by
  obtain ⟨S, h1, h2⟩ := len_exact h hf
  have e : family (f.trees h) = ↑S := Set.ext fun s => by rw [Finset.mem_coe, h1]
  rw [e]
  exact ⟨S.finite_toSet, by rw [Set.ncard_coe_finset, h2]⟩

/-- C113: inclusion and exclusion: the lengths of the union and the intersection together are the lengths of
the two forests. -/
theorem len_union_intersect (h1 h2 : HashOrder (List T)) {f g : Forest T} (hf : Reach f) (hg : Reach g) :
    (Forest.union h1 f g).len + (Forest.intersect h2 f g).len = f.len + g.len := by
  obtain ⟨p, hp⟩ := hf
  obtain ⟨q, hq⟩ := hg
  rw [(len_ncard h1 ⟨_, .union h1 hp hq⟩).2, (len_ncard h1 ⟨_, .intersect h2 hp hq⟩).2,
    (len_ncard h1 ⟨_, hp⟩).2, (len_ncard h1 ⟨_, hq⟩).2, union_family h1 h1 ⟨_, hp⟩ ⟨_, hq⟩,
    intersect_family h2 h1 ⟨_, hp⟩ ⟨_, hq⟩]
  exact Set.ncard_union_add_ncard_inter _ _ (len_ncard h1 ⟨_, hp⟩).1 (len_ncard h1 ⟨_, hq⟩).1

/-- C113: the two sides of a split by an item add up; the one side is as long as `occurrences` says, and is
empty if the item is not listed. -/
theorem len_split (h1 h2 h3 : HashOrder (List T)) (mo : HashOrder (T × ℕ)) {f : Forest T} (hf : Reach f)
    (x : T) :
    (Forest.subset h1 f x).len + (Forest.subsetNot h2 f x).len = f.len ∧
    (∀ n, (x, n) ∈ f.occurrences h3 mo → n = (Forest.subset h1 f x).len ∧ 0 < n) ∧
    ((∀ n, (x, n) ∉ f.occurrences h3 mo) → (Forest.subset h1 f x).len = 0) := by
  obtain ⟨p, hp⟩ := hf
  have hs : (Forest.subset h1 f x).len = ((f.trees h1).filter (fun l => decide (x ∈ l))).length := by
    rw [(len_ncard h1 ⟨_, .subset h1 x hp⟩).2, subset_family h1 h1 ⟨_, hp⟩]
    have hn : (((f.trees h1).filter (fun l => decide (x ∈ l))).map List.toFinset).Nodup := by
      refine List.Nodup.map_on ?_ ((trees_nodup h1 f).filter _)
      intro a ha b hb e
      have ht := (trees_exact h1 ⟨_, hp⟩).1
      exact toFinset_inj_of_lt (ht a (List.mem_filter.1 ha).1) (ht b (List.mem_filter.1 hb).1) e
    have e : having (family (f.trees h1)) x =
        ↑(((f.trees h1).filter (fun l => decide (x ∈ l))).map List.toFinset).toFinset := by
      ext s
      simp only [having, family, Set.mem_ofPred_eq, Finset.mem_coe, List.mem_toFinset, List.mem_map,
        List.mem_filter, decide_eq_true_eq]
      constructor
      · rintro ⟨⟨l, hl, rfl⟩, hx⟩; exact ⟨l, ⟨hl, by simpa using hx⟩, rfl⟩
      · rintro ⟨l, ⟨hl, hx⟩, rfl⟩; exact ⟨⟨l, hl, rfl⟩, by simpa using hx⟩
    rw [e, Set.ncard_coe_finset, List.toFinset_card_of_nodup hn, List.length_map]
  refine ⟨?_, ?_, ?_⟩
  · rw [(len_ncard h1 ⟨_, .subset h1 x hp⟩).2, (len_ncard h1 ⟨_, .subsetNot h2 x hp⟩).2,
      (len_ncard h1 ⟨_, hp⟩).2, subset_family h1 h1 ⟨_, hp⟩, subsetNot_family h2 h1 ⟨_, hp⟩]
    have fin := (len_ncard h1 ⟨_, hp⟩).1
    rw [← Set.ncard_union_eq (by rw [Set.disjoint_left]; rintro s ⟨_, h⟩ ⟨_, h'⟩; exact h' h)
      (fin.subset fun s hs => hs.1) (fin.subset fun s hs => hs.1)]
    congr 1
    ext s; simp only [having, without, Set.mem_union, Set.mem_ofPred_eq]; tauto
  · intro n hn
    obtain ⟨⟨l, hl, hx⟩, e⟩ := ((occurrences_exact h3 h1 mo ⟨_, hp⟩).2 x n).1 hn
    refine ⟨by rw [e, hs], ?_⟩
    rw [e]
    exact List.length_pos_of_mem (List.mem_filter.2 ⟨hl, by simpa using hx⟩)
  · intro hn
    rw [hs, List.length_eq_zero_iff, List.filter_eq_nil_iff]
    intro l hl hx
    exact hn _ (((occurrences_exact h3 h1 mo ⟨_, hp⟩).2 x _).2 ⟨⟨l, hl, by simpa using hx⟩, rfl⟩)

/-- C113: a product is at most as long as the lengths multiplied, and exactly so when no item is in members of
both forests; it has a member iff both have. -/
theorem len_product (h1 h2 h' : HashOrder (List T)) {f g : Forest T} (hf : Reach f) (hg : Reach g) :
    (Forest.product h1 h2 f g).len ≤ f.len * g.len ∧
    ((Forest.product h1 h2 f g).len = 0 ↔ f.len = 0 ∨ g.len = 0) ∧
    ((∀ s ∈ family (f.trees h'), ∀ t ∈ family (g.trees h'), Disjoint s t) →
      (Forest.product h1 h2 f g).len = f.len * g.len) := by
  obtain ⟨p, hp⟩ := hf
  obtain ⟨q, hq⟩ := hg
  obtain ⟨A, hA, eA⟩ := len_exact h' ⟨_, hp⟩
  obtain ⟨B, hB, eB⟩ := len_exact h' ⟨_, hq⟩
  obtain ⟨P, hP, eP⟩ := len_exact h' ⟨_, .product h1 h2 hp hq⟩
  have e : P = (A ×ˢ B).image (fun ab => ab.1 ∪ ab.2) := by
    ext s
    rw [hP, product_family h1 h2 h' ⟨_, hp⟩ ⟨_, hq⟩]
    simp only [prod, Set.mem_ofPred_eq, Finset.mem_image, Finset.mem_product, Prod.exists, ← hA, ← hB]
    constructor
    · rintro ⟨a, ha, b, hb, rfl⟩; exact ⟨a, b, ⟨ha, hb⟩, rfl⟩
    · rintro ⟨a, b, ⟨ha, hb⟩, rfl⟩; exact ⟨a, ha, b, hb, rfl⟩
  rw [eA, eB, eP, e]
  refine ⟨?_, ?_, ?_⟩
  · rw [← Finset.card_product]; exact Finset.card_image_le
  · rw [Finset.card_eq_zero, Finset.image_eq_empty, Finset.product_eq_empty, Finset.card_eq_zero,
      Finset.card_eq_zero]
  · intro hd
    rw [← Finset.card_product]
    refine Finset.card_image_of_injOn ?_
    rintro ⟨a, b⟩ hab ⟨c, d⟩ hcd e
    simp only [Finset.coe_product, Set.mem_prod, Finset.mem_coe, hA, hB] at hab hcd
    simp only at e
    have h1 := hd a hab.1 d hcd.2
    have h2 := hd c hcd.1 b hab.2
    have key : ∀ {a b c d : Finset T}, a ∪ b = c ∪ d → Disjoint a d → a ⊆ c := by
      intro a b c d e h x hx
      have : x ∈ c ∪ d := e ▸ Finset.mem_union_left _ hx
      exact (Finset.mem_union.1 this).resolve_right (Finset.disjoint_left.1 h hx)
    have e1 : a = c := (key e h1).antisymm (key e.symm h2)
    have e' : b ∪ a = d ∪ c := by rw [Finset.union_comm, e, Finset.union_comm]
    have e2 : b = d := (key e' h2.symm).antisymm (key e'.symm h1.symm)
    rw [e1, e2]

/-- C113: filters and intersect never lengthen, union never shortens. -/
theorem len_mono (h1 : HashOrder (List T)) {f g : Forest T} (hf : Reach f) (hg : Reach g) (xs : List T) :
    f.len ≤ (Forest.union h1 f g).len ∧ (Forest.union h1 f g).len ≤ f.len + g.len ∧
    (Forest.intersect h1 f g).len ≤ f.len ∧
    (Forest.subsetAll h1 f xs).len ≤ f.len ∧ (Forest.subsetNone h1 f xs).len ≤ f.len := by
  have e := len_union_intersect h1 h1 hf hg
  obtain ⟨p, hp⟩ := hf
  obtain ⟨q, hq⟩ := hg
  have fin := (len_ncard h1 ⟨_, hp⟩).1
  have l1 : (Forest.intersect h1 f g).len ≤ f.len := by
    rw [(len_ncard h1 ⟨_, .intersect h1 hp hq⟩).2, (len_ncard h1 ⟨_, hp⟩).2,
      intersect_family h1 h1 ⟨_, hp⟩ ⟨_, hq⟩]
    exact Set.ncard_le_ncard Set.inter_subset_left fin
  have l2 : (Forest.intersect h1 f g).len ≤ g.len := by
    rw [(len_ncard h1 ⟨_, .intersect h1 hp hq⟩).2, (len_ncard h1 ⟨_, hq⟩).2,
      intersect_family h1 h1 ⟨_, hp⟩ ⟨_, hq⟩]
    exact Set.ncard_le_ncard Set.inter_subset_right (len_ncard h1 ⟨_, hq⟩).1
  refine ⟨by omega, by omega, l1, ?_, ?_⟩
  · rw [(len_ncard h1 ⟨_, .subsetAll h1 xs hp⟩).2, (len_ncard h1 ⟨_, hp⟩).2,
      subsetAll_family h1 h1 ⟨_, hp⟩]
    exact Set.ncard_le_ncard (fun s hs => hs.1) fin
  · rw [(len_ncard h1 ⟨_, .subsetNone h1 xs hp⟩).2, (len_ncard h1 ⟨_, hp⟩).2,
      subsetNone_family h1 h1 ⟨_, hp⟩]
    exact Set.ncard_le_ncard (fun s hs => hs.1) fin

/-! ## The hypotheses are met -/

example (h : HashOrder (List ℕ)) :
    (Forest.union h (Forest.many [[1], [2]]) (Forest.unit [2])).len +
      (Forest.intersect h (Forest.many [[1], [2]]) (Forest.unit [2])).len = 2 + 1 :=
  len_union_intersect h h ⟨_, .many _⟩ ⟨_, .unit _⟩
example (h : HashOrder (List ℕ)) (mo : HashOrder (ℕ × ℕ)) :=
  len_split h h h mo (f := Forest.many [[1, 2], [2], [1, 2]]) ⟨_, .many _⟩ 1
/-- `{1},{2}` times `{3},{4}`: four members. -/
example (h : HashOrder (List ℕ)) :
    (Forest.product h h (Forest.many [[1], [2]]) (Forest.many [[3], [4]])).len = 2 * 2 :=
  (len_product h h h (f := Forest.many [[1], [2]]) (g := Forest.many [[3], [4]]) ⟨_, .many _⟩ ⟨_, .many _⟩).2.2
    (by
      rw [many_family, many_family]
      rintro s ⟨l, hl, rfl⟩ t ⟨l', hl', rfl⟩
      simp only [List.mem_cons, List.not_mem_nil, or_false] at hl hl'
      rcases hl with rfl | rfl <;> rcases hl' with rfl | rfl <;> decide)
/-- Where items are shared it can be shorter: `{1},{1,2}` times `{2},{1,2}` has one member. -/
example (h : HashOrder (List ℕ)) :
    (Forest.product h h (Forest.many [[1], [1, 2]]) (Forest.many [[2], [1, 2]])).len < 2 * 2 := by
  refine lt_of_le_of_ne (len_product h h h (f := Forest.many [[1], [1, 2]]) (g := Forest.many [[2], [1, 2]])
    ⟨_, .many _⟩ ⟨_, .many _⟩).1 ?_
  obtain ⟨S, hS, e⟩ := len_exact h (f := Forest.product h h (Forest.many [[1], [1, 2]])
    (Forest.many [[2], [1, 2]])) ⟨_, .product h h (.many _) (.many _)⟩
  rw [e]
  have : S ⊆ {{1, 2}} := by
    intro s hs
    rw [hS, product_family h h h ⟨_, .many _⟩ ⟨_, .many _⟩, many_family, many_family] at hs
    obtain ⟨a, ⟨l, hl, rfl⟩, b, ⟨l', hl', rfl⟩, rfl⟩ := hs
    simp only [List.mem_cons, List.not_mem_nil, or_false] at hl hl'
    rcases hl with rfl | rfl <;> rcases hl' with rfl | rfl <;> decide
  have := Finset.card_le_card this
  simp at this; omega
example (h : HashOrder (List ℕ)) :=
  len_mono h (f := Forest.many [[1, 2], [2]]) (g := Forest.unit [7]) ⟨_, .many _⟩ ⟨_, .unit _⟩ [1]

end Verif.Matrix
