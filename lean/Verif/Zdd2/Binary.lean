import Verif.Zdd2.Props

/-!
# Properties of zdd2 union / intersect / product (C17, C18, C19, C52, C55, C56)
-/

set_option linter.unusedSimpArgs false
set_option linter.unusedVariables false
set_option linter.unusedSectionVars false

namespace Verif.Zdd2
open Verif Verif.Spec Verif.Zdd2.Spec

universe u
variable {T : Type u} [LinearOrder T]

namespace Node

theorem intersect_comm (a b : Node) : intersect a b = intersect b a := by
  fun_induction intersect a b with
  | case1 a => rw [intersect.eq_def, if_pos rfl]
  | case2 a ne => cases a <;> simp_all [intersect]
  | case3 b _ ne => cases b <;> simp_all [intersect]
  | case4 a _ _ => cases a <;> simp_all [intersect]
  | case5 b _ _ ne => cases b <;> simp_all [intersect]
  | case6 i1 l1 h1 i2 l2 h2 hlt ne ih =>
    rw [ih]; conv_rhs => rw [intersect]
    rw [if_neg (Ne.symm ne)]
    rw [if_neg (by omega), if_pos (by omega)]
  | case7 i1 l1 h1 i2 l2 h2 hlt hgt ne ih =>
    rw [ih]; conv_rhs => rw [intersect]
    rw [if_neg (Ne.symm ne)]
    rw [if_pos (by omega)]
  | case8 i1 l1 h1 i2 l2 h2 hlt hgt ne ih1 ih2 =>
    rw [ih1, ih2]; conv_rhs => rw [intersect]
    rw [if_neg (Ne.symm ne)]
    rw [if_neg (by omega), if_neg (by omega)]
    have : i1 = i2 := by omega
    rw [this]

theorem union_comm {a b : Node} (oa : a.Ordered) (ob : b.Ordered) : union a b = union b a :=
  den_inj (oa.union ob) (ob.union oa) (by ext s; rw [mem_union oa ob, mem_union ob oa, or_comm])

theorem product_comm (a b : Node) (oa : a.Ordered) (ob : b.Ordered) : product a b = product b a := by
  fun_induction product a b with
  | case1 a => rw [product.eq_def, if_pos rfl]
  | case2 a ne => cases a <;> simp_all [product]
  | case3 b _ ne => cases b <;> simp_all [product]
  | case4 a _ _ => cases a <;> simp_all [product]
  | case5 b _ _ ne => cases b <;> simp_all [product]
  | case6 i1 l1 h1 i2 l2 h2 hlt ne ih1 ih2 =>
    rw [ih1 oa.2.2.2.1 ob, ih2 oa.2.2.2.2 ob]; conv_rhs => rw [product]
    rw [if_neg (Ne.symm ne)]
    rw [if_neg (by omega), if_pos (by omega)]
  | case7 i1 l1 h1 i2 l2 h2 hlt hgt ne ih1 ih2 =>
    rw [ih1 oa ob.2.2.2.1, ih2 oa ob.2.2.2.2]; conv_rhs => rw [product]
    rw [if_neg (Ne.symm ne)]
    rw [if_pos (by omega)]
  | case8 i1 l1 h1 i2 l2 h2 hlt hgt ne ih1 ih2 ih3 ih4 =>
    have o1 := oa.2.2.2.1.product ob.2.2.2.2
    have o2 := oa.2.2.2.2.product ob.2.2.2.1
    have o3 := oa.2.2.2.2.product ob.2.2.2.2
    have e : union (product l1 h2) (union (product h1 l2) (product h1 h2)) =
        union (product h1 l2) (union (product l1 h2) (product h1 h2)) := by
      refine den_inj (o1.union (o2.union o3)) (o2.union (o1.union o3)) ?_
      ext s
      rw [mem_union o1 (o2.union o3), mem_union o2 o3, mem_union o2 (o1.union o3), mem_union o1 o3]
      exact or_left_comm
    rw [e, ih1 oa.2.2.2.1 ob.2.2.2.1, ih2 oa.2.2.2.1 ob.2.2.2.2, ih3 oa.2.2.2.2 ob.2.2.2.1, ih4 oa.2.2.2.2 ob.2.2.2.2]
    conv_rhs => rw [product]
    rw [if_neg (Ne.symm ne)]
    rw [if_neg (by omega), if_neg (by omega)]
    have : i1 = i2 := by omega
    rw [this]

end Node

namespace Universe

theorem merge_comm {u v : Universe T} (hu : u.Ok) (hv : v.Ok) : merge u v = merge v u := by
  by_cases hne : u = v
  · rw [hne]
  · refine (ok_merge hu).ext (ok_merge hv) (smap_ext (ok_merge hu).1 (ok_merge hv).1 fun x => ?_)
    rw [Forest.count_merge_lookup hu hv hne, Forest.count_merge_lookup hv hu (Ne.symm hne)]
    cases lookup x u.occurrences <;> cases lookup x v.occurrences <;> simp [Nat.add_comm]

end Universe

namespace Forest
open Universe

theorem ops_raw {f g : Forest T} (hf : f.Canon) (hg : g.Canon) :
    ∃ a b, let m := merge f.univ g.univ
      m.Ok ∧ a.Ordered ∧ b.Ordered ∧ m.InU a ∧ m.InU b ∧
      translateRoot f.univ m f.root = some a ∧ translateRoot g.univ m g.root = some b ∧
      f.union g = some (canonical (Node.union a b) m) ∧
      f.intersect g = some (canonical (Node.intersect a b) m) ∧
      f.product g = some (canonical (Node.product a b) m) ∧
      (∀ S ∈ m.Fam a, ∀ x ∈ S, ∃ R ∈ f.fam, x ∈ R) ∧
      (∀ S ∈ m.Fam b, ∀ x ∈ S, ∃ R ∈ g.fam, x ∈ R) ∧
      (Compatible f.fam g.fam → m.Fam a = f.fam ∧ m.Fam b = g.fam) := by
  obtain ⟨a, b, e, oa, ob, ia, ib, ea, eb, na, nb, hc⟩ := translateRoots_ok hf hg
  exact ⟨a, b, ok_merge hf.ok, oa, ob, ia, ib, ea, eb, (by simp [union, e]), (by simp [intersect, e]),
    (by simp [product, e]), na, nb, hc⟩

end Forest

open Forest Universe

/-! ## C55 commutativity of the values -/

/-- C55: the three binary operations do not depend on the order of the operands: the resulting
forests are equal as values, on every pair of reachable forests. -/
theorem ops_comm {f g : Forest T} (hf : Reach f) (hg : Reach g) :
    f.union g = g.union f ∧ f.intersect g = g.intersect f ∧ f.product g = g.product f := by
  obtain ⟨a, b, hm, oa, ob, ia, ib, ea, eb, eu, ei, ep, _⟩ := ops_raw hf.canon hg.canon
  obtain ⟨b', a', hm', ob', oa', ib', ia', eb', ea', eu', ei', ep', _⟩ := ops_raw hg.canon hf.canon
  have hmm := merge_comm hf.canon.ok hg.canon.ok
  rw [← hmm] at ea' eb' eu' ei' ep'
  rw [ea] at ea'; rw [eb] at eb'
  cases ea'; cases eb'
  rw [eu, ei, ep, eu', ei', ep', Node.union_comm oa ob, Node.intersect_comm a b,
    Node.product_comm a b oa ob]
  exact ⟨rfl, rfl, rfl⟩

/-! ## C17 union -/

/-- C17 (proved part): `union` is set union whenever both operands survive the reordering of items
to the combined frequencies. -/
theorem union_family_partial {f g r : Forest T} (hf : Reach f) (hg : Reach g)
    (h : Compatible (family f.trees) (family g.trees)) (hr : f.union g = some r) :
    family r.trees = family f.trees ∪ family g.trees := by
  obtain ⟨a, b, hm, oa, ob, ia, ib, ea, eb, eu, ei, ep, _, _, hc⟩ := ops_raw hf.canon hg.canon
  obtain ⟨ha, hb⟩ := hc h
  rw [eu] at hr; cases hr
  have := fam_canonical hm (oa.union ob) (inU_union oa ob ia ib)
  rw [fam_union oa ob, ha, hb] at this
  change Forest.fam _ = _ at this
  change Forest.fam _ = Forest.fam _ ∪ Forest.fam _
  rw [this]
  ext s
  simp only [nonempty, Set.mem_ofPred_eq, and_iff_left_iff_imp]
  rintro (hs | hs)
  · exact hf.canon.fam_nonempty hs
  · exact hg.canon.fam_nonempty hs

/-! ## C18 intersect -/

/-- C18, C52 (bounds): every common member is kept; every member of the result is a member of one
operand and has a (not necessarily strict) subset in the other. -/
theorem intersect_bounds {f g r : Forest T} (hf : Reach f) (hg : Reach g)
    (h : Compatible (family f.trees) (family g.trees)) (hr : f.intersect g = some r) :
    family f.trees ∩ family g.trees ⊆ family r.trees ∧
    ∀ s ∈ family r.trees, (s ∈ family f.trees ∧ ∃ q ∈ family g.trees, q ⊆ s) ∨
      (s ∈ family g.trees ∧ ∃ q ∈ family f.trees, q ⊆ s) := by
  obtain ⟨a, b, hm, oa, ob, ia, ib, ea, eb, eu, ei, ep, _, _, hc⟩ := ops_raw hf.canon hg.canon
  obtain ⟨ha, hb⟩ := hc h
  rw [ei] at hr; cases hr
  have hfam := fam_canonical hm (oa.intersect ob) (inU_intersect oa ob ia ib)
  have lo := fam_intersect_lower (u := merge f.univ g.univ) oa ob
  have up := fun S => fam_intersect_upper (S := S) hm oa ob ia ib
  rw [ha, hb] at lo
  rw [ha, hb] at up
  change Forest.fam f ∩ Forest.fam g ⊆ Forest.fam _ ∧ ∀ s ∈ Forest.fam _, _
  rw [hfam]
  refine ⟨fun s hs => ⟨lo hs, hf.canon.fam_nonempty hs.1⟩, ?_⟩
  rintro s ⟨hs, _⟩
  rcases up s hs with ⟨h1, h2 | ⟨q, h2, h3⟩⟩ | ⟨h1, h2 | ⟨q, h2, h3⟩⟩
  · exact Or.inl ⟨h1, s, h2, subset_rfl⟩
  · exact Or.inl ⟨h1, q, h2, h3.subset⟩
  · exact Or.inr ⟨h1, s, h2, subset_rfl⟩
  · exact Or.inr ⟨h1, q, h2, h3.subset⟩

/-- C18 (proved part): `intersect` is set intersection when, in addition, no member of one operand
lies strictly above a member of the other without being common. -/
theorem intersect_family_partial {f g r : Forest T} (hf : Reach f) (hg : Reach g)
    (h : Compatible (family f.trees) (family g.trees))
    (h1 : NoneAbove (family f.trees) (family g.trees))
    (h2 : NoneAbove (family g.trees) (family f.trees)) (hr : f.intersect g = some r) :
    family r.trees = family f.trees ∩ family g.trees := by
  obtain ⟨lo, up⟩ := intersect_bounds hf hg h hr
  refine Set.Subset.antisymm (fun s hs => ?_) lo
  rcases up s hs with ⟨hs1, q, hq, hqs⟩ | ⟨hs1, q, hq, hqs⟩
  · rcases eq_or_ssubset_of_subset hqs with e | e
    · subst e; exact ⟨hs1, hq⟩
    · exact ⟨hs1, h1 s hs1 q hq e⟩
  · rcases eq_or_ssubset_of_subset hqs with e | e
    · subst e; exact ⟨hq, hs1⟩
    · exact ⟨h2 s hs1 q hq e, hs1⟩

/-! ## C19 product -/

/-- C19, C52 (bound): every member of the result is the union of a member of each operand. -/
theorem product_bounds {f g r : Forest T} (hf : Reach f) (hg : Reach g)
    (h : Compatible (family f.trees) (family g.trees)) (hr : f.product g = some r) :
    family r.trees ⊆ prod (family f.trees) (family g.trees) := by
  obtain ⟨a, b, hm, oa, ob, ia, ib, ea, eb, eu, ei, ep, _, _, hc⟩ := ops_raw hf.canon hg.canon
  obtain ⟨ha, hb⟩ := hc h
  rw [ep] at hr; cases hr
  have hfam := fam_canonical hm (oa.product ob) (inU_product oa ob ia ib)
  have up := fam_product_upper hm oa ob ia ib
  rw [ha, hb] at up
  change Forest.fam _ ⊆ _
  rw [hfam]
  exact fun s hs => up hs.1

/-- C19 (proved part): `product` is the pairwise union when the operands survive the reordering and
one of them is closed under union or they share no item. -/
theorem product_family_partial {f g r : Forest T} (hf : Reach f) (hg : Reach g)
    (h : Compatible (family f.trees) (family g.trees))
    (h' : UnionClosed (family f.trees) ∨ UnionClosed (family g.trees) ∨
      ItemDisjoint (family f.trees) (family g.trees)) (hr : f.product g = some r) :
    family r.trees = prod (family f.trees) (family g.trees) := by
  refine Set.Subset.antisymm (product_bounds hf hg h hr) ?_
  obtain ⟨a, b, hm, oa, ob, ia, ib, ea, eb, eu, ei, ep, _, _, hc⟩ := ops_raw hf.canon hg.canon
  obtain ⟨ha, hb⟩ := hc h
  rw [ep] at hr; cases hr
  have hfam := fam_canonical hm (oa.product ob) (inU_product oa ob ia ib)
  have lo := fam_product_lower hm oa ob ia ib (by rw [ha, hb]; exact h')
  rw [ha, hb] at lo
  change _ ⊆ Forest.fam _
  rw [hfam]
  rintro s hs
  refine ⟨lo hs, ?_⟩
  obtain ⟨p, hp, q, hq, rfl⟩ := hs
  obtain ⟨x, hx⟩ := hf.canon.fam_nonempty hp
  exact ⟨x, Finset.mem_union_left _ hx⟩

/-! ## C56 no item is invented -/

/-- C56: on every pair of reachable forests, every item of a member of a union, intersection or
product occurs in a member of one of the operands. -/
theorem ops_items {f g r : Forest T} (hf : Reach f) (hg : Reach g)
    (hr : f.union g = some r ∨ f.intersect g = some r ∨ f.product g = some r)
    {s : Finset T} (hs : s ∈ family r.trees) {x : T} (hx : x ∈ s) :
    (∃ t ∈ family f.trees, x ∈ t) ∨ (∃ t ∈ family g.trees, x ∈ t) := by
  obtain ⟨a, b, hm, oa, ob, ia, ib, ea, eb, eu, ei, ep, na, nb, _⟩ := ops_raw hf.canon hg.canon
  rw [eu, ei, ep] at hr
  have key : ∀ S, S ∈ (merge f.univ g.univ).Fam a ∨ S ∈ (merge f.univ g.univ).Fam b →
      x ∈ S → (∃ t ∈ family f.trees, x ∈ t) ∨ (∃ t ∈ family g.trees, x ∈ t) := by
    rintro S (h | h) hx
    · exact Or.inl (na S h x hx)
    · exact Or.inr (nb S h x hx)
  rcases hr with hr | hr | hr <;> cases hr <;> change s ∈ Forest.fam _ at hs
  · rw [fam_canonical hm (oa.union ob) (inU_union oa ob ia ib), fam_union oa ob] at hs
    exact key s hs.1 hx
  · rw [fam_canonical hm (oa.intersect ob) (inU_intersect oa ob ia ib)] at hs
    rcases fam_intersect_upper hm oa ob ia ib hs.1 with ⟨h, _⟩ | ⟨h, _⟩
    · exact key s (Or.inl h) hx
    · exact key s (Or.inr h) hx
  · rw [fam_canonical hm (oa.product ob) (inU_product oa ob ia ib)] at hs
    obtain ⟨p, hp, q, hq, rfl⟩ := fam_product_upper hm oa ob ia ib hs.1
    rcases Finset.mem_union.mp hx with h | h
    · exact key p (Or.inl hp) h
    · exact key q (Or.inr hq) h

end Verif.Zdd2
