import Verif.Zdd2.NodeOps
import Verif.Spec

/-! Helper lemmas about the zdd2 node product. -/

set_option linter.unusedSimpArgs false
set_option linter.unusedSectionVars false
set_option linter.unusedVariables false

namespace Verif.Zdd2
namespace Node
open Verif.Spec

/-- `A` splits at `i` into the members without `i` and those with `i`.
Not code: used to state or prove properties. -/
structure Cof (i : Nat) (A A0 A1 : Set (Finset Nat)) : Prop where
  mem : ∀ s, s ∈ A ↔ (i ∉ s ∧ s ∈ A0) ∨ (i ∈ s ∧ s.erase i ∈ A1)
  no0 : ∀ s ∈ A0, i ∉ s
  no1 : ∀ s ∈ A1, i ∉ s

theorem cof_branch {i : Nat} {l h : Node} (o : (Node.Branch i l h).Ordered) :
    Cof i (Node.Branch i l h).Den l.Den h.Den := by
  refine ⟨fun s => mem_ordered o, fun s hs hi => ?_, fun s hs hi => ?_⟩
  · have := lt_of_mem o.2.2.2.1 o.1 hs hi; omega
  · have := lt_of_mem o.2.2.2.2 o.2.1 hs hi; omega

theorem cof_above {i : Nat} {n : Node} (o : n.Ordered) (a : Above i n) : Cof i n.Den n.Den ∅ := by
  have : ∀ s ∈ n.Den, i ∉ s := fun s hs hi => by have := lt_of_mem o a hs hi; omega
  refine ⟨fun s => ?_, this, fun s hs => absurd hs (by simp)⟩
  have := this s
  simp; tauto

theorem Cof.prod {i : Nat} {A A0 A1 B B0 B1 : Set (Finset Nat)} (hA : Cof i A A0 A1)
    (hB : Cof i B B0 B1) (s : Finset Nat) :
    s ∈ prod A B ↔ (i ∉ s ∧ s ∈ Spec.prod A0 B0) ∨
      (i ∈ s ∧ (s.erase i ∈ Spec.prod A0 B1 ∨ s.erase i ∈ Spec.prod A1 B0 ∨ s.erase i ∈ Spec.prod A1 B1)) := by
  constructor
  · rintro ⟨a, ha, b, hb, rfl⟩
    rcases (hA.mem a).mp ha with ⟨a1, a2⟩ | ⟨a1, a2⟩ <;>
      rcases (hB.mem b).mp hb with ⟨b1, b2⟩ | ⟨b1, b2⟩
    · exact Or.inl ⟨by simp [a1, b1], a, a2, b, b2, rfl⟩
    · refine Or.inr ⟨by simp [b1], Or.inl ⟨a, a2, _, b2, ?_⟩⟩
      rw [Finset.erase_union_distrib, Finset.erase_eq_of_notMem a1]
    · refine Or.inr ⟨by simp [a1], Or.inr (Or.inl ⟨_, a2, b, b2, ?_⟩)⟩
      rw [Finset.erase_union_distrib, Finset.erase_eq_of_notMem b1]
    · refine Or.inr ⟨by simp [a1], Or.inr (Or.inr ⟨_, a2, _, b2, ?_⟩)⟩
      rw [Finset.erase_union_distrib]
  · have addA : ∀ a ∈ A1, insert i a ∈ A := fun a ha =>
      (hA.mem _).mpr (Or.inr ⟨by simp, by rwa [Finset.erase_insert (hA.no1 a ha)]⟩)
    have addB : ∀ b ∈ B1, insert i b ∈ B := fun b hb =>
      (hB.mem _).mpr (Or.inr ⟨by simp, by rwa [Finset.erase_insert (hB.no1 b hb)]⟩)
    have keepA : ∀ a ∈ A0, a ∈ A := fun a ha => (hA.mem _).mpr (Or.inl ⟨hA.no0 a ha, ha⟩)
    have keepB : ∀ b ∈ B0, b ∈ B := fun b hb => (hB.mem _).mpr (Or.inl ⟨hB.no0 b hb, hb⟩)
    rintro (⟨hi, a, ha, b, hb, rfl⟩ | ⟨hi, ⟨a, ha, b, hb, e⟩ | ⟨a, ha, b, hb, e⟩ | ⟨a, ha, b, hb, e⟩⟩)
    · exact ⟨a, keepA a ha, b, keepB b hb, rfl⟩
    · exact ⟨a, keepA a ha, _, addB b hb, by rw [Finset.union_insert, ← e, Finset.insert_erase hi]⟩
    · exact ⟨_, addA a ha, b, keepB b hb, by rw [Finset.insert_union, ← e, Finset.insert_erase hi]⟩
    · exact ⟨_, addA a ha, _, addB b hb, by
        rw [Finset.insert_union, Finset.union_insert, Finset.insert_idem, ← e, Finset.insert_erase hi]⟩

theorem prod_empty_left (B : Set (Finset Nat)) : Spec.prod ∅ B = ∅ := by
  ext s; simp [Spec.prod]
theorem prod_empty_right (B : Set (Finset Nat)) : Spec.prod B ∅ = ∅ := by
  ext s; simp [Spec.prod]

/-- Families closed under pairwise union.  Not code: used to state or prove properties. -/
def UClosed (A : Set (Finset Nat)) : Prop := ∀ p ∈ A, ∀ q ∈ A, p ∪ q ∈ A
/-- Families with no item in common.  Not code: used to state or prove properties. -/
def Disj (A B : Set (Finset Nat)) : Prop := ∀ p ∈ A, ∀ q ∈ B, Disjoint p q
/-- When the product is exact.  Not code: used to state or prove properties. -/
def Good (A B : Set (Finset Nat)) : Prop := UClosed A ∨ UClosed B ∨ Disj A B

theorem UClosed.cof {i : Nat} {A A0 A1 : Set (Finset Nat)} (h : UClosed A) (c : Cof i A A0 A1) :
    UClosed A0 ∧ UClosed A1 := by
  constructor
  · intro p hp q hq
    have h1 := h p ((c.mem _).mpr (Or.inl ⟨c.no0 p hp, hp⟩)) q ((c.mem _).mpr (Or.inl ⟨c.no0 q hq, hq⟩))
    rcases (c.mem _).mp h1 with ⟨_, h2⟩ | ⟨h2, _⟩
    · exact h2
    · rw [Finset.mem_union] at h2
      exact absurd h2 (by simp [c.no0 p hp, c.no0 q hq])
  · intro p hp q hq
    have h1 := h (insert i p) ((c.mem _).mpr (Or.inr ⟨by simp, by rwa [Finset.erase_insert (c.no1 p hp)]⟩))
      (insert i q) ((c.mem _).mpr (Or.inr ⟨by simp, by rwa [Finset.erase_insert (c.no1 q hq)]⟩))
    rcases (c.mem _).mp h1 with ⟨h2, _⟩ | ⟨_, h2⟩
    · exact absurd (by simp) h2
    · rwa [Finset.erase_union_distrib, Finset.erase_insert (c.no1 p hp),
        Finset.erase_insert (c.no1 q hq)] at h2

theorem Disj.cof {i : Nat} {A A0 A1 B B0 B1 : Set (Finset Nat)} (h : Disj A B) (c : Cof i A A0 A1)
    (d : Cof i B B0 B1) : Disj A0 B0 ∧ Disj A0 B1 ∧ Disj A1 B0 ∧ Disj A1 B1 := by
  have addA : ∀ a ∈ A1, insert i a ∈ A := fun a ha =>
    (c.mem _).mpr (Or.inr ⟨by simp, by rwa [Finset.erase_insert (c.no1 a ha)]⟩)
  have addB : ∀ b ∈ B1, insert i b ∈ B := fun b hb =>
    (d.mem _).mpr (Or.inr ⟨by simp, by rwa [Finset.erase_insert (d.no1 b hb)]⟩)
  have keepA : ∀ a ∈ A0, a ∈ A := fun a ha => (c.mem _).mpr (Or.inl ⟨c.no0 a ha, ha⟩)
  have keepB : ∀ b ∈ B0, b ∈ B := fun b hb => (d.mem _).mpr (Or.inl ⟨d.no0 b hb, hb⟩)
  refine ⟨fun p hp q hq => h p (keepA p hp) q (keepB q hq), fun p hp q hq => ?_, fun p hp q hq => ?_,
    fun p hp q hq => ?_⟩
  · exact (h p (keepA p hp) _ (addB q hq)).mono_right (Finset.subset_insert _ _)
  · exact (h _ (addA p hp) q (keepB q hq)).mono_left (Finset.subset_insert _ _)
  · exact ((h _ (addA p hp) _ (addB q hq)).mono_left (Finset.subset_insert _ _)).mono_right
      (Finset.subset_insert _ _)

theorem Good.cof {i : Nat} {A A0 A1 B B0 B1 : Set (Finset Nat)} (h : Good A B) (c : Cof i A A0 A1)
    (d : Cof i B B0 B1) : Good A0 B0 ∧ Good A0 B1 ∧ Good A1 B0 ∧ Good A1 B1 := by
  rcases h with h | h | h
  · obtain ⟨h1, h2⟩ := h.cof c; simp [Good, h1, h2]
  · obtain ⟨h1, h2⟩ := h.cof d; simp [Good, h1, h2]
  · obtain ⟨h1, h2, h3, h4⟩ := h.cof c d; simp [Good, h1, h2, h3, h4]

theorem prod_always_right (A : Set (Finset Nat)) : Spec.prod A Node.Always.Den = A := by
  ext s; simp [Spec.prod, Den]
theorem prod_always_left (A : Set (Finset Nat)) : Spec.prod Node.Always.Den A = A := by
  ext s; simp [Spec.prod, Den]
theorem prod_never_right (A : Set (Finset Nat)) : Spec.prod A Node.Never.Den = ∅ := prod_empty_right A
theorem prod_never_left (A : Set (Finset Nat)) : Spec.prod Node.Never.Den A = ∅ := prod_empty_left A

theorem prod_self_of_good {A : Set (Finset Nat)} (h : Good A A) : Spec.prod A A = A := by
  ext s
  constructor
  · rintro ⟨a, ha, b, hb, rfl⟩
    rcases h with h | h | h
    · exact h a ha b hb
    · exact h a ha b hb
    · have h1 := h a ha a ha
      rw [disjoint_self] at h1
      rw [h1]; simpa using hb
  · intro hs; exact ⟨s, hs, s, hs, by simp⟩

theorem product_ok (a b : Node) (oa : a.Ordered) (ob : b.Ordered) :
    (product a b).Ordered ∧ (∀ x, Above x a → Above x b → Above x (product a b)) ∧
      (∀ s, s ∈ (product a b).Den → s ∈ Spec.prod a.Den b.Den) ∧
      (Good a.Den b.Den → ∀ s, s ∈ Spec.prod a.Den b.Den → s ∈ (product a b).Den) := by
  fun_induction product a b with
  | case1 a =>
    refine ⟨oa, fun _ h _ => h, fun s h => ⟨s, h, s, h, by simp⟩, fun g s hs => ?_⟩
    rwa [prod_self_of_good g] at hs
  | case2 a ne =>
    exact ⟨oa, fun _ h _ => h, fun s h => by rwa [prod_always_right],
      fun g s hs => by rwa [prod_always_right] at hs⟩
  | case3 b _ ne =>
    exact ⟨ob, fun _ _ h => h, fun s h => by rwa [prod_always_left],
      fun g s hs => by rwa [prod_always_left] at hs⟩
  | case4 a _ _ =>
    exact ⟨trivial, fun _ _ _ => trivial, fun s h => absurd h (by simp [Den]),
      fun g s hs => by rw [prod_never_right] at hs; exact absurd hs (by simp)⟩
  | case5 a _ _ _ =>
    exact ⟨trivial, fun _ _ _ => trivial, fun s h => absurd h (by simp [Den]),
      fun g s hs => by rw [prod_never_left] at hs; exact absurd hs (by simp)⟩
  | case6 i l h j l' h' hlt _ ih1 ih2 =>
    have c := cof_branch oa
    have d := cof_above ob (above_of hlt)
    simp only [Ordered] at oa
    obtain ⟨o1, ab1, u1, l1⟩ := ih1 oa.2.2.2.1 ob
    obtain ⟨o2, ab2, u2, l2⟩ := ih2 oa.2.2.2.2 ob
    have key : ∀ s, s ∈ (branch i (product l (.Branch j l' h')) (product h (.Branch j l' h'))).Den ↔ _ :=
      fun s => mem_branch (ab1 i oa.1 (above_of hlt)) (ab2 i oa.2.1 (above_of hlt)) o1 o2
    refine ⟨o1.branch o2, fun x h1 h2 => ?_, fun s hs => ?_, fun g s hs => ?_⟩
    · exact Above.branch o1 o2 h1 (ab1 x (oa.1.mono (le_of_lt h1)) h2)
        (ab2 x (oa.2.1.mono (le_of_lt h1)) h2)
    · rw [key] at hs
      rw [c.prod d]
      rcases hs with ⟨hi, hs⟩ | ⟨hi, hs⟩
      · exact Or.inl ⟨hi, u1 _ hs⟩
      · exact Or.inr ⟨hi, Or.inr (Or.inl (u2 _ hs))⟩
    · obtain ⟨g1, g2, g3, g4⟩ := g.cof c d
      rw [key]
      rw [c.prod d] at hs
      rcases hs with ⟨hi, hs⟩ | ⟨hi, hs | hs | hs⟩
      · exact Or.inl ⟨hi, l1 g1 _ hs⟩
      · rw [prod_empty_right] at hs; exact absurd hs (by simp)
      · exact Or.inr ⟨hi, l2 g3 _ hs⟩
      · rw [prod_empty_right] at hs; exact absurd hs (by simp)
  | case7 i l h j l' h' _ hlt _ ih1 ih2 =>
    have c := cof_above oa (above_of hlt)
    have d := cof_branch ob
    simp only [Ordered] at ob
    obtain ⟨o1, ab1, u1, l1⟩ := ih1 oa ob.2.2.2.1
    obtain ⟨o2, ab2, u2, l2⟩ := ih2 oa ob.2.2.2.2
    have key : ∀ s, s ∈ (branch j (product (.Branch i l h) l') (product (.Branch i l h) h')).Den ↔ _ :=
      fun s => mem_branch (ab1 j (above_of hlt) ob.1) (ab2 j (above_of hlt) ob.2.1) o1 o2
    refine ⟨o1.branch o2, fun x h2 h1 => ?_, fun s hs => ?_, fun g s hs => ?_⟩
    · exact Above.branch o1 o2 h1 (ab1 x h2 (ob.1.mono (le_of_lt h1)))
        (ab2 x h2 (ob.2.1.mono (le_of_lt h1)))
    · rw [key] at hs
      rw [c.prod d]
      rcases hs with ⟨hi, hs⟩ | ⟨hi, hs⟩
      · exact Or.inl ⟨hi, u1 _ hs⟩
      · exact Or.inr ⟨hi, Or.inl (u2 _ hs)⟩
    · obtain ⟨g1, g2, g3, g4⟩ := g.cof c d
      rw [key]
      rw [c.prod d] at hs
      rcases hs with ⟨hi, hs⟩ | ⟨hi, hs | hs | hs⟩
      · exact Or.inl ⟨hi, l1 g1 _ hs⟩
      · exact Or.inr ⟨hi, l2 g2 _ hs⟩
      · rw [prod_empty_left] at hs; exact absurd hs (by simp)
      · rw [prod_empty_left] at hs; exact absurd hs (by simp)
  | case8 i l h j l' h' h1 h2 _ ih1 ih2 ih3 ih4 =>
    obtain rfl : i = j := by omega
    have c := cof_branch oa
    have d := cof_branch ob
    simp only [Ordered] at oa ob
    obtain ⟨o1, ab1, u1, l1⟩ := ih1 oa.2.2.2.1 ob.2.2.2.1
    obtain ⟨o2, ab2, u2, l2⟩ := ih2 oa.2.2.2.1 ob.2.2.2.2
    obtain ⟨o3, ab3, u3, l3⟩ := ih3 oa.2.2.2.2 ob.2.2.2.1
    obtain ⟨o4, ab4, u4, l4⟩ := ih4 oa.2.2.2.2 ob.2.2.2.2
    have o34 := o3.union o4
    have o234 := o2.union o34
    have abU : ∀ x, Above x l → Above x h → Above x l' → Above x h' →
        Above x (union (product l h') (union (product h l') (product h h'))) := fun x a1 a2 a3 a4 =>
      (union_ok _ _ o2 o34).2.1 x (ab2 x a1 a4)
        ((union_ok _ _ o3 o4).2.1 x (ab3 x a2 a3) (ab4 x a2 a4))
    have key : ∀ s, s ∈ (branch i (product l l')
        (union (product l h') (union (product h l') (product h h')))).Den ↔ _ :=
      fun s => mem_branch (ab1 i oa.1 ob.1) (abU i oa.1 oa.2.1 ob.1 ob.2.1) o1 o234
    refine ⟨o1.branch o234, fun x h1 h2 => ?_, fun s hs => ?_, fun g s hs => ?_⟩
    · exact Above.branch o1 o234 h1 (ab1 x (oa.1.mono (le_of_lt h1)) (ob.1.mono (le_of_lt h1)))
        (abU x (oa.1.mono (le_of_lt h1)) (oa.2.1.mono (le_of_lt h1)) (ob.1.mono (le_of_lt h1))
          (ob.2.1.mono (le_of_lt h1)))
    · rw [key, mem_union o2 o34, mem_union o3 o4] at hs
      rw [c.prod d]
      rcases hs with ⟨hi, hs⟩ | ⟨hi, hs | hs | hs⟩
      · exact Or.inl ⟨hi, u1 _ hs⟩
      · exact Or.inr ⟨hi, Or.inl (u2 _ hs)⟩
      · exact Or.inr ⟨hi, Or.inr (Or.inl (u3 _ hs))⟩
      · exact Or.inr ⟨hi, Or.inr (Or.inr (u4 _ hs))⟩
    · obtain ⟨g1, g2, g3, g4⟩ := g.cof c d
      rw [key, mem_union o2 o34, mem_union o3 o4]
      rw [c.prod d] at hs
      rcases hs with ⟨hi, hs⟩ | ⟨hi, hs | hs | hs⟩
      · exact Or.inl ⟨hi, l1 g1 _ hs⟩
      · exact Or.inr ⟨hi, Or.inl (l2 g2 _ hs)⟩
      · exact Or.inr ⟨hi, Or.inr (Or.inl (l3 g3 _ hs))⟩
      · exact Or.inr ⟨hi, Or.inr (Or.inr (l4 g4 _ hs))⟩

theorem Ordered.product {a b : Node} (oa : a.Ordered) (ob : b.Ordered) : (product a b).Ordered :=
  (product_ok a b oa ob).1

end Node
end Verif.Zdd2
