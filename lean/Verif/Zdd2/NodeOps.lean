import Verif.Zdd2.NodeLemmas

/-! Helper lemmas about zdd2 node operations. -/

set_option linter.unusedSimpArgs false
set_option linter.unusedSectionVars false
set_option linter.unusedVariables false

namespace Verif.Zdd2
namespace Node

theorem above_of {i j : Nat} {l h : Node} (hij : i < j) : Above i (.Branch j l h) := hij

theorem union_ok (a b : Node) (oa : a.Ordered) (ob : b.Ordered) :
    (union a b).Ordered ∧ (∀ x, Above x a → Above x b → Above x (union a b)) ∧
      ∀ s, s ∈ (union a b).Den ↔ s ∈ a.Den ∨ s ∈ b.Den := by
  fun_induction union a b with
  | case1 a => exact ⟨oa, fun _ h _ => h, fun s => by simp⟩
  | case2 a _ => exact ⟨oa, fun _ h _ => h, fun s => by simp [Den]⟩
  | case3 b _ _ => exact ⟨ob, fun _ _ h => h, fun s => by simp [Den]⟩
  | case4 h => exact absurd rfl h
  | case5 i l h _ ih =>
    have oa' := oa
    simp only [Ordered] at oa
    obtain ⟨o, ab, m⟩ := ih oa.2.2.2.1 trivial
    refine ⟨o.branch oa.2.2.2.2, fun x h1 _ => ?_, fun s => ?_⟩
    · exact Above.branch o oa.2.2.2.2 h1 (ab x (oa.1.mono (le_of_lt h1)) trivial)
        (oa.2.1.mono (le_of_lt h1))
    · rw [mem_branch (ab i oa.1 trivial) oa.2.1 o oa.2.2.2.2, mem_ordered oa', m]
      by_cases hi : i ∈ s
      · have : s ∉ Node.Always.Den := by
          intro h'; rw [Den, Set.mem_singleton_iff] at h'; subst h'; simp at hi
        tauto
      · tauto
  | case6 i l h _ ih =>
    have ob' := ob
    simp only [Ordered] at ob
    obtain ⟨o, ab, m⟩ := ih trivial ob.2.2.2.1
    refine ⟨o.branch ob.2.2.2.2, fun x _ h1 => ?_, fun s => ?_⟩
    · exact Above.branch o ob.2.2.2.2 h1 (ab x trivial (ob.1.mono (le_of_lt h1)))
        (ob.2.1.mono (le_of_lt h1))
    · rw [mem_branch (ab i trivial ob.1) ob.2.1 o ob.2.2.2.2, mem_ordered ob', m]
      by_cases hi : i ∈ s
      · have : s ∉ Node.Always.Den := by
          intro h'; rw [Den, Set.mem_singleton_iff] at h'; subst h'; simp at hi
        tauto
      · tauto
  | case7 i l h j l' h' hlt _ ih =>
    have oa' := oa
    simp only [Ordered] at oa
    obtain ⟨o, ab, m⟩ := ih oa.2.2.2.1 ob
    refine ⟨o.branch oa.2.2.2.2, fun x h1 h2 => ?_, fun s => ?_⟩
    · exact Above.branch o oa.2.2.2.2 h1 (ab x (oa.1.mono (le_of_lt h1)) h2)
        (oa.2.1.mono (le_of_lt h1))
    · rw [mem_branch (ab i oa.1 (above_of hlt)) oa.2.1 o oa.2.2.2.2, mem_ordered oa', m]
      by_cases hi : i ∈ s
      · have : s ∉ (Node.Branch j l' h').Den := fun hs => by
          have := lt_of_mem ob (above_of hlt) hs hi; omega
        tauto
      · tauto
  | case8 i l h j l' h' _ hlt _ ih =>
    have ob' := ob
    simp only [Ordered] at ob
    obtain ⟨o, ab, m⟩ := ih oa ob.2.2.2.1
    refine ⟨o.branch ob.2.2.2.2, fun x h2 h1 => ?_, fun s => ?_⟩
    · exact Above.branch o ob.2.2.2.2 h1 (ab x h2 (ob.1.mono (le_of_lt h1)))
        (ob.2.1.mono (le_of_lt h1))
    · rw [mem_branch (ab j (above_of hlt) ob.1) ob.2.1 o ob.2.2.2.2, mem_ordered ob', m]
      by_cases hi : j ∈ s
      · have : s ∉ (Node.Branch i l h).Den := fun hs => by
          have := lt_of_mem oa (above_of hlt) hs hi; omega
        tauto
      · tauto
  | case9 i l h j l' h' h1 h2 _ ih1 ih2 =>
    obtain rfl : i = j := by omega
    have oa' := oa
    have ob' := ob
    simp only [Ordered] at oa ob
    obtain ⟨o1, ab1, m1⟩ := ih1 oa.2.2.2.1 ob.2.2.2.1
    obtain ⟨o2, ab2, m2⟩ := ih2 oa.2.2.2.2 ob.2.2.2.2
    refine ⟨o1.branch o2, fun x h1 h2 => ?_, fun s => ?_⟩
    · exact Above.branch o1 o2 h1 (ab1 x (oa.1.mono (le_of_lt h1)) (ob.1.mono (le_of_lt h1)))
        (ab2 x (oa.2.1.mono (le_of_lt h1)) (ob.2.1.mono (le_of_lt h1)))
    · rw [mem_branch (ab1 i oa.1 ob.1) (ab2 i oa.2.1 ob.2.1) o1 o2, mem_ordered oa',
        mem_ordered ob', m1, m2]
      tauto

theorem Ordered.union {a b : Node} (oa : a.Ordered) (ob : b.Ordered) : (union a b).Ordered :=
  (union_ok a b oa ob).1
theorem mem_union {a b : Node} (oa : a.Ordered) (ob : b.Ordered) {s : Finset Nat} :
    s ∈ (union a b).Den ↔ s ∈ a.Den ∨ s ∈ b.Den := (union_ok a b oa ob).2.2 s

/-! ### intersect -/

theorem intersect_ok (a b : Node) (oa : a.Ordered) (ob : b.Ordered) :
    (intersect a b).Ordered ∧ (∀ x, Above x a → Above x b → Above x (intersect a b)) ∧
      (∀ s, s ∈ a.Den → s ∈ b.Den → s ∈ (intersect a b).Den) ∧
      (∀ s, s ∈ (intersect a b).Den → (s ∈ a.Den ∧ (s ∈ b.Den ∨ ∃ q ∈ b.Den, q ⊂ s)) ∨
        (s ∈ b.Den ∧ (s ∈ a.Den ∨ ∃ q ∈ a.Den, q ⊂ s))) := by
  fun_induction intersect a b with
  | case1 a => exact ⟨oa, fun _ h _ => h, fun s h _ => h, fun s h => by tauto⟩
  | case2 a ne =>
    refine ⟨oa, fun _ h _ => h, fun s h _ => h, fun s h => Or.inl ⟨h, ?_⟩⟩
    by_cases hs : s = ∅
    · left; subst hs; rfl
    · right; exact ⟨∅, rfl, Finset.empty_ssubset.mpr (Finset.nonempty_iff_ne_empty.mpr hs)⟩
  | case3 a _ ne =>
    refine ⟨ob, fun _ _ h => h, fun s _ h => h, fun s h => Or.inr ⟨h, ?_⟩⟩
    by_cases hs : s = ∅
    · left; subst hs; rfl
    · right; exact ⟨∅, rfl, Finset.empty_ssubset.mpr (Finset.nonempty_iff_ne_empty.mpr hs)⟩
  | case4 a _ _ => exact ⟨trivial, fun _ _ _ => trivial, fun s _ h => h, fun s h => absurd h (by simp [Den])⟩
  | case5 a _ _ _ => exact ⟨trivial, fun _ _ _ => trivial, fun s h _ => h, fun s h => absurd h (by simp [Den])⟩
  | case6 i l h j l' h' hlt _ ih =>
    have oa' := oa
    simp only [Ordered] at oa
    obtain ⟨o, ab, m1, m2⟩ := ih oa.2.2.2.1 ob
    refine ⟨o, fun x h1 h2 => ab x (oa.1.mono (le_of_lt h1)) h2, fun s h1 h2 => ?_, fun s hs => ?_⟩
    · refine m1 s ?_ h2
      rcases (mem_ordered oa').mp h1 with ⟨_, h⟩ | ⟨hi, _⟩
      · exact h
      · have := lt_of_mem ob (above_of hlt) h2 hi; omega
    · have := m2 s hs
      simp only [mem_den_branch (l := l)]
      rcases this with ⟨x1, x2⟩ | ⟨x1, x2 | ⟨q, x3, x4⟩⟩
      · exact Or.inl ⟨Or.inl x1, x2⟩
      · exact Or.inr ⟨x1, Or.inl (Or.inl x2)⟩
      · exact Or.inr ⟨x1, Or.inr ⟨q, Or.inl x3, x4⟩⟩
  | case7 i l h j l' h' _ hlt _ ih =>
    have ob' := ob
    simp only [Ordered] at ob
    obtain ⟨o, ab, m1, m2⟩ := ih oa ob.2.2.2.1
    refine ⟨o, fun x h1 h2 => ab x h1 (ob.1.mono (le_of_lt h2)), fun s h1 h2 => ?_, fun s hs => ?_⟩
    · refine m1 s h1 ?_
      rcases (mem_ordered ob').mp h2 with ⟨_, h⟩ | ⟨hi, _⟩
      · exact h
      · have := lt_of_mem oa (above_of hlt) h1 hi; omega
    · have := m2 s hs
      simp only [mem_den_branch (l := l')]
      rcases this with ⟨x1, x2 | ⟨q, x3, x4⟩⟩ | ⟨x1, x2⟩
      · exact Or.inl ⟨x1, Or.inl (Or.inl x2)⟩
      · exact Or.inl ⟨x1, Or.inr ⟨q, Or.inl x3, x4⟩⟩
      · exact Or.inr ⟨Or.inl x1, x2⟩
  | case8 i l h j l' h' h1 h2 _ ih1 ih2 =>
    obtain rfl : i = j := by omega
    have oa' := oa
    have ob' := ob
    simp only [Ordered] at oa ob
    obtain ⟨o1, ab1, m1, n1⟩ := ih1 oa.2.2.2.1 ob.2.2.2.1
    obtain ⟨o2, ab2, m2, n2⟩ := ih2 oa.2.2.2.2 ob.2.2.2.2
    refine ⟨o1.branch o2, fun x h1 h2 => ?_, fun s hs1 hs2 => ?_, fun s hs => ?_⟩
    · exact Above.branch o1 o2 h1 (ab1 x (oa.1.mono (le_of_lt h1)) (ob.1.mono (le_of_lt h1)))
        (ab2 x (oa.2.1.mono (le_of_lt h1)) (ob.2.1.mono (le_of_lt h1)))
    · rw [mem_branch (ab1 i oa.1 ob.1) (ab2 i oa.2.1 ob.2.1) o1 o2]
      rw [mem_ordered oa'] at hs1
      rw [mem_ordered ob'] at hs2
      rcases hs1 with ⟨a1, a2⟩ | ⟨a1, a2⟩ <;> rcases hs2 with ⟨b1, b2⟩ | ⟨b1, b2⟩
      · exact Or.inl ⟨a1, m1 s a2 b2⟩
      · exact absurd b1 a1
      · exact absurd a1 b1
      · exact Or.inr ⟨a1, m2 _ a2 b2⟩
    · rw [mem_branch (ab1 i oa.1 ob.1) (ab2 i oa.2.1 ob.2.1) o1 o2] at hs
      rcases hs with ⟨hi, hs⟩ | ⟨hi, hs⟩
      · rcases n1 s hs with ⟨x1, x2 | ⟨q, x3, x4⟩⟩ | ⟨x1, x2 | ⟨q, x3, x4⟩⟩
        · exact Or.inl ⟨Or.inl x1, Or.inl (Or.inl x2)⟩
        · exact Or.inl ⟨Or.inl x1, Or.inr ⟨q, Or.inl x3, x4⟩⟩
        · exact Or.inr ⟨Or.inl x1, Or.inl (Or.inl x2)⟩
        · exact Or.inr ⟨Or.inl x1, Or.inr ⟨q, Or.inl x3, x4⟩⟩
      · have lift : ∀ {n : Node}, s.erase i ∈ n.Den → ∃ t ∈ n.Den, s = insert i t :=
          fun hn => ⟨_, hn, (Finset.insert_erase hi).symm⟩
        have ss : ∀ q : Finset Nat, q ⊂ s.erase i → insert i q ⊂ s := by
          intro q hq
          rw [Finset.ssubset_iff_of_subset]
          · obtain ⟨x, hx, hxq⟩ := Finset.exists_of_ssubset hq
            refine ⟨x, Finset.mem_of_mem_erase hx, ?_⟩
            rw [Finset.mem_insert, not_or]
            exact ⟨Finset.ne_of_mem_erase hx, hxq⟩
          · intro x hx
            rcases Finset.mem_insert.mp hx with rfl | hx
            · exact hi
            · exact Finset.mem_of_mem_erase (hq.subset hx)
        rcases n2 _ hs with ⟨x1, x2 | ⟨q, x3, x4⟩⟩ | ⟨x1, x2 | ⟨q, x3, x4⟩⟩
        · exact Or.inl ⟨Or.inr (lift x1), Or.inl (Or.inr (lift x2))⟩
        · exact Or.inl ⟨Or.inr (lift x1), Or.inr ⟨_, Or.inr ⟨q, x3, rfl⟩, ss q x4⟩⟩
        · exact Or.inr ⟨Or.inr (lift x1), Or.inl (Or.inr (lift x2))⟩
        · exact Or.inr ⟨Or.inr (lift x1), Or.inr ⟨_, Or.inr ⟨q, x3, rfl⟩, ss q x4⟩⟩

theorem Ordered.intersect {a b : Node} (oa : a.Ordered) (ob : b.Ordered) :
    (intersect a b).Ordered := (intersect_ok a b oa ob).1

/-- `intersect` is exact when no member of one operand sits strictly below a member of the other
that is not common. -/
theorem mem_intersect_of {a b : Node} (oa : a.Ordered) (ob : b.Ordered)
    (h1 : ∀ p ∈ a.Den, ∀ q ∈ b.Den, q ⊂ p → p ∈ b.Den)
    (h2 : ∀ p ∈ b.Den, ∀ q ∈ a.Den, q ⊂ p → p ∈ a.Den) {s : Finset Nat} :
    s ∈ (Node.intersect a b).Den ↔ s ∈ a.Den ∧ s ∈ b.Den := by
  obtain ⟨_, _, m, n⟩ := intersect_ok a b oa ob
  constructor
  · intro hs
    rcases n s hs with ⟨x1, x2 | ⟨q, x3, x4⟩⟩ | ⟨x1, x2 | ⟨q, x3, x4⟩⟩
    · exact ⟨x1, x2⟩
    · exact ⟨x1, h1 s x1 q x3 x4⟩
    · exact ⟨x2, x1⟩
    · exact ⟨h2 s x1 q x3 x4, x1⟩
  · rintro ⟨x, y⟩; exact m s x y

end Node
end Verif.Zdd2
