import Verif.Zdd2.Node
import Mathlib.Tactic.Tauto
import Mathlib.Order.Lattice
import Mathlib.Data.Finset.Lattice.Basic

/-! Helper lemmas about zdd2 nodes. -/

set_option linter.unusedSimpArgs false
set_option linter.unusedSectionVars false
set_option linter.unusedVariables false

namespace Verif.Zdd2
namespace Node

/-- The root id (if any) is after `x`.  Not code: used to state or prove properties. -/
def Above (x : Nat) : Node → Prop
  | .Branch i _ _ => x < i
  | _ => True

/-- Ids strictly ascend along every path and no high child is `Never`.
Not code: used to state or prove properties. -/
def Ordered : Node → Prop
  | .Branch i l h => Above i l ∧ Above i h ∧ h ≠ .Never ∧ l.Ordered ∧ h.Ordered
  | _ => True

theorem Above.mono {x y : Nat} {n : Node} (h : Above y n) (hx : x ≤ y) : Above x n := by
  cases n <;> simp_all [Above]; omega

/-! ### the smart constructor -/

theorem branch_never (i : Nat) (l : Node) : branch i l .Never = l := by
  unfold branch; rfl

/-- The seven ways `branch` can go. -/
theorem branch_ind {P : Nat → Node → Node → Node → Prop}
    (never : ∀ i l, P i l .Never l)
    (both : ∀ i hId hLow hHigh lLow lHigh a b r, hId < i → a = branch i lLow hLow → b = branch i lHigh hHigh →
      P i lLow hLow a → P i lHigh hHigh b → P hId a b r →
      P i (.Branch hId lLow lHigh) (.Branch hId hLow hHigh) r)
    (highLt : ∀ i hId hLow hHigh low a r, hId < i → a = branch i hLow hHigh →
      P i hLow hHigh a → P hId low a r → P i low (.Branch hId hLow hHigh) r)
    (lowLt : ∀ i lId lLow lHigh high a r, lId < i → (∀ j x y, high = .Branch j x y → i ≤ j) →
      high ≠ .Never → a = branch i lLow high → P i lLow high a → P lId a lHigh r → P i (.Branch lId lLow lHigh) high r)
    (highEq : ∀ i hLow hHigh low r, P i low hHigh r → P i low (.Branch i hLow hHigh) r)
    (lowEq : ∀ i lLow lHigh high r, P i lLow high r → P i (.Branch i lLow lHigh) high r)
    (plain : ∀ i l h, Above i l → Above i h → h ≠ .Never → P i l h (.Branch i l h))
    (i : Nat) (l h : Node) : P i l h (branch i l h) := by
  fun_induction branch i l h with
  | case1 i l => exact never i l
  | case2 i hId hLow hHigh lId lLow lHigh hc ih1 ih2 ih3 =>
    obtain ⟨h1, rfl⟩ := hc
    exact both _ _ _ _ _ _ _ _ _ h1 rfl rfl ih1 ih2 ih3
  | case3 i hId hLow hHigh lId lLow lHigh _ h1 ih1 ih2 => exact highLt _ _ _ _ _ _ _ h1 rfl ih1 ih2
  | case4 i hId hLow hHigh lId lLow lHigh _ h1 h2 ih1 ih2 =>
    refine lowLt _ _ _ _ _ _ _ h2 ?_ (by simp) rfl ih1 ih2
    intro j x y e; cases e; omega
  | case5 hId hLow hHigh lId lLow lHigh _ _ _ ih => exact highEq _ _ _ _ _ ih
  | case6 hId hLow hHigh lId lLow lHigh _ _ _ _ ih => exact lowEq _ _ _ _ _ ih
  | case7 i hId hLow hHigh lId lLow lHigh _ h1 h2 h3 h4 =>
    exact plain _ _ _ (by simp only [Above]; omega) (by simp only [Above]; omega) (by simp)
  | case8 i hId hLow hHigh low hl h1 ih1 ih2 => exact highLt _ _ _ _ _ _ _ h1 rfl ih1 ih2
  | case9 hId hLow hHigh low hl _ ih => exact highEq _ _ _ _ _ ih
  | case10 i hId hLow hHigh low hl h1 h2 =>
    refine plain _ _ _ ?_ (by simp only [Above]; omega) (by simp)
    cases low with
    | Branch a b c => exact absurd rfl (fun e => hl _ _ _ e)
    | _ => trivial
  | case11 i lId lLow lHigh h1 ih1 ih2 =>
    exact lowLt _ _ _ _ _ _ _ h1 (by intro j x y e; cases e) (by simp) rfl ih1 ih2
  | case12 lId lLow lHigh _ ih => exact lowEq _ _ _ _ _ ih
  | case13 i lId lLow lHigh h1 h2 =>
    exact plain _ _ _ (by simp only [Above]; omega) trivial (by simp)
  | case14 i low hl =>
    refine plain _ _ _ ?_ trivial (by simp)
    cases low with
    | Branch a b c => exact absurd rfl (fun e => hl _ _ _ e)
    | _ => trivial

theorem branch_plain {i : Nat} {l h : Node} (hl : Above i l) (hh : Above i h) (hn : h ≠ .Never) :
    branch i l h = .Branch i l h := by
  have : ∀ i l h r, r = branch i l h → Above i l → Above i h → h ≠ .Never →
      r = .Branch i l h := by
    intro i l h r hr
    subst hr
    apply branch_ind (P := fun i l h r => Above i l → Above i h → h ≠ .Never → r = .Branch i l h)
    all_goals (intros; simp_all [Above] <;> omega)
  exact this i l h _ rfl hl hh hn

theorem branch_ok (i : Nat) (l h : Node) : l.Ordered → h.Ordered →
    (branch i l h).Ordered ∧ ∀ x, x < i → Above x l → Above x h → Above x (branch i l h) := by
  apply branch_ind (P := fun i l h r => l.Ordered → h.Ordered →
    r.Ordered ∧ ∀ x, x < i → Above x l → Above x h → Above x r)
  · intro i l hl _; exact ⟨hl, fun x _ h _ => h⟩
  · intro i hId hLow hHigh lLow lHigh a b r hi _ _ ih1 ih2 ih3 hl hh
    simp only [Ordered] at hl hh
    obtain ⟨o1, a1⟩ := ih1 hl.2.2.2.1 hh.2.2.2.1
    obtain ⟨o2, a2⟩ := ih2 hl.2.2.2.2 hh.2.2.2.2
    obtain ⟨o3, a3⟩ := ih3 o1 o2
    refine ⟨o3, fun x hx b1 b2 => ?_⟩
    simp only [Above] at b1 b2
    exact a3 x b1 (a1 x hx (hl.1.mono (by omega)) (hh.1.mono (by omega)))
      (a2 x hx (hl.2.1.mono (by omega)) (hh.2.1.mono (by omega)))
  · intro i hId hLow hHigh low a r hi _ ih1 ih2 hl hh
    simp only [Ordered] at hh
    obtain ⟨o1, a1⟩ := ih1 hh.2.2.2.1 hh.2.2.2.2
    obtain ⟨o2, a2⟩ := ih2 hl o1
    refine ⟨o2, fun x hx b1 b2 => ?_⟩
    simp only [Above] at b2
    exact a2 x b2 b1 (a1 x hx (hh.1.mono (by omega)) (hh.2.1.mono (by omega)))
  · intro i lId lLow lHigh high a r hi _ _ _ ih1 ih2 hl hh
    simp only [Ordered] at hl
    obtain ⟨o1, a1⟩ := ih1 hl.2.2.2.1 hh
    obtain ⟨o2, a2⟩ := ih2 o1 hl.2.2.2.2
    refine ⟨o2, fun x hx b1 b2 => ?_⟩
    simp only [Above] at b1
    exact a2 x b1 (a1 x hx (hl.1.mono (by omega)) b2) (hl.2.1.mono (by omega))
  · intro i hLow hHigh low r ih hl hh
    simp only [Ordered] at hh
    obtain ⟨o1, a1⟩ := ih hl hh.2.2.2.2
    exact ⟨o1, fun x hx b1 b2 => a1 x hx b1 (hh.2.1.mono (by omega))⟩
  · intro i lLow lHigh high r ih hl hh
    simp only [Ordered] at hl
    obtain ⟨o1, a1⟩ := ih hl.2.2.2.1 hh
    exact ⟨o1, fun x hx b1 b2 => a1 x hx (hl.1.mono (by omega)) b2⟩
  · intro i l h h1 h2 h3 hl hh
    exact ⟨⟨h1, h2, h3, hl, hh⟩, fun x hx _ _ => hx⟩

theorem Ordered.branch {i : Nat} {l h : Node} (hl : l.Ordered) (hh : h.Ordered) :
    (branch i l h).Ordered := (branch_ok i l h hl hh).1

theorem Above.branch {i x : Nat} {l h : Node} (hl : l.Ordered) (hh : h.Ordered) (hx : x < i)
    (al : Above x l) (ah : Above x h) : Above x (Node.branch i l h) :=
  (branch_ok i l h hl hh).2 x hx al ah

theorem branch_ne_never {i : Nat} {l h : Node} (ol : l.Ordered) (oh : h.Ordered) (hn : h ≠ .Never) :
    Node.branch i l h ≠ .Never := by
  have : l.Ordered → h.Ordered → h ≠ .Never → Node.branch i l h ≠ .Never := by
    apply branch_ind (P := fun i l h r => l.Ordered → h.Ordered → h ≠ .Never → r ≠ .Never)
    · intro i l _ _ h; exact absurd rfl h
    · intro i hId hLow hHigh lLow lHigh a b r _ ea eb _ ih2 ih3 ol oh _
      simp only [Ordered] at ol oh
      exact ih3 (ea ▸ Ordered.branch ol.2.2.2.1 oh.2.2.2.1) (eb ▸ Ordered.branch ol.2.2.2.2 oh.2.2.2.2)
        (ih2 ol.2.2.2.2 oh.2.2.2.2 oh.2.2.1)
    · intro i hId hLow hHigh low a r _ ea ih1 ih2 ol oh _
      simp only [Ordered] at oh
      exact ih2 ol (ea ▸ Ordered.branch oh.2.2.2.1 oh.2.2.2.2) (ih1 oh.2.2.2.1 oh.2.2.2.2 oh.2.2.1)
    · intro i lId lLow lHigh high a r _ _ _ ea _ ih2 ol oh _
      simp only [Ordered] at ol
      exact ih2 (ea ▸ Ordered.branch ol.2.2.2.1 oh) ol.2.2.2.2 ol.2.2.1
    · intro i hLow hHigh low r ih ol oh _
      simp only [Ordered] at oh
      exact ih ol oh.2.2.2.2 oh.2.2.1
    · intro i lLow lHigh high r ih ol oh hn
      simp only [Ordered] at ol
      exact ih ol.2.2.2.1 oh hn
    · intro i l h _ _ _ _ _ _; simp
  exact this ol oh hn

/-! ### meaning -/

theorem mem_den_branch {i : Nat} {l h : Node} {s : Finset Nat} :
    s ∈ (Node.Branch i l h).Den ↔ s ∈ l.Den ∨ ∃ t ∈ h.Den, s = insert i t := Iff.rfl

theorem lt_of_mem {n : Node} (o : n.Ordered) {x : Nat} (a : Above x n) {s : Finset Nat}
    (hs : s ∈ n.Den) {y : Nat} (hy : y ∈ s) : x < y := by
  induction n generalizing x s y with
  | Branch i l h ihl ihh =>
    simp only [Ordered] at o
    simp only [Above] at a
    rcases hs with hs | ⟨t, ht, rfl⟩
    · have := ihl o.2.2.2.1 o.1 hs hy; omega
    · rcases Finset.mem_insert.mp hy with rfl | hy
      · exact a
      · have := ihh o.2.2.2.2 o.2.1 ht hy; omega
  | Always => rw [Den, Set.mem_singleton_iff] at hs; subst hs; simp at hy
  | Never => exact absurd hs (by simp [Den])

/-- Membership in an ordered branch, by cofactors. -/
theorem mem_ordered {i : Nat} {l h : Node} (o : (Node.Branch i l h).Ordered) {s : Finset Nat} :
    s ∈ (Node.Branch i l h).Den ↔ (i ∉ s ∧ s ∈ l.Den) ∨ (i ∈ s ∧ s.erase i ∈ h.Den) := by
  simp only [Ordered] at o
  rw [mem_den_branch]
  constructor
  · rintro (hs | ⟨t, ht, rfl⟩)
    · exact Or.inl ⟨fun hi => by have := lt_of_mem o.2.2.2.1 o.1 hs hi; omega, hs⟩
    · have hit : i ∉ t := fun hi => by have := lt_of_mem o.2.2.2.2 o.2.1 ht hi; omega
      exact Or.inr ⟨by simp, by rwa [Finset.erase_insert hit]⟩
  · rintro (⟨_, hs⟩ | ⟨hi, hs⟩)
    · exact Or.inl hs
    · exact Or.inr ⟨_, hs, (Finset.insert_erase hi).symm⟩

/-- Membership in `branch` of children that only mention later ids. -/
theorem mem_branch {i : Nat} {l h : Node} (al : Above i l) (ah : Above i h) (ol : l.Ordered)
    (oh : h.Ordered) {s : Finset Nat} :
    s ∈ (branch i l h).Den ↔ (i ∉ s ∧ s ∈ l.Den) ∨ (i ∈ s ∧ s.erase i ∈ h.Den) := by
  by_cases hn : h = .Never
  · subst hn
    rw [branch_never]
    constructor
    · intro hs
      exact Or.inl ⟨fun hi => by have := lt_of_mem ol al hs hi; omega, hs⟩
    · rintro (⟨_, hs⟩ | ⟨_, hs⟩)
      · exact hs
      · exact absurd hs (by simp [Den])
  · rw [branch_plain al ah hn]
    exact mem_ordered ⟨al, ah, hn, ol, oh⟩

theorem exists_mem {n : Node} (o : n.Ordered) (hn : n ≠ .Never) : ∃ s, s ∈ n.Den := by
  induction n with
  | Branch i l h ihl ihh =>
    simp only [Ordered] at o
    obtain ⟨s, hs⟩ := ihh o.2.2.2.2 o.2.2.1
    exact ⟨insert i s, Or.inr ⟨s, hs, rfl⟩⟩
  | Always => exact ⟨∅, rfl⟩
  | Never => exact absurd rfl hn

theorem eq_never {n : Node} (o : n.Ordered) (h : ∀ s, s ∉ n.Den) : n = .Never := by
  by_contra hn
  obtain ⟨s, hs⟩ := exists_mem o hn
  exact h s hs

theorem eq_always {n : Node} (o : n.Ordered) (h : n.Den = {∅}) : n = .Always := by
  cases n with
  | Branch i l h' =>
    simp only [Ordered] at o
    obtain ⟨s, hs⟩ := exists_mem o.2.2.2.2 o.2.2.1
    have : insert i s ∈ (Node.Branch i l h').Den := Or.inr ⟨s, hs, rfl⟩
    rw [h] at this
    exact absurd this (by simp)
  | Always => rfl
  | Never => have : ∅ ∈ Node.Never.Den := by rw [h]; rfl
             exact absurd this (by simp [Den])

/-- Canonicity: an ordered diagram is determined by its family. -/
theorem den_inj {n m : Node} (on : n.Ordered) (om : m.Ordered) (h : n.Den = m.Den) : n = m := by
  induction n generalizing m with
  | Never => exact (eq_never om (fun s hs => by rw [← h] at hs; exact hs)).symm
  | Always => exact (eq_always om h.symm).symm
  | Branch i l hh ihl ihh =>
    have on' := on
    simp only [Ordered] at on
    cases m with
    | Never => exact eq_never on' (fun s hs => by rw [h] at hs; exact hs)
    | Always => exact eq_always on' h
    | Branch j l' h' =>
      have om' := om
      simp only [Ordered] at om
      have hij : i = j := by
        obtain ⟨s, hs⟩ := exists_mem on.2.2.2.2 on.2.2.1
        obtain ⟨t, ht⟩ := exists_mem om.2.2.2.2 om.2.2.1
        have h1 : insert i s ∈ (Node.Branch j l' h').Den := by rw [← h]; exact Or.inr ⟨s, hs, rfl⟩
        have h2 : insert j t ∈ (Node.Branch i l hh).Den := by rw [h]; exact Or.inr ⟨t, ht, rfl⟩
        have e1 : j - 1 + 1 = j ∨ j = 0 := by omega
        have p1 : ∀ {i : Nat} {l h : Node}, (Node.Branch i l h).Ordered → ∀ {s : Finset Nat}, s ∈ (Node.Branch i l h).Den → ∀ y ∈ s, i ≤ y := by
          intro i l h o s hs y hy
          rcases i with _ | i
          · omega
          · have := lt_of_mem (x := i) o (by simp [Above]) hs hy; omega
        have := p1 om' h1 i (by simp)
        have := p1 on' h2 j (by simp)
        omega
      subst hij
      have hl : l.Den = l'.Den := by
        ext s
        by_cases hi : i ∈ s
        · constructor <;> intro hs
          · have := lt_of_mem on.2.2.2.1 on.1 hs hi; omega
          · have := lt_of_mem om.2.2.2.1 om.1 hs hi; omega
        · have := Set.ext_iff.mp h s
          rw [mem_ordered on', mem_ordered om'] at this
          simpa [hi] using this
      have hh' : hh.Den = h'.Den := by
        ext s
        by_cases hi : i ∈ s
        · constructor <;> intro hs
          · have := lt_of_mem on.2.2.2.2 on.2.1 hs hi; omega
          · have := lt_of_mem om.2.2.2.2 om.2.1 hs hi; omega
        · have := Set.ext_iff.mp h (insert i s)
          rw [mem_ordered on', mem_ordered om'] at this
          simpa [hi] using this
      rw [ihl on.2.2.2.1 om.2.2.2.1 hl, ihh on.2.2.2.2 om.2.2.2.2 hh']

end Node
end Verif.Zdd2
