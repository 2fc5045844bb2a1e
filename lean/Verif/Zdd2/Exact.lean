import Verif.Zdd2.Laws
import Mathlib.Data.Finset.Max

/-!
# Exactly what zdd2 `intersect`, `product` and `subset_none` compute (C18, C19, C22)
-/

set_option linter.unusedSimpArgs false
set_option linter.unusedVariables false
set_option linter.unusedSectionVars false

namespace Verif.Zdd2
open Verif Verif.Spec Verif.Zdd2.Spec

namespace Node

local notation "lt'" => ((· < ·) : Nat → Nat → Prop)

theorem ge_of_mem {i : Nat} {l h : Node} (o : (Node.Branch i l h).Ordered) {s : Finset Nat}
    (hs : s ∈ (Node.Branch i l h).Den) {y : Nat} (hy : y ∈ s) : i ≤ y := by
  rcases i with _ | i
  · omega
  · have := lt_of_mem (x := i) o (by simp [Above]) hs hy; omega

theorem stops_low {i : Nat} {l h : Node} (o : (Node.Branch i l h).Ordered) {s : Finset Nat}
    (hs : ∀ y ∈ s, i < y) : Stops lt' (Node.Branch i l h).Den s ↔ Stops lt' l.Den s := by
  constructor
  · rintro ⟨q, hq, hi, hc⟩
    have hiq : i ∉ q := fun h' => by have := hs i (hi.1 h'); omega
    have hql : q ∈ l.Den := by
      rcases (mem_ordered o).mp hq with ⟨_, h1⟩ | ⟨h1, _⟩
      · exact h1
      · exact absurd h1 hiq
    exact ⟨q, hql, hi, fun t ht => hc t (Or.inl ht)⟩
  · rintro ⟨q, hq, hi, hc⟩
    refine ⟨q, Or.inl hq, hi, fun t ht hit hne y hy hyq => ?_⟩
    rcases (mem_ordered o).mp ht with ⟨_, h1⟩ | ⟨h1, h2⟩
    · exact hc t h1 hit hne y hy hyq
    · refine ⟨i, h1, fun h' => ?_, hs y hy⟩
      have := hs i (hi.1 h'); omega

theorem stops_skip {i : Nat} {n : Node} (o : n.Ordered) (a : Above i n) (hne : ∃ t ∈ n.Den, t ≠ ∅)
    {s : Finset Nat} (hi : i ∈ s) : ¬ Stops lt' n.Den s := by
  rintro ⟨q, hq, hin, hc⟩
  have hiq : i ∉ q := fun h' => by have := lt_of_mem o a hq h'; omega
  have hq0 : q = ∅ := by
    rw [Finset.eq_empty_iff_forall_notMem]
    intro x hx
    have h1 := lt_of_mem o a hq hx
    have h2 : x < i := hin.2 x hx i hi hiq
    omega
  subst hq0
  obtain ⟨t, ht, h0⟩ := hne
  obtain ⟨z, hz, _, hlt⟩ := hc t ht ⟨by simp, by simp⟩ h0 i hi hiq
  have := lt_of_mem o a ht hz
  omega

theorem stops_high {i : Nat} {l h : Node} (o : (Node.Branch i l h).Ordered) {s : Finset Nat}
    (hi : i ∈ s) (hs : ∀ y ∈ s, i ≤ y) :
    Stops lt' (Node.Branch i l h).Den s ↔ Stops lt' h.Den (s.erase i) := by
  have o' := o
  simp only [Ordered] at o'
  have hgt : ∀ q ∈ h.Den, ∀ x ∈ q, i < x := fun q hq x hx => lt_of_mem o'.2.2.2.2 o'.2.1 hq hx
  constructor
  · rintro ⟨q, hq, hin, hc⟩
    have hiq : i ∈ q := by
      by_contra hiq
      have hq0 : q = ∅ := by
        rw [Finset.eq_empty_iff_forall_notMem]
        intro x hx
        have h1 := ge_of_mem o hq hx
        have h2 : x < i := hin.2 x hx i hi hiq
        omega
      subst hq0
      obtain ⟨t, ht⟩ := exists_mem o'.2.2.2.2 o'.2.2.1
      have ht' : insert i t ∈ (Node.Branch i l h).Den := Or.inr ⟨t, ht, rfl⟩
      obtain ⟨z, hz, _, hlt⟩ := hc _ ht' ⟨by simp, by simp⟩ (by simp) i hi hiq
      have := ge_of_mem o ht' hz
      omega
    have hqh : q.erase i ∈ h.Den := by
      rcases (mem_ordered o).mp hq with ⟨h1, _⟩ | ⟨_, h1⟩
      · exact absurd hiq h1
      · exact h1
    refine ⟨q.erase i, hqh, ⟨Finset.erase_subset_erase _ hin.1, fun x hx y hy hyq => ?_⟩, ?_⟩
    · have hyi := Finset.ne_of_mem_erase hy
      exact hin.2 x (Finset.mem_of_mem_erase hx) y (Finset.mem_of_mem_erase hy)
        (fun h' => hyq (Finset.mem_erase.mpr ⟨hyi, h'⟩))
    · intro t ht hit hne y hy hyq
      have hyi := Finset.ne_of_mem_erase hy
      have hti : i ∉ t := fun h' => by have := hgt t ht i h'; omega
      have k1 : Initial lt' q (insert i t) := by
        refine ⟨?_, ?_⟩
        · intro x hx
          by_cases hxi : x = i
          · subst hxi; simp
          · exact Finset.mem_insert_of_mem (hit.1 (Finset.mem_erase.mpr ⟨hxi, hx⟩))
        · intro x hx z hz hzq
          rcases Finset.mem_insert.mp hz with rfl | hz'
          · exact absurd hiq hzq
          · by_cases hxi : x = i
            · rw [hxi]; exact hgt t ht z hz'
            · exact hit.2 x (Finset.mem_erase.mpr ⟨hxi, hx⟩) z hz'
                (fun h' => hzq (Finset.mem_of_mem_erase h'))
      have k2 : insert i t ≠ q := by
        intro e
        apply hne
        rw [← e, Finset.erase_insert hti]
      obtain ⟨z, hz, hzq, hlt⟩ := hc (insert i t) (Or.inr ⟨t, ht, rfl⟩) k1 k2 y (Finset.mem_of_mem_erase hy)
        (fun h' => hyq (Finset.mem_erase.mpr ⟨hyi, h'⟩))
      rcases Finset.mem_insert.mp hz with rfl | hz
      · exact absurd hiq hzq
      · exact ⟨z, hz, fun h' => hzq (Finset.mem_of_mem_erase h'), hlt⟩
  · rintro ⟨q, hq, hin, hc⟩
    have hiq : i ∉ q := fun h' => by have := hgt q hq i h'; omega
    refine ⟨insert i q, Or.inr ⟨q, hq, rfl⟩, ⟨?_, ?_⟩, ?_⟩
    · intro x hx
      rcases Finset.mem_insert.mp hx with rfl | hx
      · exact hi
      · exact Finset.mem_of_mem_erase (hin.1 hx)
    · intro x hx y hy hyq
      rw [Finset.mem_insert, not_or] at hyq
      rcases Finset.mem_insert.mp hx with rfl | hx
      · have := hs y hy; omega
      · exact hin.2 x hx y (Finset.mem_erase.mpr ⟨hyq.1, hy⟩) hyq.2
    · intro t ht hit hne y hy hyq
      rw [Finset.mem_insert, not_or] at hyq
      have hti : i ∈ t := hit.1 (by simp)
      have hth : t.erase i ∈ h.Den := by
        rcases (mem_ordered o).mp ht with ⟨h1, _⟩ | ⟨_, h1⟩
        · exact absurd hti h1
        · exact h1
      have k1 : Initial lt' q (t.erase i) := by
        refine ⟨?_, ?_⟩
        · intro x hx
          exact Finset.mem_erase.mpr ⟨fun e => hiq (e ▸ hx), hit.1 (Finset.mem_insert_of_mem hx)⟩
        · intro x hx z hz hzq
          exact hit.2 x (Finset.mem_insert_of_mem hx) z (Finset.mem_of_mem_erase hz) (by
            rw [Finset.mem_insert, not_or]; exact ⟨Finset.ne_of_mem_erase hz, hzq⟩)
      have k2 : t.erase i ≠ q := by
        intro e; apply hne; rw [← e, Finset.insert_erase hti]
      obtain ⟨z, hz, hzq, hlt⟩ := hc (t.erase i) hth k1 k2 y (Finset.mem_erase.mpr ⟨hyq.1, hy⟩) hyq.2
      exact ⟨z, Finset.mem_of_mem_erase hz, by
          rw [Finset.mem_insert, not_or]; exact ⟨Finset.ne_of_mem_erase hz, hzq⟩, hlt⟩

theorem initial_refl (lt : Nat → Nat → Prop) (s : Finset Nat) : Initial lt s s :=
  ⟨subset_rfl, fun x _ y hy hn => absurd hy hn⟩

theorem stops_self (lt : Nat → Nat → Prop) {A : Set (Finset Nat)} {s : Finset Nat} (hs : s ∈ A) :
    Stops lt A s := ⟨s, hs, initial_refl lt s, fun t _ _ _ y hy hn => absurd hy hn⟩

/-- Exactly what `intersect` computes on ordered diagrams. -/
theorem intersect_exact (a b : Node) (oa : a.Ordered) (ob : b.Ordered) :
    (intersect a b).Den = stopIntersect lt' a.Den b.Den := by
  suffices h : ∀ s, s ∈ (intersect a b).Den ↔ s ∈ stopIntersect lt' a.Den b.Den from Set.ext h
  fun_induction intersect a b with
  | case1 a =>
    intro s
    simp only [stopIntersect, Set.mem_ofPred_eq, or_self]
    exact ⟨fun h => ⟨h, stops_self _ h⟩, fun h => h.1⟩
  | case2 a ne =>
    intro s
    simp only [stopIntersect, Set.mem_ofPred_eq]
    constructor
    · intro h
      exact Or.inl ⟨h, ∅, rfl, ⟨by simp, by simp⟩, fun t ht _ hne => absurd ht hne⟩
    · rintro (⟨h, _⟩ | ⟨h, q, hq, hin, _⟩)
      · exact h
      · rw [Den, Set.mem_singleton_iff] at h
        subst h
        have : q = ∅ := Finset.subset_empty.mp hin.1
        rwa [← this]
  | case3 b _ ne =>
    intro s
    simp only [stopIntersect, Set.mem_ofPred_eq]
    constructor
    · intro h
      exact Or.inr ⟨h, ∅, rfl, ⟨by simp, by simp⟩, fun t ht _ hne => absurd ht hne⟩
    · rintro (⟨h, q, hq, hin, _⟩ | ⟨h, _⟩)
      · rw [Den, Set.mem_singleton_iff] at h
        subst h
        have : q = ∅ := Finset.subset_empty.mp hin.1
        rwa [← this]
      · exact h
  | case4 a _ _ => intro s; simp [stopIntersect, Stops, Den]
  | case5 a _ _ _ => intro s; simp [stopIntersect, Stops, Den]
  | case6 i l h j l' h' hlt _ ih =>
    intro s
    have oa' := oa
    have ob' := ob
    simp only [Ordered] at oa ob
    rw [ih oa.2.2.2.1 ob' s]
    have hne : ∃ t ∈ (Node.Branch j l' h').Den, t ≠ ∅ := by
      obtain ⟨t, ht⟩ := exists_mem ob.2.2.2.2 ob.2.2.1
      exact ⟨insert j t, Or.inr ⟨t, ht, rfl⟩, by simp⟩
    simp only [stopIntersect, Set.mem_ofPred_eq]
    refine or_congr ?_ ?_
    · constructor
      · rintro ⟨h1, h2⟩; exact ⟨Or.inl h1, h2⟩
      · rintro ⟨h1, h2⟩
        rcases (mem_ordered oa').mp h1 with ⟨_, h3⟩ | ⟨h3, _⟩
        · exact ⟨h3, h2⟩
        · exact absurd h2 (stops_skip ob' (above_of hlt) hne h3)
    · refine and_congr_right fun h1 => ?_
      exact (stops_low oa' (fun y hy => lt_of_mem ob' (above_of hlt) h1 hy)).symm
  | case7 i l h j l' h' _ hlt _ ih =>
    intro s
    have oa' := oa
    have ob' := ob
    simp only [Ordered] at oa ob
    rw [ih oa' ob.2.2.2.1 s]
    have hne : ∃ t ∈ (Node.Branch i l h).Den, t ≠ ∅ := by
      obtain ⟨t, ht⟩ := exists_mem oa.2.2.2.2 oa.2.2.1
      exact ⟨insert i t, Or.inr ⟨t, ht, rfl⟩, by simp⟩
    simp only [stopIntersect, Set.mem_ofPred_eq]
    refine or_congr ?_ ?_
    · refine and_congr_right fun h1 => ?_
      exact (stops_low ob' (fun y hy => lt_of_mem oa' (above_of hlt) h1 hy)).symm
    · constructor
      · rintro ⟨h1, h2⟩; exact ⟨Or.inl h1, h2⟩
      · rintro ⟨h1, h2⟩
        rcases (mem_ordered ob').mp h1 with ⟨_, h3⟩ | ⟨h3, _⟩
        · exact ⟨h3, h2⟩
        · exact absurd h2 (stops_skip oa' (above_of hlt) hne h3)
  | case8 i l h j l' h' h1 h2 _ ih1 ih2 =>
    obtain rfl : i = j := by omega
    intro s
    have oa' := oa
    have ob' := ob
    simp only [Ordered] at oa ob
    obtain ⟨o1, ab1, _⟩ := intersect_ok l l' oa.2.2.2.1 ob.2.2.2.1
    obtain ⟨o2, ab2, _⟩ := intersect_ok h h' oa.2.2.2.2 ob.2.2.2.2
    rw [mem_branch (ab1 i oa.1 ob.1) (ab2 i oa.2.1 ob.2.1) o1 o2, ih1 oa.2.2.2.1 ob.2.2.2.1,
      ih2 oa.2.2.2.2 ob.2.2.2.2]
    simp only [stopIntersect, Set.mem_ofPred_eq]
    have side : ∀ {l h l' h' : Node}, (Node.Branch i l h).Ordered → (Node.Branch i l' h').Ordered →
        ((s ∈ (Node.Branch i l h).Den ∧ Stops lt' (Node.Branch i l' h').Den s) ↔
          ((i ∉ s ∧ s ∈ l.Den ∧ Stops lt' l'.Den s) ∨
            (i ∈ s ∧ s.erase i ∈ h.Den ∧ Stops lt' h'.Den (s.erase i)))) := by
      intro l h l' h' o o'
      constructor
      · rintro ⟨m1, m2⟩
        have hge : ∀ y ∈ s, i ≤ y := fun y hy => ge_of_mem o m1 hy
        rcases (mem_ordered o).mp m1 with ⟨n1, n2⟩ | ⟨n1, n2⟩
        · refine Or.inl ⟨n1, n2, (stops_low o' fun y hy => ?_).mp m2⟩
          have := hge y hy
          have : y ≠ i := fun e => n1 (e ▸ hy)
          omega
        · exact Or.inr ⟨n1, n2, (stops_high o' n1 hge).mp m2⟩
      · rintro (⟨n1, n2, n3⟩ | ⟨n1, n2, n3⟩)
        · have m1 := (mem_ordered o).mpr (Or.inl ⟨n1, n2⟩)
          refine ⟨m1, (stops_low o' fun y hy => ?_).mpr n3⟩
          have := ge_of_mem o m1 hy
          have : y ≠ i := fun e => n1 (e ▸ hy)
          omega
        · have m1 := (mem_ordered o).mpr (Or.inr ⟨n1, n2⟩)
          exact ⟨m1, (stops_high o' n1 (fun y hy => ge_of_mem o m1 hy)).mpr n3⟩
    rw [side oa' ob', side ob' oa']
    tauto

/-! ### product -/

theorem cont_low {i : Nat} {l h : Node} (o : (Node.Branch i l h).Ordered) {p : Finset Nat}
    (hp : i ∉ p) {x : Nat} (hx : i < x) :
    Cont lt' (Node.Branch i l h).Den p x = Cont lt' l.Den p x := by
  ext r
  simp only [Cont, Set.mem_ofPred_eq]
  constructor
  · rintro ⟨t, ht, h1, h2⟩
    have hit : i ∉ t := fun h' => hp ((h1 i hx).mp h')
    rcases (mem_ordered o).mp ht with ⟨_, h3⟩ | ⟨h3, _⟩
    · exact ⟨t, h3, h1, h2⟩
    · exact absurd h3 hit
  · rintro ⟨t, ht, h1, h2⟩
    exact ⟨t, Or.inl ht, h1, h2⟩

theorem cont_high {i : Nat} {l h : Node} (o : (Node.Branch i l h).Ordered) {p : Finset Nat}
    (hp : i ∉ p) {x : Nat} (hx : i < x) :
    Cont lt' (Node.Branch i l h).Den (insert i p) x = Cont lt' h.Den p x := by
  have o' := o
  simp only [Ordered] at o'
  ext r
  simp only [Cont, Set.mem_ofPred_eq]
  constructor
  · rintro ⟨t, ht, h1, h2⟩
    have hit : i ∈ t := (h1 i hx).mpr (by simp)
    rcases (mem_ordered o).mp ht with ⟨h3, _⟩ | ⟨_, h3⟩
    · exact absurd hit h3
    · refine ⟨t.erase i, h3, fun z hz => ?_, fun z => ?_⟩
      · have := h1 z hz
        by_cases hzi : z = i
        · subst hzi; simp [hp]
        · rw [Finset.mem_erase]; rw [this]; simp [hzi]
      · rw [h2 z, Finset.mem_erase]
        constructor
        · rintro ⟨a1, a2⟩; exact ⟨⟨fun e => a2 (by omega), a1⟩, a2⟩
        · rintro ⟨⟨_, a1⟩, a2⟩; exact ⟨a1, a2⟩
  · rintro ⟨t, ht, h1, h2⟩
    refine ⟨insert i t, Or.inr ⟨t, ht, rfl⟩, fun z hz => ?_, fun z => ?_⟩
    · simp [h1 z hz]
    · rw [h2 z, Finset.mem_insert]
      constructor
      · rintro ⟨a1, a2⟩; exact ⟨Or.inr a1, a2⟩
      · rintro ⟨a1 | a1, a2⟩
        · exact absurd (a1 ▸ hx) a2
        · exact ⟨a1, a2⟩

theorem cont_all {A : Set (Finset Nat)} {i : Nat} (hA : ∀ t ∈ A, ∀ y ∈ t, i ≤ y) {p : Finset Nat}
    (hp : ∀ y ∈ p, i ≤ y) : Cont lt' A p i = A := by
  ext r
  simp only [Cont, Set.mem_ofPred_eq]
  constructor
  · rintro ⟨t, ht, _, h2⟩
    have : r = t := by
      ext z; rw [h2 z]
      exact ⟨fun h => h.1, fun h => ⟨h, by have := hA t ht z h; omega⟩⟩
    rwa [this]
  · intro hr
    refine ⟨r, hr, fun z hz => ?_, fun z => ⟨fun h => ⟨h, by have := hA r hr z h; omega⟩, fun h => h.1⟩⟩
    constructor
    · intro h; have := hA r hr z h; omega
    · intro h; have := hp z h; omega

/-- The pairs that contribute to a product.  Not code: used to state or prove properties. -/
def Linked (A B : Set (Finset Nat)) (p q : Finset Nat) : Prop :=
  ∀ x, ¬ (x ∈ p ↔ x ∈ q) → Cont lt' A p x ≠ Cont lt' B q x

theorem mem_contProduct {A B : Set (Finset Nat)} {s : Finset Nat} :
    s ∈ contProduct lt' A B ↔ ∃ p ∈ A, ∃ q ∈ B, s = p ∪ q ∧ Linked A B p q := Iff.rfl

theorem linked_symm {A B : Set (Finset Nat)} {p q : Finset Nat} :
    Linked A B p q ↔ Linked B A q p :=
  forall_congr' fun x => by rw [ne_comm, Iff.comm (a := x ∈ p)]

/-- From step `i` on: how `Linked` looks at the cofactors. -/
theorem linked_step {i : Nat} {A B A' B' : Set (Finset Nat)} {p q p' q' : Finset Nat}
    (hp : ∀ y ∈ p', i < y) (hq : ∀ y ∈ q', i < y)
    (hpp : p = p' ∨ p = insert i p') (hqq : q = q' ∨ q = insert i q')
    (cA : ∀ x, i < x → Cont lt' A p x = Cont lt' A' p' x)
    (cB : ∀ x, i < x → Cont lt' B q x = Cont lt' B' q' x)
    (hAB : Cont lt' A p i ≠ Cont lt' B q i) :
    Linked A B p q ↔ Linked A' B' p' q' := by
  have e : ∀ x, i < x → ((x ∈ p ↔ x ∈ q) ↔ (x ∈ p' ↔ x ∈ q')) := by
    intro x hx
    have e1 : x ∈ p ↔ x ∈ p' := by
      rcases hpp with rfl | rfl
      · rfl
      · rw [Finset.mem_insert]; exact ⟨fun h => h.resolve_left (by omega), Or.inr⟩
    have e2 : x ∈ q ↔ x ∈ q' := by
      rcases hqq with rfl | rfl
      · rfl
      · rw [Finset.mem_insert]; exact ⟨fun h => h.resolve_left (by omega), Or.inr⟩
    rw [e1, e2]
  constructor
  · intro h x hx
    have hix : i < x := by
      by_contra hc
      apply hx
      exact ⟨fun h' => absurd (hp x h') hc, fun h' => absurd (hq x h') hc⟩
    rw [← cA x hix, ← cB x hix]
    exact h x (fun h' => hx ((e x hix).mp h'))
  · intro h x hx
    rcases lt_trichotomy x i with hlt | rfl | hgt
    · exfalso
      apply hx
      have n1 : x ∉ p := by
        rcases hpp with rfl | rfl
        · intro h'; have := hp x h'; omega
        · rw [Finset.mem_insert]; rintro (h' | h')
          · omega
          · have := hp x h'; omega
      have n2 : x ∉ q := by
        rcases hqq with rfl | rfl
        · intro h'; have := hq x h'; omega
        · rw [Finset.mem_insert]; rintro (h' | h')
          · omega
          · have := hq x h'; omega
      simp [n1, n2]
    · exact hAB
    · rw [cA x hgt, cB x hgt]
      exact h x (fun h' => hx ((e x hgt).mpr h'))

theorem contProduct_self (A : Set (Finset Nat)) : contProduct lt' A A = A := by
  ext s
  rw [mem_contProduct]
  constructor
  · rintro ⟨p, hp, q, hq, rfl, hl⟩
    have : p = q := by
      by_contra hne
      have hd : (symmDiff p q).Nonempty := by
        rw [Finset.nonempty_iff_ne_empty]
        intro h; exact hne (symmDiff_eq_bot.mp h)
      have hm := Finset.min'_mem _ hd
      have hlt : ∀ z, z < (symmDiff p q).min' hd → (z ∈ p ↔ z ∈ q) := by
        intro z hz
        by_contra hc
        have : z ∈ symmDiff p q := by rw [Finset.mem_symmDiff]; tauto
        have := Finset.min'_le _ z this
        omega
      refine hl ((symmDiff p q).min' hd) ?_ ?_
      · rw [Finset.mem_symmDiff] at hm; tauto
      · ext r
        simp only [Cont, Set.mem_ofPred_eq]
        refine exists_congr fun t => and_congr_right fun _ => and_congr_left fun _ => ?_
        exact forall_congr' fun z => imp_congr_right fun hz => by rw [hlt z hz]
    subst this
    simpa using hp
  · intro hs
    exact ⟨s, hs, s, hs, by simp, fun x hx => absurd Iff.rfl hx⟩

theorem contProduct_comm (A B : Set (Finset Nat)) : contProduct lt' A B = contProduct lt' B A := by
  ext s
  rw [mem_contProduct, mem_contProduct]
  constructor
  · rintro ⟨p, hp, q, hq, rfl, h⟩
    exact ⟨q, hq, p, hp, Finset.union_comm _ _, linked_symm.mp h⟩
  · rintro ⟨p, hp, q, hq, rfl, h⟩
    exact ⟨q, hq, p, hp, Finset.union_comm _ _, linked_symm.mp h⟩

theorem contProduct_unit (A : Set (Finset Nat)) : contProduct lt' A {∅} = A := by
  ext s
  rw [mem_contProduct]
  constructor
  · rintro ⟨p, hp, q, hq, rfl, _⟩
    rw [Set.mem_singleton_iff] at hq
    subst hq; simpa using hp
  · intro hs
    refine ⟨s, hs, ∅, rfl, by simp, fun x hx he => ?_⟩
    have hxs : x ∈ s := by simpa using hx
    have : s.filter (fun z => ¬ z < x) ∈ Cont lt' A s x :=
      ⟨s, hs, fun z _ => Iff.rfl, fun z => by rw [Finset.mem_filter]⟩
    rw [he] at this
    obtain ⟨t, ht, _, h2⟩ := this
    rw [Set.mem_singleton_iff] at ht
    subst ht
    have := (h2 x).mp (Finset.mem_filter.mpr ⟨hxs, by omega⟩)
    simp at this

/-- Exactly what `product` computes on ordered diagrams. -/
theorem product_exact (a b : Node) (oa : a.Ordered) (ob : b.Ordered) :
    (product a b).Den = contProduct lt' a.Den b.Den := by
  fun_induction product a b with
  | case1 a => exact (contProduct_self _).symm
  | case2 a ne => exact (contProduct_unit _).symm
  | case3 b _ ne => rw [contProduct_comm]; exact (contProduct_unit _).symm
  | case4 a _ _ => ext s; simp [contProduct, Den]
  | case5 a _ _ _ => ext s; simp [contProduct, Den]
  | case6 i l h j l' h' hlt ne ih1 ih2 =>
    have oa' := oa
    simp only [Ordered] at oa
    obtain ⟨o1, ab1, _⟩ := product_ok l _ oa.2.2.2.1 ob
    obtain ⟨o2, ab2, _⟩ := product_ok h _ oa.2.2.2.2 ob
    ext s
    rw [mem_branch (ab1 i oa.1 (above_of hlt)) (ab2 i oa.2.1 (above_of hlt)) o1 o2,
      ih1 oa.2.2.2.1 ob, ih2 oa.2.2.2.2 ob]
    have hB : ∀ q ∈ (Node.Branch j l' h').Den, ∀ y ∈ q, i < y :=
      fun q hq y hy => lt_of_mem ob (above_of hlt) hq hy
    have hL : ∀ q ∈ l.Den, ∀ y ∈ q, i < y := fun q hq y hy => lt_of_mem oa.2.2.2.1 oa.1 hq hy
    have hH : ∀ q ∈ h.Den, ∀ y ∈ q, i < y := fun q hq y hy => lt_of_mem oa.2.2.2.2 oa.2.1 hq hy
    have hA : ∀ q ∈ (Node.Branch i l h).Den, ∀ y ∈ q, i ≤ y := fun q hq y hy => ge_of_mem oa' hq hy
    have hd : ∀ p ∈ (Node.Branch i l h).Den, ∀ q ∈ (Node.Branch j l' h').Den,
        Cont lt' (Node.Branch i l h).Den p i ≠ Cont lt' (Node.Branch j l' h').Den q i := by
      intro p hp q hq
      rw [cont_all hA (hA p hp), cont_all (fun t ht y hy => le_of_lt (hB t ht y hy))
        (fun y hy => le_of_lt (hB q hq y hy))]
      exact fun e => ne (den_inj oa' ob e)
    have lowL : ∀ p ∈ l.Den, ∀ q ∈ (Node.Branch j l' h').Den,
        (Linked (Node.Branch i l h).Den (Node.Branch j l' h').Den p q ↔
          Linked l.Den (Node.Branch j l' h').Den p q) := fun p hp q hq =>
      linked_step (hL p hp) (hB q hq) (Or.inl rfl) (Or.inl rfl)
        (fun x hx => cont_low oa' (fun h' => by have := hL p hp i h'; omega) hx) (fun x _ => rfl)
        (hd p (Or.inl hp) q hq)
    have highL : ∀ p ∈ h.Den, ∀ q ∈ (Node.Branch j l' h').Den,
        (Linked (Node.Branch i l h).Den (Node.Branch j l' h').Den (insert i p) q ↔
          Linked h.Den (Node.Branch j l' h').Den p q) := fun p hp q hq =>
      linked_step (hH p hp) (hB q hq) (Or.inr rfl) (Or.inl rfl)
        (fun x hx => cont_high oa' (fun h' => by have := hH p hp i h'; omega) hx) (fun x _ => rfl)
        (hd _ (Or.inr ⟨p, hp, rfl⟩) q hq)
    simp only [mem_contProduct]
    constructor
    · rintro (⟨_, p, hp, q, hq, rfl, hk⟩ | ⟨hi, p, hp, q, hq, e, hk⟩)
      · exact ⟨p, Or.inl hp, q, hq, rfl, (lowL p hp q hq).mpr hk⟩
      · refine ⟨insert i p, Or.inr ⟨p, hp, rfl⟩, q, hq, ?_, (highL p hp q hq).mpr hk⟩
        rw [Finset.insert_union, ← e, Finset.insert_erase hi]
    · rintro ⟨p, hp | ⟨p', hp, rfl⟩, q, hq, rfl, hk⟩
      · refine Or.inl ⟨?_, p, hp, q, hq, rfl, (lowL p hp q hq).mp hk⟩
        rw [Finset.mem_union, not_or]
        exact ⟨fun h' => by have := hL p hp i h'; omega, fun h' => by have := hB q hq i h'; omega⟩
      · refine Or.inr ⟨by simp, p', hp, q, hq, ?_, (highL p' hp q hq).mp hk⟩
        rw [Finset.insert_union, Finset.erase_insert]
        rw [Finset.mem_union, not_or]
        exact ⟨fun h' => by have := hH p' hp i h'; omega, fun h' => by have := hB q hq i h'; omega⟩
  | case7 i l h j l' h' _ hlt ne ih1 ih2 =>
    have ob' := ob
    simp only [Ordered] at ob
    obtain ⟨o1, ab1, _⟩ := product_ok _ l' oa ob.2.2.2.1
    obtain ⟨o2, ab2, _⟩ := product_ok _ h' oa ob.2.2.2.2
    ext s
    rw [mem_branch (ab1 j (above_of hlt) ob.1) (ab2 j (above_of hlt) ob.2.1) o1 o2,
      ih1 oa ob.2.2.2.1, ih2 oa ob.2.2.2.2]
    have hB : ∀ q ∈ (Node.Branch i l h).Den, ∀ y ∈ q, j < y :=
      fun q hq y hy => lt_of_mem oa (above_of hlt) hq hy
    have hL : ∀ q ∈ l'.Den, ∀ y ∈ q, j < y := fun q hq y hy => lt_of_mem ob.2.2.2.1 ob.1 hq hy
    have hH : ∀ q ∈ h'.Den, ∀ y ∈ q, j < y := fun q hq y hy => lt_of_mem ob.2.2.2.2 ob.2.1 hq hy
    have hA : ∀ q ∈ (Node.Branch j l' h').Den, ∀ y ∈ q, j ≤ y := fun q hq y hy => ge_of_mem ob' hq hy
    have hd : ∀ p ∈ (Node.Branch i l h).Den, ∀ q ∈ (Node.Branch j l' h').Den,
        Cont lt' (Node.Branch i l h).Den p j ≠ Cont lt' (Node.Branch j l' h').Den q j := by
      intro p hp q hq
      rw [cont_all hA (hA q hq), cont_all (fun t ht y hy => le_of_lt (hB t ht y hy))
        (fun y hy => le_of_lt (hB p hp y hy))]
      exact fun e => ne (den_inj oa ob' e)
    have lowL : ∀ p ∈ (Node.Branch i l h).Den, ∀ q ∈ l'.Den,
        (Linked (Node.Branch i l h).Den (Node.Branch j l' h').Den p q ↔
          Linked (Node.Branch i l h).Den l'.Den p q) := fun p hp q hq =>
      linked_step (hB p hp) (hL q hq) (Or.inl rfl) (Or.inl rfl) (fun x _ => rfl)
        (fun x hx => cont_low ob' (fun h' => by have := hL q hq j h'; omega) hx)
        (hd p hp q (Or.inl hq))
    have highL : ∀ p ∈ (Node.Branch i l h).Den, ∀ q ∈ h'.Den,
        (Linked (Node.Branch i l h).Den (Node.Branch j l' h').Den p (insert j q) ↔
          Linked (Node.Branch i l h).Den h'.Den p q) := fun p hp q hq =>
      linked_step (hB p hp) (hH q hq) (Or.inl rfl) (Or.inr rfl) (fun x _ => rfl)
        (fun x hx => cont_high ob' (fun h' => by have := hH q hq j h'; omega) hx)
        (hd _ hp _ (Or.inr ⟨q, hq, rfl⟩))
    simp only [mem_contProduct]
    constructor
    · rintro (⟨_, p, hp, q, hq, rfl, hk⟩ | ⟨hi, p, hp, q, hq, e, hk⟩)
      · exact ⟨p, hp, q, Or.inl hq, rfl, (lowL p hp q hq).mpr hk⟩
      · refine ⟨p, hp, insert j q, Or.inr ⟨q, hq, rfl⟩, ?_, (highL p hp q hq).mpr hk⟩
        rw [Finset.union_insert, ← e, Finset.insert_erase hi]
    · rintro ⟨p, hp, q, hq | ⟨q', hq, rfl⟩, rfl, hk⟩
      · refine Or.inl ⟨?_, p, hp, q, hq, rfl, (lowL p hp q hq).mp hk⟩
        rw [Finset.mem_union, not_or]
        exact ⟨fun h' => by have := hB p hp j h'; omega, fun h' => by have := hL q hq j h'; omega⟩
      · refine Or.inr ⟨by simp, p, hp, q', hq, ?_, (highL p hp q' hq).mp hk⟩
        rw [Finset.union_insert, Finset.erase_insert]
        rw [Finset.mem_union, not_or]
        exact ⟨fun h' => by have := hB p hp j h'; omega, fun h' => by have := hH q' hq j h'; omega⟩
  | case8 i l h j l' h' h1 h2 ne ih1 ih2 ih3 ih4 =>
    obtain rfl : i = j := by omega
    have oa' := oa
    have ob' := ob
    simp only [Ordered] at oa ob
    obtain ⟨o1, ab1, _⟩ := product_ok l l' oa.2.2.2.1 ob.2.2.2.1
    obtain ⟨o2, ab2, _⟩ := product_ok l h' oa.2.2.2.1 ob.2.2.2.2
    obtain ⟨o3, ab3, _⟩ := product_ok h l' oa.2.2.2.2 ob.2.2.2.1
    obtain ⟨o4, ab4, _⟩ := product_ok h h' oa.2.2.2.2 ob.2.2.2.2
    have o34 := o3.union o4
    have o234 := o2.union o34
    have abU : Above i (union (product l h') (union (product h l') (product h h'))) :=
      (union_ok _ _ o2 o34).2.1 i (ab2 i oa.1 ob.2.1)
        ((union_ok _ _ o3 o4).2.1 i (ab3 i oa.2.1 ob.1) (ab4 i oa.2.1 ob.2.1))
    ext s
    rw [mem_branch (ab1 i oa.1 ob.1) abU o1 o234, mem_union o2 o34, mem_union o3 o4,
      ih1 oa.2.2.2.1 ob.2.2.2.1, ih2 oa.2.2.2.1 ob.2.2.2.2, ih3 oa.2.2.2.2 ob.2.2.2.1,
      ih4 oa.2.2.2.2 ob.2.2.2.2]
    have hL : ∀ q ∈ l.Den, ∀ y ∈ q, i < y := fun q hq y hy => lt_of_mem oa.2.2.2.1 oa.1 hq hy
    have hH : ∀ q ∈ h.Den, ∀ y ∈ q, i < y := fun q hq y hy => lt_of_mem oa.2.2.2.2 oa.2.1 hq hy
    have hL' : ∀ q ∈ l'.Den, ∀ y ∈ q, i < y := fun q hq y hy => lt_of_mem ob.2.2.2.1 ob.1 hq hy
    have hH' : ∀ q ∈ h'.Den, ∀ y ∈ q, i < y := fun q hq y hy => lt_of_mem ob.2.2.2.2 ob.2.1 hq hy
    have hA : ∀ q ∈ (Node.Branch i l h).Den, ∀ y ∈ q, i ≤ y := fun q hq y hy => ge_of_mem oa' hq hy
    have hB : ∀ q ∈ (Node.Branch i l' h').Den, ∀ y ∈ q, i ≤ y := fun q hq y hy => ge_of_mem ob' hq hy
    have hd : ∀ p ∈ (Node.Branch i l h).Den, ∀ q ∈ (Node.Branch i l' h').Den,
        Cont lt' (Node.Branch i l h).Den p i ≠ Cont lt' (Node.Branch i l' h').Den q i := by
      intro p hp q hq
      rw [cont_all hA (hA p hp), cont_all hB (hB q hq)]
      exact fun e => ne (den_inj oa' ob' e)
    have nm : ∀ {A : Set (Finset Nat)}, (∀ q ∈ A, ∀ y ∈ q, i < y) → ∀ q ∈ A, i ∉ q :=
      fun hA q hq h' => by have := hA q hq i h'; omega
    have k1 : ∀ p ∈ l.Den, ∀ q ∈ l'.Den,
        (Linked (Node.Branch i l h).Den (Node.Branch i l' h').Den p q ↔ Linked l.Den l'.Den p q) :=
      fun p hp q hq => linked_step (hL p hp) (hL' q hq) (Or.inl rfl) (Or.inl rfl)
        (fun x hx => cont_low oa' (nm hL p hp) hx) (fun x hx => cont_low ob' (nm hL' q hq) hx)
        (hd p (Or.inl hp) q (Or.inl hq))
    have k2 : ∀ p ∈ l.Den, ∀ q ∈ h'.Den,
        (Linked (Node.Branch i l h).Den (Node.Branch i l' h').Den p (insert i q) ↔
          Linked l.Den h'.Den p q) :=
      fun p hp q hq => linked_step (hL p hp) (hH' q hq) (Or.inl rfl) (Or.inr rfl)
        (fun x hx => cont_low oa' (nm hL p hp) hx) (fun x hx => cont_high ob' (nm hH' q hq) hx)
        (hd p (Or.inl hp) _ (Or.inr ⟨q, hq, rfl⟩))
    have k3 : ∀ p ∈ h.Den, ∀ q ∈ l'.Den,
        (Linked (Node.Branch i l h).Den (Node.Branch i l' h').Den (insert i p) q ↔
          Linked h.Den l'.Den p q) :=
      fun p hp q hq => linked_step (hH p hp) (hL' q hq) (Or.inr rfl) (Or.inl rfl)
        (fun x hx => cont_high oa' (nm hH p hp) hx) (fun x hx => cont_low ob' (nm hL' q hq) hx)
        (hd _ (Or.inr ⟨p, hp, rfl⟩) q (Or.inl hq))
    have k4 : ∀ p ∈ h.Den, ∀ q ∈ h'.Den,
        (Linked (Node.Branch i l h).Den (Node.Branch i l' h').Den (insert i p) (insert i q) ↔
          Linked h.Den h'.Den p q) :=
      fun p hp q hq => linked_step (hH p hp) (hH' q hq) (Or.inr rfl) (Or.inr rfl)
        (fun x hx => cont_high oa' (nm hH p hp) hx) (fun x hx => cont_high ob' (nm hH' q hq) hx)
        (hd _ (Or.inr ⟨p, hp, rfl⟩) _ (Or.inr ⟨q, hq, rfl⟩))
    have nu : ∀ {p q : Finset Nat}, i ∉ p → i ∉ q → i ∉ p ∪ q := fun a b => by
      rw [Finset.mem_union, not_or]; exact ⟨a, b⟩
    simp only [mem_contProduct]
    constructor
    · rintro (⟨_, p, hp, q, hq, rfl, hk⟩ | ⟨hi, ⟨p, hp, q, hq, e, hk⟩ | ⟨p, hp, q, hq, e, hk⟩ |
        ⟨p, hp, q, hq, e, hk⟩⟩)
      · exact ⟨p, Or.inl hp, q, Or.inl hq, rfl, (k1 p hp q hq).mpr hk⟩
      · refine ⟨p, Or.inl hp, insert i q, Or.inr ⟨q, hq, rfl⟩, ?_, (k2 p hp q hq).mpr hk⟩
        rw [Finset.union_insert, ← e, Finset.insert_erase hi]
      · refine ⟨insert i p, Or.inr ⟨p, hp, rfl⟩, q, Or.inl hq, ?_, (k3 p hp q hq).mpr hk⟩
        rw [Finset.insert_union, ← e, Finset.insert_erase hi]
      · refine ⟨insert i p, Or.inr ⟨p, hp, rfl⟩, insert i q, Or.inr ⟨q, hq, rfl⟩, ?_,
          (k4 p hp q hq).mpr hk⟩
        rw [Finset.insert_union, Finset.union_insert, Finset.insert_idem, ← e, Finset.insert_erase hi]
    · rintro ⟨p, hp | ⟨p', hp, rfl⟩, q, hq | ⟨q', hq, rfl⟩, rfl, hk⟩
      · exact Or.inl ⟨nu (nm hL p hp) (nm hL' q hq), p, hp, q, hq, rfl, (k1 p hp q hq).mp hk⟩
      · refine Or.inr ⟨by simp, Or.inl ⟨p, hp, q', hq, ?_, (k2 p hp q' hq).mp hk⟩⟩
        rw [Finset.union_insert, Finset.erase_insert (nu (nm hL p hp) (nm hH' q' hq))]
      · refine Or.inr ⟨by simp, Or.inr (Or.inl ⟨p', hp, q, hq, ?_, (k3 p' hp q hq).mp hk⟩)⟩
        rw [Finset.insert_union, Finset.erase_insert (nu (nm hH p' hp) (nm hL' q hq))]
      · refine Or.inr ⟨by simp, Or.inr (Or.inr ⟨p', hp, q', hq, ?_, (k4 p' hp q' hq).mp hk⟩)⟩
        rw [Finset.insert_union, Finset.union_insert, Finset.insert_idem,
          Finset.erase_insert (nu (nm hH p' hp) (nm hH' q' hq))]

end Node


universe u
variable {T : Type u} [LinearOrder T]

open Forest Universe

/-! ### From ids to items -/

theorem initial_image {u : Universe T} (hu : u.Ok) {Q S : Finset T} (hQ : u.Known Q)
    (hS : u.Known S) : Initial (fun a b : Nat => a < b) (Q.image u.prio) (S.image u.prio) ↔
      Initial (Before u.count) Q S := by
  unfold Initial
  rw [image_prio_subset hu hQ hS]
  refine and_congr_right fun _ => ?_
  constructor
  · intro h x hx y hy hyq
    rw [← prio_lt_iff hu (hQ x hx) (hS y hy)]
    exact h _ (Finset.mem_image_of_mem _ hx) _ (Finset.mem_image_of_mem _ hy)
      (by rwa [mem_image_prio hu hQ (hS y hy)])
  · intro h k hk j hj hjq
    obtain ⟨x, hx, rfl⟩ := Finset.mem_image.mp hk
    obtain ⟨y, hy, rfl⟩ := Finset.mem_image.mp hj
    rw [mem_image_prio hu hQ (hS y hy)] at hjq
    rw [prio_lt_iff hu (hQ x hx) (hS y hy)]
    exact h x hx y hy hjq

theorem stops_image {u : Universe T} (hu : u.Ok) {n : Node} (hn : u.InU n) {S : Finset T}
    (hS : u.Known S) : Stops (fun a b : Nat => a < b) n.Den (S.image u.prio) ↔
      Stops (Before u.count) (u.Fam n) S := by
  constructor
  · rintro ⟨q, hq, hin, hc⟩
    obtain ⟨Q, hQ, rfl⟩ := (mem_den_iff hu hn).mp hq
    refine ⟨Q, hQ, (initial_image hu hQ.1 hS).mp hin, fun R hR hi hne y hy hyq => ?_⟩
    obtain ⟨k, hk, hkq, hlt⟩ := hc _ hR.2 ((initial_image hu hQ.1 hR.1).mpr hi)
      (fun e => hne (image_prio_inj hu hR.1 hQ.1 e)) _ (Finset.mem_image_of_mem _ hy)
      (by rwa [mem_image_prio hu hQ.1 (hS y hy)])
    obtain ⟨z, hz, rfl⟩ := Finset.mem_image.mp hk
    rw [mem_image_prio hu hQ.1 (hR.1 z hz)] at hkq
    exact ⟨z, hz, hkq, (prio_lt_iff hu (hR.1 z hz) (hS y hy)).mp hlt⟩
  · rintro ⟨Q, hQ, hin, hc⟩
    refine ⟨_, hQ.2, (initial_image hu hQ.1 hS).mpr hin, fun t ht hi hne j hj hjq => ?_⟩
    obtain ⟨R, hR, rfl⟩ := (mem_den_iff hu hn).mp ht
    obtain ⟨y, hy, rfl⟩ := Finset.mem_image.mp hj
    rw [mem_image_prio hu hQ.1 (hS y hy)] at hjq
    obtain ⟨z, hz, hzq, hlt⟩ := hc R hR ((initial_image hu hQ.1 hR.1).mp hi)
      (fun e => hne (by rw [e])) y hy hjq
    exact ⟨_, Finset.mem_image_of_mem _ hz, (by rwa [mem_image_prio hu hQ.1 (hR.1 z hz)]),
      (prio_lt_iff hu (hR.1 z hz) (hS y hy)).mpr hlt⟩

/-- What node `intersect` computes, in items. -/
theorem fam_intersect {u : Universe T} (hu : u.Ok) {a b : Node} (oa : a.Ordered) (ob : b.Ordered)
    (ha : u.InU a) (hb : u.InU b) :
    u.Fam (Node.intersect a b) = stopIntersect (Before u.count) (u.Fam a) (u.Fam b) := by
  ext S
  have := Node.intersect_exact a b oa ob
  simp only [Fam, Set.mem_ofPred_eq, this, stopIntersect]
  constructor
  · rintro ⟨hS, ⟨h1, h2⟩ | ⟨h1, h2⟩⟩
    · exact Or.inl ⟨⟨hS, h1⟩, (stops_image hu hb hS).mp h2⟩
    · exact Or.inr ⟨⟨hS, h1⟩, (stops_image hu ha hS).mp h2⟩
  · rintro (⟨⟨hS, h1⟩, h2⟩ | ⟨⟨hS, h1⟩, h2⟩)
    · exact ⟨hS, Or.inl ⟨h1, (stops_image hu hb hS).mpr h2⟩⟩
    · exact ⟨hS, Or.inr ⟨h1, (stops_image hu ha hS).mpr h2⟩⟩

theorem mem_cont_image {u : Universe T} (hu : u.Ok) {n : Node} (hn : u.InU n) {P : Finset T}
    (hP : u.Known P) {x : T} (hx : x ∈ u.index) {r : Finset Nat} :
    r ∈ Cont (fun a b : Nat => a < b) n.Den (P.image u.prio) (u.prio x) ↔
      ∃ R ∈ Cont (Before u.count) (u.Fam n) P x, r = R.image u.prio := by
  constructor
  · rintro ⟨t, ht, h1, h2⟩
    obtain ⟨S, hS, rfl⟩ := (mem_den_iff hu hn).mp ht
    classical
    refine ⟨S.filter (fun z => ¬ Before u.count z x), ⟨S, hS, fun z hz => ?_, fun z => ?_⟩, ?_⟩
    · by_cases hzu : z ∈ u.index
      · have := h1 (u.prio z) ((prio_lt_iff hu hzu hx).mpr hz)
        rwa [mem_image_prio hu hS.1 hzu, mem_image_prio hu hP hzu] at this
      · exact ⟨fun h => absurd (hS.1 z h) hzu, fun h => absurd (hP z h) hzu⟩
    · rw [Finset.mem_filter]
    · ext k
      rw [h2 k, Finset.mem_image, Finset.mem_image]
      constructor
      · rintro ⟨⟨z, hz, rfl⟩, hlt⟩
        exact ⟨z, Finset.mem_filter.mpr ⟨hz, fun h => hlt ((prio_lt_iff hu (hS.1 z hz) hx).mpr h)⟩, rfl⟩
      · rintro ⟨z, hz, rfl⟩
        obtain ⟨hz, hlt⟩ := Finset.mem_filter.mp hz
        exact ⟨⟨z, hz, rfl⟩, fun h => hlt ((prio_lt_iff hu (hS.1 z hz) hx).mp h)⟩
  · rintro ⟨R, ⟨S, hS, h1, h2⟩, rfl⟩
    refine ⟨_, hS.2, fun k hk => ?_, fun k => ?_⟩
    · constructor
      · intro h
        obtain ⟨z, hz, rfl⟩ := Finset.mem_image.mp h
        have := (h1 z ((prio_lt_iff hu (hS.1 z hz) hx).mp hk)).mp hz
        exact Finset.mem_image_of_mem _ this
      · intro h
        obtain ⟨z, hz, rfl⟩ := Finset.mem_image.mp h
        have := (h1 z ((prio_lt_iff hu (hP z hz) hx).mp hk)).mpr hz
        exact Finset.mem_image_of_mem _ this
    · rw [Finset.mem_image, Finset.mem_image]
      constructor
      · rintro ⟨z, hz, rfl⟩
        obtain ⟨hz, hlt⟩ := (h2 z).mp hz
        exact ⟨⟨z, hz, rfl⟩, fun h => hlt ((prio_lt_iff hu (hS.1 z hz) hx).mp h)⟩
      · rintro ⟨⟨z, hz, rfl⟩, hlt⟩
        exact ⟨z, (h2 z).mpr ⟨hz, fun h => hlt ((prio_lt_iff hu (hS.1 z hz) hx).mpr h)⟩, rfl⟩

theorem known_of_cont {u : Universe T} {n : Node} {P : Finset T} {x : T} {R : Finset T}
    (h : R ∈ Cont (Before u.count) (u.Fam n) P x) : u.Known R := by
  obtain ⟨S, hS, _, h2⟩ := h
  exact fun z hz => hS.1 z ((h2 z).mp hz).1

theorem cont_eq_image {u : Universe T} (hu : u.Ok) {a b : Node} (ha : u.InU a) (hb : u.InU b)
    {P Q : Finset T} (hP : u.Known P) (hQ : u.Known Q) {x : T} (hx : x ∈ u.index) :
    Cont (fun a b : Nat => a < b) a.Den (P.image u.prio) (u.prio x) =
        Cont (fun a b : Nat => a < b) b.Den (Q.image u.prio) (u.prio x) ↔
      Cont (Before u.count) (u.Fam a) P x = Cont (Before u.count) (u.Fam b) Q x := by
  constructor
  · intro h
    ext R
    constructor
    · intro hR
      have : R.image u.prio ∈ Cont (fun a b : Nat => a < b) a.Den (P.image u.prio) (u.prio x) :=
        (mem_cont_image hu ha hP hx).mpr ⟨R, hR, rfl⟩
      rw [h] at this
      obtain ⟨R', hR', e⟩ := (mem_cont_image hu hb hQ hx).mp this
      rwa [image_prio_inj hu (known_of_cont hR) (known_of_cont hR') e]
    · intro hR
      have : R.image u.prio ∈ Cont (fun a b : Nat => a < b) b.Den (Q.image u.prio) (u.prio x) :=
        (mem_cont_image hu hb hQ hx).mpr ⟨R, hR, rfl⟩
      rw [← h] at this
      obtain ⟨R', hR', e⟩ := (mem_cont_image hu ha hP hx).mp this
      rwa [image_prio_inj hu (known_of_cont hR) (known_of_cont hR') e]
  · intro h
    ext r
    rw [mem_cont_image hu ha hP hx, mem_cont_image hu hb hQ hx, h]

/-- What node `product` computes, in items. -/
theorem fam_product {u : Universe T} (hu : u.Ok) {a b : Node} (oa : a.Ordered) (ob : b.Ordered)
    (ha : u.InU a) (hb : u.InU b) :
    u.Fam (Node.product a b) = contProduct (Before u.count) (u.Fam a) (u.Fam b) := by
  have hunion : ∀ {P Q : Finset T}, u.Known P → u.Known Q → u.Known (P ∪ Q) := by
    intro P Q hP hQ x hx
    rcases Finset.mem_union.mp hx with h | h
    · exact hP x h
    · exact hQ x h
  ext S
  have := Node.product_exact a b oa ob
  simp only [Fam, Set.mem_ofPred_eq, this]
  constructor
  · rintro ⟨hS, p, hp, q, hq, e, hk⟩
    obtain ⟨P, hP, rfl⟩ := (mem_den_iff hu ha).mp hp
    obtain ⟨Q, hQ, rfl⟩ := (mem_den_iff hu hb).mp hq
    rw [← Finset.image_union] at e
    refine ⟨P, hP, Q, hQ, image_prio_inj hu hS (hunion hP.1 hQ.1) e, fun x hx => ?_⟩
    have hxu : x ∈ u.index := by
      by_contra hxu
      exact hx ⟨fun h => absurd (hP.1 x h) hxu, fun h => absurd (hQ.1 x h) hxu⟩
    have := hk (u.prio x) (by rwa [mem_image_prio hu hP.1 hxu, mem_image_prio hu hQ.1 hxu])
    rwa [ne_eq, cont_eq_image hu ha hb hP.1 hQ.1 hxu] at this
  · rintro ⟨P, hP, Q, hQ, rfl, hk⟩
    refine ⟨hunion hP.1 hQ.1, _, hP.2, _, hQ.2, Finset.image_union _ _, fun k hkk => ?_⟩
    have : ∃ x ∈ u.index, k = u.prio x := by
      by_cases h1 : k ∈ P.image u.prio
      · obtain ⟨x, hx, rfl⟩ := Finset.mem_image.mp h1
        exact ⟨x, hP.1 x hx, rfl⟩
      · have h2 : k ∈ Q.image u.prio := by tauto
        obtain ⟨x, hx, rfl⟩ := Finset.mem_image.mp h2
        exact ⟨x, hQ.1 x hx, rfl⟩
    obtain ⟨x, hxu, rfl⟩ := this
    rw [mem_image_prio hu hP.1 hxu, mem_image_prio hu hQ.1 hxu] at hkk
    rw [ne_eq, cont_eq_image hu ha hb hP.1 hQ.1 hxu]
    exact hk x hkk

/-! ## C18, C19: what the forest operations compute -/

theorem before_sum {f g : Forest T} (hf : Reach f) (hg : Reach g) :
    Before (merge f.univ g.univ).count =
      Before (fun x => count (family f.trees) x + count (family g.trees) x) := by
  funext x y
  rw [before_merge hf.canon.ok hg.canon.ok]
  simp only [Before, hf.canon.count, hg.canon.count]

/-- C18 (exact semantics): whenever both operands survive the reordering of items to the combined
frequencies, the members of `f.intersect(g)` are exactly the members of either forest in which the
other one stops, in the order of the combined frequencies. -/
theorem intersect_exact_partial {f g r : Forest T} (hf : Reach f) (hg : Reach g)
    (h : Compatible (family f.trees) (family g.trees)) (hr : f.intersect g = some r) :
    family r.trees = stopIntersect
      (Before (fun x => count (family f.trees) x + count (family g.trees) x))
      (family f.trees) (family g.trees) := by
  obtain ⟨a, b, hm, oa, ob, ia, ib, ea, eb, eu, ei, ep, _, _, hc⟩ := ops_raw hf.canon hg.canon
  obtain ⟨ha, hb⟩ := hc h
  rw [ei] at hr; cases hr
  have hfam := fam_canonical hm (oa.intersect ob) (inU_intersect oa ob ia ib)
  rw [fam_intersect hm oa ob ia ib, ha, hb, before_sum hf hg] at hfam
  change Forest.fam _ = _
  rw [hfam]
  ext s
  simp only [nonempty, Set.mem_ofPred_eq, and_iff_left_iff_imp]
  rintro (hs | hs)
  · exact hf.canon.fam_nonempty hs.1
  · exact hg.canon.fam_nonempty hs.1

/-- C18: exactly when `intersect` is the set intersection (for operands that survive the
reordering): neither forest stops inside a member of the other that is not common. -/
theorem intersect_right_iff_partial {f g r : Forest T} (hf : Reach f) (hg : Reach g)
    (h : Compatible (family f.trees) (family g.trees)) (hr : f.intersect g = some r) :
    family r.trees = family f.trees ∩ family g.trees ↔
      (∀ s ∈ family f.trees, Stops (Before (fun x => count (family f.trees) x +
        count (family g.trees) x)) (family g.trees) s → s ∈ family g.trees) ∧
      (∀ s ∈ family g.trees, Stops (Before (fun x => count (family f.trees) x +
        count (family g.trees) x)) (family f.trees) s → s ∈ family f.trees) := by
  have he := intersect_exact_partial hf hg h hr
  have self : ∀ (lt : T → T → Prop) (A : Set (Finset T)) (s : Finset T), s ∈ A → Stops lt A s :=
    fun lt A s hs => ⟨s, hs, ⟨subset_rfl, fun x _ y hy hn => absurd hy hn⟩,
      fun t _ _ _ y hy hn => absurd hy hn⟩
  rw [he]
  constructor
  · intro e
    constructor
    · intro s hs hst
      have : s ∈ family f.trees ∩ family g.trees := by rw [← e]; exact Or.inl ⟨hs, hst⟩
      exact this.2
    · intro s hs hst
      have : s ∈ family f.trees ∩ family g.trees := by rw [← e]; exact Or.inr ⟨hs, hst⟩
      exact this.1
  · rintro ⟨h1, h2⟩
    ext s
    constructor
    · rintro (⟨a1, a2⟩ | ⟨a1, a2⟩)
      · exact ⟨a1, h1 s a1 a2⟩
      · exact ⟨h2 s a1 a2, a1⟩
    · rintro ⟨a1, a2⟩
      exact Or.inl ⟨a1, self _ _ _ a2⟩

example := fun r => intersect_right_iff_partial (r := r) (reach_many [[1, 2], [1, 3]]) (reach_many [[4], [5, 6]])
  (compatible_of_disjoint demo_apart)

/-- C19 (exact semantics): whenever both operands survive the reordering of items to the combined
frequencies, the members of `f.product(g)` are exactly the unions `p ∪ q` of a member of each,
except those of pairs that differ at an item where both forests have the same continuations. -/
theorem product_exact_partial {f g r : Forest T} (hf : Reach f) (hg : Reach g)
    (h : Compatible (family f.trees) (family g.trees)) (hr : f.product g = some r) :
    family r.trees = contProduct
      (Before (fun x => count (family f.trees) x + count (family g.trees) x))
      (family f.trees) (family g.trees) := by
  obtain ⟨a, b, hm, oa, ob, ia, ib, ea, eb, eu, ei, ep, _, _, hc⟩ := ops_raw hf.canon hg.canon
  obtain ⟨ha, hb⟩ := hc h
  rw [ep] at hr; cases hr
  have hfam := fam_canonical hm (oa.product ob) (inU_product oa ob ia ib)
  rw [fam_product hm oa ob ia ib, ha, hb, before_sum hf hg] at hfam
  change Forest.fam _ = _
  rw [hfam]
  ext s
  simp only [nonempty, Set.mem_ofPred_eq, and_iff_left_iff_imp]
  rintro ⟨p, hp, q, hq, rfl, _⟩
  obtain ⟨x, hx⟩ := hf.canon.fam_nonempty hp
  exact ⟨x, Finset.mem_union_left _ hx⟩

/-! ## C22 -/

theorem den_fold_none {n : Node} (o : n.Ordered) (es : List Nat) (acc : Node) (oa : acc.Ordered) :
    ((es.map (Node.subsetNot n)).foldl Node.intersect acc).Ordered ∧
    ((es.map (Node.subsetNot n)).foldl Node.intersect acc).Den =
      (es.map (without n.Den)).foldl (stopIntersect (fun a b : Nat => a < b)) acc.Den := by
  induction es generalizing acc with
  | nil => exact ⟨oa, rfl⟩
  | cons e es ih =>
    obtain ⟨h1, h2⟩ := ih (Node.intersect acc (Node.subsetNot n e)) (oa.intersect (o.subsetNot e))
    refine ⟨h1, ?_⟩
    simp only [List.map_cons, List.foldl_cons]
    rw [h2, Node.intersect_exact _ _ oa (o.subsetNot e)]
    have : (Node.subsetNot n e).Den = without n.Den e := by
      ext s; rw [Node.mem_subsetNot o]; rfl
    rw [this]

theorem fam_fold_none {u : Universe T} (hu : u.Ok) {n : Node} (o : n.Ordered) (hn : u.InU n)
    {xs : List T} (hx : ∀ x ∈ xs, x ∈ u.index) (acc : Node) (oa : acc.Ordered) (ha : u.InU acc) :
    u.Fam (((xs.map u.prio).map (Node.subsetNot n)).foldl Node.intersect acc) =
      (xs.map (without (u.Fam n))).foldl (stopIntersect (Before u.count)) (u.Fam acc) := by
  induction xs generalizing acc with
  | nil => rfl
  | cons x xs ih =>
    have on := o.subsetNot (u.prio x)
    have hin : u.InU (Node.subsetNot n (u.prio x)) := fun s hs => hn s ((Node.mem_subsetNot o _).mp hs).1
    simp only [List.map_cons, List.foldl_cons]
    rw [ih (fun y hy => hx y (by simp [hy])) _ (oa.intersect on) (inU_intersect oa on ha hin),
      fam_intersect hu oa on ha hin]
    congr 2
    ext S
    simp only [Fam, without, Set.mem_ofPred_eq, Node.mem_subsetNot o]
    constructor
    · rintro ⟨h1, h2, h3⟩
      exact ⟨⟨h1, h2⟩, by rwa [mem_image_prio hu h1 (hx x (by simp))] at h3⟩
    · rintro ⟨⟨h1, h2⟩, h3⟩
      exact ⟨h1, h2, by rwa [mem_image_prio hu h1 (hx x (by simp))]⟩

theorem priorities_map {u : Universe T} (hu : u.Ok) {xs : List T} (hx : ∀ x ∈ xs, x ∈ u.index) :
    u.getPriorities xs = xs.map u.prio := by
  induction xs with
  | nil => rfl
  | cons x xs ih =>
    have := getPriority_prio hu (hx x (by simp))
    simp only [getPriorities, List.filterMap_cons, this, List.map_cons]
    rw [← ih (fun y hy => hx y (by simp [hy]))]
    rfl

/-- C22 (exact semantics, every input): with no elements, or with an element that occurs nowhere,
`subset_none` returns all members; otherwise it computes the `intersect` (in the sense of
`stopIntersect`) of the families without each of the elements, from left to right. -/
theorem subsetNone_exact_partial {f : Forest T} (hf : Reach f) :
    f.subsetNone [] = f ∧
    (∀ xs x, x ∈ xs → (∀ s ∈ family f.trees, x ∉ s) → f.subsetNone xs = f) ∧
    (∀ x xs, (∀ y ∈ x :: xs, ∃ s ∈ family f.trees, y ∈ s) →
      family (f.subsetNone (x :: xs)).trees =
        (xs.map (without (family f.trees))).foldl
          (stopIntersect (Before (count (family f.trees)))) (without (family f.trees) x)) := by
  have hc := hf.canon
  refine ⟨by simp [Forest.subsetNone, Forest.subsetMany], fun xs x hx hu => subsetNone_unknown hf hx hu,
    fun x xs hk => ?_⟩
  have hk' : ∀ y ∈ x :: xs, y ∈ f.univ.index := fun y hy => (hc.mem_index y).mpr (hk y hy)
  obtain ⟨e, hpn⟩ := subsetNone_known hf (List.cons_ne_nil x xs) hk'
  have oa := (Node.subsetNone_bounds hc.ordered hpn).1
  have hin : f.univ.InU (Node.subsetNone f.root (f.univ.getPriorities (x :: xs))) := fun s hs =>
    hc.inU s ((Node.subsetNone_bounds hc.ordered hpn).2.2 s hs).1
  have hfamc := fam_canonical hc.ok oa hin
  have hsub := (subsetNone_bounds hf (x :: xs)).2
  have hb : Before f.univ.count = Before (count (family f.trees)) := by
    funext a b; simp only [Before, hc.count]
  have hfam := hc.fam
  rw [e] at hsub ⊢
  change Forest.fam _ = _
  have on := hc.ordered.subsetNot (f.univ.prio x)
  have hin' : f.univ.InU (Node.subsetNot f.root (f.univ.prio x)) := fun s hs =>
    hc.inU s ((Node.mem_subsetNot hc.ordered _).mp hs).1
  have hfirst : f.univ.Fam (Node.subsetNot f.root (f.univ.prio x)) = without (family f.trees) x := by
    change _ = without f.fam x
    rw [← hfam]
    ext S
    simp only [Fam, without, Set.mem_ofPred_eq, Node.mem_subsetNot hc.ordered]
    constructor
    · rintro ⟨h1, h2, h3⟩
      exact ⟨⟨h1, h2⟩, by rwa [mem_image_prio hc.ok h1 (hk' x (by simp))] at h3⟩
    · rintro ⟨⟨h1, h2⟩, h3⟩
      exact ⟨h1, h2, by rwa [mem_image_prio hc.ok h1 (hk' x (by simp))]⟩
  have key : f.univ.Fam (Node.subsetNone f.root (f.univ.getPriorities (x :: xs))) =
      (xs.map (without (family f.trees))).foldl
        (stopIntersect (Before (count (family f.trees)))) (without (family f.trees) x) := by
    rw [priorities_map hc.ok hk', Node.subsetNone]
    simp only [List.map_cons, List.foldl_cons, Node.intersect_always_left]
    rw [fam_fold_none hc.ok hc.ordered hc.inU (fun y hy => hk' y (by simp [hy])) _ on hin', hb, hfirst]
    change List.foldl _ _ (List.map (without (f.univ.Fam f.root)) xs) = List.foldl _ _ (List.map (without f.fam) xs)
    rw [hfam]
  rw [hfamc, key]
  have hne : ∀ (ws : List (Set (Finset T))) (lt : T → T → Prop) (A : Set (Finset T)),
      (∀ s ∈ A, s.Nonempty) → (∀ W ∈ ws, ∀ s ∈ W, s.Nonempty) →
      ∀ s ∈ ws.foldl (stopIntersect lt) A, s.Nonempty := by
    intro ws lt
    induction ws with
    | nil => intro A hA _; exact hA
    | cons W ws ih =>
      intro A hA hW
      refine ih _ ?_ (fun W' h' => hW W' (by simp [h']))
      rintro s (h | h)
      · exact hA s h.1
      · exact hW W (by simp) s h.1
  ext s
  simp only [nonempty, Set.mem_ofPred_eq, and_iff_left_iff_imp]
  refine hne _ _ _ (fun s hs => hc.fam_nonempty hs.1) ?_ s
  intro W hW s hs
  obtain ⟨y, _, rfl⟩ := List.mem_map.mp hW
  exact hc.fam_nonempty hs.1

example := subsetNone_exact_partial (reach_many [[1, 2], [1, 3]])

/-! ### the hypotheses are met -/

/-- `{{1,2}}` and `{{1}}` meet the hypotheses of `intersect_exact_partial`, and the set it describes is
`{{1,2}}`, not the intersection. -/
example : Reach (Forest.many [[1, 2]] : Forest ℕ) ∧ Reach (Forest.many [[1]] : Forest ℕ) ∧
    Compatible (family (Forest.many [[1, 2]]).trees) (family (Forest.many [[1]] : Forest ℕ).trees) ∧
    ({1, 2} : Finset ℕ) ∈ stopIntersect (Before (fun x => count (family (Forest.many [[1, 2]]).trees) x +
      count (family (Forest.many [[1]]).trees) x)) (family (Forest.many [[1, 2]]).trees)
      (family (Forest.many [[1]]).trees) := by
  have sub : ∀ l : List ℕ, (family (Forest.many [l]).trees).Subsingleton := by
    intro l s hs t ht
    rw [many_family] at hs ht
    obtain ⟨⟨a, ha, rfl⟩, _⟩ := hs
    obtain ⟨⟨b, hb, rfl⟩, _⟩ := ht
    simp only [List.mem_singleton] at ha hb
    subst ha; subst hb; rfl
  have hc := compatible_of_simple (Or.inl (sub [1, 2])) (Or.inl (sub [1]))
  refine ⟨reach_many _, reach_many _, hc, ?_⟩
  rw [← intersect_exact_partial (reach_many _) (reach_many _) hc intersect_witness, many_family]
  exact ⟨⟨[1, 2], by simp, by decide⟩, by decide⟩

/-- `{{1},{2}}` with itself meets the hypotheses of `product_exact_partial`; the set it describes does
not contain the union `{1,2}` of two members. -/
example : Reach (Forest.many [[1], [2]] : Forest ℕ) ∧
    Compatible (family (Forest.many [[1], [2]]).trees) (family (Forest.many [[1], [2]] : Forest ℕ).trees) ∧
    ({1, 2} : Finset ℕ) ∉ contProduct (Before (fun x => count (family (Forest.many [[1], [2]]).trees) x +
      count (family (Forest.many [[1], [2]]).trees) x)) (family (Forest.many [[1], [2]]).trees)
      (family (Forest.many [[1], [2]]).trees) := by
  have hf := reach_many ([[1], [2]] : List (List ℕ))
  refine ⟨hf, compatible_self _, ?_⟩
  rw [← product_exact_partial hf hf (compatible_self _) (product_self hf), many_family]
  rintro ⟨⟨l, hl, e⟩, _⟩
  simp only [List.mem_cons, List.not_mem_nil, or_false] at hl
  rcases hl with rfl | rfl <;> exact absurd e (by decide)

/-- Known items for the third part of `subsetNone_exact_partial`: both lie in a member. -/
example : ∀ y ∈ ([1, 2] : List ℕ), ∃ s ∈ family (Forest.many [[1, 3], [2], [3]]).trees, y ∈ s := by
  rw [many_family]
  intro y hy
  simp only [List.mem_cons, List.not_mem_nil, or_false] at hy
  rcases hy with rfl | rfl
  · exact ⟨{1, 3}, ⟨⟨[1, 3], by simp, by decide⟩, by decide⟩, by decide⟩
  · exact ⟨{2}, ⟨⟨[2], by simp, by decide⟩, by decide⟩, by decide⟩

end Verif.Zdd2
