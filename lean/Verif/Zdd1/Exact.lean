import Verif.Zdd1.Ops
import Mathlib.Data.Finset.SymmDiff
import Mathlib.Data.Finset.Max

/-!
# Exactly what v1 `product` computes (C32)
-/

set_option linter.unusedSimpArgs false
set_option linter.unusedVariables false
set_option linter.unusedSectionVars false

namespace Verif.Zdd1
open Verif Verif.Weave Verif.Spec

universe u

/-- `B` could go on with `x` after agreeing with `q` on everything before `x`.
Not code: used to state or prove properties. -/
def Offers {T : Type u} (lt : T → T → Prop) (B : Set (Finset T)) (q : Finset T) (x : T) : Prop :=
  ∃ t ∈ B, x ∈ t ∧ ∀ z, lt z x → (z ∈ t ↔ z ∈ q)

/-- What v1 `product` computes: the unions `p ∪ q` of pairs in which neither side passes over an item
that it could have taken and the other side takes.
Not code: used to state or prove properties. -/
def pairProduct {T : Type u} [DecidableEq T] (lt : T → T → Prop) (A B : Set (Finset T)) :
    Set (Finset T) :=
  {s | ∃ p ∈ A, ∃ q ∈ B, s = p ∪ q ∧ (∀ x ∈ p, x ∉ q → ¬ Offers lt B q x) ∧
    (∀ x ∈ q, x ∉ p → ¬ Offers lt A p x)}

namespace Node

local notation "lt'" => ((· < ·) : Nat → Nat → Prop)

theorem ge_of_mem {i : Nat} {l h : Node} (o : (Node.Branch i l h).Ordered) {s : Finset Nat}
    (hs : s ∈ (Node.Branch i l h).Den) {y : Nat} (hy : y ∈ s) : i ≤ y := by
  rcases i with _ | i
  · omega
  · have := lt_of_mem (x := i) o (by simp [Above]) hs hy; omega

/-- The pairs that contribute.  Not code: used to state or prove properties. -/
def PairFits (A B : Set (Finset Nat)) (p q : Finset Nat) : Prop :=
  (∀ x ∈ p, x ∉ q → ¬ Offers lt' B q x) ∧ (∀ x ∈ q, x ∉ p → ¬ Offers lt' A p x)

theorem pairFits_symm {A B : Set (Finset Nat)} {p q : Finset Nat} : PairFits A B p q ↔ PairFits B A q p :=
  and_comm

theorem mem_pairProduct {A B : Set (Finset Nat)} {s : Finset Nat} :
    s ∈ pairProduct lt' A B ↔ ∃ p ∈ A, ∃ q ∈ B, s = p ∪ q ∧ PairFits A B p q := Iff.rfl

theorem pairProduct_comm (A B : Set (Finset Nat)) : pairProduct lt' A B = pairProduct lt' B A := by
  ext s
  rw [mem_pairProduct, mem_pairProduct]
  constructor
  · rintro ⟨p, hp, q, hq, rfl, h⟩
    exact ⟨q, hq, p, hp, Finset.union_comm _ _, pairFits_symm.mp h⟩
  · rintro ⟨p, hp, q, hq, rfl, h⟩
    exact ⟨q, hq, p, hp, Finset.union_comm _ _, pairFits_symm.mp h⟩

theorem pairProduct_self (A : Set (Finset Nat)) : pairProduct lt' A A = A := by
  ext s
  rw [mem_pairProduct]
  constructor
  · rintro ⟨p, hp, q, hq, rfl, hl⟩
    have : p = q := by
      by_contra hne
      have hd : (symmDiff p q).Nonempty := by
        rw [Finset.nonempty_iff_ne_empty]
        intro h; exact hne (symmDiff_eq_bot.mp h)
      have hm := Finset.min'_mem _ hd
      have hlt : ∀ z, z < (symmDiff p q).min' hd → (z ∈ p ↔ z ∈ q) := by
        intro z hz
        by_contra hc
        have : z ∈ symmDiff p q := by rw [Finset.mem_symmDiff]; tauto
        have := Finset.min'_le _ z this
        omega
      rw [Finset.mem_symmDiff] at hm
      rcases hm with ⟨h1, h2⟩ | ⟨h1, h2⟩
      · exact hl.1 _ h1 h2 ⟨p, hp, h1, hlt⟩
      · exact hl.2 _ h1 h2 ⟨q, hq, h1, fun z hz => (hlt z hz).symm⟩
    subst this
    simpa using hp
  · intro hs
    exact ⟨s, hs, s, hs, by simp, fun x hx hn => absurd hx hn, fun x hx hn => absurd hx hn⟩

theorem pairProduct_unit (A : Set (Finset Nat)) : pairProduct lt' A {∅} = A := by
  ext s
  rw [mem_pairProduct]
  constructor
  · rintro ⟨p, hp, q, hq, rfl, _⟩
    rw [Set.mem_singleton_iff] at hq
    subst hq; simpa using hp
  · intro hs
    refine ⟨s, hs, ∅, rfl, by simp, ?_, by simp⟩
    rintro x _ _ ⟨t, ht, hxt, _⟩
    rw [Set.mem_singleton_iff] at ht
    subst ht; simp at hxt

theorem offers_low {i : Nat} {l h : Node} (o : (Node.Branch i l h).Ordered) {p : Finset Nat}
    (hp : i ∉ p) {x : Nat} (hx : i < x) :
    Offers lt' (Node.Branch i l h).Den p x ↔ Offers lt' l.Den p x := by
  constructor
  · rintro ⟨t, ht, h1, h2⟩
    have hit : i ∉ t := fun h' => hp ((h2 i hx).mp h')
    rcases (mem_ordered o).mp ht with ⟨_, h3⟩ | ⟨h3, _⟩
    · exact ⟨t, h3, h1, h2⟩
    · exact absurd h3 hit
  · rintro ⟨t, ht, h1, h2⟩
    exact ⟨t, Or.inl ht, h1, h2⟩

theorem offers_high {i : Nat} {l h : Node} (o : (Node.Branch i l h).Ordered) {p : Finset Nat}
    (hp : i ∉ p) {x : Nat} (hx : i < x) :
    Offers lt' (Node.Branch i l h).Den (insert i p) x ↔ Offers lt' h.Den p x := by
  constructor
  · rintro ⟨t, ht, h1, h2⟩
    have hit : i ∈ t := (h2 i hx).mpr (by simp)
    rcases (mem_ordered o).mp ht with ⟨h3, _⟩ | ⟨_, h3⟩
    · exact absurd hit h3
    · refine ⟨t.erase i, h3, Finset.mem_erase.mpr ⟨by omega, h1⟩, fun z hz => ?_⟩
      by_cases hzi : z = i
      · subst hzi; simp [hp]
      · rw [Finset.mem_erase, h2 z hz]; simp [hzi]
  · rintro ⟨t, ht, h1, h2⟩
    exact ⟨insert i t, Or.inr ⟨t, ht, rfl⟩, by simp [h1], fun z hz => by simp [h2 z hz]⟩

theorem offers_root {i : Nat} {l h : Node} (o : (Node.Branch i l h).Ordered) {p : Finset Nat}
    (hp : ∀ y ∈ p, i ≤ y) : Offers lt' (Node.Branch i l h).Den p i := by
  have o' := o
  simp only [Ordered] at o'
  obtain ⟨t, ht⟩ := exists_mem o'.2.2.2.2 o'.2.2.1
  have hm : insert i t ∈ (Node.Branch i l h).Den := Or.inr ⟨t, ht, rfl⟩
  refine ⟨insert i t, hm, by simp, fun z hz => ?_⟩
  constructor
  · intro h'; have := ge_of_mem o hm h'; omega
  · intro h'; have := hp z h'; omega

theorem not_offers {i : Nat} {A : Set (Finset Nat)} (hA : ∀ t ∈ A, ∀ y ∈ t, i < y) (q : Finset Nat) :
    ¬ Offers lt' A q i := by
  rintro ⟨t, ht, h1, _⟩
  have := hA t ht i h1; omega

/-- `PairFits`, at the cofactors. -/
theorem fits_step {i : Nat} {A B A' B' : Set (Finset Nat)} {p q p' q' : Finset Nat}
    (hp : ∀ y ∈ p', i < y) (hq : ∀ y ∈ q', i < y)
    (hpp : p = p' ∨ p = insert i p') (hqq : q = q' ∨ q = insert i q')
    (cA : ∀ x, i < x → (Offers lt' A p x ↔ Offers lt' A' p' x))
    (cB : ∀ x, i < x → (Offers lt' B q x ↔ Offers lt' B' q' x)) :
    PairFits A B p q ↔ PairFits A' B' p' q' ∧ (i ∈ p → i ∉ q → ¬ Offers lt' B q i) ∧
      (i ∈ q → i ∉ p → ¬ Offers lt' A p i) := by
  have m1 : ∀ x, i < x → (x ∈ p ↔ x ∈ p') := by
    intro x hx
    rcases hpp with rfl | rfl
    · rfl
    · rw [Finset.mem_insert]; exact ⟨fun h => h.resolve_left (by omega), Or.inr⟩
  have m2 : ∀ x, i < x → (x ∈ q ↔ x ∈ q') := by
    intro x hx
    rcases hqq with rfl | rfl
    · rfl
    · rw [Finset.mem_insert]; exact ⟨fun h => h.resolve_left (by omega), Or.inr⟩
  have g1 : ∀ x ∈ p, x = i ∨ i < x := by
    intro x hx
    rcases hpp with rfl | rfl
    · exact Or.inr (hp x hx)
    · exact (Finset.mem_insert.mp hx).imp id (hp x)
  have g2 : ∀ x ∈ q, x = i ∨ i < x := by
    intro x hx
    rcases hqq with rfl | rfl
    · exact Or.inr (hq x hx)
    · exact (Finset.mem_insert.mp hx).imp id (hq x)
  constructor
  · rintro ⟨f1, f2⟩
    refine ⟨⟨fun x hx hn => ?_, fun x hx hn => ?_⟩, f1 i, f2 i⟩
    · have hix := hp x hx
      rw [← cB x hix]
      exact f1 x ((m1 x hix).mpr hx) (fun h' => hn ((m2 x hix).mp h'))
    · have hix := hq x hx
      rw [← cA x hix]
      exact f2 x ((m2 x hix).mpr hx) (fun h' => hn ((m1 x hix).mp h'))
  · rintro ⟨⟨f1, f2⟩, k1, k2⟩
    refine ⟨fun x hx hn => ?_, fun x hx hn => ?_⟩
    · rcases g1 x hx with rfl | hix
      · exact k1 hx hn
      · rw [cB x hix]
        exact f1 x ((m1 x hix).mp hx) (fun h' => hn ((m2 x hix).mpr h'))
    · rcases g2 x hx with rfl | hix
      · exact k2 hx hn
      · rw [cA x hix]
        exact f2 x ((m2 x hix).mp hx) (fun h' => hn ((m1 x hix).mpr h'))

theorem product_comm' (a b : Node) : product a b = product b a := product_comm a b

/-- Exactly what `product` computes on ordered diagrams. -/
theorem product_exact (a b : Node) (oa : a.Ordered) (ob : b.Ordered) :
    (product a b).Den = pairProduct lt' a.Den b.Den := by
  fun_induction product a b with
  | case1 a => exact (pairProduct_self _).symm
  | case2 a ne => exact (pairProduct_unit _).symm
  | case3 b _ ne => rw [pairProduct_comm]; exact (pairProduct_unit _).symm
  | case4 a _ _ =>
    ext s
    simp only [mem_false, false_iff]
    rintro ⟨p, _, q, hq, _⟩; exact hq
  | case5 a _ _ _ =>
    ext s
    simp only [mem_false, false_iff]
    rintro ⟨p, hp, _⟩; exact hp
  | case6 i l h j l' h' hlt ne ih1 ih2 =>
    have oa' := oa
    simp only [Ordered] at oa
    have hB : ∀ q ∈ (Node.Branch j l' h').Den, ∀ y ∈ q, i < y :=
      fun q hq y hy => lt_of_mem ob hlt hq hy
    have hL : ∀ q ∈ l.Den, ∀ y ∈ q, i < y := fun q hq y hy => lt_of_mem oa.2.2.2.1 oa.1 hq hy
    have hH : ∀ q ∈ h.Den, ∀ y ∈ q, i < y := fun q hq y hy => lt_of_mem oa.2.2.2.2 oa.2.1 hq hy
    have nm : ∀ {A : Set (Finset Nat)}, (∀ q ∈ A, ∀ y ∈ q, i < y) → ∀ q ∈ A, i ∉ q :=
      fun hA q hq h' => by have := hA q hq i h'; omega
    have lowL : ∀ p ∈ l.Den, ∀ q ∈ (Node.Branch j l' h').Den,
        (PairFits (Node.Branch i l h).Den (Node.Branch j l' h').Den p q ↔
          PairFits l.Den (Node.Branch j l' h').Den p q) := fun p hp q hq => by
      rw [fits_step (hL p hp) (hB q hq) (Or.inl rfl) (Or.inl rfl)
        (fun x hx => offers_low oa' (nm hL p hp) hx) (fun x _ => Iff.rfl)]
      have := nm hL p hp
      have := nm hB q hq
      tauto
    have highL : ∀ p ∈ h.Den, ∀ q ∈ (Node.Branch j l' h').Den,
        (PairFits (Node.Branch i l h).Den (Node.Branch j l' h').Den (insert i p) q ↔
          PairFits h.Den (Node.Branch j l' h').Den p q) := fun p hp q hq => by
      rw [fits_step (hH p hp) (hB q hq) (Or.inr rfl) (Or.inl rfl)
        (fun x hx => offers_high oa' (nm hH p hp) hx) (fun x _ => Iff.rfl)]
      have := nm hB q hq
      have := not_offers hB q
      tauto
    ext s
    rw [mem_finish, ih1 oa.2.2.2.1 ob]
    simp only [ih2 oa.2.2.2.2 ob, mem_pairProduct]
    constructor
    · rintro (⟨p, hp, q, hq, rfl, hk⟩ | ⟨t, ⟨p, hp, q, hq, rfl, hk⟩, rfl⟩)
      · exact ⟨p, Or.inl hp, q, hq, rfl, (lowL p hp q hq).mpr hk⟩
      · exact ⟨insert i p, Or.inr ⟨p, hp, rfl⟩, q, hq, (Finset.insert_union _ _ _).symm,
          (highL p hp q hq).mpr hk⟩
    · rintro ⟨p, hp | ⟨p', hp, rfl⟩, q, hq, rfl, hk⟩
      · exact Or.inl ⟨p, hp, q, hq, rfl, (lowL p hp q hq).mp hk⟩
      · exact Or.inr ⟨_, ⟨p', hp, q, hq, rfl, (highL p' hp q hq).mp hk⟩, Finset.insert_union _ _ _⟩
  | case7 i l h j l' h' _ hlt ne ih1 ih2 =>
    have ob' := ob
    simp only [Ordered] at ob
    have hB : ∀ q ∈ (Node.Branch i l h).Den, ∀ y ∈ q, j < y :=
      fun q hq y hy => lt_of_mem oa hlt hq hy
    have hL : ∀ q ∈ l'.Den, ∀ y ∈ q, j < y := fun q hq y hy => lt_of_mem ob.2.2.2.1 ob.1 hq hy
    have hH : ∀ q ∈ h'.Den, ∀ y ∈ q, j < y := fun q hq y hy => lt_of_mem ob.2.2.2.2 ob.2.1 hq hy
    have nm : ∀ {A : Set (Finset Nat)}, (∀ q ∈ A, ∀ y ∈ q, j < y) → ∀ q ∈ A, j ∉ q :=
      fun hA q hq h' => by have := hA q hq j h'; omega
    have lowL : ∀ p ∈ (Node.Branch i l h).Den, ∀ q ∈ l'.Den,
        (PairFits (Node.Branch i l h).Den (Node.Branch j l' h').Den p q ↔
          PairFits (Node.Branch i l h).Den l'.Den p q) := fun p hp q hq => by
      rw [fits_step (hB p hp) (hL q hq) (Or.inl rfl) (Or.inl rfl) (fun x _ => Iff.rfl)
        (fun x hx => offers_low ob' (nm hL q hq) hx)]
      have := nm hB p hp
      have := nm hL q hq
      tauto
    have highL : ∀ p ∈ (Node.Branch i l h).Den, ∀ q ∈ h'.Den,
        (PairFits (Node.Branch i l h).Den (Node.Branch j l' h').Den p (insert j q) ↔
          PairFits (Node.Branch i l h).Den h'.Den p q) := fun p hp q hq => by
      rw [fits_step (hB p hp) (hH q hq) (Or.inl rfl) (Or.inr rfl) (fun x _ => Iff.rfl)
        (fun x hx => offers_high ob' (nm hH q hq) hx)]
      have := nm hB p hp
      have := not_offers hB p
      tauto
    ext s
    rw [mem_finish, ih1 oa ob.2.2.2.1]
    simp only [ih2 oa ob.2.2.2.2, mem_pairProduct]
    constructor
    · rintro (⟨p, hp, q, hq, rfl, hk⟩ | ⟨t, ⟨p, hp, q, hq, rfl, hk⟩, rfl⟩)
      · exact ⟨p, hp, q, Or.inl hq, rfl, (lowL p hp q hq).mpr hk⟩
      · exact ⟨p, hp, insert j q, Or.inr ⟨q, hq, rfl⟩, (Finset.union_insert _ _ _).symm,
          (highL p hp q hq).mpr hk⟩
    · rintro ⟨p, hp, q, hq | ⟨q', hq, rfl⟩, rfl, hk⟩
      · exact Or.inl ⟨p, hp, q, hq, rfl, (lowL p hp q hq).mp hk⟩
      · exact Or.inr ⟨_, ⟨p, hp, q', hq, rfl, (highL p hp q' hq).mp hk⟩, Finset.union_insert _ _ _⟩
  | case8 i l h j l' h' h1 h2 ne ih1 ih2 =>
    obtain rfl : i = j := by omega
    have oa' := oa
    have ob' := ob
    simp only [Ordered] at oa ob
    have hL : ∀ q ∈ l.Den, ∀ y ∈ q, i < y := fun q hq y hy => lt_of_mem oa.2.2.2.1 oa.1 hq hy
    have hH : ∀ q ∈ h.Den, ∀ y ∈ q, i < y := fun q hq y hy => lt_of_mem oa.2.2.2.2 oa.2.1 hq hy
    have hL' : ∀ q ∈ l'.Den, ∀ y ∈ q, i < y := fun q hq y hy => lt_of_mem ob.2.2.2.1 ob.1 hq hy
    have hH' : ∀ q ∈ h'.Den, ∀ y ∈ q, i < y := fun q hq y hy => lt_of_mem ob.2.2.2.2 ob.2.1 hq hy
    have nm : ∀ {A : Set (Finset Nat)}, (∀ q ∈ A, ∀ y ∈ q, i < y) → ∀ q ∈ A, i ∉ q :=
      fun hA q hq h' => by have := hA q hq i h'; omega
    have k1 : ∀ p ∈ l.Den, ∀ q ∈ l'.Den,
        (PairFits (Node.Branch i l h).Den (Node.Branch i l' h').Den p q ↔ PairFits l.Den l'.Den p q) :=
      fun p hp q hq => by
        rw [fits_step (hL p hp) (hL' q hq) (Or.inl rfl) (Or.inl rfl)
          (fun x hx => offers_low oa' (nm hL p hp) hx) (fun x hx => offers_low ob' (nm hL' q hq) hx)]
        have := nm hL p hp
        have := nm hL' q hq
        tauto
    have k2 : ∀ p ∈ l.Den, ∀ q ∈ h'.Den,
        ¬ PairFits (Node.Branch i l h).Den (Node.Branch i l' h').Den p (insert i q) :=
      fun p hp q hq hf => hf.2 i (by simp) (nm hL p hp)
        (offers_root oa' (fun y hy => le_of_lt (hL p hp y hy)))
    have k3 : ∀ p ∈ h.Den, ∀ q ∈ l'.Den,
        ¬ PairFits (Node.Branch i l h).Den (Node.Branch i l' h').Den (insert i p) q :=
      fun p hp q hq hf => hf.1 i (by simp) (nm hL' q hq)
        (offers_root ob' (fun y hy => le_of_lt (hL' q hq y hy)))
    have k4 : ∀ p ∈ h.Den, ∀ q ∈ h'.Den,
        (PairFits (Node.Branch i l h).Den (Node.Branch i l' h').Den (insert i p) (insert i q) ↔
          PairFits h.Den h'.Den p q) :=
      fun p hp q hq => by
        rw [fits_step (hH p hp) (hH' q hq) (Or.inr rfl) (Or.inr rfl)
          (fun x hx => offers_high oa' (nm hH p hp) hx) (fun x hx => offers_high ob' (nm hH' q hq) hx)]
        simp
    ext s
    rw [mem_finish, ih1 oa.2.2.2.1 ob.2.2.2.1]
    simp only [ih2 oa.2.2.2.2 ob.2.2.2.2, mem_pairProduct]
    constructor
    · rintro (⟨p, hp, q, hq, rfl, hk⟩ | ⟨t, ⟨p, hp, q, hq, rfl, hk⟩, rfl⟩)
      · exact ⟨p, Or.inl hp, q, Or.inl hq, rfl, (k1 p hp q hq).mpr hk⟩
      · refine ⟨insert i p, Or.inr ⟨p, hp, rfl⟩, insert i q, Or.inr ⟨q, hq, rfl⟩, ?_,
          (k4 p hp q hq).mpr hk⟩
        rw [Finset.insert_union, Finset.union_insert, Finset.insert_idem]
    · rintro ⟨p, hp | ⟨p', hp, rfl⟩, q, hq | ⟨q', hq, rfl⟩, rfl, hk⟩
      · exact Or.inl ⟨p, hp, q, hq, rfl, (k1 p hp q hq).mp hk⟩
      · exact absurd hk (k2 p hp q' hq)
      · exact absurd hk (k3 p' hp q hq)
      · refine Or.inr ⟨_, ⟨p', hp, q', hq, rfl, (k4 p' hp q' hq).mp hk⟩, ?_⟩
        rw [Finset.insert_union, Finset.union_insert, Finset.insert_idem]

end Node

variable {T : Type u} [LinearOrder T]

/-- `i` is the last position of `x`.  Not code: used to state or prove properties. -/
def LastAt (items : List T) (x : T) (i : Nat) : Prop :=
  items[i]? = some x ∧ ∀ j, i < j → items[j]? ≠ some x

/-- `x` comes before `y` in the list the universe was made from (by last positions, should the list
repeat items).  Not code: used to state or prove properties. -/
def ItemBefore (items : List T) (x y : T) : Prop :=
  ∃ i j, LastAt items x i ∧ LastAt items y j ∧ i < j

theorem lookup_collect_last {V : Type} (l acc : List (T × V)) (h : KeysLt acc) (x : T) :
    lookup x (l.foldl (fun m p => insertKV p.1 p.2 m) acc) =
      match l.reverse.find? (fun p => p.1 = x) with
      | some p => some p.2
      | none => lookup x acc := by
  induction l generalizing acc with
  | nil => rfl
  | cons a l ih =>
    rw [List.foldl_cons, ih (insertKV a.1 a.2 acc) (keysLt_upsert h), List.reverse_cons,
      List.find?_append]
    cases hf : l.reverse.find? (fun p => p.1 = x) with
    | some p => rfl
    | none =>
      rw [lookup_insertKV h]
      by_cases hx : a.1 = x
      · simp [hx]
      · simp [hx, Ne.symm hx]

namespace Universe

theorem index_last {items : List T} {x : T} {i : Nat} :
    lookup x (fromVec items).itemIndex = some i ↔ LastAt items x i := by
  have key : ∀ i, LastAt items x i → lookup x (fromVec items).itemIndex = some i := by
    intro i hi
    have hl := lookup_collect_last items.zipIdx [] List.Pairwise.nil x
    have hl' : lookup x (fromVec items).itemIndex = _ := hl
    rw [hl']
    cases hf : items.zipIdx.reverse.find? (fun p => p.1 = x) with
    | none =>
      exfalso
      have := List.find?_eq_none.mp hf (x, i) (by
        rw [List.mem_reverse]; exact List.mk_mem_zipIdx_iff_getElem?.mpr hi.1)
      simp at this
    | some p =>
      obtain ⟨y, k⟩ := p
      have hy : y = x := by simpa using List.find?_some hf
      subst hy
      have hk : items[k]? = some y := by
        have := List.mem_of_find?_eq_some hf
        rw [List.mem_reverse] at this
        exact List.mk_mem_zipIdx_iff_getElem?.mp this
      have hki : k ≤ i := by
        by_contra hc
        exact hi.2 k (by omega) hk
      dsimp only
      congr 1
      by_contra hne
      have hlt : k < i := by omega
      obtain ⟨-, as, bs, e, hno⟩ := List.find?_eq_some_iff_append.mp hf
      have e' : items.zipIdx = bs.reverse ++ (y, k) :: as.reverse := by
        have := congrArg List.reverse e
        rw [List.reverse_reverse] at this
        rw [this]; simp
      have hmem : (y, i) ∈ items.zipIdx := List.mk_mem_zipIdx_iff_getElem?.mpr hi.1
      have hpw : items.zipIdx.Pairwise (fun a b => a.2 < b.2) := by
        have : (items.zipIdx.map Prod.snd).Pairwise (· < ·) := by
          rw [List.zipIdx_map_snd]; exact List.pairwise_lt_range'
        exact List.pairwise_map.mp this
      rw [e'] at hmem hpw
      rw [List.mem_append, List.mem_cons] at hmem
      rcases hmem with h | h | h
      · have := (List.pairwise_append.mp hpw).2.2 _ h (y, k) (by simp)
        dsimp only at this; omega
      · simp at h; omega
      · rw [List.mem_reverse] at h
        have := hno _ h
        simp at this
  constructor
  · intro h
    have hx : x ∈ items := index_some.mp ⟨i, h⟩
    have hx' : items[i]? = some x := index_get h
    refine ⟨hx', fun j hj hjx => ?_⟩
    -- take the last position
    have hex : ∃ k, LastAt items x k := by
      have : ∀ n, ∀ j, items[j]? = some x → items.length - j ≤ n → ∃ k, LastAt items x k := by
        intro n
        induction n with
        | zero =>
          intro j hj hn
          have := (List.getElem?_eq_some_iff.mp hj).1
          omega
        | succ n ih =>
          intro j hj hn
          by_cases hl : ∃ k, j < k ∧ items[k]? = some x
          · obtain ⟨k, hk, hkx⟩ := hl
            have := (List.getElem?_eq_some_iff.mp hkx).1
            exact ih k hkx (by omega)
          · exact ⟨j, hj, fun k hk hkx => hl ⟨k, hk, hkx⟩⟩
      exact this _ i hx' le_rfl
    obtain ⟨k, hk⟩ := hex
    have := key k hk
    rw [h] at this
    have e : i = k := by simpa using this
    subst e
    exact hk.2 j hj hjx
  · exact key i

end Universe

theorem itemBefore_iff {items : List T} {i j : Nat} {x y : T}
    (hi : lookup x (Universe.fromVec items).itemIndex = some i)
    (hj : lookup y (Universe.fromVec items).itemIndex = some j) : ItemBefore items x y ↔ i < j := by
  constructor
  · rintro ⟨i', j', h1, h2, h3⟩
    rw [Universe.index_last.mpr h1] at hi
    rw [Universe.index_last.mpr h2] at hj
    cases hi; cases hj; exact h3
  · intro h
    exact ⟨i, j, Universe.index_last.mp hi, Universe.index_last.mp hj, h⟩

theorem offers_items {items : List T} {t : Tree T} (ht : Built List.Nodup items t) {q : Finset Nat}
    (hq : ∀ i ∈ q, (Universe.fromVec items).Known i) {i : Nat} {x : T} 
    (hx : lookup x (Universe.fromVec items).itemIndex = some i) :
    Offers (fun a b : Nat => a < b) t.root.Den q i ↔
      Offers (ItemBefore items) (family t.combinations) ((Universe.fromVec items).itemsOf q) x := by
  have ki : (Universe.fromVec items).Known i := ⟨x, hx⟩
  have xi := Universe.index_get hx
  constructor
  · rintro ⟨s, hs, his, hz⟩
    refine ⟨(Universe.fromVec items).itemsOf s, ?_, ?_, fun z hzx => ?_⟩
    · rw [Tree.mem_combinations, ht.univ_eq]; exact ⟨s, hs, rfl⟩
    · rwa [Universe.mem_itemsOf_known (ht.ids.mem hs) ki xi]
    · obtain ⟨k, j, hk, hj, hlt⟩ := hzx
      have hk' := Universe.index_last.mpr hk
      have hj' := Universe.index_last.mpr hj
      rw [hx] at hj'
      cases hj'
      have kk : (Universe.fromVec items).Known k := ⟨z, hk'⟩
      rw [Universe.mem_itemsOf_known (ht.ids.mem hs) kk hk.1, Universe.mem_itemsOf_known hq kk hk.1]
      exact hz k hlt
  · rintro ⟨S, hS, hxS, hz⟩
    rw [Tree.mem_combinations, ht.univ_eq] at hS
    obtain ⟨s, hs, rfl⟩ := hS
    refine ⟨s, hs, ?_, fun k hk => ?_⟩
    · rwa [Universe.mem_itemsOf_known (ht.ids.mem hs) ki xi] at hxS
    · by_cases kk : (Universe.fromVec items).Known k
      · obtain ⟨z, hz1, hz2⟩ := Universe.known_get kk
        have := hz z ((itemBefore_iff hz2 hx).mpr hk)
        rwa [Universe.mem_itemsOf_known (ht.ids.mem hs) kk hz1, Universe.mem_itemsOf_known hq kk hz1] at this
      · exact ⟨fun h => absurd (ht.ids.mem hs k h) kk, fun h => absurd (hq k h) kk⟩

/-- C32 (exact semantics): for trees over one universe made from lists without repeated items, the
combinations of `a.product(b)` are exactly the unions `A ∪ B` of a combination of each in which neither
side passes over an item that it could have taken (after the same earlier items) and the other side
takes.  The order is that of the universe. -/
theorem product_exact_partial {items : List T} {a b : Tree T} (ha : Built List.Nodup items a)
    (hb : Built List.Nodup items b) : family (a.product b).combinations =
      pairProduct (ItemBefore items) (family a.combinations) (family b.combinations) := by
  ext S
  rw [Tree.mem_combinations]
  have hpe := Node.product_exact _ _ ha.ordered hb.ordered
  have hroot : (a.product b).root.Den = pairProduct (fun a b : Nat => a < b) a.root.Den b.root.Den := hpe
  have hun : (a.product b).univ = Universe.fromVec items := ha.univ_eq
  rw [hroot, hun]
  have side : ∀ {t : Tree T}, Built List.Nodup items t → ∀ {p q : Finset Nat},
      (∀ i ∈ p, (Universe.fromVec items).Known i) → (∀ i ∈ q, (Universe.fromVec items).Known i) →
      ((∀ i ∈ p, i ∉ q → ¬ Offers (fun a b : Nat => a < b) t.root.Den q i) ↔
        ∀ x ∈ (Universe.fromVec items).itemsOf p, x ∉ (Universe.fromVec items).itemsOf q →
          ¬ Offers (ItemBefore items) (family t.combinations) ((Universe.fromVec items).itemsOf q) x) := by
    intro t ht p q hp hq
    constructor
    · intro h x hx hxq
      obtain ⟨i, hi, e⟩ := Universe.mem_itemsOf.mp hx
      obtain ⟨y, hy, ly⟩ := Universe.known_get (hp i hi)
      have : items[i]? = some x := e
      rw [hy] at this; cases this
      rw [← offers_items ht hq ly]
      exact h i hi (fun h' => hxq ((Universe.mem_itemsOf_known hq (hp i hi) hy).mpr h'))
    · intro h i hi hiq
      obtain ⟨y, hy, ly⟩ := Universe.known_get (hp i hi)
      rw [offers_items ht hq ly]
      exact h y ((Universe.mem_itemsOf_known hp (hp i hi) hy).mpr hi)
        (fun h' => hiq ((Universe.mem_itemsOf_known hq (hp i hi) hy).mp h'))
  constructor
  · rintro ⟨s, ⟨p, hp, q, hq, rfl, h1, h2⟩, rfl⟩
    refine ⟨(Universe.fromVec items).itemsOf p, ?_, (Universe.fromVec items).itemsOf q, ?_,
      Universe.itemsOf_union _ _ _, ?_, ?_⟩
    · rw [Tree.mem_combinations, ha.univ_eq]; exact ⟨p, hp, rfl⟩
    · rw [Tree.mem_combinations, hb.univ_eq]; exact ⟨q, hq, rfl⟩
    · exact (side hb (ha.ids.mem hp) (hb.ids.mem hq)).mp h1
    · exact (side ha (hb.ids.mem hq) (ha.ids.mem hp)).mp h2
  · rintro ⟨A, hA, B, hB, rfl, h1, h2⟩
    rw [Tree.mem_combinations, ha.univ_eq] at hA
    rw [Tree.mem_combinations, hb.univ_eq] at hB
    obtain ⟨p, hp, rfl⟩ := hA
    obtain ⟨q, hq, rfl⟩ := hB
    refine ⟨p ∪ q, ⟨p, hp, q, hq, rfl, ?_, ?_⟩, (Universe.itemsOf_union _ _ _).symm⟩
    · exact (side hb (ha.ids.mem hp) (hb.ids.mem hq)).mpr h1
    · exact (side ha (hb.ids.mem hq) (ha.ids.mem hp)).mpr h2

/-! ### the hypotheses are met -/

/-- `{{1},{2}}·{{1},{2}}`: the tree is `Built`, and the set described by `product_exact_partial` lacks
`{1,2}`, the union of two combinations: the side that takes `2` could have taken `1`. -/
example : Built List.Nodup [1, 2] ((Universe.fromVec [1, 2]).uniqueTree [1, 2]) ∧
    ({1} : Finset ℕ) ∈ family ((Universe.fromVec [1, 2]).uniqueTree [1, 2]).combinations ∧
    ({2} : Finset ℕ) ∈ family ((Universe.fromVec [1, 2]).uniqueTree [1, 2]).combinations ∧
    ({1, 2} : Finset ℕ) ∉ pairProduct (ItemBefore [1, 2])
      (family ((Universe.fromVec [1, 2]).uniqueTree [1, 2]).combinations)
      (family ((Universe.fromVec [1, 2]).uniqueTree [1, 2]).combinations) := by
  have hb : Built List.Nodup [1, 2] ((Universe.fromVec [1, 2]).uniqueTree [1, 2]) := .unique _
  refine ⟨hb, ?_, ?_, ?_⟩
  · rw [unique_tree_exact]; simp
  · rw [unique_tree_exact]; simp
  · rw [← product_exact_partial hb hb, (ops_idem _).2.2, unique_tree_exact]
    rintro ⟨x, _, e⟩
    have := congrArg Finset.card e
    split at this <;> simp at this

end Verif.Zdd1
