import Verif.Zdd1.Exact

/-!
# Exactly what v1 `intersect` computes (C31)
-/

set_option linter.unusedSimpArgs false
set_option linter.unusedVariables false
set_option linter.unusedSectionVars false

namespace Verif.Zdd1
open Verif Verif.Weave Verif.Spec

universe u

section
variable {T : Type u} (lt : T → T → Prop) (A B : Set (Finset T)) (p q : Finset T)

/-- `p` leaves `y` out although `A` could go on with it, and `B`, after `q`, has nothing to say about
`y`.  Not code: used to state or prove properties. -/
def Passes (y : T) : Prop := y ∉ p ∧ Offers lt A p y ∧ ¬ Offers lt B q y

/-- At `y` the two sides do the same thing if both could go on with `y`, and a side that alone could go on
with `y` takes it.  Not code: used to state or prove properties. -/
def Together (y : T) : Prop :=
  (Offers lt A p y → Offers lt B q y → (y ∈ p ↔ y ∈ q)) ∧
    ¬ Passes lt A B p q y ∧ ¬ Passes lt B A q p y

/-- `s` comes from the pair `p`, `q`: either they go together to the end and `s` is their union, or they go
together up to an item that one side alone passes over, and `s` is what that side takes and what the other
one has taken until then.  Not code: used to state or prove properties. -/
def MeetsAt (s : Finset T) : Prop :=
  ((∀ y, Together lt A B p q y) ∧ ∀ z, z ∈ s ↔ z ∈ p ∨ z ∈ q) ∨
  ∃ x, (∀ y, lt y x → Together lt A B p q y) ∧
    ((Passes lt A B p q x ∧ ∀ z, z ∈ s ↔ z ∈ p ∨ (z ∈ q ∧ lt z x)) ∨
     (Passes lt B A q p x ∧ ∀ z, z ∈ s ↔ z ∈ q ∨ (z ∈ p ∧ lt z x)))

/-- What v1 `intersect` computes.  Not code: used to state or prove properties. -/
def pairMeet : Set (Finset T) := {s | ∃ p ∈ A, ∃ q ∈ B, MeetsAt lt A B p q s}
end

theorem together_symm {T : Type u} {lt : T → T → Prop} {A B : Set (Finset T)} {p q : Finset T} {y : T} :
    Together lt A B p q y ↔ Together lt B A q p y := by
  unfold Together; tauto

theorem meetsAt_symm {T : Type u} {lt : T → T → Prop} {A B : Set (Finset T)} {p q s : Finset T} :
    MeetsAt lt A B p q s → MeetsAt lt B A q p s := by
  rintro (⟨h1, h2⟩ | ⟨x, h1, h2⟩)
  · exact Or.inl ⟨fun y => together_symm.mp (h1 y), fun z => by rw [h2]; exact or_comm⟩
  · exact Or.inr ⟨x, fun y hy => together_symm.mp (h1 y hy), h2.symm⟩

theorem pairMeet_comm {T : Type u} (lt : T → T → Prop) (A B : Set (Finset T)) :
    pairMeet lt A B = pairMeet lt B A := by
  ext s
  exact ⟨fun ⟨p, hp, q, hq, h⟩ => ⟨q, hq, p, hp, meetsAt_symm h⟩,
    fun ⟨p, hp, q, hq, h⟩ => ⟨q, hq, p, hp, meetsAt_symm h⟩⟩

namespace Node

local notation "lt'" => ((· < ·) : Nat → Nat → Prop)

theorem offers_mem {A : Set (Finset Nat)} {p : Finset Nat} (hp : p ∈ A) {x : Nat} (hx : x ∈ p) :
    Offers lt' A p x := ⟨p, hp, hx, fun _ _ => Iff.rfl⟩

theorem offers_congr {A : Set (Finset Nat)} {p q : Finset Nat} {x : Nat}
    (h : ∀ z, z < x → (z ∈ p ↔ z ∈ q)) : Offers lt' A p x ↔ Offers lt' A q x := by
  constructor
  · rintro ⟨t, h1, h2, h3⟩; exact ⟨t, h1, h2, fun z hz => (h3 z hz).trans (h z hz)⟩
  · rintro ⟨t, h1, h2, h3⟩; exact ⟨t, h1, h2, fun z hz => (h3 z hz).trans (h z hz).symm⟩

theorem agree_of_together {A : Set (Finset Nat)} {p q : Finset Nat} (hp : p ∈ A) (hq : q ∈ A) (y : Nat)
    (h : ∀ z, z ≤ y → Together lt' A A p q z) : y ∈ p ↔ y ∈ q := by
  induction y using Nat.strong_induction_on with
  | _ y ih =>
    have hb : ∀ z, z < y → (z ∈ p ↔ z ∈ q) := fun z hz => ih z hz (fun w hw => h w (by omega))
    have hc := offers_congr (A := A) hb
    have ht := (h y le_rfl).1
    constructor
    · intro hy
      have := offers_mem hp hy
      exact (ht this (hc.mp this)).mp hy
    · intro hy
      have := offers_mem hq hy
      exact (ht (hc.mpr this) this).mpr hy

theorem together_self {A : Set (Finset Nat)} {p : Finset Nat} (y : Nat) : Together lt' A A p p y :=
  ⟨fun _ _ => Iff.rfl, fun h => h.2.2 h.2.1, fun h => h.2.2 h.2.1⟩

theorem pairMeet_self (A : Set (Finset Nat)) : pairMeet lt' A A = A := by
  ext s
  constructor
  · rintro ⟨p, hp, q, hq, ⟨h1, h2⟩ | ⟨x, h1, h2⟩⟩
    · have e : p = q := Finset.ext fun y => agree_of_together hp hq y (fun z _ => h1 z)
      subst e
      have : s = p := Finset.ext fun z => by rw [h2]; tauto
      rwa [this]
    · exfalso
      have hb : ∀ z, z < x → (z ∈ p ↔ z ∈ q) :=
        fun y hy => agree_of_together hp hq y (fun z hz => h1 z (by omega))
      have hc := offers_congr (A := A) hb
      rcases h2 with ⟨⟨_, h3, h4⟩, _⟩ | ⟨⟨_, h3, h4⟩, _⟩
      · exact h4 (hc.mp h3)
      · exact h4 (hc.mpr h3)
  · intro hs
    exact ⟨s, hs, s, hs, Or.inl ⟨together_self, fun z => by tauto⟩⟩

theorem offers_unit {q : Finset Nat} {x : Nat} : ¬ Offers lt' ({∅} : Set (Finset Nat)) q x := by
  rintro ⟨t, ht, hx, _⟩
  rw [Set.mem_singleton_iff] at ht
  subst ht; simp at hx

theorem pairMeet_unit (A : Set (Finset Nat)) : pairMeet lt' A {∅} = A := by
  classical
  ext s
  constructor
  · rintro ⟨p, hp, q, hq, h⟩
    rw [Set.mem_singleton_iff] at hq
    subst hq
    have : s = p := by
      rcases h with ⟨_, h2⟩ | ⟨x, _, ⟨_, h2⟩ | ⟨h3, _⟩⟩
      · exact Finset.ext fun z => by simpa using h2 z
      · exact Finset.ext fun z => by simpa using h2 z
      · exact absurd h3.2.1 offers_unit
    rwa [this]
  · intro hs
    refine ⟨s, hs, ∅, rfl, ?_⟩
    have tg : ∀ y, ¬ Passes lt' A {∅} s ∅ y → Together lt' A {∅} s ∅ y :=
      fun y hy => ⟨fun _ h => absurd h offers_unit, hy, fun h => offers_unit h.2.1⟩
    by_cases hex : ∃ y, Passes lt' A {∅} s ∅ y
    · refine Or.inr ⟨Nat.find hex, fun y hy => tg y (Nat.find_min hex hy), Or.inl ⟨Nat.find_spec hex, ?_⟩⟩
      intro z; simp
    · exact Or.inl ⟨fun y => tg y (fun h => hex ⟨y, h⟩), fun z => by simp⟩

theorem bool_all {P Q Z IP IQ : Prop} :
    (P ∨ Z ∧ IP) ∨ (Q ∨ Z ∧ IQ) ↔ (P ∨ Q) ∨ Z ∧ (IP ∨ IQ) := by tauto

theorem bool_upto {P Q Z IP IQ L : Prop} (h : Z → L) :
    (P ∨ Z ∧ IP) ∨ ((Q ∨ Z ∧ IQ) ∧ L) ↔ (P ∨ Q ∧ L) ∨ Z ∧ (IP ∨ IQ) := by tauto

/-- The pair, at the cofactors. -/
theorem meets_step {i : Nat} {A B A' B' : Set (Finset Nat)} {p q p' q' : Finset Nat}
    (hp : ∀ y ∈ p', i < y) (hq : ∀ y ∈ q', i < y)
    (hpp : p = p' ∨ p = insert i p') (hqq : q = q' ∨ q = insert i q')
    (cA : ∀ x, i < x → (Offers lt' A p x ↔ Offers lt' A' p' x))
    (cB : ∀ x, i < x → (Offers lt' B q x ↔ Offers lt' B' q' x))
    (nA : ∀ x, x < i → ¬ Offers lt' A p x) (nB : ∀ x, x < i → ¬ Offers lt' B q x)
    (nA' : ∀ x, x ≤ i → ¬ Offers lt' A' p' x) (nB' : ∀ x, x ≤ i → ¬ Offers lt' B' q' x)
    (ti : Together lt' A B p q i) (s : Finset Nat) :
    MeetsAt lt' A B p q s ↔ ∃ s', MeetsAt lt' A' B' p' q' s' ∧
      ∀ z, z ∈ s ↔ z ∈ s' ∨ (z = i ∧ (i ∈ p ∨ i ∈ q)) := by
  have m1 : ∀ x, x ∈ p ↔ x ∈ p' ∨ (x = i ∧ i ∈ p) := by
    intro x
    have : i ∉ p' := fun h => by have := hp i h; omega
    rcases hpp with rfl | rfl
    · constructor
      · exact Or.inl
      · rintro (h | ⟨rfl, h⟩) <;> exact h
    · simp only [Finset.mem_insert]; tauto
  have m2 : ∀ x, x ∈ q ↔ x ∈ q' ∨ (x = i ∧ i ∈ q) := by
    intro x
    rcases hqq with rfl | rfl
    · constructor
      · exact Or.inl
      · rintro (h | ⟨rfl, h⟩) <;> exact h
    · simp only [Finset.mem_insert]; tauto
  have ip : i ∉ p' := fun h => by have := hp i h; omega
  have iq : i ∉ q' := fun h => by have := hq i h; omega
  have m1' : ∀ x, i < x → (x ∈ p ↔ x ∈ p') := fun x hx => by
    rw [m1]; exact ⟨fun h => h.resolve_right (by omega), Or.inl⟩
  have m2' : ∀ x, i < x → (x ∈ q ↔ x ∈ q') := fun x hx => by
    rw [m2]; exact ⟨fun h => h.resolve_right (by omega), Or.inl⟩
  have pA : ∀ x, i < x → (Passes lt' A B p q x ↔ Passes lt' A' B' p' q' x) := fun x hx => by
    unfold Passes; rw [m1' x hx, cA x hx, cB x hx]
  have pB : ∀ x, i < x → (Passes lt' B A q p x ↔ Passes lt' B' A' q' p' x) := fun x hx => by
    unfold Passes; rw [m2' x hx, cA x hx, cB x hx]
  have tg : ∀ x, i < x → (Together lt' A B p q x ↔ Together lt' A' B' p' q' x) := fun x hx => by
    unfold Together; rw [m1' x hx, m2' x hx, cA x hx, cB x hx, pA x hx, pB x hx]
  have tlow : ∀ x, x ≤ i → Together lt' A B p q x := fun x hx => by
    rcases Nat.lt_or_eq_of_le hx with h | rfl
    · exact ⟨fun h' => absurd h' (nA x h), fun h' => nA x h h'.2.1, fun h' => nB x h h'.2.1⟩
    · exact ti
  have tlow' : ∀ x, x ≤ i → Together lt' A' B' p' q' x := fun x h =>
    ⟨fun h' => absurd h' (nA' x h), fun h' => nA' x h h'.2.1, fun h' => nB' x h h'.2.1⟩
  have tall : ∀ x, Together lt' A B p q x ↔ Together lt' A' B' p' q' x := fun x => by
    rcases Nat.lt_or_ge i x with h | h
    · exact tg x h
    · exact ⟨fun _ => tlow' x h, fun _ => tlow x h⟩
  have zi : ∀ {x z : Nat}, i < x → z = i → z < x := fun h e => e ▸ h
  constructor
  · rintro (⟨h1, h2⟩ | ⟨x, h1, ⟨h3, h4⟩ | ⟨h3, h4⟩⟩)
    · refine ⟨p' ∪ q', Or.inl ⟨fun y => (tall y).mp (h1 y), fun z => by simp⟩, fun z => ?_⟩
      rw [h2, m1 z, m2 z, Finset.mem_union]; exact bool_all
    · have hx : i < x := by
        by_contra hc
        exact (tlow x (by omega)).2.1 h3
      refine ⟨p' ∪ q'.filter (· < x), Or.inr ⟨x, fun y hy => (tall y).mp (h1 y hy),
        Or.inl ⟨(pA x hx).mp h3, fun z => by simp⟩⟩, fun z => ?_⟩
      rw [h4, m1 z, m2 z, Finset.mem_union, Finset.mem_filter]; exact bool_upto (zi hx)
    · have hx : i < x := by
        by_contra hc
        exact (tlow x (by omega)).2.2 h3
      refine ⟨q' ∪ p'.filter (· < x), Or.inr ⟨x, fun y hy => (tall y).mp (h1 y hy),
        Or.inr ⟨(pB x hx).mp h3, fun z => by simp⟩⟩, fun z => ?_⟩
      rw [h4, m1 z, m2 z, Finset.mem_union, Finset.mem_filter, or_comm (a := i ∈ p)]; exact bool_upto (zi hx)
  · rintro ⟨s', ⟨h1, h2⟩ | ⟨x, h1, ⟨h3, h4⟩ | ⟨h3, h4⟩⟩, hs⟩
    · refine Or.inl ⟨fun y => (tall y).mpr (h1 y), fun z => ?_⟩
      rw [hs, h2, m1 z, m2 z]; exact bool_all.symm
    · have hx : i < x := by
        by_contra hc
        exact nA' x (by omega) h3.2.1
      refine Or.inr ⟨x, fun y hy => (tall y).mpr (h1 y hy), Or.inl ⟨(pA x hx).mpr h3, fun z => ?_⟩⟩
      rw [hs, h4, m1 z, m2 z]; exact (bool_upto (zi hx)).symm
    · have hx : i < x := by
        by_contra hc
        exact nB' x (by omega) h3.2.1
      refine Or.inr ⟨x, fun y hy => (tall y).mpr (h1 y hy), Or.inr ⟨(pB x hx).mpr h3, fun z => ?_⟩⟩
      rw [hs, h4, m1 z, m2 z, or_comm (a := i ∈ p)]; exact (bool_upto (zi hx)).symm

/-- The pair, when the left side alone passes over the least item. -/
theorem meets_left {i : Nat} {A B : Set (Finset Nat)} {p q : Finset Nat}
    (hq : ∀ y ∈ q, i < y) (nA : ∀ x, x < i → ¬ Offers lt' A p x) (nB : ∀ x, x < i → ¬ Offers lt' B q x)
    (hi : Passes lt' A B p q i) (s : Finset Nat) : MeetsAt lt' A B p q s ↔ s = p := by
  have tlow : ∀ x, x < i → Together lt' A B p q x := fun x h =>
    ⟨fun h' => absurd h' (nA x h), fun h' => nA x h h'.2.1, fun h' => nB x h h'.2.1⟩
  constructor
  · rintro (⟨h1, _⟩ | ⟨x, h1, h2⟩)
    · exact absurd hi (h1 i).2.1
    · have hx : x = i := by
        rcases Nat.lt_trichotomy x i with h | h | h
        · exfalso
          rcases h2 with ⟨h3, _⟩ | ⟨h3, _⟩
          · exact nA x h h3.2.1
          · exact nB x h h3.2.1
        · exact h
        · exact absurd hi (h1 i h).2.1
      subst hx
      rcases h2 with ⟨_, h4⟩ | ⟨h3, _⟩
      · refine Finset.ext fun z => ?_
        rw [h4]
        exact ⟨fun h => h.resolve_right (fun h' => by have := hq z h'.1; omega), Or.inl⟩
      · exact absurd h3.2.1 hi.2.2
  · rintro rfl
    exact Or.inr ⟨i, tlow, Or.inl ⟨hi, fun z =>
      ⟨Or.inl, fun h => h.resolve_right (fun h' => by have := hq z h'.1; omega)⟩⟩⟩

theorem no_offers {i : Nat} {A : Set (Finset Nat)} (hA : ∀ t ∈ A, ∀ y ∈ t, i < y) (q : Finset Nat)
    (x : Nat) (hx : x ≤ i) : ¬ Offers lt' A q x := by
  rintro ⟨t, ht, h1, _⟩
  have := hA t ht x h1; omega

theorem no_offers_branch {i : Nat} {l h : Node} (o : (Node.Branch i l h).Ordered) (q : Finset Nat)
    (x : Nat) (hx : x < i) : ¬ Offers lt' (Node.Branch i l h).Den q x := by
  rintro ⟨t, ht, h1, _⟩
  have := ge_of_mem o ht h1; omega

/-- The pair, when the left side alone branches. -/
theorem meet_lt {i : Nat} {l h b : Node} (oa : (Node.Branch i l h).Ordered) (ob : b.Ordered)
    (hb : Above i b) (ne : b ≠ .Leaf false) (s : Finset Nat) :
    s ∈ pairMeet lt' (Node.Branch i l h).Den b.Den ↔
      s ∈ l.Den ∨ ∃ t ∈ pairMeet lt' h.Den b.Den, s = insert i t := by
  have oa' := oa
  simp only [Ordered] at oa
  have hB : ∀ q ∈ b.Den, ∀ y ∈ q, i < y := fun q hq y hy => lt_of_mem ob hb hq hy
  have hL : ∀ q ∈ l.Den, ∀ y ∈ q, i < y := fun q hq y hy => lt_of_mem oa.2.2.2.1 oa.1 hq hy
  have hH : ∀ q ∈ h.Den, ∀ y ∈ q, i < y := fun q hq y hy => lt_of_mem oa.2.2.2.2 oa.2.1 hq hy
  have low : ∀ p ∈ l.Den, ∀ q ∈ b.Den, (MeetsAt lt' (Node.Branch i l h).Den b.Den p q s ↔ s = p) :=
    fun p hp q hq => meets_left (hB q hq) (no_offers_branch oa' p)
      (fun x hx => no_offers hB q x (le_of_lt hx))
      ⟨fun h' => by have := hL p hp i h'; omega, offers_root oa' (fun y hy => le_of_lt (hL p hp y hy)),
        no_offers hB q i le_rfl⟩ s
  have high : ∀ p ∈ h.Den, ∀ q ∈ b.Den, (MeetsAt lt' (Node.Branch i l h).Den b.Den (insert i p) q s ↔
      ∃ s', MeetsAt lt' h.Den b.Den p q s' ∧ s = insert i s') := fun p hp q hq => by
    have inp : i ∉ p := fun h' => by have := hH p hp i h'; omega
    rw [meets_step (hH p hp) (hB q hq) (Or.inr rfl) (Or.inl rfl)
      (fun x hx => offers_high oa' inp hx) (fun x _ => Iff.rfl)
      (no_offers_branch oa' _) (fun x hx => no_offers hB q x (le_of_lt hx)) (no_offers hH p) (no_offers hB q)
      ⟨fun _ h' => absurd h' (no_offers hB q i le_rfl), fun h' => h'.1 (by simp),
        fun h' => no_offers hB q i le_rfl h'.2.1⟩ s]
    refine exists_congr fun s' => and_congr_right fun _ => ?_
    constructor
    · intro hz; exact Finset.ext fun z => by rw [hz, Finset.mem_insert]; simp; tauto
    · rintro rfl z; simp; tauto
  constructor
  · rintro ⟨p, hp | ⟨p', hp, rfl⟩, q, hq, hm⟩
    · rw [low p hp q hq] at hm
      subst hm; exact Or.inl hp
    · obtain ⟨s', hm', rfl⟩ := (high p' hp q hq).mp hm
      exact Or.inr ⟨s', ⟨p', hp, q, hq, hm'⟩, rfl⟩
  · rintro (hs | ⟨t, ⟨p, hp, q, hq, hm⟩, rfl⟩)
    · obtain ⟨q, hq⟩ := exists_mem ob ne
      exact ⟨s, Or.inl hs, q, hq, (low s hs q hq).mpr rfl⟩
    · exact ⟨insert i p, Or.inr ⟨p, hp, rfl⟩, q, hq, (high p hp q hq).mpr ⟨t, hm, rfl⟩⟩

/-- The pair, when both sides branch at the same item. -/
theorem meet_eq {i : Nat} {l h l' h' : Node} (oa : (Node.Branch i l h).Ordered)
    (ob : (Node.Branch i l' h').Ordered) (s : Finset Nat) :
    s ∈ pairMeet lt' (Node.Branch i l h).Den (Node.Branch i l' h').Den ↔
      s ∈ pairMeet lt' l.Den l'.Den ∨ ∃ t ∈ pairMeet lt' h.Den h'.Den, s = insert i t := by
  have oa' := oa
  have ob' := ob
  simp only [Ordered] at oa ob
  have hL : ∀ q ∈ l.Den, ∀ y ∈ q, i < y := fun q hq y hy => lt_of_mem oa.2.2.2.1 oa.1 hq hy
  have hH : ∀ q ∈ h.Den, ∀ y ∈ q, i < y := fun q hq y hy => lt_of_mem oa.2.2.2.2 oa.2.1 hq hy
  have hL' : ∀ q ∈ l'.Den, ∀ y ∈ q, i < y := fun q hq y hy => lt_of_mem ob.2.2.2.1 ob.1 hq hy
  have hH' : ∀ q ∈ h'.Den, ∀ y ∈ q, i < y := fun q hq y hy => lt_of_mem ob.2.2.2.2 ob.2.1 hq hy
  have nm : ∀ {A : Set (Finset Nat)}, (∀ q ∈ A, ∀ y ∈ q, i < y) → ∀ q ∈ A, i ∉ q :=
    fun hA q hq h' => by have := hA q hq i h'; omega
  have ro : ∀ {p : Finset Nat}, (∀ y ∈ p, i < y) → Offers lt' (Node.Branch i l h).Den p i :=
    fun hp => offers_root oa' (fun y hy => le_of_lt (hp y hy))
  have ro' : ∀ {p : Finset Nat}, (∀ y ∈ p, i < y) → Offers lt' (Node.Branch i l' h').Den p i :=
    fun hp => offers_root ob' (fun y hy => le_of_lt (hp y hy))
  have roi : ∀ {p : Finset Nat}, (∀ y ∈ p, i < y) → Offers lt' (Node.Branch i l h).Den (insert i p) i :=
    fun hp => offers_root oa' (fun y hy => by
      rcases Finset.mem_insert.mp hy with rfl | h
      · exact le_rfl
      · exact le_of_lt (hp y h))
  have roi' : ∀ {p : Finset Nat}, (∀ y ∈ p, i < y) → Offers lt' (Node.Branch i l' h').Den (insert i p) i :=
    fun hp => offers_root ob' (fun y hy => by
      rcases Finset.mem_insert.mp hy with rfl | h
      · exact le_rfl
      · exact le_of_lt (hp y h))
  have ll : ∀ p ∈ l.Den, ∀ q ∈ l'.Den, ∀ s,
      (MeetsAt lt' (Node.Branch i l h).Den (Node.Branch i l' h').Den p q s ↔
        MeetsAt lt' l.Den l'.Den p q s) := fun p hp q hq s => by
    rw [meets_step (hL p hp) (hL' q hq) (Or.inl rfl) (Or.inl rfl)
      (fun x hx => offers_low oa' (nm hL p hp) hx) (fun x hx => offers_low ob' (nm hL' q hq) hx)
      (no_offers_branch oa' _) (no_offers_branch ob' _) (no_offers hL p) (no_offers hL' q)
      ⟨fun _ _ => iff_of_false (nm hL p hp) (nm hL' q hq), fun h' => h'.2.2 (ro' (hL' q hq)),
        fun h' => h'.2.2 (ro (hL p hp))⟩ s]
    have n1 := nm hL p hp
    have n2 := nm hL' q hq
    constructor
    · rintro ⟨s', h1, h2⟩
      have : s = s' := Finset.ext fun z => by rw [h2]; tauto
      rwa [this]
    · intro h1; exact ⟨s, h1, fun z => by tauto⟩
  have hh : ∀ p ∈ h.Den, ∀ q ∈ h'.Den,
      (MeetsAt lt' (Node.Branch i l h).Den (Node.Branch i l' h').Den (insert i p) (insert i q) s ↔
        ∃ s', MeetsAt lt' h.Den h'.Den p q s' ∧ s = insert i s') := fun p hp q hq => by
    rw [meets_step (hH p hp) (hH' q hq) (Or.inr rfl) (Or.inr rfl)
      (fun x hx => offers_high oa' (nm hH p hp) hx) (fun x hx => offers_high ob' (nm hH' q hq) hx)
      (no_offers_branch oa' _) (no_offers_branch ob' _) (no_offers hH p) (no_offers hH' q)
      ⟨fun _ _ => by simp, fun h' => h'.1 (by simp), fun h' => h'.1 (by simp)⟩ s]
    refine exists_congr fun s' => and_congr_right fun _ => ?_
    constructor
    · intro hz; exact Finset.ext fun z => by rw [hz, Finset.mem_insert]; simp; tauto
    · rintro rfl z; simp; tauto
  -- a pair that disagrees at `i` gives nothing
  have no : ∀ {p q : Finset Nat}, ¬ (i ∈ p ↔ i ∈ q) → Offers lt' (Node.Branch i l h).Den p i →
      Offers lt' (Node.Branch i l' h').Den q i →
      ¬ MeetsAt lt' (Node.Branch i l h).Den (Node.Branch i l' h').Den p q s := by
    intro p q hne h1 h2
    rintro (⟨h3, _⟩ | ⟨x, h3, h4⟩)
    · exact hne ((h3 i).1 h1 h2)
    · rcases Nat.lt_trichotomy x i with hx | rfl | hx
      · rcases h4 with ⟨h5, _⟩ | ⟨h5, _⟩
        · exact no_offers_branch oa' _ x hx h5.2.1
        · exact no_offers_branch ob' _ x hx h5.2.1
      · rcases h4 with ⟨h5, _⟩ | ⟨h5, _⟩
        · exact h5.2.2 h2
        · exact h5.2.2 h1
      · exact hne ((h3 i hx).1 h1 h2)
  constructor
  · rintro ⟨p, hp | ⟨p', hp, rfl⟩, q, hq | ⟨q', hq, rfl⟩, hm⟩
    · exact Or.inl ⟨p, hp, q, hq, (ll p hp q hq s).mp hm⟩
    · exact absurd hm (no (by simp [nm hL p hp]) (ro (hL p hp)) (roi' (hH' q' hq)))
    · exact absurd hm (no (by simp [nm hL' q hq]) (roi (hH p' hp)) (ro' (hL' q hq)))
    · obtain ⟨s', hm', rfl⟩ := (hh p' hp q' hq).mp hm
      exact Or.inr ⟨s', ⟨p', hp, q', hq, hm'⟩, rfl⟩
  · rintro (⟨p, hp, q, hq, hm⟩ | ⟨t, ⟨p, hp, q, hq, hm⟩, rfl⟩)
    · exact ⟨p, Or.inl hp, q, Or.inl hq, (ll p hp q hq s).mpr hm⟩
    · exact ⟨insert i p, Or.inr ⟨p, hp, rfl⟩, insert i q, Or.inr ⟨q, hq, rfl⟩,
        (hh p hp q hq).mpr ⟨t, hm, rfl⟩⟩

/-- Exactly what `intersect` computes on ordered diagrams. -/
theorem intersect_exact (a b : Node) (oa : a.Ordered) (ob : b.Ordered) :
    (intersect a b).Den = pairMeet lt' a.Den b.Den := by
  fun_induction intersect a b with
  | case1 a => exact (pairMeet_self _).symm
  | case2 a ne => exact (pairMeet_unit _).symm
  | case3 b _ ne => rw [pairMeet_comm]; exact (pairMeet_unit _).symm
  | case4 a _ _ =>
    ext s
    simp only [mem_false, false_iff]
    rintro ⟨p, _, q, hq, _⟩; exact hq
  | case5 a _ _ _ =>
    ext s
    simp only [mem_false, false_iff]
    rintro ⟨p, hp, _⟩; exact hp
  | case6 i l h j l' h' hlt ne ih =>
    ext s
    have oa' := oa
    simp only [Ordered] at oa
    rw [mem_finish, ih oa.2.2.2.2 ob, meet_lt oa' ob hlt (by simp)]
  | case7 i l h j l' h' _ hlt ne ih =>
    ext s
    have ob' := ob
    simp only [Ordered] at ob
    rw [mem_finish, ih oa ob.2.2.2.2, pairMeet_comm, pairMeet_comm lt' (Node.Branch i l h).Den,
      meet_lt ob' oa hlt (by simp)]
  | case8 i l h j l' h' h1 h2 ne ih1 ih2 =>
    obtain rfl : i = j := by omega
    ext s
    have oa' := oa
    have ob' := ob
    simp only [Ordered] at oa ob
    rw [mem_finish, ih1 oa.2.2.2.1 ob.2.2.2.1, ih2 oa.2.2.2.2 ob.2.2.2.2, meet_eq oa' ob']

/-! ### when it is right -/

/-- The intersection of two non-empty diagrams is not empty. -/
theorem intersect_ne {a b : Node} (oa : a.Ordered) (ob : b.Ordered) (ha : a ≠ .Leaf false)
    (hb : b ≠ .Leaf false) : ∃ s, s ∈ (intersect a b).Den := by
  fun_induction intersect a b with
  | case1 a => exact exists_mem oa ha
  | case2 a ne => exact exists_mem oa ha
  | case3 b _ ne => exact exists_mem ob hb
  | case4 a _ _ => exact absurd rfl hb
  | case5 a _ _ _ => exact absurd rfl ha
  | case6 i l h j l' h' hlt ne ih =>
    simp only [Ordered] at oa
    obtain ⟨s, hs⟩ := ih oa.2.2.2.2 ob oa.2.2.1 hb
    exact ⟨insert i s, mem_finish.mpr (Or.inr ⟨s, hs, rfl⟩)⟩
  | case7 i l h j l' h' _ hlt ne ih =>
    simp only [Ordered] at ob
    obtain ⟨s, hs⟩ := ih oa ob.2.2.2.2 ha ob.2.2.1
    exact ⟨insert j s, mem_finish.mpr (Or.inr ⟨s, hs, rfl⟩)⟩
  | case8 i l h j l' h' h1 h2 ne ih1 ih2 =>
    simp only [Ordered] at oa ob
    obtain ⟨s, hs⟩ := ih2 oa.2.2.2.2 ob.2.2.2.2 oa.2.2.1 ob.2.2.1
    exact ⟨insert i s, mem_finish.mpr (Or.inr ⟨s, hs, rfl⟩)⟩

end Node

/-- Wherever a member of `A` and a member of `B` agree on everything before `x`, both families could go on
with `x` or neither could.  Not code: used to state or prove properties. -/
def SameOffers {T : Type u} (lt : T → T → Prop) (A B : Set (Finset T)) : Prop :=
  ∀ p ∈ A, ∀ q ∈ B, ∀ x, (∀ y, lt y x → (y ∈ p ↔ y ∈ q)) → (Offers lt A p x ↔ Offers lt B q x)

namespace Node

local notation "lt'" => ((· < ·) : Nat → Nat → Prop)

theorem sameOffers_symm {A B : Set (Finset Nat)} (h : SameOffers lt' A B) : SameOffers lt' B A :=
  fun p hp q hq x hx => (h q hq p hp x (fun y hy => (hx y hy).symm)).symm

/-- With the same offers, `intersect` is exact. -/
theorem meet_of_same {A B : Set (Finset Nat)} (h : SameOffers lt' A B) : pairMeet lt' A B = A ∩ B := by
  have agree : ∀ {p q : Finset Nat}, p ∈ A → q ∈ B → ∀ y, (∀ z, z ≤ y → Together lt' A B p q z) →
      (y ∈ p ↔ y ∈ q) := by
    intro p q hp hq y
    induction y using Nat.strong_induction_on with
    | _ y ih =>
      intro ht
      have hb : ∀ z, z < y → (z ∈ p ↔ z ∈ q) := fun z hz => ih z hz (fun w hw => ht w (by omega))
      have hc := h p hp q hq y hb
      have ht := (ht y le_rfl).1
      constructor
      · intro hy
        have := offers_mem hp hy
        exact (ht this (hc.mp this)).mp hy
      · intro hy
        have := offers_mem hq hy
        exact (ht (hc.mpr this) this).mpr hy
  ext s
  constructor
  · rintro ⟨p, hp, q, hq, ⟨h1, h2⟩ | ⟨x, h1, h2⟩⟩
    · have e : p = q := Finset.ext fun y => agree hp hq y (fun z _ => h1 z)
      subst e
      have : s = p := Finset.ext fun z => by rw [h2]; tauto
      rw [this]; exact ⟨hp, hq⟩
    · exfalso
      have hb : ∀ z, z < x → (z ∈ p ↔ z ∈ q) :=
        fun y hy => agree hp hq y (fun z hz => h1 z (by omega))
      have hc := h p hp q hq x hb
      rcases h2 with ⟨⟨_, h3, h4⟩, _⟩ | ⟨⟨_, h3, h4⟩, _⟩
      · exact h4 (hc.mp h3)
      · exact h4 (hc.mpr h3)
  · rintro ⟨h1, h2⟩
    refine ⟨s, h1, s, h2, Or.inl ⟨fun y => ⟨fun _ _ => Iff.rfl, ?_, ?_⟩, fun z => by tauto⟩⟩
    · intro h'; exact h'.2.2 ((h s h1 s h2 y (fun _ _ => Iff.rfl)).mp h'.2.1)
    · intro h'; exact h'.2.2 ((h s h1 s h2 y (fun _ _ => Iff.rfl)).mpr h'.2.1)

/-- A diagram that branches before the other one makes `intersect` wrong. -/
theorem not_right {i : Nat} {l h b r : Node} (oa : (Node.Branch i l h).Ordered) (ob : b.Ordered)
    (hb : Above i b) (ne : b ≠ .Leaf false)
    (hr : ∃ s ∈ r.Den, i ∈ s) : ¬ r.Den = (Node.Branch i l h).Den ∩ b.Den := by
  intro e
  obtain ⟨s, hs, hi⟩ := hr
  rw [e] at hs
  have := lt_of_mem ob hb hs.2 hi
  omega

theorem not_same {i : Nat} {l h b : Node} (oa : (Node.Branch i l h).Ordered) (ob : b.Ordered)
    (hb : Above i b) (ne : b ≠ .Leaf false) : ¬ SameOffers lt' (Node.Branch i l h).Den b.Den := by
  intro hs
  obtain ⟨q, hq⟩ := exists_mem ob ne
  obtain ⟨p, hp⟩ := exists_mem oa (by simp)
  have hB : ∀ q ∈ b.Den, ∀ y ∈ q, i < y := fun q hq y hy => lt_of_mem ob hb hq hy
  have := (hs p hp q hq i (fun y hy => iff_of_false (fun h' => by have := ge_of_mem oa hp h'; omega)
    (fun h' => by have := hB q hq y h'; omega))).mp (offers_root oa (fun y hy => ge_of_mem oa hp hy))
  exact no_offers hB q i le_rfl this

theorem same_branch {i : Nat} {l h l' h' : Node} (oa : (Node.Branch i l h).Ordered)
    (ob : (Node.Branch i l' h').Ordered)
    (hs : SameOffers lt' (Node.Branch i l h).Den (Node.Branch i l' h').Den) :
    SameOffers lt' l.Den l'.Den ∧ SameOffers lt' h.Den h'.Den := by
  have oa' := oa
  have ob' := ob
  simp only [Ordered] at oa ob
  have hL : ∀ q ∈ l.Den, ∀ y ∈ q, i < y := fun q hq y hy => lt_of_mem oa.2.2.2.1 oa.1 hq hy
  have hH : ∀ q ∈ h.Den, ∀ y ∈ q, i < y := fun q hq y hy => lt_of_mem oa.2.2.2.2 oa.2.1 hq hy
  have hL' : ∀ q ∈ l'.Den, ∀ y ∈ q, i < y := fun q hq y hy => lt_of_mem ob.2.2.2.1 ob.1 hq hy
  have hH' : ∀ q ∈ h'.Den, ∀ y ∈ q, i < y := fun q hq y hy => lt_of_mem ob.2.2.2.2 ob.2.1 hq hy
  have nm : ∀ {A : Set (Finset Nat)}, (∀ q ∈ A, ∀ y ∈ q, i < y) → ∀ q ∈ A, i ∉ q :=
    fun hA q hq h' => by have := hA q hq i h'; omega
  constructor
  · intro p hp q hq x hx
    rcases Nat.lt_or_ge i x with hix | hix
    · rw [← offers_low oa' (nm hL p hp) hix, ← offers_low ob' (nm hL' q hq) hix]
      exact hs p (Or.inl hp) q (Or.inl hq) x hx
    · exact iff_of_false (no_offers hL p x hix) (no_offers hL' q x hix)
  · intro p hp q hq x hx
    rcases Nat.lt_or_ge i x with hix | hix
    · rw [← offers_high oa' (nm hH p hp) hix, ← offers_high ob' (nm hH' q hq) hix]
      exact hs _ (Or.inr ⟨p, hp, rfl⟩) _ (Or.inr ⟨q, hq, rfl⟩) x
        (fun y hy => by rw [Finset.mem_insert, Finset.mem_insert, hx y hy])
    · exact iff_of_false (no_offers hH p x hix) (no_offers hH' q x hix)

theorem branch_same {i : Nat} {l h l' h' : Node} (oa : (Node.Branch i l h).Ordered)
    (ob : (Node.Branch i l' h').Ordered) (h1 : SameOffers lt' l.Den l'.Den)
    (h2 : SameOffers lt' h.Den h'.Den) :
    SameOffers lt' (Node.Branch i l h).Den (Node.Branch i l' h').Den := by
  have oa' := oa
  have ob' := ob
  simp only [Ordered] at oa ob
  have hL : ∀ q ∈ l.Den, ∀ y ∈ q, i < y := fun q hq y hy => lt_of_mem oa.2.2.2.1 oa.1 hq hy
  have hH : ∀ q ∈ h.Den, ∀ y ∈ q, i < y := fun q hq y hy => lt_of_mem oa.2.2.2.2 oa.2.1 hq hy
  have hL' : ∀ q ∈ l'.Den, ∀ y ∈ q, i < y := fun q hq y hy => lt_of_mem ob.2.2.2.1 ob.1 hq hy
  have hH' : ∀ q ∈ h'.Den, ∀ y ∈ q, i < y := fun q hq y hy => lt_of_mem ob.2.2.2.2 ob.2.1 hq hy
  have nm : ∀ {A : Set (Finset Nat)}, (∀ q ∈ A, ∀ y ∈ q, i < y) → ∀ q ∈ A, i ∉ q :=
    fun hA q hq h' => by have := hA q hq i h'; omega
  intro p hp q hq x hx
  rcases Nat.lt_trichotomy x i with hix | rfl | hix
  · exact iff_of_false (no_offers_branch oa' p x hix) (no_offers_branch ob' q x hix)
  · exact iff_of_true (offers_root oa' (fun y hy => ge_of_mem oa' hp hy))
      (offers_root ob' (fun y hy => ge_of_mem ob' hq hy))
  · have hi := hx i hix
    rcases hp with hp | ⟨p', hp, rfl⟩
    · have hpi := nm hL p hp
      rcases hq with hq | ⟨q', hq, rfl⟩
      · rw [offers_low oa' hpi hix, offers_low ob' (nm hL' q hq) hix]
        exact h1 p hp q hq x hx
      · exact absurd (hi.mpr (by simp)) hpi
    · rcases hq with hq | ⟨q', hq, rfl⟩
      · exact absurd (hi.mp (by simp)) (nm hL' q hq)
      · rw [offers_high oa' (nm hH p' hp) hix, offers_high ob' (nm hH' q' hq) hix]
        refine h2 p' hp q' hq x (fun y hy => ?_)
        have := hx y hy
        rw [Finset.mem_insert, Finset.mem_insert] at this
        by_cases hyi : y = i
        · subst hyi; exact iff_of_false (nm hH p' hp) (nm hH' q' hq)
        · tauto

/-- `intersect` is right exactly on diagrams with the same offers. -/
theorem same_of_right (a b : Node) (oa : a.Ordered) (ob : b.Ordered)
    (hr : (intersect a b).Den = a.Den ∩ b.Den) : SameOffers lt' a.Den b.Den := by
  fun_induction intersect a b with
  | case1 a => exact fun p hp q hq x hx => offers_congr hx
  | case2 a ne =>
    cases a with
    | Leaf v =>
      cases v with
      | true => exact absurd rfl ne
      | false => intro p hp; exact absurd hp id
    | Branch i l h =>
      exfalso
      obtain ⟨s, hs⟩ := exists_mem oa.2.2.2.2 oa.2.2.1
      exact not_right (r := .Branch i l h) oa ob trivial (by simp) ⟨insert i s, Or.inr ⟨s, hs, rfl⟩, by simp⟩ hr
  | case3 b _ ne =>
    cases b with
    | Leaf v =>
      cases v with
      | true => exact absurd rfl ne
      | false => intro p hp q hq; exact absurd hq id
    | Branch i l h =>
      exfalso
      obtain ⟨s, hs⟩ := exists_mem ob.2.2.2.2 ob.2.2.1
      exact not_right (r := .Branch i l h) ob oa trivial (by simp) ⟨insert i s, Or.inr ⟨s, hs, rfl⟩, by simp⟩
        (hr.trans (Set.inter_comm _ _))
  | case4 a _ _ => intro p hp q hq; exact absurd hq id
  | case5 a _ _ _ => intro p hp; exact absurd hp id
  | case6 i l h j l' h' hlt ne ih =>
    exfalso
    have oa' := oa
    simp only [Ordered] at oa
    obtain ⟨s, hs⟩ := intersect_ne oa.2.2.2.2 ob oa.2.2.1 (by simp)
    exact not_right oa' ob hlt (by simp) ⟨insert i s, mem_finish.mpr (Or.inr ⟨s, hs, rfl⟩), by simp⟩ hr
  | case7 i l h j l' h' _ hlt ne ih =>
    exfalso
    have ob' := ob
    simp only [Ordered] at ob
    obtain ⟨s, hs⟩ := intersect_ne oa ob.2.2.2.2 (by simp) ob.2.2.1
    exact not_right ob' oa hlt (by simp) ⟨insert j s, mem_finish.mpr (Or.inr ⟨s, hs, rfl⟩), by simp⟩
      (hr.trans (Set.inter_comm _ _))
  | case8 i l h j l' h' h1 h2 ne ih1 ih2 =>
    obtain rfl : i = j := by omega
    have oa' := oa
    have ob' := ob
    simp only [Ordered] at oa ob
    have o1 := intersect_ordered _ _ oa.2.2.2.1 ob.2.2.2.1
    have o2 := intersect_ordered _ _ oa.2.2.2.2 ob.2.2.2.2
    have gl : ∀ s ∈ (l.intersect l').Den, ∀ y ∈ s, i < y :=
      fun s hs y hy => lt_of_mem o1.1 (o1.2 i oa.1 ob.1) hs hy
    have gh : ∀ s ∈ (h.intersect h').Den, ∀ y ∈ s, i < y :=
      fun s hs y hy => lt_of_mem o2.1 (o2.2 i oa.2.1 ob.2.1) hs hy
    have nm : ∀ {A : Set (Finset Nat)}, (∀ q ∈ A, ∀ y ∈ q, i < y) → ∀ q ∈ A, i ∉ q :=
      fun hA q hq h' => by have := hA q hq i h'; omega
    refine branch_same oa' ob' (ih1 oa.2.2.2.1 ob.2.2.2.1 ?_) (ih2 oa.2.2.2.2 ob.2.2.2.2 ?_)
    · ext s
      constructor
      · intro hs
        have hi := nm gl s hs
        have : s ∈ (finish i (l.intersect l') (h.intersect h')).Den := mem_finish.mpr (Or.inl hs)
        rw [hr, Set.mem_inter_iff, mem_ordered oa', mem_ordered ob'] at this
        exact ⟨(this.1.resolve_right (fun h' => hi h'.1)).2, (this.2.resolve_right (fun h' => hi h'.1)).2⟩
      · rintro ⟨k1, k2⟩
        exact intersect_keeps _ _ oa.2.2.2.1 ob.2.2.2.1 s k1 k2
    · ext s
      constructor
      · intro hs
        have hi := nm gh s hs
        have : insert i s ∈ (finish i (l.intersect l') (h.intersect h')).Den :=
          mem_finish.mpr (Or.inr ⟨s, hs, rfl⟩)
        rw [hr, Set.mem_inter_iff, mem_ordered oa', mem_ordered ob'] at this
        have e : (insert i s).erase i = s := Finset.erase_insert hi
        have h1 := (this.1.resolve_left (fun h' => h'.1 (by simp))).2
        have h2 := (this.2.resolve_left (fun h' => h'.1 (by simp))).2
        rw [e] at h1 h2
        exact ⟨h1, h2⟩
      · rintro ⟨k1, k2⟩
        exact intersect_keeps _ _ oa.2.2.2.2 ob.2.2.2.2 s k1 k2

end Node

variable {T : Type u} [LinearOrder T]

theorem offers_known {items : List T} {t : Tree T} (ht : Built List.Nodup items t) {q : Finset Nat} {i : Nat}
    (h : Offers (fun a b : Nat => a < b) t.root.Den q i) : (Universe.fromVec items).Known i := by
  obtain ⟨s, hs, hi, _⟩ := h
  exact ht.ids.mem hs i hi

theorem offers_lookup {items : List T} {t : Tree T} (ht : Built List.Nodup items t) {Q : Finset T} {x : T}
    (h : Offers (ItemBefore items) (family t.combinations) Q x) :
    ∃ i, lookup x (Universe.fromVec items).itemIndex = some i := by
  obtain ⟨S, hS, hx, _⟩ := h
  rw [Tree.mem_combinations, ht.univ_eq] at hS
  obtain ⟨s, hs, rfl⟩ := hS
  obtain ⟨i, hi, e⟩ := Universe.mem_itemsOf.mp hx
  obtain ⟨y, hy, ly⟩ := Universe.known_get (ht.ids.mem hs i hi)
  have : items[i]? = some x := e
  rw [hy] at this; cases this
  exact ⟨i, ly⟩

section transport
variable {items : List T} {a b : Tree T} (ha : Built List.Nodup items a) (hb : Built List.Nodup items b)
  {p q : Finset Nat} (hp : ∀ i ∈ p, (Universe.fromVec items).Known i)
  (hq : ∀ i ∈ q, (Universe.fromVec items).Known i)
include ha hb hp hq

theorem passes_items {i : Nat} {x : T} (hx : lookup x (Universe.fromVec items).itemIndex = some i) :
    Passes (fun a b : Nat => a < b) a.root.Den b.root.Den p q i ↔
      Passes (ItemBefore items) (family a.combinations) (family b.combinations)
        ((Universe.fromVec items).itemsOf p) ((Universe.fromVec items).itemsOf q) x := by
  have ki : (Universe.fromVec items).Known i := ⟨x, hx⟩
  unfold Passes
  rw [offers_items ha hp hx, offers_items hb hq hx, Universe.mem_itemsOf_known hp ki (Universe.index_get hx)]

theorem together_items {i : Nat} {x : T} (hx : lookup x (Universe.fromVec items).itemIndex = some i) :
    Together (fun a b : Nat => a < b) a.root.Den b.root.Den p q i ↔
      Together (ItemBefore items) (family a.combinations) (family b.combinations)
        ((Universe.fromVec items).itemsOf p) ((Universe.fromVec items).itemsOf q) x := by
  have ki : (Universe.fromVec items).Known i := ⟨x, hx⟩
  unfold Together
  rw [passes_items ha hb hp hq hx, passes_items hb ha hq hp hx, offers_items ha hp hx, offers_items hb hq hx,
    Universe.mem_itemsOf_known hp ki (Universe.index_get hx),
    Universe.mem_itemsOf_known hq ki (Universe.index_get hx)]

theorem together_all {P : Nat → Prop} {Q : T → Prop}
    (h : ∀ i x, lookup x (Universe.fromVec items).itemIndex = some i → (P i ↔ Q x)) :
    (∀ i, P i → Together (fun a b : Nat => a < b) a.root.Den b.root.Den p q i) ↔
      ∀ x, Q x → Together (ItemBefore items) (family a.combinations) (family b.combinations)
        ((Universe.fromVec items).itemsOf p) ((Universe.fromVec items).itemsOf q) x := by
  constructor
  · intro k x hx
    by_cases hl : ∃ i, lookup x (Universe.fromVec items).itemIndex = some i
    · obtain ⟨i, hi⟩ := hl
      exact (together_items ha hb hp hq hi).mp (k i ((h i x hi).mpr hx))
    · exact ⟨fun h' => absurd (offers_lookup ha h') hl, fun h' => hl (offers_lookup ha h'.2.1),
        fun h' => hl (offers_lookup hb h'.2.1)⟩
  · intro k i hi
    by_cases hl : (Universe.fromVec items).Known i
    · obtain ⟨x, hx⟩ := hl
      exact (together_items ha hb hp hq hx).mpr (k x ((h i x hx).mp hi))
    · exact ⟨fun h' => absurd (offers_known ha h') hl, fun h' => hl (offers_known ha h'.2.1),
        fun h' => hl (offers_known hb h'.2.1)⟩

theorem before_items {i : Nat} {x : T} (hx : lookup x (Universe.fromVec items).itemIndex = some i) :
    (∀ j, j < i → Together (fun a b : Nat => a < b) a.root.Den b.root.Den p q j) ↔
      ∀ y, ItemBefore items y x → Together (ItemBefore items) (family a.combinations)
        (family b.combinations) ((Universe.fromVec items).itemsOf p) ((Universe.fromVec items).itemsOf q) y :=
  together_all ha hb hp hq (P := fun j => j < i) (Q := fun y => ItemBefore items y x)
    (fun j y hy => (itemBefore_iff hy hx).symm)

omit ha hb in
theorem items_all (s : Finset Nat) : (∀ z, z ∈ s ↔ z ∈ p ∨ z ∈ q) →
    ∀ z, z ∈ (Universe.fromVec items).itemsOf s ↔
      z ∈ (Universe.fromVec items).itemsOf p ∨ z ∈ (Universe.fromVec items).itemsOf q := by
  intro h z
  simp only [Universe.mem_itemsOf, h]
  constructor
  · rintro ⟨i, hi | hi, e⟩
    · exact Or.inl ⟨i, hi, e⟩
    · exact Or.inr ⟨i, hi, e⟩
  · rintro (⟨i, hi, e⟩ | ⟨i, hi, e⟩)
    · exact ⟨i, Or.inl hi, e⟩
    · exact ⟨i, Or.inr hi, e⟩

omit ha hb in
theorem items_upto (s : Finset Nat) {k : Nat} {x : T}
    (hx : lookup x (Universe.fromVec items).itemIndex = some k) : (∀ z, z ∈ s ↔ z ∈ p ∨ (z ∈ q ∧ z < k)) →
    ∀ z, z ∈ (Universe.fromVec items).itemsOf s ↔
      z ∈ (Universe.fromVec items).itemsOf p ∨
        (z ∈ (Universe.fromVec items).itemsOf q ∧ ItemBefore items z x) := by
  intro h z
  constructor
  · intro hz
    obtain ⟨i, hi, e⟩ := Universe.mem_itemsOf.mp hz
    rcases (h i).mp hi with hi | ⟨hi, hik⟩
    · exact Or.inl (Universe.mem_itemsOf.mpr ⟨i, hi, e⟩)
    · obtain ⟨y, hy, ly⟩ := Universe.known_get (hq i hi)
      have e' : items[i]? = some z := e
      rw [hy] at e'; cases e'
      exact Or.inr ⟨Universe.mem_itemsOf.mpr ⟨i, hi, e⟩, (itemBefore_iff ly hx).mpr hik⟩
  · rintro (hz | ⟨hz, hzx⟩)
    · obtain ⟨i, hi, e⟩ := Universe.mem_itemsOf.mp hz
      exact Universe.mem_itemsOf.mpr ⟨i, (h i).mpr (Or.inl hi), e⟩
    · obtain ⟨i, hi, e⟩ := Universe.mem_itemsOf.mp hz
      obtain ⟨y, hy, ly⟩ := Universe.known_get (hq i hi)
      have e' : items[i]? = some z := e
      rw [hy] at e'; cases e'
      exact Universe.mem_itemsOf.mpr ⟨i, (h i).mpr (Or.inr ⟨hi, (itemBefore_iff ly hx).mp hzx⟩), e⟩

theorem meets_to {s : Finset Nat} (h : MeetsAt (fun a b : Nat => a < b) a.root.Den b.root.Den p q s) :
    MeetsAt (ItemBefore items) (family a.combinations) (family b.combinations)
      ((Universe.fromVec items).itemsOf p) ((Universe.fromVec items).itemsOf q)
      ((Universe.fromVec items).itemsOf s) := by
  rcases h with ⟨h1, h2⟩ | ⟨i, h1, ⟨h2, h3⟩ | ⟨h2, h3⟩⟩
  · refine Or.inl ⟨fun x => (together_all ha hb hp hq (P := fun _ => True) (Q := fun _ => True)
      (fun _ _ _ => Iff.rfl)).mp (fun i _ => h1 i) x trivial, items_all hp hq s h2⟩
  · obtain ⟨x, hx⟩ := offers_known ha h2.2.1
    exact Or.inr ⟨x, (before_items ha hb hp hq hx).mp h1,
      Or.inl ⟨(passes_items ha hb hp hq hx).mp h2, items_upto hp hq s hx h3⟩⟩
  · obtain ⟨x, hx⟩ := offers_known hb h2.2.1
    exact Or.inr ⟨x, (before_items ha hb hp hq hx).mp h1,
      Or.inr ⟨(passes_items hb ha hq hp hx).mp h2, items_upto hq hp s hx h3⟩⟩

theorem meets_from {S : Finset T} (h : MeetsAt (ItemBefore items) (family a.combinations)
      (family b.combinations) ((Universe.fromVec items).itemsOf p) ((Universe.fromVec items).itemsOf q) S) :
    ∃ s, MeetsAt (fun a b : Nat => a < b) a.root.Den b.root.Den p q s ∧
      S = (Universe.fromVec items).itemsOf s := by
  rcases h with ⟨h1, h2⟩ | ⟨x, h1, ⟨h2, h3⟩ | ⟨h2, h3⟩⟩
  · refine ⟨p ∪ q, Or.inl ⟨fun i => (together_all ha hb hp hq (P := fun _ => True) (Q := fun _ => True)
      (fun _ _ _ => Iff.rfl)).mpr (fun x _ => h1 x) i trivial, fun z => Finset.mem_union⟩, ?_⟩
    exact Finset.ext fun z => by
      rw [h2, items_all hp hq (p ∪ q) (fun z => Finset.mem_union)]
  · obtain ⟨i, hx⟩ := offers_lookup ha h2.2.1
    have hm : ∀ z, z ∈ p ∪ q.filter (· < i) ↔ z ∈ p ∨ (z ∈ q ∧ z < i) := fun z => by simp
    refine ⟨p ∪ q.filter (· < i), Or.inr ⟨i, (before_items ha hb hp hq hx).mpr h1,
      Or.inl ⟨(passes_items ha hb hp hq hx).mpr h2, hm⟩⟩, ?_⟩
    exact Finset.ext fun z => by rw [h3, items_upto hp hq _ hx hm]
  · obtain ⟨i, hx⟩ := offers_lookup hb h2.2.1
    have hm : ∀ z, z ∈ q ∪ p.filter (· < i) ↔ z ∈ q ∨ (z ∈ p ∧ z < i) := fun z => by simp
    refine ⟨q ∪ p.filter (· < i), Or.inr ⟨i, (before_items ha hb hp hq hx).mpr h1,
      Or.inr ⟨(passes_items hb ha hq hp hx).mpr h2, hm⟩⟩, ?_⟩
    exact Finset.ext fun z => by rw [h3, items_upto hq hp _ hx hm]

end transport

/-- C31 (exact semantics): for trees over one universe made from lists without repeated items, the
combinations of `a.intersect(b)` are exactly these: for a combination `A` of `a` and `B` of `b`, follow
them in the order of the universe.  As long as they do the same at every item both could go on with and
take every item only one of them could go on with, nothing happens; at the first item that one of them
alone could take and leaves out, the rest of the other one is dropped.  What was taken is a combination of
the result. -/
theorem intersect_meaning {items : List T} {a b : Tree T} (ha : Built List.Nodup items a)
    (hb : Built List.Nodup items b) : family (a.intersect b).combinations =
      pairMeet (ItemBefore items) (family a.combinations) (family b.combinations) := by
  ext S
  rw [Tree.mem_combinations]
  have hroot : (a.intersect b).root.Den = pairMeet (fun a b : Nat => a < b) a.root.Den b.root.Den :=
    Node.intersect_exact _ _ ha.ordered hb.ordered
  have hun : (a.intersect b).univ = Universe.fromVec items := ha.univ_eq
  rw [hroot, hun]
  constructor
  · rintro ⟨s, ⟨p, hp, q, hq, hm⟩, rfl⟩
    refine ⟨(Universe.fromVec items).itemsOf p, ?_, (Universe.fromVec items).itemsOf q, ?_,
      meets_to ha hb (ha.ids.mem hp) (hb.ids.mem hq) hm⟩
    · rw [Tree.mem_combinations, ha.univ_eq]; exact ⟨p, hp, rfl⟩
    · rw [Tree.mem_combinations, hb.univ_eq]; exact ⟨q, hq, rfl⟩
  · rintro ⟨A, hA, B, hB, hm⟩
    rw [Tree.mem_combinations, ha.univ_eq] at hA
    rw [Tree.mem_combinations, hb.univ_eq] at hB
    obtain ⟨p, hp, rfl⟩ := hA
    obtain ⟨q, hq, rfl⟩ := hB
    obtain ⟨s, hs, rfl⟩ := meets_from ha hb (ha.ids.mem hp) (hb.ids.mem hq) hm
    exact ⟨s, ⟨p, hp, q, hq, hs⟩, rfl⟩

example := intersect_meaning (items := [1, 2, 3, 4]) (.hyper (cs := [[1, 2], [1, 3], [4]]) (by decide))
  (.unique [1, 2, 4])

theorem fam_eq_inter {items : List T} {a b r : Tree T} (ha : Built List.Nodup items a)
    (hb : Built List.Nodup items b) (hr : Built List.Nodup items r) :
    family r.combinations = family a.combinations ∩ family b.combinations ↔
      r.root.Den = a.root.Den ∩ b.root.Den := by
  have key : ∀ {t : Tree T}, Built List.Nodup items t → ∀ {s : Finset Nat},
      (∀ i ∈ s, (Universe.fromVec items).Known i) →
      ((Universe.fromVec items).itemsOf s ∈ family t.combinations ↔ s ∈ t.root.Den) := by
    intro t ht s hs
    rw [Tree.mem_combinations, ht.univ_eq]
    constructor
    · rintro ⟨s', hs', e⟩
      rwa [Universe.itemsOf_inj hs (ht.ids.mem hs') e]
    · intro h; exact ⟨s, h, rfl⟩
  constructor
  · intro h
    ext s
    constructor
    · intro hs
      have hk := hr.ids.mem hs
      have := (key hr hk).mpr hs
      rw [h] at this
      exact ⟨(key ha hk).mp this.1, (key hb hk).mp this.2⟩
    · rintro ⟨h1, h2⟩
      have hk := ha.ids.mem h1
      rw [← key hr hk, h]
      exact ⟨(key ha hk).mpr h1, (key hb hk).mpr h2⟩
  · intro h
    ext S
    constructor
    · intro hS
      rw [Tree.mem_combinations, hr.univ_eq] at hS
      obtain ⟨s, hs, rfl⟩ := hS
      have hk := hr.ids.mem hs
      rw [h] at hs
      exact ⟨(key ha hk).mpr hs.1, (key hb hk).mpr hs.2⟩
    · rintro ⟨h1, h2⟩
      rw [Tree.mem_combinations, ha.univ_eq] at h1
      obtain ⟨s, hs, rfl⟩ := h1
      have hk := ha.ids.mem hs
      rw [key hr hk, h]
      exact ⟨hs, (key hb hk).mp h2⟩

theorem same_items {items : List T} {a b : Tree T} (ha : Built List.Nodup items a)
    (hb : Built List.Nodup items b) :
    SameOffers (fun a b : Nat => a < b) a.root.Den b.root.Den ↔
      SameOffers (ItemBefore items) (family a.combinations) (family b.combinations) := by
  constructor
  · intro h A hA B hB x hx
    rw [Tree.mem_combinations, ha.univ_eq] at hA
    rw [Tree.mem_combinations, hb.univ_eq] at hB
    obtain ⟨p, hp, rfl⟩ := hA
    obtain ⟨q, hq, rfl⟩ := hB
    by_cases hl : ∃ i, lookup x (Universe.fromVec items).itemIndex = some i
    · obtain ⟨i, hi⟩ := hl
      rw [← offers_items ha (ha.ids.mem hp) hi, ← offers_items hb (hb.ids.mem hq) hi]
      refine h p hp q hq i (fun j hj => ?_)
      by_cases hk : (Universe.fromVec items).Known j
      · obtain ⟨y, hy, ly⟩ := Universe.known_get hk
        rw [← Universe.mem_itemsOf_known (ha.ids.mem hp) hk hy,
          ← Universe.mem_itemsOf_known (hb.ids.mem hq) hk hy]
        exact hx y ((itemBefore_iff ly hi).mpr hj)
      · exact iff_of_false (fun h' => hk (ha.ids.mem hp j h')) (fun h' => hk (hb.ids.mem hq j h'))
    · exact iff_of_false (fun h' => hl (offers_lookup ha h')) (fun h' => hl (offers_lookup hb h'))
  · intro h p hp q hq i hx
    by_cases hk : (Universe.fromVec items).Known i
    · obtain ⟨x, hi⟩ := hk
      rw [offers_items ha (ha.ids.mem hp) hi, offers_items hb (hb.ids.mem hq) hi]
      refine h _ ?_ _ ?_ x (fun y hy => ?_)
      · rw [Tree.mem_combinations, ha.univ_eq]; exact ⟨p, hp, rfl⟩
      · rw [Tree.mem_combinations, hb.univ_eq]; exact ⟨q, hq, rfl⟩
      · obtain ⟨j, i', hj, hi', hlt⟩ := hy
        have hj' := Universe.index_last.mpr hj
        have hi'' := Universe.index_last.mpr hi'
        rw [hi] at hi''; cases hi''
        rw [Universe.mem_itemsOf_known (ha.ids.mem hp) ⟨y, hj'⟩ hj.1,
          Universe.mem_itemsOf_known (hb.ids.mem hq) ⟨y, hj'⟩ hj.1]
        exact hx j hlt
    · exact iff_of_false (fun h' => hk (offers_known ha h')) (fun h' => hk (offers_known hb h'))

/-- C31 (when it is right): `a.intersect(b)` lists exactly the common combinations if and only if,
wherever a combination of each agree on all earlier items, both trees could go on with the next item or
neither could. -/
theorem intersect_right_iff {items : List T} {a b : Tree T} (ha : Built List.Nodup items a)
    (hb : Built List.Nodup items b) :
    family (a.intersect b).combinations = family a.combinations ∩ family b.combinations ↔
      SameOffers (ItemBefore items) (family a.combinations) (family b.combinations) := by
  rw [fam_eq_inter ha hb (ha.intersect hb), ← same_items ha hb]
  constructor
  · exact Node.same_of_right _ _ ha.ordered hb.ordered
  · intro h
    have : (a.intersect b).root.Den = _ := Node.intersect_exact _ _ ha.ordered hb.ordered
    rw [this]
    exact Node.meet_of_same h

/-- C31: two trees that have combinations always have an intersection with combinations, even when they
have no combination in common. -/
theorem intersect_never_empty {items : List T} {a b : Tree T} (ha : Built List.Nodup items a)
    (hb : Built List.Nodup items b) :
    (a.intersect b).combinations = [] ↔ a.combinations = [] ∨ b.combinations = [] := by
  have em : ∀ {t : Tree T}, Built List.Nodup items t → (t.combinations = [] ↔ t.root = .Leaf false) := by
    intro t ht
    have : t.combinations = [] ↔ ∀ A, A ∉ family t.combinations := by
      constructor
      · intro h A hA; rw [h] at hA; obtain ⟨_, h', _⟩ := hA; simp at h'
      · intro h
        cases hc : t.combinations with
        | nil => rfl
        | cons x l => exact absurd ⟨x, by rw [hc]; simp, rfl⟩ (h x.toFinset)
    rw [this]
    constructor
    · intro h
      by_contra hne
      obtain ⟨s, hs⟩ := Node.exists_mem ht.ordered hne
      exact h _ ((Tree.mem_combinations _ _).mpr ⟨s, hs, rfl⟩)
    · intro h A hA
      obtain ⟨s, hs, _⟩ := (Tree.mem_combinations _ _).mp hA
      rw [h] at hs
      exact hs
  rw [em (ha.intersect hb), em ha, em hb]
  constructor
  · intro h
    by_contra hc
    push Not at hc
    obtain ⟨s, hs⟩ := Node.intersect_ne ha.ordered hb.ordered hc.1 hc.2
    have h' : a.root.intersect b.root = .Leaf false := h
    rw [h'] at hs
    exact hs
  · have e : (a.intersect b).root = a.root.intersect b.root := rfl
    rintro (h | h)
    · rw [e, Node.intersect_comm, h]
      cases hb' : b.root with
      | Leaf v => cases v <;> simp [Node.intersect]
      | Branch => simp [Node.intersect]
    · rw [e, h]
      cases hb' : a.root with
      | Leaf v => cases v <;> simp [Node.intersect]
      | Branch => simp [Node.intersect]

example := intersect_never_empty (items := [1, 2, 3, 4]) (.hyper (cs := [[1, 2], [1, 3], [4]]) (by decide))
  (.unique [1, 2, 4])

/-! ### the hypotheses are met -/

/-- `{{1},{2}}` and `{{1}}`: both are `Built` and meet the condition of `intersect_right_iff`, so that their
intersection is `{{1}}`. -/
example : family (((Universe.fromVec [1, 2]).uniqueTree [1, 2]).intersect
    ((Universe.fromVec [1, 2]).uniqueTree [1])).combinations = {({1} : Finset ℕ)} := by
  have ha : Built List.Nodup [1, 2] ((Universe.fromVec [1, 2]).uniqueTree [1, 2]) := .unique _
  have hb : Built List.Nodup [1, 2] ((Universe.fromVec [1, 2]).uniqueTree [1]) := .unique _
  have fa : family ((Universe.fromVec [1, 2]).uniqueTree [1, 2]).combinations = {{1}, {2}} := by
    rw [unique_tree_exact]; ext s; simp [eq_comm]
  have fb : family ((Universe.fromVec [1, 2]).uniqueTree [1]).combinations = {{1}} := by
    rw [unique_tree_exact]; ext s; simp [eq_comm]
  rw [(intersect_right_iff ha hb).mpr, fa, fb]
  · ext s; simp
  · have b12 : ItemBefore [1, 2] 1 2 := ⟨0, 1, ⟨rfl, fun j hj => by
      rcases j with _ | _ | j <;> simp at hj ⊢⟩, ⟨rfl, fun j hj => by
      rcases j with _ | _ | j <;> simp at hj ⊢⟩, by omega⟩
    have nb1 : ∀ z, ¬ ItemBefore [1, 2] z 1 := by
      rintro z ⟨i, j, _, ⟨h, _⟩, hij⟩
      rcases j with _ | _ | j
      · omega
      · simp at h
      · simp at h
    rw [fa, fb]
    intro p hp q hq x hx
    simp only [Set.mem_insert_iff, Set.mem_singleton_iff] at hp hq
    subst hq
    have o1 : ∀ {q : Finset ℕ}, Offers (ItemBefore [1, 2]) {{1}} q x → x = 1 := by
      rintro q ⟨t, ht, h, _⟩
      rw [Set.mem_singleton_iff] at ht
      subst ht; simpa using h
    constructor
    · rintro ⟨t, ht, h, h'⟩
      simp only [Set.mem_insert_iff, Set.mem_singleton_iff] at ht
      rcases ht with rfl | rfl
      · rw [Finset.mem_singleton] at h
        subst h
        exact ⟨{1}, rfl, by simp, fun z hz => absurd hz (nb1 z)⟩
      · rw [Finset.mem_singleton] at h
        subst h
        have h1 := h' 1 b12
        have h2 := hx 1 b12
        rw [← h1] at h2
        simp at h2
    · intro h
      obtain rfl := o1 h
      exact ⟨{1}, by simp, by simp, fun z hz => absurd hz (nb1 z)⟩

/-- `{{1}}` and `{{2}}`: the trees have no common combination, and the set described by
`intersect_meaning` has `{1,2}`. -/
example : ({1, 2} : Finset ℕ) ∈ pairMeet (ItemBefore [1, 2])
    (family ((Universe.fromVec [1, 2]).uniqueTree [1]).combinations)
    (family ((Universe.fromVec [1, 2]).uniqueTree [2]).combinations) := by
  have f : ∀ n, family ((Universe.fromVec [1, 2]).uniqueTree [n]).combinations =
      {if n ∈ [1, 2] then {n} else ∅} := by
    intro n
    rw [unique_tree_exact]; ext s; simp [eq_comm]
  rw [f, f]
  have off : ∀ {A q : Finset ℕ} {x : ℕ}, Offers (ItemBefore [1, 2]) {A} q x → x ∈ A := by
    rintro A q x ⟨t, ht, h, _⟩
    rw [Set.mem_singleton_iff] at ht
    subst ht; exact h
  refine ⟨{1}, by simp, {2}, by simp, Or.inl ⟨fun y => ⟨?_, ?_, ?_⟩, fun z => by simp⟩⟩
  · intro h1 h2
    have h1 := off h1
    have h2 := off h2
    simp at h1 h2
    omega
  · intro h; exact h.1 (by simpa using off h.2.1)
  · intro h; exact h.1 (by simpa using off h.2.1)

/-- C31: for combinations given with repeated items there is no such description: two trees that list the
same combinations can have different intersections with a third one. -/
theorem intersect_hidden : ∃ (items : List ℕ) (a a' b : Tree ℕ), Built (fun _ => True) items a ∧
    Built List.Nodup items a' ∧ Built List.Nodup items b ∧ a.combinations = a'.combinations ∧
    (a.intersect b).combinations ≠ (a'.intersect b).combinations := by
  have r1 : ((Universe.fromVec [1, 2, 3]).tree [1, 1]).root =
    .Branch 0 (.Leaf false) (.Branch 0 (.Leaf false) (.Leaf true)) := by decide
  have r2 : ((Universe.fromVec [1, 2, 3]).tree [1]).root = .Branch 0 (.Leaf false) (.Leaf true) := by decide
  have r3 : ((Universe.fromVec [1, 2, 3]).tree [1, 2]).root =
    .Branch 0 (.Leaf false) (.Branch 1 (.Leaf false) (.Leaf true)) := by decide
  have r4 : ((Universe.fromVec [1, 2, 3]).tree [1, 3]).root =
    .Branch 0 (.Leaf false) (.Branch 2 (.Leaf false) (.Leaf true)) := by decide
  refine ⟨[1, 2, 3],
    ((Universe.fromVec [1, 2, 3]).tree [1, 1]).union ((Universe.fromVec [1, 2, 3]).tree [1, 2]),
    ((Universe.fromVec [1, 2, 3]).tree [1]).union ((Universe.fromVec [1, 2, 3]).tree [1, 2]),
    (Universe.fromVec [1, 2, 3]).tree [1, 3],
    .union (.tree trivial) (.tree trivial), .union (.tree (by decide)) (.tree (by decide)),
    .tree (by decide), ?_, ?_⟩
  · simp only [Tree.union, r1, r2, r3]
    simp [Node.union, Node.finish, Node.branch, Tree.combinations, Node.combinationsIter, Node.combinationsLoop]
    decide
  · simp only [Tree.union, Tree.intersect, r1, r2, r3, r4]
    simp [Node.union, Node.intersect, Node.finish, Node.branch, Tree.combinations, Node.combinationsIter,
      Node.combinationsLoop]
    decide

end Verif.Zdd1
