import Verif.Bdd.More

/-!
# The counts of a closet in machine arithmetic

`node_count`, `leaf_count`, `outfit_count` and `depth` return `u64`.  A debug build checks every
addition and panics on overflow, a release build wraps around.  Both are modelled here, next to the
unbounded counts of `Verif.Bdd.Closet`.
-/

set_option linter.unusedSimpArgs false
set_option linter.unusedSectionVars false
set_option linter.unusedVariables false

namespace Verif.Bdd
open Verif Verif.Bdd.Spec

universe u v
variable {I : Type u} {F : Type v} [LinearOrder I] [LinearOrder F]

/-- `+` on `u64` with overflow checks (a debug build); `none` is the panic.  The additions of
bowtie-core/src/bdd/closet/node_count.rs:17, 33, 49, 68-70. -/
def addC (a b : Option Nat) : Option Nat :=
  match a, b with
  | some a, some b => if a + b < 2 ^ 64 then some (a + b) else none
  | _, _ => none

namespace Node

/-- bowtie-core/src/bdd/closet/node_count.rs:10-20, overflow checks on. -/
def nodeCountC : Node I → Option Nat
  | .Leaf _ => some 1
  | .Branch _ l h => addC (addC (some 1) l.nodeCountC) h.nodeCountC

/-- bowtie-core/src/bdd/closet/node_count.rs:26-36, overflow checks on. -/
def leafCountC : Node I → Option Nat
  | .Leaf _ => some 1
  | .Branch _ l h => addC l.leafCountC h.leafCountC

/-- bowtie-core/src/bdd/closet/node_count.rs:42-52, overflow checks on. -/
def outfitCountC : Node I → Option Nat
  | .Leaf val => if val then some 1 else some 0
  | .Branch _ l h => addC l.outfitCountC h.outfitCountC

/-- bowtie-core/src/bdd/closet/node_count.rs:58-74, overflow checks on. -/
def depthC : Node I → Option Nat
  | .Leaf _ => some 1
  | .Branch _ l h =>
    match l.depthC, h.depthC with
    | some l, some h => if l < h then addC (some 1) (some h) else addC (some 1) (some l)
    | _, _ => none

/-- bowtie-core/src/bdd/closet/node_count.rs:10-20, wrapping around. -/
def nodeCountW : Node I → UInt64
  | .Leaf _ => 1
  | .Branch _ l h => 1 + l.nodeCountW + h.nodeCountW

/-- bowtie-core/src/bdd/closet/node_count.rs:26-36, wrapping around. -/
def leafCountW : Node I → UInt64
  | .Leaf _ => 1
  | .Branch _ l h => l.leafCountW + h.leafCountW

/-- bowtie-core/src/bdd/closet/node_count.rs:42-52, wrapping around. -/
def outfitCountW : Node I → UInt64
  | .Leaf val => if val then 1 else 0
  | .Branch _ l h => l.outfitCountW + h.outfitCountW

/-- bowtie-core/src/bdd/closet/node_count.rs:58-74, wrapping around. -/
def depthW : Node I → UInt64
  | .Leaf _ => 1
  | .Branch _ l h => if l.depthW < h.depthW then 1 + h.depthW else 1 + l.depthW

/-- A number a `u64` can hold.  Not code: used to state or prove properties. -/
def fits (n : Nat) : Option Nat := if n < 2 ^ 64 then some n else none

theorem addC_fits (a b : Nat) : addC (fits a) (fits b) = fits (a + b) := by
  unfold addC fits
  by_cases h1 : a < 2 ^ 64 <;> by_cases h2 : b < 2 ^ 64
  · simp only [h1, h2, if_true]
  · simp only [h1, h2, if_true, if_false]; rw [if_neg (by omega)]
  · simp only [h1, h2, if_true, if_false]; rw [if_neg (by omega)]
  · simp only [h1, h2, if_true, if_false]; rw [if_neg (by omega)]

theorem checked (n : Node I) : n.nodeCountC = fits n.nodeCount ∧ n.leafCountC = fits n.leafCount ∧
    n.outfitCountC = fits n.outfitCount ∧ n.depthC = fits n.depth := by
  have f1 : (some 1 : Option Nat) = fits 1 := rfl
  have f0 : (some 0 : Option Nat) = fits 0 := rfl
  induction n with
  | Leaf b => cases b <;> exact ⟨rfl, rfl, rfl, rfl⟩
  | Branch i l h ihl ihh =>
    refine ⟨?_, ?_, ?_, ?_⟩
    · rw [nodeCountC, nodeCount, ihl.1, ihh.1, f1, addC_fits, addC_fits]
    · rw [leafCountC, leafCount, ihl.2.1, ihh.2.1, addC_fits]
    · rw [outfitCountC, outfitCount, ihl.2.2.1, ihh.2.2.1, addC_fits]
    · rw [depthC, depth, ihl.2.2.2, ihh.2.2.2]
      by_cases h1 : l.depth < 2 ^ 64 <;> by_cases h2 : h.depth < 2 ^ 64
      · have e1 : fits l.depth = some l.depth := if_pos h1
        have e2 : fits h.depth = some h.depth := if_pos h2
        rw [e1, e2]
        simp only
        rw [← e1, ← e2, f1, addC_fits, addC_fits]
        split_ifs <;> rfl
      · have e1 : fits l.depth = some l.depth := if_pos h1
        have e2 : fits h.depth = none := if_neg h2
        rw [e1, e2]; simp only [fits]; rw [if_neg]; split_ifs <;> omega
      · have e1 : fits l.depth = none := if_neg h1
        rw [e1]; simp only [fits]; rw [if_neg]; split_ifs <;> omega
      · have e1 : fits l.depth = none := if_neg h1
        rw [e1]; simp only [fits]; rw [if_neg]; split_ifs <;> omega

theorem wrapped (n : Node I) : n.nodeCountW.toNat = n.nodeCount % 2 ^ 64 ∧
    n.leafCountW.toNat = n.leafCount % 2 ^ 64 ∧ n.outfitCountW.toNat = n.outfitCount % 2 ^ 64 ∧
    (n.depth < 2 ^ 64 → n.depthW.toNat = n.depth) := by
  have t1 : (1 : UInt64).toNat = 1 := rfl
  induction n with
  | Leaf b =>
    cases b <;> simp [nodeCountW, leafCountW, outfitCountW, depthW, nodeCount, leafCount, outfitCount,
      depth]
  | Branch i l h ihl ihh =>
    obtain ⟨a1, a2, a3, a4⟩ := ihl
    obtain ⟨b1, b2, b3, b4⟩ := ihh
    refine ⟨?_, ?_, ?_, ?_⟩
    · simp only [nodeCountW, nodeCount, UInt64.toNat_add, a1, b1, t1]; omega
    · simp only [leafCountW, leafCount, UInt64.toNat_add, a2, b2]; omega
    · simp only [outfitCountW, outfitCount, UInt64.toNat_add, a3, b3]; omega
    · intro hd
      simp only [depth] at hd ⊢
      have h1 : l.depth < 2 ^ 64 := by split_ifs at hd <;> omega
      have h2 : h.depth < 2 ^ 64 := by split_ifs at hd <;> omega
      have c : l.depthW < h.depthW ↔ l.depth < h.depth := by
        rw [UInt64.lt_iff_toNat_lt, a4 h1, b4 h2]
      simp only [depthW, c]
      split_ifs at hd ⊢
      · rw [UInt64.toNat_add, t1, b4 h2]; omega
      · rw [UInt64.toNat_add, t1, a4 h1]; omega

theorem leafCount_le (n : Node I) : n.leafCount < 2 ^ n.depth := by
  induction n with
  | Leaf b => simp [leafCount, depth]
  | Branch i l h ihl ihh =>
    simp only [leafCount, depth]
    split_ifs with hc
    · have : 2 ^ l.depth ≤ 2 ^ h.depth := Nat.pow_le_pow_right (by omega) (by omega)
      rw [Nat.add_comm 1, pow_succ]; omega
    · have : 2 ^ h.depth ≤ 2 ^ l.depth := Nat.pow_le_pow_right (by omega) (by omega)
      rw [Nat.add_comm 1, pow_succ]; omega

theorem leafCount_le' {S : List I} {n : Node I} (h : Lvl S n) : n.leafCount ≤ 2 ^ S.length ∧
    n.depth ≤ S.length + 1 := by
  induction n generalizing S with
  | Leaf b => exact ⟨Nat.one_le_two_pow, by simp [depth]⟩
  | Branch i l h' ihl ihh =>
    cases S with
    | nil => exact h.elim
    | cons x s =>
      obtain ⟨a1, a2⟩ := ihl h.2.1
      obtain ⟨b1, b2⟩ := ihh h.2.2
      simp only [leafCount, depth, List.length_cons, pow_succ]
      refine ⟨by omega, ?_⟩
      split_ifs <;> omega

end Node

open Node

/-- C77: `outfit_count()` of a closet is the number of outfits containing the selections if a `u64`
holds that number.  If not, a build with overflow checks panics and one without returns it modulo
2^64. -/
theorem outfit_count_machine (cs : List (Call I F)) (xs : List I) (c : Closet I F)
    (h : Reached cs xs c) :
    ∃ L : Finset (Finset I), (∀ w, w ∈ L ↔ Outfit cs w ∧ ∀ x ∈ xs, x ∈ w) ∧
      (c.root.outfitCountC = if L.card < 2 ^ 64 then some L.card else none) ∧
      c.root.outfitCountW.toNat = L.card % 2 ^ 64 := by
  obtain ⟨L, hL, e⟩ := outfit_count_exact cs xs c h
  exact ⟨L, hL, by rw [(checked _).2.2.1, e, fits], by rw [(wrapped _).2.2.1, e]⟩

example : ∃ c, Reached demo [4, 1] c ∧ ∃ L : Finset (Finset ℕ), c.root.outfitCountW.toNat = L.card % 2 ^ 64 := by
  obtain ⟨c, hc⟩ := demo_reached
  obtain ⟨L, -, -, h⟩ := outfit_count_machine demo _ c hc
  exact ⟨c, hc, L, h⟩

/-- C77: with at most 63 known unselected items none of the four counts overflows. -/
theorem counts_fit (cs : List (Call I F)) (xs : List I) (c : Closet I F) (h : Reached cs xs c)
    (S : Finset I) (hS : ∀ i, i ∈ S ↔ Known cs i ∧ i ∉ xs) (hc : S.card ≤ 63) :
    c.root.nodeCountC = some c.root.nodeCount ∧ c.root.leafCountC = some c.root.leafCount ∧
    c.root.outfitCountC = some c.root.outfitCount ∧ c.root.depthC = some c.root.depth ∧
    c.root.nodeCountW.toNat = c.root.nodeCount ∧ c.root.leafCountW.toNat = c.root.leafCount ∧
    c.root.outfitCountW.toNat = c.root.outfitCount ∧ c.root.depthW.toNat = c.root.depth := by
  obtain ⟨_, h1, h2, h3⟩ := h.state
  have hlen : (free cs xs).length = S.card := by
    rw [← List.toFinset_card_of_nodup (nodup_of_lt (free_lt cs xs))]
    congr 1; ext i; rw [List.mem_toFinset, mem_free, hS]
  obtain ⟨a, b⟩ := leafCount_le' h1.lvl
  rw [hlen] at a b
  have hp : 2 ^ S.card ≤ 2 ^ 63 := Nat.pow_le_pow_right (by omega) hc
  obtain ⟨k1, k2⟩ := counts c.root
  have n1 : c.root.nodeCount < 2 ^ 64 := by omega
  have n2 : c.root.leafCount < 2 ^ 64 := by omega
  have n3 : c.root.outfitCount < 2 ^ 64 := by omega
  have n4 : c.root.depth < 2 ^ 64 := by omega
  obtain ⟨e1, e2, e3, e4⟩ := checked c.root
  obtain ⟨w1, w2, w3, w4⟩ := wrapped c.root
  rw [e1, e2, e3, e4, w1, w2, w3, w4 n4, fits, fits, fits, fits, if_pos n1, if_pos n2, if_pos n3, if_pos n4]
  exact ⟨rfl, rfl, rfl, rfl, Nat.mod_eq_of_lt n1, Nat.mod_eq_of_lt n2, Nat.mod_eq_of_lt n3, rfl⟩

example : ∃ c, Reached demo [4, 1] c ∧ c.root.outfitCountC = some c.root.outfitCount := by
  obtain ⟨c, hc⟩ := demo_reached
  exact ⟨c, hc, (counts_fit demo _ c hc {2, 3} (fun i => by rw [demo_known]; simp; omega) (by decide)).2.2.1⟩

/-- `n` families of two items, without rules.  Not code: used to state or prove properties. -/
def pairs (n : Nat) : List (Call Nat Nat) :=
  (List.range n).flatMap (fun f => [.item f (2 * f), .item f (2 * f + 1)])

theorem mem_pairs {n f i : Nat} : Call.item f i ∈ pairs n ↔ f < n ∧ (i = 2 * f ∨ i = 2 * f + 1) := by
  simp only [pairs, List.mem_flatMap, List.mem_range, List.mem_cons, Call.item.injEq,
    List.not_mem_nil, or_false]
  constructor
  · rintro ⟨g, hg, ⟨rfl, h⟩ | ⟨rfl, h⟩⟩
    · exact ⟨hg, Or.inl h⟩
    · exact ⟨hg, Or.inr h⟩
  · rintro ⟨hf, h | h⟩
    · exact ⟨f, hf, Or.inl ⟨rfl, h⟩⟩
    · exact ⟨f, hf, Or.inr ⟨rfl, h⟩⟩

/-- `n` families of two items build, and have `2 ^ n` outfits. -/
theorem pairs_count (n : Nat) : ∃ c, (ClosetBuilder.run (pairs n)).build = .ok c ∧
    c.root.outfitCount = 2 ^ n := by
  have he : ∀ a b, Call.exclude a b ∉ pairs n := by intro a b; simp [pairs]
  have hi : ∀ a b, Call.incl a b ∉ pairs n := by intro a b; simp [pairs]
  obtain ⟨c, hc⟩ := (build_validates (pairs n)).1.1 ⟨by
      intro f g i hf hg
      rw [mem_pairs] at hf hg; omega, fun a b hab => absurd hab (he a b), fun a b hab => absurd hab (hi a b)⟩
  refine ⟨c, hc, ?_⟩
  rw [outfit_count_no_rules _ c hc he hi (Finset.range n)
    (by
      intro f
      rw [Finset.mem_range]
      constructor
      · intro h; exact ⟨2 * f, mem_pairs.mpr ⟨h, Or.inl rfl⟩⟩
      · rintro ⟨i, h⟩; exact (mem_pairs.mp h).1)
    (fun f => if f < n then {2 * f, 2 * f + 1} else ∅) (by
      intro f i
      rw [mem_pairs]
      by_cases h : f < n <;> simp [h])]
  rw [Finset.prod_congr rfl (g := fun _ => 2)]
  · simp
  · intro f hf
    rw [Finset.mem_range] at hf
    rw [if_pos hf, Finset.card_pair (by omega)]

/-- C77: there is a closet (64 families of two items) with 2^64 outfits: `outfit_count()` panics in a
build with overflow checks and says 0 in one without; 63 such families are still counted right. -/
theorem outfit_count_overflow :
    (∃ c, (ClosetBuilder.run (pairs 64)).build = .ok c ∧ c.root.outfitCountC = none ∧
      c.root.outfitCountW = 0) ∧
    ∃ c, (ClosetBuilder.run (pairs 63)).build = .ok c ∧ c.root.outfitCountC = some (2 ^ 63) ∧
      c.root.outfitCountW.toNat = 2 ^ 63 := by
  constructor
  · obtain ⟨c, hc, e⟩ := pairs_count 64
    refine ⟨c, hc, ?_, ?_⟩
    · rw [(checked _).2.2.1, e]; rfl
    · rw [← UInt64.toNat_inj, (wrapped _).2.2.1, e]; rfl
  · obtain ⟨c, hc, e⟩ := pairs_count 63
    refine ⟨c, hc, ?_, ?_⟩
    · rw [(checked _).2.2.1, e]; rfl
    · rw [(wrapped _).2.2.1, e]; rfl

/-- A closet to which `counts_fit` applies: the demo closet (4 items). -/
example : ∃ c, Reached demo [] c ∧ ∃ S : Finset Nat, (∀ i, i ∈ S ↔ Known demo i ∧ i ∉ []) ∧
    S.card ≤ 63 := by
  obtain ⟨c, hc⟩ := (build_validates demo).1.1 demo_legal
  refine ⟨c, ⟨c, hc, rfl⟩, {1, 2, 3, 4}, fun i => ?_, by decide⟩
  simp only [Known, demo, List.mem_cons, Call.item.injEq, List.not_mem_nil, or_false, not_false_eq_true,
    and_true, Finset.mem_insert, Finset.mem_singleton, reduceCtorEq]
  constructor
  · rintro (rfl | rfl | rfl | rfl)
    · exact ⟨0, by simp⟩
    · exact ⟨0, by simp⟩
    · exact ⟨1, by simp⟩
    · exact ⟨1, by simp⟩
  · rintro ⟨f, h⟩; simp at h; omega

end Verif.Bdd
