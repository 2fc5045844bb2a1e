import Verif.Zdd1.Model
import Verif.Spec
import Mathlib.Tactic.Tauto
import Mathlib.Order.Lattice
import Mathlib.Data.Finset.Lattice.Basic
import Mathlib.Data.Finset.Union
import Mathlib.Data.Finset.Option

/-! Helper lemmas about v1 nodes and universes. -/

set_option linter.unusedSimpArgs false
set_option linter.unusedSectionVars false
set_option linter.unusedVariables false

namespace Verif.Zdd1
open Verif Verif.Weave Verif.Spec

universe u

namespace Node

/-- The family of id sets a diagram stands for.  Not code: used to state or prove properties. -/
def Den : Node → Set (Finset Nat)
  | .Branch i l h => {s | s ∈ l.Den ∨ ∃ t ∈ h.Den, s = insert i t}
  | .Leaf true => {∅}
  | .Leaf false => ∅

theorem mem_den_branch {i : Nat} {l h : Node} {s : Finset Nat} :
    s ∈ (Node.Branch i l h).Den ↔ s ∈ l.Den ∨ ∃ t ∈ h.Den, s = insert i t := Iff.rfl

theorem mem_true {s : Finset Nat} : s ∈ (Node.Leaf true).Den ↔ s = ∅ := Iff.rfl
theorem mem_false {s : Finset Nat} : s ∈ (Node.Leaf false).Den ↔ False := Iff.rfl

theorem mem_finish {i : Nat} {l h : Node} {s : Finset Nat} :
    s ∈ (finish i l h).Den ↔ s ∈ l.Den ∨ ∃ t ∈ h.Den, s = insert i t := by
  unfold finish
  split_ifs with e
  · subst e; simp [mem_false]
  · exact Iff.rfl

/-- `union` is exact on every pair of diagrams, ordered or not. -/
theorem mem_union (a b : Node) (s : Finset Nat) :
    s ∈ (union a b).Den ↔ s ∈ a.Den ∨ s ∈ b.Den := by
  fun_induction union a b generalizing s with
  | case1 a => simp
  | case2 a _ => simp [mem_false]
  | case3 b _ _ => simp [mem_false]
  | case4 h => exact absurd rfl h
  | case5 i l h _ ih => rw [mem_finish, ih, mem_den_branch]; exact or_right_comm
  | case6 i l h _ ih => rw [mem_finish, ih, mem_den_branch]; exact or_assoc
  | case7 i l h j l' h' hlt _ ih => rw [mem_finish, ih, mem_den_branch (l := l)]; exact or_right_comm
  | case8 i l h j l' h' _ hlt _ ih => rw [mem_finish, ih, mem_den_branch (l := l')]; exact or_assoc
  | case9 i l h j l' h' h1 h2 _ ih1 ih2 =>
    obtain rfl : i = j := by omega
    rw [mem_finish, ih1]
    simp only [ih2, mem_den_branch, or_and_right, exists_or]
    exact or_or_or_comm ..

/-! ### enumeration -/

/-- The paths to `true`, high side first.  Not code: used to state or prove properties. -/
def paths : Node → List (List Nat)
  | .Branch i l h => h.paths.map (fun p => i :: p) ++ l.paths
  | .Leaf true => [[]]
  | .Leaf false => []

theorem combinationsLoop_eq (q : List (Node × List Nat)) (acc : List (List Nat)) :
    combinationsLoop q acc = acc ++ q.flatMap (fun e => e.1.paths.map (fun p => e.2 ++ p)) := by
  fun_induction combinationsLoop q acc with
  | case1 acc => simp
  | case2 acc i l h path q ih =>
    rw [ih]
    simp [paths, List.map_append, Function.comp_def]
  | case3 acc path q ih => rw [ih]; simp [paths]
  | case4 acc path q ih => rw [ih]; simp [paths]

theorem combinationsIter_eq (n : Node) : n.combinationsIter = n.paths := by
  simp [combinationsIter, combinationsLoop_eq]

theorem mem_paths (n : Node) (s : Finset Nat) : (∃ p ∈ n.paths, p.toFinset = s) ↔ s ∈ n.Den := by
  induction n generalizing s with
  | Branch i l h ihl ihh =>
    rw [mem_den_branch, ← ihl]
    simp only [← ihh, paths, List.mem_append, List.mem_map]
    constructor
    · rintro ⟨p, ⟨p', hp, rfl⟩ | hp, rfl⟩
      · exact Or.inr ⟨_, ⟨p', hp, rfl⟩, by simp⟩
      · exact Or.inl ⟨p, hp, rfl⟩
    · rintro (⟨p, hp, rfl⟩ | ⟨_, ⟨p, hp, rfl⟩, rfl⟩)
      · exact ⟨p, Or.inr hp, rfl⟩
      · exact ⟨i :: p, Or.inl ⟨p, hp, rfl⟩, by simp⟩
  | Leaf b => cases b <;> simp [paths, mem_true, mem_false, eq_comm]

theorem combinationsInner_eq (n : Node) (path : List Nat) :
    ∀ l, combinationsInner n path = some l → l.Perm (n.paths.map (fun p => path ++ p)) := by
  induction n generalizing path with
  | Branch i lo hi ihl ihh =>
    intro l hl
    simp only [combinationsInner, Option.some.injEq] at hl
    have e1 := ihl path
    have e2 := ihh (path ++ [i])
    have none_nil : ∀ (n : Node) path, combinationsInner n path = none → n.paths = [] := by
      intro n path h
      cases n with
      | Branch => simp [combinationsInner] at h
      | Leaf b => cases b <;> simp_all [combinationsInner, paths]
    have k1 := none_nil lo path
    have k2 := none_nil hi (path ++ [i])
    have assoc : hi.paths.map (fun p => path ++ [i] ++ p) = (hi.paths.map (fun p => i :: p)).map (fun p => path ++ p) := by
      simp [Function.comp_def]
    simp only [paths, List.map_append]
    rw [← assoc]
    subst hl
    refine List.Perm.trans ?_ List.perm_append_comm
    cases h1 : combinationsInner lo path <;> cases h2 : combinationsInner hi (path ++ [i])
    · simp [k1 h1, k2 h2]
    · have := e2 _ h2
      simpa [k1 h1] using this
    · have := e1 _ h1
      simpa [k2 h2] using this
    · simpa using (e1 _ h1).append (e2 _ h2)
  | Leaf b => cases b <;> simp [combinationsInner, paths]

theorem combinationsRecursive_perm (n : Node) : n.combinationsRecursive.Perm n.combinationsIter := by
  rw [combinationsIter_eq, combinationsRecursive]
  split
  · rename_i v h
    simpa using combinationsInner_eq n [] v h
  · rename_i h
    cases n with
    | Branch => simp [combinationsInner] at h
    | Leaf b => cases b <;> simp_all [combinationsInner, paths]

/-! ### ordered diagrams -/

/-- The root id (if any) is after `x`.  Not code: used to state or prove properties. -/
def Above (x : Nat) : Node → Prop
  | .Branch i _ _ => x < i
  | _ => True

/-- Ids strictly ascend along every path and no high child is `Leaf(false)`.
Not code: used to state or prove properties. -/
def Ordered : Node → Prop
  | .Branch i l h => Above i l ∧ Above i h ∧ h ≠ .Leaf false ∧ l.Ordered ∧ h.Ordered
  | _ => True

theorem Above.mono {x y : Nat} {n : Node} (h : Above y n) (hx : x ≤ y) : Above x n := by
  cases n <;> simp_all [Above]; omega

theorem lt_of_mem {n : Node} (o : n.Ordered) {x : Nat} (a : Above x n) {s : Finset Nat}
    (hs : s ∈ n.Den) {y : Nat} (hy : y ∈ s) : x < y := by
  induction n generalizing x s y with
  | Branch i l h ihl ihh =>
    simp only [Ordered] at o
    simp only [Above] at a
    rcases hs with hs | ⟨t, ht, rfl⟩
    · have := ihl o.2.2.2.1 o.1 hs hy; omega
    · rcases Finset.mem_insert.mp hy with rfl | hy
      · exact a
      · have := ihh o.2.2.2.2 o.2.1 ht hy; omega
  | Leaf b =>
    cases b
    · exact absurd hs (by simp [mem_false])
    · rw [mem_true] at hs; subst hs; simp at hy

theorem mem_ordered {i : Nat} {l h : Node} (o : (Node.Branch i l h).Ordered) {s : Finset Nat} :
    s ∈ (Node.Branch i l h).Den ↔ (i ∉ s ∧ s ∈ l.Den) ∨ (i ∈ s ∧ s.erase i ∈ h.Den) := by
  simp only [Ordered] at o
  rw [mem_den_branch]
  constructor
  · rintro (hs | ⟨t, ht, rfl⟩)
    · exact Or.inl ⟨fun hi => by have := lt_of_mem o.2.2.2.1 o.1 hs hi; omega, hs⟩
    · have hit : i ∉ t := fun hi => by have := lt_of_mem o.2.2.2.2 o.2.1 ht hi; omega
      exact Or.inr ⟨by simp, by rwa [Finset.erase_insert hit]⟩
  · rintro (⟨_, hs⟩ | ⟨hi, hs⟩)
    · exact Or.inl hs
    · exact Or.inr ⟨_, hs, (Finset.insert_erase hi).symm⟩

theorem exists_mem {n : Node} (o : n.Ordered) (hn : n ≠ .Leaf false) : ∃ s, s ∈ n.Den := by
  induction n with
  | Branch i l h ihl ihh =>
    simp only [Ordered] at o
    obtain ⟨s, hs⟩ := ihh o.2.2.2.2 o.2.2.1
    exact ⟨insert i s, Or.inr ⟨s, hs, rfl⟩⟩
  | Leaf b =>
    cases b
    · exact absurd rfl hn
    · exact ⟨∅, rfl⟩

theorem eq_false {n : Node} (o : n.Ordered) (h : ∀ s, s ∉ n.Den) : n = .Leaf false := by
  by_contra hn
  obtain ⟨s, hs⟩ := exists_mem o hn
  exact h s hs

theorem eq_true {n : Node} (o : n.Ordered) (h : n.Den = {∅}) : n = .Leaf true := by
  cases n with
  | Branch i l h' =>
    simp only [Ordered] at o
    obtain ⟨s, hs⟩ := exists_mem o.2.2.2.2 o.2.2.1
    have : insert i s ∈ (Node.Branch i l h').Den := Or.inr ⟨s, hs, rfl⟩
    rw [h] at this
    exact absurd this (by simp)
  | Leaf b =>
    cases b
    · have : ∅ ∈ (Node.Leaf false).Den := by rw [h]; rfl
      exact absurd this (by simp [mem_false])
    · rfl

/-- Canonicity: an ordered diagram is determined by its family. -/
theorem den_inj {n m : Node} (on : n.Ordered) (om : m.Ordered) (h : n.Den = m.Den) : n = m := by
  induction n generalizing m with
  | Leaf b =>
    cases b
    · exact (eq_false om (fun s hs => by rw [← h] at hs; exact hs)).symm
    · exact (eq_true om h.symm).symm
  | Branch i l hh ihl ihh =>
    have on' := on
    simp only [Ordered] at on
    cases m with
    | Leaf b =>
      cases b
      · exact eq_false on' (fun s hs => by rw [h] at hs; exact hs)
      · exact eq_true on' h
    | Branch j l' h' =>
      have om' := om
      simp only [Ordered] at om
      have hij : i = j := by
        obtain ⟨s, hs⟩ := exists_mem on.2.2.2.2 on.2.2.1
        obtain ⟨t, ht⟩ := exists_mem om.2.2.2.2 om.2.2.1
        have h1 : insert i s ∈ (Node.Branch j l' h').Den := by rw [← h]; exact Or.inr ⟨s, hs, rfl⟩
        have h2 : insert j t ∈ (Node.Branch i l hh).Den := by rw [h]; exact Or.inr ⟨t, ht, rfl⟩
        have p1 : ∀ {i : Nat} {l h : Node}, (Node.Branch i l h).Ordered → ∀ {s : Finset Nat}, s ∈ (Node.Branch i l h).Den → ∀ y ∈ s, i ≤ y := by
          intro i l h o s hs y hy
          rcases i with _ | i
          · omega
          · have := lt_of_mem (x := i) o (by simp [Above]) hs hy; omega
        have := p1 om' h1 i (by simp)
        have := p1 on' h2 j (by simp)
        omega
      subst hij
      have hl : l.Den = l'.Den := by
        ext s
        by_cases hi : i ∈ s
        · constructor <;> intro hs
          · have := lt_of_mem on.2.2.2.1 on.1 hs hi; omega
          · have := lt_of_mem om.2.2.2.1 om.1 hs hi; omega
        · have := Set.ext_iff.mp h s
          rw [mem_ordered on', mem_ordered om'] at this
          simpa [hi] using this
      have hh' : hh.Den = h'.Den := by
        ext s
        by_cases hi : i ∈ s
        · constructor <;> intro hs
          · have := lt_of_mem on.2.2.2.2 on.2.1 hs hi; omega
          · have := lt_of_mem om.2.2.2.2 om.2.1 hs hi; omega
        · have := Set.ext_iff.mp h (insert i s)
          rw [mem_ordered on', mem_ordered om'] at this
          simpa [hi] using this
      rw [ihl on.2.2.2.1 om.2.2.2.1 hl, ihh on.2.2.2.2 om.2.2.2.2 hh']

theorem finish_ok {i : Nat} {l h : Node} (ol : l.Ordered) (oh : h.Ordered) (al : Above i l)
    (ah : Above i h) : (finish i l h).Ordered ∧ ∀ x, x < i → Above x (finish i l h) := by
  unfold finish
  split_ifs with e
  · exact ⟨ol, fun x hx => al.mono (by omega)⟩
  · exact ⟨⟨al, ah, e, ol, oh⟩, fun x hx => hx⟩

theorem union_ordered (a b : Node) (oa : a.Ordered) (ob : b.Ordered) :
    (union a b).Ordered ∧ ∀ x, Above x a → Above x b → Above x (union a b) := by
  fun_induction union a b with
  | case1 a => exact ⟨oa, fun _ h _ => h⟩
  | case2 a _ => exact ⟨oa, fun _ h _ => h⟩
  | case3 b _ _ => exact ⟨ob, fun _ _ h => h⟩
  | case4 h => exact absurd rfl h
  | case5 i l h _ ih =>
    simp only [Ordered] at oa
    obtain ⟨o, ab⟩ := ih oa.2.2.2.1 trivial
    obtain ⟨f1, f2⟩ := finish_ok o oa.2.2.2.2 (ab i oa.1 trivial) oa.2.1
    exact ⟨f1, fun x h1 _ => f2 x h1⟩
  | case6 i l h _ ih =>
    simp only [Ordered] at ob
    obtain ⟨o, ab⟩ := ih trivial ob.2.2.2.1
    obtain ⟨f1, f2⟩ := finish_ok o ob.2.2.2.2 (ab i trivial ob.1) ob.2.1
    exact ⟨f1, fun x _ h1 => f2 x h1⟩
  | case7 i l h j l' h' hlt _ ih =>
    simp only [Ordered] at oa
    obtain ⟨o, ab⟩ := ih oa.2.2.2.1 ob
    obtain ⟨f1, f2⟩ := finish_ok o oa.2.2.2.2 (ab i oa.1 hlt) oa.2.1
    exact ⟨f1, fun x h1 _ => f2 x h1⟩
  | case8 i l h j l' h' _ hlt _ ih =>
    simp only [Ordered] at ob
    obtain ⟨o, ab⟩ := ih oa ob.2.2.2.1
    obtain ⟨f1, f2⟩ := finish_ok o ob.2.2.2.2 (ab j hlt ob.1) ob.2.1
    exact ⟨f1, fun x _ h1 => f2 x h1⟩
  | case9 i l h j l' h' h1 h2 _ ih1 ih2 =>
    obtain rfl : i = j := by omega
    simp only [Ordered] at oa ob
    obtain ⟨o1, ab1⟩ := ih1 oa.2.2.2.1 ob.2.2.2.1
    obtain ⟨o2, ab2⟩ := ih2 oa.2.2.2.2 ob.2.2.2.2
    obtain ⟨f1, f2⟩ := finish_ok o1 o2 (ab1 i oa.1 ob.1) (ab2 i oa.2.1 ob.2.1)
    exact ⟨f1, fun x h1 _ => f2 x h1⟩

theorem intersect_ordered (a b : Node) (oa : a.Ordered) (ob : b.Ordered) :
    (intersect a b).Ordered ∧ ∀ x, Above x a → Above x b → Above x (intersect a b) := by
  fun_induction intersect a b with
  | case1 a => exact ⟨oa, fun _ h _ => h⟩
  | case2 a _ => exact ⟨oa, fun _ h _ => h⟩
  | case3 b _ _ => exact ⟨ob, fun _ _ h => h⟩
  | case4 => exact ⟨trivial, fun _ _ _ => trivial⟩
  | case5 => exact ⟨trivial, fun _ _ _ => trivial⟩
  | case6 i l h j l' h' hlt _ ih =>
    simp only [Ordered] at oa
    obtain ⟨o, ab⟩ := ih oa.2.2.2.2 ob
    obtain ⟨f1, f2⟩ := finish_ok oa.2.2.2.1 o oa.1 (ab i oa.2.1 hlt)
    exact ⟨f1, fun x h1 _ => f2 x h1⟩
  | case7 i l h j l' h' _ hlt _ ih =>
    simp only [Ordered] at ob
    obtain ⟨o, ab⟩ := ih oa ob.2.2.2.2
    obtain ⟨f1, f2⟩ := finish_ok ob.2.2.2.1 o ob.1 (ab j hlt ob.2.1)
    exact ⟨f1, fun x _ h1 => f2 x h1⟩
  | case8 i l h j l' h' h1 h2 _ ih1 ih2 =>
    obtain rfl : i = j := by omega
    simp only [Ordered] at oa ob
    obtain ⟨o1, ab1⟩ := ih1 oa.2.2.2.1 ob.2.2.2.1
    obtain ⟨o2, ab2⟩ := ih2 oa.2.2.2.2 ob.2.2.2.2
    obtain ⟨f1, f2⟩ := finish_ok o1 o2 (ab1 i oa.1 ob.1) (ab2 i oa.2.1 ob.2.1)
    exact ⟨f1, fun x h1 _ => f2 x h1⟩

theorem product_ordered (a b : Node) (oa : a.Ordered) (ob : b.Ordered) :
    (product a b).Ordered ∧ ∀ x, Above x a → Above x b → Above x (product a b) := by
  fun_induction product a b with
  | case1 a => exact ⟨oa, fun _ h _ => h⟩
  | case2 a _ => exact ⟨oa, fun _ h _ => h⟩
  | case3 b _ _ => exact ⟨ob, fun _ _ h => h⟩
  | case4 => exact ⟨trivial, fun _ _ _ => trivial⟩
  | case5 => exact ⟨trivial, fun _ _ _ => trivial⟩
  | case6 i l h j l' h' hlt _ ih1 ih2 =>
    simp only [Ordered] at oa
    obtain ⟨o1, ab1⟩ := ih1 oa.2.2.2.1 ob
    obtain ⟨o2, ab2⟩ := ih2 oa.2.2.2.2 ob
    obtain ⟨f1, f2⟩ := finish_ok o1 o2 (ab1 i oa.1 hlt) (ab2 i oa.2.1 hlt)
    exact ⟨f1, fun x h1 _ => f2 x h1⟩
  | case7 i l h j l' h' _ hlt _ ih1 ih2 =>
    simp only [Ordered] at ob
    obtain ⟨o1, ab1⟩ := ih1 oa ob.2.2.2.1
    obtain ⟨o2, ab2⟩ := ih2 oa ob.2.2.2.2
    obtain ⟨f1, f2⟩ := finish_ok o1 o2 (ab1 j hlt ob.1) (ab2 j hlt ob.2.1)
    exact ⟨f1, fun x _ h1 => f2 x h1⟩
  | case8 i l h j l' h' h1 h2 _ ih1 ih2 =>
    obtain rfl : i = j := by omega
    simp only [Ordered] at oa ob
    obtain ⟨o1, ab1⟩ := ih1 oa.2.2.2.1 ob.2.2.2.1
    obtain ⟨o2, ab2⟩ := ih2 oa.2.2.2.2 ob.2.2.2.2
    obtain ⟨f1, f2⟩ := finish_ok o1 o2 (ab1 i oa.1 ob.1) (ab2 i oa.2.1 ob.2.1)
    exact ⟨f1, fun x h1 _ => f2 x h1⟩

/-! ### what `product` and `intersect` compute -/

theorem product_sound (a b : Node) (s : Finset Nat) (hs : s ∈ (product a b).Den) :
    ∃ p ∈ a.Den, ∃ q ∈ b.Den, s = p ∪ q := by
  fun_induction product a b generalizing s with
  | case1 a => exact ⟨s, hs, s, hs, by simp⟩
  | case2 a _ => exact ⟨s, hs, ∅, rfl, by simp⟩
  | case3 b _ _ => exact ⟨∅, rfl, s, hs, by simp⟩
  | case4 => exact absurd hs (by simp [mem_false])
  | case5 => exact absurd hs (by simp [mem_false])
  | case6 i l h j l' h' hlt _ ih1 ih2 =>
    rcases mem_finish.mp hs with hs | ⟨t, ht, rfl⟩
    · obtain ⟨p, hp, q, hq, rfl⟩ := ih1 s hs
      exact ⟨p, Or.inl hp, q, hq, rfl⟩
    · obtain ⟨p, hp, q, hq, rfl⟩ := ih2 t ht
      exact ⟨insert i p, Or.inr ⟨p, hp, rfl⟩, q, hq, by rw [Finset.insert_union]⟩
  | case7 i l h j l' h' _ hlt _ ih1 ih2 =>
    rcases mem_finish.mp hs with hs | ⟨t, ht, rfl⟩
    · obtain ⟨p, hp, q, hq, rfl⟩ := ih1 s hs
      exact ⟨p, hp, q, Or.inl hq, rfl⟩
    · obtain ⟨p, hp, q, hq, rfl⟩ := ih2 t ht
      exact ⟨p, hp, insert j q, Or.inr ⟨q, hq, rfl⟩, by rw [Finset.union_insert]⟩
  | case8 i l h j l' h' h1 h2 _ ih1 ih2 =>
    obtain rfl : i = j := by omega
    rcases mem_finish.mp hs with hs | ⟨t, ht, rfl⟩
    · obtain ⟨p, hp, q, hq, rfl⟩ := ih1 s hs
      exact ⟨p, Or.inl hp, q, Or.inl hq, rfl⟩
    · obtain ⟨p, hp, q, hq, rfl⟩ := ih2 t ht
      exact ⟨insert i p, Or.inr ⟨p, hp, rfl⟩, insert i q, Or.inr ⟨q, hq, rfl⟩, by
        ext x; simp⟩

/-- The ids a family mentions.  Not code: used to state or prove properties. -/
def Mentions (n : Node) (i : Nat) : Prop := ∃ s ∈ n.Den, i ∈ s

theorem product_complete (a b : Node) (oa : a.Ordered) (ob : b.Ordered) (p q : Finset Nat)
    (hp : p ∈ a.Den) (hq : q ∈ b.Den) (h : ∀ i, a.Mentions i → b.Mentions i → (i ∈ p ↔ i ∈ q)) :
    p ∪ q ∈ (product a b).Den := by
  fun_induction product a b generalizing p q with
  | case1 a =>
    have : p = q := by
      ext i
      constructor
      · intro hi; exact (h i ⟨p, hp, hi⟩ ⟨p, hp, hi⟩).mp hi
      · intro hi; exact (h i ⟨q, hq, hi⟩ ⟨q, hq, hi⟩).mpr hi
    subst this; simpa using hp
  | case2 a _ => rw [mem_true] at hq; subst hq; simpa using hp
  | case3 b _ _ => rw [mem_true] at hp; subst hp; simpa using hq
  | case4 => exact absurd hq (by simp [mem_false])
  | case5 => exact absurd hp (by simp [mem_false])
  | case6 i l hi' j l' h' hlt _ ih1 ih2 =>
    have oa' := oa
    simp only [Ordered] at oa
    rw [mem_finish]
    rcases hp with hp | ⟨t, ht, rfl⟩
    · refine Or.inl (ih1 oa.2.2.2.1 ob p q hp hq fun k ⟨s, hs, hk⟩ m => h k ⟨s, Or.inl hs, hk⟩ m)
    · refine Or.inr ⟨t ∪ q, ih2 oa.2.2.2.2 ob t q ht hq fun k ⟨s, hs, hk⟩ m => ?_, by rw [Finset.insert_union]⟩
      have := h k ⟨insert i s, Or.inr ⟨s, hs, rfl⟩, by simp [hk]⟩ m
      have hki : k ≠ i := by
        have := lt_of_mem oa.2.2.2.2 oa.2.1 hs hk; omega
      simpa [hki] using this
  | case7 i l hi' j l' h' _ hlt _ ih1 ih2 =>
    simp only [Ordered] at ob
    rw [mem_finish]
    rcases hq with hq | ⟨t, ht, rfl⟩
    · refine Or.inl (ih1 oa ob.2.2.2.1 p q hp hq fun k m ⟨s, hs, hk⟩ => h k m ⟨s, Or.inl hs, hk⟩)
    · refine Or.inr ⟨p ∪ t, ih2 oa ob.2.2.2.2 p t hp ht fun k m ⟨s, hs, hk⟩ => ?_, by rw [Finset.union_insert]⟩
      have := h k m ⟨insert j s, Or.inr ⟨s, hs, rfl⟩, by simp [hk]⟩
      have hki : k ≠ j := by
        have := lt_of_mem ob.2.2.2.2 ob.2.1 hs hk; omega
      simpa [hki] using this
  | case8 i l hi' j l' h' h1 h2 _ ih1 ih2 =>
    obtain rfl : i = j := by omega
    simp only [Ordered] at oa ob
    rw [mem_finish]
    obtain ⟨sa, hsa⟩ := exists_mem oa.2.2.2.2 oa.2.2.1
    obtain ⟨sb, hsb⟩ := exists_mem ob.2.2.2.2 ob.2.2.1
    have hii := h i ⟨_, Or.inr ⟨sa, hsa, rfl⟩, by simp⟩ ⟨_, Or.inr ⟨sb, hsb, rfl⟩, by simp⟩
    rcases hp with hp | ⟨t, ht, rfl⟩ <;> rcases hq with hq | ⟨r, hr, rfl⟩
    · exact Or.inl (ih1 oa.2.2.2.1 ob.2.2.2.1 p q hp hq fun k ⟨s, hs, hk⟩ ⟨s', hs', hk'⟩ =>
        h k ⟨s, Or.inl hs, hk⟩ ⟨s', Or.inl hs', hk'⟩)
    · have := hii.mpr (by simp)
      have := lt_of_mem oa.2.2.2.1 oa.1 hp this; omega
    · have := hii.mp (by simp)
      have := lt_of_mem ob.2.2.2.1 ob.1 hq this; omega
    · refine Or.inr ⟨t ∪ r, ih2 oa.2.2.2.2 ob.2.2.2.2 t r ht hr fun k ⟨s, hs, hk⟩ ⟨s', hs', hk'⟩ => ?_, by
        ext x; simp⟩
      have := h k ⟨insert i s, Or.inr ⟨s, hs, rfl⟩, by simp [hk]⟩ ⟨insert i s', Or.inr ⟨s', hs', rfl⟩, by simp [hk']⟩
      have hki : k ≠ i := by
        have := lt_of_mem oa.2.2.2.2 oa.2.1 hs hk; omega
      simpa [hki] using this

theorem intersect_keeps (a b : Node) (oa : a.Ordered) (ob : b.Ordered) (s : Finset Nat)
    (ha : s ∈ a.Den) (hb : s ∈ b.Den) : s ∈ (intersect a b).Den := by
  fun_induction intersect a b generalizing s with
  | case1 a => exact ha
  | case2 a _ => exact ha
  | case3 b _ _ => exact hb
  | case4 => exact hb
  | case5 => exact ha
  | case6 i l h j l' h' hlt _ ih =>
    rw [mem_finish]
    have hi : i ∉ s := fun hi => by have := lt_of_mem ob (x := i) hlt hb hi; omega
    rcases (mem_ordered oa).mp ha with ⟨_, h⟩ | ⟨hi', _⟩
    · exact Or.inl h
    · exact absurd hi' hi
  | case7 i l h j l' h' _ hlt _ ih =>
    rw [mem_finish]
    have hi : j ∉ s := fun hi => by have := lt_of_mem oa (x := j) hlt ha hi; omega
    rcases (mem_ordered ob).mp hb with ⟨_, h⟩ | ⟨hi', _⟩
    · exact Or.inl h
    · exact absurd hi' hi
  | case8 i l h j l' h' h1 h2 _ ih1 ih2 =>
    obtain rfl : i = j := by omega
    rw [mem_finish]
    rw [mem_ordered oa] at ha
    rw [mem_ordered ob] at hb
    simp only [Ordered] at oa ob
    rcases ha with ⟨a1, a2⟩ | ⟨a1, a2⟩ <;> rcases hb with ⟨b1, b2⟩ | ⟨b1, b2⟩
    · exact Or.inl (ih1 oa.2.2.2.1 ob.2.2.2.1 s a2 b2)
    · exact absurd b1 a1
    · exact absurd a1 b1
    · exact Or.inr ⟨s.erase i, ih2 oa.2.2.2.2 ob.2.2.2.2 _ a2 b2, (Finset.insert_erase a1).symm⟩

theorem intersect_bound (a b : Node) (oa : a.Ordered) (ob : b.Ordered) (s : Finset Nat)
    (hs : s ∈ (intersect a b).Den) :
    (∃ p, (p ∈ a.Den ∨ p ∈ b.Den) ∧ p ⊆ s) ∧ ∃ p ∈ a.Den, ∃ q ∈ b.Den, s ⊆ p ∪ q := by
  fun_induction intersect a b generalizing s with
  | case1 a => exact ⟨⟨s, Or.inl hs, subset_rfl⟩, s, hs, s, hs, by simp⟩
  | case2 a _ => exact ⟨⟨s, Or.inl hs, subset_rfl⟩, s, hs, ∅, rfl, by simp⟩
  | case3 b _ _ => exact ⟨⟨s, Or.inr hs, subset_rfl⟩, ∅, rfl, s, hs, by simp⟩
  | case4 => exact absurd hs (by simp [mem_false])
  | case5 => exact absurd hs (by simp [mem_false])
  | case6 i l h j l' h' hlt _ ih =>
    have oa' := oa
    simp only [Ordered] at oa
    obtain ⟨q0, hq0⟩ := exists_mem ob (by simp)
    rcases mem_finish.mp hs with hs | ⟨t, ht, rfl⟩
    · exact ⟨⟨s, Or.inl (Or.inl hs), subset_rfl⟩, s, Or.inl hs, q0, hq0, by simp⟩
    · obtain ⟨⟨p, hp, hpt⟩, p', hp', q', hq', hsub⟩ := ih oa.2.2.2.2 ob t ht
      refine ⟨?_, insert i p', Or.inr ⟨p', hp', rfl⟩, q', hq', ?_⟩
      · rcases hp with hp | hp
        · exact ⟨insert i p, Or.inl (Or.inr ⟨p, hp, rfl⟩), Finset.insert_subset_insert _ hpt⟩
        · exact ⟨p, Or.inr hp, hpt.trans (Finset.subset_insert _ _)⟩
      · rw [Finset.insert_union]; exact Finset.insert_subset_insert _ hsub
  | case7 i l h j l' h' _ hlt _ ih =>
    have ob' := ob
    simp only [Ordered] at ob
    obtain ⟨q0, hq0⟩ := exists_mem oa (by simp)
    rcases mem_finish.mp hs with hs | ⟨t, ht, rfl⟩
    · exact ⟨⟨s, Or.inr (Or.inl hs), subset_rfl⟩, q0, hq0, s, Or.inl hs, by simp⟩
    · obtain ⟨⟨p, hp, hpt⟩, p', hp', q', hq', hsub⟩ := ih oa ob.2.2.2.2 t ht
      refine ⟨?_, p', hp', insert j q', Or.inr ⟨q', hq', rfl⟩, ?_⟩
      · rcases hp with hp | hp
        · exact ⟨p, Or.inl hp, hpt.trans (Finset.subset_insert _ _)⟩
        · exact ⟨insert j p, Or.inr (Or.inr ⟨p, hp, rfl⟩), Finset.insert_subset_insert _ hpt⟩
      · rw [Finset.union_insert]; exact Finset.insert_subset_insert _ hsub
  | case8 i l h j l' h' h1 h2 _ ih1 ih2 =>
    obtain rfl : i = j := by omega
    simp only [Ordered] at oa ob
    rcases mem_finish.mp hs with hs | ⟨t, ht, rfl⟩
    · obtain ⟨⟨p, hp, hpt⟩, p', hp', q', hq', hsub⟩ := ih1 oa.2.2.2.1 ob.2.2.2.1 s hs
      exact ⟨⟨p, hp.imp Or.inl Or.inl, hpt⟩, p', Or.inl hp', q', Or.inl hq', hsub⟩
    · obtain ⟨⟨p, hp, hpt⟩, p', hp', q', hq', hsub⟩ := ih2 oa.2.2.2.2 ob.2.2.2.2 t ht
      refine ⟨⟨insert i p, hp.imp (fun h => Or.inr ⟨p, h, rfl⟩) (fun h => Or.inr ⟨p, h, rfl⟩),
        Finset.insert_subset_insert _ hpt⟩, insert i p', Or.inr ⟨p', hp', rfl⟩, insert i q',
        Or.inr ⟨q', hq', rfl⟩, ?_⟩
      intro x hx
      rcases Finset.mem_insert.mp hx with rfl | hx
      · simp
      · have := hsub hx
        simp only [Finset.mem_union, Finset.mem_insert] at this ⊢
        tauto

/-! ### commutativity -/

theorem union_comm (a b : Node) : union a b = union b a := by
  fun_induction union a b with
  | case1 a => rw [union.eq_def, if_pos rfl]
  | case2 a ne =>
    cases a with
    | Leaf b => cases b <;> simp [union]
    | Branch => simp [union]
  | case3 b hb ne =>
    cases b with
    | Leaf b => cases b <;> simp [union]
    | Branch => simp [union]
  | case4 h => exact absurd rfl h
  | case5 i l h _ ih => rw [ih, union.eq_def (.Leaf true) (.Branch i l h)]; simp
  | case6 i l h _ ih => rw [ih, union.eq_def (.Branch i l h) (.Leaf true)]; simp
  | case7 i l h j l' h' hlt ne ih =>
    rw [ih, union.eq_def (.Branch j l' h') (.Branch i l h), if_neg (fun e => ne e.symm)]
    simp only [show ¬ j < i by omega, hlt, if_true, if_false, gt_iff_lt]
  | case8 i l h j l' h' _ hlt ne ih =>
    rw [ih, union.eq_def (.Branch j l' h') (.Branch i l h), if_neg (fun e => ne e.symm)]
    simp only [hlt, if_true, if_false, gt_iff_lt]
  | case9 i l h j l' h' h1 h2 ne ih1 ih2 =>
    obtain rfl : i = j := by omega
    rw [ih1, ih2, union.eq_def (.Branch i l' h') (.Branch i l h), if_neg (fun e => ne e.symm)]
    simp

theorem intersect_comm (a b : Node) : intersect a b = intersect b a := by
  fun_induction intersect a b with
  | case1 a => rw [intersect.eq_def, if_pos rfl]
  | case2 a ne =>
    cases a with
    | Leaf b => cases b <;> simp [intersect]
    | Branch => simp [intersect]
  | case3 b hb ne =>
    cases b with
    | Leaf b => cases b <;> simp_all [intersect]
    | Branch => simp [intersect]
  | case4 a h1 h2 =>
    cases a with
    | Leaf b => cases b <;> simp_all [intersect]
    | Branch => simp [intersect]
  | case5 a h1 h2 h3 =>
    cases a with
    | Leaf b => cases b <;> simp_all [intersect]
    | Branch => simp [intersect]
  | case6 i l h j l' h' hlt ne ih =>
    rw [ih, intersect.eq_def (.Branch j l' h') (.Branch i l h), if_neg (fun e => ne e.symm)]
    simp only [show ¬ j < i by omega, hlt, if_true, if_false, gt_iff_lt]
  | case7 i l h j l' h' _ hlt ne ih =>
    rw [ih, intersect.eq_def (.Branch j l' h') (.Branch i l h), if_neg (fun e => ne e.symm)]
    simp only [hlt, if_true, if_false, gt_iff_lt]
  | case8 i l h j l' h' h1 h2 ne ih1 ih2 =>
    obtain rfl : i = j := by omega
    rw [ih1, ih2, intersect.eq_def (.Branch i l' h') (.Branch i l h), if_neg (fun e => ne e.symm)]
    simp

theorem product_comm (a b : Node) : product a b = product b a := by
  fun_induction product a b with
  | case1 a => rw [product.eq_def, if_pos rfl]
  | case2 a ne =>
    cases a with
    | Leaf b => cases b <;> simp [product]
    | Branch => simp [product]
  | case3 b hb ne =>
    cases b with
    | Leaf b => cases b <;> simp_all [product]
    | Branch => simp [product]
  | case4 a h1 h2 =>
    cases a with
    | Leaf b => cases b <;> simp_all [product]
    | Branch => simp [product]
  | case5 a h1 h2 h3 =>
    cases a with
    | Leaf b => cases b <;> simp_all [product]
    | Branch => simp [product]
  | case6 i l h j l' h' hlt ne ih1 ih2 =>
    rw [ih1, ih2, product.eq_def (.Branch j l' h') (.Branch i l h), if_neg (fun e => ne e.symm)]
    simp only [show ¬ j < i by omega, hlt, if_true, if_false, gt_iff_lt]
  | case7 i l h j l' h' _ hlt ne ih1 ih2 =>
    rw [ih1, ih2, product.eq_def (.Branch j l' h') (.Branch i l h), if_neg (fun e => ne e.symm)]
    simp only [hlt, if_true, if_false, gt_iff_lt]
  | case8 i l h j l' h' h1 h2 ne ih1 ih2 =>
    obtain rfl : i = j := by omega
    rw [ih1, ih2, product.eq_def (.Branch i l' h') (.Branch i l h), if_neg (fun e => ne e.symm)]
    simp

end Node
end Verif.Zdd1
