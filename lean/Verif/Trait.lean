import Verif.Zdd2.Agree
import Verif.Zdd2.Size
import Verif.Tree
import Mathlib.Data.Fintype.BigOperators

/-!
# Clients of the `Forest` trait (C72, C73)

`weave::Forest<T>` (weave/src/types.rs) is implemented by both backends.  A client that is generic in
the trait is a program over its methods; here it runs on either backend and is observed through the
trait's observers only.
-/

set_option linter.unusedSimpArgs false
set_option linter.unusedSectionVars false
set_option linter.unusedVariables false

namespace Verif.Trait
open Verif Verif.Spec Verif.Zdd2.Spec

universe u v
variable {T : Type u} [LinearOrder T]

/-- weave/src/types.rs:2-23.  A method returning a forest is the set of its possible results: several if
it depends on a hash order, none if it panics.  Observers likewise. -/
structure ForestTrait (T : Type u) where
  F : Type u
  empty : F → Prop
  unit : List T → F → Prop
  many : List (List T) → F → Prop
  unique : List T → F → Prop
  len : F → Nat → Prop
  isEmpty : F → Bool → Prop
  trees : F → List (List T) → Prop
  occurrences : F → List (T × Nat) → Prop
  intersect : F → F → F → Prop
  union : F → F → F → Prop
  product : F → F → F → Prop
  subset : F → T → F → Prop
  subsetNot : F → T → F → Prop
  subsetAll : F → List T → F → Prop
  subsetNone : F → List T → F → Prop

/-- weave/src/matrix/mod.rs:11-71: every method forwards to the inherent one. -/
def matrix (T : Type u) [LinearOrder T] : ForestTrait T where
  F := Matrix.Forest T
  empty r := r = Matrix.Forest.empty
  unit s r := r = Matrix.Forest.unit s
  many m r := r = Matrix.Forest.many m
  unique s r := r = Matrix.Forest.unique s
  len f n := n = f.len
  isEmpty f b := b = f.isEmpty
  trees f l := ∃ h, l = f.trees h
  occurrences f l := ∃ h mo, l = f.occurrences h mo
  intersect f g r := ∃ h, r = Matrix.Forest.intersect h f g
  union f g r := ∃ h, r = Matrix.Forest.union h f g
  product f g r := ∃ h1 h2, r = Matrix.Forest.product h1 h2 f g
  subset f x r := ∃ h, r = Matrix.Forest.subset h f x
  subsetNot f x r := ∃ h, r = Matrix.Forest.subsetNot h f x
  subsetAll f xs r := ∃ h, r = Matrix.Forest.subsetAll h f xs
  subsetNone f xs r := ∃ h, r = Matrix.Forest.subsetNone h f xs

/-- weave/src/zdd2/mod.rs:11-71: every method forwards to the inherent one. -/
def zdd2 (T : Type u) [LinearOrder T] : ForestTrait T where
  F := Zdd2.Forest T
  empty r := r = Zdd2.Forest.empty
  unit s r := r = Zdd2.Forest.unit s
  many m r := r = Zdd2.Forest.many m
  unique s r := r = Zdd2.Forest.unique s
  len f n := n = f.len
  isEmpty f b := b = f.isEmpty
  trees f l := l = f.trees
  occurrences f l := ∃ e, e.Perm f.univ.occurrences ∧ l = f.occurrencesIter e
  intersect f g r := f.intersect g = some r
  union f g r := f.union g = some r
  product f g r := f.product g = some r
  subset f x r := r = f.subset x
  subsetNot f x r := r = f.subsetNot x
  subsetAll f xs r := r = f.subsetAll xs
  subsetNone f xs r := r = f.subsetNone xs

/-- `Eval B p f`: the generic client `p`, run on backend `B`, can produce `f`.
Not code: used to state or prove properties. -/
inductive Eval (B : ForestTrait T) : Matrix.Prog T → B.F → Prop where
  | empty {r} : B.empty r → Eval B .empty r
  | unit {s r} : B.unit s r → Eval B (.unit s) r
  | many {m r} : B.many m r → Eval B (.many m) r
  | unique {s r} : B.unique s r → Eval B (.unique s) r
  | union {a b f g r} : Eval B a f → Eval B b g → B.union f g r → Eval B (.union a b) r
  | intersect {a b f g r} : Eval B a f → Eval B b g → B.intersect f g r → Eval B (.intersect a b) r
  | product {a b f g r} : Eval B a f → Eval B b g → B.product f g r → Eval B (.product a b) r
  | subset {a f x r} : Eval B a f → B.subset f x r → Eval B (.subset a x) r
  | subsetNot {a f x r} : Eval B a f → B.subsetNot f x r → Eval B (.subsetNot a x) r
  | subsetAll {a f xs r} : Eval B a f → B.subsetAll f xs r → Eval B (.subsetAll a xs) r
  | subsetNone {a f xs r} : Eval B a f → B.subsetNone f xs r → Eval B (.subsetNone a xs) r

theorem eval_matrix {p : Matrix.Prog T} {f : (matrix T).F} : Eval (matrix T) p f ↔ Matrix.Runs p f := by
  constructor
  · intro h
    induction h with
    | empty h => rw [show _ = _ from h]; exact .empty
    | unit h => rw [show _ = _ from h]; exact .unit _
    | many h => rw [show _ = _ from h]; exact .many _
    | unique h => rw [show _ = _ from h]; exact .unique _
    | union _ _ h ia ib => obtain ⟨o, rfl⟩ := h; exact .union o ia ib
    | intersect _ _ h ia ib => obtain ⟨o, rfl⟩ := h; exact .intersect o ia ib
    | product _ _ h ia ib => obtain ⟨o, o', rfl⟩ := h; exact .product o o' ia ib
    | subset _ h ia => obtain ⟨o, rfl⟩ := h; exact .subset o _ ia
    | subsetNot _ h ia => obtain ⟨o, rfl⟩ := h; exact .subsetNot o _ ia
    | subsetAll _ h ia => obtain ⟨o, rfl⟩ := h; exact .subsetAll o _ ia
    | subsetNone _ h ia => obtain ⟨o, rfl⟩ := h; exact .subsetNone o _ ia
  · intro h
    induction h with
    | empty => exact .empty rfl
    | unit => exact .unit rfl
    | many => exact .many rfl
    | unique => exact .unique rfl
    | union o _ _ ia ib => exact .union ia ib ⟨o, rfl⟩
    | intersect o _ _ ia ib => exact .intersect ia ib ⟨o, rfl⟩
    | product o o' _ _ ia ib => exact .product ia ib ⟨o, o', rfl⟩
    | subset o x _ ia => exact .subset ia ⟨o, rfl⟩
    | subsetNot o x _ ia => exact .subsetNot ia ⟨o, rfl⟩
    | subsetAll o x _ ia => exact .subsetAll ia ⟨o, rfl⟩
    | subsetNone o x _ ia => exact .subsetNone ia ⟨o, rfl⟩

theorem eval_zdd2 {p : Matrix.Prog T} {f : (zdd2 T).F} : Eval (zdd2 T) p f ↔ Zdd2.run p = some f := by
  constructor
  · intro h
    induction h with
    | empty h => rw [show _ = _ from h]; rfl
    | unit h => rw [show _ = _ from h]; rfl
    | many h => rw [show _ = _ from h]; rfl
    | unique h => rw [show _ = _ from h]; rfl
    | union _ _ h ia ib => simp only [Zdd2.run, ia, ib, Option.bind_some]; exact h
    | intersect _ _ h ia ib => simp only [Zdd2.run, ia, ib, Option.bind_some]; exact h
    | product _ _ h ia ib => simp only [Zdd2.run, ia, ib, Option.bind_some]; exact h
    | subset _ h ia =>
      rw [show _ = _ from h]; change Option.map _ (Zdd2.run _) = _; rw [ia]; rfl
    | subsetNot _ h ia =>
      rw [show _ = _ from h]; change Option.map _ (Zdd2.run _) = _; rw [ia]; rfl
    | subsetAll _ h ia =>
      rw [show _ = _ from h]; change Option.map _ (Zdd2.run _) = _; rw [ia]; rfl
    | subsetNone _ h ia =>
      rw [show _ = _ from h]; change Option.map _ (Zdd2.run _) = _; rw [ia]; rfl
  · intro h
    induction p generalizing f with
    | empty => cases h; exact .empty rfl
    | unit => cases h; exact .unit rfl
    | many => cases h; exact .many rfl
    | unique => cases h; exact .unique rfl
    | union a b ia ib =>
      obtain ⟨f1, e1⟩ := Zdd2.run_total a
      obtain ⟨f2, e2⟩ := Zdd2.run_total b
      simp only [Zdd2.run, e1, e2, Option.bind_some] at h
      exact .union (ia e1) (ib e2) h
    | intersect a b ia ib =>
      obtain ⟨f1, e1⟩ := Zdd2.run_total a
      obtain ⟨f2, e2⟩ := Zdd2.run_total b
      simp only [Zdd2.run, e1, e2, Option.bind_some] at h
      exact .intersect (ia e1) (ib e2) h
    | product a b ia ib =>
      obtain ⟨f1, e1⟩ := Zdd2.run_total a
      obtain ⟨f2, e2⟩ := Zdd2.run_total b
      simp only [Zdd2.run, e1, e2, Option.bind_some] at h
      exact .product (ia e1) (ib e2) h
    | subset a x ia =>
      obtain ⟨f1, e1⟩ := Zdd2.run_total a
      simp only [Zdd2.run, e1, Option.map_some] at h
      exact .subset (ia e1) (Option.some.inj h).symm
    | subsetNot a x ia =>
      obtain ⟨f1, e1⟩ := Zdd2.run_total a
      simp only [Zdd2.run, e1, Option.map_some] at h
      exact .subsetNot (ia e1) (Option.some.inj h).symm
    | subsetAll a x ia =>
      obtain ⟨f1, e1⟩ := Zdd2.run_total a
      simp only [Zdd2.run, e1, Option.map_some] at h
      exact .subsetAll (ia e1) (Option.some.inj h).symm
    | subsetNone a x ia =>
      obtain ⟨f1, e1⟩ := Zdd2.run_total a
      simp only [Zdd2.run, e1, Option.map_some] at h
      exact .subsetNone (ia e1) (Option.some.inj h).symm

/-! ## C72: clients of the trait -/

/-- A strictly ascending list without repetition, as `trees` returns it, is determined up to order by its family. -/
theorem perm_of_family {l l' : List (List T)} (h : ∀ a ∈ l, a.Pairwise (· < ·)) (h' : ∀ a ∈ l', a.Pairwise (· < ·))
    (n : l.Nodup) (n' : l'.Nodup) (e : family l = family l') : l.Perm l' := by
  rw [List.perm_ext_iff_of_nodup n n']
  intro a
  constructor
  · intro ha
    have : a.toFinset ∈ family l' := by rw [← e]; exact ⟨a, ha, rfl⟩
    obtain ⟨b, hb, eb⟩ := this
    rwa [← toFinset_inj_of_lt (h' b hb) (h a ha) eb]
  · intro ha
    have : a.toFinset ∈ family l := by rw [e]; exact ⟨a, ha, rfl⟩
    obtain ⟨b, hb, eb⟩ := this
    rwa [← toFinset_inj_of_lt (h b hb) (h' a ha) eb]

/-- Strictly key-sorted lists with the same entries are equal. -/
theorem eq_of_entries {l l' : List (T × Nat)} (h : l.Pairwise (fun a b => a.1 < b.1))
    (h' : l'.Pairwise (fun a b => a.1 < b.1)) (e : ∀ x n, (x, n) ∈ l ↔ (x, n) ∈ l') : l = l' := by
  have nd : ∀ {l : List (T × Nat)}, l.Pairwise (fun a b => a.1 < b.1) → l.Nodup := fun h =>
    h.imp fun hab e => absurd (e ▸ hab) (lt_irrefl _)
  have hp : l.Perm l' := (List.perm_ext_iff_of_nodup (nd h) (nd h')).mpr fun ⟨x, n⟩ => e x n
  exact hp.eq_of_pairwise (fun a b _ _ h1 h2 => absurd h1 (lt_asymm h2)) h h'

/-- Every client runs to the end on both backends. -/
theorem client_total (p : Matrix.Prog T) : (∃ f, Eval (zdd2 T) p f) ∧ ∃ g, Eval (matrix T) p g := by
  obtain ⟨f, hf⟩ := Zdd2.run_total p
  refine ⟨⟨f, eval_zdd2.mpr hf⟩, ?_⟩
  have o : ∀ {α : Type u} [DecidableEq α], Nonempty (HashOrder α) := fun {α} _ =>
    ⟨⟨Finset.toList, Finset.nodup_toList, fun s a => Finset.mem_toList⟩⟩
  obtain ⟨h⟩ := o (α := List T)
  induction p generalizing f with
  | empty => exact ⟨_, .empty rfl⟩
  | unit => exact ⟨_, .unit rfl⟩
  | many => exact ⟨_, .many rfl⟩
  | unique => exact ⟨_, .unique rfl⟩
  | union a b ia ib =>
    obtain ⟨f1, e1⟩ := Zdd2.run_total a
    obtain ⟨f2, e2⟩ := Zdd2.run_total b
    obtain ⟨x, hx⟩ := ia f1 e1
    obtain ⟨y, hy⟩ := ib f2 e2
    exact ⟨_, .union hx hy ⟨h, rfl⟩⟩
  | intersect a b ia ib =>
    obtain ⟨f1, e1⟩ := Zdd2.run_total a
    obtain ⟨f2, e2⟩ := Zdd2.run_total b
    obtain ⟨x, hx⟩ := ia f1 e1
    obtain ⟨y, hy⟩ := ib f2 e2
    exact ⟨_, .intersect hx hy ⟨h, rfl⟩⟩
  | product a b ia ib =>
    obtain ⟨f1, e1⟩ := Zdd2.run_total a
    obtain ⟨f2, e2⟩ := Zdd2.run_total b
    obtain ⟨x, hx⟩ := ia f1 e1
    obtain ⟨y, hy⟩ := ib f2 e2
    exact ⟨_, .product hx hy ⟨h, h, rfl⟩⟩
  | subset a x ia =>
    obtain ⟨f1, e1⟩ := Zdd2.run_total a
    obtain ⟨y, hy⟩ := ia f1 e1
    exact ⟨_, .subset hy ⟨h, rfl⟩⟩
  | subsetNot a x ia =>
    obtain ⟨f1, e1⟩ := Zdd2.run_total a
    obtain ⟨y, hy⟩ := ia f1 e1
    exact ⟨_, .subsetNot hy ⟨h, rfl⟩⟩
  | subsetAll a x ia =>
    obtain ⟨f1, e1⟩ := Zdd2.run_total a
    obtain ⟨y, hy⟩ := ia f1 e1
    exact ⟨_, .subsetAll hy ⟨h, rfl⟩⟩
  | subsetNone a x ia =>
    obtain ⟨f1, e1⟩ := Zdd2.run_total a
    obtain ⟨y, hy⟩ := ia f1 e1
    exact ⟨_, .subsetNone hy ⟨h, rfl⟩⟩

/-- C72: what a client of the trait can observe.  A client whose steps are in the cases where the zdd2
operations are exact, and that means a family of non-empty sets, observes the same on both backends:
the same members (in some order), the same length and emptiness, and the identical list of occurrences. -/
theorem clients_agree {p : Matrix.Prog T} (hs : Zdd2.Safe p) (hne : ∅ ∉ p.meaning)
    {f : (zdd2 T).F} {g : (matrix T).F} (hf : Eval (zdd2 T) p f) (hg : Eval (matrix T) p g) :
    (∀ l l', (zdd2 T).trees f l → (matrix T).trees g l' → l.Perm l') ∧
    (∀ n n', (zdd2 T).len f n → (matrix T).len g n' → n = n') ∧
    (∀ b b', (zdd2 T).isEmpty f b → (matrix T).isEmpty g b' → b = b') ∧
    (∀ l l', (zdd2 T).occurrences f l → (matrix T).occurrences g l' → l = l') := by
  rw [eval_zdd2] at hf
  rw [eval_matrix] at hg
  change Zdd2.Forest T at f
  change Matrix.Forest T at g
  have rf : Zdd2.Reach f := ⟨p, hf⟩
  have rg : Matrix.Reach g := ⟨p, hg⟩
  have ef := Zdd2.safe_family hs hf
  have en : nonempty p.meaning = p.meaning := by
    ext s
    simp only [nonempty, Set.mem_ofPred_eq, and_iff_left_iff_imp]
    intro hs
    rw [Finset.nonempty_iff_ne_empty]
    rintro rfl; exact hne hs
  rw [en] at ef
  have eg := Matrix.run_family hg
  have tp : ∀ h, f.trees.Perm (g.trees h) := fun h => by
    obtain ⟨a1, _, a2⟩ := Zdd2.trees_exact rf
    obtain ⟨b1, _, b2⟩ := Matrix.trees_exact h rg
    exact perm_of_family a1 b1 a2 b2 (by rw [ef, eg h])
  obtain ⟨h0⟩ : Nonempty (HashOrder (List T)) :=
    ⟨⟨Finset.toList, Finset.nodup_toList, fun s a => Finset.mem_toList⟩⟩
  refine ⟨?_, ?_, ?_, ?_⟩
  · rintro l l' rfl ⟨h, rfl⟩
    exact tp h
  · rintro n n' rfl rfl
    obtain ⟨S, hS, e⟩ := Matrix.len_exact h0 rg
    rw [Zdd2.len_exact rf, e, ef, ← eg h0]
    have : family (g.trees h0) = (S : Set (Finset T)) := by ext s; exact (hS s).symm
    rw [this, Set.ncard_coe_finset]
  · rintro b b' rfl rfl
    rw [Bool.eq_iff_iff, Zdd2.isEmpty_exact rf, Matrix.isEmpty_exact h0 rg, ef, eg h0]
  · rintro l l' ⟨e, he, rfl⟩ ⟨h, mo, rfl⟩
    obtain ⟨a1, a2⟩ := Zdd2.occurrences_exact rf e he
    obtain ⟨b1, b2⟩ := Matrix.occurrences_exact h h0 mo rg
    refine eq_of_entries a1 b1 fun x n => ?_
    rw [a2, b2]
    have c1 : (∃ s ∈ family f.trees, x ∈ s) ↔ ∃ l ∈ g.trees h0, x ∈ l := by
      rw [ef, ← eg h0]
      constructor
      · rintro ⟨s, ⟨l, hl, rfl⟩, hx⟩; exact ⟨l, hl, by simpa using hx⟩
      · rintro ⟨l, hl, hx⟩; exact ⟨_, ⟨l, hl, rfl⟩, by simpa using hx⟩
    have c2 : (having (family f.trees) x).ncard = ((g.trees h0).filter (fun l => decide (x ∈ l))).length := by
      obtain ⟨b1, _, b2⟩ := Matrix.trees_exact h0 rg
      have : having (family f.trees) x =
          (((g.trees h0).filter (fun l => decide (x ∈ l))).map List.toFinset).toFinset := by
        ext s
        rw [ef, ← eg h0]
        simp only [having, Set.mem_ofPred_eq, family, Finset.mem_coe, List.mem_toFinset,
          List.mem_map, List.mem_filter, decide_eq_true_eq]
        constructor
        · rintro ⟨⟨l, hl, rfl⟩, hx⟩; exact ⟨l, ⟨hl, by simpa using hx⟩, rfl⟩
        · rintro ⟨l, ⟨hl, hx⟩, rfl⟩; exact ⟨⟨l, hl, rfl⟩, by simpa using hx⟩
      rw [this, Set.ncard_coe_finset, List.toFinset_card_of_nodup, List.length_map]
      refine List.Nodup.map_on (fun a ha b hb e => ?_) (b2.filter _)
      exact toFinset_inj_of_lt (b1 a (List.mem_filter.mp ha).1) (b1 b (List.mem_filter.mp hb).1) e
    rw [c1, c2]

/-! ## C73: forests over separate items -/

theorem ncard_prod_disjoint {A B : Set (Finset T)} (h : ItemDisjoint A B) :
    (prod A B).ncard = A.ncard * B.ncard := by
  have e : prod A B = (fun p : Finset T × Finset T => p.1 ∪ p.2) '' (A ×ˢ B) := by
    ext s
    simp only [prod, Set.mem_ofPred_eq, Set.mem_image, Set.mem_prod, Prod.exists]
    constructor
    · rintro ⟨p, hp, q, hq, rfl⟩; exact ⟨p, q, ⟨hp, hq⟩, rfl⟩
    · rintro ⟨p, q, ⟨hp, hq⟩, rfl⟩; exact ⟨p, hp, q, hq, rfl⟩
  have inj : Set.InjOn (fun p : Finset T × Finset T => p.1 ∪ p.2) (A ×ˢ B) := by
    rintro ⟨p, q⟩ ⟨hp, hq⟩ ⟨p', q'⟩ ⟨hp', hq'⟩ he
    simp only at hp hq hp' hq' he
    have half : ∀ {p q p' q' : Finset T}, Disjoint p q' → p ∪ q = p' ∪ q' → p ⊆ p' := by
      intro p q p' q' hd he x hx
      have : x ∈ p' ∪ q' := he ▸ Finset.mem_union_left _ hx
      rcases Finset.mem_union.mp this with h | h
      · exact h
      · exact absurd h (Finset.disjoint_left.mp hd hx)
    have e1 : p = p' := Finset.Subset.antisymm (half (h p hp q' hq') he) (half (h p' hp' q hq) he.symm)
    rw [Finset.union_comm p, Finset.union_comm p'] at he
    have e2 : q = q' := Finset.Subset.antisymm (half (h p' hp' q hq).symm he) (half (h p hp q' hq').symm he.symm)
    rw [e1, e2]
  rw [e, inj.ncard_image, Set.ncard_prod]

/-- C73, zdd2: on every pair of forests with no item in common the binary operations are exact, and the
lengths add up and multiply. -/
theorem disjoint_exact {f g : Zdd2.Forest T} (hf : Zdd2.Reach f) (hg : Zdd2.Reach g)
    (hd : ItemDisjoint (family f.trees) (family g.trees)) :
    (∀ r, f.union g = some r → family r.trees = family f.trees ∪ family g.trees ∧ r.len = f.len + g.len) ∧
    (∀ r, f.intersect g = some r → r = Zdd2.Forest.empty) ∧
    (∀ r, f.product g = some r → family r.trees = prod (family f.trees) (family g.trees) ∧
      r.len = f.len * g.len) := by
  refine ⟨fun r hr => ?_, fun r hr => ?_, fun r hr => ?_⟩
  · have e := Zdd2.union_cases_partial hf hg (Or.inl hd) hr
    refine ⟨e, ?_⟩
    rw [Zdd2.len_exact (Zdd2.reach_of_union hf hg hr), Zdd2.len_exact hf, Zdd2.len_exact hg, e]
    refine Set.ncard_union_eq ?_ (Zdd2.fam_finite hf) (Zdd2.fam_finite hg)
    rw [Set.disjoint_left]
    intro s h1 h2
    obtain ⟨x, hx⟩ := hf.canon.fam_nonempty h1
    exact Finset.disjoint_left.mp (hd s h1 s h2) hx hx
  · exact Zdd2.eq_of_family Zdd2.reach_empty (Zdd2.reach_of_intersect hf hg hr).canon
      (by rw [Zdd2.intersect_disjoint_partial hf hg hd hr, Zdd2.empty_family])
  · have e := Zdd2.product_disjoint_partial hf hg hd hr
    refine ⟨e, ?_⟩
    rw [Zdd2.len_exact (Zdd2.reach_of_product hf hg hr), Zdd2.len_exact hf, Zdd2.len_exact hg, e,
      ncard_prod_disjoint hd]

/-- The hypotheses are met. -/
example := disjoint_exact (f := Zdd2.Forest.many [[1, 2], [2]]) (g := Zdd2.Forest.unit [3, 4])
  (Zdd2.reach_many _) (Zdd2.reach_unit _) (by
    rw [Zdd2.many_family, Zdd2.unit_family]
    intro s hs t ht
    simp only [family, List.mem_cons, List.not_mem_nil, or_false, Set.mem_diff, Set.mem_ofPred_eq,
      Set.mem_singleton_iff, exists_eq_or_imp, exists_eq_left] at hs ht
    obtain ⟨hs, -⟩ := hs
    obtain ⟨ht, -⟩ := ht
    rcases hs with rfl | rfl <;> subst ht <;> decide)

/-- One item from each list: the product of `unique` forests.  Not code: used to state or prove properties. -/
def menu (xs : List T) : List (List T) → Matrix.Prog T
  | [] => .unique xs
  | ys :: rest => .product (.unique xs) (menu ys rest)

/-- The sets made of one item from each list.  Not code: used to state or prove properties. -/
def choices (xss : List (List T)) : Set (Finset T) :=
  {s | ∃ c : List T, List.Forall₂ (fun x xs => x ∈ xs) c xss ∧ s = c.toFinset}

theorem menu_meaning (xs : List T) (rest : List (List T)) : (menu xs rest).meaning = choices (xs :: rest) := by
  induction rest generalizing xs with
  | nil =>
    ext s
    simp only [menu, Matrix.Prog.meaning, choices, Set.mem_ofPred_eq]
    constructor
    · rintro ⟨x, hx, rfl⟩; exact ⟨[x], .cons hx .nil, by simp⟩
    · rintro ⟨c, hc, rfl⟩
      cases hc with | cons h1 h2 => cases h2; exact ⟨_, h1, by simp⟩
  | cons ys rest ih =>
    ext s
    simp only [menu, Matrix.Prog.meaning, ih, prod, choices, Set.mem_ofPred_eq]
    constructor
    · rintro ⟨p, ⟨x, hx, rfl⟩, q, ⟨c, hc, rfl⟩, rfl⟩
      exact ⟨x :: c, .cons hx hc, by simp⟩
    · rintro ⟨c, hc, rfl⟩
      cases hc with
      | cons h1 h2 => exact ⟨_, ⟨_, h1, rfl⟩, _, ⟨_, h2, rfl⟩, by simp⟩

theorem choices_items {xss : List (List T)} {s : Finset T} (hs : s ∈ choices xss) {x : T} (hx : x ∈ s) :
    ∃ xs ∈ xss, x ∈ xs := by
  obtain ⟨c, hc, rfl⟩ := hs
  simp only [List.mem_toFinset] at hx
  induction hc with
  | nil => simp at hx
  | cons h1 _ ih =>
    rcases List.mem_cons.mp hx with rfl | hx
    · exact ⟨_, by simp, h1⟩
    · obtain ⟨xs, h, h'⟩ := ih hx; exact ⟨xs, by simp [h], h'⟩

theorem choices_nonempty {xs : List T} {rest : List (List T)} : ∅ ∉ choices (xs :: rest) := by
  rintro ⟨c, hc, e⟩
  cases hc with | cons h1 h2 => rw [List.toFinset_cons] at e; exact absurd e.symm (Finset.insert_ne_empty _ _)

theorem menu_disjoint {xs ys : List T} {rest : List (List T)}
    (hd : (xs :: ys :: rest).Pairwise List.Disjoint) :
    ItemDisjoint (Matrix.Prog.meaning (.unique xs)) (menu ys rest).meaning := by
  rintro p ⟨x, hx, rfl⟩ q hq
  rw [menu_meaning] at hq
  rw [Finset.disjoint_singleton_left]
  intro hxq
  obtain ⟨zs, hz, hxz⟩ := choices_items hq hxq
  exact (List.pairwise_cons.mp hd).1 zs hz hx hxz

theorem menu_safe (xs : List T) (rest : List (List T)) (hd : (xs :: rest).Pairwise List.Disjoint) :
    Zdd2.Safe (menu xs rest) := by
  induction rest generalizing xs with
  | nil => trivial
  | cons ys rest ih =>
    have hd' := menu_disjoint hd
    have sub : ∀ A : Set (Finset T), nonempty A ⊆ A := fun A s hs => hs.1
    have hd'' : ItemDisjoint (nonempty (Matrix.Prog.meaning (.unique xs))) (nonempty (menu ys rest).meaning) :=
      fun p hp q hq => hd' p (sub _ hp) q (sub _ hq)
    refine ⟨trivial, ih ys (List.pairwise_cons.mp hd).2, Zdd2.compatible_of_disjoint hd'', Or.inr (Or.inr hd''), ?_, ?_⟩
    · rintro ⟨x, _, e⟩; simp at e
    · rw [menu_meaning]; exact choices_nonempty

theorem ncard_choices (xs : List T) (rest : List (List T)) (hd : (xs :: rest).Pairwise List.Disjoint) :
    (choices (xs :: rest)).ncard = ((xs :: rest).map (fun l => l.toFinset.card)).prod := by
  rw [← menu_meaning]
  have hu : ∀ xs : List T, (Matrix.Prog.meaning (.unique xs)).ncard = xs.toFinset.card := by
    intro xs
    have : Matrix.Prog.meaning (.unique xs) = (fun x : T => ({x} : Finset T)) '' (xs.toFinset : Set T) := by
      ext s; simp [Matrix.Prog.meaning, eq_comm]
    rw [this, Set.InjOn.ncard_image (fun a _ b _ e => Finset.singleton_injective e), Set.ncard_coe_finset]
  induction rest generalizing xs with
  | nil => simp [menu, hu]
  | cons ys rest ih =>
    have := ncard_prod_disjoint (menu_disjoint hd)
    rw [hu, ih ys (List.pairwise_cons.mp hd).2] at this
    rw [List.map_cons, List.prod_cons]
    exact this

/-- C73: one item from each of several lists with no item in common, on either backend: the product of
the `unique` forests holds exactly the sets made of one item of each list, and its length is the product
of the numbers of different items. -/
theorem menu_exact (xs : List T) (rest : List (List T)) (hd : (xs :: rest).Pairwise List.Disjoint) :
    (∀ f, Eval (zdd2 T) (menu xs rest) f → (∀ l, (zdd2 T).trees f l → family l = choices (xs :: rest)) ∧
      ∀ n, (zdd2 T).len f n → n = ((xs :: rest).map (fun l => l.toFinset.card)).prod) ∧
    (∀ f, Eval (matrix T) (menu xs rest) f → (∀ l, (matrix T).trees f l → family l = choices (xs :: rest)) ∧
      ∀ n, (matrix T).len f n → n = ((xs :: rest).map (fun l => l.toFinset.card)).prod) := by
  have hs := menu_safe xs rest hd
  have hne : ∅ ∉ (menu xs rest).meaning := by rw [menu_meaning]; exact choices_nonempty
  have key : ∀ f, Eval (zdd2 T) (menu xs rest) f → (∀ l, (zdd2 T).trees f l → family l = choices (xs :: rest)) ∧
      ∀ n, (zdd2 T).len f n → n = ((xs :: rest).map (fun l => l.toFinset.card)).prod := by
    intro f hf
    have e := Zdd2.safe_family hs (eval_zdd2.mp hf)
    have en : nonempty (menu xs rest).meaning = choices (xs :: rest) := by
      rw [menu_meaning]
      ext s
      simp only [nonempty, Set.mem_ofPred_eq, and_iff_left_iff_imp]
      intro hs
      rw [Finset.nonempty_iff_ne_empty]
      rintro rfl; exact choices_nonempty hs
    rw [en] at e
    refine ⟨?_, ?_⟩
    · rintro l rfl; exact e
    · rintro n rfl
      rw [Zdd2.len_exact ⟨_, eval_zdd2.mp hf⟩]
      exact (congrArg Set.ncard e).trans (ncard_choices xs rest hd)
  refine ⟨key, fun g hg => ?_⟩
  obtain ⟨⟨f, hf⟩, _⟩ := client_total (menu xs rest)
  refine ⟨?_, fun n hn => ?_⟩
  · rintro l ⟨h, rfl⟩
    rw [← menu_meaning]
    exact Matrix.run_family (eval_matrix.mp hg) h
  · rw [← (clients_agree hs hne hf hg).2.1 _ n rfl hn]
    exact (key f hf).2 _ rfl

/-- A concrete menu: three lists, twelve choices on either backend. -/
example : ∃ f, Eval (zdd2 ℕ) (menu [1, 2, 3] [[4, 5], [7, 6]]) f ∧ (zdd2 ℕ).len f 12 := by
  obtain ⟨⟨f, hf⟩, _⟩ := client_total (menu [1, 2, 3] [[4, 5], [7, 6]])
  refine ⟨f, hf, ?_⟩
  have := ((menu_exact [1, 2, 3] [[4, 5], [7, 6]] (by simp [List.Disjoint])).1 f hf).2 _ rfl
  exact Eq.symm (this.trans (by decide))

/-! ## The `Tree` trait -/

/-- `zdd2::Tree::product`: weave/src/zdd2/tree/product.rs:8-40, forwarded by weave/src/zdd2/mod.rs:73-107. -/
def zdd2TreeProduct (h1 h2 : HashOrder T) (t1 t2 : Tree.Tree T) : Zdd2.Forest T :=
  Tree.Tree.productWith Zdd2.Forest.empty Zdd2.Forest.unit Zdd2.Forest.many h1 h2 t1 t2

/-- C09, zdd2: the product of two trees is the forest of all pairs; it is the same forest for every
order in which the hash sets are visited. -/
theorem tree_product_zdd2 (h1 h2 : HashOrder T) (k : HashOrder T) (a b : Tree.Tree T) :
    family (zdd2TreeProduct h1 h2 a b).trees = {s | ∃ x ∈ a.items k, ∃ y ∈ b.items k, s = {x, y}} ∧
    ∀ h3 h4, zdd2TreeProduct h3 h4 a b = zdd2TreeProduct h1 h2 a b := by
  have key : ∀ h1 h2 : HashOrder T, family (zdd2TreeProduct h1 h2 a b).trees =
      {s | ∃ x ∈ a.items k, ∃ y ∈ b.items k, s = {x, y}} ∧ Zdd2.Reach (zdd2TreeProduct h1 h2 a b) := by
    intro h1 h2
    have drop : ∀ m : List (List T), [] ∉ m → family (Zdd2.Forest.many m).trees = family m := by
      intro m hm
      rw [Zdd2.many_family]
      ext s
      simp only [Set.mem_ofPred_eq, and_iff_left_iff_imp]
      rintro ⟨l, hl, rfl⟩ e
      rw [List.toFinset_eq_empty_iff] at e
      exact hm (e ▸ hl)
    cases a with
    | Empty =>
      refine ⟨?_, ?_⟩
      · cases b <;> (simp only [zdd2TreeProduct, Tree.Tree.productWith, Zdd2.empty_family]; ext s; simp [Tree.Tree.items])
      · cases b <;> exact Zdd2.reach_empty
    | One x =>
      cases b with
      | Empty =>
        refine ⟨?_, Zdd2.reach_empty⟩
        simp only [zdd2TreeProduct, Tree.Tree.productWith, Zdd2.empty_family]; ext s; simp [Tree.Tree.items]
      | One y =>
        refine ⟨?_, ⟨.unit [x, y], rfl⟩⟩
        simp only [zdd2TreeProduct, Tree.Tree.productWith, Zdd2.unit_family]; ext s; simp [Tree.Tree.items]
      | Many s =>
        refine ⟨?_, Zdd2.reach_many _⟩
        simp only [zdd2TreeProduct, Tree.Tree.productWith]
        rw [drop _ (by simp)]; ext t
        simp [family, Tree.Tree.items, eq_comm]
    | Many s =>
      cases b with
      | Empty =>
        refine ⟨?_, Zdd2.reach_empty⟩
        simp only [zdd2TreeProduct, Tree.Tree.productWith, Zdd2.empty_family]; ext s; simp [Tree.Tree.items]
      | One y =>
        refine ⟨?_, Zdd2.reach_many _⟩
        simp only [zdd2TreeProduct, Tree.Tree.productWith]
        rw [drop _ (by simp)]; ext t
        simp [family, Tree.Tree.items, eq_comm, Finset.pair_comm]
      | Many s2 =>
        refine ⟨?_, Zdd2.reach_many _⟩
        simp only [zdd2TreeProduct, Tree.Tree.productWith]
        rw [drop _ (by simp)]; ext t
        simp only [family, List.mem_flatMap, List.mem_map, HashOrder.mem_iter, Set.mem_ofPred_eq, Tree.Tree.items]
        constructor
        · rintro ⟨_, ⟨x, hx, y, hy, rfl⟩, rfl⟩; exact ⟨x, hx, y, hy, by simp⟩
        · rintro ⟨x, hx, y, hy, rfl⟩; exact ⟨_, ⟨x, hx, y, hy, rfl⟩, by simp⟩
  refine ⟨(key h1 h2).1, fun h3 h4 => ?_⟩
  exact Zdd2.eq_of_family (key h1 h2).2 (key h3 h4).2.canon (by rw [(key h1 h2).1, (key h3 h4).1])

end Verif.Trait
