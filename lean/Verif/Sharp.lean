import Verif.Matrix.Props
import Verif.Bdd.Props
import Verif.Zdd1.Exact
import Verif.Zdd2.Split
import Verif.Zdd2.Rerank

/-!
# Exactly when the properties that are false of the code in general do hold

C08 (matrix forests), C37 (`^` on bdd nodes), C59 and C60 (v1 trees), C75 (zdd2 forests).
-/

set_option linter.unusedSimpArgs false
set_option linter.unusedSectionVars false
set_option linter.unusedVariables false

namespace Verif.Matrix
open Verif Verif.Spec

universe u
variable {T : Type u} [LinearOrder T]

/-- The forest is the `Unit` variant.  Not code: used to state or prove properties. -/
def Forest.isUnit : Forest T → Bool
  | .Unit _ => true
  | _ => false

/-- C08 (exactly when it holds): two forests are equal iff they have the same members and both or neither
are the `Unit` variant; and only forests of one member can be. -/
theorem eq_iff_partial (h : HashOrder (List T)) {f g : Forest T} (hf : Reach f) (hg : Reach g) :
    (f = g ↔ family (f.trees h) = family (g.trees h) ∧ f.isUnit = g.isUnit) ∧
    (f.isUnit = true → f.len = 1) := by
  refine ⟨⟨?_, ?_⟩, ?_⟩
  · rintro rfl; exact ⟨rfl, rfl⟩
  · rintro ⟨e, hu⟩
    cases f with
    | Empty => exact (eq_extensional_partial h hf hg (by simp [Forest.len])).2 e
    | Unit s =>
      cases g with
      | Empty => exact ((eq_extensional_partial h hg hf (by simp [Forest.len])).2 e.symm).symm
      | Unit s' =>
        congr 1
        have e' := Set.ext_iff.1 e s.toFinset
        obtain ⟨l', h1, h2⟩ := (Forest.mem_family h _ _).1 (e'.1
          ((Forest.mem_family h (.Unit s) s.toFinset).2 ⟨s, rfl, rfl⟩))
        have h1' : l' = s' := h1
        subst h1'
        exact (toFinset_inj_of_lt (hg.wf.lt _ h1) (hf.wf.lt _ rfl) h2).symm
      | Many m => cases hu
    | Many m =>
      cases g with
      | Empty => exact ((eq_extensional_partial h hg hf (by simp [Forest.len])).2 e.symm).symm
      | Unit s' => cases hu
      | Many m' =>
        congr 1
        refine Finset.ext fun l => ?_
        have e' := Set.ext_iff.1 e
        constructor
        · intro hl
          obtain ⟨l', h1, h2⟩ := (Forest.mem_family h (.Many m') _).1 ((e' _).1
            ((Forest.mem_family h (.Many m) l.toFinset).2 ⟨l, hl, rfl⟩))
          rw [← toFinset_inj_of_lt (hg.wf.lt _ h1) (hf.wf.lt l hl) h2]; exact h1
        · intro hl
          obtain ⟨l', h1, h2⟩ := (Forest.mem_family h (.Many m) _).1 ((e' _).2
            ((Forest.mem_family h (.Many m') l.toFinset).2 ⟨l, hl, rfl⟩))
          rw [← toFinset_inj_of_lt (hf.wf.lt _ h1) (hg.wf.lt l hl) h2]; exact h1
  · intro hu
    cases f with
    | Unit s => rfl
    | Empty => cases hu
    | Many m => cases hu

/-- The hypotheses are met. -/
example (h : HashOrder (List ℕ)) := eq_iff_partial h (f := Forest.many [[1], [1]]) (g := Forest.unit [1])
  ⟨_, .many _⟩ ⟨_, .unit _⟩

end Verif.Matrix

namespace Verif.Bdd
open Verif Verif.Bdd.Spec Node

universe u
variable {I : Type u} [LinearOrder I]

/-- Changing the choice for the root item changes the verdict.  Not code: used to state or prove
properties. -/
def RootDecides : Node I → (I → Bool) → Prop
  | .Leaf _, _ => True
  | .Branch i l h, σ =>
    (Node.Branch i l h).eval (Function.update σ i (!σ i)) ≠ (Node.Branch i l h).eval σ

theorem not_right_iff {n : Node I} (o : n.Ordered) (σ : I → Bool) :
    (bitnot n).eval σ = (!n.eval σ) ↔ RootDecides n σ := by
  cases n with
  | Leaf b => simp [RootDecides, not_partial.1 b σ, eval]
  | Branch i l h =>
    rw [(not_partial.2.1 i l h o).1 σ, RootDecides]
    cases (Node.Branch i l h).eval (Function.update σ i (!σ i)) <;>
      cases (Node.Branch i l h).eval σ <;> simp

/-- C37 (exactly when it holds): for every choice of items, `!a` is right iff changing the choice for the
root item of `a` changes its verdict; and `a ^ b` is right iff that is so of `a` if `b` accepts, and of `b` if
`a` accepts. -/
theorem not_xor_iff_partial {a b : Node I} (oa : a.Ordered) (ob : b.Ordered) (σ : I → Bool) :
    ((bitnot a).eval σ = (!a.eval σ) ↔ RootDecides a σ) ∧
    ((bitxor a b).eval σ = xor (a.eval σ) (b.eval σ) ↔
      (b.eval σ = true → RootDecides a σ) ∧ (a.eval σ = true → RootDecides b σ)) := by
  refine ⟨not_right_iff oa σ, ?_⟩
  rw [bitxor, eval_bitor, eval_bitand, eval_bitand, ← not_right_iff oa, ← not_right_iff ob]
  cases a.eval σ <;> cases b.eval σ <;> cases (bitnot a).eval σ <;> cases (bitnot b).eval σ <;> simp

example := not_xor_iff_partial (a := Bdd.Node.positiveBranch 3) (b := Bdd.Node.negativeBranch 4)
  (by simp [Bdd.Node.positiveBranch, Bdd.Node.Ordered, Bdd.Node.Above])
  (by simp [Bdd.Node.negativeBranch, Bdd.Node.Ordered, Bdd.Node.Above]) (fun _ => true)

/-- The conjunction of items 1 and 2 decides at the root when 2 is chosen, and does not when it is not. -/
example : RootDecides andNode (fun _ => true) ∧ ¬ RootDecides andNode (fun _ => false) := by
  constructor <;> simp [RootDecides, andNode, eval, Function.update]

end Verif.Bdd

namespace Verif.Zdd1
open Verif Verif.Spec

universe u
variable {T : Type u} [LinearOrder T]

theorem chain_inj {l l' : List Nat}
    (h : l.foldr (fun id next => Node.requiredBranch id next) (.Leaf true) =
      l'.foldr (fun id next => Node.requiredBranch id next) (.Leaf true)) : l = l' := by
  induction l generalizing l' with
  | nil => cases l' with
    | nil => rfl
    | cons b l' => simp [Node.requiredBranch, Node.branch] at h
  | cons a l ih => cases l' with
    | nil => simp [Node.requiredBranch, Node.branch] at h
    | cons b l' =>
      simp only [List.foldr_cons, Node.requiredBranch, Node.branch, Node.Branch.injEq, true_and] at h
      rw [h.1, ih h.2]

/-- C59 (exactly when it holds, for two single combinations): the trees of two combinations are equal iff
the combinations are equal but for the order and for items the universe does not know; that is, iff each
known item is given equally often. -/
theorem tree_eq_iff_partial (items c d : List T) :
    (Universe.fromVec items).tree c = (Universe.fromVec items).tree d ↔
      (c.filter (· ∈ items)).Perm (d.filter (· ∈ items)) := by
  have hk : ∀ x, (lookup x (Universe.fromVec items).itemIndex).isSome = decide (x ∈ items) := by
    intro x
    rw [Bool.eq_iff_iff, decide_eq_true_iff, Option.isSome_iff_exists]
    constructor
    · rintro ⟨i, hi⟩; exact List.mem_of_getElem? (Universe.index_get hi)
    · exact fun hx => Universe.index_some.mpr hx
  have hback : ∀ c : List T, (c.filterMap (fun x => lookup x (Universe.fromVec items).itemIndex)).filterMap
      (fun i => items[i]?) = c.filter (· ∈ items) := by
    intro c
    rw [List.filterMap_filterMap]
    induction c with
    | nil => rfl
    | cons x c ih =>
      have := hk x
      cases e : lookup x (Universe.fromVec items).itemIndex with
      | none =>
        rw [e] at this
        rw [List.filterMap_cons_none (by rw [e]; rfl), ih, List.filter_cons_of_neg]
        simpa using this.symm
      | some i =>
        rw [e] at this
        rw [List.filterMap_cons_some (b := x) (by rw [e]; exact Universe.index_get e), ih, List.filter_cons_of_pos]
        simpa using this.symm
  have hfil : ∀ c : List T, c.filterMap (fun x => lookup x (Universe.fromVec items).itemIndex) =
      (c.filter (· ∈ items)).filterMap (fun x => lookup x (Universe.fromVec items).itemIndex) := by
    intro c
    rw [List.filterMap_filter]
    congr 1
    funext x
    have := hk x
    split
    · rfl
    · rename_i hx
      rw [← hk x] at hx
      simpa using hx
  constructor
  · intro h
    have h := congrArg Tree.root h
    simp only [Universe.tree, List.foldl_reverse] at h
    have := chain_inj h
    rw [← hback, ← hback]
    refine List.Perm.filterMap _ ?_
    exact (sorted_perm _).symm.trans (this ▸ sorted_perm _)
  · intro h
    rw [Universe.tree, Universe.tree, hfil c, hfil d, sorted_congr (h.filterMap _)]

example : (Universe.fromVec [1, 2, 3]).tree [2, 9, 1] = (Universe.fromVec [1, 2, 3]).tree [1, 2] ∧
    (Universe.fromVec [1, 2, 3]).tree [2, 2, 1] ≠ (Universe.fromVec [1, 2, 3]).tree [1, 2] :=
  ⟨(tree_eq_iff_partial _ _ _).mpr (by decide), fun h => absurd ((tree_eq_iff_partial _ _ _).mp h) (by decide)⟩

/-- C60 (exactly when it holds): `traverse` of any tree returns iff every id of its diagram is a position in
the item list of its universe. -/
theorem traverse_iff (t : Tree T) :
    t.traverse ≠ none ↔ t.root.Ids (fun i => i < t.univ.items.length) := by
  have key : ∀ n : Node, fromNode t.univ n ≠ none ↔ n.Ids (fun i => i < t.univ.items.length) := by
    intro n
    induction n with
    | Leaf b => simp [fromNode, Node.Ids]
    | Branch i l h ihl ihh =>
      have hi : t.univ.getItem i ≠ none ↔ i < t.univ.items.length := by
        rw [Universe.getItem, Ne, List.getElem?_eq_none_iff]; omega
      rw [fromNode, Node.Ids, ← ihl, ← ihh, ← hi]
      cases t.univ.getItem i <;> cases fromNode t.univ l <;> cases fromNode t.univ h <;> simp
  exact key t.root

/-- C60 (exactly when it holds): `traverse` of the union of trees made over two universes returns iff
every item of the second tree comes, in its universe's list, at a position that the first list has. -/
theorem union_traverse_iff_partial {us vs : List T} {a b : Tree T} (ha : Built List.Nodup us a)
    (hb : Built List.Nodup vs b) :
    (a.union b).traverse ≠ none ↔
      ∀ A ∈ family b.combinations, ∀ x ∈ A, ∀ i, LastAt vs x i → i < us.length := by
  have oc := (Node.union_ordered a.root b.root ha.ordered hb.ordered).1
  have hids : ∀ (n : Node) (P : Nat → Prop), n.Ordered → (n.Ids P ↔ ∀ s ∈ n.Den, ∀ i ∈ s, P i) := by
    intro n P o
    constructor
    · intro h s hs; exact h.mem hs
    · intro h
      induction n with
      | Leaf b => trivial
      | Branch i l k ihl ihk =>
        have o' := o
        simp only [Node.Ordered] at o'
        refine ⟨?_, ihl o'.2.2.2.1 fun s hs => h s (Or.inl hs), ihk o'.2.2.2.2 fun s hs j hj =>
          h _ (Or.inr ⟨s, hs, rfl⟩) j (Finset.mem_insert_of_mem hj)⟩
        obtain ⟨s, hs⟩ := Node.exists_mem o'.2.2.2.2 o'.2.2.1
        exact h _ (Or.inr ⟨s, hs, rfl⟩) i (Finset.mem_insert_self _ _)
  rw [traverse_iff, hids (a.union b).root _ oc]
  change (∀ s ∈ (a.root.union b.root).Den, ∀ i ∈ s, i < a.univ.items.length) ↔ _
  rw [show a.univ.items = us from by rw [ha.univ_eq]; rfl]
  constructor
  · intro h A hA x hx i hi
    rw [Tree.mem_combinations, hb.univ_eq] at hA
    obtain ⟨s, hs, rfl⟩ := hA
    have hl := Universe.index_last.mpr hi
    exact h s ((Node.mem_union _ _ _).mpr (Or.inr hs)) i
      ((Universe.mem_itemsOf_known (hb.ids.mem hs) ⟨x, hl⟩ hi.1).mp hx)
  · intro h s hs i hi
    rcases (Node.mem_union _ _ _).mp hs with hs | hs
    · obtain ⟨x, hx, _⟩ := Universe.known_get (ha.ids.mem hs i hi)
      exact (List.getElem?_eq_some_iff.mp hx).1
    · have hk := hb.ids.mem hs
      obtain ⟨x, hx, hl⟩ := Universe.known_get (hk i hi)
      refine h (b.univ.itemsOf s) ((Tree.mem_combinations _ _).mpr ⟨s, hs, rfl⟩) x ?_ i (Universe.index_last.mp hl)
      rw [hb.univ_eq]
      exact (Universe.mem_itemsOf_known hk (hk i hi) hx).mpr hi

/-- Both trees can have items: `{2}` over `[1,2]` is read back over `[7,8,9]` (as item 8). -/
example : (((Universe.fromVec [7, 8, 9]).tree [9]).union ((Universe.fromVec [1, 2]).tree [2])).traverse ≠ none := by
  rw [union_traverse_iff_partial (us := [7, 8, 9]) (vs := [1, 2]) (.tree (by decide)) (.tree (by decide))]
  intro A _ x _ i hi
  have := (List.getElem?_eq_some_iff.mp hi.1).1
  simp at this ⊢; omega

end Verif.Zdd1

namespace Verif.Zdd2
open Verif Verif.Spec Verif.Zdd2.Spec

universe u
variable {T : Type u} [LinearOrder T]

/-- C75 (exactly when it holds): the two sides of a split give the forest back iff rebuilding them from
their own rankings of the items to that of the forest loses nothing. -/
theorem reunite_iff_partial {f : Forest T} (hf : Reach f) (x : T) {ranks ranks1 ranks2 : List T}
    (r0 : Ranked (count (family f.trees)) (family f.trees) ranks)
    (r1 : Ranked (count (having (family f.trees) x)) (having (family f.trees) x) ranks1)
    (r2 : Ranked (count (without (family f.trees) x)) (without (family f.trees) x) ranks2) :
    (f.subset x).union (f.subsetNot x) = some f ↔
      rerank ranks ranks1 (having (family f.trees) x) ∪ rerank ranks ranks2 (without (family f.trees) x) =
        family f.trees := by
  have h1 := reach_subset hf x
  have h2 := reach_subsetNot hf x
  have e1 := subset_family hf x
  have e2 := subsetNot_family hf x
  obtain ⟨⟨r, e, hr⟩, _⟩ := binary_total h1 h2
  obtain ⟨hu, hd, hl, _⟩ := split_len hf x
  have hcount : (fun y => count (family (f.subset x).trees) y + count (family (f.subsetNot x).trees) y) =
      count (family f.trees) := by
    funext y
    have d' : Disjoint (having (family (f.subset x).trees) y) (having (family (f.subsetNot x).trees) y) :=
      Set.disjoint_left.mpr fun s hs hs' => Set.disjoint_left.mp hd hs.1 hs'.1
    have hfin : ∀ {g : Forest T}, Reach g → (having (family g.trees) y).Finite :=
      fun hg => (fam_finite hg).subset fun s hs => hs.1
    rw [count, count, count, ← hu]
    change (having _ y).ncard + (having _ y).ncard = (having _ y).ncard
    rw [← Set.ncard_union_eq d' (hfin h1) (hfin h2)]
    congr 1
    ext s; simp only [having, Set.mem_union, Set.mem_ofPred_eq]; tauto
  have hx := union_exact h1 h2 (oldF := ranks1) (oldG := ranks2) (new := ranks) (by rwa [e1]) (by rwa [e2])
    (by rw [hcount, hu]; exact r0) e
  rw [e1, e2] at hx
  rw [← hx, e, Option.some.injEq]
  constructor
  · rintro rfl; rfl
  · exact fun h => eq_of_family hf hr.canon h

/-- The rankings of `reunite_iff_partial` exist, for every forest made with the API. -/
example {f : Forest T} (hf : Reach f) (x : T) : ∃ ranks ranks1 ranks2,
    Ranked (count (family f.trees)) (family f.trees) ranks ∧
    Ranked (count (having (family f.trees) x)) (having (family f.trees) x) ranks1 ∧
    Ranked (count (without (family f.trees) x)) (without (family f.trees) x) ranks2 := by
  obtain ⟨l, hl, _⟩ := (ranking_unique hf hf).1
  obtain ⟨l1, h1, _⟩ := (ranking_unique (reach_subset hf x) hf).1
  obtain ⟨l2, h2, _⟩ := (ranking_unique (reach_subsetNot hf x) hf).1
  rw [subset_family hf] at h1
  rw [subsetNot_family hf] at h2
  exact ⟨l, l1, l2, hl, h1, h2⟩

end Verif.Zdd2
