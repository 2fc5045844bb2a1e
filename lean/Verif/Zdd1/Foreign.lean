import Verif.Zdd1.Ops
import Verif.Zdd1.Exact

/-!
# v1 trees over different universes (C101)

Nothing stops a program from combining trees made by different universes.  The items of the second tree
are then read by their position in the list of the first universe.
-/

set_option linter.unusedSectionVars false

namespace Verif.Zdd1
open Verif Verif.Weave Verif.Spec

universe u
variable {T : Type u} [LinearOrder T]

/-- `C` is `B` with every item replaced by the item that has its position in the other list, and dropped
if there is none.  Not code: specification. -/
def Reread (us vs : List T) (B C : Finset T) : Prop :=
  ∀ y, y ∈ C ↔ ∃ x ∈ B, ∃ i, LastAt vs x i ∧ us[i]? = some y

theorem Reread.unique {us vs : List T} {B C D : Finset T} (h : Reread us vs B C) (k : Reread us vs B D) : C = D := by
  ext y; rw [h, k]

/-- Reading a set of known ids of one universe in another. -/
theorem reread_itemsOf {us vs : List T} {s : Finset Nat} (hs : ∀ i ∈ s, (Universe.fromVec vs).Known i) :
    Reread us vs ((Universe.fromVec vs).itemsOf s) ((Universe.fromVec us).itemsOf s) := by
  intro y
  rw [Universe.mem_itemsOf]
  constructor
  · rintro ⟨i, hi, e⟩
    obtain ⟨x, hx, hl⟩ := Universe.known_get (hs i hi)
    exact ⟨x, (Universe.mem_itemsOf_known hs (hs i hi) hx).2 hi, i, Universe.index_last.1 hl, e⟩
  · rintro ⟨x, hx, i, hi, e⟩
    have hl := Universe.index_last.2 hi
    exact ⟨i, (Universe.mem_itemsOf_known hs ⟨x, hl⟩ hi.1).1 hx, e⟩

theorem empty_union (uni : Universe T) (b : Tree T) : uni.emptyTree.union b = ⟨b.root, uni⟩ := by
  have : (Node.Leaf false).union b.root = b.root := by
    rw [Node.union.eq_def]
    cases hb : b.root with
    | Leaf v => cases v <;> simp
    | Branch i l h => simp
  simp only [Tree.union, Universe.emptyTree, this]

/-- C101: an operand over another universe counts as what its own universe's empty tree united with it
gives: re-reading it first changes nothing. -/
theorem foreign_reread_first (a b : Tree T) :
    a.union (a.univ.emptyTree.union b) = a.union b ∧
    a.intersect (a.univ.emptyTree.union b) = a.intersect b ∧
    a.product (a.univ.emptyTree.union b) = a.product b := by
  rw [empty_union]; exact ⟨rfl, rfl, rfl⟩

/-- C101: a union over two universes lists the combinations of the first tree, and those of the second
with each item replaced by the one at the same position of the first universe's list (dropped if that
list is too short). -/
theorem union_foreign {us vs : List T} {a b : Tree T} (ha : a.univ = Universe.fromVec us)
    (hb : Built (fun _ => True) vs b) : family (a.union b).combinations =
      family a.combinations ∪ {C | ∃ B ∈ family b.combinations, Reread us vs B C} := by
  ext C
  simp only [Set.mem_union, Set.mem_ofPred_eq]
  rw [Tree.mem_combinations, Tree.mem_combinations]
  change (∃ s ∈ (a.root.union b.root).Den, C = a.univ.itemsOf s) ↔ _
  constructor
  · rintro ⟨s, hs, rfl⟩
    rcases (Node.mem_union _ _ _).1 hs with h | h
    · exact Or.inl ⟨s, h, rfl⟩
    · refine Or.inr ⟨b.univ.itemsOf s, (Tree.mem_combinations _ _).2 ⟨s, h, rfl⟩, ?_⟩
      rw [ha, hb.univ_eq]
      exact reread_itemsOf (hb.ids.mem h)
  · rintro (⟨s, hs, rfl⟩ | ⟨B, hB, hr⟩)
    · exact ⟨s, (Node.mem_union _ _ _).2 (Or.inl hs), rfl⟩
    · obtain ⟨s, hs, rfl⟩ := (Tree.mem_combinations _ _).1 hB
      refine ⟨s, (Node.mem_union _ _ _).2 (Or.inr hs), ?_⟩
      rw [hb.univ_eq] at hr
      rw [ha]
      exact hr.unique (reread_itemsOf (hb.ids.mem hs))

theorem family_reread {us vs : List T} {b : Tree T} (hb : Built (fun _ => True) vs b) :
    family ((Universe.fromVec us).emptyTree.union b).combinations =
      {C | ∃ B ∈ family b.combinations, Reread us vs B C} := by
  rw [union_foreign (us := us) rfl hb, (empty_unit_exact us).1, Set.empty_union]

/-- C101: what drops out of sight is not lost: reading the tree back in its own universe gives the tree
itself, even if the other universe had no item at all. -/
theorem foreign_round_trip {us vs : List T} {b : Tree T} (hb : b.univ = Universe.fromVec vs) :
    (Universe.fromVec vs).emptyTree.union ((Universe.fromVec us).emptyTree.union b) = b := by
  rw [empty_union, empty_union]
  exact Tree.ext rfl hb.symm

example := foreign_round_trip (us := [7, 8]) (vs := [1, 2, 3]) (b := (Universe.fromVec [1, 2, 3]).tree [1, 3]) rfl

/-- A tree all of whose ids the universe knows is one that can be made over it. -/
theorem built_of_known {us : List T} {n : Node} (o : n.Ordered)
    (h : n.Ids (Universe.fromVec us).Known) : Built List.Nodup us ⟨n, Universe.fromVec us⟩ := by
  set t : Tree T := ⟨n, Universe.fromVec us⟩ with ht
  have hb : Built List.Nodup us ((Universe.fromVec us).hyperTree t.combinations) :=
    .hyper (fun c hc => nodup_of_lt (t.combinations_mem_lt c hc))
  have hd : ((Universe.fromVec us).hyperTree t.combinations).root.Den = n.Den := by
    have hf : family ((Universe.fromVec us).hyperTree t.combinations).combinations = family t.combinations := by
      rw [hyper_tree_exact]
      ext A
      simp only [Set.mem_ofPred_eq]
      have hc : ∀ c ∈ t.combinations, (c.filter (fun x => x ∈ us)) = c := by
        intro c hc
        rw [List.filter_eq_self]
        intro x hx
        have : x ∈ us := combination_known (t := t) (items := us) rfl ⟨c, hc, rfl⟩ (List.mem_toFinset.2 hx)
        simpa using this
      constructor
      · rintro ⟨c, hcm, rfl⟩
        exact ⟨c, hcm, by rw [hc c hcm]⟩
      · rintro ⟨c, hcm, rfl⟩
        exact ⟨c, hcm, by rw [hc c hcm]⟩
    ext s
    constructor
    · intro hs
      have : (Universe.fromVec us).itemsOf s ∈ family t.combinations := by
        rw [← hf, Tree.mem_combinations]; exact ⟨s, hs, by rw [hb.univ_eq]⟩
      obtain ⟨s', hs', e⟩ := (Tree.mem_combinations _ _).1 this
      rwa [Universe.itemsOf_inj (hb.ids.mem hs) (h.mem hs') e]
    · intro hs
      have : (Universe.fromVec us).itemsOf s ∈
          family ((Universe.fromVec us).hyperTree t.combinations).combinations := by
        rw [hf, Tree.mem_combinations]; exact ⟨s, hs, rfl⟩
      obtain ⟨s', hs', e⟩ := (Tree.mem_combinations _ _).1 this
      rw [hb.univ_eq] at e
      rwa [Universe.itemsOf_inj (h.mem hs) (hb.ids.mem hs') e]
  have hr := Node.den_inj hb.ordered o hd
  have : (Universe.fromVec us).hyperTree t.combinations = t := Tree.ext hr hb.univ_eq
  rw [← this]
  exact hb

theorem ids_iff {n : Node} (o : n.Ordered) (P : Nat → Prop) : n.Ids P ↔ ∀ s ∈ n.Den, ∀ i ∈ s, P i := by
  constructor
  · intro h s hs; exact h.mem hs
  · intro h
    induction n with
    | Leaf b => trivial
    | Branch i l k ihl ihk =>
      have o' := o
      simp only [Node.Ordered] at o'
      refine ⟨?_, ihl o'.2.2.2.1 fun s hs => h s (Or.inl hs), ihk o'.2.2.2.2 fun s hs j hj =>
        h _ (Or.inr ⟨s, hs, rfl⟩) j (Finset.mem_insert_of_mem hj)⟩
      obtain ⟨s, hs⟩ := Node.exists_mem o'.2.2.2.2 o'.2.2.1
      exact h _ (Or.inr ⟨s, hs, rfl⟩) i (Finset.mem_insert_self _ _)

/-- C101: if every item of the second tree stands at a position that is, in the first universe's list, the
(last) position of an item, the re-read tree is one that could have been made over the first universe, so
everything said about trees over one universe (C30-C34, C59, C79) applies to it. -/
theorem foreign_native {us vs : List T} {b : Tree T} (hb : Built List.Nodup vs b)
    (hpos : ∀ B ∈ family b.combinations, ∀ x ∈ B, ∀ i, LastAt vs x i → ∃ y, LastAt us y i) :
    Built List.Nodup us ((Universe.fromVec us).emptyTree.union b) := by
  rw [empty_union]
  refine built_of_known hb.ordered ((ids_iff hb.ordered _).2 ?_)
  intro s hs i hi
  have hk := hb.ids.mem hs
  obtain ⟨x, hx, hl⟩ := Universe.known_get (hk i hi)
  obtain ⟨y, hy⟩ := hpos (b.univ.itemsOf s) ((Tree.mem_combinations _ _).2 ⟨s, hs, rfl⟩) x (by
    rw [hb.univ_eq]
    exact (Universe.mem_itemsOf_known hk (hk i hi) hx).2 hi) i (Universe.index_last.1 hl)
  exact ⟨y, Universe.index_last.2 hy⟩

/-- A universe with as many items gives every position a meaning. -/
example := foreign_native (us := [7, 8, 9]) (vs := [1, 2]) (b := (Universe.fromVec [1, 2]).tree [2]) (.tree (by decide))
  (by
    rintro B - x - i ⟨h, -⟩
    have : i < 2 := by simpa using (List.getElem?_eq_some_iff.mp h).1
    rcases i with _ | _ | i <;> [skip; skip; omega]
    · exact ⟨7, by simp, fun j hj => by clear h; rcases j with _ | _ | _ | j <;> simp at hj ⊢⟩
    · exact ⟨8, by simp, fun j hj => by clear h; rcases j with _ | _ | _ | j <;> simp at hj ⊢⟩)

/-- C101: if the two lists agree on where the items of the second tree stand, the universes may differ
otherwise: the second tree is read as it was meant, and the union is right. -/
theorem foreign_agreeing {us vs : List T} {a b : Tree T} (ha : a.univ = Universe.fromVec us)
    (hb : Built List.Nodup vs b)
    (hpos : ∀ B ∈ family b.combinations, ∀ x ∈ B, ∀ i, LastAt vs x i → LastAt us x i) :
    Built List.Nodup us ((Universe.fromVec us).emptyTree.union b) ∧
    family ((Universe.fromVec us).emptyTree.union b).combinations = family b.combinations ∧
    family (a.union b).combinations = family a.combinations ∪ family b.combinations := by
  have hb' : Built (fun _ => True) vs b := hb.mono (fun _ _ => trivial)
  have hR : {C | ∃ B ∈ family b.combinations, Reread us vs B C} = family b.combinations := by
    have hself : ∀ B ∈ family b.combinations, Reread us vs B B := by
      intro B hB y
      constructor
      · intro hy
        have hyv := combination_known hb.univ_eq hB hy
        obtain ⟨i, hi⟩ := Universe.index_some.2 hyv
        have hi' := Universe.index_last.1 hi
        exact ⟨y, hy, i, hi', (hpos B hB y hy i hi').1⟩
      · rintro ⟨x, hx, i, hi, e⟩
        rw [(hpos B hB x hx i hi).1] at e
        cases e
        exact hx
    ext C
    simp only [Set.mem_ofPred_eq]
    constructor
    · rintro ⟨B, hB, hr⟩
      rwa [hr.unique (hself B hB)]
    · intro hC
      exact ⟨C, hC, hself C hC⟩
  exact ⟨foreign_native hb (fun B hB x hx i hi => ⟨x, hpos B hB x hx i hi⟩), by rw [family_reread hb', hR],
    by rw [union_foreign ha hb', hR]⟩

example := foreign_agreeing (us := [1, 2, 5]) (vs := [1, 2]) (a := (Universe.fromVec [1, 2, 5]).tree [5])
  (b := (Universe.fromVec [1, 2]).tree [2]) rfl (.tree (by decide))
  (by
    rintro B - x - i ⟨h, -⟩
    have : i < 2 := by simpa using (List.getElem?_eq_some_iff.mp h).1
    rcases i with _ | _ | i <;> [skip; skip; omega] <;> simp at h <;> subst h
    · exact ⟨by simp, fun j hj => by rcases j with _ | _ | _ | j <;> simp at hj ⊢⟩
    · exact ⟨by simp, fun j hj => by rcases j with _ | _ | _ | j <;> simp at hj ⊢⟩)

/-- C101: in particular a universe may grow at its end (by new items) and old trees stay good. -/
theorem universe_grows {us more : List T} {a b : Tree T} (hnew : ∀ x ∈ us, x ∉ more)
    (ha : a.univ = Universe.fromVec (us ++ more)) (hb : Built List.Nodup us b) :
    family (a.union b).combinations = family a.combinations ∪ family b.combinations := by
  refine (foreign_agreeing ha hb ?_).2.2
  intro B hB x hx i hi
  have hxu := combination_known hb.univ_eq hB hx
  have hlt : i < us.length := (List.getElem?_eq_some_iff.1 hi.1).1
  refine ⟨by rw [List.getElem?_append_left hlt]; exact hi.1, ?_⟩
  intro j hj
  by_cases h : j < us.length
  · rw [List.getElem?_append_left h]; exact hi.2 j hj
  · rw [List.getElem?_append_right (by omega)]
    intro e
    exact hnew x hxu (List.mem_of_getElem? e)

example := universe_grows (us := [1, 2]) (more := [5, 6]) (a := (Universe.fromVec [1, 2, 5, 6]).tree [5, 1])
  (b := (Universe.fromVec [1, 2]).tree [2]) (by decide) rfl (.tree (by decide))

/-- Concrete case: `{2}` over `[1,2]` read over `[7,8,9]` is `{8}`; over `[7]` it is empty. -/
example : family (((Universe.fromVec [7, 8, 9]).tree [9]).union ((Universe.fromVec [1, 2]).tree [2])).combinations =
    {{9}, {8}} ∧
    family (((Universe.fromVec [7]).tree [7]).union ((Universe.fromVec [1, 2]).tree [2])).combinations =
    {{7}, ∅} := by
  have h2 : LastAt [1, 2] 2 1 := ⟨rfl, fun j hj => by
    have : [1, 2][j]? = none := List.getElem?_eq_none (by simp; omega)
    rw [this]; simp⟩
  have hpos : ∀ i, LastAt [1, 2] 2 i → i = 1 := by
    intro i hi
    have := Universe.index_last.2 hi
    rw [Universe.index_last.2 h2] at this
    simpa using this.symm
  have r1 : Reread [7, 8, 9] [1, 2] {2} {8} := by
    intro y
    constructor
    · intro hy
      rw [Finset.mem_singleton] at hy
      subst hy
      exact ⟨2, by simp, 1, h2, rfl⟩
    · rintro ⟨x, hx, i, hi, e⟩
      rw [Finset.mem_singleton] at hx
      subst hx
      rw [hpos i hi] at e
      simp at e ⊢
      exact e.symm
  have r2 : Reread [7] [1, 2] {2} ∅ := by
    intro y
    constructor
    · intro hy; simp at hy
    · rintro ⟨x, hx, i, hi, e⟩
      rw [Finset.mem_singleton] at hx
      subst hx
      rw [hpos i hi] at e
      simp at e
  have ht : ∀ l : List ℕ, ∀ x, x ∈ l → family ((Universe.fromVec l).tree [x]).combinations = {{x}} := by
    intro l x hx
    rw [tree_exact]
    simp [hx]
  constructor
  · rw [union_foreign (us := [7, 8, 9]) (vs := [1, 2]) rfl (.tree trivial), ht _ _ (by simp), ht _ _ (by simp)]
    ext C
    simp only [Set.mem_union, Set.mem_singleton_iff, Set.mem_ofPred_eq, exists_eq_left, Set.mem_insert_iff]
    exact or_congr Iff.rfl ⟨fun h => h.unique r1, fun h => h ▸ r1⟩
  · rw [union_foreign (us := [7]) (vs := [1, 2]) rfl (.tree trivial), ht _ _ (by simp), ht _ _ (by simp)]
    ext C
    simp only [Set.mem_union, Set.mem_singleton_iff, Set.mem_ofPred_eq, exists_eq_left, Set.mem_insert_iff]
    exact or_congr Iff.rfl ⟨fun h => h.unique r2, fun h => h ▸ r2⟩

end Verif.Zdd1
