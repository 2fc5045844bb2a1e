import Verif.Zdd1.Props

/-!
# C31, C32, C59, C60: v1 intersect, product, equality and traversal
-/

set_option linter.unusedSimpArgs false
set_option linter.unusedSectionVars false
set_option linter.unusedVariables false

namespace Verif.Zdd1
open Verif Verif.Weave Verif.Spec

universe u
variable {T : Type u} [LinearOrder T]

/-! ### invariants of built trees -/

theorem foldUnion_ids {P : Nat → Prop} (ts : List (Tree T)) (t0 : Tree T) (h0 : t0.root.Ids P)
    (h : ∀ t ∈ ts, t.root.Ids P) : (ts.foldl (fun root next => root.union next) t0).root.Ids P := by
  induction ts generalizing t0 with
  | nil => exact h0
  | cons a ts ih => exact ih _ (h0.union (h a (by simp))) (fun t ht => h t (by simp [ht]))

theorem foldUnion_ordered (ts : List (Tree T)) (t0 : Tree T) (h0 : t0.root.Ordered)
    (h : ∀ t ∈ ts, t.root.Ordered) : (ts.foldl (fun root next => root.union next) t0).root.Ordered := by
  induction ts generalizing t0 with
  | nil => exact h0
  | cons a ts ih =>
    exact ih _ (Node.union_ordered _ _ h0 (h a (by simp))).1 (fun t ht => h t (by simp [ht]))

theorem Built.ids {P : List T → Prop} {items : List T} {t : Tree T} (h : Built P items t) :
    t.root.Ids (Universe.fromVec items).Known := by
  induction h with
  | empty | unit => trivial
  | tree _ => exact tree_ids _ _
  | unique xs =>
    refine foldUnion_ids _ _ trivial ?_
    simp only [List.mem_map]; rintro _ ⟨x, _, rfl⟩; exact tree_ids _ _
  | hyper _ =>
    refine foldUnion_ids _ _ trivial ?_
    simp only [List.mem_map]; rintro _ ⟨x, _, rfl⟩; exact tree_ids _ _
  | union _ _ ih1 ih2 => exact ih1.union ih2
  | intersect _ _ ih1 ih2 => exact ih1.intersect ih2
  | product _ _ ih1 ih2 => exact ih1.product ih2
  | restrict inc exc hb ih =>
    rw [Tree.restrict, hb.univ_eq]
    refine foldUnion_ids _ _ trivial ?_
    simp only [List.mem_map]; rintro _ ⟨x, _, rfl⟩; exact tree_ids _ _

theorem Built.ordered {items : List T} {t : Tree T} (h : Built List.Nodup items t) : t.root.Ordered := by
  induction h with
  | empty | unit => trivial
  | tree hc => exact tree_ordered _ _ hc
  | unique xs =>
    refine foldUnion_ordered _ _ trivial ?_
    simp only [List.mem_map]; rintro _ ⟨x, _, rfl⟩; exact tree_ordered _ _ (by simp)
  | hyper hc =>
    refine foldUnion_ordered _ _ trivial ?_
    simp only [List.mem_map]; rintro _ ⟨x, hx, rfl⟩; exact tree_ordered _ _ (hc x hx)
  | union _ _ ih1 ih2 => exact (Node.union_ordered _ _ ih1 ih2).1
  | intersect _ _ ih1 ih2 => exact (Node.intersect_ordered _ _ ih1 ih2).1
  | product _ _ ih1 ih2 => exact (Node.product_ordered _ _ ih1 ih2).1
  | restrict inc exc hb ih =>
    rw [Tree.restrict, hb.univ_eq]
    refine foldUnion_ordered _ _ trivial ?_
    simp only [List.mem_map]
    rintro _ ⟨c, hc, rfl⟩
    refine tree_ordered _ _ (nodup_of_lt ?_)
    rw [combinations_with_exact, List.mem_filter] at hc
    exact Tree.combinations_mem_lt _ c hc.1

/-- Built trees whose combinations were given without repeated items are among the built trees. -/
theorem Built.mono {P Q : List T → Prop} (hPQ : ∀ c, P c → Q c) {items : List T} {t : Tree T}
    (h : Built P items t) : Built Q items t := by
  induction h with
  | empty => exact .empty
  | unit => exact .unit
  | tree hc => exact .tree (hPQ _ hc)
  | unique xs => exact .unique xs
  | hyper hc => exact .hyper (fun c h => hPQ _ (hc c h))
  | union _ _ ih1 ih2 => exact ih1.union ih2
  | intersect _ _ ih1 ih2 => exact ih1.intersect ih2
  | product _ _ ih1 ih2 => exact ih1.product ih2
  | restrict inc exc _ ih => exact ih.restrict inc exc

/-! ## C59 equality -/

/-- C59 (proved part): for trees over one universe whose combinations were given without repeated items,
`==` holds exactly when the combinations are the same. -/
theorem eq_iff_combinations_partial {items : List T} {a b : Tree T} (ha : Built List.Nodup items a)
    (hb : Built List.Nodup items b) : a = b ↔ family a.combinations = family b.combinations := by
  constructor
  · rintro rfl; rfl
  intro h
  have hd : a.root.Den = b.root.Den := by
    have key : ∀ {a b : Tree T}, Built List.Nodup items a → Built List.Nodup items b →
        family a.combinations = family b.combinations → ∀ s, s ∈ a.root.Den → s ∈ b.root.Den := by
      intro a b ha hb h s hs
      have : a.univ.itemsOf s ∈ family b.combinations := by
        rw [← h, Tree.mem_combinations]; exact ⟨s, hs, rfl⟩
      rw [Tree.mem_combinations, hb.univ_eq, ha.univ_eq] at this
      obtain ⟨s', hs', e⟩ := this
      rwa [Universe.itemsOf_inj (ha.ids.mem hs) (hb.ids.mem hs') e]
    ext s; exact ⟨key ha hb h s, key hb ha h.symm s⟩
  have hr := Node.den_inj ha.ordered hb.ordered hd
  exact Tree.ext hr (ha.univ_eq.trans hb.univ_eq.symm)

example := eq_iff_combinations_partial (items := [1, 2, 3, 4]) (.hyper (cs := [[1, 2], [1, 3], [4]]) (by decide))
  (.unique [1, 2, 4])

/-- C59, the full statement, is false of the code: a combination given with a repeated item makes a tree
that shows the same combinations as, but is not equal to, the tree without the repetition. -/
theorem eq_not_extensional : ∃ (items c d : List ℕ),
    ((Universe.fromVec items).tree c).combinations = ((Universe.fromVec items).tree d).combinations ∧
    (Universe.fromVec items).tree c ≠ (Universe.fromVec items).tree d := by
  refine ⟨[5], [5, 5], [5], ?_, ?_⟩
  · refine listing_ext (Tree.combinations_lt _) (Tree.combinations_lt _) (Tree.combinations_mem_lt _)
      (Tree.combinations_mem_lt _) ?_
    rw [tree_exact, tree_exact]
    congr 1
  · intro h
    have := congrArg Tree.root h
    exact absurd this (by decide)

/-- C59: `union`, `intersect` and `product` do not depend on the order of the operands: the resulting
trees are equal (over one universe). -/
theorem ops_comm {a b : Tree T} (h : a.univ = b.univ) :
    a.union b = b.union a ∧ a.intersect b = b.intersect a ∧ a.product b = b.product a :=
  ⟨Tree.ext (Node.union_comm _ _) h, Tree.ext (Node.intersect_comm _ _) h, Tree.ext (Node.product_comm _ _) h⟩

/-- C59: combining a tree with itself gives the tree back. -/
theorem ops_idem (a : Tree T) : a.union a = a ∧ a.intersect a = a ∧ a.product a = a := by
  refine ⟨?_, ?_, ?_⟩
  · rw [Tree.union, Node.union.eq_def, if_pos rfl]
  · rw [Tree.intersect, Node.intersect.eq_def, if_pos rfl]
  · rw [Tree.product, Node.product.eq_def, if_pos rfl]

/-- C59: for trees built from lists without repetitions, union is associative up to `==`. -/
theorem union_assoc {items : List T} {a b c : Tree T} (ha : Built List.Nodup items a)
    (hb : Built List.Nodup items b) (hc : Built List.Nodup items c) :
    (a.union b).union c = a.union (b.union c) := by
  rw [eq_iff_combinations_partial ((ha.union hb).union hc) (ha.union (hb.union hc))]
  have e1 := ha.univ_eq.trans hb.univ_eq.symm
  have e2 := hb.univ_eq.trans hc.univ_eq.symm
  rw [union_exact (a := a.union b) (e1.trans e2), union_exact e1,
    union_exact (b := b.union c) e1, union_exact e2, Set.union_assoc]

example := union_assoc (items := [1, 2, 3, 4]) (.hyper (cs := [[1, 2], [1, 3], [4]]) (by decide))
  (.unique [1, 2, 4]) .unit

/-! ## C31 intersect -/

/-- C31, the full statement, is false of the code: two trees without a common combination have an
intersection with a combination that is in neither. -/
theorem intersect_not_exact : ∃ (items : List ℕ) (a b : Tree ℕ), Built List.Nodup items a ∧
    Built List.Nodup items b ∧ family a.combinations ∩ family b.combinations = ∅ ∧
    family (a.intersect b).combinations = {{1, 2}} := by
  refine ⟨[1, 2], (Universe.fromVec [1, 2]).tree [1], (Universe.fromVec [1, 2]).tree [2],
    .tree (by decide), .tree (by decide), ?_, ?_⟩
  · rw [tree_exact, tree_exact]
    have : (([1].filter (fun x => decide (x ∈ [1, 2]))).toFinset : Finset ℕ) ≠
      ([2].filter (fun x => decide (x ∈ [1, 2]))).toFinset := by decide
    rw [Set.singleton_inter_eq_empty]
    exact this
  · have : ((Universe.fromVec [1, 2]).tree [1]).intersect ((Universe.fromVec [1, 2]).tree [2]) =
        (Universe.fromVec [1, 2]).tree [1, 2] := by
      have r1 : ((Universe.fromVec [1, 2]).tree [1]).root = .Branch 0 (.Leaf false) (.Leaf true) := by decide
      have r2 : ((Universe.fromVec [1, 2]).tree [2]).root = .Branch 1 (.Leaf false) (.Leaf true) := by decide
      have r3 : ((Universe.fromVec [1, 2]).tree [1, 2]).root =
        .Branch 0 (.Leaf false) (.Branch 1 (.Leaf false) (.Leaf true)) := by decide
      refine Tree.ext ?_ rfl
      rw [r3]
      simp only [Tree.intersect, r1, r2]
      simp [Node.intersect, Node.finish, Node.branch]
    rw [this, tree_exact]
    congr 1

/-- C31 (proved part): no common combination is lost, and every combination of the result lies between
a combination of an operand and the union of one of each. -/
theorem intersect_bounds_partial {items : List T} {a b : Tree T} (ha : Built List.Nodup items a)
    (hb : Built List.Nodup items b) :
    (∀ A ∈ family a.combinations, A ∈ family b.combinations → A ∈ family (a.intersect b).combinations) ∧
    (∀ S ∈ family (a.intersect b).combinations,
      (∃ A, (A ∈ family a.combinations ∨ A ∈ family b.combinations) ∧ A ⊆ S) ∧
      ∃ A ∈ family a.combinations, ∃ B ∈ family b.combinations, S ⊆ A ∪ B) := by
  have hu := ha.univ_eq.trans hb.univ_eq.symm
  simp only [Tree.mem_combinations]
  constructor
  · rintro A ⟨s, hs, rfl⟩ ⟨s', hs', e⟩
    rw [ha.univ_eq, hb.univ_eq] at e
    have := Universe.itemsOf_inj (ha.ids.mem hs) (hb.ids.mem hs') e
    subst this
    exact ⟨s, Node.intersect_keeps _ _ ha.ordered hb.ordered s hs hs', rfl⟩
  · rintro S ⟨s, hs, rfl⟩
    obtain ⟨⟨p, hp, hps⟩, p', hp', q', hq', hsub⟩ := Node.intersect_bound _ _ ha.ordered hb.ordered s hs
    have e : (a.intersect b).univ = a.univ := rfl
    rw [e, ← hu]
    refine ⟨⟨a.univ.itemsOf p, hp.imp (fun h => ⟨p, h, rfl⟩) (fun h => ⟨p, h, rfl⟩), Universe.itemsOf_mono _ hps⟩,
      _, ⟨p', hp', rfl⟩, _, ⟨q', hq', rfl⟩, ?_⟩
    rw [← Universe.itemsOf_union]
    exact Universe.itemsOf_mono _ hsub

example := intersect_bounds_partial (items := [1, 2, 3, 4]) (.hyper (cs := [[1, 2], [1, 3], [4]]) (by decide))
  (.unique [1, 2, 4])

/-- C31 (proved part): the intersection with the empty tree is empty, and with itself the tree. -/
theorem intersect_trivial_partial (a : Tree T) :
    (a.intersect a.univ.emptyTree).combinations = [] ∧ (a.intersect a).combinations = a.combinations := by
  refine ⟨?_, by rw [(ops_idem a).2.1]⟩
  have : (a.intersect a.univ.emptyTree).root = .Leaf false := by
    simp only [Tree.intersect, Universe.emptyTree]
    rw [Node.intersect.eq_def]
    split_ifs with e
    · exact e
    · cases a.root with
      | Branch i l h' => rfl
      | Leaf b => cases b <;> rfl
  rw [Tree.combinations, this, Node.combinationsIter_eq]
  rfl

/-! ## C32 product -/

/-- C32 (proved part, one direction for all trees): every combination of the product is the union of one
of each operand. -/
theorem product_sound_partial {a b : Tree T} (h : a.univ = b.univ) :
    family (a.product b).combinations ⊆ prod (family a.combinations) (family b.combinations) := by
  rintro S hS
  rw [Tree.mem_combinations] at hS
  obtain ⟨s, hs, rfl⟩ := hS
  obtain ⟨p, hp, q, hq, rfl⟩ := Node.product_sound _ _ s hs
  refine ⟨a.univ.itemsOf p, (Tree.mem_combinations _ _).mpr ⟨p, hp, rfl⟩, a.univ.itemsOf q, ?_, ?_⟩
  · rw [Tree.mem_combinations, ← h]; exact ⟨q, hq, rfl⟩
  · exact Universe.itemsOf_union _ _ _

example := product_sound_partial (a := (Universe.fromVec [1, 2]).tree [1]) (b := (Universe.fromVec [1, 2]).uniqueTree [1, 2])
  ((Built.unique (P := fun _ => True) [1, 2]).univ_eq.symm)

/-- C32 (proved part): a union of one of each is in the product if the two agree on every item that both
operands mention. -/
theorem product_complete_partial {items : List T} {a b : Tree T} (ha : Built List.Nodup items a)
    (hb : Built List.Nodup items b) {A B : Finset T} (hA : A ∈ family a.combinations)
    (hB : B ∈ family b.combinations)
    (h : ∀ x, (∃ A' ∈ family a.combinations, x ∈ A') → (∃ B' ∈ family b.combinations, x ∈ B') →
      (x ∈ A ↔ x ∈ B)) : A ∪ B ∈ family (a.product b).combinations := by
  have hu := ha.univ_eq.trans hb.univ_eq.symm
  rw [Tree.mem_combinations] at hA hB ⊢
  obtain ⟨p, hp, rfl⟩ := hA
  obtain ⟨q, hq, rfl⟩ := hB
  rw [← hu]
  refine ⟨p ∪ q, Node.product_complete _ _ ha.ordered hb.ordered p q hp hq ?_, (Universe.itemsOf_union _ _ _).symm⟩
  rintro i ⟨s, hs, his⟩ ⟨t, ht, hit⟩
  have ki := ha.ids.mem hs i his
  obtain ⟨x, hx, _⟩ := Universe.known_get ki
  have e := h x ⟨_, (Tree.mem_combinations _ _).mpr ⟨s, hs, rfl⟩, by
      rw [ha.univ_eq, Universe.mem_itemsOf]; exact ⟨i, his, hx⟩⟩
    ⟨_, (Tree.mem_combinations _ _).mpr ⟨t, ht, rfl⟩, by
      rw [hb.univ_eq, Universe.mem_itemsOf]; exact ⟨i, hit, hx⟩⟩
  rwa [← hu, ha.univ_eq, Universe.mem_itemsOf_known (ha.ids.mem hp) ki hx,
    Universe.mem_itemsOf_known (hb.ids.mem hq) ki hx] at e

example := product_complete_partial (items := [1, 2, 3]) (a := (Universe.fromVec [1, 2, 3]).tree [1])
  (b := (Universe.fromVec [1, 2, 3]).tree [2, 3]) (A := {1}) (B := {2, 3}) (.tree (by decide)) (.tree (by decide))
  (by rw [tree_exact]; decide) (by rw [tree_exact]; decide) (by
    rw [tree_exact, tree_exact]
    rintro x ⟨A, hA, hx⟩ ⟨B, hB, hy⟩
    exfalso
    rw [show A = _ from hA] at hx
    rw [show B = _ from hB] at hy
    simp at hx hy
    omega)

/-- C32 (proved part): the product is exact when the operands mention no common item. -/
theorem product_exact_disjoint_partial {items : List T} {a b : Tree T} (ha : Built List.Nodup items a)
    (hb : Built List.Nodup items b)
    (h : ∀ A ∈ family a.combinations, ∀ B ∈ family b.combinations, Disjoint A B) :
    family (a.product b).combinations = prod (family a.combinations) (family b.combinations) := by
  refine Set.Subset.antisymm (product_sound_partial (ha.univ_eq.trans hb.univ_eq.symm)) ?_
  rintro S ⟨A, hA, B, hB, rfl⟩
  refine product_complete_partial ha hb hA hB fun x ⟨A', hA', hx⟩ ⟨B', hB', hx'⟩ => ?_
  exact absurd hx' (Finset.disjoint_left.mp (h A' hA' B' hB') hx)

example := product_exact_disjoint_partial (items := [1, 2, 3]) (a := (Universe.fromVec [1, 2, 3]).tree [1])
  (b := (Universe.fromVec [1, 2, 3]).tree [2, 3]) (.tree (by decide)) (.tree (by decide)) (by
    rw [tree_exact, tree_exact]
    intro A hA B hB
    rw [show A = _ from hA, show B = _ from hB]
    decide)

/-- C32, the full statement, is false of the code: `{{1},{2}}` times itself has no `{1,2}`. -/
theorem product_not_exact : ∃ (items : List ℕ) (a : Tree ℕ), Built List.Nodup items a ∧
    {1, 2} ∈ prod (family a.combinations) (family a.combinations) ∧
    {1, 2} ∉ family (a.product a).combinations := by
  refine ⟨[1, 2], (Universe.fromVec [1, 2]).uniqueTree [1, 2], .unique _, ?_, ?_⟩
  · rw [unique_tree_exact]
    exact ⟨{1}, ⟨1, by simp, by simp⟩, {2}, ⟨2, by simp, by simp⟩, by decide⟩
  · rw [(ops_idem _).2.2, unique_tree_exact]
    rintro ⟨x, hx, e⟩
    simp only [List.mem_cons, List.not_mem_nil, or_false] at hx
    rcases hx with rfl | rfl
    · exact absurd e (by decide)
    · exact absurd e (by decide)

/-! ## C60 traverse -/

/-- The family of item sets a traversed tree shows.  Not code: used to state or prove properties. -/
def TreeNode.fam : TreeNode T → Set (Finset T)
  | .Branch value low high => {s | s ∈ low.fam ∨ ∃ t ∈ high.fam, s = insert value t}
  | .Leaf true => {∅}
  | .Leaf false => ∅

/-- C60 (proved part): `traverse` never panics on a tree made over one universe. -/
theorem traverse_total_partial {items : List T} {t : Tree T} (h : Built (fun _ => True) items t) :
    ∃ n, t.traverse = some n := by
  have key : ∀ n : Node, n.Ids (Universe.fromVec items).Known → ∃ m, fromNode (Universe.fromVec items) n = some m := by
    intro n
    induction n with
    | Leaf b => exact fun _ => ⟨_, rfl⟩
    | Branch i l hh ihl ihh =>
      rintro ⟨hi, hl, hh'⟩
      obtain ⟨x, hx, _⟩ := Universe.known_get hi
      obtain ⟨a, ha⟩ := ihl hl
      obtain ⟨b, hb⟩ := ihh hh'
      exact ⟨.Branch x a b, by
        rw [fromNode, show (Universe.fromVec items).getItem i = some x from hx, ha, hb]⟩
  rw [Tree.traverse, h.univ_eq]
  exact key _ h.ids

example := traverse_total_partial (items := [1, 2, 3, 4]) (.hyper (cs := [[1, 2], [1, 3, 1], [4]]) (fun _ _ => trivial))

/-- C47: `traverse`, `combinations` and `combinations_with` of a tree made over one universe never panic
(the latter two are total functions of the model; only `traverse` unwraps). -/
theorem traverse_total_built {items : List T} {t : Tree T} (h : Built (fun _ => True) items t) :
    t.traverse ≠ none := by
  obtain ⟨n, hn⟩ := traverse_total_partial h
  rw [hn]; exact Option.some_ne_none n

example := traverse_total_built (items := [1, 2, 3, 4]) (.hyper (cs := [[1, 2], [1, 3, 1], [4]]) (fun _ _ => trivial))

/-- C60: whenever `traverse` returns, the traversed tree shows exactly the combinations of the tree. -/
theorem traverse_exact {t : Tree T} {n : TreeNode T} (h : t.traverse = some n) :
    n.fam = family t.combinations := by
  have key : ∀ (m : Node) (n : TreeNode T), fromNode t.univ m = some n →
      ∀ A, A ∈ n.fam ↔ ∃ s ∈ m.Den, A = t.univ.itemsOf s := by
    intro m
    induction m with
    | Leaf b =>
      intro n hn A
      simp only [fromNode, Option.some.injEq] at hn
      subst hn
      cases b
      · simp [TreeNode.fam, Node.mem_false]
      · simp only [TreeNode.fam, Node.mem_true, exists_eq_left, Set.mem_singleton_iff]; rfl
    | Branch i l hh ihl ihh =>
      intro n hn A
      rw [fromNode] at hn
      split at hn
      · simp at hn
      rename_i x hx
      split at hn
      · simp at hn
      rename_i a ha
      split at hn
      · simp at hn
      rename_i b hb
      simp only [Option.some.injEq] at hn
      subst hn
      have ins : ∀ s, t.univ.itemsOf (insert i s) = insert x (t.univ.itemsOf s) := by
        intro s
        ext y
        rw [Finset.mem_insert, Universe.mem_itemsOf, Universe.mem_itemsOf]
        have hx' : t.univ.items[i]? = some x := hx
        constructor
        · rintro ⟨j, hj, e⟩
          rcases Finset.mem_insert.mp hj with rfl | hj
          · rw [hx'] at e; left; simpa using e.symm
          · exact Or.inr ⟨j, hj, e⟩
        · rintro (rfl | ⟨j, hj, e⟩)
          · exact ⟨i, by simp, hx'⟩
          · exact ⟨j, by simp [hj], e⟩
      rw [TreeNode.fam]
      simp only [Set.mem_ofPred_eq, ihl a ha, ihh b hb, Node.mem_den_branch]
      constructor
      · rintro (⟨s, hs, rfl⟩ | ⟨_, ⟨s, hs, rfl⟩, rfl⟩)
        · exact ⟨s, Or.inl hs, rfl⟩
        · exact ⟨_, Or.inr ⟨s, hs, rfl⟩, (ins s).symm⟩
      · rintro ⟨s, hs | ⟨r, hr, rfl⟩, rfl⟩
        · exact Or.inl ⟨s, hs, rfl⟩
        · exact Or.inr ⟨_, ⟨r, hr, rfl⟩, ins r⟩
  ext A
  rw [Tree.mem_combinations]
  exact key _ _ h A

example : ∃ n, ((Universe.fromVec [1, 2, 3, 4]).hyperTree [[1, 2], [1, 3], [4]]).traverse = some n ∧
    n.fam = family ((Universe.fromVec [1, 2, 3, 4]).hyperTree [[1, 2], [1, 3], [4]]).combinations := by
  obtain ⟨n, hn⟩ := traverse_total_partial (items := [1, 2, 3, 4]) (.hyper (cs := [[1, 2], [1, 3], [4]]) (fun _ _ => trivial))
  exact ⟨n, hn, traverse_exact hn⟩

/-- C60, the full statement, is false of the code: nothing stops a program from combining trees over
different universes, and traversing the result panics. -/
theorem traverse_can_panic : ∃ (a b : Tree ℕ), Built List.Nodup [1] a ∧ Built List.Nodup [1, 2] b ∧
    (a.union b).traverse = none := by
  refine ⟨(Universe.fromVec [1]).tree [1], (Universe.fromVec [1, 2]).tree [2], .tree (by decide),
    .tree (by decide), ?_⟩
  have r1 : ((Universe.fromVec [1]).tree [1]).root = .Branch 0 (.Leaf false) (.Leaf true) := by decide
  have r2 : ((Universe.fromVec [1, 2]).tree [2]).root = .Branch 1 (.Leaf false) (.Leaf true) := by decide
  have : ((Universe.fromVec [1]).tree [1]).union ((Universe.fromVec [1, 2]).tree [2]) =
      ⟨.Branch 0 (.Branch 1 (.Leaf false) (.Leaf true)) (.Leaf true), Universe.fromVec [1]⟩ := by
    refine Tree.ext ?_ rfl
    simp only [Tree.union, r1, r2]
    simp [Node.union, Node.finish, Node.branch]
  rw [this]
  rfl

/-! ### concrete cases meeting the hypotheses -/

example : Built List.Nodup [7, 8, 9] (((Universe.fromVec [7, 8, 9]).hyperTree [[9, 7], [8]]).product
    ((Universe.fromVec [7, 8, 9]).uniqueTree [7, 9])) :=
  .product (.hyper (by decide)) (.unique _)

example : ∀ A ∈ family ((Universe.fromVec [1, 2, 3]).tree [3, 1]).combinations,
    ∀ B ∈ family ((Universe.fromVec [1, 2, 3]).tree [2]).combinations, Disjoint A B := by
  rw [tree_exact, tree_exact]
  rintro _ rfl _ rfl
  decide

end Verif.Zdd1
