import Verif.Rename
import Verif.Zdd1.Ops
import Verif.Zdd1.Serialize
import Verif.ArenaZdd1

/-!
# Other item names: the same v1 diagram (C130)

The universe of a v1 tree is the list it is given, not a sorted one, so that not even the order of the names matters.
-/

set_option linter.unusedSimpArgs false
set_option linter.unusedVariables false
set_option linter.unusedSectionVars false

namespace Verif.ArenaZdd1

universe u v
variable {T : Type u} {U : Type v}

/-- The expression with other items.  Not code: specification. -/
def Ex.rename (σ : T → U) : Ex T → Ex U
  | .empty items => .empty (items.map σ)
  | .unit items => .unit (items.map σ)
  | .tree items c => .tree (items.map σ) (c.map σ)
  | .unique items xs => .unique (items.map σ) (xs.map σ)
  | .hyper items cs => .hyper (items.map σ) (cs.map (List.map σ))
  | .union a b => .union (Ex.rename σ a) (Ex.rename σ b)
  | .intersect a b => .intersect (Ex.rename σ a) (Ex.rename σ b)
  | .product a b => .product (Ex.rename σ a) (Ex.rename σ b)
  | .restrict a inc exc => .restrict (Ex.rename σ a) (inc.map σ) (exc.map σ)

end Verif.ArenaZdd1

namespace Verif.Zdd1
open Verif Verif.Weave Verif.Spec
open Verif.ArenaZdd1 (Ex)

universe u v
variable {T : Type u} {U : Type v} [LinearOrder T] [LinearOrder U] {σ : T → U}

/-- The status with another name.  Not code: specification. -/
def renameStatus (σ : T → U) : ItemStatus T → ItemStatus U
  | .Required x => .Required (σ x)
  | .Excluded x => .Excluded (σ x)
  | .Available x => .Available (σ x)
  | .Selected x => .Selected (σ x)

/-- The traversal with other values.  Not code: specification. -/
def TreeNode.rename (σ : T → U) : TreeNode T → TreeNode U
  | .Branch x low high => .Branch (σ x) (TreeNode.rename σ low) (TreeNode.rename σ high)
  | .Leaf b => .Leaf b

theorem index_renamed (hσ : σ.Injective) (items : List T) (x : T) :
    lookup (σ x) (Universe.fromVec (items.map σ)).itemIndex = lookup x (Universe.fromVec items).itemIndex := by
  have key : ∀ (e : List (T × Nat)) (m : List (T × Nat)) (m' : List (U × Nat)), KeysLt m → KeysLt m' →
      (∀ x, lookup (σ x) m' = lookup x m) → lookup (σ x) ((renameKeys σ e).foldl (fun m p => insertKV p.1 p.2 m) m') =
        lookup x (e.foldl (fun m p => insertKV p.1 p.2 m) m) := by
    intro e
    induction e with
    | nil => intro m m' _ _ h; exact h x
    | cons p e ih =>
      intro m m' hm hm' h
      rw [renameKeys, List.map_cons, List.foldl_cons, List.foldl_cons]
      refine ih _ _ (keysLt_upsert hm) (keysLt_upsert hm') fun y => ?_
      simp only [insertKV, lookup_upsert hm, lookup_upsert hm', hσ.eq_iff, h]
  have := key (items.zipIdx) [] [] List.Pairwise.nil List.Pairwise.nil (fun _ => rfl)
  rw [← zipIdx_map] at this
  exact this

theorem ids_renamed (hσ : σ.Injective) (items c : List T) :
    (c.map σ).filterMap (fun item => lookup item (Universe.fromVec (items.map σ)).itemIndex) =
      c.filterMap (fun item => lookup item (Universe.fromVec items).itemIndex) := by
  rw [List.filterMap_map]
  exact List.filterMap_congr fun x _ => index_renamed hσ items x

theorem tree_renamed (hσ : σ.Injective) (items c : List T) :
    ((Universe.fromVec (items.map σ)).tree (c.map σ)).root = ((Universe.fromVec items).tree c).root := by
  simp only [Universe.tree, ids_renamed hσ]

theorem foldUnion_root (ts : List (Tree T)) (ts' : List (Tree U)) (h : ts'.map Tree.root = ts.map Tree.root) :
    ∀ (t : Tree T) (t' : Tree U), t'.root = t.root → (ts'.foldl (fun root next => root.union next) t').root =
      (ts.foldl (fun root next => root.union next) t).root := by
  induction ts generalizing ts' with
  | nil =>
    intro t t' e
    rw [List.map_nil, List.map_eq_nil_iff] at h
    subst h; exact e
  | cons a ts ih =>
    intro t t' e
    cases ts' with
    | nil => simp at h
    | cons b ts' =>
      rw [List.map_cons, List.map_cons, List.cons.injEq] at h
      rw [List.foldl_cons, List.foldl_cons]
      exact ih ts' h.2 _ _ (by simp only [Tree.union, e, h.1])

theorem unique_renamed (hσ : σ.Injective) (items xs : List T) :
    ((Universe.fromVec (items.map σ)).uniqueTree (xs.map σ)).root = ((Universe.fromVec items).uniqueTree xs).root := by
  unfold Universe.uniqueTree
  refine foldUnion_root _ _ ?_ _ _ rfl
  rw [List.map_map, List.map_map, List.map_map]
  exact List.map_congr_left fun x _ => tree_renamed hσ items [x]

theorem hyper_renamed (hσ : σ.Injective) (items : List T) (cs : List (List T)) :
    ((Universe.fromVec (items.map σ)).hyperTree (cs.map (List.map σ))).root =
      ((Universe.fromVec items).hyperTree cs).root := by
  unfold Universe.hyperTree
  refine foldUnion_root _ _ ?_ _ _ rfl
  rw [List.map_map, List.map_map, List.map_map]
  exact List.map_congr_left fun c _ => tree_renamed hσ items c

/-- A tree under other names: the universe is the renamed one and the diagram is the same.  Not code: specification. -/
structure Twin (σ : T → U) (items : List T) (t : Tree T) (t' : Tree U) : Prop where
  univ : t.univ = Universe.fromVec items
  univ' : t'.univ = Universe.fromVec (items.map σ)
  root : t'.root = t.root

theorem itemsOf_renamed (items : List T) (s : Finset Nat) :
    (Universe.fromVec (items.map σ)).itemsOf s = ((Universe.fromVec items).itemsOf s).image σ := by
  ext y
  rw [Universe.mem_itemsOf, Finset.mem_image]
  simp only [Universe.fromVec, List.getElem?_map, Option.map_eq_some_iff]
  constructor
  · rintro ⟨i, hi, x, hx, rfl⟩
    exact ⟨x, Universe.mem_itemsOf.mpr ⟨i, hi, hx⟩, rfl⟩
  · rintro ⟨x, hx, rfl⟩
    obtain ⟨i, hi, e⟩ := Universe.mem_itemsOf.mp hx
    exact ⟨i, hi, x, e, rfl⟩

variable {items : List T} {t : Tree T} {t' : Tree U}

theorem Twin.combinations (h : Twin σ items t t') :
    family t'.combinations = {A | ∃ B ∈ family t.combinations, A = B.image σ} := by
  ext A
  simp only [Tree.mem_combinations, Set.mem_ofPred_eq, h.univ, h.univ', h.root]
  constructor
  · rintro ⟨s, hs, rfl⟩
    exact ⟨_, ⟨s, hs, rfl⟩, itemsOf_renamed items s⟩
  · rintro ⟨_, ⟨s, hs, rfl⟩, rfl⟩
    exact ⟨s, hs, (itemsOf_renamed items s).symm⟩

theorem mem_image_inj (hσ : σ.Injective) (B : Finset T) (x : T) : σ x ∈ B.image σ ↔ x ∈ B := by
  rw [Finset.mem_image]
  exact ⟨fun ⟨y, hy, e⟩ => hσ e ▸ hy, fun h => ⟨x, h, rfl⟩⟩

theorem Twin.combinationsWith (hσ : σ.Injective) (h : Twin σ items t t') (inc exc : List T) :
    family (t'.combinationsWith (inc.map σ) (exc.map σ)) =
      {A | ∃ B ∈ family (t.combinationsWith inc exc), A = B.image σ} := by
  rw [combinations_with_family, combinations_with_family, h.combinations]
  ext A
  simp only [Set.mem_ofPred_eq, List.forall_mem_map]
  constructor
  · rintro ⟨⟨B, hB, rfl⟩, h1, h2⟩
    exact ⟨B, ⟨hB, fun x hx => (mem_image_inj hσ B x).mp (h1 x hx),
      fun x hx hb => h2 x hx ((mem_image_inj hσ B x).mpr hb)⟩, rfl⟩
  · rintro ⟨B, ⟨hB, h1, h2⟩, rfl⟩
    exact ⟨⟨B, hB, rfl⟩, fun x hx => (mem_image_inj hσ B x).mpr (h1 x hx),
      fun x hx hb => h2 x hx ((mem_image_inj hσ B x).mp hb)⟩

/-- The ids of a set of items.  Not code: used to prove properties. -/
def idsOf (uni : Universe T) (A : Finset T) : Finset Nat :=
  A.biUnion (fun x => (lookup x uni.itemIndex).toFinset)

theorem mem_idsOf {uni : Universe T} {A : Finset T} {i : Nat} :
    i ∈ idsOf uni A ↔ ∃ x ∈ A, lookup x uni.itemIndex = some i := by
  simp [idsOf, Option.mem_toFinset]

theorem ids_toFinset (uni : Universe T) (c : List T) :
    (c.filterMap (fun item => lookup item uni.itemIndex)).toFinset = idsOf uni c.toFinset := by
  ext i
  simp [mem_idsOf]

theorem den_hyper (uni : Universe T) (cs : List (List T)) (s : Finset Nat) :
    s ∈ (uni.hyperTree cs).root.Den ↔ ∃ A ∈ family cs, s = idsOf uni A := by
  rw [Universe.hyperTree, den_foldUnion]
  simp only [Universe.emptyTree, Node.mem_false, false_or, List.mem_map]
  constructor
  · rintro ⟨_, ⟨c, hc, rfl⟩, hs⟩
    rw [den_tree, ids_toFinset] at hs
    exact ⟨_, ⟨c, hc, rfl⟩, hs⟩
  · rintro ⟨_, ⟨c, hc, rfl⟩, rfl⟩
    exact ⟨_, ⟨c, hc, rfl⟩, by rw [den_tree, ids_toFinset]⟩

theorem idsOf_renamed (hσ : σ.Injective) (items : List T) (A : Finset T) :
    idsOf (Universe.fromVec (items.map σ)) (A.image σ) = idsOf (Universe.fromVec items) A := by
  ext i
  rw [mem_idsOf, mem_idsOf]
  constructor
  · rintro ⟨y, hy, e⟩
    obtain ⟨x, hx, rfl⟩ := Finset.mem_image.mp hy
    exact ⟨x, hx, by rwa [index_renamed hσ] at e⟩
  · rintro ⟨x, hx, e⟩
    exact ⟨σ x, Finset.mem_image_of_mem σ hx, by rwa [index_renamed hσ]⟩

theorem restrict_ordered (t : Tree T) (hu : t.univ = Universe.fromVec items) (inc exc : List T) :
    (t.restrict inc exc).root.Ordered := by
  refine Built.ordered (items := items) ?_
  rw [Tree.restrict, hu]
  refine .hyper fun c hc => ?_
  rw [combinations_with_exact, List.mem_filter] at hc
  exact nodup_of_lt (t.combinations_mem_lt c hc.1)

theorem Twin.restrict (hσ : σ.Injective) (h : Twin σ items t t') (inc exc : List T) :
    Twin σ items (t.restrict inc exc) (t'.restrict (inc.map σ) (exc.map σ)) := by
  refine ⟨?_, ?_, ?_⟩
  · rw [Tree.restrict, h.univ]; exact univ_foldUnion _ _
  · rw [Tree.restrict, h.univ']; exact univ_foldUnion _ _
  · refine Node.den_inj (restrict_ordered t' h.univ' _ _) (restrict_ordered t h.univ _ _) ?_
    ext s
    rw [Tree.restrict, Tree.restrict, den_hyper, den_hyper, h.combinationsWith hσ, h.univ, h.univ']
    constructor
    · rintro ⟨_, ⟨B, hB, rfl⟩, rfl⟩
      exact ⟨B, hB, idsOf_renamed hσ items B⟩
    · rintro ⟨B, hB, rfl⟩
      exact ⟨_, ⟨B, hB, rfl⟩, (idsOf_renamed hσ items B).symm⟩

theorem twin (hσ : σ.Injective) (e : Ex T) : ∃ items, Twin σ items e.eval (e.rename σ).eval := by
  induction e with
  | empty items => exact ⟨items, rfl, rfl, rfl⟩
  | unit items => exact ⟨items, rfl, rfl, rfl⟩
  | tree items c => exact ⟨items, rfl, rfl, tree_renamed hσ items c⟩
  | unique items xs => exact ⟨items, univ_foldUnion _ _, univ_foldUnion _ _, unique_renamed hσ items xs⟩
  | hyper items cs => exact ⟨items, univ_foldUnion _ _, univ_foldUnion _ _, hyper_renamed hσ items cs⟩
  | union a b iha ihb =>
    obtain ⟨i, ha⟩ := iha
    obtain ⟨j, hb⟩ := ihb
    exact ⟨i, ha.univ, ha.univ', by simp only [Ex.rename, Ex.eval, Tree.union, ha.root, hb.root]⟩
  | intersect a b iha ihb =>
    obtain ⟨i, ha⟩ := iha
    obtain ⟨j, hb⟩ := ihb
    exact ⟨i, ha.univ, ha.univ', by simp only [Ex.rename, Ex.eval, Tree.intersect, ha.root, hb.root]⟩
  | product a b iha ihb =>
    obtain ⟨i, ha⟩ := iha
    obtain ⟨j, hb⟩ := ihb
    exact ⟨i, ha.univ, ha.univ', by simp only [Ex.rename, Ex.eval, Tree.product, ha.root, hb.root]⟩
  | restrict a inc exc iha =>
    obtain ⟨i, ha⟩ := iha
    exact ⟨i, ha.restrict hσ inc exc⟩

/-- C130: with other items the same diagram is built, over the renamed items, each of which has the id it had. -/
theorem eval_renamed (hσ : σ.Injective) (e : Ex T) : (e.rename σ).eval.root = e.eval.root ∧
    (e.rename σ).eval.univ.items = e.eval.univ.items.map σ ∧
    ∀ x, lookup (σ x) (e.rename σ).eval.univ.itemIndex = lookup x e.eval.univ.itemIndex := by
  obtain ⟨items, h⟩ := twin hσ e
  refine ⟨h.root, ?_, fun x => ?_⟩
  · rw [h.univ, h.univ']; rfl
  · rw [h.univ, h.univ', index_renamed hσ]

theorem family_listed (f : T → U) (l : List (List T)) :
    family (filterRepeats (l.map (fun c => sorted (c.map f)))) = {A | ∃ B ∈ family l, A = B.image f} := by
  ext A
  rw [mem_family_filterRepeats]
  constructor
  · rintro ⟨c, hc, rfl⟩
    obtain ⟨d, hd, rfl⟩ := List.mem_map.mp hc
    refine ⟨_, ⟨d, hd, rfl⟩, ?_⟩
    ext y; simp
  · rintro ⟨_, ⟨d, hd, rfl⟩, rfl⟩
    refine ⟨_, List.mem_map_of_mem hd, ?_⟩
    ext y; simp

theorem listed (hσ : σ.Injective) {l : List (List T)} {m : List (List U)} (hl : ∀ c ∈ l, c.Pairwise (· < ·))
    (hm : m.Pairwise (· < ·)) (sm : ∀ c ∈ m, c.Pairwise (· < ·))
    (h : family m = {A | ∃ B ∈ family l, A = B.image σ}) :
    m = filterRepeats (l.map (fun c => sorted (c.map σ))) := by
  refine listing_ext hm (filterRepeats_lt _) sm ?_ (by rw [h, family_listed])
  intro c hc
  rw [mem_filterRepeats, List.mem_map] at hc
  obtain ⟨d, hd, rfl⟩ := hc
  exact sorted_lt_of_nodup ((nodup_of_lt (hl d hd)).map hσ)

theorem listed_length (hσ : σ.Injective) {l : List (List T)} (hl : ∀ c ∈ l, c.Pairwise (· < ·))
    (hn : l.Pairwise (· < ·)) : (filterRepeats (l.map (fun c => sorted (c.map σ)))).length = l.length := by
  have nd : (l.map (fun c => sorted (c.map σ))).Nodup := by
    refine (nodup_of_lt hn).map_on fun a ha b hb e => ?_
    refine lt_ext (hl a ha) (hl b hb) fun x => ?_
    have := congrArg (σ x ∈ ·) e
    simpa only [mem_sorted, List.mem_map_of_injective hσ, eq_iff_iff] using this
  rw [((List.perm_ext_iff_of_nodup (nodup_of_lt (filterRepeats_lt _)) nd).2 fun _ => mem_filterRepeats).length_eq,
    List.length_map]

/-- C130: the combinations are the renamed combinations, listed in the order of the new names, and as many. -/
theorem combinations_renamed (hσ : σ.Injective) (e : Ex T) :
    (e.rename σ).eval.combinations = filterRepeats (e.eval.combinations.map (fun c => sorted (c.map σ))) ∧
    (e.rename σ).eval.combinations.length = e.eval.combinations.length := by
  obtain ⟨items, h⟩ := twin hσ e
  have := listed hσ (Tree.combinations_mem_lt e.eval) (Tree.combinations_lt _) (Tree.combinations_mem_lt _)
    h.combinations
  exact ⟨this, by rw [this, listed_length hσ (Tree.combinations_mem_lt _) (Tree.combinations_lt _)]⟩

theorem with_lt (t : Tree T) (inc exc : List T) : (t.combinationsWith inc exc).Pairwise (· < ·) ∧
    ∀ c ∈ t.combinationsWith inc exc, c.Pairwise (· < ·) := by
  rw [combinations_with_exact]
  exact ⟨t.combinations_lt.filter _, fun c hc => t.combinations_mem_lt c (List.mem_filter.mp hc).1⟩

/-- C130: so are the combinations with given inclusions and exclusions. -/
theorem with_renamed (hσ : σ.Injective) (e : Ex T) (inc exc : List T) :
    (e.rename σ).eval.combinationsWith (inc.map σ) (exc.map σ) =
      filterRepeats ((e.eval.combinationsWith inc exc).map (fun c => sorted (c.map σ))) := by
  obtain ⟨items, h⟩ := twin hσ e
  exact listed hσ (with_lt _ _ _).2 (with_lt _ _ _).1 (with_lt _ _ _).2 (h.combinationsWith hσ inc exc)

theorem status_renamed (hσ : σ.Injective) (R : Set (Finset T)) (inc : List T) (x : T) (s' : ItemStatus U) :
    Status {A | ∃ B ∈ R, A = B.image σ} (inc.map σ) (σ x) s' ↔ ∃ s, Status R inc x s ∧ s' = renameStatus σ s := by
  have h1 : (∀ A ∈ {A | ∃ B ∈ R, A = B.image σ}, σ x ∉ A) ↔ ∀ A ∈ R, x ∉ A :=
    ⟨fun h A hA hx => h _ ⟨A, hA, rfl⟩ ((mem_image_inj hσ A x).mpr hx),
     fun h A ⟨B, hB, e⟩ hx => h B hB ((mem_image_inj hσ B x).mp (e ▸ hx))⟩
  have h2 : (∃ A ∈ {A | ∃ B ∈ R, A = B.image σ}, σ x ∈ A) ↔ ∃ A ∈ R, x ∈ A :=
    ⟨fun ⟨A, ⟨B, hB, e⟩, hx⟩ => ⟨B, hB, (mem_image_inj hσ B x).mp (e ▸ hx)⟩,
     fun ⟨A, hA, hx⟩ => ⟨_, ⟨A, hA, rfl⟩, (mem_image_inj hσ A x).mpr hx⟩⟩
  have h3 : (∀ A ∈ {A | ∃ B ∈ R, A = B.image σ}, σ x ∈ A) ↔ ∀ A ∈ R, x ∈ A :=
    ⟨fun h A hA => (mem_image_inj hσ A x).mp (h _ ⟨A, hA, rfl⟩),
     fun h A ⟨B, hB, e⟩ => e ▸ (mem_image_inj hσ B x).mpr (h B hB)⟩
  have h4 : (∃ A ∈ {A | ∃ B ∈ R, A = B.image σ}, σ x ∉ A) ↔ ∃ A ∈ R, x ∉ A :=
    ⟨fun ⟨A, ⟨B, hB, e⟩, hx⟩ => ⟨B, hB, fun hb => hx (e ▸ (mem_image_inj hσ B x).mpr hb)⟩,
     fun ⟨A, hA, hx⟩ => ⟨_, ⟨A, hA, rfl⟩, fun hb => hx ((mem_image_inj hσ A x).mp hb)⟩⟩
  have h5 : σ x ∈ inc.map σ ↔ x ∈ inc := List.mem_map_of_injective hσ
  unfold Status
  rw [h1, h2, h3, h4, h5]
  constructor
  · rintro (⟨a, rfl⟩ | ⟨a, b, rfl⟩ | ⟨a, b, c, rfl⟩ | ⟨a, b, c, rfl⟩)
    · exact ⟨_, .inl ⟨a, rfl⟩, rfl⟩
    · exact ⟨_, .inr (.inl ⟨a, b, rfl⟩), rfl⟩
    · exact ⟨_, .inr (.inr (.inl ⟨a, b, c, rfl⟩)), rfl⟩
    · exact ⟨_, .inr (.inr (.inr ⟨a, b, c, rfl⟩)), rfl⟩
  · rintro ⟨s, (⟨a, rfl⟩ | ⟨a, b, rfl⟩ | ⟨a, b, c, rfl⟩ | ⟨a, b, c, rfl⟩), rfl⟩
    · exact .inl ⟨a, rfl⟩
    · exact .inr (.inl ⟨a, b, rfl⟩)
    · exact .inr (.inr (.inl ⟨a, b, c, rfl⟩))
    · exact .inr (.inr (.inr ⟨a, b, c, rfl⟩))

/-- C130: every item has the status it had, in any visiting orders of the hash maps. -/
theorem summarize_renamed (hσ : σ.Injective) (e : Ex T) (inc exc : List T) {entries : List (T × Nat)}
    {entries' : List (U × Nat)} (he : entries.Perm (e.eval.counts inc exc))
    (he' : entries'.Perm ((e.rename σ).eval.counts (inc.map σ) (exc.map σ))) :
    (e.rename σ).eval.summarize (inc.map σ) (exc.map σ) entries' =
      sorted ((e.eval.summarize inc exc entries).map (renameStatus σ)) := by
  obtain ⟨items, h⟩ := twin hσ e
  have inj : (renameStatus σ).Injective := by
    intro s t e
    cases s <;> cases t <;> simp only [renameStatus, ItemStatus.Selected.injEq, ItemStatus.Available.injEq,
      ItemStatus.Excluded.injEq, ItemStatus.Required.injEq, reduceCtorEq] at e <;> rw [hσ e]
  obtain ⟨p1, m1⟩ := summarize_exact h.univ inc exc he
  obtain ⟨p2, m2⟩ := summarize_exact h.univ' (inc.map σ) (exc.map σ) he'
  refine lt_ext p2 (sorted_lt_of_nodup ((nodup_of_lt p1).map inj)) fun s' => ?_
  rw [mem_sorted, List.mem_map, m2]
  rw [← combinations_with_family] at m2
  simp only [m1]
  rw [← combinations_with_family, ← combinations_with_family, h.combinationsWith hσ]
  constructor
  · rintro ⟨y, hy, hs⟩
    obtain ⟨x, hx, rfl⟩ := List.mem_map.mp hy
    obtain ⟨s, hs0, rfl⟩ := (status_renamed hσ _ inc x s').mp hs
    exact ⟨s, ⟨x, hx, hs0⟩, rfl⟩
  · rintro ⟨s, ⟨x, hx, hs⟩, rfl⟩
    exact ⟨σ x, List.mem_map_of_mem hx, (status_renamed hσ _ inc x _).mpr ⟨s, hs, rfl⟩⟩

/-- C130: traversing fails alike, and shows the same tree with the new names. -/
theorem traverse_renamed (hσ : σ.Injective) (e : Ex T) :
    (e.rename σ).eval.traverse = e.eval.traverse.map (TreeNode.rename σ) := by
  obtain ⟨items, h⟩ := twin hσ e
  rw [Tree.traverse, Tree.traverse, h.root, h.univ, h.univ']
  have gi : ∀ i, (Universe.fromVec (items.map σ)).getItem i = ((Universe.fromVec items).getItem i).map σ := fun i => by
    simp only [Universe.getItem, Universe.fromVec, List.getElem?_map]
  induction e.eval.root with
  | Leaf b => rfl
  | Branch id l r ihl ihr =>
    simp only [fromNode, gi, ihl, ihr]
    cases (Universe.fromVec items).getItem id <;> simp only [Option.map_none, Option.map_some]
    cases fromNode (Universe.fromVec items) l <;> simp only [Option.map_none, Option.map_some]
    cases fromNode (Universe.fromVec items) r <;> simp only [Option.map_none, Option.map_some, TreeNode.rename]

/-- C130: the serialized diagram is the same text. -/
theorem text_renamed (hσ : σ.Injective) (e : Ex T) (x : List (T × Nat)) (y : List (U × Nat)) :
    (serializeTree (e.rename σ).eval y).root = (serializeTree e.eval x).root := by
  simp only [serializeTree, (eval_renamed hσ e).1]

/-- C130: two expressions make equal trees exactly if they did. -/
theorem equal_renamed (hσ : σ.Injective) (a b : Ex T) :
    (a.rename σ).eval = (b.rename σ).eval ↔ a.eval = b.eval := by
  obtain ⟨i, ha⟩ := twin hσ a
  obtain ⟨j, hb⟩ := twin hσ b
  constructor
  · intro h
    refine Tree.ext (by rw [← ha.root, ← hb.root, h]) ?_
    have : (a.rename σ).eval.univ.items = (b.rename σ).eval.univ.items := by rw [h]
    rw [ha.univ', hb.univ'] at this
    rw [ha.univ, hb.univ, List.map_injective_iff.mpr hσ this]
  · intro h
    refine Tree.ext (by rw [ha.root, hb.root, h]) ?_
    have : a.eval.univ.items = b.eval.univ.items := by rw [h]
    rw [ha.univ, hb.univ] at this
    rw [ha.univ', hb.univ', show i = j from this]

/-- Not vacuous: exchanging two names, which does not keep their order, in an expression with a union and a `restrict`. -/
example : ∃ (σ : ℕ → ℕ) (e : Ex ℕ), σ.Injective ∧ ¬ StrictMono σ ∧
    family (e.rename σ).eval.combinations = {{2}, {1, 3}} ∧ family e.eval.combinations = {{1}, {2, 3}} := by
  have f : ∀ σ : ℕ → ℕ, family (Ex.eval (.union (.hyper ([1, 2, 3].map σ) [[1].map σ]) (.tree ([1, 2, 3].map σ)
      ([2, 3].map σ)))).combinations = {{σ 1}, {σ 2, σ 3}} := by
    intro σ
    refine (union_exact (a := (Universe.fromVec ([1, 2, 3].map σ)).hyperTree [[1].map σ])
      (b := (Universe.fromVec ([1, 2, 3].map σ)).tree ([2, 3].map σ)) (univ_foldUnion _ _)).trans ?_
    rw [hyper_tree_exact, tree_exact]
    have e : ({x ∈ ({σ 1} : Finset ℕ) | x = σ 1 ∨ x = σ 2 ∨ x = σ 3} : Finset ℕ) = {σ 1} := by
      ext x; simp only [Finset.mem_filter, Finset.mem_singleton]; tauto
    ext A
    simp [or_comm, e]
  have h1 := f id
  have h2 := f (Equiv.swap 1 2)
  refine ⟨Equiv.swap 1 2, .union (.hyper [1, 2, 3] [[1]]) (.tree [1, 2, 3] [2, 3]), (Equiv.swap 1 2).injective, ?_,
    ?_, ?_⟩
  · intro h
    have := h (show (1 : ℕ) < 2 by omega)
    revert this; decide
  · exact h2.trans (by rfl)
  · exact h1

example := eval_renamed (σ := (Equiv.swap 1 2 : ℕ → ℕ)) (Equiv.swap 1 2).injective
  (.restrict (.union (.hyper [1, 2, 3] [[1]]) (.tree [1, 2, 3] [2, 3])) [3] [])

example := combinations_renamed (σ := (Equiv.swap 1 2 : ℕ → ℕ)) (Equiv.swap 1 2).injective
  (.restrict (.union (.hyper [1, 2, 3] [[1]]) (.tree [1, 2, 3] [2, 3])) [3] [])

example := traverse_renamed (σ := (Equiv.swap 1 2 : ℕ → ℕ)) (Equiv.swap 1 2).injective
  (.restrict (.union (.hyper [1, 2, 3] [[1]]) (.tree [1, 2, 3] [2, 3])) [3] [])

example := with_renamed (σ := (Equiv.swap 1 2 : ℕ → ℕ)) (Equiv.swap 1 2).injective
  (.restrict (.union (.hyper [1, 2, 3] [[1]]) (.tree [1, 2, 3] [2, 3])) [3] []) [2] [1]

example := summarize_renamed (σ := (Equiv.swap 1 2 : ℕ → ℕ)) (Equiv.swap 1 2).injective
  (.restrict (.union (.hyper [1, 2, 3] [[1]]) (.tree [1, 2, 3] [2, 3])) [3] []) [2] [1] (List.reverse_perm _) (List.Perm.refl _)

example := text_renamed (σ := (Equiv.swap 1 2 : ℕ → ℕ)) (Equiv.swap 1 2).injective
  (.restrict (.union (.hyper [1, 2, 3] [[1]]) (.tree [1, 2, 3] [2, 3])) [3] []) [] []

example := equal_renamed (σ := (Equiv.swap 1 2 : ℕ → ℕ)) (Equiv.swap 1 2).injective
  (.restrict (.union (.hyper [1, 2, 3] [[1]]) (.tree [1, 2, 3] [2, 3])) [3] []) (.tree [1, 2, 3] [2, 3])

end Verif.Zdd1
