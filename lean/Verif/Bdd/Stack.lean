import Verif.Bdd.Props

/-!
# How deep the closet operations recurse (C86)

The recursive functions of bowtie-core/src/bdd, with a bound on the number of nested calls: `opF f` is
`op` on a stack with room for `f` frames, and `none` if a call finds no room.  The value computed is
compared with the unbounded function of `Verif.Bdd.Node` / `Verif.Bdd.Closet`.  `summarize` and the walk
of `complete_outfit` are loops.  Frames of non-recursive functions (conversions, arena access, iterator
adapters, one-line wrappers) are not counted: there is a fixed number of them per counted frame.
-/

set_option linter.unusedSimpArgs false
set_option linter.unusedSectionVars false
set_option linter.unusedVariables false

namespace Verif.Bdd
open Verif Verif.Bdd.Spec

universe u v
variable {I : Type u} [LinearOrder I] {F : Type v} [LinearOrder F]

namespace Node

/-- bowtie-core/src/bdd/node/bit_operations.rs:22-59 on a stack of the given depth. -/
def bitorF : Nat → Node I → Node I → Option (Node I)
  | 0, _, _ => none
  | f + 1, node1, node2 =>
    match node1, node2 with
    | n1, .Leaf false => some n1
    | .Leaf false, n2 => some n2
    | .Leaf v1, .Leaf v2 => some (.Leaf (v1 || v2))
    | .Branch id l h, .Leaf v =>
      (bitorF f l (.Leaf v)).bind fun low => (bitorF f h (.Leaf v)).map fun high => mk id low high
    | .Leaf v, .Branch id l h =>
      (bitorF f (.Leaf v) l).bind fun low => (bitorF f (.Leaf v) h).map fun high => mk id low high
    | .Branch id1 l1 h1, .Branch id2 l2 h2 =>
      let firstId := if id1 ≤ id2 then id1 else id2
      let s1 := splitBranch (.Branch id1 l1 h1) firstId
      let s2 := splitBranch (.Branch id2 l2 h2) firstId
      (bitorF f s1.1 s2.1).bind fun low => (bitorF f s1.2 s2.2).map fun high => mk firstId low high

/-- bowtie-core/src/bdd/node/bit_operations.rs:61-94 on a stack of the given depth. -/
def bitandF : Nat → Node I → Node I → Option (Node I)
  | 0, _, _ => none
  | f + 1, node1, node2 =>
    match node1, node2 with
    | n1, .Leaf true => some n1
    | .Leaf true, n2 => some n2
    | .Leaf v1, .Leaf v2 => some (.Leaf (v1 && v2))
    | .Branch id l h, .Leaf v =>
      (bitandF f l (.Leaf v)).bind fun low => (bitandF f h (.Leaf v)).map fun high => mk id low high
    | .Leaf v, .Branch id l h =>
      (bitandF f (.Leaf v) l).bind fun low => (bitandF f (.Leaf v) h).map fun high => mk id low high
    | .Branch id1 l1 h1, .Branch id2 l2 h2 =>
      let firstId := if id1 ≤ id2 then id1 else id2
      let s1 := splitBranch (.Branch id1 l1 h1) firstId
      let s2 := splitBranch (.Branch id2 l2 h2) firstId
      (bitandF f s1.1 s2.1).bind fun low => (bitandF f s1.2 s2.2).map fun high => mk firstId low high

/-- bowtie-core/src/bdd/node/restrict.rs:5-27 on a stack of the given depth. -/
def restrictF : Nat → Node I → I → Bool → Option (Node I)
  | 0, _, _, _ => none
  | f + 1, node, item, selected =>
    match node with
    | .Leaf true => some TRUE_LEAF
    | .Leaf false => some FALSE_LEAF
    | .Branch id low high =>
      if id = item then some (if !selected then low else high)
      else
        (restrictF f low item selected).bind fun restrictedLow =>
        (restrictF f high item selected).map fun restrictedHigh =>
        if restrictedLow = restrictedHigh then restrictedLow
        else .Branch id restrictedLow restrictedHigh

/-- bowtie-core/src/bdd/node/reduce.rs:4-22 on a stack of the given depth. -/
def reduceF : Nat → Node I → Option (Node I)
  | 0, _ => none
  | f + 1, node =>
    match node with
    | .Leaf true => some TRUE_LEAF
    | .Leaf false => some FALSE_LEAF
    | .Branch id low high =>
      (reduceF f low).bind fun reducedLow => (reduceF f high).map fun reducedHigh =>
      if reducedLow = reducedHigh then reducedLow else .Branch id reducedLow reducedHigh

/-- bowtie-core/src/bdd/closet/node_count.rs:10-20 on a stack of the given depth. -/
def nodeCountF : Nat → Node I → Option Nat
  | 0, _ => none
  | f + 1, node =>
    match node with
    | .Leaf _ => some 1
    | .Branch _ l h => (nodeCountF f l).bind fun a => (nodeCountF f h).map fun b => 1 + a + b

/-- bowtie-core/src/bdd/closet/node_count.rs:26-36 on a stack of the given depth. -/
def leafCountF : Nat → Node I → Option Nat
  | 0, _ => none
  | f + 1, node =>
    match node with
    | .Leaf _ => some 1
    | .Branch _ l h => (leafCountF f l).bind fun a => (leafCountF f h).map fun b => a + b

/-- bowtie-core/src/bdd/closet/node_count.rs:42-52 on a stack of the given depth. -/
def outfitCountF : Nat → Node I → Option Nat
  | 0, _ => none
  | f + 1, node =>
    match node with
    | .Leaf val => some (if val then 1 else 0)
    | .Branch _ l h => (outfitCountF f l).bind fun a => (outfitCountF f h).map fun b => a + b

/-- bowtie-core/src/bdd/closet/node_count.rs:58-74 on a stack of the given depth. -/
def depthF : Nat → Node I → Option Nat
  | 0, _ => none
  | f + 1, node =>
    match node with
    | .Leaf _ => some 1
    | .Branch _ l h => (depthF f l).bind fun a => (depthF f h).map fun b => if a < b then 1 + b else 1 + a

end Node

namespace ClosetBuilder

/-- bowtie-core/src/bdd/closet_builder/mod.rs:94-108 on a stack of the given depth. -/
def siblingRelationshipF (f : Nat) (items : List I) : Option (Node I) :=
  let allNodes : List (I × Node I) :=
    items.foldl (fun m item => insertKV item (Node.negativeBranch item) m) []
  (items.mapM (fun item =>
      (insertKV item (Node.positiveBranch item) allNodes).foldlM
        (fun newRoot e => Node.bitandF f newRoot e.2) Node.TRUE_LEAF)).bind fun l =>
    l.foldlM (fun other item => Node.bitorF f other item) Node.FALSE_LEAF

/-- The root computed by bowtie-core/src/bdd/closet_builder/mod.rs:76-88 on a stack of the given depth. -/
def buildRootF (f : Nat) (b : ClosetBuilder I F) : Option (Node I) :=
  (b.contents.mapM (fun e => siblingRelationshipF f e.2)).bind fun families =>
  (families.foldlM (fun other familyNode => Node.bitandF f other familyNode) Node.TRUE_LEAF).bind fun root =>
  ((rulePairs b.exclusions).mapM
    (fun p => Node.bitorF f (Node.negativeBranch p.1) (Node.negativeBranch p.2))).bind fun excl =>
  (excl.foldlM (fun newRoot e => Node.bitandF f newRoot e) root).bind fun root =>
  ((rulePairs b.inclusions).mapM
    (fun p => Node.bitorF f (Node.negativeBranch p.1) (Node.positiveBranch p.2))).bind fun incl =>
  incl.foldlM (fun newRoot e => Node.bitandF f newRoot e) root

/-- bowtie-core/src/bdd/closet_builder/mod.rs:73-92 on a stack of the given depth. -/
def buildF (f : Nat) (b : ClosetBuilder I F) : Option (Except (BuilderError I F) (Closet I F)) :=
  match validateCloset b.contents b.itemIndex b.exclusions b.inclusions with
  | .error e => some (.error e)
  | .ok () => (b.buildRootF f).map fun root => .ok (Closet.new b.itemIndex root)

end ClosetBuilder

namespace Closet

/-- bowtie-core/src/bdd/closet/select.rs:10-41 on a stack of the given depth. -/
def selectItemF (f : Nat) (c : Closet I F) (item : I) : Option (Except (SelectItemError I) (Closet I F)) :=
  match c.getFamily item with
  | none => some (.error (.UnknownItem item))
  | some _ =>
    match (c.summary.filter (fun s => s.isExcluded)).find? (fun s => s.is item) with
    | some _ => some (.error (.ExcludedItem item))
    | none =>
      (Node.restrictF f c.root item true).map fun root =>
      let summary := summarize root
      let summary := sorted (uniq ((c.summary.filter (fun s => s.isSelected)) ++
        [Status.Selected item] ++ summary))
      .ok { itemIndex := c.itemIndex, summary := summary, root := root }

/-- bowtie-core/src/bdd/closet/complete_outfit.rs:16-19, 93-94 on a stack of the given depth. -/
def restrictAllF (f : Nat) (root : Node I) (selections : List I) : Option (Node I) :=
  selections.foldlM (fun r s => Node.restrictF f r s true) root

/-- bowtie-core/src/bdd/closet/complete_outfit.rs:13-57, 92-104 on a stack of the given depth; the outer
`none` is the overflow, the inner one a panic. -/
def completeOutfitF (f : Nat) (c : Closet I F) (selections : List I) :
    Option (Option (Except (OutfitError I F) (List I))) :=
  match c.findUnknownItems selections with
  | some items => some (some (.error (.UnknownItems items)))
  | none =>
    match c.findDuplicateItems selections with
    | none => some none
    | some (some items) => some (some (.error (.MultipleItemsPerFamily items)))
    | some none =>
      (restrictAllF f c.root selections).map fun root =>
      match root with
      | .Leaf false => some (.error (.IncompatibleSelections (sorted selections)))
      | root => some (.ok (walk root selections))

end Closet

/-! ### enough room -/

namespace Node

/-- Ordered and mentioning only items of `S`.  Not code: used to state or prove properties. -/
structure Within (S : Finset I) (n : Node I) : Prop where
  ordered : n.Ordered
  mentions : ∀ x, n.Mentions x → x ∈ S

theorem within_leaf (S : Finset I) (b : Bool) : Within S (.Leaf b) := ⟨trivial, fun _ h => h.elim⟩

theorem Within.low {S : Finset I} {i : I} {l h : Node I} (hw : Within S (.Branch i l h)) : Within (S.erase i) l :=
  ⟨hw.1.2.2.1, fun x hx => Finset.mem_erase.mpr
    ⟨ne_of_gt (mentions_above hw.1.2.2.1 hw.1.1 hx), hw.2 x (Or.inr (Or.inl hx))⟩⟩

theorem Within.high {S : Finset I} {i : I} {l h : Node I} (hw : Within S (.Branch i l h)) : Within (S.erase i) h :=
  ⟨hw.1.2.2.2, fun x hx => Finset.mem_erase.mpr
    ⟨ne_of_gt (mentions_above hw.1.2.2.2 hw.1.2.1 hx), hw.2 x (Or.inr (Or.inr hx))⟩⟩

theorem Within.root {S : Finset I} {i : I} {l h : Node I} (hw : Within S (.Branch i l h)) : i ∈ S :=
  hw.2 i (Or.inl rfl)

theorem erase_room {S : Finset I} {i : I} {f : Nat} (hi : i ∈ S) (h : S.card + 1 ≤ f + 1) :
    (S.erase i).card + 1 ≤ f := by
  have := Finset.card_erase_of_mem hi
  have := Finset.card_pos.mpr ⟨i, hi⟩
  omega

theorem Within.split {S : Finset I} {i f : I} {l h : Node I} (hw : Within S (.Branch i l h)) (hf : f ≤ i) :
    Within (S.erase f) (splitBranch (.Branch i l h) f).1 ∧ Within (S.erase f) (splitBranch (.Branch i l h) f).2 := by
  obtain ⟨o1, o2⟩ := ordered_split (f := f) hw.1
  obtain ⟨a1, a2⟩ := above_split_self hw.1 hf
  exact ⟨⟨o1, fun x hx => Finset.mem_erase.mpr ⟨ne_of_gt (mentions_above o1 a1 hx),
      hw.2 x (mentions_split (Or.inl hx))⟩⟩,
    ⟨o2, fun x hx => Finset.mem_erase.mpr ⟨ne_of_gt (mentions_above o2 a2 hx),
      hw.2 x (mentions_split (Or.inr hx))⟩⟩⟩

theorem bitorF_eq (a b : Node I) {S : Finset I} {f : Nat} (ha : Within S a) (hb : Within S b) (hf : S.card + 1 ≤ f) :
    bitorF f a b = some (bitor a b) := by
  fun_induction bitor a b generalizing S f with
  | case1 a =>
    obtain ⟨f, rfl⟩ : ∃ g, f = g + 1 := ⟨f - 1, by omega⟩
    rw [bitorF.eq_def]
  | case2 b h =>
    obtain ⟨f, rfl⟩ : ∃ g, f = g + 1 := ⟨f - 1, by omega⟩
    cases b with
    | Leaf v => cases v <;> simp [bitorF] at h ⊢
    | Branch => simp [bitorF]
  | case3 v1 v2 h1 h2 =>
    obtain ⟨f, rfl⟩ : ∃ g, f = g + 1 := ⟨f - 1, by omega⟩
    cases v1 <;> cases v2 <;> simp [bitorF] at h1 h2 ⊢
  | case4 i l h v hv ih1 ih2 =>
    obtain ⟨f, rfl⟩ : ∃ g, f = g + 1 := ⟨f - 1, by omega⟩
    have hr := erase_room ha.root hf
    have e1 := ih1 ha.low (within_leaf _ v) hr
    have e2 := ih2 ha.high (within_leaf _ v) hr
    cases v
    · exact absurd rfl hv
    · rw [bitorF.eq_def]; simp only; rw [e1, e2]; rfl
  | case5 v i l h hv ih1 ih2 =>
    obtain ⟨f, rfl⟩ : ∃ g, f = g + 1 := ⟨f - 1, by omega⟩
    have hr := erase_room hb.root hf
    have e1 := ih1 (within_leaf _ v) hb.low hr
    have e2 := ih2 (within_leaf _ v) hb.high hr
    cases v
    · exact absurd rfl hv
    · rw [bitorF.eq_def]; simp only; rw [e1, e2]; rfl
  | case6 i l h j l' h' m s1 s2 =>
    rename_i ih1 ih2
    obtain ⟨f, rfl⟩ : ∃ g, f = g + 1 := ⟨f - 1, by omega⟩
    obtain ⟨m1, m2, m3⟩ := min_cases i j
    have hm : m ∈ S := by
      rcases m3 with e | e
      · have := ha.root; rwa [← e] at this
      · have := hb.root; rwa [← e] at this
    have hr := erase_room hm hf
    have e1 := ih1 (ha.split m1).1 (hb.split m2).1 hr
    have e2 := ih2 (ha.split m1).2 (hb.split m2).2 hr
    change (bitorF f s1.1 s2.1).bind (fun low => (bitorF f s1.2 s2.2).map fun high => mk m low high) = _
    rw [e1, e2]; rfl

theorem bitandF_eq (a b : Node I) {S : Finset I} {f : Nat} (ha : Within S a) (hb : Within S b) (hf : S.card + 1 ≤ f) :
    bitandF f a b = some (bitand a b) := by
  fun_induction bitand a b generalizing S f with
  | case1 a =>
    obtain ⟨f, rfl⟩ : ∃ g, f = g + 1 := ⟨f - 1, by omega⟩
    rw [bitandF.eq_def]
  | case2 b h =>
    obtain ⟨f, rfl⟩ : ∃ g, f = g + 1 := ⟨f - 1, by omega⟩
    cases b with
    | Leaf v => cases v <;> simp [bitandF] at h ⊢
    | Branch => simp [bitandF]
  | case3 v1 v2 h1 h2 =>
    obtain ⟨f, rfl⟩ : ∃ g, f = g + 1 := ⟨f - 1, by omega⟩
    cases v1 <;> cases v2 <;> simp [bitandF] at h1 h2 ⊢
  | case4 i l h v hv ih1 ih2 =>
    obtain ⟨f, rfl⟩ : ∃ g, f = g + 1 := ⟨f - 1, by omega⟩
    have hr := erase_room ha.root hf
    have e1 := ih1 ha.low (within_leaf _ v) hr
    have e2 := ih2 ha.high (within_leaf _ v) hr
    cases v
    · rw [bitandF.eq_def]; simp only; rw [e1, e2]; rfl
    · exact absurd rfl hv
  | case5 v i l h hv ih1 ih2 =>
    obtain ⟨f, rfl⟩ : ∃ g, f = g + 1 := ⟨f - 1, by omega⟩
    have hr := erase_room hb.root hf
    have e1 := ih1 (within_leaf _ v) hb.low hr
    have e2 := ih2 (within_leaf _ v) hb.high hr
    cases v
    · rw [bitandF.eq_def]; simp only; rw [e1, e2]; rfl
    · exact absurd rfl hv
  | case6 i l h j l' h' m s1 s2 =>
    rename_i ih1 ih2
    obtain ⟨f, rfl⟩ : ∃ g, f = g + 1 := ⟨f - 1, by omega⟩
    obtain ⟨m1, m2, m3⟩ := min_cases i j
    have hm : m ∈ S := by
      rcases m3 with e | e
      · have := ha.root; rwa [← e] at this
      · have := hb.root; rwa [← e] at this
    have hr := erase_room hm hf
    have e1 := ih1 (ha.split m1).1 (hb.split m2).1 hr
    have e2 := ih2 (ha.split m1).2 (hb.split m2).2 hr
    change (bitandF f s1.1 s2.1).bind (fun low => (bitandF f s1.2 s2.2).map fun high => mk m low high) = _
    rw [e1, e2]; rfl

theorem restrictF_eq (n : Node I) (x : I) (b : Bool) : ∀ {S : Finset I} {f : Nat}, Within S n → S.card + 1 ≤ f →
    restrictF f n x b = some (restrict n x b) := by
  induction n with
  | Leaf v =>
    intro S f _ hf; obtain ⟨f, rfl⟩ : ∃ g, f = g + 1 := ⟨f - 1, by omega⟩
    cases v <;> rfl
  | Branch i l h ihl ihh =>
    intro S f hn hf; obtain ⟨f, rfl⟩ : ∃ g, f = g + 1 := ⟨f - 1, by omega⟩
    have hr := erase_room hn.root hf
    rw [restrictF, restrict]
    by_cases e : i = x
    · rw [if_pos e, if_pos e]
    · rw [if_neg e, if_neg e, ihl hn.low hr, ihh hn.high hr]; rfl

theorem counts_depth (n : Node I) : ∀ {S : Finset I}, Within S n → n.depth ≤ S.card + 1 := by
  induction n with
  | Leaf v => intro S _; simp [depth]
  | Branch i l h ihl ihh =>
    intro S hn
    have h1 := ihl hn.low
    have h2 := ihh hn.high
    have h3 := Finset.card_erase_of_mem hn.root
    have h4 := Finset.card_pos.mpr ⟨i, hn.root⟩
    rw [depth]
    split_ifs <;> omega

/-- The functions that walk the whole diagram need exactly `depth` frames. -/
theorem walks_exact (n : Node I) : ∀ f : Nat,
    nodeCountF f n = (if n.depth ≤ f then some n.nodeCount else none) ∧
    leafCountF f n = (if n.depth ≤ f then some n.leafCount else none) ∧
    outfitCountF f n = (if n.depth ≤ f then some n.outfitCount else none) ∧
    depthF f n = (if n.depth ≤ f then some n.depth else none) ∧
    reduceF f n = (if n.depth ≤ f then some (reduce n) else none) := by
  induction n with
  | Leaf v =>
    intro f
    cases f with
    | zero => simp [depth, nodeCountF, leafCountF, outfitCountF, depthF, reduceF]
    | succ f => cases v <;> simp [depth, nodeCountF, leafCountF, outfitCountF, depthF, nodeCount, leafCount,
        outfitCount, reduceF, reduce]
  | Branch i l h ihl ihh =>
    intro f
    cases f with
    | zero =>
      have : ¬ (Branch i l h).depth ≤ 0 := by rw [depth]; split_ifs <;> omega
      simp [this, nodeCountF, leafCountF, outfitCountF, depthF, reduceF]
    | succ f =>
      obtain ⟨a1, a2, a3, a4, a5⟩ := ihl f
      obtain ⟨b1, b2, b3, b4, b5⟩ := ihh f
      rw [nodeCountF, leafCountF, outfitCountF, depthF, reduceF, a1, a2, a3, a4, a5, b1, b2, b3, b4, b5]
      have hd : (Branch i l h).depth ≤ f + 1 ↔ l.depth ≤ f ∧ h.depth ≤ f := by
        rw [depth]; split_ifs <;> omega
      by_cases c1 : l.depth ≤ f
      · by_cases c2 : h.depth ≤ f
        · rw [if_pos c1, if_pos c1, if_pos c1, if_pos c1, if_pos c1, if_pos c2, if_pos c2, if_pos c2, if_pos c2,
            if_pos c2, if_pos (hd.mpr ⟨c1, c2⟩), if_pos (hd.mpr ⟨c1, c2⟩), if_pos (hd.mpr ⟨c1, c2⟩),
            if_pos (hd.mpr ⟨c1, c2⟩), if_pos (hd.mpr ⟨c1, c2⟩)]
          exact ⟨rfl, rfl, rfl, rfl, rfl⟩
        · have c3 : ¬ (Branch i l h).depth ≤ f + 1 := fun e => c2 (hd.mp e).2
          simp [c1, c2, c3]
      · have c3 : ¬ (Branch i l h).depth ≤ f + 1 := fun e => c1 (hd.mp e).1
        simp [c1, c3]

end Node


open Node

theorem mapM_some {α β : Type*} (g : α → Option β) (h : α → β) (l : List α) (hl : ∀ x ∈ l, g x = some (h x)) :
    l.mapM g = some (l.map h) := by
  induction l with
  | nil => rfl
  | cons a l ih =>
    rw [List.mapM_cons, hl a (by simp), ih (fun x hx => hl x (by simp [hx]))]
    rfl

theorem foldlM_and {S : Finset I} {f : Nat} (hf : S.card + 1 ≤ f) (l : List (Node I)) (r : Node I)
    (hr : Good (· ∈ S) r) (hl : ∀ n ∈ l, Good (· ∈ S) n) :
    l.foldlM (fun a b => bitandF f a b) r = some (l.foldl (fun a b => Node.bitand a b) r) := by
  induction l generalizing r with
  | nil => rfl
  | cons n l ih =>
    have hn := hl n (by simp)
    rw [List.foldlM_cons, bitandF_eq r n ⟨hr.1, hr.3⟩ ⟨hn.1, hn.3⟩ hf]
    exact ih _ (good_and hr hn) (fun m hm => hl m (by simp [hm]))

theorem foldlM_or {S : Finset I} {f : Nat} (hf : S.card + 1 ≤ f) (l : List (Node I)) (r : Node I)
    (hr : Good (· ∈ S) r) (hl : ∀ n ∈ l, Good (· ∈ S) n) :
    l.foldlM (fun a b => bitorF f a b) r = some (l.foldl (fun a b => Node.bitor a b) r) := by
  induction l generalizing r with
  | nil => rfl
  | cons n l ih =>
    have hn := hl n (by simp)
    rw [List.foldlM_cons, bitorF_eq r n ⟨hr.1, hr.3⟩ ⟨hn.1, hn.3⟩ hf]
    exact ih _ (good_or hr hn) (fun m hm => hl m (by simp [hm]))

theorem foldlM_snd {f : Nat} (l : List (I × Node I)) (r : Node I) :
    l.foldlM (fun newRoot e => bitandF f newRoot e.2) r =
      (l.map Prod.snd).foldlM (fun newRoot e => bitandF f newRoot e) r := by
  induction l generalizing r with
  | nil => rfl
  | cons e l ih =>
    rw [List.map_cons, List.foldlM_cons, List.foldlM_cons]
    cases bitandF f r e.2 with
    | none => rfl
    | some r' => exact ih r'

theorem siblingF_eq {S : Finset I} {f : Nat} (hf : S.card + 1 ≤ f) (items : List I) (h : ∀ i ∈ items, i ∈ S) :
    ClosetBuilder.siblingRelationshipF f items = some (ClosetBuilder.siblingRelationship items) := by
  have key : ∀ i ∈ items, ∀ n ∈ ((insertKV i (positiveBranch i)
        (items.foldl (fun m item => insertKV item (negativeBranch item) m) [])).map Prod.snd), Good (· ∈ S) n := by
    intro i hi n hn
    obtain ⟨⟨k, n'⟩, hm, rfl⟩ := List.mem_map.1 hn
    obtain ⟨hk, rfl⟩ := (mem_chosen items i hi k n').1 hm
    dsimp only
    split_ifs
    · exact good_positive (h k hk)
    · exact good_negative (h k hk)
  rw [sibling_eq, ClosetBuilder.siblingRelationshipF]
  rw [mapM_some _ (fun i => ((insertKV i (positiveBranch i)
        (items.foldl (fun m item => insertKV item (negativeBranch item) m) [])).map
          Prod.snd).foldl Node.bitand TRUE_LEAF) items (by
      intro i hi
      rw [foldlM_snd]
      exact foldlM_and hf _ _ (good_leaf _ _) (key i hi))]
  refine foldlM_or hf _ _ (good_leaf _ _) ?_
  intro n hn
  obtain ⟨i, hi, rfl⟩ := List.mem_map.1 hn
  exact good_foldl_and _ _ (good_leaf _ _) (key i hi)

theorem buildRootF_eq {cs : List (Call I F)} (hl : Legal cs) {S : Finset I} (hS : ∀ i, Known cs i → i ∈ S) {f : Nat}
    (hf : S.card + 1 ≤ f) : (ClosetBuilder.run cs).buildRootF f = some (ClosetBuilder.run cs).buildRoot := by
  rw [run_eq]
  unfold ClosetBuilder.buildRootF ClosetBuilder.buildRoot
  dsimp only
  have g1 : ∀ e ∈ groupPush (itemPairs cs), ∀ i ∈ e.2, i ∈ S := by
    rintro ⟨f, is⟩ hm i hi
    obtain ⟨_, rfl⟩ := mem_groupPush.1 hm
    exact hS i ⟨f, mem_itemPairs.1 (mem_group_items.1 hi)⟩
  have g2 : ∀ p ∈ ClosetBuilder.rulePairs (groupPush (exclPairs cs)), p.1 ∈ S ∧ p.2 ∈ S := by
    rintro ⟨a, b⟩ hm
    obtain ⟨f, g, h1, h2, _⟩ := hl.2 a b (mem_exclPairs.1 ((mem_rulePairs _ a b).1 hm))
    exact ⟨hS a ⟨f, h1⟩, hS b ⟨g, h2⟩⟩
  have g3 : ∀ p ∈ ClosetBuilder.rulePairs (groupPush (inclPairs cs)), p.1 ∈ S ∧ p.2 ∈ S := by
    rintro ⟨a, b⟩ hm
    obtain ⟨f, g, h1, h2, _⟩ := hl.3 a b (mem_inclPairs.1 ((mem_rulePairs _ a b).1 hm))
    exact ⟨hS a ⟨f, h1⟩, hS b ⟨g, h2⟩⟩
  have n1 : ∀ n ∈ (groupPush (itemPairs cs)).map (fun e => ClosetBuilder.siblingRelationship e.2),
      Good (· ∈ S) n := by
    intro n hn
    obtain ⟨e, hm, rfl⟩ := List.mem_map.1 hn
    exact good_sibling (g1 e hm)
  have n2 : ∀ n ∈ (ClosetBuilder.rulePairs (groupPush (exclPairs cs))).map
      (fun p => ClosetBuilder.exclusionRelationship p.1 p.2), Good (· ∈ S) n := by
    intro n hn
    obtain ⟨e, hm, rfl⟩ := List.mem_map.1 hn
    exact good_or (good_negative (g2 e hm).1) (good_negative (g2 e hm).2)
  have n3 : ∀ n ∈ (ClosetBuilder.rulePairs (groupPush (inclPairs cs))).map
      (fun p => ClosetBuilder.inclusionRelationship p.1 p.2), Good (· ∈ S) n := by
    intro n hn
    obtain ⟨e, hm, rfl⟩ := List.mem_map.1 hn
    exact good_or (good_negative (g3 e hm).1) (good_positive (g3 e hm).2)
  have m1 := mapM_some (fun e : F × List I => ClosetBuilder.siblingRelationshipF f e.2)
    (fun e => ClosetBuilder.siblingRelationship e.2) (groupPush (itemPairs cs))
    (fun e he => siblingF_eq hf _ (g1 e he))
  have m2 := mapM_some (fun p : I × I => bitorF f (negativeBranch p.1) (negativeBranch p.2))
    (fun p => ClosetBuilder.exclusionRelationship p.1 p.2) (ClosetBuilder.rulePairs (groupPush (exclPairs cs)))
    (fun p hp => by
      have a := good_negative (P := (· ∈ S)) (g2 p hp).1
      have b := good_negative (P := (· ∈ S)) (g2 p hp).2
      exact bitorF_eq _ _ ⟨a.1, a.3⟩ ⟨b.1, b.3⟩ hf)
  have m3 := mapM_some (fun p : I × I => bitorF f (negativeBranch p.1) (positiveBranch p.2))
    (fun p => ClosetBuilder.inclusionRelationship p.1 p.2) (ClosetBuilder.rulePairs (groupPush (inclPairs cs)))
    (fun p hp => by
      have a := good_negative (P := (· ∈ S)) (g3 p hp).1
      have b := good_positive (P := (· ∈ S)) (g3 p hp).2
      exact bitorF_eq _ _ ⟨a.1, a.3⟩ ⟨b.1, b.3⟩ hf)
  rw [m1, Option.bind_some, foldlM_and hf _ _ (good_leaf _ _) n1, Option.bind_some, m2, Option.bind_some,
    foldlM_and hf _ _ (good_foldl_and _ _ (good_leaf _ _) n1) n2, Option.bind_some, m3, Option.bind_some,
    foldlM_and hf _ _ (good_foldl_and _ _ (good_foldl_and _ _ (good_leaf _ _) n1) n2) n3]

theorem within_restrict {S : Finset I} {n : Node I} (h : Within S n) (x : I) (b : Bool) :
    Within S (restrict n x b) :=
  ⟨ordered_restrict h.1 x b, fun y hy => h.2 y (mentions_restrict hy)⟩

theorem restrictAllF_eq {S : Finset I} {f : Nat} (hf : S.card + 1 ≤ f) (sel : List I) (n : Node I)
    (h : Within S n) : Closet.restrictAllF f n sel = some (Closet.restrictAll n sel) := by
  induction sel generalizing n with
  | nil => rfl
  | cons x sel ih =>
    rw [Closet.restrictAllF, List.foldlM_cons, restrictF_eq n x true h hf]
    exact ih _ (within_restrict h x true)

theorem completeOutfitF_eq {S : Finset I} {f : Nat} (hf : S.card + 1 ≤ f) (c : Closet I F) (sel : List I)
    (h : Within S c.root) : c.completeOutfitF f sel = some (c.completeOutfit sel) := by
  unfold Closet.completeOutfitF Closet.completeOutfit Closet.findConflictingItems
  cases c.findUnknownItems sel with
  | some => rfl
  | none =>
    simp only
    cases c.findDuplicateItems sel with
    | none => rfl
    | some d =>
      cases d with
      | some => rfl
      | none =>
        simp only
        rw [restrictAllF_eq hf sel _ h, Option.map_some]
        cases Closet.restrictAll c.root sel with
        | Leaf v => cases v <;> rfl
        | Branch => rfl

/-! ## C86 -/

/-- C86: building a closet of `n` items, and every operation on a closet made from it, nests at most `n + 1`
recursive calls, whatever the rules and however many outfits there are. -/
theorem closet_stack (cs : List (Call I F)) (S : Finset I) (hS : ∀ i, i ∈ S ↔ Known cs i) (room : Nat)
    (h : S.card + 1 ≤ room) :
    (ClosetBuilder.run cs).buildF room = some (ClosetBuilder.run cs).build ∧
    ∀ xs c, Reached cs xs c →
      (∀ x, c.selectItemF room x = some (c.selectItem x)) ∧
      (∀ sel, c.completeOutfitF room sel = some (c.completeOutfit sel)) ∧
      nodeCountF room c.root = some c.root.nodeCount ∧ leafCountF room c.root = some c.root.leafCount ∧
      outfitCountF room c.root = some c.root.outfitCount ∧ depthF room c.root = some c.root.depth := by
  constructor
  · unfold ClosetBuilder.buildF ClosetBuilder.build
    cases e : validateCloset (ClosetBuilder.run cs).contents (ClosetBuilder.run cs).itemIndex
        (ClosetBuilder.run cs).exclusions (ClosetBuilder.run cs).inclusions with
    | error => rfl
    | ok u =>
      have hl : Legal cs := (build_validates cs).1.2 ⟨_, by
        unfold ClosetBuilder.build
        rw [e]⟩
      simp only
      rw [buildRootF_eq hl (fun i hi => (hS i).mpr hi) h]
      rfl
  · intro xs c hc
    have hg := hc.state.2.1.good
    have hw : Within S c.root := ⟨hg.1, fun x hx => (hS x).mpr (hg.3 x hx).1⟩
    obtain ⟨w1, w2, w3, w4, _⟩ := walks_exact c.root room
    have hd : c.root.depth ≤ room := le_trans (counts_depth c.root hw) h
    rw [if_pos hd] at w1 w2 w3 w4
    refine ⟨?_, fun sel => completeOutfitF_eq h c sel hw, w1, w2, w3, w4⟩
    intro x
    unfold Closet.selectItemF Closet.selectItem
    cases c.getFamily x with
    | none => rfl
    | some =>
      simp only
      cases (c.summary.filter (fun s => s.isExcluded)).find? (fun s => s.is x) with
      | some => rfl
      | none =>
        simp only
        rw [restrictF_eq c.root x true hw h]
        rfl

/-- C86: the counting functions of a closet that has an outfit need exactly one frame per known
unselected item, and one more. -/
theorem counts_stack (cs : List (Call I F)) (xs : List I) (c : Closet I F) (hc : Reached cs xs c)
    (sat : ∃ w, Outfit cs w) (S : Finset I) (hS : ∀ i, i ∈ S ↔ Known cs i ∧ i ∉ xs) (room : Nat) :
    nodeCountF room c.root = (if S.card + 1 ≤ room then some c.root.nodeCount else none) ∧
    leafCountF room c.root = (if S.card + 1 ≤ room then some c.root.leafCount else none) ∧
    outfitCountF room c.root = (if S.card + 1 ≤ room then some c.root.outfitCount else none) ∧
    depthF room c.root = (if S.card + 1 ≤ room then some c.root.depth else none) := by
  obtain ⟨S', hS', hd⟩ := (closet_counts cs xs c hc).2.2 sat
  have : S' = S := by ext i; rw [hS', hS]
  subst this
  obtain ⟨w1, w2, w3, w4, _⟩ := walks_exact c.root room
  rw [hd] at w1 w2 w3
  refine ⟨w1, w2, w3, ?_⟩
  rw [w4, hd]

/-- Walking a diagram that does not mention the item: `restrict` too needs `depth` frames. -/
theorem restrictF_all {n : Node I} {x : I} (hx : ¬ n.Mentions x) (b : Bool) (f : Nat) :
    restrictF f n x b = (if n.depth ≤ f then some (restrict n x b) else none) := by
  induction n generalizing f with
  | Leaf v =>
    cases f with
    | zero => simp [depth, restrictF]
    | succ f => cases v <;> simp [depth, restrictF, restrict]
  | Branch i l h ihl ihh =>
    cases f with
    | zero =>
      have : ¬ (Branch i l h).depth ≤ 0 := by rw [depth]; split_ifs <;> omega
      simp [this, restrictF]
    | succ f =>
      have hi : ¬ i = x := fun e => hx (Or.inl e.symm)
      rw [restrictF, restrict, if_neg hi, if_neg hi, ihl (fun h' => hx (Or.inr (Or.inl h'))) f,
        ihh (fun h' => hx (Or.inr (Or.inr h'))) f]
      have hd : (Branch i l h).depth ≤ f + 1 ↔ l.depth ≤ f ∧ h.depth ≤ f := by
        rw [depth]; split_ifs <;> omega
      by_cases c1 : l.depth ≤ f
      · by_cases c2 : h.depth ≤ f
        · rw [if_pos c1, if_pos c2, if_pos (hd.mpr ⟨c1, c2⟩)]; rfl
        · have c3 : ¬ (Branch i l h).depth ≤ f + 1 := fun e => c2 (hd.mp e).2
          rw [if_pos c1, if_neg c2, if_neg c3]; rfl
      · have c3 : ¬ (Branch i l h).depth ≤ f + 1 := fun e => c1 (hd.mp e).1
        rw [if_neg c1, if_neg c3]; rfl

/-- C86: so does completing an outfit from an item that is already selected. -/
theorem complete_stack (cs : List (Call I F)) (xs : List I) (c : Closet I F) (hc : Reached cs xs c)
    (sat : ∃ w, Outfit cs w) (S : Finset I) (hS : ∀ i, i ∈ S ↔ Known cs i ∧ i ∉ xs) (room : Nat) (x : I)
    (hx : x ∈ xs) : c.completeOutfitF room [x] = none ↔ room < S.card + 1 := by
  obtain ⟨S', hS', hd⟩ := (closet_counts cs xs c hc).2.2 sat
  have : S' = S := by ext i; rw [hS', hS]
  subst this
  have hst := hc.state
  have hk : Known cs x := hst.2.2.1 x hx
  have hm : ¬ c.root.Mentions x := fun hm => (hst.2.1.good.3 x hm).2 hx
  have hf : ∃ g, c.getFamily x = some g := by
    rw [Closet.getFamily, hst.2.1.index]
    cases e : lookup x (indexOf (itemPairs cs)) with
    | none => exact absurd hk (by rw [lookup_index_none] at e; exact e)
    | some g => exact ⟨g, rfl⟩
  obtain ⟨g, hg⟩ := hf
  have u : c.findUnknownItems [x] = none := by simp [Closet.findUnknownItems, hg]
  have d : c.findDuplicateItems [x] = some none := by
    simp [Closet.findDuplicateItems, hg, groupPush, pushTo, upsert]
  unfold Closet.completeOutfitF
  rw [u, d]
  simp only
  rw [Option.map_eq_none_iff, Closet.restrictAllF, List.foldlM_cons, restrictF_all hm, hd]
  by_cases h : S'.card + 1 ≤ room
  · rw [if_pos h]
    simp only [List.foldlM_nil]
    constructor
    · intro e; cases e
    · intro e; omega
  · rw [if_neg h]
    constructor
    · intro _; omega
    · intro _; rfl

example : ∃ c, Reached demo [4, 1] c ∧ ∀ room, c.completeOutfitF room [4] = none ↔ room < 2 + 1 := by
  obtain ⟨c, hc⟩ := demo_reached
  exact ⟨c, hc, fun room => complete_stack demo _ c hc ⟨_, demo_outfit⟩ {2, 3}
    (fun i => by rw [demo_known]; simp; omega) room 4 (by simp)⟩

/-- A closet with one single-item family per number below `n`.  Not code: used to state or prove properties. -/
def singles (n : Nat) : List (Call Nat Nat) := (List.range n).map (fun k => .item k k)

theorem singles_known (n i : Nat) : Known (singles n) i ↔ i < n := by
  simp [Known, singles]

theorem singles_legal (n : Nat) : Legal (singles n) :=
  ⟨by simp [singles]; omega, by simp [singles], by simp [singles]⟩

theorem singles_outfit (n : Nat) : Outfit (singles n) (Finset.range n) :=
  ⟨by intro i hi; rw [singles_known]; exact Finset.mem_range.mp hi, by
    refine ⟨?_, by simp [singles], by simp [singles]⟩
    intro f i hi
    have : f = i ∧ i < n := by simp [singles] at hi; omega
    refine ⟨i, ⟨hi, by simpa using this.2⟩, ?_⟩
    rintro j ⟨hj, _⟩
    simp [singles] at hj; omega⟩

/-- C86: so no fixed stack is enough: whatever its depth, there is a closet that builds, has an outfit, and
whose counts overflow it. -/
theorem no_fixed_stack (room : Nat) : ∃ (cs : List (Call Nat Nat)) (c : Closet Nat Nat) (w : Finset Nat),
    (ClosetBuilder.run cs).build = .ok c ∧ Outfit cs w ∧ nodeCountF room c.root = none ∧
    leafCountF room c.root = none ∧ outfitCountF room c.root = none ∧ depthF room c.root = none := by
  obtain ⟨c, hc⟩ := (build_validates (singles room)).1.1 (singles_legal room)
  have hs := counts_stack (singles room) [] c ⟨c, hc, rfl⟩ ⟨_, singles_outfit room⟩ (Finset.range room)
    (by intro i; rw [singles_known]; simp) room
  simp only [Finset.card_range] at hs
  rw [if_neg (by omega), if_neg (by omega), if_neg (by omega), if_neg (by omega)] at hs
  exact ⟨_, c, _, hc, singles_outfit room, hs⟩

example : ∃ c, (ClosetBuilder.run (singles 3)).buildF 4 = some (.ok c) ∧ outfitCountF 4 c.root = some 1 ∧
    outfitCountF 3 c.root = none := by
  have h := closet_stack (singles 3) (Finset.range 3) (by intro i; rw [singles_known]; simp) 4 (by simp)
  obtain ⟨c, hc⟩ := (build_validates (singles 3)).1.1 (singles_legal 3)
  have hr : Reached (singles 3) [] c := ⟨c, hc, rfl⟩
  have hs := (counts_stack (singles 3) [] c hr ⟨_, singles_outfit 3⟩ (Finset.range 3)
    (by intro i; rw [singles_known]; simp) 3).2.2.1
  refine ⟨c, by rw [h.1, hc], ?_, by simpa using hs⟩
  rw [(h.2 [] c hr).2.2.2.2.1]
  have hw := outfit_count_exact (singles 3) [] c hr
  obtain ⟨L, hL, e⟩ := hw
  rw [e]
  congr 1
  rw [Finset.card_eq_one]
  refine ⟨Finset.range 3, ?_⟩
  ext w
  rw [hL, Finset.mem_singleton]
  constructor
  · rintro ⟨ho, -⟩
    ext i
    rw [Finset.mem_range, ← singles_known]
    constructor
    · exact ho.known i
    · rintro ⟨f, hf⟩
      obtain ⟨j, ⟨hj, hw⟩, _⟩ := ho.accepts.one f i hf
      have : j = i := by simp [singles] at hj hf; omega
      exact this ▸ hw
  · rintro rfl
    exact ⟨singles_outfit 3, by simp⟩

end Verif.Bdd
