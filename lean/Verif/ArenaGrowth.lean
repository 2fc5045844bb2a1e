import Verif.ArenaMemory
import Verif.ArenaBdd
import Verif.Bdd.Cost
import Mathlib.Algebra.Order.BigOperators.Group.Finset

/-!
# How many nodes a call can add to the shared node store (C119)

The results of the BDD operations have at most as many distinct subdiagrams as pairs of subdiagrams of the operands, and
a call adds nothing to the arena but such results.
-/

set_option linter.unusedSimpArgs false
set_option linter.unusedVariables false
set_option linter.unusedSectionVars false

namespace Verif.Arena

universe u v w w'
variable {K : Type u} {L : Type v} [DecidableEq K] [DecidableEq L]

/-- Walking through the program in the arena, every node converted to an id satisfies `S` and a result satisfies `Q`.
Not code: used to state or prove properties. -/
def Safe {α : Type w} (b : Arena K L) (S : Cell K L → Prop) (Q : α → Prop) : Prog K L α → Prop
  | .ret x => Q x
  | .load i k => ∀ c, b.getById i = some c → Safe b S Q (k c)
  | .intern c k => S c ∧ ∀ i, b.getByNode c = some i → Safe b S Q (k i)
  | .panic => True
  | .spin => True

theorem Safe.bind {α : Type w} {β : Type w'} {b : Arena K L} {S : Cell K L → Prop} {Q : α → Prop} {R : β → Prop}
    {p : Prog K L α} {g : α → Prog K L β} (h : Safe b S Q p) (hg : ∀ x, Q x → Safe b S R (g x)) :
    Safe b S R (p.bind g) := by
  induction p with
  | ret x => exact hg x h
  | load i k ih => exact fun c hc => ih c (h c hc)
  | intern c k ih => exact ⟨h.1, fun i hi => ih i (h.2 i hi)⟩
  | panic => trivial
  | spin => trivial

theorem Safe.imp {α : Type w} {b : Arena K L} {S S' : Cell K L → Prop} {Q Q' : α → Prop} {p : Prog K L α}
    (h : Safe b S Q p) (hS : ∀ c, S c → S' c) (hQ : ∀ x, Q x → Q' x) : Safe b S' Q' p := by
  induction p with
  | ret x => exact hQ x h
  | load i k ih => exact fun c hc => ih c (h c hc)
  | intern c k ih => exact ⟨hS _ h.1, fun i hi => ih i (h.2 i hi)⟩
  | panic => trivial
  | spin => trivial

theorem Safe.visits {α : Type w} {b : Arena K L} {S : Cell K L → Prop} {Q : α → Prop} {p : Prog K L α}
    (h : Safe b S Q p) {c : Cell K L} (hv : Visits b c p) : S c := by
  induction hv with
  | here => exact h.1
  | load hd _ ih => exact ih (h _ hd)
  | intern hi _ ih => exact ih (h.2 _ hi)

theorem Safe.fold {α : Type w} {β : Type w'} {b : Arena K L} {S : Cell K L → Prop} {Q : List β → α → Prop}
    {step : α → β → Prog K L α} (hs : ∀ pre e acc, Q pre acc → Safe b S (Q (pre ++ [e])) (step acc e)) (es pre : List β)
    (acc : α) (h : Q pre acc) : Safe b S (Q (pre ++ es)) (foldP step es acc) := by
  induction es generalizing pre acc with
  | nil => rw [List.append_nil]; exact h
  | cons e es ih =>
    refine (hs pre e acc h).bind fun x hx => ?_
    have := ih _ x hx
    rwa [List.append_assoc, List.singleton_append] at this

/-- If every started thread converts only nodes the arena already has and nodes of diagrams of `X`, the arena grows by at
most the size of `X`. -/
theorem growth {α : Nat → Type w} {m m' : Machine K L α} (h : MRun m m') (hI : m.arena.Inv) (X : Finset (Tr K L))
    (hX : ∀ t c, m'.threads t ≠ m.threads t → VisitsT m'.arena c (m.threads t) →
      (∃ x ∈ X, CellDen m'.arena c x) ∨ ∃ i x, Unfolds m.arena i x ∧ CellDen m'.arena c x) :
    m'.arena.nodes.length ≤ m.arena.nodes.length + X.card ∧
    ∀ i c, m'.arena.getById i = some c → m.arena.getById i = some c ∨ ∃ x ∈ X, Unfolds m'.arena i x := by
  have he := mrun_ext h hI
  have new : ∀ i c, m'.arena.getById i = some c → m.arena.getById i = some c ∨ ∃ x ∈ X, Unfolds m'.arena i x := by
    intro i c hc
    rcases mrun_new h hI hc with h0 | ⟨t, ht, hv⟩
    · exact .inl h0
    · rcases hX t c ht hv with ⟨x, hx, hd⟩ | ⟨j, x, hu, hd⟩
      · exact .inr ⟨x, hx, unfolds_iff.2 ⟨c, hc, hd⟩⟩
      · left
        obtain ⟨d, h1, h2⟩ := unfolds_iff.1 hu
        have e := (cell_eq_iff he.right hd (h2.mono he)).2 rfl
        subst e
        have := unfolds_inj he.right (unfolds_iff.2 ⟨c, hc, hd⟩) (hu.mono he)
        rw [this]; exact h1
  refine ⟨?_, new⟩
  have key : ∀ i, i < m'.arena.nodes.length - m.arena.nodes.length →
      ∃ x ∈ X, Unfolds m'.arena (m.arena.nodes.length + i) x := by
    intro i hi
    have hlt : m.arena.nodes.length + i < m'.arena.nodes.length := by omega
    have hc : m'.arena.getById (m.arena.nodes.length + i) = some (m'.arena.nodes[m.arena.nodes.length + i]) := by
      rw [Arena.getById]; exact List.getElem?_eq_getElem hlt
    rcases new _ _ hc with h0 | h0
    · rw [Arena.getById, List.getElem?_eq_none (by omega)] at h0; cases h0
    · exact h0
  choose g hg1 hg2 using key
  have : (Finset.univ : Finset (Fin (m'.arena.nodes.length - m.arena.nodes.length))).card ≤ X.card := by
    refine Finset.card_le_card_of_injOn (fun i => g i.1 i.2) (fun i _ => hg1 _ _) ?_
    intro i _ j _ e
    have h1 := hg2 i.1 i.2
    dsimp only at e
    rw [e] at h1
    have := unfolds_inj he.right h1 (hg2 j.1 j.2)
    exact Fin.ext (by omega)
  rw [Finset.card_univ, Fintype.card_fin] at this
  omega

end Verif.Arena

namespace Verif.Bdd
open Verif Node

universe u
variable {I : Type u} [LinearOrder I]

theorem Node.self_subs (x : Node I) : x ∈ x.subs := by cases x <;> simp [Node.subs]

theorem Node.subs_trans {x y : Node I} (h : y ∈ x.subs) : y.subs ⊆ x.subs := by
  induction x with
  | Leaf v =>
    simp only [Node.subs, Finset.mem_singleton] at h
    subst h; exact subset_rfl
  | Branch i l r ihl ihr =>
    simp only [Node.subs, Finset.mem_insert, Finset.mem_union] at h
    rcases h with rfl | h | h
    · exact subset_rfl
    · exact (ihl h).trans (Finset.subset_union_left.trans (Finset.subset_insert _ _))
    · exact (ihr h).trans (Finset.subset_union_right.trans (Finset.subset_insert _ _))

theorem Node.low_subs (i : I) (l h : Node I) : l ∈ (Node.Branch i l h).subs := by
  simp [Node.subs, l.self_subs]

theorem Node.high_subs (i : I) (l h : Node I) : h ∈ (Node.Branch i l h).subs := by
  simp [Node.subs, h.self_subs]

theorem Node.split_subs (x : Node I) (id : I) : (x.splitBranch id).1 ∈ x.subs ∧ (x.splitBranch id).2 ∈ x.subs := by
  cases x with
  | Leaf v => simp [splitBranch, Node.subs]
  | Branch i l h =>
    simp only [splitBranch]
    split_ifs
    · exact ⟨low_subs i l h, high_subs i l h⟩
    · exact ⟨self_subs _, self_subs _⟩

theorem Node.mk_subs (id : I) (l h : Node I) : (Node.mk id l h).subs ⊆ insert (Node.mk id l h) (l.subs ∪ h.subs) := by
  unfold Node.mk
  split_ifs with e
  · exact Finset.subset_union_left.trans (Finset.subset_insert _ _)
  · exact subset_rfl

/-- The results of an operation on the subdiagrams of its operands.  Not code: used to state or prove properties. -/
def Node.pairs (op : Node I → Node I → Node I) (x y : Node I) : Finset (Node I) :=
  (x.subs ×ˢ y.subs).image fun p => op p.1 p.2

theorem Node.mem_pairs {op : Node I → Node I → Node I} {x y z : Node I} :
    z ∈ Node.pairs op x y ↔ ∃ a ∈ x.subs, ∃ b ∈ y.subs, op a b = z := by
  simp only [Node.pairs, Finset.mem_image, Finset.mem_product, Prod.exists]
  exact ⟨fun ⟨a, b, ⟨h1, h2⟩, h3⟩ => ⟨a, h1, b, h2, h3⟩, fun ⟨a, h1, b, h2, h3⟩ => ⟨a, b, ⟨h1, h2⟩, h3⟩⟩

theorem Node.pairs_mono {op : Node I → Node I → Node I} {x y a b : Node I} (ha : a ∈ x.subs) (hb : b ∈ y.subs) :
    Node.pairs op a b ⊆ Node.pairs op x y := by
  intro z hz
  obtain ⟨a', h1, b', h2, rfl⟩ := mem_pairs.1 hz
  exact mem_pairs.2 ⟨a', subs_trans ha h1, b', subs_trans hb h2, rfl⟩

theorem Node.pairs_card (op : Node I → Node I → Node I) (x y : Node I) :
    (Node.pairs op x y).card ≤ x.subs.card * y.subs.card := by
  rw [← Finset.card_product]; exact Finset.card_image_le

theorem Node.tail_subs {op : Node I → Node I → Node I} {x y a b c d : Node I} {id : I}
    (e : op x y = Node.mk id (op a b) (op c d)) (ha : a ∈ x.subs) (hb : b ∈ y.subs) (hc : c ∈ x.subs) (hd : d ∈ y.subs)
    (h1 : (op a b).subs ⊆ Node.pairs op a b) (h2 : (op c d).subs ⊆ Node.pairs op c d) :
    (op x y).subs ⊆ Node.pairs op x y := by
  intro z hz
  rw [e] at hz
  have := mk_subs id _ _ hz
  simp only [Finset.mem_insert, Finset.mem_union] at this
  rcases this with h | h | h
  · exact mem_pairs.2 ⟨x, self_subs x, y, self_subs y, by rw [h, e]⟩
  · exact pairs_mono ha hb (h1 h)
  · exact pairs_mono hc hd (h2 h)

theorem Node.bitand_subs (x y : Node I) : (bitand x y).subs ⊆ Node.pairs bitand x y := by
  fun_induction bitand x y with
  | case1 n =>
    intro z hz
    exact mem_pairs.2 ⟨z, hz, .Leaf true, self_subs _, by rw [bitand]⟩
  | case2 n hn =>
    intro z hz
    exact mem_pairs.2 ⟨.Leaf true, self_subs _, z, hz, by cases z with
      | Leaf v => cases v <;> simp [bitand]
      | Branch i l h => simp [bitand]⟩
  | case3 v1 v2 h1 h2 =>
    intro z hz
    simp only [Node.subs, Finset.mem_singleton] at hz
    refine mem_pairs.2 ⟨.Leaf v1, self_subs _, .Leaf v2, self_subs _, ?_⟩
    rw [hz]; cases v1 <;> cases v2 <;> simp [bitand]
  | case4 id l h v hv ih1 ih2 =>
    have e : bitand (.Branch id l h) (.Leaf v) = Node.mk id (bitand l (.Leaf v)) (bitand h (.Leaf v)) := by
      cases v
      · simp [bitand]
      · exact absurd rfl hv
    rw [← e]
    exact tail_subs e (low_subs _ _ _) (self_subs _) (high_subs _ _ _) (self_subs _) ih1 ih2
  | case5 v id l h hv ih1 ih2 =>
    have e : bitand (.Leaf v) (.Branch id l h) = Node.mk id (bitand (.Leaf v) l) (bitand (.Leaf v) h) := by
      cases v
      · simp [bitand]
      · exact absurd rfl hv
    rw [← e]
    exact tail_subs e (self_subs _) (low_subs _ _ _) (self_subs _) (high_subs _ _ _) ih1 ih2
  | case6 id1 l1 h1 id2 l2 h2 fid s1 s2 ih1 =>
    rename_i ih2
    have e : bitand (.Branch id1 l1 h1) (.Branch id2 l2 h2) =
        Node.mk fid (bitand s1.1 s2.1) (bitand s1.2 s2.2) := by
      rw [bitand]; rfl
    rw [← e]
    exact tail_subs e (split_subs _ _).1 (split_subs _ _).1 (split_subs _ _).2 (split_subs _ _).2 ih1 ih2

theorem Node.bitor_subs (x y : Node I) : (bitor x y).subs ⊆ Node.pairs bitor x y := by
  fun_induction bitor x y with
  | case1 n =>
    intro z hz
    exact mem_pairs.2 ⟨z, hz, .Leaf false, self_subs _, by rw [bitor]⟩
  | case2 n hn =>
    intro z hz
    exact mem_pairs.2 ⟨.Leaf false, self_subs _, z, hz, by cases z with
      | Leaf v => cases v <;> simp [bitor]
      | Branch i l h => simp [bitor]⟩
  | case3 v1 v2 h1 h2 =>
    intro z hz
    simp only [Node.subs, Finset.mem_singleton] at hz
    refine mem_pairs.2 ⟨.Leaf v1, self_subs _, .Leaf v2, self_subs _, ?_⟩
    rw [hz]; cases v1 <;> cases v2 <;> simp [bitor]
  | case4 id l h v hv ih1 ih2 =>
    have e : bitor (.Branch id l h) (.Leaf v) = Node.mk id (bitor l (.Leaf v)) (bitor h (.Leaf v)) := by
      cases v
      · exact absurd rfl hv
      · simp [bitor]
    rw [← e]
    exact tail_subs e (low_subs _ _ _) (self_subs _) (high_subs _ _ _) (self_subs _) ih1 ih2
  | case5 v id l h hv ih1 ih2 =>
    have e : bitor (.Leaf v) (.Branch id l h) = Node.mk id (bitor (.Leaf v) l) (bitor (.Leaf v) h) := by
      cases v
      · exact absurd rfl hv
      · simp [bitor]
    rw [← e]
    exact tail_subs e (self_subs _) (low_subs _ _ _) (self_subs _) (high_subs _ _ _) ih1 ih2
  | case6 id1 l1 h1 id2 l2 h2 fid s1 s2 ih1 =>
    rename_i ih2
    have e : bitor (.Branch id1 l1 h1) (.Branch id2 l2 h2) =
        Node.mk fid (bitor s1.1 s2.1) (bitor s1.2 s2.2) := by
      rw [bitor]; rfl
    rw [← e]
    exact tail_subs e (split_subs _ _).1 (split_subs _ _).1 (split_subs _ _).2 (split_subs _ _).2 ih1 ih2

theorem Node.restrict_free (item : I) (s : Bool) {x : Node I} (h : ¬ x.Mentions item) (hr : x.Reduced) :
    x.restrict item s = x := by
  induction x with
  | Leaf v => cases v <;> rfl
  | Branch i l r ihl ihr =>
    simp only [Mentions, not_or] at h
    rw [restrict_branch, if_neg (Ne.symm h.1), ihl h.2.1 hr.2.1, ihr h.2.2 hr.2.2, Node.mk, if_neg hr.1]

theorem Node.subs_mentions {x y : Node I} {i : I} (h : y ∈ x.subs) (hm : y.Mentions i) : x.Mentions i := by
  induction x with
  | Leaf v => simp only [Node.subs, Finset.mem_singleton] at h; subst h; exact hm
  | Branch j l r ihl ihr =>
    simp only [Node.subs, Finset.mem_insert, Finset.mem_union] at h
    rcases h with rfl | h | h
    · exact hm
    · exact .inr (.inl (ihl h))
    · exact .inr (.inr (ihr h))

theorem Node.subs_reduced {x y : Node I} (h : y ∈ x.subs) (hr : x.Reduced) : y.Reduced := by
  induction x with
  | Leaf v => simp only [Node.subs, Finset.mem_singleton] at h; subst h; exact hr
  | Branch j l r ihl ihr =>
    simp only [Node.subs, Finset.mem_insert, Finset.mem_union] at h
    rcases h with rfl | h | h
    · exact hr
    · exact ihl h hr.2.1
    · exact ihr h hr.2.2

theorem Node.restrict_subs (item : I) (s : Bool) {x : Node I} (ho : x.Ordered) (hr : x.Reduced) :
    (x.restrict item s).subs ⊆ x.subs.image (fun z => z.restrict item s) := by
  have keep : ∀ x z : Node I, z ∈ x.subs → z.Reduced → ¬ z.Mentions item →
      z.subs ⊆ x.subs.image (fun z => z.restrict item s) := by
    intro x z hz hr hm y hy
    refine Finset.mem_image.2 ⟨y, subs_trans hz hy, restrict_free item s (fun h => hm (subs_mentions hy h)) (subs_reduced hy hr)⟩
  induction x with
  | Leaf v => cases v <;> simp [Node.restrict, Node.subs]
  | Branch i l r ihl ihr =>
    rw [restrict_branch]
    split_ifs with e e'
    · subst e
      exact keep _ r (high_subs _ _ _) hr.2.2 (not_mentions_above ho.2.2.2 ho.2.1)
    · subst e
      exact keep _ l (low_subs _ _ _) hr.2.1 (not_mentions_above ho.2.2.1 ho.1)
    · intro z hz
      have := mk_subs i _ _ hz
      simp only [Finset.mem_insert, Finset.mem_union] at this
      rcases this with h | h | h
      · exact Finset.mem_image.2 ⟨.Branch i l r, self_subs _, by rw [h, restrict_branch, if_neg e]⟩
      · exact Finset.image_subset_image (subs_trans (low_subs i l r)) (ihl ho.2.2.1 hr.2.1 h)
      · exact Finset.image_subset_image (subs_trans (high_subs i l r)) (ihr ho.2.2.2 hr.2.2 h)

theorem Node.reduce_subs (x : Node I) : x.reduce.subs ⊆ x.subs.image Node.reduce := by
  induction x with
  | Leaf v => cases v <;> simp [Node.reduce, Node.subs]
  | Branch i l r ihl ihr =>
    have e : (Node.Branch i l r).reduce = Node.mk i l.reduce r.reduce := by simp only [Node.reduce, Node.mk]
    intro z hz
    rw [e] at hz
    have := mk_subs i _ _ hz
    simp only [Finset.mem_insert, Finset.mem_union] at this
    rcases this with h | h | h
    · exact Finset.mem_image.2 ⟨.Branch i l r, self_subs _, by rw [h, e]⟩
    · exact Finset.image_subset_image (subs_trans (low_subs i l r)) (ihl h)
    · exact Finset.image_subset_image (subs_trans (high_subs i l r)) (ihr h)

theorem Node.subs_size {x y : Node I} (h : y ∈ x.subs) : y.size ≤ x.size := by
  induction x with
  | Leaf v => simp only [Node.subs, Finset.mem_singleton] at h; subst h; exact le_rfl
  | Branch j l r ihl ihr =>
    simp only [Node.subs, Finset.mem_insert, Finset.mem_union] at h
    simp only [Node.size]
    rcases h with rfl | h | h
    · simp only [Node.size]; omega
    · have := ihl h; omega
    · have := ihr h; omega

theorem Node.not_subs (x : Node I) : x.bitnot.subs.card = x.subs.card := by
  have key : ∀ (i : I) (l r : Node I), (Node.Branch i l r).subs.card = (l.subs ∪ r.subs).card + 1 := by
    intro i l r
    simp only [Node.subs]
    rw [Finset.card_insert_of_notMem]
    intro h
    rcases Finset.mem_union.1 h with h | h
    · have := subs_size h; simp only [Node.size] at this; omega
    · have := subs_size h; simp only [Node.size] at this; omega
  cases x with
  | Leaf v => cases v <;> simp [Node.bitnot, Node.subs]
  | Branch i l r => rw [Node.bitnot, key, key, Finset.union_comm]

/-- C119: the result of an operation has at most as many distinct subdiagrams as there are pairs of subdiagrams of the
operands; fixing an item or reducing never adds any, reversing keeps their number. -/
theorem shared_size (x y : Node I) :
    (bitand x y).subs.card ≤ x.subs.card * y.subs.card ∧ (bitor x y).subs.card ≤ x.subs.card * y.subs.card ∧
    (bitxor x y).subs.card ≤ (x.subs.card * y.subs.card) ^ 2 ∧ x.bitnot.subs.card = x.subs.card ∧
    x.reduce.subs.card ≤ x.subs.card ∧
    (x.Ordered → x.Reduced → ∀ item s, (x.restrict item s).subs.card ≤ x.subs.card) := by
  have ha : ∀ x y : Node I, (bitand x y).subs.card ≤ x.subs.card * y.subs.card := fun x y =>
    (Finset.card_le_card (bitand_subs x y)).trans (pairs_card _ _ _)
  have ho : ∀ x y : Node I, (bitor x y).subs.card ≤ x.subs.card * y.subs.card := fun x y =>
    (Finset.card_le_card (bitor_subs x y)).trans (pairs_card _ _ _)
  refine ⟨ha x y, ho x y, ?_, not_subs x, (Finset.card_le_card (reduce_subs x)).trans Finset.card_image_le,
    fun o r item s => (Finset.card_le_card (restrict_subs item s o r)).trans Finset.card_image_le⟩
  refine (ho _ _).trans ?_
  have h1 := ha x y.bitnot
  have h2 := ha x.bitnot y
  rw [not_subs] at h1 h2
  rw [pow_two]
  exact Nat.mul_le_mul h1 h2

end Verif.Bdd

namespace Verif.ArenaBdd
open Verif Bdd Arena

universe u v w
variable {I : Type u} [LinearOrder I]

/-- Walking through the program in the arena, every node converted to an id is the root of a diagram of `X`.
Not code: used to state or prove properties. -/
def Within {α : Type w} (b : Arena I Bool) (X : Finset (Node I)) (Q : α → Prop) (p : Prog I Bool α) : Prop :=
  Safe b (fun c => ∃ z ∈ X, CellDen b c (tr z)) Q p

theorem Within.mono {α : Type w} {b : Arena I Bool} {X Y : Finset (Node I)} {Q : α → Prop} {p : Prog I Bool α}
    (h : Within b X Q p) (hs : X ⊆ Y) : Within b Y Q p :=
  Safe.imp h (fun _ ⟨z, hz, d⟩ => ⟨z, hs hz, d⟩) (fun _ hx => hx)

theorem within_load {α : Type w} {b : Arena I Bool} {X : Finset (Node I)} {Q : α → Prop} {k : C I → Prog I Bool α}
    {i : Nat} {x : Node I} (u : Unfolds b i (tr x)) (h : ∀ c, CellDen b c (tr x) → Within b X Q (k c)) :
    Within b X Q (.load i k) := by
  intro c hc
  obtain ⟨c', h1, h2⟩ := unfolds_iff.1 u
  rw [hc] at h1
  cases h1
  exact h c h2

theorem within_mk {b : Arena I Bool} (hI : b.Inv) {X : Finset (Node I)} {id : I} {c d : C I} {l h : Node I}
    (hc : CellDen b c (tr l)) (hd : CellDen b d (tr h)) (hl : l ∈ X) (hh : h ∈ X) :
    Within b X (fun r => CellDen b r (tr (Node.mk id l h)))
      (if c = d then .ret c else branchP id (.node c) (.node d)) := by
  have := cell_eq_iff hI hc hd
  rw [tr_inj] at this
  rw [Node.mk]
  by_cases e : c = d
  · rw [if_pos e, if_pos (this.1 e)]; exact hc
  · rw [if_neg e, if_neg (fun h => e (this.2 h))]
    refine ⟨⟨l, hl, hc⟩, fun i hi => ⟨⟨h, hh, hd⟩, fun j hj => ?_⟩⟩
    exact ⟨tr l, tr h, rfl, unfolds_iff.2 ⟨c, (hI.index _ _).1 hi, hc⟩, unfolds_iff.2 ⟨d, (hI.index _ _).1 hj, hd⟩⟩

theorem within_split {b : Arena I Bool} {X : Finset (Node I)} {n : Node I} {c : C I} (hc : CellDen b c (tr n)) (id : I) :
    Within b X (fun r => CellDen b r.1 (tr (n.splitBranch id).1) ∧ CellDen b r.2 (tr (n.splitBranch id).2))
      (splitP c id) := by
  cases n with
  | Leaf v =>
    obtain rfl := hc.leaf_inv
    exact ⟨hc, hc⟩
  | Branch i l h =>
    obtain ⟨lo, hi, rfl, ul, uh⟩ := hc.branch_inv
    simp only [splitP, Node.splitBranch]
    split_ifs
    · exact within_load ul fun c d => within_load uh fun c2 d2 => ⟨d, d2⟩
    · exact ⟨hc, hc⟩

theorem within_tail {b : Arena I Bool} (hI : b.Inv) {X : Finset (Node I)} {rec : C I → C I → P I}
    {op : Node I → Node I → Node I} {n m : Node I} {id : I} {c d : C I}
    (hr : ∀ c d x y, x ∈ n.subs → y ∈ m.subs → CellDen b c (tr x) → CellDen b d (tr y) →
      Within b X (fun r => CellDen b r (tr (op x y))) (rec c d))
    (hX : Node.pairs op n m ⊆ X) (hc : CellDen b c (tr n)) (hd : CellDen b d (tr m)) :
    Within b X (fun r => CellDen b r (tr (Node.mk id (op (n.splitBranch id).1 (m.splitBranch id).1)
      (op (n.splitBranch id).2 (m.splitBranch id).2)))) (bitTail rec id c d) := by
  refine Safe.bind (within_split hc id) fun s1 q1 => ?_
  refine Safe.bind (within_split hd id) fun s2 q2 => ?_
  have p1 := n.split_subs id
  have p2 := m.split_subs id
  refine Safe.bind (hr _ _ _ _ p1.1 p2.1 q1.1 q2.1) fun r1 q3 => ?_
  refine Safe.bind (hr _ _ _ _ p1.2 p2.2 q1.2 q2.2) fun r2 q4 => ?_
  exact within_mk hI q3 q4 (hX (Node.mem_pairs.2 ⟨_, p1.1, _, p2.1, rfl⟩)) (hX (Node.mem_pairs.2 ⟨_, p1.2, _, p2.2, rfl⟩))

theorem split_same (id : I) (l h : Node I) : (Node.Branch id l h).splitBranch id = (l, h) := by
  rw [Node.splitBranch, if_pos rfl]

theorem within_and {b : Arena I Bool} (hI : b.Inv) {X : Finset (Node I)} (f : Nat) {x y : Node I} {c d : C I}
    (hX : Node.pairs Node.bitand x y ⊆ X) (hc : CellDen b c (tr x)) (hd : CellDen b d (tr y)) :
    Within b X (fun r => CellDen b r (tr (Node.bitand x y))) (bitandP f c d) := by
  induction f generalizing x y c d with
  | zero => trivial
  | succ f ih =>
    have hr : ∀ c d x' y', x' ∈ x.subs → y' ∈ y.subs → CellDen b c (tr x') → CellDen b d (tr y') →
        Within b X (fun r => CellDen b r (tr (Node.bitand x' y'))) (bitandP f c d) :=
      fun c d x' y' h1 h2 h3 h4 => ih ((Node.pairs_mono h1 h2).trans hX) h3 h4
    rw [bitandP]
    cases x with
    | Leaf v1 =>
      obtain rfl := hc.leaf_inv
      cases y with
      | Leaf v2 =>
        obtain rfl := hd.leaf_inv
        cases v1 <;> cases v2 <;> simp [bitandBody, Node.bitand, Within, Safe, tr, CellDen]
      | Branch i l h =>
        obtain ⟨lo, hi, rfl, ul, uh⟩ := hd.branch_inv
        cases v1
        · have := within_tail (id := i) hI hr hX hc hd
          rw [split_same] at this
          simpa [bitandBody, Node.bitand, Node.splitBranch] using this
        · simpa [bitandBody, Node.bitand, Within, Safe] using hd
    | Branch i l h =>
      obtain ⟨lo, hi, rfl, ul, uh⟩ := hc.branch_inv
      cases y with
      | Leaf v =>
        obtain rfl := hd.leaf_inv
        cases v
        · have := within_tail (id := i) hI hr hX hc hd
          rw [split_same] at this
          simpa [bitandBody, Node.bitand, Node.splitBranch] using this
        · simpa [bitandBody, Node.bitand, Within, Safe] using hc
      | Branch i2 l2 h2 =>
        obtain ⟨lo2, hi2, rfl, ul2, uh2⟩ := hd.branch_inv
        have := within_tail (id := if i ≤ i2 then i else i2) hI hr hX hc hd
        rw [Node.bitand]
        exact this

theorem within_or {b : Arena I Bool} (hI : b.Inv) {X : Finset (Node I)} (f : Nat) {x y : Node I} {c d : C I}
    (hX : Node.pairs Node.bitor x y ⊆ X) (hc : CellDen b c (tr x)) (hd : CellDen b d (tr y)) :
    Within b X (fun r => CellDen b r (tr (Node.bitor x y))) (bitorP f c d) := by
  induction f generalizing x y c d with
  | zero => trivial
  | succ f ih =>
    have hr : ∀ c d x' y', x' ∈ x.subs → y' ∈ y.subs → CellDen b c (tr x') → CellDen b d (tr y') →
        Within b X (fun r => CellDen b r (tr (Node.bitor x' y'))) (bitorP f c d) :=
      fun c d x' y' h1 h2 h3 h4 => ih ((Node.pairs_mono h1 h2).trans hX) h3 h4
    rw [bitorP]
    cases x with
    | Leaf v1 =>
      obtain rfl := hc.leaf_inv
      cases y with
      | Leaf v2 =>
        obtain rfl := hd.leaf_inv
        cases v1 <;> cases v2 <;> simp [bitorBody, Node.bitor, Within, Safe, tr, CellDen]
      | Branch i l h =>
        obtain ⟨lo, hi, rfl, ul, uh⟩ := hd.branch_inv
        cases v1
        · simpa [bitorBody, Node.bitor, Within, Safe] using hd
        · have := within_tail (id := i) hI hr hX hc hd
          rw [split_same] at this
          simpa [bitorBody, Node.bitor, Node.splitBranch] using this
    | Branch i l h =>
      obtain ⟨lo, hi, rfl, ul, uh⟩ := hc.branch_inv
      cases y with
      | Leaf v =>
        obtain rfl := hd.leaf_inv
        cases v
        · simpa [bitorBody, Node.bitor, Within, Safe] using hc
        · have := within_tail (id := i) hI hr hX hc hd
          rw [split_same] at this
          simpa [bitorBody, Node.bitor, Node.splitBranch] using this
      | Branch i2 l2 h2 =>
        obtain ⟨lo2, hi2, rfl, ul2, uh2⟩ := hd.branch_inv
        have := within_tail (id := if i ≤ i2 then i else i2) hI hr hX hc hd
        rw [Node.bitor]
        exact this

theorem within_not {b : Arena I Bool} {X : Finset (Node I)} {x : Node I} {c : C I} (hc : CellDen b c (tr x)) :
    Within b X (fun r => CellDen b r (tr x.bitnot)) (bitnotP c) := by
  cases x with
  | Leaf v => obtain rfl := hc.leaf_inv; cases v <;> exact rfl
  | Branch i l h =>
    obtain ⟨lo, hi, rfl, ul, uh⟩ := hc.branch_inv
    exact ⟨tr h, tr l, rfl, uh, ul⟩

/-- The diagrams made by an exclusive or.  Not code: used to state or prove properties. -/
def xorNodes (x y : Node I) : Finset (Node I) :=
  Node.pairs Node.bitand x y.bitnot ∪ Node.pairs Node.bitand x.bitnot y ∪
    Node.pairs Node.bitor (x.bitand y.bitnot) (x.bitnot.bitand y)

theorem xorNodes_card (x y : Node I) :
    (xorNodes x y).card ≤ 2 * (x.subs.card * y.subs.card) + (x.subs.card * y.subs.card) ^ 2 := by
  have h1 := Node.pairs_card Node.bitand x y.bitnot
  have h2 := Node.pairs_card Node.bitand x.bitnot y
  have h3 := Node.pairs_card Node.bitor (x.bitand y.bitnot) (x.bitnot.bitand y)
  have h4 := (shared_size x y.bitnot).1
  have h5 := (shared_size x.bitnot y).1
  rw [Node.not_subs] at h1 h2 h4 h5
  have h6 := h3.trans (Nat.mul_le_mul h4 h5)
  rw [← pow_two] at h6
  have h7 := Finset.card_union_le (Node.pairs Node.bitand x y.bitnot ∪ Node.pairs Node.bitand x.bitnot y)
    (Node.pairs Node.bitor (x.bitand y.bitnot) (x.bitnot.bitand y))
  have h8 := Finset.card_union_le (Node.pairs Node.bitand x y.bitnot) (Node.pairs Node.bitand x.bitnot y)
  rw [xorNodes]
  omega

theorem within_xor {b : Arena I Bool} (hI : b.Inv) {X : Finset (Node I)} (f : Nat) {x y : Node I} {c d : C I}
    (hX : xorNodes x y ⊆ X) (hc : CellDen b c (tr x)) (hd : CellDen b d (tr y)) :
    Within b X (fun r => CellDen b r (tr (Node.bitxor x y))) (bitxorP f c d) := by
  rw [xorNodes] at hX
  refine Safe.bind (within_not hd) fun r q1 => ?_
  refine Safe.bind (within_and hI f ((Finset.subset_union_left.trans Finset.subset_union_left).trans hX) hc q1) fun a q2 => ?_
  refine Safe.bind (within_not hc) fun l q3 => ?_
  refine Safe.bind (within_and hI f ((Finset.subset_union_right.trans Finset.subset_union_left).trans hX) q3 hd) fun e q4 => ?_
  exact within_or hI f (Finset.subset_union_right.trans hX) q2 q4

theorem within_reduce {b : Arena I Bool} (hI : b.Inv) {X : Finset (Node I)} (f : Nat) {x : Node I} {c : C I}
    (hX : x.subs.image Node.reduce ⊆ X) (hc : CellDen b c (tr x)) :
    Within b X (fun r => CellDen b r (tr x.reduce)) (reduceP f c) := by
  induction f generalizing x c with
  | zero => trivial
  | succ f ih =>
    cases x with
    | Leaf v => obtain rfl := hc.leaf_inv; cases v <;> exact rfl
    | Branch i l h =>
      obtain ⟨lo, hi, rfl, ul, uh⟩ := hc.branch_inv
      rw [reduceP]
      refine within_load ul fun c1 d1 => within_load uh fun c2 d2 => ?_
      have sl := Node.low_subs i l h
      have sh := Node.high_subs i l h
      refine Safe.bind (ih ((Finset.image_subset_image (Node.subs_trans sl)).trans hX) d1) fun r1 q1 => ?_
      refine Safe.bind (ih ((Finset.image_subset_image (Node.subs_trans sh)).trans hX) d2) fun r2 q2 => ?_
      have := within_mk (id := i) hI q1 q2 (hX (Finset.mem_image_of_mem _ sl)) (hX (Finset.mem_image_of_mem _ sh))
      simp only [Node.reduce, Node.mk] at this ⊢
      exact this

theorem within_restrict {b : Arena I Bool} (hI : b.Inv) {X : Finset (Node I)} (f : Nat) {x : Node I} {c : C I} (item : I)
    (s : Bool) (hX : x.subs.image (fun z => z.restrict item s) ⊆ X) (hc : CellDen b c (tr x)) :
    Within b X (fun r => CellDen b r (tr (x.restrict item s))) (restrictP f c item s) := by
  induction f generalizing x c with
  | zero => trivial
  | succ f ih =>
    cases x with
    | Leaf v => obtain rfl := hc.leaf_inv; cases v <;> exact rfl
    | Branch i l h =>
      obtain ⟨lo, hi, rfl, ul, uh⟩ := hc.branch_inv
      rw [restrictP, Node.restrict_branch]
      refine within_load ul fun c1 d1 => within_load uh fun c2 d2 => ?_
      have sl := Node.low_subs i l h
      have sh := Node.high_subs i l h
      split_ifs with e1 e2 e3
      · cases s <;> simp_all
      · exact d2
      · exact d1
      · cases s <;> simp_all
      · refine Safe.bind (ih ((Finset.image_subset_image (Node.subs_trans sl)).trans hX) d1) fun r1 q1 => ?_
        refine Safe.bind (ih ((Finset.image_subset_image (Node.subs_trans sh)).trans hX) d2) fun r2 q2 => ?_
        exact within_mk (id := i) hI q1 q2 (hX (Finset.mem_image_of_mem (fun z => z.restrict item s) sl))
          (hX (Finset.mem_image_of_mem (fun z => z.restrict item s) sh))

/-! ## Closets -/

/-- The diagrams made by fixing items one after another.  Not code: used to state or prove properties. -/
def restricts : Node I → List I → Finset (Node I)
  | _, [] => ∅
  | x, i :: is => x.subs.image (fun z => z.restrict i true) ∪ restricts (x.restrict i true) is

theorem restricts_card {x : Node I} (o : x.Ordered) (r : x.Reduced) (is : List I) :
    (restricts x is).card ≤ is.length * x.subs.card := by
  induction is generalizing x with
  | nil => simp [restricts]
  | cons i is ih =>
    have h1 := ih (Node.ordered_restrict o i true) (Node.reduced_restrict r i true)
    have h2 := (shared_size x x).2.2.2.2.2 o r i true
    have h3 := Finset.card_union_le (x.subs.image (fun z => z.restrict i true)) (restricts (x.restrict i true) is)
    have h4 : (x.subs.image (fun z => z.restrict i true)).card ≤ x.subs.card := Finset.card_image_le
    have h5 := Nat.mul_le_mul_left is.length h2
    rw [restricts, List.length_cons, Nat.add_mul, Nat.one_mul]
    omega

theorem within_summarizeLoop {b : Arena I Bool} {X : Finset (Node I)} (f : Nat) (q : List (C I))
    (nodes : List (I × List (Status I))) : Within b X (fun _ => True) (summarizeLoopP f q nodes) := by
  induction f generalizing q nodes with
  | zero => trivial
  | succ f ih =>
    cases q with
    | nil => trivial
    | cons c q =>
      cases c with
      | leaf v => exact ih _ _
      | branch i l h => exact fun c _ c2 _ => ih _ _

theorem within_summarize {b : Arena I Bool} {X : Finset (Node I)} (f : Nat) (c : C I) :
    Within b X (fun _ => True) (summarizeP f c) :=
  Safe.bind (within_summarizeLoop f _ _) fun _ _ => trivial

theorem within_walk {b : Arena I Bool} {X : Finset (Node I)} (f : Nat) (c : C I) (o : List I) :
    Within b X (fun _ => True) (walkP f c o) := by
  induction f generalizing c o with
  | zero => trivial
  | succ f ih =>
    cases c with
    | leaf v => trivial
    | branch i l h =>
      intro c _ c2 _
      dsimp only
      split_ifs
      · exact ih _ _
      · exact ih _ _

variable {F : Type v} [LinearOrder F]

theorem within_select {b : Arena I Bool} (hI : b.Inv) {X : Finset (Node I)} (f : Nat) {x : Node I} {c : ClosetC I F}
    (item : I) (hX : x.subs.image (fun z => z.restrict item true) ⊆ X) (hc : CellDen b c.root (tr x)) :
    Within b X (fun r => ∀ c', r = .ok c' → CellDen b c'.root (tr (x.restrict item true))) (selectItemP f c item) := by
  rw [selectItemP]
  split
  · exact fun c' h => nomatch h
  · split
    · exact fun c' h => nomatch h
    · refine Safe.bind (within_restrict hI f item true hX hc) fun r q => ?_
      refine Safe.bind (within_summarize f r) fun s _ => ?_
      rintro c' ⟨⟩
      exact q

theorem within_selects {b : Arena I Bool} (hI : b.Inv) {X : Finset (Node I)} (f : Nat) {x : Node I} {c : ClosetC I F}
    (is : List I) (hX : restricts x is ⊆ X) (hc : CellDen b c.root (tr x)) :
    Within b X (fun _ => True) (selectAllP f c is) := by
  induction is generalizing x c with
  | nil => trivial
  | cons i is ih =>
    rw [restricts] at hX
    refine Safe.bind (within_select hI f i (Finset.subset_union_left.trans hX) hc) fun r q => ?_
    cases r with
    | error e => trivial
    | ok c' => exact ih (Finset.subset_union_right.trans hX) (q c' rfl)

theorem within_restrictAll {b : Arena I Bool} (hI : b.Inv) {X : Finset (Node I)} (f : Nat) {x : Node I} {c : C I}
    (is : List I) (hX : restricts x is ⊆ X) (hc : CellDen b c (tr x)) :
    Within b X (fun _ => True) (restrictAllP f c is) := by
  rw [restrictAllP]
  induction is generalizing x c with
  | nil => trivial
  | cons i is ih =>
    rw [restricts] at hX
    exact Safe.bind (within_restrict hI f i true (Finset.subset_union_left.trans hX) hc) fun r q =>
      ih (Finset.subset_union_right.trans hX) q

theorem within_complete {b : Arena I Bool} (hI : b.Inv) {X : Finset (Node I)} (f : Nat) {x : Node I} {c : ClosetC I F}
    (is : List I) (hX : restricts x is ⊆ X) (hc : CellDen b c.root (tr x)) :
    Within b X (fun _ => True) (completeP f c is) := by
  rw [completeP]
  split
  · trivial
  · split
    · trivial
    · trivial
    · refine Safe.bind (within_restrictAll hI f is hX hc) fun r _ => ?_
      split
      · trivial
      · refine Safe.bind (within_restrictAll hI f is hX hc) fun r _ => ?_
        exact Safe.bind (within_walk f r is) fun _ _ => trivial

end Verif.ArenaBdd

namespace Verif.ArenaBdd
open Verif Bdd Arena

universe u
variable {I F : Type u} [LinearOrder I] [LinearOrder F]

/-- A program running one call of the API, and the number of nodes it may add to the store: the operands are nodes of the
arena `a` denoting the diagrams `x` and `y`, the fuel `f` is arbitrary.  Not code: used to state or prove properties. -/
inductive Request (F : Type u) [LinearOrder F] (a : Arena I Bool) : (α : Type u) → Prog I Bool α → Nat → Prop where
  /-- bowtie-core/src/bdd/node/bit_operations.rs:61-94 -/
  | and (f : Nat) {c d : C I} {x y : Node I} : CellDen a c (tr x) → CellDen a d (tr y) →
      Request F a (C I) (bitandP f c d) (x.subs.card * y.subs.card)
  /-- bowtie-core/src/bdd/node/bit_operations.rs:22-59 -/
  | or (f : Nat) {c d : C I} {x y : Node I} : CellDen a c (tr x) → CellDen a d (tr y) →
      Request F a (C I) (bitorP f c d) (x.subs.card * y.subs.card)
  /-- bowtie-core/src/bdd/node/bit_operations.rs:96-102 -/
  | xor (f : Nat) {c d : C I} {x y : Node I} : CellDen a c (tr x) → CellDen a d (tr y) →
      Request F a (C I) (bitxorP f c d) (2 * (x.subs.card * y.subs.card) + (x.subs.card * y.subs.card) ^ 2)
  /-- bowtie-core/src/bdd/node/bit_operations.rs:104-114 -/
  | not {c : C I} {x : Node I} : CellDen a c (tr x) → Request F a (C I) (bitnotP c) 0
  /-- bowtie-core/src/bdd/node/reduce.rs:4-22 -/
  | reduce (f : Nat) {c : C I} {x : Node I} : CellDen a c (tr x) → Request F a (C I) (reduceP f c) x.subs.card
  /-- bowtie-core/src/bdd/node/restrict.rs:5-27 -/
  | restrict (f : Nat) {c : C I} {x : Node I} (item : I) (s : Bool) : CellDen a c (tr x) →
      Request F a (C I) (restrictP f c item s) x.subs.card
  /-- bowtie-core/src/bdd/node/summarize.rs:10-37 -/
  | summarize (f : Nat) (c : C I) : Request F a (List (Status I)) (summarizeP f c) 0
  /-- bowtie-core/src/bdd/closet/select.rs:10-30 -/
  | select (f : Nat) {c : ClosetC I F} {x : Node I} (item : I) : CellDen a c.root (tr x) →
      Request F a (Except (SelectItemError I) (ClosetC I F)) (selectItemP f c item) x.subs.card
  /-- A history of calls of bowtie-core/src/bdd/closet/select.rs:10-30 -/
  | selects (f : Nat) {c : ClosetC I F} {x : Node I} (items : List I) : CellDen a c.root (tr x) → x.Ordered → x.Reduced →
      Request F a (Except (SelectItemError I) (ClosetC I F)) (selectAllP f c items) (items.length * x.subs.card)
  /-- bowtie-core/src/bdd/closet/complete_outfit.rs:13-104 -/
  | complete (f : Nat) {c : ClosetC I F} {x : Node I} (items : List I) : CellDen a c.root (tr x) → x.Ordered → x.Reduced →
      Request F a (Except (OutfitError I F) (List I)) (completeP f c items) (items.length * x.subs.card)

theorem Request.within {a : Arena I Bool} {α : Type u} {p : Prog I Bool α} {n : Nat} (h : Request F a α p n) :
    ∃ X : Finset (Node I), X.card ≤ n ∧ ∀ b, Ext a b → Within b X (fun _ => True) p := by
  have imp : ∀ {b : Arena I Bool} {β : Type u} {X : Finset (Node I)} {Q : β → Prop} {p : Prog I Bool β},
      Within b X Q p → Within b X (fun _ => True) p := fun h => Safe.imp h (fun _ h => h) (fun _ _ => trivial)
  cases h with
  | and f hc hd => exact ⟨_, Node.pairs_card _ _ _, fun b e => imp (within_and e.right f subset_rfl (hc.mono e) (hd.mono e))⟩
  | or f hc hd => exact ⟨_, Node.pairs_card _ _ _, fun b e => imp (within_or e.right f subset_rfl (hc.mono e) (hd.mono e))⟩
  | xor f hc hd => exact ⟨_, xorNodes_card _ _, fun b e => imp (within_xor e.right f subset_rfl (hc.mono e) (hd.mono e))⟩
  | not hc => exact ⟨∅, le_rfl, fun b e => imp (within_not (hc.mono e))⟩
  | reduce f hc => exact ⟨_, Finset.card_image_le, fun b e => imp (within_reduce e.right f subset_rfl (hc.mono e))⟩
  | restrict f item s hc =>
    exact ⟨_, Finset.card_image_le, fun b e => imp (within_restrict e.right f item s subset_rfl (hc.mono e))⟩
  | summarize f c => exact ⟨∅, le_rfl, fun b e => within_summarize f c⟩
  | select f item hc =>
    exact ⟨_, Finset.card_image_le, fun b e => imp (within_select e.right f item subset_rfl (hc.mono e))⟩
  | selects f items hc o r => exact ⟨_, restricts_card o r items, fun b e => within_selects e.right f items subset_rfl (hc.mono e)⟩
  | complete f items hc o r =>
    exact ⟨_, restricts_card o r items, fun b e => within_complete e.right f items subset_rfl (hc.mono e)⟩

/-- C119: threads running calls of the API on diagrams of a shared store, in any interleaving and stopped anywhere, add
at most the sum of their bounds to it. -/
theorem store_growth {α : Nat → Type u} {m m' : Machine I Bool α} (h : MRun m m') (hI : m.arena.Inv) (S : Finset Nat)
    (n : Nat → Nat) (idle : ∀ t, t ∉ S → m'.threads t = m.threads t)
    (busy : ∀ t ∈ S, ∃ p, m.threads t = .run p ∧ Request F m.arena (α t) p (n t)) :
    m'.arena.nodes.length ≤ m.arena.nodes.length + ∑ t ∈ S, n t := by
  classical
  have key : ∀ t, ∃ X : Finset (Node I), t ∈ S → X.card ≤ n t ∧ ∀ c, VisitsT m'.arena c (m.threads t) →
      ∃ z ∈ X, CellDen m'.arena c (tr z) := by
    intro t
    by_cases ht : t ∈ S
    · obtain ⟨p, hp, hc⟩ := busy t ht
      obtain ⟨X, h1, h2⟩ := hc.within
      refine ⟨X, fun _ => ⟨h1, fun c hv => ?_⟩⟩
      rw [hp] at hv
      exact Safe.visits (h2 _ (mrun_ext h hI)) hv
    · exact ⟨∅, fun h => absurd h ht⟩
  choose X hX using key
  have := (growth h hI ((S.biUnion X).image tr) (fun t c ht hv => ?_)).1
  · have h1 : ((S.biUnion X).image tr).card ≤ (S.biUnion X).card := Finset.card_image_le
    have h2 : (S.biUnion X).card ≤ ∑ t ∈ S, (X t).card := Finset.card_biUnion_le
    have h3 : ∑ t ∈ S, (X t).card ≤ ∑ t ∈ S, n t := Finset.sum_le_sum fun t ht => (hX t ht).1
    omega
  · have hs : t ∈ S := by by_contra hn; exact ht (idle t hn)
    obtain ⟨z, hz, hd⟩ := (hX t hs).2 c hv
    exact .inl ⟨tr z, Finset.mem_image_of_mem _ (Finset.mem_biUnion.2 ⟨t, hs, hz⟩), hd⟩

/-- `shared_size` says something: three items joined by "and" share, and the diagrams compared are different. -/
example : (Node.bitand (Node.positiveBranch 0) (Node.bitor (Node.positiveBranch 1) (Node.positiveBranch 2)) : Node Nat).subs.card = 5 ∧
    (Node.positiveBranch 0 : Node Nat).subs.card = 3 ∧
    (Node.bitor (Node.positiveBranch 1) (Node.positiveBranch 2) : Node Nat).subs.card = 4 ∧
    (Node.bitxor (Node.positiveBranch 0) (Node.positiveBranch 1) : Node Nat).subs.card = 5 ∧
    (Node.restrict (Node.bitor (Node.positiveBranch 1) (Node.positiveBranch 2)) 1 false : Node Nat).subs.card = 3 := by
  decide +kernel

/-- The hypotheses of `store_growth` are met by a thread joining items 0 and 1 by "or": it really adds a node. -/
example : ∃ m m' : Machine Nat Bool (fun _ => C Nat), MRun m m' ∧ m.arena.Inv ∧
    (∀ t, t ∉ ({0} : Finset Nat) → m'.threads t = m.threads t) ∧
    (∀ t ∈ ({0} : Finset Nat), ∃ p, m.threads t = .run p ∧ Request Nat m.arena (C Nat) p 9) ∧
    m.arena.nodes.length = 2 ∧ m'.arena.nodes.length = 3 := by
  have hI : (Arena.init false true : Arena Nat Bool).Inv := init_inv (by decide)
  have u0 : Unfolds (Arena.init false true : Arena Nat Bool) 0 (.leaf false) := .leaf rfl
  have u1 : Unfolds (Arena.init false true : Arena Nat Bool) 1 (.leaf true) := .leaf rfl
  let m : Machine Nat Bool (fun _ => C Nat) := ⟨Arena.init false true, fun _ => .run (bitorP 3 (.branch 0 0 1) (.branch 1 0 1))⟩
  refine ⟨m, _, .cons (.step 0 (.load rfl)) (.cons (.step 0 (.load rfl)) (.cons (.step 0 (.load rfl))
    (.cons (.step 0 (.load rfl)) (.cons (.step 0 .addDirect) (.cons (.step 0 (.hit rfl)) (.nil _)))))), hI, ?_, ?_, rfl, rfl⟩
  · intro t ht
    have : t ≠ 0 := by simpa using ht
    simp only [Function.update_of_ne this]
  · intro t _
    have := Request.or (F := Nat) 3 (a := (Arena.init false true : Arena Nat Bool)) (c := .branch 0 0 1) (d := .branch 1 0 1)
      (x := Node.positiveBranch 0) (y := Node.positiveBranch 1) ⟨_, _, rfl, u0, u1⟩ ⟨_, _, rfl, u0, u1⟩
    exact ⟨_, rfl, this⟩

end Verif.ArenaBdd
