import Verif.ArenaGrowth
import Verif.ArenaZdd1
import Verif.Zdd1.Cost

/-!
# How many nodes a call of the v1 tree API can add to the shared node store (C120)
-/

set_option linter.unusedSimpArgs false
set_option linter.unusedVariables false
set_option linter.unusedSectionVars false

namespace Verif.Zdd1.Node
open Verif

/-- The distinct subdiagrams of a diagram.  Not code: used to state or prove properties. -/
def subs : Node → Finset Node
  | .Branch i l h => insert (.Branch i l h) (l.subs ∪ h.subs)
  | .Leaf b => {.Leaf b}

theorem self_subs (x : Node) : x ∈ x.subs := by cases x <;> simp [subs]

theorem subs_trans {x y : Node} (h : y ∈ x.subs) : y.subs ⊆ x.subs := by
  induction x with
  | Leaf v =>
    simp only [subs, Finset.mem_singleton] at h
    subst h; exact subset_rfl
  | Branch i l r ihl ihr =>
    simp only [subs, Finset.mem_insert, Finset.mem_union] at h
    rcases h with rfl | h | h
    · exact subset_rfl
    · exact (ihl h).trans (Finset.subset_union_left.trans (Finset.subset_insert _ _))
    · exact (ihr h).trans (Finset.subset_union_right.trans (Finset.subset_insert _ _))

theorem low_subs (i : Nat) (l h : Node) : l ∈ (Node.Branch i l h).subs := by simp [subs, l.self_subs]

theorem high_subs (i : Nat) (l h : Node) : h ∈ (Node.Branch i l h).subs := by simp [subs, h.self_subs]

theorem finish_subs (id : Nat) (l h : Node) : (finish id l h).subs ⊆ insert (finish id l h) (l.subs ∪ h.subs) := by
  unfold finish
  split_ifs with e
  · exact Finset.subset_union_left.trans (Finset.subset_insert _ _)
  · exact subset_rfl

theorem subs_card (x : Node) : x.subs.card ≤ x.size := by
  induction x with
  | Leaf v => simp [subs, size]
  | Branch i l r ihl ihr =>
    simp only [subs, size]
    have h1 := Finset.card_insert_le (Node.Branch i l r) (l.subs ∪ r.subs)
    have h2 := Finset.card_union_le l.subs r.subs
    omega

/-- The results of an operation on the subdiagrams of its operands.  Not code: used to state or prove properties. -/
def pairs (op : Node → Node → Node) (x y : Node) : Finset Node := (x.subs ×ˢ y.subs).image fun p => op p.1 p.2

theorem mem_pairs {op : Node → Node → Node} {x y z : Node} :
    z ∈ pairs op x y ↔ ∃ a ∈ x.subs, ∃ b ∈ y.subs, op a b = z := by
  simp only [pairs, Finset.mem_image, Finset.mem_product, Prod.exists]
  exact ⟨fun ⟨a, b, ⟨h1, h2⟩, h3⟩ => ⟨a, h1, b, h2, h3⟩, fun ⟨a, h1, b, h2, h3⟩ => ⟨a, b, ⟨h1, h2⟩, h3⟩⟩

theorem pairs_mono {op : Node → Node → Node} {x y a b : Node} (ha : a ∈ x.subs) (hb : b ∈ y.subs) :
    pairs op a b ⊆ pairs op x y := by
  intro z hz
  obtain ⟨a', h1, b', h2, rfl⟩ := mem_pairs.1 hz
  exact mem_pairs.2 ⟨a', subs_trans ha h1, b', subs_trans hb h2, rfl⟩

theorem pairs_card (op : Node → Node → Node) (x y : Node) : (pairs op x y).card ≤ x.subs.card * y.subs.card := by
  rw [← Finset.card_product]; exact Finset.card_image_le

end Verif.Zdd1.Node

namespace Verif.ArenaZdd1
open Verif Zdd1 Arena Node

universe u v w

/-- Walking through the program in the arena, every node converted to an id is the root of a diagram of `X`.
Not code: used to state or prove properties. -/
def Within {α : Type w} (b : Arena Nat Bool) (X : Finset Node) (Q : α → Prop) (p : Prog Nat Bool α) : Prop :=
  Safe b (fun c => ∃ z ∈ X, CellDen b c (tr z)) Q p

theorem Within.mono {α : Type w} {b : Arena Nat Bool} {X Y : Finset Node} {Q : α → Prop} {p : Prog Nat Bool α}
    (h : Within b X Q p) (hs : X ⊆ Y) : Within b Y Q p :=
  Safe.imp h (fun _ ⟨z, hz, d⟩ => ⟨z, hs hz, d⟩) (fun _ hx => hx)

theorem Within.any {α : Type w} {b : Arena Nat Bool} {X : Finset Node} {Q : α → Prop} {p : Prog Nat Bool α}
    (h : Within b X Q p) : Within b X (fun _ => True) p := Safe.imp h (fun _ h => h) (fun _ _ => trivial)

theorem within_load {α : Type w} {b : Arena Nat Bool} {X : Finset Node} {Q : α → Prop} {k : C → Prog Nat Bool α}
    {i : Nat} {x : Node} (u : Unfolds b i (tr x)) (h : ∀ c, CellDen b c (tr x) → Within b X Q (k c)) :
    Within b X Q (.load i k) := by
  intro c hc
  obtain ⟨c', h1, h2⟩ := unfolds_iff.1 u
  rw [hc] at h1
  cases h1
  exact h c h2

theorem within_intern {α : Type w} {b : Arena Nat Bool} (hI : b.Inv) {X : Finset Node} {Q : α → Prop}
    {k : Nat → Prog Nat Bool α} {c : C} {x : Node} (hc : CellDen b c (tr x)) (hx : x ∈ X)
    (h : ∀ i, Unfolds b i (tr x) → Within b X Q (k i)) : Within b X Q (.intern c k) :=
  ⟨⟨x, hx, hc⟩, fun i hi => h i (unfolds_iff.2 ⟨c, (hI.index _ _).1 hi, hc⟩)⟩

theorem within_finish {b : Arena Nat Bool} (hI : b.Inv) {X : Finset Node} {id : Nat} {c d : C} {l h : Node}
    (hc : CellDen b c (tr l)) (hd : CellDen b d (tr h)) (hl : l ∈ X) (hh : h ∈ X) :
    Within b X (fun r => CellDen b r (tr (Node.finish id l h))) (finishP id c d) := by
  have := cell_eq_iff hI hd (show CellDen b (.leaf false) (tr (.Leaf false)) from rfl)
  rw [tr_inj] at this
  rw [finishP, Node.finish]
  by_cases e : d = .leaf false
  · rw [if_pos e, if_pos (this.1 e)]; exact hc
  · rw [if_neg e, if_neg (fun h => e (this.2 h))]
    exact within_intern hI hc hl fun i u => within_intern hI hd hh fun j u' => ⟨_, _, rfl, u, u'⟩

/-- What an operation converts besides subdiagrams of its operands: results on pairs of subdiagrams, at most one per
recursive call.  Not code: used to state or prove properties. -/
def Fits (op : Nat → C → C → P) (opN : Node → Node → Node) (x y : Node) (n : Nat) : Prop :=
  ∃ X : Finset Node, X ⊆ pairs opN x y ∧ X.card ≤ n ∧ opN x y ∈ X ∧ (opN x y).subs ⊆ X ∪ (x.subs ∪ y.subs) ∧
    ∀ f b c d, b.Inv → CellDen b c (tr x) → CellDen b d (tr y) →
      Within b (X ∪ (x.subs ∪ y.subs)) (fun r => CellDen b r (tr (opN x y))) (op f c d)

theorem fits_now {op : Nat → C → C → P} {opN : Node → Node → Node} {x y r : Node} {n : Nat} (hn : 1 ≤ n)
    (e : opN x y = r) (hr : r ∈ x.subs ∪ y.subs)
    (h : ∀ f b c d, b.Inv → CellDen b c (tr x) → CellDen b d (tr y) →
      Within b ({r} ∪ (x.subs ∪ y.subs)) (fun r' => CellDen b r' (tr r)) (op f c d)) : Fits op opN x y n := by
  refine ⟨{r}, ?_, by simpa using hn, by simp [e], ?_, by rw [e]; exact h⟩
  · rw [Finset.singleton_subset_iff, ← e]
    exact mem_pairs.2 ⟨x, self_subs x, y, self_subs y, rfl⟩
  · rw [e]
    rcases Finset.mem_union.1 hr with hr | hr
    · exact (subs_trans hr).trans (Finset.subset_union_left.trans Finset.subset_union_right)
    · exact (subs_trans hr).trans (Finset.subset_union_right.trans Finset.subset_union_right)

/-- One recursive call: the other child comes from an operand. -/
theorem fits_one {op : Nat → C → C → P} {opN : Node → Node → Node} {x y x' y' z : Node} {id n n' : Nat} {hi : Bool}
    (ih : Fits op opN x' y' n') (hx : x' ∈ x.subs) (hy : y' ∈ y.subs) (hz : z ∈ x.subs ∪ y.subs) (hn : n' + 1 ≤ n)
    (e : opN x y = if hi then finish id z (opN x' y') else finish id (opN x' y') z)
    (h0 : ∀ c d, op 0 c d = .spin)
    (h : ∀ f b c d X, b.Inv → CellDen b c (tr x) → CellDen b d (tr y) → opN x' y' ∈ X → z ∈ X →
      (∀ c d, CellDen b c (tr x') → CellDen b d (tr y') → Within b X (fun r => CellDen b r (tr (opN x' y'))) (op f c d)) →
      Within b X (fun r' => CellDen b r' (tr (opN x y))) (op (f + 1) c d)) : Fits op opN x y n := by
  obtain ⟨X, h1, h2, h3, h4, h5⟩ := ih
  have hs : x'.subs ∪ y'.subs ⊆ x.subs ∪ y.subs := Finset.union_subset_union (subs_trans hx) (subs_trans hy)
  have hsub : X ∪ (x'.subs ∪ y'.subs) ⊆ insert (opN x y) X ∪ (x.subs ∪ y.subs) :=
    Finset.union_subset_union (Finset.subset_insert _ _) hs
  have hzs : z.subs ⊆ x.subs ∪ y.subs := by
    rcases Finset.mem_union.1 hz with hz | hz
    · exact (subs_trans hz).trans Finset.subset_union_left
    · exact (subs_trans hz).trans Finset.subset_union_right
  refine ⟨insert (opN x y) X, ?_, ?_, Finset.mem_insert_self _ _, ?_, ?_⟩
  · rw [Finset.insert_subset_iff]
    exact ⟨mem_pairs.2 ⟨x, self_subs x, y, self_subs y, rfl⟩, h1.trans (pairs_mono hx hy)⟩
  · have := Finset.card_insert_le (opN x y) X; omega
  · have key : (opN x y).subs ⊆ insert (opN x y) ((opN x' y').subs ∪ z.subs) := by
      cases hi
      · simp only [Bool.false_eq_true, if_false] at e
        rw [e]; exact finish_subs _ _ _
      · simp only [if_true] at e
        rw [e, Finset.union_comm]; exact finish_subs _ _ _
    refine key.trans ?_
    rw [Finset.insert_subset_iff]
    refine ⟨Finset.mem_union_left _ (Finset.mem_insert_self _ _), Finset.union_subset (h4.trans hsub) (hzs.trans Finset.subset_union_right)⟩
  · intro f b c d hI hc hd
    cases f with
    | zero => rw [h0]; trivial
    | succ f =>
      refine h f b c d _ hI hc hd (Finset.mem_union_left _ (Finset.mem_insert_of_mem h3)) (Finset.mem_union_right _ hz) ?_
      intro c d hc hd
      exact Within.mono (h5 f b c d hI hc hd) hsub

/-- Two recursive calls. -/
theorem fits_two {op : Nat → C → C → P} {opN : Node → Node → Node} {x y x1 y1 x2 y2 : Node} {id n n1 n2 : Nat}
    (ih1 : Fits op opN x1 y1 n1) (ih2 : Fits op opN x2 y2 n2) (hx1 : x1 ∈ x.subs) (hy1 : y1 ∈ y.subs) (hx2 : x2 ∈ x.subs)
    (hy2 : y2 ∈ y.subs) (hn : n1 + n2 + 1 ≤ n) (e : opN x y = finish id (opN x1 y1) (opN x2 y2))
    (h0 : ∀ c d, op 0 c d = .spin)
    (h : ∀ f b c d X, b.Inv → CellDen b c (tr x) → CellDen b d (tr y) → opN x1 y1 ∈ X → opN x2 y2 ∈ X →
      (∀ c d, CellDen b c (tr x1) → CellDen b d (tr y1) → Within b X (fun r => CellDen b r (tr (opN x1 y1))) (op f c d)) →
      (∀ c d, CellDen b c (tr x2) → CellDen b d (tr y2) → Within b X (fun r => CellDen b r (tr (opN x2 y2))) (op f c d)) →
      Within b X (fun r' => CellDen b r' (tr (opN x y))) (op (f + 1) c d)) : Fits op opN x y n := by
  obtain ⟨X, h1, h2, h3, h4, h5⟩ := ih1
  obtain ⟨Y, g1, g2, g3, g4, g5⟩ := ih2
  have hsub : X ∪ (x1.subs ∪ y1.subs) ⊆ insert (opN x y) (X ∪ Y) ∪ (x.subs ∪ y.subs) :=
    Finset.union_subset_union (Finset.subset_union_left.trans (Finset.subset_insert _ _))
      (Finset.union_subset_union (subs_trans hx1) (subs_trans hy1))
  have gsub : Y ∪ (x2.subs ∪ y2.subs) ⊆ insert (opN x y) (X ∪ Y) ∪ (x.subs ∪ y.subs) :=
    Finset.union_subset_union (Finset.subset_union_right.trans (Finset.subset_insert _ _))
      (Finset.union_subset_union (subs_trans hx2) (subs_trans hy2))
  refine ⟨insert (opN x y) (X ∪ Y), ?_, ?_, Finset.mem_insert_self _ _, ?_, ?_⟩
  · rw [Finset.insert_subset_iff]
    exact ⟨mem_pairs.2 ⟨x, self_subs x, y, self_subs y, rfl⟩,
      Finset.union_subset (h1.trans (pairs_mono hx1 hy1)) (g1.trans (pairs_mono hx2 hy2))⟩
  · have := Finset.card_insert_le (opN x y) (X ∪ Y)
    have := Finset.card_union_le X Y
    omega
  · have key := finish_subs id (opN x1 y1) (opN x2 y2)
    rw [← e] at key
    refine key.trans ?_
    rw [Finset.insert_subset_iff]
    exact ⟨Finset.mem_union_left _ (Finset.mem_insert_self _ _), Finset.union_subset (h4.trans hsub) (g4.trans gsub)⟩
  · intro f b c d hI hc hd
    cases f with
    | zero => rw [h0]; trivial
    | succ f =>
      refine h f b c d _ hI hc hd (Finset.mem_union_left _ (Finset.mem_insert_of_mem (Finset.mem_union_left _ h3)))
        (Finset.mem_union_left _ (Finset.mem_insert_of_mem (Finset.mem_union_right _ g3))) ?_ ?_
      · exact fun c d hc hd => Within.mono (h5 f b c d hI hc hd) hsub
      · exact fun c d hc hd => Within.mono (g5 f b c d hI hc hd) gsub

theorem union_fits (x y : Node) : Fits unionP Node.union x y (x.size + y.size - 1) := by
  have z0 : ∀ c d, unionP 0 c d = .spin := fun c d => by rw [unionP]
  have pos : ∀ x y : Node, 1 ≤ x.size + y.size - 1 := fun x y => by
    have h1 := size_pos x; have h2 := size_pos y
    omega
  fun_induction Node.union x y with
  | case1 n =>
    refine fits_now (r := n) (pos _ _) (by rw [Node.union.eq_def, if_pos rfl]) (Finset.mem_union_left _ (self_subs n)) fun f b c d hI hc hd => ?_
    cases f with
    | zero => rw [z0]; trivial
    | succ f => rw [unionP, if_pos (cell_eq hI hc hd)]; exact hc
  | case2 n hne =>
    refine fits_now (r := n) (pos _ _) (by rw [Node.union, if_neg hne]) (Finset.mem_union_left _ (self_subs n)) fun f b c d hI hc hd => ?_
    cases f with
    | zero => rw [z0]; trivial
    | succ f =>
      rw [unionP, if_neg (cell_ne hI hc hd hne)]
      obtain rfl := hd.leaf_inv
      exact hc
  | case3 m h1 hne =>
    refine fits_now (r := m) (pos _ _) (by rw [Node.union.eq_def, if_neg hne]; split <;> simp_all) (Finset.mem_union_right _ (self_subs m)) fun f b c d hI hc hd => ?_
    cases f with
    | zero => rw [z0]; trivial
    | succ f =>
      rw [unionP, if_neg (cell_ne hI hc hd hne)]
      obtain rfl := hc.leaf_inv
      cases d with
      | leaf v => cases v <;> exact hd
      | branch i l h => exact hd
  | case4 h => exact absurd rfl h
  | case5 i l h hne ih =>
    have := size_pos h; have := size_pos l
    refine fits_one (hi := false) (z := h) (id := i) ih (low_subs _ _ _) (self_subs _) (Finset.mem_union_left _ (high_subs _ _ _))
      (by simp only [size]; omega) (by rw [Node.union, if_neg hne]; rfl) z0 fun f b c d X hI hc hd m1 m2 hr => ?_
    rw [unionP, if_neg (cell_ne hI hc hd hne), Node.union, if_neg hne]
    obtain rfl := hd.leaf_inv
    obtain ⟨lo, hi, rfl, ul, uh⟩ := hc.branch_inv
    exact within_load ul fun c1 d1 => Safe.bind (hr _ _ d1 hd) fun r q => within_load uh fun c2 d2 => within_finish hI q d2 m1 m2
  | case6 i l h hne ih =>
    have := size_pos h; have := size_pos l
    refine fits_one (hi := false) (z := h) (id := i) ih (self_subs _) (low_subs _ _ _) (Finset.mem_union_right _ (high_subs _ _ _))
      (by simp only [size]; omega) (by rw [Node.union, if_neg hne]; rfl) z0 fun f b c d X hI hc hd m1 m2 hr => ?_
    rw [unionP, if_neg (cell_ne hI hc hd hne), Node.union, if_neg hne]
    obtain rfl := hc.leaf_inv
    obtain ⟨lo, hi, rfl, ul, uh⟩ := hd.branch_inv
    exact within_load ul fun c1 d1 => Safe.bind (hr _ _ hc d1) fun r q => within_load uh fun c2 d2 => within_finish hI q d2 m1 m2
  | case7 i l h j l' h' hlt hne ih =>
    have := size_pos h; have := size_pos l
    have e : Node.union (.Branch i l h) (.Branch j l' h') = finish i (Node.union l (.Branch j l' h')) h := by
      rw [Node.union, if_neg hne]; simp only [hlt, if_true]
    refine fits_one (hi := false) (z := h) (id := i) ih (low_subs _ _ _) (self_subs _) (Finset.mem_union_left _ (high_subs _ _ _))
      (by simp only [size]; omega) e z0 fun f b c d X hI hc hd m1 m2 hr => ?_
    rw [unionP, if_neg (cell_ne hI hc hd hne), e]
    obtain ⟨lo, hi, rfl, ul, uh⟩ := hc.branch_inv
    obtain ⟨lo', hi', rfl, ul', uh'⟩ := hd.branch_inv
    simp only [unionBody, hlt, if_true]
    exact within_load ul fun c1 d1 => Safe.bind (hr _ _ d1 hd) fun r q => within_load uh fun c2 d2 => within_finish hI q d2 m1 m2
  | case8 i l h j l' h' hlt hgt hne ih =>
    have := size_pos h'; have := size_pos l'
    have e : Node.union (.Branch i l h) (.Branch j l' h') = finish j (Node.union (.Branch i l h) l') h' := by
      rw [Node.union, if_neg hne]; simp only [hlt, hgt, if_true, if_false]
    refine fits_one (hi := false) (z := h') (id := j) ih (self_subs _) (low_subs _ _ _) (Finset.mem_union_right _ (high_subs _ _ _))
      (by simp only [size]; omega) e z0 fun f b c d X hI hc hd m1 m2 hr => ?_
    rw [unionP, if_neg (cell_ne hI hc hd hne), e]
    obtain ⟨lo, hi, rfl, ul, uh⟩ := hc.branch_inv
    obtain ⟨lo', hi', rfl, ul', uh'⟩ := hd.branch_inv
    simp only [unionBody, hlt, hgt, if_true, if_false]
    exact within_load ul' fun c1 d1 => Safe.bind (hr _ _ hc d1) fun r q => within_load uh' fun c2 d2 => within_finish hI q d2 m1 m2
  | case9 i l h j l' h' hlt hgt hne ih1 ih2 =>
    have := size_pos h'; have := size_pos l'; have := size_pos h; have := size_pos l
    have e : Node.union (.Branch i l h) (.Branch j l' h') = finish i (Node.union l l') (Node.union h h') := by
      rw [Node.union, if_neg hne]; simp only [hlt, hgt, if_false]
    refine fits_two (id := i) ih1 ih2 (low_subs _ _ _) (low_subs _ _ _) (high_subs _ _ _) (high_subs _ _ _)
      (by simp only [size]; omega) e z0 fun f b c d X hI hc hd m1 m2 hr1 hr2 => ?_
    rw [unionP, if_neg (cell_ne hI hc hd hne), e]
    obtain ⟨lo, hi, rfl, ul, uh⟩ := hc.branch_inv
    obtain ⟨lo', hi', rfl, ul', uh'⟩ := hd.branch_inv
    simp only [unionBody, hlt, hgt, if_false]
    exact within_load ul fun c1 d1 => within_load ul' fun c2 d2 => Safe.bind (hr1 _ _ d1 d2) fun r q =>
      within_load uh fun c3 d3 => within_load uh' fun c4 d4 => Safe.bind (hr2 _ _ d3 d4) fun r' q' => within_finish hI q q' m1 m2

theorem intersect_fits (x y : Node) : Fits intersectP Node.intersect x y (x.size + y.size - 1) := by
  have z0 : ∀ c d, intersectP 0 c d = .spin := fun c d => by rw [intersectP]
  have pos : ∀ x y : Node, 1 ≤ x.size + y.size - 1 := fun x y => by
    have h1 := size_pos x; have h2 := size_pos y
    omega
  fun_induction Node.intersect x y with
  | case1 n =>
    refine fits_now (r := n) (pos _ _) (by rw [Node.intersect.eq_def, if_pos rfl]) (Finset.mem_union_left _ (self_subs n)) fun f b c d hI hc hd => ?_
    cases f with
    | zero => rw [z0]; trivial
    | succ f => rw [intersectP, if_pos (cell_eq hI hc hd)]; exact hc
  | case2 n hne =>
    refine fits_now (r := n) (pos _ _) (by rw [Node.intersect, if_neg hne]) (Finset.mem_union_left _ (self_subs n)) fun f b c d hI hc hd => ?_
    cases f with
    | zero => rw [z0]; trivial
    | succ f =>
      rw [intersectP, if_neg (cell_ne hI hc hd hne)]
      obtain rfl := hd.leaf_inv
      exact hc
  | case3 m h1 hne =>
    refine fits_now (r := m) (pos _ _) (by rw [Node.intersect.eq_def, if_neg hne]; split <;> simp_all) (Finset.mem_union_right _ (self_subs m)) fun f b c d hI hc hd => ?_
    cases f with
    | zero => rw [z0]; trivial
    | succ f =>
      rw [intersectP, if_neg (cell_ne hI hc hd hne)]
      obtain rfl := hc.leaf_inv
      cases d with
      | leaf v => cases v <;> exact hd
      | branch i l h => exact hd
  | case4 n h1 hne =>
    refine fits_now (r := .Leaf false) (pos _ _) (by rw [Node.intersect.eq_def, if_neg hne]; split <;> simp_all) (Finset.mem_union_right _ (self_subs _)) fun f b c d hI hc hd => ?_
    cases f with
    | zero => rw [z0]; trivial
    | succ f =>
      rw [intersectP, if_neg (cell_ne hI hc hd hne)]
      obtain rfl := hd.leaf_inv
      cases c with
      | leaf v => cases v <;> first | exact hd | exact absurd rfl (cell_ne hI hc hd hne)
      | branch i l h => exact hd
  | case5 m h1 h2 hne =>
    refine fits_now (r := .Leaf false) (pos _ _) (by rw [Node.intersect.eq_def, if_neg hne]; split <;> simp_all) (Finset.mem_union_left _ (self_subs _)) fun f b c d hI hc hd => ?_
    cases f with
    | zero => rw [z0]; trivial
    | succ f =>
      rw [intersectP, if_neg (cell_ne hI hc hd hne)]
      obtain rfl := hc.leaf_inv
      cases d with
      | leaf v => cases v <;> first | exact hc | exact absurd rfl (cell_ne hI hc hd hne)
      | branch i l h => exact hc
  | case6 i l h j l' h' hlt hne ih =>
    have := size_pos h; have := size_pos l
    have e : Node.intersect (.Branch i l h) (.Branch j l' h') = finish i l (Node.intersect h (.Branch j l' h')) := by
      rw [Node.intersect, if_neg hne]; simp only [hlt, if_true]
    refine fits_one (hi := true) (z := l) (id := i) ih (high_subs _ _ _) (self_subs _) (Finset.mem_union_left _ (low_subs _ _ _))
      (by simp only [size]; omega) e z0 fun f b c d X hI hc hd m1 m2 hr => ?_
    rw [intersectP, if_neg (cell_ne hI hc hd hne), e]
    obtain ⟨lo, hi, rfl, ul, uh⟩ := hc.branch_inv
    obtain ⟨lo', hi', rfl, ul', uh'⟩ := hd.branch_inv
    simp only [intersectBody, hlt, if_true]
    exact within_load ul fun c1 d1 => within_load uh fun c2 d2 => Safe.bind (hr _ _ d2 hd) fun r q => within_finish hI d1 q m2 m1
  | case7 i l h j l' h' hlt hgt hne ih =>
    have := size_pos h'; have := size_pos l'
    have e : Node.intersect (.Branch i l h) (.Branch j l' h') = finish j l' (Node.intersect (.Branch i l h) h') := by
      rw [Node.intersect, if_neg hne]; simp only [hlt, hgt, if_true, if_false]
    refine fits_one (hi := true) (z := l') (id := j) ih (self_subs _) (high_subs _ _ _) (Finset.mem_union_right _ (low_subs _ _ _))
      (by simp only [size]; omega) e z0 fun f b c d X hI hc hd m1 m2 hr => ?_
    rw [intersectP, if_neg (cell_ne hI hc hd hne), e]
    obtain ⟨lo, hi, rfl, ul, uh⟩ := hc.branch_inv
    obtain ⟨lo', hi', rfl, ul', uh'⟩ := hd.branch_inv
    simp only [intersectBody, hlt, hgt, if_true, if_false]
    exact within_load ul' fun c1 d1 => within_load uh' fun c2 d2 => Safe.bind (hr _ _ hc d2) fun r q => within_finish hI d1 q m2 m1
  | case8 i l h j l' h' hlt hgt hne ih1 ih2 =>
    have := size_pos h'; have := size_pos l'; have := size_pos h; have := size_pos l
    have e : Node.intersect (.Branch i l h) (.Branch j l' h') = finish i (Node.intersect l l') (Node.intersect h h') := by
      rw [Node.intersect, if_neg hne]; simp only [hlt, hgt, if_false]
    refine fits_two (id := i) ih1 ih2 (low_subs _ _ _) (low_subs _ _ _) (high_subs _ _ _) (high_subs _ _ _)
      (by simp only [size]; omega) e z0 fun f b c d X hI hc hd m1 m2 hr1 hr2 => ?_
    rw [intersectP, if_neg (cell_ne hI hc hd hne), e]
    obtain ⟨lo, hi, rfl, ul, uh⟩ := hc.branch_inv
    obtain ⟨lo', hi', rfl, ul', uh'⟩ := hd.branch_inv
    simp only [intersectBody, hlt, hgt, if_false]
    exact within_load ul fun c1 d1 => within_load ul' fun c2 d2 => Safe.bind (hr1 _ _ d1 d2) fun r q =>
      within_load uh fun c3 d3 => within_load uh' fun c4 d4 => Safe.bind (hr2 _ _ d3 d4) fun r' q' => within_finish hI q q' m1 m2

theorem product_fits (x y : Node) : Fits productP Node.product x y (x.size * y.size) := by
  have z0 : ∀ c d, productP 0 c d = .spin := fun c d => by rw [productP]
  have pos : ∀ x y : Node, 1 ≤ x.size * y.size := fun x y => by
    have h1 := size_pos x; have h2 := size_pos y
    exact Nat.mul_pos h1 h2
  fun_induction Node.product x y with
  | case1 n =>
    refine fits_now (r := n) (pos _ _) (by rw [Node.product.eq_def, if_pos rfl]) (Finset.mem_union_left _ (self_subs n)) fun f b c d hI hc hd => ?_
    cases f with
    | zero => rw [z0]; trivial
    | succ f => rw [productP, if_pos (cell_eq hI hc hd)]; exact hc
  | case2 n hne =>
    refine fits_now (r := n) (pos _ _) (by rw [Node.product, if_neg hne]) (Finset.mem_union_left _ (self_subs n)) fun f b c d hI hc hd => ?_
    cases f with
    | zero => rw [z0]; trivial
    | succ f =>
      rw [productP, if_neg (cell_ne hI hc hd hne)]
      obtain rfl := hd.leaf_inv
      exact hc
  | case3 m h1 hne =>
    refine fits_now (r := m) (pos _ _) (by rw [Node.product.eq_def, if_neg hne]; split <;> simp_all) (Finset.mem_union_right _ (self_subs m)) fun f b c d hI hc hd => ?_
    cases f with
    | zero => rw [z0]; trivial
    | succ f =>
      rw [productP, if_neg (cell_ne hI hc hd hne)]
      obtain rfl := hc.leaf_inv
      cases d with
      | leaf v => cases v <;> exact hd
      | branch i l h => exact hd
  | case4 n h1 hne =>
    refine fits_now (r := .Leaf false) (pos _ _) (by rw [Node.product.eq_def, if_neg hne]; split <;> simp_all) (Finset.mem_union_right _ (self_subs _)) fun f b c d hI hc hd => ?_
    cases f with
    | zero => rw [z0]; trivial
    | succ f =>
      rw [productP, if_neg (cell_ne hI hc hd hne)]
      obtain rfl := hd.leaf_inv
      cases c with
      | leaf v => cases v <;> first | exact hd | exact absurd rfl (cell_ne hI hc hd hne)
      | branch i l h => exact hd
  | case5 m h1 h2 hne =>
    refine fits_now (r := .Leaf false) (pos _ _) (by rw [Node.product.eq_def, if_neg hne]; split <;> simp_all) (Finset.mem_union_left _ (self_subs _)) fun f b c d hI hc hd => ?_
    cases f with
    | zero => rw [z0]; trivial
    | succ f =>
      rw [productP, if_neg (cell_ne hI hc hd hne)]
      obtain rfl := hc.leaf_inv
      cases d with
      | leaf v => cases v <;> first | exact hc | exact absurd rfl (cell_ne hI hc hd hne)
      | branch i l h => exact hc
  | case6 i l h j l' h' hlt hne ih1 ih2 =>
    have e : Node.product (.Branch i l h) (.Branch j l' h') =
        finish i (Node.product l (.Branch j l' h')) (Node.product h (.Branch j l' h')) := by
      rw [Node.product, if_neg hne]; simp only [hlt, if_true]
    refine fits_two (id := i) ih1 ih2 (low_subs _ _ _) (self_subs _) (high_subs _ _ _) (self_subs _)
      (arith_side le_rfl le_rfl (size_pos _)) e z0 fun f b c d X hI hc hd m1 m2 hr1 hr2 => ?_
    rw [productP, if_neg (cell_ne hI hc hd hne), e]
    obtain ⟨lo, hi, rfl, ul, uh⟩ := hc.branch_inv
    obtain ⟨lo', hi', rfl, ul', uh'⟩ := hd.branch_inv
    simp only [productBody, hlt, if_true]
    exact within_load ul fun c1 d1 => Safe.bind (hr1 _ _ d1 hd) fun r q =>
      within_load uh fun c3 d3 => Safe.bind (hr2 _ _ d3 hd) fun r' q' => within_finish hI q q' m1 m2
  | case7 i l h j l' h' hlt hgt hne ih1 ih2 =>
    have e : Node.product (.Branch i l h) (.Branch j l' h') =
        finish j (Node.product (.Branch i l h) l') (Node.product (.Branch i l h) h') := by
      rw [Node.product, if_neg hne]; simp only [hlt, hgt, if_true, if_false]
    refine fits_two (id := j) ih1 ih2 (self_subs _) (low_subs _ _ _) (self_subs _) (high_subs _ _ _)
      (by
        have := arith_side (s1 := l'.size) (s2 := h'.size) (t := (Node.Branch i l h).size) le_rfl le_rfl (size_pos _)
        rw [Nat.mul_comm l'.size, Nat.mul_comm h'.size, Nat.mul_comm (1 + l'.size + h'.size)] at this
        exact this) e z0 fun f b c d X hI hc hd m1 m2 hr1 hr2 => ?_
    rw [productP, if_neg (cell_ne hI hc hd hne), e]
    obtain ⟨lo, hi, rfl, ul, uh⟩ := hc.branch_inv
    obtain ⟨lo', hi', rfl, ul', uh'⟩ := hd.branch_inv
    simp only [productBody, hlt, hgt, if_true, if_false]
    exact within_load ul' fun c1 d1 => Safe.bind (hr1 _ _ hc d1) fun r q =>
      within_load uh' fun c3 d3 => Safe.bind (hr2 _ _ hc d3) fun r' q' => within_finish hI q q' m1 m2
  | case8 i l h j l' h' hlt hgt hne ih1 ih2 =>
    have := size_pos h'; have := size_pos l'; have := size_pos h; have := size_pos l
    have e : Node.product (.Branch i l h) (.Branch j l' h') = finish i (Node.product l l') (Node.product h h') := by
      rw [Node.product, if_neg hne]; simp only [hlt, hgt, if_false]
    refine fits_two (id := i) ih1 ih2 (low_subs _ _ _) (low_subs _ _ _) (high_subs _ _ _) (high_subs _ _ _)
      (arith_both le_rfl le_rfl) e z0 fun f b c d X hI hc hd m1 m2 hr1 hr2 => ?_
    rw [productP, if_neg (cell_ne hI hc hd hne), e]
    obtain ⟨lo, hi, rfl, ul, uh⟩ := hc.branch_inv
    obtain ⟨lo', hi', rfl, ul', uh'⟩ := hd.branch_inv
    simp only [productBody, hlt, hgt, if_false]
    exact within_load ul fun c1 d1 => within_load ul' fun c2 d2 => Safe.bind (hr1 _ _ d1 d2) fun r q =>
      within_load uh fun c3 d3 => within_load uh' fun c4 d4 => Safe.bind (hr2 _ _ d3 d4) fun r' q' => within_finish hI q q' m1 m2

/-- C120: the result of an operation has at most this many distinct subdiagrams. -/
theorem shared_size (x y : Node) :
    (Node.union x y).subs.card ≤ x.subs.card * y.subs.card + (x.subs.card + y.subs.card) ∧
    (Node.intersect x y).subs.card ≤ x.subs.card * y.subs.card + (x.subs.card + y.subs.card) ∧
    (Node.product x y).subs.card ≤ x.subs.card * y.subs.card + (x.subs.card + y.subs.card) := by
  have key : ∀ {op : Nat → C → C → P} {opN : Node → Node → Node} {n : Nat}, Fits op opN x y n →
      (opN x y).subs.card ≤ x.subs.card * y.subs.card + (x.subs.card + y.subs.card) := by
    rintro op opN n ⟨X, h1, _, _, h4, _⟩
    have a1 := Finset.card_le_card h4
    have a2 := Finset.card_union_le X (x.subs ∪ y.subs)
    have a3 := Finset.card_union_le x.subs y.subs
    have a4 := (Finset.card_le_card h1).trans (pairs_card _ _ _)
    omega
  exact ⟨key (union_fits x y), key (intersect_fits x y), key (product_fits x y)⟩

/-! ## Trees -/

/-- The two leaves, which every arena starts with.  Not code: used to state or prove properties. -/
def both : Finset Node := {.Leaf false, .Leaf true}

theorem chain_fits (ids : List Nat) (n : Node) :
    ∃ X : Finset Node, X.card ≤ ids.length ∧
      (ids.foldl (fun next id => Node.requiredBranch id next) n).subs ⊆ X ∪ (n.subs ∪ both) ∧
      (ids.foldl (fun next id => Node.requiredBranch id next) n).size = 2 * ids.length + n.size ∧
      ∀ b i, b.Inv → Leaves b → Unfolds b i (tr n) →
        Within b X (fun r => Unfolds b r (tr (ids.foldl (fun next id => Node.requiredBranch id next) n)))
          (foldP (fun next id => (requiredBranchP id (.id next)).bind fun n => .intern n fun i => .ret i) ids i) := by
  induction ids generalizing n with
  | nil => exact ⟨∅, by simp, Finset.subset_union_left.trans Finset.subset_union_right, by simp, fun b i hI hl hu => hu⟩
  | cons id ids ih =>
    obtain ⟨X, h1, h2, h3, h4⟩ := ih (Node.requiredBranch id n)
    refine ⟨insert (Node.requiredBranch id n) X, ?_, ?_, ?_, ?_⟩
    · have := Finset.card_insert_le (Node.requiredBranch id n) X
      rw [List.length_cons]; omega
    · rw [List.foldl_cons]
      refine h2.trans ?_
      intro z hz
      simp only [Finset.mem_union, Finset.mem_insert, both, Node.requiredBranch, Node.branch, subs, Finset.mem_singleton] at hz ⊢
      rcases hz with hz | (hz | hz | hz) | hz | hz
      · exact .inl (.inr hz)
      · exact .inl (.inl hz)
      · exact .inr (.inr (.inl hz))
      · exact .inr (.inl hz)
      · exact .inr (.inr (.inl hz))
      · exact .inr (.inr (.inr hz))
    · rw [List.foldl_cons, h3]; simp only [Node.requiredBranch, Node.branch, size, List.length_cons]; omega
    · intro b i hI hl hu
      have hd : CellDen b (.branch id 0 i) (tr (Node.requiredBranch id n)) := ⟨_, _, rfl, hl.1, hu⟩
      exact within_intern hI hd (Finset.mem_insert_self _ _) fun j uj =>
        Within.mono (h4 b j hI hl uj) (Finset.subset_insert _ _)

variable {T : Type u} [LinearOrder T]

theorem tree_fits (uni : Universe T) (c : List T) :
    ∃ X : Finset Node, X.card ≤ c.length ∧ (uni.tree c).root.subs ⊆ X ∪ both ∧
      (uni.tree c).root.size ≤ 2 * c.length + 1 ∧
      ∀ b, b.Inv → Leaves b → Within b X (TreeDen (uni.tree c) b) (treeP uni c) := by
  obtain ⟨X, h1, h2, h3, h4⟩ :=
    chain_fits (sorted (c.filterMap (fun item => lookup item uni.itemIndex))).reverse (.Leaf true)
  have hl : (sorted (c.filterMap (fun item => lookup item uni.itemIndex))).reverse.length ≤ c.length := by
    rw [List.length_reverse, sorted, List.length_insertionSort]
    exact List.length_filterMap_le _ _
  refine ⟨X, h1.trans hl, ?_, ?_, ?_⟩
  · refine h2.trans (Finset.union_subset_union subset_rfl ?_)
    intro z hz
    simpa [subs, both, or_comm] using hz
  · show Node.size _ ≤ _
    rw [Universe.tree, h3]; simp only [size]; omega
  · intro b hI hlv
    exact Safe.bind (h4 b 1 hI hlv hlv.2) fun r q => ⟨q, rfl⟩

theorem fits_min {op : Nat → C → C → P} {opN : Node → Node → Node} {x y : Node} {n : Nat} (h : Fits op opN x y n) :
    Fits op opN x y (min (x.subs.card * y.subs.card) n) := by
  obtain ⟨X, h1, h2, h3⟩ := h
  exact ⟨X, h1, le_min ((Finset.card_le_card h1).trans (pairs_card _ _ _)) h2, h3⟩

theorem binary_fits {op : Nat → C → C → P} {opN : Node → Node → Node} {x y : Tree T} {n : Nat}
    (h : Fits op opN x.root y.root n) :
    ∃ X : Finset Node, X.card ≤ n ∧ (opN x.root y.root).subs ⊆ X ∪ (x.root.subs ∪ y.root.subs) ∧
      ∀ f b t s, b.Inv → TreeDen x b t → TreeDen y b s →
        Within b (X ∪ (x.root.subs ∪ y.root.subs)) (TreeDen ⟨opN x.root y.root, x.univ⟩ b) (binaryP op f t s) := by
  obtain ⟨X, h1, h2, h3, h4, h5⟩ := h
  refine ⟨X, h2, h4, fun f b t s hI ht hs => ?_⟩
  refine within_load ht.1 fun c1 d1 => within_load hs.1 fun c2 d2 => ?_
  refine Safe.bind (h5 f b c1 c2 hI d1 d2) fun r q => ?_
  exact within_intern hI q (Finset.mem_union_left _ h3) fun i u => ⟨u, ht.2⟩

/-- Nodes added by joining trees of these numbers of items one after another to a tree of size `s`.
Not code: used to state or prove properties. -/
def joinCost (s : Nat) : List Nat → Nat
  | [] => 0
  | k :: ks => k + (s + 2 * k) + joinCost (s + 2 * k) ks

theorem joinCost_mono {s s' : Nat} (h : s ≤ s') (ks : List Nat) : joinCost s ks ≤ joinCost s' ks := by
  induction ks generalizing s s' with
  | nil => exact le_rfl
  | cons k ks ih => have := ih (s := s + 2 * k) (s' := s' + 2 * k) (by omega); simp only [joinCost]; omega

theorem joinCost_le (s : Nat) (ks : List Nat) : joinCost s ks ≤ ks.sum + ks.length * (s + 2 * ks.sum) := by
  induction ks generalizing s with
  | nil => simp [joinCost]
  | cons k ks ih =>
    have := ih (s + 2 * k)
    have e : s + 2 * k + 2 * ks.sum = s + 2 * (k + ks.sum) := by ring
    rw [e] at this
    simp only [joinCost, List.sum_cons, List.length_cons, Nat.add_mul, Nat.one_mul]
    omega

theorem join_fits {β : Type v} (uni : Universe T) (mk : β → List T) (es : List β) (g : Tree T) (s : Nat)
    (hs : g.root.size ≤ s) :
    ∃ X : Finset Node, X.card ≤ joinCost s (es.map fun e => (mk e).length) ∧
      ((es.map (fun e => uni.tree (mk e))).foldl (fun root next => root.union next) g).root.subs ⊆
        X ∪ (g.root.subs ∪ both) ∧
      ∀ f b t, b.Inv → Leaves b → TreeDen g b t →
        Within b (X ∪ (g.root.subs ∪ both))
          (TreeDen ((es.map (fun e => uni.tree (mk e))).foldl (fun root next => root.union next) g) b)
          (foldP (fun root e => (treeP uni (mk e)).bind fun next => binaryP unionP f root next) es t) := by
  induction es generalizing g s with
  | nil => exact ⟨∅, by simp [joinCost], Finset.subset_union_left.trans Finset.subset_union_right, fun f b t hI hl ht => ht⟩
  | cons e es ih =>
    obtain ⟨X1, a1, a2, a3, a4⟩ := tree_fits uni (mk e)
    obtain ⟨X2, b1, b2, b3⟩ := binary_fits (x := g) (y := uni.tree (mk e)) (union_fits g.root (uni.tree (mk e)).root)
    have sz := size_union g.root (uni.tree (mk e)).root
    obtain ⟨X3, c1, c2, c3⟩ := ih (g.union (uni.tree (mk e))) (s + 2 * (mk e).length) (by
      show (Node.union _ _).size ≤ _
      omega)
    have s1 : X1 ⊆ X1 ∪ X2 ∪ X3 ∪ (g.root.subs ∪ both) :=
      (Finset.subset_union_left.trans Finset.subset_union_left).trans Finset.subset_union_left
    have s0 : X1 ∪ both ⊆ X1 ∪ X2 ∪ X3 ∪ (g.root.subs ∪ both) :=
      Finset.union_subset s1 (Finset.subset_union_right.trans Finset.subset_union_right)
    have s2 : X2 ∪ (g.root.subs ∪ (uni.tree (mk e)).root.subs) ⊆ X1 ∪ X2 ∪ X3 ∪ (g.root.subs ∪ both) :=
      Finset.union_subset ((Finset.subset_union_right.trans Finset.subset_union_left).trans Finset.subset_union_left)
        (Finset.union_subset (Finset.subset_union_left.trans Finset.subset_union_right) (a2.trans s0))
    have s3 : X3 ∪ ((g.union (uni.tree (mk e))).root.subs ∪ both) ⊆ X1 ∪ X2 ∪ X3 ∪ (g.root.subs ∪ both) :=
      Finset.union_subset (Finset.subset_union_right.trans Finset.subset_union_left)
        (Finset.union_subset (b2.trans s2) (Finset.subset_union_right.trans Finset.subset_union_right))
    refine ⟨X1 ∪ X2 ∪ X3, ?_, c2.trans s3, ?_⟩
    · have := Finset.card_union_le (X1 ∪ X2) X3
      have := Finset.card_union_le X1 X2
      rw [List.map_cons, joinCost]
      omega
    · intro f b t hI hl ht
      refine Safe.bind (Safe.bind (Within.mono (a4 b hI hl) s1) fun r q => Within.mono (b3 f b t r hI ht q) s2) fun r q => ?_
      exact Within.mono (c3 f b r hI hl q) s3

/-- Nodes added by joining `n` combinations of `s` items in all.  Not code: used to state or prove properties. -/
def manyCost (cs : List (List T)) : Nat :=
  (cs.map List.length).sum + cs.length * (2 * (cs.map List.length).sum + 1)

theorem joinCost_many (cs : List (List T)) : joinCost 1 (cs.map List.length) ≤ manyCost cs := by
  have := joinCost_le 1 (cs.map List.length)
  rw [List.length_map, Nat.add_comm 1] at this
  exact this

theorem hyper_fits (uni : Universe T) (cs : List (List T)) :
    ∃ X : Finset Node, X.card ≤ manyCost cs ∧ (uni.hyperTree cs).root.subs ⊆ X ∪ both ∧
      ∀ f b, b.Inv → Leaves b → Within b (X ∪ both) (TreeDen (uni.hyperTree cs) b) (hyperP f uni cs) := by
  obtain ⟨X, h1, h2, h3⟩ := join_fits uni (fun c : List T => c) cs uni.emptyTree 1 (by simp [Universe.emptyTree, size])
  have e : (uni.emptyTree : Tree T).root.subs ∪ both = both := by simp [Universe.emptyTree, subs, both]
  rw [e] at h2
  refine ⟨X, h1.trans (joinCost_many cs), h2, fun f b hI hl => ?_⟩
  have := h3 f b ⟨0, uni⟩ hI hl ⟨hl.1, rfl⟩
  rw [e] at this
  exact this

theorem unique_fits (uni : Universe T) (xs : List T) :
    ∃ X : Finset Node, X.card ≤ manyCost (xs.map fun x => [x]) ∧ (uni.uniqueTree xs).root.subs ⊆ X ∪ both ∧
      ∀ f b, b.Inv → Leaves b → Within b (X ∪ both) (TreeDen (uni.uniqueTree xs) b) (uniqueP f uni xs) := by
  obtain ⟨X, h1, h2, h3⟩ := join_fits uni (fun x : T => [x]) xs uni.emptyTree 1 (by simp [Universe.emptyTree, size])
  have e : (uni.emptyTree : Tree T).root.subs ∪ both = both := by simp [Universe.emptyTree, subs, both]
  rw [e] at h2
  refine ⟨X, h1.trans ?_, h2, fun f b hI hl => ?_⟩
  · have := joinCost_many (xs.map fun x => [x])
    rw [List.map_map] at this
    exact this
  · have := h3 f b ⟨0, uni⟩ hI hl ⟨hl.1, rfl⟩
    rw [e] at this
    exact this

/-! ## Listing -/

theorem loop_within {b : Arena Nat Bool} {X : Finset Node} (f : Nat) {q : List (C × List Nat)} {p : List (Node × List Nat)}
    (acc : List (List Nat)) (h : QueueDen b q p) :
    Within b X (fun r => r = combinationsLoop p acc) (loopP f q acc) := by
  induction f generalizing q p acc with
  | zero => cases q <;> trivial
  | succ f ih =>
    cases h with
    | nil => rw [combinationsLoop]; exact rfl
    | @cons x n q p hx hq =>
      obtain ⟨c, path⟩ := x
      obtain ⟨n, path'⟩ := n
      obtain ⟨h1, h2⟩ := hx
      simp only at h1 h2
      cases n with
      | Leaf v =>
        obtain rfl := CellDen.leaf_inv (by assumption)
        cases v
        · rw [combinationsLoop]; exact ih acc hq
        · rw [combinationsLoop]; subst path'; exact ih _ hq
      | Branch i l h =>
        obtain ⟨lo, hi, rfl, ul, uh⟩ := CellDen.branch_inv (by assumption)
        rw [combinationsLoop]
        subst path'
        exact within_load ul fun c1 d1 => within_load uh fun c2 d2 => ih _ (.cons ⟨d2, rfl⟩ (.cons ⟨d1, rfl⟩ hq))

theorem iter_within {b : Arena Nat Bool} {X : Finset Node} (f : Nat) {i : Nat} {n : Node} (h : Unfolds b i (tr n)) :
    Within b X (fun r => r = n.combinationsIter) (iterP f i) :=
  within_load h fun c d => loop_within f [] (.cons ⟨d, rfl⟩ .nil)

theorem inner_within {b : Arena Nat Bool} {X : Finset Node} (f i : Nat) (path : List Nat) :
    Within b X (fun _ => True) (innerP f i path) := by
  induction f generalizing i path with
  | zero => trivial
  | succ f ih =>
    intro c _
    cases c with
    | leaf v => cases v <;> trivial
    | branch j l h => exact Safe.bind (ih _ _) fun _ _ => Safe.bind (ih _ _) fun _ _ => trivial

theorem traverse_within {b : Arena Nat Bool} {X : Finset Node} (uni : Universe T) (f i : Nat) :
    Within b X (fun _ => True) (traverseP uni f i) := by
  induction f generalizing i with
  | zero => trivial
  | succ f ih =>
    intro c _
    cases c with
    | leaf v => trivial
    | branch j l h =>
      dsimp only
      split
      · trivial
      · exact Safe.bind (ih _) fun _ _ => Safe.bind (ih _) fun _ _ => trivial

theorem with_within {b : Arena Nat Bool} {X : Finset Node} (f : Nat) {t : TreeC T} {x : Tree T} (h : TreeDen x b t)
    (inc exc : List T) : Within b X (fun r => r = x.combinationsWith inc exc) (combinationsWithP f t inc exc) := by
  refine Safe.bind (iter_within f h.1) fun l hl => ?_
  show _ = _
  rw [hl, h.2]; rfl

theorem restrict_fits (x : Tree T) (inc exc : List T) :
    ∃ X : Finset Node, X.card ≤ manyCost (x.combinationsWith inc exc) ∧ (x.restrict inc exc).root.subs ⊆ X ∪ both ∧
      ∀ f b t, b.Inv → Leaves b → TreeDen x b t →
        Within b (X ∪ both) (TreeDen (x.restrict inc exc) b) (restrictP f t inc exc) := by
  obtain ⟨X, h1, h2, h3⟩ := hyper_fits x.univ (x.combinationsWith inc exc)
  refine ⟨X, h1, h2, fun f b t hI hl ht => ?_⟩
  refine Safe.bind (with_within f ht inc exc) fun cs hcs => ?_
  rw [hcs, ht.2]
  exact h3 f b hI hl

/-! ## Expressions over the API -/

/-- Nodes an expression may add.  Not code: used to state or prove properties. -/
def Ex.cost : Ex T → Nat
  | .empty _ => 0
  | .unit _ => 0
  | .tree _ c => c.length
  | .unique _ xs => manyCost (xs.map fun x => [x])
  | .hyper _ cs => manyCost cs
  | .union a b => a.cost + b.cost +
      min (a.eval.root.subs.card * b.eval.root.subs.card) (a.eval.root.size + b.eval.root.size - 1)
  | .intersect a b => a.cost + b.cost +
      min (a.eval.root.subs.card * b.eval.root.subs.card) (a.eval.root.size + b.eval.root.size - 1)
  | .product a b => a.cost + b.cost + a.eval.root.subs.card * b.eval.root.subs.card
  | .restrict a inc exc => a.cost + manyCost (a.eval.combinationsWith inc exc)

theorem two_fits {op : Nat → C → C → P} {opN : Node → Node → Node} {x y : Tree T} {n n1 n2 : Nat}
    {p q : Nat → Prog Nat Bool (TreeC T)} (h : Fits op opN x.root y.root n)
    (hp : ∃ X : Finset Node, X.card ≤ n1 ∧ x.root.subs ⊆ X ∪ both ∧
      ∀ f b, b.Inv → Leaves b → Within b (X ∪ both) (TreeDen x b) (p f))
    (hq : ∃ X : Finset Node, X.card ≤ n2 ∧ y.root.subs ⊆ X ∪ both ∧
      ∀ f b, b.Inv → Leaves b → Within b (X ∪ both) (TreeDen y b) (q f)) :
    ∃ X : Finset Node, X.card ≤ n1 + n2 + n ∧ (opN x.root y.root).subs ⊆ X ∪ both ∧
      ∀ f b, b.Inv → Leaves b → Within b (X ∪ both) (TreeDen ⟨opN x.root y.root, x.univ⟩ b)
        ((p f).bind fun t => (q f).bind fun s => binaryP op f t s) := by
  obtain ⟨X1, a1, a2, a3⟩ := hp
  obtain ⟨X2, b1, b2, b3⟩ := hq
  obtain ⟨X3, c1, c2, c3⟩ := binary_fits h
  have s1 : X1 ∪ both ⊆ X1 ∪ X2 ∪ X3 ∪ both :=
    Finset.union_subset_union (Finset.subset_union_left.trans Finset.subset_union_left) subset_rfl
  have s2 : X2 ∪ both ⊆ X1 ∪ X2 ∪ X3 ∪ both :=
    Finset.union_subset_union (Finset.subset_union_right.trans Finset.subset_union_left) subset_rfl
  have s3 : X3 ∪ (x.root.subs ∪ y.root.subs) ⊆ X1 ∪ X2 ∪ X3 ∪ both :=
    Finset.union_subset (Finset.subset_union_right.trans Finset.subset_union_left)
      (Finset.union_subset (a2.trans s1) (b2.trans s2))
  refine ⟨X1 ∪ X2 ∪ X3, ?_, c2.trans s3, ?_⟩
  · have := Finset.card_union_le (X1 ∪ X2) X3
    have := Finset.card_union_le X1 X2
    omega
  · intro f b hI hl
    refine Safe.bind (Within.mono (a3 f b hI hl) s1) fun t ht => ?_
    refine Safe.bind (Within.mono (b3 f b hI hl) s2) fun s hs => ?_
    exact Within.mono (c3 f b t s hI ht hs) s3

theorem product_pairs (x y : Node) : Fits productP Node.product x y (x.subs.card * y.subs.card) := by
  obtain ⟨X, h1, h2, h3⟩ := product_fits x y
  exact ⟨X, h1, (Finset.card_le_card h1).trans (pairs_card _ _ _), h3⟩

theorem expr_fits (e : Ex T) :
    ∃ X : Finset Node, X.card ≤ e.cost ∧ e.eval.root.subs ⊆ X ∪ both ∧
      ∀ f b, b.Inv → Leaves b → Within b (X ∪ both) (TreeDen e.eval b) (e.prog f) := by
  induction e with
  | empty items => exact ⟨∅, le_rfl, by simp [Ex.eval, Universe.emptyTree, subs, both], fun f b hI hl => ⟨hl.1, rfl⟩⟩
  | unit items => exact ⟨∅, le_rfl, by simp [Ex.eval, Universe.unitTree, subs, both], fun f b hI hl => ⟨hl.2, rfl⟩⟩
  | tree items c =>
    obtain ⟨X, h1, h2, _, h3⟩ := tree_fits (Universe.fromVec items) c
    exact ⟨X, h1, h2, fun f b hI hl => Within.mono (h3 b hI hl) Finset.subset_union_left⟩
  | unique items xs => exact unique_fits _ xs
  | hyper items cs => exact hyper_fits _ cs
  | union a b iha ihb => exact two_fits (fits_min (union_fits _ _)) iha ihb
  | intersect a b iha ihb => exact two_fits (fits_min (intersect_fits _ _)) iha ihb
  | product a b iha ihb => exact two_fits (product_pairs _ _) iha ihb
  | restrict a inc exc iha =>
    obtain ⟨X, h1, h2, h3⟩ := iha
    obtain ⟨Y, g1, g2, g3⟩ := restrict_fits a.eval inc exc
    refine ⟨X ∪ Y, ?_, g2.trans (Finset.union_subset_union Finset.subset_union_right subset_rfl), fun f b hI hl => ?_⟩
    · have := Finset.card_union_le X Y
      simp only [Ex.cost]; omega
    · refine Safe.bind (Within.mono (h3 f b hI hl) (Finset.union_subset_union Finset.subset_union_left subset_rfl)) fun t ht => ?_
      exact Within.mono (g3 f b t hI hl ht) (Finset.union_subset_union Finset.subset_union_right subset_rfl)

/-! ## Threads -/

/-- A program running one call of the API on trees of the arena `a`, or a whole expression, and the number of nodes it may
add to the store.  Not code: used to state or prove properties. -/
inductive Request (a : Arena Nat Bool) : (α : Type u) → Prog Nat Bool α → Nat → Prop where
  /-- weave/src/zdd/tree/union.rs:3-52 -/
  | union (f : Nat) {t s : TreeC T} {x y : Tree T} : TreeDen x a t → TreeDen y a s →
      Request a (TreeC T) (binaryP unionP f t s)
        (min (x.root.subs.card * y.root.subs.card) (x.root.size + y.root.size - 1))
  /-- weave/src/zdd/tree/intersect.rs:3-40 -/
  | intersect (f : Nat) {t s : TreeC T} {x y : Tree T} : TreeDen x a t → TreeDen y a s →
      Request a (TreeC T) (binaryP intersectP f t s)
        (min (x.root.subs.card * y.root.subs.card) (x.root.size + y.root.size - 1))
  /-- weave/src/zdd/tree/product.rs:3-40 -/
  | product (f : Nat) {t s : TreeC T} {x y : Tree T} : TreeDen x a t → TreeDen y a s →
      Request a (TreeC T) (binaryP productP f t s) (x.root.subs.card * y.root.subs.card)
  /-- weave/src/zdd/tree/mod.rs:131-138 -/
  | restrict (f : Nat) {t : TreeC T} {x : Tree T} (inc exc : List T) : TreeDen x a t →
      Request a (TreeC T) (restrictP f t inc exc) (manyCost (x.combinationsWith inc exc))
  /-- weave/src/zdd/tree/mod.rs:88-93 -/
  | combinations (f : Nat) {t : TreeC T} {x : Tree T} : TreeDen x a t → Request a (List (List T)) (combinationsP f t) 0
  /-- weave/src/zdd/tree/mod.rs:81-86 -/
  | recursive (f : Nat) (t : TreeC T) : Request a (List (List T)) (combinationsRecursiveP f t) 0
  /-- weave/src/zdd/tree/mod.rs:95-105 -/
  | combinationsWith (f : Nat) {t : TreeC T} {x : Tree T} (inc exc : List T) : TreeDen x a t →
      Request a (List (List T)) (combinationsWithP f t inc exc) 0
  /-- weave/src/zdd/tree/traversable.rs:26-38 -/
  | traverse (f : Nat) (t : TreeC T) : Request a (TreeNode T) (traverseP t.univ f t.root) 0
  /-- Any expression over the API, from scratch. -/
  | expr (f : Nat) (e : Ex T) : Request a (TreeC T) (e.prog f) e.cost

/-- The subdiagrams of a stored diagram are stored. -/
theorem subs_stored {a : Arena Nat Bool} {i : Nat} {x z : Node} (h : Unfolds a i (tr x)) (hz : z ∈ x.subs) :
    ∃ j, Unfolds a j (tr z) := by
  induction x generalizing i with
  | Leaf v => simp only [subs, Finset.mem_singleton] at hz; subst hz; exact ⟨i, h⟩
  | Branch k l r ihl ihr =>
    simp only [subs, Finset.mem_insert, Finset.mem_union] at hz
    rcases hz with rfl | hz | hz
    · exact ⟨i, h⟩
    · cases h with | branch hg h1 h2 => exact ihl h1 hz
    · cases h with | branch hg h1 h2 => exact ihr h2 hz

theorem Request.within {a : Arena Nat Bool} (hl : Leaves a) {α : Type u} {p : Prog Nat Bool α} {n : Nat}
    (h : Request (T := T) a α p n) :
    ∃ X Y : Finset Node, X.card ≤ n ∧ (∀ z ∈ Y, ∃ j, Unfolds a j (tr z)) ∧
      ∀ b, Ext a b → Within b (X ∪ Y) (fun _ => True) p := by
  have two : ∀ {x y : Tree T} {t s : TreeC T}, TreeDen x a t → TreeDen y a s →
      ∀ z ∈ x.root.subs ∪ y.root.subs, ∃ j, Unfolds a j (tr z) := by
    intro x y t s hx hy z hz
    rcases Finset.mem_union.1 hz with hz | hz
    · exact subs_stored hx.1 hz
    · exact subs_stored hy.1 hz
  have lv : ∀ z ∈ both, ∃ j, Unfolds a j (tr z) := by
    intro z hz
    simp only [both, Finset.mem_insert, Finset.mem_singleton] at hz
    rcases hz with rfl | rfl
    · exact ⟨0, hl.1⟩
    · exact ⟨1, hl.2⟩
  cases h with
  | union f hx hy =>
    obtain ⟨X, h1, _, h3⟩ := binary_fits (T := T) (fits_min (union_fits _ _))
    exact ⟨X, _, h1, two hx hy, fun b e => (h3 f b _ _ e.right (hx.mono e) (hy.mono e)).any⟩
  | intersect f hx hy =>
    obtain ⟨X, h1, _, h3⟩ := binary_fits (T := T) (fits_min (intersect_fits _ _))
    exact ⟨X, _, h1, two hx hy, fun b e => (h3 f b _ _ e.right (hx.mono e) (hy.mono e)).any⟩
  | product f hx hy =>
    obtain ⟨X, h1, _, h3⟩ := binary_fits (T := T) (product_pairs _ _)
    exact ⟨X, _, h1, two hx hy, fun b e => (h3 f b _ _ e.right (hx.mono e) (hy.mono e)).any⟩
  | restrict f inc exc hx =>
    obtain ⟨X, h1, _, h3⟩ := restrict_fits _ inc exc
    exact ⟨X, both, h1, lv, fun b e => (h3 f b _ e.right (hl.mono e) (hx.mono e)).any⟩
  | combinations f hx =>
    exact ⟨∅, ∅, le_rfl, by simp, fun b e => Safe.bind (iter_within f (hx.mono e).1) fun _ _ => trivial⟩
  | recursive f t =>
    exact ⟨∅, ∅, le_rfl, by simp, fun b e => Safe.bind (Q := fun _ => True) (Safe.bind (inner_within f _ _) fun _ _ => trivial) fun _ _ => trivial⟩
  | combinationsWith f inc exc hx => exact ⟨∅, ∅, le_rfl, by simp, fun b e => (with_within f (hx.mono e) inc exc).any⟩
  | traverse f t => exact ⟨∅, ∅, le_rfl, by simp, fun b e => traverse_within _ f _⟩
  | expr f e =>
    obtain ⟨X, h1, _, h3⟩ := expr_fits e
    exact ⟨X, both, h1, lv, fun b e => (h3 f b e.right (hl.mono e)).any⟩

/-- C120: threads running calls of the v1 tree API or whole expressions over it, in any interleaving and stopped anywhere,
add at most the sum of their bounds to the node store. -/
theorem store_growth {α : Nat → Type u} {m m' : Machine Nat Bool α} (h : MRun m m') (hI : m.arena.Inv) (hl : Leaves m.arena)
    (S : Finset Nat) (n : Nat → Nat) (idle : ∀ t, t ∉ S → m'.threads t = m.threads t)
    (busy : ∀ t ∈ S, ∃ p, m.threads t = .run p ∧ Request (T := T) m.arena (α t) p (n t)) :
    m'.arena.nodes.length ≤ m.arena.nodes.length + ∑ t ∈ S, n t := by
  classical
  have key : ∀ t, ∃ X : Finset Node, t ∈ S → X.card ≤ n t ∧ ∀ c, VisitsT m'.arena c (m.threads t) →
      (∃ z ∈ X, CellDen m'.arena c (tr z)) ∨ ∃ i x, Unfolds m.arena i x ∧ CellDen m'.arena c x := by
    intro t
    by_cases ht : t ∈ S
    · obtain ⟨p, hp, hc⟩ := busy t ht
      obtain ⟨X, Y, h1, h2, h3⟩ := hc.within hl
      refine ⟨X, fun _ => ⟨h1, fun c hv => ?_⟩⟩
      rw [hp] at hv
      obtain ⟨z, hz, hd⟩ := Safe.visits (h3 _ (mrun_ext h hI)) hv
      rcases Finset.mem_union.1 hz with hz | hz
      · exact .inl ⟨z, hz, hd⟩
      · obtain ⟨j, hj⟩ := h2 z hz
        exact .inr ⟨j, _, hj, hd⟩
    · exact ⟨∅, fun h => absurd h ht⟩
  choose X hX using key
  have := (growth h hI ((S.biUnion X).image tr) (fun t c ht hv => ?_)).1
  · have h1 : ((S.biUnion X).image tr).card ≤ (S.biUnion X).card := Finset.card_image_le
    have h2 : (S.biUnion X).card ≤ ∑ t ∈ S, (X t).card := Finset.card_biUnion_le
    have h3 : ∑ t ∈ S, (X t).card ≤ ∑ t ∈ S, n t := Finset.sum_le_sum fun t ht => (hX t ht).1
    omega
  · have hs : t ∈ S := by by_contra hn; exact ht (idle t hn)
    rcases (hX t hs).2 c hv with ⟨z, hz, hd⟩ | h0
    · exact .inl ⟨tr z, Finset.mem_image_of_mem _ (Finset.mem_biUnion.2 ⟨t, hs, hz⟩), hd⟩
    · exact .inr h0

/-- The hypotheses of `store_growth` are met and the bound is reached: a thread building the tree of one combination of two
items adds two nodes. -/
example : ∃ m m' : Machine Nat Bool (fun _ => TreeC Nat), MRun m m' ∧ m.arena.Inv ∧ Leaves m.arena ∧
    (∀ t, t ∉ ({0} : Finset Nat) → m'.threads t = m.threads t) ∧
    (∀ t ∈ ({0} : Finset Nat), ∃ p, m.threads t = .run p ∧ Request (T := Nat) m.arena (TreeC Nat) p 2) ∧
    m.arena.nodes.length = 2 ∧ m'.arena.nodes.length = 4 := by
  have hI : (Arena.init false true : Arena Nat Bool).Inv := init_inv (by decide)
  let m : Machine Nat Bool (fun _ => TreeC Nat) := ⟨Arena.init false true, fun _ => .run ((Ex.tree [1, 2, 3] [1, 3]).prog 5)⟩
  refine ⟨m, _, .cons (.step 0 .addDirect) (.cons (.step 0 .addDirect) (.nil _)), hI, init_leaves, ?_, ?_, rfl, rfl⟩
  · intro t ht
    have : t ≠ 0 := by simpa using ht
    simp only [Function.update_of_ne this]
  · exact fun t _ => ⟨_, rfl, Request.expr 5 (.tree [1, 2, 3] [1, 3])⟩

/-- The bounds of whole expressions are finite numbers one can compute: two trees of two items, joined, add at most 13. -/
example : (Ex.union (.tree [1, 2, 3] [1, 2]) (.tree [1, 2, 3] [2, 3]) : Ex Nat).cost = 13 ∧
    ((Ex.union (.tree [1, 2, 3] [1, 2]) (.tree [1, 2, 3] [2, 3]) : Ex Nat).eval.root.subs.card = 6) := by
  decide +kernel

/-- `shared_size` compares different diagrams. -/
example : (Node.product (.Branch 0 (.Leaf false) (.Branch 1 (.Leaf false) (.Leaf true))) (.Branch 0 (.Leaf true) (.Branch 2 (.Leaf false) (.Leaf true)))).subs.card = 5 ∧
    (Node.Branch 0 (.Leaf true) (.Branch 2 (.Leaf false) (.Leaf true))).subs.card = 4 := by
  decide +kernel

end Verif.ArenaZdd1
