import Verif.Zdd1.Bags
import Verif.ArenaZdd1

/-!
# Combining many v1 trees (C114)

`union`, `intersect` and `product` of v1 trees are not the set operations (C31, C32), but each of them is
associative, commutative and idempotent on every tree the API can make, so the order and grouping in which
several trees are combined does not matter.
-/

set_option linter.unusedVariables false
set_option linter.unusedSectionVars false
set_option linter.unusedSimpArgs false

namespace Verif.Zdd1
open Verif Verif.Spec

universe u

namespace Node

/-- No high child is the false leaf.  Not code: used to state or prove properties. -/
def Supp : Node → Prop
  | .Branch _ l h => h ≠ .Leaf false ∧ l.Supp ∧ h.Supp
  | .Leaf _ => True

/-- The root decides `m`.  Not code: used to state or prove properties. -/
def Has (m : Nat) : Node → Prop
  | .Branch i _ _ => i = m
  | .Leaf _ => False

/-- The low child at `m`, or `d` if the root does not decide `m`.  Not code: used to state or prove properties. -/
def lo (m : Nat) (d : Node) : Node → Node
  | .Branch i l _ => if i = m then l else d
  | .Leaf _ => d

/-- The high child at `m`, or `d` if the root does not decide `m`.  Not code: used to state or prove properties. -/
def hi (m : Nat) (d : Node) : Node → Node
  | .Branch i _ h => if i = m then h else d
  | .Leaf _ => d

theorem size_pos (n : Node) : 1 ≤ n.size := by cases n <;> simp [size]; omega

/-- What the three operations have in common: they work item by item, where an operand that does not decide the
item counts as having given children.  Not code: used to state or prove properties. -/
structure ItemWise (op : Node → Node → Node) (dl dh : Node → Node) (Good : Node → Prop) : Prop where
  supp : ∀ a b, a.Supp → b.Supp → (op a b).Supp
  good : ∀ a b, a.Supp → b.Supp → Good a → Good b → Good (op a b)
  bad : ∀ a b c, ¬ (Good a ∧ Good b ∧ Good c) → op (op a b) c = op a (op b c)
  leaf : ∀ x y z, op (op (.Leaf x) (.Leaf y)) (.Leaf z) = op (.Leaf x) (op (.Leaf y) (.Leaf z))
  leaves : ∀ x y, ∃ z, op (.Leaf x) (.Leaf y) = .Leaf z
  step : ∀ a b m, a.Supp → b.Supp → Good a → Good b → AtLeast m a → AtLeast m b → (Has m a ∨ Has m b) →
    op a b = .Branch m (op (lo m (dl a) a) (lo m (dl b) b)) (op (hi m (dh a) a) (hi m (dh b) b))
  distL : ∀ a b, Good a → Good b → dl (op a b) = op (dl a) (dl b)
  distH : ∀ a b, Good a → Good b → dh (op a b) = op (dh a) (dh b)
  sizeL : ∀ a, (dl a).size ≤ a.size ∧ (a.Supp → (dl a).Supp)
  sizeH : ∀ a, (dh a).size ≤ a.size ∧ (a.Supp → (dh a).Supp)

theorem root_cases (a b : Node) : (∃ x y, a = .Leaf x ∧ b = .Leaf y) ∨
    ∃ m, AtLeast m a ∧ AtLeast m b ∧ (Has m a ∨ Has m b) := by
  cases a with
  | Leaf x =>
    cases b with
    | Leaf y => exact .inl ⟨x, y, rfl, rfl⟩
    | Branch j l h => exact .inr ⟨j, trivial, le_refl j, .inr rfl⟩
  | Branch i l h =>
    cases b with
    | Leaf y => exact .inr ⟨i, le_refl i, trivial, .inl rfl⟩
    | Branch j l' h' =>
      rcases Nat.le_total i j with hij | hij
      · exact .inr ⟨i, le_refl i, hij, .inl rfl⟩
      · exact .inr ⟨j, hij, le_refl j, .inr rfl⟩

theorem atLeast_trans {m k : Nat} {n : Node} (h : AtLeast m n) (hk : k ≤ m) : AtLeast k n := by
  cases n with
  | Leaf => trivial
  | Branch i l h' => exact le_trans hk h

theorem lo_of_not {m : Nat} {d n : Node} (h : ¬ Has m n) : lo m d n = d := by
  cases n with
  | Leaf => rfl
  | Branch i l h' => exact if_neg h

theorem hi_of_not {m : Nat} {d n : Node} (h : ¬ Has m n) : hi m d n = d := by
  cases n with
  | Leaf => rfl
  | Branch i l h' => exact if_neg h

theorem lo_size {m : Nat} {d n : Node} (hd : d.size ≤ n.size) :
    (lo m d n).size ≤ n.size ∧ (Has m n → (lo m d n).size < n.size) := by
  cases n with
  | Leaf => exact ⟨hd, fun h => h.elim⟩
  | Branch i l h =>
    simp only [lo, Has]
    split_ifs with e
    · simp only [size]; exact ⟨by omega, fun _ => by omega⟩
    · exact ⟨hd, fun h => absurd h e⟩

theorem hi_size {m : Nat} {d n : Node} (hd : d.size ≤ n.size) :
    (hi m d n).size ≤ n.size ∧ (Has m n → (hi m d n).size < n.size) := by
  cases n with
  | Leaf => exact ⟨hd, fun h => h.elim⟩
  | Branch i l h =>
    simp only [hi, Has]
    split_ifs with e
    · simp only [size]; exact ⟨by omega, fun _ => by omega⟩
    · exact ⟨hd, fun h => absurd h e⟩

theorem lo_supp {m : Nat} {d n : Node} (hd : n.Supp → d.Supp) (hn : n.Supp) : (lo m d n).Supp := by
  cases n with
  | Leaf => exact hd hn
  | Branch i l h => simp only [lo]; split_ifs; exacts [hn.2.1, hd hn]

theorem hi_supp {m : Nat} {d n : Node} (hd : n.Supp → d.Supp) (hn : n.Supp) : (hi m d n).Supp := by
  cases n with
  | Leaf => exact hd hn
  | Branch i l h => simp only [hi]; split_ifs; exacts [hn.2.2, hd hn]

namespace ItemWise
variable {op : Node → Node → Node} {dl dh : Node → Node} {Good : Node → Prop}

/-- The smallest item at the root of the operands is at the root of the result. -/
theorem bound (W : ItemWise op dl dh Good) {a b : Node} {m : Nat} (sa : a.Supp) (sb : b.Supp) (ga : Good a)
    (gb : Good b) (ha : AtLeast m a) (hb : AtLeast m b) :
    AtLeast m (op a b) ∧ (Has m (op a b) ↔ Has m a ∨ Has m b) := by
  rcases root_cases a b with ⟨x, y, rfl, rfl⟩ | ⟨k, ka, kb, hk⟩
  · obtain ⟨z, e⟩ := W.leaves x y
    rw [e]; exact ⟨trivial, by simp [Has]⟩
  · rw [W.step a b k sa sb ga gb ka kb hk]
    have hmk : m ≤ k := by
      rcases hk with h | h
      · cases a with
        | Leaf => exact h.elim
        | Branch i l h' => cases h; exact ha
      · cases b with
        | Leaf => exact h.elim
        | Branch i l h' => cases h; exact hb
    refine ⟨hmk, ?_⟩
    simp only [Has]
    constructor
    · rintro rfl; exact hk
    · rintro (h | h)
      · cases a with
        | Leaf => exact h.elim
        | Branch i l h' => cases h; exact le_antisymm ka hmk
      · cases b with
        | Leaf => exact h.elim
        | Branch i l h' => cases h; exact le_antisymm kb hmk

theorem lo_op (W : ItemWise op dl dh Good) {a b : Node} {m : Nat} (sa : a.Supp) (sb : b.Supp) (ga : Good a)
    (gb : Good b) (ha : AtLeast m a) (hb : AtLeast m b) :
    lo m (dl (op a b)) (op a b) = op (lo m (dl a) a) (lo m (dl b) b) ∧
    hi m (dh (op a b)) (op a b) = op (hi m (dh a) a) (hi m (dh b) b) := by
  by_cases hm : Has m a ∨ Has m b
  · have e := W.step a b m sa sb ga gb ha hb hm
    rw [e]; simp [lo, hi]
  · have hn := hm
    rw [← (W.bound sa sb ga gb ha hb).2] at hn
    push Not at hm
    rw [lo_of_not hn, hi_of_not hn, lo_of_not hm.1, lo_of_not hm.2, hi_of_not hm.1, hi_of_not hm.2]
    exact ⟨W.distL a b ga gb, W.distH a b ga gb⟩

theorem assoc (W : ItemWise op dl dh Good) (a b c : Node) (sa : a.Supp) (sb : b.Supp) (sc : c.Supp) :
    op (op a b) c = op a (op b c) := by
  induction h : a.size + b.size + c.size using Nat.strong_induction_on generalizing a b c with
  | _ k ih =>
    by_cases hg : Good a ∧ Good b ∧ Good c
    swap
    · exact W.bad a b c hg
    obtain ⟨ga, gb, gc⟩ := hg
    have mins : (∃ x y z, a = .Leaf x ∧ b = .Leaf y ∧ c = .Leaf z) ∨
        ∃ m, AtLeast m a ∧ AtLeast m b ∧ AtLeast m c ∧ (Has m a ∨ Has m b ∨ Has m c) := by
      rcases root_cases a b with ⟨x, y, rfl, rfl⟩ | ⟨m, ha, hb, hm⟩
      · cases c with
        | Leaf z => exact .inl ⟨x, y, z, rfl, rfl, rfl⟩
        | Branch i l h => exact .inr ⟨i, trivial, trivial, le_refl i, .inr (.inr rfl)⟩
      · cases c with
        | Leaf z => exact .inr ⟨m, ha, hb, trivial, hm.elim .inl (fun h => .inr (.inl h))⟩
        | Branch i l h =>
          rcases Nat.le_total m i with hi | hi
          · exact .inr ⟨m, ha, hb, hi, hm.elim .inl (fun h => .inr (.inl h))⟩
          · exact .inr ⟨i, atLeast_trans ha hi, atLeast_trans hb hi, le_refl i, .inr (.inr rfl)⟩
    rcases mins with ⟨x, y, z, rfl, rfl, rfl⟩ | ⟨m, ha, hb, hc, hm⟩
    · exact W.leaf x y z
    · have sab := W.supp a b sa sb
      have sbc := W.supp b c sb sc
      have gab := W.good a b sa sb ga gb
      have gbc := W.good b c sb sc gb gc
      have bab := W.bound sa sb ga gb ha hb
      have bbc := W.bound sb sc gb gc hb hc
      rw [W.step (op a b) c m sab sc gab gc bab.1 hc
          (by rw [bab.2]; rcases hm with h | h | h; exacts [.inl (.inl h), .inl (.inr h), .inr h]),
        W.step a (op b c) m sa sbc ga gbc ha bbc.1
          (by rw [bbc.2]; rcases hm with h | h | h; exacts [.inl h, .inr (.inl h), .inr (.inr h)]),
        (W.lo_op sa sb ga gb ha hb).1, (W.lo_op sa sb ga gb ha hb).2,
        (W.lo_op sb sc gb gc hb hc).1, (W.lo_op sb sc gb gc hb hc).2]
      have la := lo_size (m := m) (W.sizeL a).1
      have lb := lo_size (m := m) (W.sizeL b).1
      have lc := lo_size (m := m) (W.sizeL c).1
      have ra := hi_size (m := m) (W.sizeH a).1
      have rb := hi_size (m := m) (W.sizeH b).1
      have rc := hi_size (m := m) (W.sizeH c).1
      rw [ih _ (by rcases hm with h | h | h
                   · have := la.2 h; omega
                   · have := lb.2 h; omega
                   · have := lc.2 h; omega) _ _ _ (lo_supp (W.sizeL a).2 sa) (lo_supp (W.sizeL b).2 sb)
            (lo_supp (W.sizeL c).2 sc) rfl,
        ih _ (by rcases hm with h | h | h
                 · have := ra.2 h; omega
                 · have := rb.2 h; omega
                 · have := rc.2 h; omega) _ _ _ (hi_supp (W.sizeH a).2 sa) (hi_supp (W.sizeH b).2 sb)
            (hi_supp (W.sizeH c).2 sc) rfl]

end ItemWise

theorem finish_supp {i : Nat} {l h : Node} (sl : l.Supp) (sh : h.Supp) : (finish i l h).Supp := by
  unfold finish
  split_ifs with e
  · exact sl
  · exact ⟨e, sl, sh⟩

theorem finish_eq {i : Nat} {l h : Node} (e : h ≠ .Leaf false) : finish i l h = .Branch i l h := if_neg e

theorem union_supp (a b : Node) (sa : a.Supp) (sb : b.Supp) : (union a b).Supp := by
  fun_induction union a b with
  | case1 a => exact sa
  | case2 a _ => exact sa
  | case3 b _ _ => exact sb
  | case4 h => exact absurd rfl h
  | case5 i l h _ ih => exact finish_supp (ih sa.2.1 trivial) sa.2.2
  | case6 i l h _ ih => exact finish_supp (ih trivial sb.2.1) sb.2.2
  | case7 i l h j l' h' hlt _ ih => exact finish_supp (ih sa.2.1 sb) sa.2.2
  | case8 i l h j l' h' _ hlt _ ih => exact finish_supp (ih sa sb.2.1) sb.2.2
  | case9 i l h j l' h' h1 h2 _ ih1 ih2 => exact finish_supp (ih1 sa.2.1 sb.2.1) (ih2 sa.2.2 sb.2.2)

theorem intersect_supp (a b : Node) (sa : a.Supp) (sb : b.Supp) : (intersect a b).Supp := by
  fun_induction intersect a b with
  | case1 a => exact sa
  | case2 a _ => exact sa
  | case3 b _ _ => exact sb
  | case4 => trivial
  | case5 => trivial
  | case6 i l h j l' h' hlt _ ih => exact finish_supp sa.2.1 (ih sa.2.2 sb)
  | case7 i l h j l' h' _ hlt _ ih => exact finish_supp sb.2.1 (ih sa sb.2.2)
  | case8 i l h j l' h' h1 h2 _ ih1 ih2 => exact finish_supp (ih1 sa.2.1 sb.2.1) (ih2 sa.2.2 sb.2.2)

theorem product_supp (a b : Node) (sa : a.Supp) (sb : b.Supp) : (product a b).Supp := by
  fun_induction product a b with
  | case1 a => exact sa
  | case2 a _ => exact sa
  | case3 b _ _ => exact sb
  | case4 => trivial
  | case5 => trivial
  | case6 i l h j l' h' hlt _ ih1 ih2 => exact finish_supp (ih1 sa.2.1 sb) (ih2 sa.2.2 sb)
  | case7 i l h j l' h' _ hlt _ ih1 ih2 => exact finish_supp (ih1 sa sb.2.1) (ih2 sa sb.2.2)
  | case8 i l h j l' h' h1 h2 _ ih1 ih2 => exact finish_supp (ih1 sa.2.1 sb.2.1) (ih2 sa.2.2 sb.2.2)

theorem union_nonempty (a b : Node) (sa : a.Supp) (sb : b.Supp) (h : a ≠ .Leaf false ∨ b ≠ .Leaf false) :
    union a b ≠ .Leaf false := by
  fun_induction union a b with
  | case1 a => exact h.elim id id
  | case2 a _ => exact h.elim id (fun h => absurd rfl h)
  | case3 b _ _ => exact h.elim (fun h => absurd rfl h) id
  | case4 h' => exact absurd rfl h'
  | case5 i l h _ ih => rw [finish_eq sa.1]; exact nofun
  | case6 i l h _ ih => rw [finish_eq sb.1]; exact nofun
  | case7 i l h j l' h' hlt _ ih => rw [finish_eq sa.1]; exact nofun
  | case8 i l h j l' h' _ hlt _ ih => rw [finish_eq sb.1]; exact nofun
  | case9 i l h j l' h' h1 h2 _ ih1 ih2 => rw [finish_eq (ih2 sa.2.2 sb.2.2 (.inl sa.1))]; exact nofun

theorem intersect_nonempty (a b : Node) (sa : a.Supp) (sb : b.Supp) (ha : a ≠ .Leaf false) (hb : b ≠ .Leaf false) :
    intersect a b ≠ .Leaf false := by
  fun_induction intersect a b with
  | case1 a => exact ha
  | case2 a _ => exact ha
  | case3 b _ _ => exact hb
  | case4 => exact absurd rfl hb
  | case5 => exact absurd rfl ha
  | case6 i l h j l' h' hlt _ ih => rw [finish_eq (ih sa.2.2 sb sa.1 hb)]; exact nofun
  | case7 i l h j l' h' _ hlt _ ih => rw [finish_eq (ih sa sb.2.2 ha sb.1)]; exact nofun
  | case8 i l h j l' h' h1 h2 _ ih1 ih2 => rw [finish_eq (ih2 sa.2.2 sb.2.2 sa.1 sb.1)]; exact nofun

theorem product_nonempty (a b : Node) (sa : a.Supp) (sb : b.Supp) (ha : a ≠ .Leaf false) (hb : b ≠ .Leaf false) :
    product a b ≠ .Leaf false := by
  fun_induction product a b with
  | case1 a => exact ha
  | case2 a _ => exact ha
  | case3 b _ _ => exact hb
  | case4 => exact absurd rfl hb
  | case5 => exact absurd rfl ha
  | case6 i l h j l' h' hlt _ ih1 ih2 => rw [finish_eq (ih2 sa.2.2 sb sa.1 hb)]; exact nofun
  | case7 i l h j l' h' _ hlt _ ih1 ih2 => rw [finish_eq (ih2 sa sb.2.2 ha sb.1)]; exact nofun
  | case8 i l h j l' h' h1 h2 _ ih1 ih2 => rw [finish_eq (ih2 sa.2.2 sb.2.2 sa.1 sb.1)]; exact nofun

theorem union_self (a : Node) : union a a = a := by rw [union.eq_def, if_pos rfl]
theorem intersect_self (a : Node) : intersect a a = a := by rw [intersect.eq_def, if_pos rfl]
theorem product_self (a : Node) : product a a = a := by rw [product.eq_def, if_pos rfl]

theorem union_false (a : Node) : union a (.Leaf false) = a := by
  rw [union.eq_def]; split_ifs
  · rfl
  · cases a <;> rfl

theorem intersect_false (a : Node) : intersect a (.Leaf false) = .Leaf false := by
  rw [intersect.eq_def]; split_ifs with e
  · exact e
  · cases a with
    | Leaf b => cases b <;> rfl
    | Branch => rfl

theorem product_false (a : Node) : product a (.Leaf false) = .Leaf false := by
  rw [product.eq_def]; split_ifs with e
  · exact e
  · cases a with
    | Leaf b => cases b <;> rfl
    | Branch => rfl

theorem intersect_true (a : Node) : intersect a (.Leaf true) = a := by
  rw [intersect.eq_def]; split_ifs
  · rfl
  · cases a <;> rfl

theorem product_true (a : Node) : product a (.Leaf true) = a := by
  rw [product.eq_def]; split_ifs
  · rfl
  · cases a <;> rfl

theorem false_union (a : Node) : union (.Leaf false) a = a := by rw [union_comm]; exact union_false a
theorem false_intersect (a : Node) : intersect (.Leaf false) a = .Leaf false := by
  rw [intersect_comm]; exact intersect_false a
theorem false_product (a : Node) : product (.Leaf false) a = .Leaf false := by
  rw [product_comm]; exact product_false a
theorem true_intersect (a : Node) : intersect (.Leaf true) a = a := by rw [intersect_comm]; exact intersect_true a
theorem true_product (a : Node) : product (.Leaf true) a = a := by rw [product_comm]; exact product_true a

theorem has_branch {m : Nat} {a : Node} (h : Has m a) : ∃ l r, a = .Branch m l r := by
  cases a with
  | Leaf => exact h.elim
  | Branch i l r => cases h; exact ⟨l, r, rfl⟩

theorem union_has {a b : Node} {m : Nat} (sa : a.Supp) (sb : b.Supp) (ha : AtLeast m a) (hb : AtLeast m b)
    (h : Has m a) : union a b =
      .Branch m (union (lo m a a) (lo m b b)) (union (hi m (.Leaf false) a) (hi m (.Leaf false) b)) := by
  obtain ⟨l, r, rfl⟩ := has_branch h
  simp only [lo, hi, if_true]
  by_cases e : Node.Branch m l r = b
  · subst e; simp only [lo, hi, if_true, union_self]
  · rw [union.eq_def, if_neg e]
    cases b with
    | Leaf x =>
      cases x with
      | false => simp only [lo, hi, union_false]
      | true => simp only [lo, hi, union_false]; exact finish_eq sa.1
    | Branch j l' r' =>
      simp only [AtLeast] at hb
      rcases Nat.lt_or_eq_of_le hb with hj | rfl
      · simp only [lo, hi, if_pos hj, if_neg (Nat.ne_of_gt hj), union_false]; exact finish_eq sa.1
      · simp only [lo, hi, if_true, Nat.lt_irrefl, if_false, gt_iff_lt]
        exact finish_eq (union_nonempty r r' sa.2.2 sb.2.2 (.inl sa.1))

theorem intersect_has {a b : Node} {m : Nat} (sa : a.Supp) (sb : b.Supp) (ga : a ≠ .Leaf false) (gb : b ≠ .Leaf false)
    (ha : AtLeast m a) (hb : AtLeast m b) (h : Has m a) : intersect a b =
      .Branch m (intersect (lo m (.Leaf true) a) (lo m (.Leaf true) b)) (intersect (hi m a a) (hi m b b)) := by
  obtain ⟨l, r, rfl⟩ := has_branch h
  simp only [lo, hi, if_true]
  by_cases e : Node.Branch m l r = b
  · subst e; simp only [lo, hi, if_true, intersect_self]
  · rw [intersect.eq_def, if_neg e]
    cases b with
    | Leaf x =>
      cases x with
      | false => exact absurd rfl gb
      | true => simp only [lo, hi, intersect_true]
    | Branch j l' r' =>
      simp only [AtLeast] at hb
      rcases Nat.lt_or_eq_of_le hb with hj | rfl
      · simp only [lo, hi, if_pos hj, if_neg (Nat.ne_of_gt hj), intersect_true]
        exact finish_eq (intersect_nonempty _ _ sa.2.2 sb sa.1 gb)
      · simp only [lo, hi, if_true, Nat.lt_irrefl, if_false, gt_iff_lt]
        exact finish_eq (intersect_nonempty r r' sa.2.2 sb.2.2 sa.1 sb.1)

theorem product_has {a b : Node} {m : Nat} (sa : a.Supp) (sb : b.Supp) (ga : a ≠ .Leaf false) (gb : b ≠ .Leaf false)
    (ha : AtLeast m a) (hb : AtLeast m b) (h : Has m a) : product a b =
      .Branch m (product (lo m a a) (lo m b b)) (product (hi m a a) (hi m b b)) := by
  obtain ⟨l, r, rfl⟩ := has_branch h
  simp only [lo, hi, if_true]
  by_cases e : Node.Branch m l r = b
  · subst e; simp only [lo, hi, if_true, product_self]
  · rw [product.eq_def, if_neg e]
    cases b with
    | Leaf x =>
      cases x with
      | false => exact absurd rfl gb
      | true => simp only [lo, hi, product_true]
    | Branch j l' r' =>
      simp only [AtLeast] at hb
      rcases Nat.lt_or_eq_of_le hb with hj | rfl
      · simp only [lo, hi, if_pos hj, if_neg (Nat.ne_of_gt hj)]
        exact finish_eq (product_nonempty _ _ sa.2.2 sb sa.1 gb)
      · simp only [lo, hi, if_true, Nat.lt_irrefl, if_false, gt_iff_lt]
        exact finish_eq (product_nonempty r r' sa.2.2 sb.2.2 sa.1 sb.1)

theorem union_itemWise : ItemWise union (fun n => n) (fun _ => .Leaf false) (fun _ => True) where
  supp := union_supp
  good := fun _ _ _ _ _ _ => trivial
  bad := fun _ _ _ h => absurd ⟨trivial, trivial, trivial⟩ h
  leaf := by decide +kernel
  leaves := by decide +kernel
  step := by
    intro a b m sa sb _ _ ha hb h
    rcases h with h | h
    · exact union_has sa sb ha hb h
    · rw [union_comm a b, union_has sb sa hb ha h, union_comm (lo m a a), union_comm (hi m _ a)]
  distL := fun _ _ _ _ => rfl
  distH := fun _ _ _ _ => (union_self _).symm
  sizeL := fun a => ⟨le_refl _, id⟩
  sizeH := fun a => ⟨size_pos a, fun _ => trivial⟩

theorem intersect_itemWise : ItemWise intersect (fun _ => .Leaf true) (fun n => n) (fun n => n ≠ .Leaf false) where
  supp := intersect_supp
  good := intersect_nonempty
  bad := by
    intro a b c h
    by_cases ha : a = .Leaf false
    · subst ha; simp only [false_intersect]
    by_cases hb : b = .Leaf false
    · subst hb; simp only [false_intersect, intersect_false]
    by_cases hc : c = .Leaf false
    · subst hc; simp only [intersect_false]
    exact absurd ⟨ha, hb, hc⟩ h
  leaf := by decide +kernel
  leaves := by decide +kernel
  step := by
    intro a b m sa sb ga gb ha hb h
    rcases h with h | h
    · exact intersect_has sa sb ga gb ha hb h
    · rw [intersect_comm a b, intersect_has sb sa gb ga hb ha h, intersect_comm (lo m _ a), intersect_comm (hi m _ a)]
  distL := fun _ _ _ _ => (intersect_self _).symm
  distH := fun _ _ _ _ => rfl
  sizeL := fun a => ⟨size_pos a, fun _ => trivial⟩
  sizeH := fun a => ⟨le_refl _, id⟩

theorem product_itemWise : ItemWise product (fun n => n) (fun n => n) (fun n => n ≠ .Leaf false) where
  supp := product_supp
  good := product_nonempty
  bad := by
    intro a b c h
    by_cases ha : a = .Leaf false
    · subst ha; simp only [false_product]
    by_cases hb : b = .Leaf false
    · subst hb; simp only [false_product, product_false]
    by_cases hc : c = .Leaf false
    · subst hc; simp only [product_false]
    exact absurd ⟨ha, hb, hc⟩ h
  leaf := by decide +kernel
  leaves := by decide +kernel
  step := by
    intro a b m sa sb ga gb ha hb h
    rcases h with h | h
    · exact product_has sa sb ga gb ha hb h
    · rw [product_comm a b, product_has sb sa gb ga hb ha h, product_comm (lo m _ a), product_comm (hi m _ a)]
  distL := fun _ _ _ _ => rfl
  distH := fun _ _ _ _ => rfl
  sizeL := fun a => ⟨le_refl _, id⟩
  sizeH := fun a => ⟨le_refl _, id⟩

theorem Weak.supp {n : Node} (h : n.Weak) : n.Supp := by
  induction n with
  | Leaf => trivial
  | Branch i l r ihl ihr => exact ⟨h.2.2.1, ihl h.2.2.2.1, ihr h.2.2.2.2⟩

end Node

variable {T : Type u} [LinearOrder T]
open Verif.ArenaZdd1 (Ex)

/-! ### trees the API makes, over any universes -/

/-- The items of the universe the tree is over: that of the first operand.  Not code: used to state or prove
properties. -/
def _root_.Verif.ArenaZdd1.Ex.home : Ex T → List T
  | .empty items | .unit items | .tree items _ | .unique items _ | .hyper items _ => items
  | .union a _ | .intersect a _ | .product a _ | .restrict a _ _ => a.home

theorem _root_.Verif.ArenaZdd1.Ex.univ_eq (e : Ex T) : e.eval.univ = Universe.fromVec e.home := by
  have fold : ∀ (ts : List (Tree T)) (t0 : Tree T),
      (ts.foldl (fun root next => root.union next) t0).univ = t0.univ := by
    intro ts
    induction ts with
    | nil => intro t0; rfl
    | cons a ts ih => intro t0; exact ih (t0.union a)
  induction e with
  | empty items => rfl
  | unit items => rfl
  | tree items c => rfl
  | unique items xs => exact fold _ _
  | hyper items cs => exact fold _ _
  | union a b iha _ => exact iha
  | intersect a b iha _ => exact iha
  | product a b iha _ => exact iha
  | restrict a inc exc iha => exact (fold _ _).trans iha

theorem _root_.Verif.ArenaZdd1.Ex.weak_of_hyper {uni : Universe T} {items : List T} (e : uni = Universe.fromVec items)
    (cs : List (List T)) : (uni.hyperTree cs).root.Weak := by
  subst e
  refine foldUnion_weak _ _ trivial ?_
  simp only [List.mem_map]
  rintro _ ⟨c, hc, rfl⟩
  exact tree_weak _ _

theorem _root_.Verif.ArenaZdd1.Ex.supp (e : Ex T) : e.eval.root.Supp := by
  induction e with
  | empty items => trivial
  | unit items => trivial
  | tree items c => exact (tree_weak _ _).supp
  | unique items xs =>
    refine Node.Weak.supp (foldUnion_weak _ (Universe.fromVec items).emptyTree trivial ?_)
    simp only [List.mem_map]; rintro _ ⟨x, _, rfl⟩; exact tree_weak _ _
  | hyper items cs => exact (Ex.weak_of_hyper rfl cs).supp
  | union a b iha ihb => exact Node.union_supp _ _ iha ihb
  | intersect a b iha ihb => exact Node.intersect_supp _ _ iha ihb
  | product a b iha ihb => exact Node.product_supp _ _ iha ihb
  | restrict a inc exc iha => exact (Ex.weak_of_hyper a.univ_eq _).supp

/-- C114: `union`, `intersect` and `product` of trees made by any calls, over any universes, are associative. -/
theorem ops_assoc (a b c : Ex T) :
    (a.eval.union b.eval).union c.eval = a.eval.union (b.eval.union c.eval) ∧
    (a.eval.intersect b.eval).intersect c.eval = a.eval.intersect (b.eval.intersect c.eval) ∧
    (a.eval.product b.eval).product c.eval = a.eval.product (b.eval.product c.eval) :=
  ⟨Tree.ext (Node.union_itemWise.assoc _ _ _ a.supp b.supp c.supp) rfl,
    Tree.ext (Node.intersect_itemWise.assoc _ _ _ a.supp b.supp c.supp) rfl,
    Tree.ext (Node.product_itemWise.assoc _ _ _ a.supp b.supp c.supp) rfl⟩

/-- C114: the empty tree is neutral for `union` and absorbs in `intersect` and `product`; the unit tree is neutral
for `intersect` and `product`. -/
theorem ops_constants (t : Tree T) :
    t.union t.univ.emptyTree = t ∧ t.univ.emptyTree.union t = t ∧
    t.intersect t.univ.emptyTree = t.univ.emptyTree ∧ t.univ.emptyTree.intersect t = t.univ.emptyTree ∧
    t.product t.univ.emptyTree = t.univ.emptyTree ∧ t.univ.emptyTree.product t = t.univ.emptyTree ∧
    t.intersect t.univ.unitTree = t ∧ t.univ.unitTree.intersect t = t ∧
    t.product t.univ.unitTree = t ∧ t.univ.unitTree.product t = t :=
  ⟨Tree.ext (Node.union_false _) rfl, Tree.ext (Node.false_union _) rfl,
    Tree.ext (Node.intersect_false _) rfl, Tree.ext (Node.false_intersect _) rfl,
    Tree.ext (Node.product_false _) rfl, Tree.ext (Node.false_product _) rfl,
    Tree.ext (Node.intersect_true _) rfl, Tree.ext (Node.true_intersect _) rfl,
    Tree.ext (Node.product_true _) rfl, Tree.ext (Node.true_product _) rfl⟩

/-- A way of grouping the trees to be combined.  Not code: used to state or prove properties. -/
inductive Plan (T : Type u) where
  | one (e : Ex T)
  | two (p q : Plan T)

/-- The trees a plan combines.  Not code: used to state or prove properties. -/
def Plan.leaves : Plan T → List (Ex T)
  | .one e => [e]
  | .two p q => p.leaves ++ q.leaves

/-- Carrying the plan out with one of the operations.  Not code: used to state or prove properties. -/
def Plan.run (op : Tree T → Tree T → Tree T) : Plan T → Tree T
  | .one e => e.eval
  | .two p q => op (p.run op) (q.run op)

namespace Node

theorem plan_lub {nop : Node → Node → Node} {top : Tree T → Tree T → Tree T}
    (hroot : ∀ a b, (top a b).root = nop a.root b.root)
    (hs : ∀ a b, a.Supp → b.Supp → (nop a b).Supp) (hc : ∀ a b, nop a b = nop b a) (hi : ∀ a, nop a a = a)
    (ha : ∀ a b c : Node, a.Supp → b.Supp → c.Supp → nop (nop a b) c = nop a (nop b c)) (p : Plan T) :
    (p.run top).root.Supp ∧ (∀ e ∈ p.leaves, nop (p.run top).root e.eval.root = (p.run top).root) ∧
      ∀ y : Node, y.Supp → (∀ e ∈ p.leaves, nop y e.eval.root = y) → nop y (p.run top).root = y := by
  induction p with
  | one e =>
    refine ⟨e.supp, ?_, ?_⟩
    · intro e' he
      simp only [Plan.leaves, List.mem_singleton] at he
      subst he; exact hi _
    · intro y _ h; exact h e (by simp [Plan.leaves])
  | two p q ihp ihq =>
    obtain ⟨sp, up, lp⟩ := ihp
    obtain ⟨sq, uq, lq⟩ := ihq
    simp only [Plan.run, hroot, Plan.leaves, List.mem_append]
    refine ⟨hs _ _ sp sq, ?_, ?_⟩
    · rintro e (h | h)
      · rw [hc (p.run top).root, ha _ _ _ sq sp e.supp, up e h]
      · rw [ha _ _ _ sp sq e.supp, uq e h]
    · intro y sy h
      rw [← ha _ _ _ sy sp sq, lp y sy (fun e he => h e (.inl he)), lq y sy (fun e he => h e (.inr he))]

theorem plan_root {nop : Node → Node → Node} {top : Tree T → Tree T → Tree T}
    (hroot : ∀ a b, (top a b).root = nop a.root b.root)
    (hs : ∀ a b, a.Supp → b.Supp → (nop a b).Supp) (hc : ∀ a b, nop a b = nop b a) (hi : ∀ a, nop a a = a)
    (ha : ∀ a b c : Node, a.Supp → b.Supp → c.Supp → nop (nop a b) c = nop a (nop b c)) (p q : Plan T)
    (h : ∀ t, t ∈ p.leaves.map Ex.eval ↔ t ∈ q.leaves.map Ex.eval) : (p.run top).root = (q.run top).root := by
  obtain ⟨sp, up, lp⟩ := plan_lub hroot hs hc hi ha p
  obtain ⟨sq, uq, lq⟩ := plan_lub hroot hs hc hi ha q
  have h1 := lq _ sp (fun e he => by
    obtain ⟨e', he', e2⟩ := List.mem_map.1 ((h e.eval).2 (List.mem_map_of_mem he))
    rw [← e2]; exact up e' he')
  have h2 := lp _ sq (fun e he => by
    obtain ⟨e', he', e2⟩ := List.mem_map.1 ((h e.eval).1 (List.mem_map_of_mem he))
    rw [← e2]; exact uq e' he')
  rw [← h1, hc, h2]

end Node

theorem plan_univ {top : Tree T → Tree T → Tree T} (hu : ∀ a b, (top a b).univ = a.univ) {uni : Universe T}
    (p : Plan T) (h : ∀ e ∈ p.leaves, e.eval.univ = uni) : (p.run top).univ = uni := by
  induction p with
  | one e => exact h e (by simp [Plan.leaves])
  | two p q ihp _ =>
    rw [Plan.run, hu]
    exact ihp (fun e he => h e (by simp [Plan.leaves, he]))

/-- C114: combining several trees of one universe with one of the three operations gives the same tree however
they are ordered, grouped or repeated. -/
theorem any_plan {uni : Universe T} {p q : Plan T} (hp : ∀ e ∈ p.leaves, e.eval.univ = uni)
    (hq : ∀ e ∈ q.leaves, e.eval.univ = uni) (h : ∀ t, t ∈ p.leaves.map Ex.eval ↔ t ∈ q.leaves.map Ex.eval) :
    p.run Tree.union = q.run Tree.union ∧ p.run Tree.intersect = q.run Tree.intersect ∧
      p.run Tree.product = q.run Tree.product :=
  ⟨Tree.ext (Node.plan_root (fun _ _ => rfl) Node.union_supp Node.union_comm Node.union_self
      Node.union_itemWise.assoc p q h)
      ((plan_univ (top := Tree.union) (fun _ _ => rfl) p hp).trans (plan_univ (top := Tree.union) (fun _ _ => rfl) q hq).symm),
    Tree.ext (Node.plan_root (fun _ _ => rfl) Node.intersect_supp Node.intersect_comm Node.intersect_self
      Node.intersect_itemWise.assoc p q h)
      ((plan_univ (top := Tree.intersect) (fun _ _ => rfl) p hp).trans (plan_univ (top := Tree.intersect) (fun _ _ => rfl) q hq).symm),
    Tree.ext (Node.plan_root (fun _ _ => rfl) Node.product_supp Node.product_comm Node.product_self
      Node.product_itemWise.assoc p q h)
      ((plan_univ (top := Tree.product) (fun _ _ => rfl) p hp).trans (plan_univ (top := Tree.product) (fun _ _ => rfl) q hq).symm)⟩

/-- C114: but the operations do not absorb or distribute over one another: each of these laws of sets fails
on trees of one universe. -/
theorem laws_fail : let t := (Universe.fromVec [1, 2, 3]).hyperTree
    (t [[]]).union ((t [[]]).intersect (t [[1]])) ≠ t [[]] ∧
    (t [[]]).intersect ((t [[]]).union (t [[1]])) ≠ t [[]] ∧
    (t [[2]]).intersect ((t [[]]).union (t [[1]])) ≠
      ((t [[2]]).intersect (t [[]])).union ((t [[2]]).intersect (t [[1]])) ∧
    (t [[]]).union ((t []).intersect (t [[1]])) ≠ ((t [[]]).union (t [])).intersect ((t [[]]).union (t [[1]])) ∧
    (t [[1]]).product ((t [[]]).union (t [[1, 2]])) ≠
      ((t [[1]]).product (t [[]])).union ((t [[1]]).product (t [[1, 2]])) := by
  simp only [ne_eq, Tree.ext_iff, not_and_or]
  refine ⟨.inl ?_, .inl ?_, .inl ?_, .inl ?_, .inl ?_⟩ <;> decide +kernel

/-! ### examples -/

/-- Three trees over one universe, one with a combination that repeats an item, one a restriction. -/
example : let a : Ex Nat := .hyper [1, 2, 3] [[1, 1, 2], [3]]
    let b : Ex Nat := .restrict (.hyper [1, 2, 3] [[], [2], [2, 3]]) [2] []
    let c : Ex Nat := .unique [1, 2, 3] [1, 3]
    let p : Plan Nat := .two (.two (.one a) (.one b)) (.one c)
    let q : Plan Nat := .two (.one c) (.two (.two (.one b) (.one a)) (.one b))
    p.run Tree.product = q.run Tree.product ∧ p.run Tree.product ≠ a.eval := by
  refine ⟨(any_plan (uni := Universe.fromVec [1, 2, 3]) ?_ ?_ ?_).2.2, ?_⟩
  · simp only [Plan.leaves, List.cons_append, List.nil_append, List.mem_cons, List.not_mem_nil, or_false]
    rintro e (rfl | rfl | rfl) <;> exact Ex.univ_eq _
  · simp only [Plan.leaves, List.cons_append, List.nil_append, List.mem_cons, List.not_mem_nil, or_false]
    rintro e (rfl | rfl | rfl | rfl) <;> exact Ex.univ_eq _
  · intro t
    simp only [Plan.leaves, List.cons_append, List.nil_append, List.map_cons, List.map_nil, List.mem_cons,
      List.not_mem_nil, or_false]
    constructor
    · rintro (h | h | h) <;> simp [h]
    · rintro (h | h | h | h) <;> simp [h]
  · rw [ne_eq, Tree.ext_iff, not_and_or]; left; decide +kernel

/-- Trees over different universes. -/
example : let a : Ex Nat := .hyper [1, 2, 3] [[1], [3]]
    let b : Ex Nat := .tree [3, 2] [3, 2]
    let c : Ex Nat := .unique [2] [2]
    (a.eval.union b.eval).union c.eval = a.eval.union (b.eval.union c.eval) := (ops_assoc _ _ _).1

example : ((Universe.fromVec [1, 2]).hyperTree [[1], [2]]).union (Universe.fromVec [1, 2]).emptyTree =
    (Universe.fromVec [1, 2]).hyperTree [[1], [2]] := (ops_constants _).1

end Verif.Zdd1
