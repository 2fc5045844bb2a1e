import Verif.Bdd.Node

/-! Helper lemmas about BDD nodes. -/

set_option linter.unusedSimpArgs false
set_option linter.unusedSectionVars false

namespace Verif.Bdd
open Verif

universe u
variable {I : Type u} [LinearOrder I]

namespace Node

/-- The root item (if any) is after `x`.  Not code: used to state or prove properties. -/
def Above (x : I) : Node I → Prop
  | .Leaf _ => True
  | .Branch i _ _ => x < i

/-- Items strictly ascend along every path.  Not code: used to state or prove properties. -/
def Ordered : Node I → Prop
  | .Leaf _ => True
  | .Branch i l h => Above i l ∧ Above i h ∧ l.Ordered ∧ h.Ordered

/-- No node has two equal children.  Not code: used to state or prove properties. -/
def Reduced : Node I → Prop
  | .Leaf _ => True
  | .Branch _ l h => l ≠ h ∧ l.Reduced ∧ h.Reduced

/-- Items mentioned.  Not code: used to state or prove properties. -/
def Mentions (x : I) : Node I → Prop
  | .Leaf _ => False
  | .Branch i l h => x = i ∨ l.Mentions x ∨ h.Mentions x

theorem eval_mk (i : I) (l h : Node I) (σ : I → Bool) :
    (mk i l h).eval σ = if σ i then h.eval σ else l.eval σ := by
  unfold mk
  split_ifs with e h1 <;> simp_all [eval]

theorem eval_split (n : Node I) (f : I) (σ : I → Bool) :
    n.eval σ = if σ f then (splitBranch n f).2.eval σ else (splitBranch n f).1.eval σ := by
  cases n with
  | Leaf b => simp [splitBranch]
  | Branch i l h =>
    simp only [splitBranch]
    by_cases e : f = i
    · subst e; simp [eval]
    · simp [e]

theorem eval_bitor (n1 n2 : Node I) (σ : I → Bool) :
    (bitor n1 n2).eval σ = (n1.eval σ || n2.eval σ) := by
  fun_induction bitor n1 n2 with
  | case1 n1 => simp [eval]
  | case2 n2 h => simp [eval]
  | case3 v1 v2 _ _ => simp [eval]
  | case4 id l h v _ ih1 ih2 =>
    rw [eval_mk, ih1, ih2]; simp only [eval]; split_ifs <;> rfl
  | case5 v id l h _ ih1 ih2 =>
    rw [eval_mk, ih1, ih2]; simp only [eval]; split_ifs <;> rfl
  | case6 id1 l1 h1 id2 l2 h2 f s1 s2 ih1 ih2 =>
    rw [eval_mk, ih1, ih2, eval_split (.Branch id1 l1 h1) f, eval_split (.Branch id2 l2 h2) f]
    split_ifs <;> rfl

theorem eval_bitand (n1 n2 : Node I) (σ : I → Bool) :
    (bitand n1 n2).eval σ = (n1.eval σ && n2.eval σ) := by
  fun_induction bitand n1 n2 with
  | case1 n1 => simp [eval]
  | case2 n2 h => simp [eval]
  | case3 v1 v2 _ _ => simp [eval]
  | case4 id l h v _ ih1 ih2 =>
    rw [eval_mk, ih1, ih2]; simp only [eval]; split_ifs <;> rfl
  | case5 v id l h _ ih1 ih2 =>
    rw [eval_mk, ih1, ih2]; simp only [eval]; split_ifs <;> rfl
  | case6 id1 l1 h1 id2 l2 h2 f s1 s2 ih1 ih2 =>
    rw [eval_mk, ih1, ih2, eval_split (.Branch id1 l1 h1) f, eval_split (.Branch id2 l2 h2) f]
    split_ifs <;> rfl

theorem Above.lt_trans {x y : I} {n : Node I} (h : Above y n) (hx : x < y) : Above x n := by
  cases n with
  | Leaf b => trivial
  | Branch i l h' => exact _root_.lt_trans hx h

theorem above_mk {x i : I} {l h : Node I} (hi : x < i) (hl : Above x l) : Above x (mk i l h) := by
  unfold mk; split_ifs
  · exact hl
  · exact hi

theorem ordered_mk {i : I} {l h : Node I} (h1 : Above i l) (h2 : Above i h) (h3 : l.Ordered)
    (h4 : h.Ordered) : (mk i l h).Ordered := by
  unfold mk; split_ifs
  · exact h3
  · exact ⟨h1, h2, h3, h4⟩

theorem reduced_mk {i : I} {l h : Node I} (h3 : l.Reduced) (h4 : h.Reduced) :
    (mk i l h).Reduced := by
  unfold mk; split_ifs with e
  · exact h3
  · exact ⟨e, h3, h4⟩

theorem mentions_mk {i x : I} {l h : Node I} (hm : (mk i l h).Mentions x) :
    x = i ∨ l.Mentions x ∨ h.Mentions x := by
  unfold mk at hm; split_ifs at hm
  · exact Or.inr (Or.inl hm)
  · exact hm

theorem ordered_split {n : Node I} {f : I} (ho : n.Ordered) :
    (splitBranch n f).1.Ordered ∧ (splitBranch n f).2.Ordered := by
  cases n with
  | Leaf b => exact ⟨trivial, trivial⟩
  | Branch i l h =>
    simp only [splitBranch]; split_ifs
    · exact ⟨ho.2.2.1, ho.2.2.2⟩
    · exact ⟨ho, ho⟩

theorem reduced_split {n : Node I} {f : I} (ho : n.Reduced) :
    (splitBranch n f).1.Reduced ∧ (splitBranch n f).2.Reduced := by
  cases n with
  | Leaf b => exact ⟨trivial, trivial⟩
  | Branch i l h =>
    simp only [splitBranch]; split_ifs
    · exact ⟨ho.2.1, ho.2.2⟩
    · exact ⟨ho, ho⟩

theorem mentions_split {n : Node I} {f x : I}
    (hm : (splitBranch n f).1.Mentions x ∨ (splitBranch n f).2.Mentions x) : n.Mentions x := by
  cases n with
  | Leaf b => simpa [splitBranch] using hm
  | Branch i l h =>
    simp only [splitBranch] at hm
    split_ifs at hm
    · exact Or.inr hm
    · exact hm.elim id id

/-- Splitting at an item not after the root leaves halves above any `x` below that item. -/
theorem above_split {n : Node I} {f x : I} (ho : n.Ordered) (hx : Above x n) :
    Above x (splitBranch n f).1 ∧ Above x (splitBranch n f).2 := by
  cases n with
  | Leaf b => exact ⟨trivial, trivial⟩
  | Branch i l h =>
    simp only [splitBranch]; split_ifs
    · exact ⟨ho.1.lt_trans hx, ho.2.1.lt_trans hx⟩
    · exact ⟨hx, hx⟩

/-- Splitting at the least root leaves halves above it. -/
theorem above_split_self {i f : I} {l h : Node I} (ho : (Node.Branch i l h).Ordered) (hf : f ≤ i) :
    Above f (splitBranch (.Branch i l h) f).1 ∧ Above f (splitBranch (.Branch i l h) f).2 := by
  simp only [splitBranch]; split_ifs with e
  · subst e; exact ⟨ho.1, ho.2.1⟩
  · have : f < i := lt_of_le_of_ne hf e
    exact ⟨this, this⟩

theorem min_cases (a b : I) : (if a ≤ b then a else b) ≤ a ∧ (if a ≤ b then a else b) ≤ b ∧
    ((if a ≤ b then a else b) = a ∨ (if a ≤ b then a else b) = b) := by
  split_ifs with h
  · exact ⟨le_refl _, h, Or.inl rfl⟩
  · exact ⟨le_of_lt (not_le.1 h), le_refl _, Or.inr rfl⟩

theorem above_bitor {x : I} (n1 n2 : Node I) (o1 : n1.Ordered) (o2 : n2.Ordered)
    (h1 : Above x n1) (h2 : Above x n2) : Above x (bitor n1 n2) := by
  fun_induction bitor n1 n2 with
  | case1 n1 => exact h1
  | case2 n2 h => exact h2
  | case3 v1 v2 _ _ => trivial
  | case4 id l h v _ ih1 ih2 => exact above_mk h1 (ih1 o1.2.2.1 o2 (o1.1.lt_trans h1) trivial)
  | case5 v id l h _ ih1 ih2 => exact above_mk h2 (ih1 o1 o2.2.2.1 trivial (o2.1.lt_trans h2))
  | case6 id1 l1 h1' id2 l2 h2' f s1 s2 ih1 ih2 =>
    refine above_mk ?_ (ih1 (ordered_split o1).1 (ordered_split o2).1 (above_split o1 h1).1
      (above_split o2 h2).1)
    rcases (min_cases id1 id2).2.2 with e | e
    · exact lt_of_lt_of_eq h1 e.symm
    · exact lt_of_lt_of_eq h2 e.symm

theorem above_bitand {x : I} (n1 n2 : Node I) (o1 : n1.Ordered) (o2 : n2.Ordered)
    (h1 : Above x n1) (h2 : Above x n2) : Above x (bitand n1 n2) := by
  fun_induction bitand n1 n2 with
  | case1 n1 => exact h1
  | case2 n2 h => exact h2
  | case3 v1 v2 _ _ => trivial
  | case4 id l h v _ ih1 ih2 => exact above_mk h1 (ih1 o1.2.2.1 o2 (o1.1.lt_trans h1) trivial)
  | case5 v id l h _ ih1 ih2 => exact above_mk h2 (ih1 o1 o2.2.2.1 trivial (o2.1.lt_trans h2))
  | case6 id1 l1 h1' id2 l2 h2' f s1 s2 ih1 ih2 =>
    refine above_mk ?_ (ih1 (ordered_split o1).1 (ordered_split o2).1 (above_split o1 h1).1
      (above_split o2 h2).1)
    rcases (min_cases id1 id2).2.2 with e | e
    · exact lt_of_lt_of_eq h1 e.symm
    · exact lt_of_lt_of_eq h2 e.symm

theorem ordered_bitor (n1 n2 : Node I) (o1 : n1.Ordered) (o2 : n2.Ordered) :
    (bitor n1 n2).Ordered := by
  fun_induction bitor n1 n2 with
  | case1 n1 => exact o1
  | case2 n2 h => exact o2
  | case3 v1 v2 _ _ => trivial
  | case4 id l h v _ ih1 ih2 =>
    exact ordered_mk (above_bitor _ _ o1.2.2.1 o2 o1.1 trivial)
      (above_bitor _ _ o1.2.2.2 o2 o1.2.1 trivial) (ih1 o1.2.2.1 o2) (ih2 o1.2.2.2 o2)
  | case5 v id l h _ ih1 ih2 =>
    exact ordered_mk (above_bitor _ _ o1 o2.2.2.1 trivial o2.1)
      (above_bitor _ _ o1 o2.2.2.2 trivial o2.2.1) (ih1 o1 o2.2.2.1) (ih2 o1 o2.2.2.2)
  | case6 id1 l1 h1' id2 l2 h2' f s1 s2 ih1 ih2 =>
    have a1 := ordered_split (f := f) o1
    have a2 := ordered_split (f := f) o2
    have b1 := above_split_self (f := f) o1 (min_cases id1 id2).1
    have b2 := above_split_self (f := f) o2 (min_cases id1 id2).2.1
    exact ordered_mk (above_bitor _ _ a1.1 a2.1 b1.1 b2.1) (above_bitor _ _ a1.2 a2.2 b1.2 b2.2)
      (ih1 a1.1 a2.1) (ih2 a1.2 a2.2)

theorem ordered_bitand (n1 n2 : Node I) (o1 : n1.Ordered) (o2 : n2.Ordered) :
    (bitand n1 n2).Ordered := by
  fun_induction bitand n1 n2 with
  | case1 n1 => exact o1
  | case2 n2 h => exact o2
  | case3 v1 v2 _ _ => trivial
  | case4 id l h v _ ih1 ih2 =>
    exact ordered_mk (above_bitand _ _ o1.2.2.1 o2 o1.1 trivial)
      (above_bitand _ _ o1.2.2.2 o2 o1.2.1 trivial) (ih1 o1.2.2.1 o2) (ih2 o1.2.2.2 o2)
  | case5 v id l h _ ih1 ih2 =>
    exact ordered_mk (above_bitand _ _ o1 o2.2.2.1 trivial o2.1)
      (above_bitand _ _ o1 o2.2.2.2 trivial o2.2.1) (ih1 o1 o2.2.2.1) (ih2 o1 o2.2.2.2)
  | case6 id1 l1 h1' id2 l2 h2' f s1 s2 ih1 ih2 =>
    have a1 := ordered_split (f := f) o1
    have a2 := ordered_split (f := f) o2
    have b1 := above_split_self (f := f) o1 (min_cases id1 id2).1
    have b2 := above_split_self (f := f) o2 (min_cases id1 id2).2.1
    exact ordered_mk (above_bitand _ _ a1.1 a2.1 b1.1 b2.1) (above_bitand _ _ a1.2 a2.2 b1.2 b2.2)
      (ih1 a1.1 a2.1) (ih2 a1.2 a2.2)

theorem reduced_bitor (n1 n2 : Node I) (o1 : n1.Reduced) (o2 : n2.Reduced) :
    (bitor n1 n2).Reduced := by
  fun_induction bitor n1 n2 with
  | case1 n1 => exact o1
  | case2 n2 h => exact o2
  | case3 v1 v2 _ _ => trivial
  | case4 id l h v _ ih1 ih2 => exact reduced_mk (ih1 o1.2.1 o2) (ih2 o1.2.2 o2)
  | case5 v id l h _ ih1 ih2 => exact reduced_mk (ih1 o1 o2.2.1) (ih2 o1 o2.2.2)
  | case6 id1 l1 h1' id2 l2 h2' f s1 s2 ih1 ih2 =>
    exact reduced_mk (ih1 (reduced_split o1).1 (reduced_split o2).1)
      (ih2 (reduced_split o1).2 (reduced_split o2).2)

theorem reduced_bitand (n1 n2 : Node I) (o1 : n1.Reduced) (o2 : n2.Reduced) :
    (bitand n1 n2).Reduced := by
  fun_induction bitand n1 n2 with
  | case1 n1 => exact o1
  | case2 n2 h => exact o2
  | case3 v1 v2 _ _ => trivial
  | case4 id l h v _ ih1 ih2 => exact reduced_mk (ih1 o1.2.1 o2) (ih2 o1.2.2 o2)
  | case5 v id l h _ ih1 ih2 => exact reduced_mk (ih1 o1 o2.2.1) (ih2 o1 o2.2.2)
  | case6 id1 l1 h1' id2 l2 h2' f s1 s2 ih1 ih2 =>
    exact reduced_mk (ih1 (reduced_split o1).1 (reduced_split o2).1)
      (ih2 (reduced_split o1).2 (reduced_split o2).2)

theorem mentions_bitor {x : I} (n1 n2 : Node I) (h : (bitor n1 n2).Mentions x) :
    n1.Mentions x ∨ n2.Mentions x := by
  fun_induction bitor n1 n2 with
  | case1 n1 => exact Or.inl h
  | case2 n2 _ => exact Or.inr h
  | case3 v1 v2 _ _ => exact h.elim
  | case4 id l h' v _ ih1 ih2 =>
    rcases mentions_mk h with h | h | h
    · exact Or.inl (Or.inl h)
    · exact (ih1 h).imp (fun a => Or.inr (Or.inl a)) (fun a => a)
    · exact (ih2 h).imp (fun a => Or.inr (Or.inr a)) (fun a => a)
  | case5 v id l h' _ ih1 ih2 =>
    rcases mentions_mk h with h | h | h
    · exact Or.inr (Or.inl h)
    · exact (ih1 h).imp (fun a => a) (fun a => Or.inr (Or.inl a))
    · exact (ih2 h).imp (fun a => a) (fun a => Or.inr (Or.inr a))
  | case6 id1 l1 h1' id2 l2 h2' f s1 s2 ih1 ih2 =>
    rcases mentions_mk h with h | h | h
    · rcases (min_cases id1 id2).2.2 with e | e
      · exact Or.inl (Or.inl (h.trans e))
      · exact Or.inr (Or.inl (h.trans e))
    · exact (ih1 h).imp (fun a => mentions_split (Or.inl a)) (fun a => mentions_split (Or.inl a))
    · exact (ih2 h).imp (fun a => mentions_split (Or.inr a)) (fun a => mentions_split (Or.inr a))

theorem mentions_bitand {x : I} (n1 n2 : Node I) (h : (bitand n1 n2).Mentions x) :
    n1.Mentions x ∨ n2.Mentions x := by
  fun_induction bitand n1 n2 with
  | case1 n1 => exact Or.inl h
  | case2 n2 _ => exact Or.inr h
  | case3 v1 v2 _ _ => exact h.elim
  | case4 id l h' v _ ih1 ih2 =>
    rcases mentions_mk h with h | h | h
    · exact Or.inl (Or.inl h)
    · exact (ih1 h).imp (fun a => Or.inr (Or.inl a)) (fun a => a)
    · exact (ih2 h).imp (fun a => Or.inr (Or.inr a)) (fun a => a)
  | case5 v id l h' _ ih1 ih2 =>
    rcases mentions_mk h with h | h | h
    · exact Or.inr (Or.inl h)
    · exact (ih1 h).imp (fun a => a) (fun a => Or.inr (Or.inl a))
    · exact (ih2 h).imp (fun a => a) (fun a => Or.inr (Or.inr a))
  | case6 id1 l1 h1' id2 l2 h2' f s1 s2 ih1 ih2 =>
    rcases mentions_mk h with h | h | h
    · rcases (min_cases id1 id2).2.2 with e | e
      · exact Or.inl (Or.inl (h.trans e))
      · exact Or.inr (Or.inl (h.trans e))
    · exact (ih1 h).imp (fun a => mentions_split (Or.inl a)) (fun a => mentions_split (Or.inl a))
    · exact (ih2 h).imp (fun a => mentions_split (Or.inr a)) (fun a => mentions_split (Or.inr a))

/-! ### Independence and canonicity -/

theorem eval_congr {n : Node I} {σ τ : I → Bool} (h : ∀ x, n.Mentions x → σ x = τ x) :
    n.eval σ = n.eval τ := by
  induction n with
  | Leaf b => rfl
  | Branch i l h' ihl ihh =>
    simp only [eval]
    rw [h i (Or.inl rfl), ihl (fun x hx => h x (Or.inr (Or.inl hx))),
      ihh (fun x hx => h x (Or.inr (Or.inr hx)))]

theorem mentions_above {n : Node I} (ho : n.Ordered) {x y : I} (ha : Above x n)
    (hm : n.Mentions y) : x < y := by
  induction n generalizing x with
  | Leaf b => exact hm.elim
  | Branch i l h ihl ihh =>
    rcases hm with rfl | hm | hm
    · exact ha
    · exact lt_trans ha (ihl ho.2.2.1 ho.1 hm)
    · exact lt_trans ha (ihh ho.2.2.2 ho.2.1 hm)

theorem not_mentions_above {n : Node I} (ho : n.Ordered) {x : I} (ha : Above x n) :
    ¬ n.Mentions x := fun hm => lt_irrefl _ (mentions_above ho ha hm)

theorem eval_update_of_not_mentions {n : Node I} {x : I} (h : ¬ n.Mentions x) (σ : I → Bool)
    (b : Bool) : n.eval (Function.update σ x b) = n.eval σ := by
  apply eval_congr
  intro y hy
  have : y ≠ x := fun e => h (e ▸ hy)
  simp [this]

theorem eval_branch_true {i : I} {l h : Node I} (hn : ¬ h.Mentions i) (σ : I → Bool) :
    (Node.Branch i l h).eval (Function.update σ i true) = h.eval σ := by
  simp [eval, eval_update_of_not_mentions hn]

theorem eval_branch_false {i : I} {l h : Node I} (hn : ¬ l.Mentions i) (σ : I → Bool) :
    (Node.Branch i l h).eval (Function.update σ i false) = l.eval σ := by
  simp [eval, eval_update_of_not_mentions hn]

theorem canonical_aux (k : Nat) : ∀ n m : Node I, n.size + m.size ≤ k → n.Ordered → m.Ordered →
    n.Reduced → m.Reduced → (∀ σ, n.eval σ = m.eval σ) → n = m := by
  induction k with
  | zero =>
    intro n m hk
    cases n <;> simp [size] at hk
  | succ k ih =>
    intro n m hk on om rn rm he
    cases n with
    | Leaf a =>
      cases m with
      | Leaf b => have := he (fun _ => false); simp [eval] at this; rw [this]
      | Branch j l h =>
        exfalso
        refine rm.1 (ih l h (by simp only [size] at *; omega) om.2.2.1 om.2.2.2 rm.2.1 rm.2.2 ?_)
        intro σ
        rw [← eval_branch_false (not_mentions_above om.2.2.1 om.1) (h := h) σ, ← he,
          ← eval_branch_true (not_mentions_above om.2.2.2 om.2.1) (l := l) σ, ← he]
        rfl
    | Branch i l h =>
      have hlow : ¬ l.Mentions i := not_mentions_above on.2.2.1 on.1
      have hhigh : ¬ h.Mentions i := not_mentions_above on.2.2.2 on.2.1
      -- if `m` is above `i`, the two children of `n` denote the same function
      have collapse : ¬ m.Mentions i → False := by
        intro hm
        refine rn.1 (ih l h ?_ on.2.2.1 on.2.2.2 rn.2.1 rn.2.2 ?_)
        · have : 1 ≤ m.size := by cases m <;> simp only [size] <;> omega
          simp only [size] at *; omega
        · intro σ
          rw [← eval_branch_false hlow (h := h) σ, he, ← eval_branch_true hhigh (l := l) σ, he,
            eval_update_of_not_mentions hm, eval_update_of_not_mentions hm]
      cases m with
      | Leaf b => exact absurd (fun hm => hm.elim) collapse
      | Branch j l' h' =>
        have hlow' : ¬ l'.Mentions j := not_mentions_above om.2.2.1 om.1
        have hhigh' : ¬ h'.Mentions j := not_mentions_above om.2.2.2 om.2.1
        have hji : j ≤ i := by
          by_contra hlt
          exact collapse (not_mentions_above (n := .Branch j l' h') om (not_le.1 hlt))
        have hij : i ≤ j := by
          by_contra hlt
          have hn : ¬ (Node.Branch i l h).Mentions j :=
            not_mentions_above (n := .Branch i l h) on (not_le.1 hlt)
          refine rm.1 (ih l' h' (by simp only [size] at *; omega) om.2.2.1 om.2.2.2 rm.2.1 rm.2.2 ?_)
          intro σ
          rw [← eval_branch_false hlow' (h := h') σ, ← he, ← eval_branch_true hhigh' (l := l') σ,
            ← he, eval_update_of_not_mentions hn, eval_update_of_not_mentions hn]
        have e : i = j := le_antisymm hij hji
        subst e
        have el : l = l' := by
          refine ih l l' (by simp only [size] at *; omega) on.2.2.1 om.2.2.1 rn.2.1 rm.2.1 ?_
          intro σ
          rw [← eval_branch_false hlow (h := h) σ, he, eval_branch_false hlow']
        have eh : h = h' := by
          refine ih h h' (by simp only [size] at *; omega) on.2.2.2 om.2.2.2 rn.2.2 rm.2.2 ?_
          intro σ
          rw [← eval_branch_true hhigh (l := l) σ, he, eval_branch_true hhigh']
        rw [el, eh]

theorem canonical {n m : Node I} (on : n.Ordered) (om : m.Ordered) (rn : n.Reduced)
    (rm : m.Reduced) (he : ∀ σ, n.eval σ = m.eval σ) : n = m :=
  canonical_aux _ n m (le_refl _) on om rn rm he

/-- An ordered reduced node other than the false leaf is satisfiable. -/
theorem satisfiable {n : Node I} (on : n.Ordered) (rn : n.Reduced) (hn : n ≠ .Leaf false) :
    ∃ σ, n.eval σ = true := by
  by_contra hc
  refine hn (canonical on (m := .Leaf false) trivial rn trivial (fun σ => ?_))
  have : ¬ n.eval σ = true := fun h => hc ⟨σ, h⟩
  simpa [eval] using this

/-! ### restrict, reduce -/

theorem restrict_branch (i : I) (l h : Node I) (x : I) (b : Bool) :
    restrict (.Branch i l h) x b =
      if i = x then (if b then h else l) else mk i (restrict l x b) (restrict h x b) := by
  simp only [restrict, mk]
  split_ifs <;> simp_all

theorem eval_restrict {n : Node I} (ho : n.Ordered) (x : I) (b : Bool) (σ : I → Bool) :
    (restrict n x b).eval σ = n.eval (Function.update σ x b) := by
  induction n with
  | Leaf v => cases v <;> rfl
  | Branch i l h ihl ihh =>
    rw [restrict_branch]
    split_ifs with e hb
    · subst e; subst hb
      rw [eval_branch_true (not_mentions_above ho.2.2.2 ho.2.1)]
    · subst e
      have : b = false := by simpa using hb
      subst this
      rw [eval_branch_false (not_mentions_above ho.2.2.1 ho.1)]
    · rw [eval_mk, ihl ho.2.2.1, ihh ho.2.2.2]
      have : Function.update σ x b i = σ i := by simp [e]
      simp [eval, this]

theorem mentions_restrict {n : Node I} {x y : I} {b : Bool} (h : (restrict n x b).Mentions y) :
    n.Mentions y := by
  induction n with
  | Leaf v => cases v <;> exact h
  | Branch i l h' ihl ihh =>
    rw [restrict_branch] at h
    split_ifs at h
    · exact Or.inr (Or.inr h)
    · exact Or.inr (Or.inl h)
    · rcases mentions_mk h with h | h | h
      · exact Or.inl h
      · exact Or.inr (Or.inl (ihl h))
      · exact Or.inr (Or.inr (ihh h))

theorem not_mentions_restrict {n : Node I} (ho : n.Ordered) (x : I) (b : Bool) :
    ¬ (restrict n x b).Mentions x := by
  induction n with
  | Leaf v => cases v <;> exact id
  | Branch i l h ihl ihh =>
    rw [restrict_branch]
    split_ifs with e
    · subst e; exact not_mentions_above ho.2.2.2 ho.2.1
    · subst e; exact not_mentions_above ho.2.2.1 ho.1
    · intro hm
      rcases mentions_mk hm with hm | hm | hm
      · exact e hm.symm
      · exact ihl ho.2.2.1 hm
      · exact ihh ho.2.2.2 hm

theorem above_restrict {n : Node I} (ho : n.Ordered) {x y : I} {b : Bool} (ha : Above y n) :
    Above y (restrict n x b) := by
  induction n generalizing y with
  | Leaf v => cases v <;> trivial
  | Branch i l h ihl ihh =>
    rw [restrict_branch]
    split_ifs
    · exact ho.2.1.lt_trans ha
    · exact ho.1.lt_trans ha
    · exact above_mk ha (ihl ho.2.2.1 (ho.1.lt_trans ha))

theorem ordered_restrict {n : Node I} (ho : n.Ordered) (x : I) (b : Bool) :
    (restrict n x b).Ordered := by
  induction n with
  | Leaf v => cases v <;> trivial
  | Branch i l h ihl ihh =>
    rw [restrict_branch]
    split_ifs
    · exact ho.2.2.2
    · exact ho.2.2.1
    · exact ordered_mk (above_restrict ho.2.2.1 ho.1) (above_restrict ho.2.2.2 ho.2.1)
        (ihl ho.2.2.1) (ihh ho.2.2.2)

theorem reduced_restrict {n : Node I} (hr : n.Reduced) (x : I) (b : Bool) :
    (restrict n x b).Reduced := by
  induction n with
  | Leaf v => cases v <;> trivial
  | Branch i l h ihl ihh =>
    rw [restrict_branch]
    split_ifs
    · exact hr.2.2
    · exact hr.2.1
    · exact reduced_mk (ihl hr.2.1) (ihh hr.2.2)

theorem reduce_branch (i : I) (l h : Node I) :
    reduce (.Branch i l h) = mk i (reduce l) (reduce h) := rfl

theorem eval_reduce (n : Node I) (σ : I → Bool) : (reduce n).eval σ = n.eval σ := by
  induction n with
  | Leaf v => cases v <;> rfl
  | Branch i l h ihl ihh => rw [reduce_branch, eval_mk, ihl, ihh]; rfl

theorem reduced_reduce (n : Node I) : (reduce n).Reduced := by
  induction n with
  | Leaf v => cases v <;> trivial
  | Branch i l h ihl ihh => rw [reduce_branch]; exact reduced_mk ihl ihh

theorem above_reduce {n : Node I} (ho : n.Ordered) {x : I} (h : Above x n) : Above x (reduce n) := by
  induction n generalizing x with
  | Leaf v => cases v <;> trivial
  | Branch i l h' ihl ihh =>
    rw [reduce_branch]
    exact above_mk h (ihl ho.2.2.1 (ho.1.lt_trans h))

theorem ordered_reduce {n : Node I} (ho : n.Ordered) : (reduce n).Ordered := by
  induction n with
  | Leaf v => cases v <;> trivial
  | Branch i l h ihl ihh =>
    rw [reduce_branch]
    exact ordered_mk (above_reduce ho.2.2.1 ho.1) (above_reduce ho.2.2.2 ho.2.1) (ihl ho.2.2.1)
      (ihh ho.2.2.2)

theorem reduce_of_reduced {n : Node I} (hr : n.Reduced) : reduce n = n := by
  induction n with
  | Leaf v => cases v <;> rfl
  | Branch i l h ihl ihh =>
    rw [reduce_branch, ihl hr.2.1, ihh hr.2.2, mk, if_neg hr.1]

end Node
end Verif.Bdd
