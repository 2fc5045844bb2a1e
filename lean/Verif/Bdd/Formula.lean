import Verif.Bdd.Props

/-!
# The algebra of BDD nodes (C116)

Expressions made with the public node operations, the faulty `!` and `^` included, and the boolean functions they
stand for.
-/

set_option linter.unusedVariables false
set_option linter.unusedSectionVars false

namespace Verif.Bdd
open Node

universe u
variable {I : Type u} [LinearOrder I]

/-- Calls on nodes.  Not code: used to state or prove properties. -/
inductive Formula (I : Type u) where
  | leaf (b : Bool)
  | positive (i : I)
  | negative (i : I)
  | and (p q : Formula I)
  | or (p q : Formula I)
  | xor (p q : Formula I)
  | not (p : Formula I)
  | restrict (p : Formula I) (i : I) (v : Bool)
  | reduce (p : Formula I)

/-- Running the calls.  Not code: used to state or prove properties. -/
def Formula.node : Formula I → Node I
  | .leaf b => .Leaf b
  | .positive i => positiveBranch i
  | .negative i => negativeBranch i
  | .and p q => bitand p.node q.node
  | .or p q => bitor p.node q.node
  | .xor p q => bitxor p.node q.node
  | .not p => bitnot p.node
  | .restrict p i v => Node.restrict p.node i v
  | .reduce p => Node.reduce p.node

/-- Whether `f` depends on item `i`.  Not code: used to state or prove properties. -/
def Depends (f : (I → Bool) → Bool) (i : I) : Prop := ∃ σ, f (Function.update σ i (!σ i)) ≠ f σ

/-- `i` is the smallest item `f` depends on.  Not code: used to state or prove properties. -/
def Least (f : (I → Bool) → Bool) (i : I) : Prop := Depends f i ∧ ∀ j, Depends f j → i ≤ j

open Classical in
/-- `f` with the choice for the smallest item it depends on reversed; the negation if it depends on none.
Not code: used to state or prove properties. -/
noncomputable def flipLeast (f : (I → Bool) → Bool) : (I → Bool) → Bool :=
  if h : ∃ i, Least f i then fun σ => f (Function.update σ h.choose (!σ h.choose)) else fun σ => !f σ

/-- The boolean function an expression stands for; `!` is `flipLeast`, and `^` is made from it.
Not code: used to state or prove properties. -/
noncomputable def Formula.meaning : Formula I → (I → Bool) → Bool
  | .leaf b => fun _ => b
  | .positive i => fun σ => σ i
  | .negative i => fun σ => !σ i
  | .and p q => fun σ => p.meaning σ && q.meaning σ
  | .or p q => fun σ => p.meaning σ || q.meaning σ
  | .xor p q => fun σ => (p.meaning σ && flipLeast q.meaning σ) || (flipLeast p.meaning σ && q.meaning σ)
  | .not p => flipLeast p.meaning
  | .restrict p i v => fun σ => p.meaning (Function.update σ i v)
  | .reduce p => p.meaning

/-- Made of leaves, items, `&` and `|` only.  Not code: used to state or prove properties. -/
def Formula.Plain : Formula I → Prop
  | .leaf _ | .positive _ | .negative _ => True
  | .and p q | .or p q => p.Plain ∧ q.Plain
  | _ => False

theorem Least.unique {f : (I → Bool) → Bool} {i j : I} (hi : Least f i) (hj : Least f j) : i = j :=
  le_antisymm (hi.2 j hj.1) (hj.2 i hi.1)

theorem flipLeast_of {f : (I → Bool) → Bool} {i : I} (h : Least f i) (σ : I → Bool) :
    flipLeast f σ = f (Function.update σ i (!σ i)) := by
  have hx : ∃ i, Least f i := ⟨i, h⟩
  unfold flipLeast
  rw [dif_pos hx]
  simp only [hx.choose_spec.unique h]

theorem flipLeast_none {f : (I → Bool) → Bool} (h : ∀ i, ¬ Depends f i) (σ : I → Bool) :
    flipLeast f σ = !f σ := by
  unfold flipLeast
  rw [dif_neg (fun ⟨i, hi⟩ => h i hi.1)]

namespace Node

theorem not_depends {n : Node I} {i : I} (h : ¬ n.Mentions i) : ¬ Depends n.eval i := by
  rintro ⟨σ, hs⟩
  exact hs (eval_update_of_not_mentions h σ _)

/-- The root of an ordered reduced node is the smallest item its function depends on. -/
theorem least_root {i : I} {l h : Node I} (o : (Node.Branch i l h).Ordered) (r : (Node.Branch i l h).Reduced) :
    Least (Node.Branch i l h).eval i := by
  have hl : ¬ l.Mentions i := not_mentions_above o.2.2.1 o.1
  have hh : ¬ h.Mentions i := not_mentions_above o.2.2.2 o.2.1
  constructor
  · by_contra hc
    refine r.1 (canonical o.2.2.1 o.2.2.2 r.2.1 r.2.2 fun σ => ?_)
    by_contra hne
    refine hc ⟨Function.update σ i false, ?_⟩
    simp only [Function.update_self, Bool.not_false, Function.update_idem, eval, if_true, Bool.false_eq_true, if_false,
      eval_update_of_not_mentions hl, eval_update_of_not_mentions hh]
    exact fun e => hne e.symm
  · intro j hj
    by_contra hlt
    refine not_depends ?_ hj
    rintro (rfl | hm | hm)
    · exact hlt (le_refl _)
    · exact hlt (le_of_lt (mentions_above o.2.2.1 o.1 hm))
    · exact hlt (le_of_lt (mentions_above o.2.2.2 o.2.1 hm))

theorem eval_bitnot {n : Node I} (o : n.Ordered) (r : n.Reduced) (σ : I → Bool) :
    (bitnot n).eval σ = flipLeast n.eval σ := by
  cases n with
  | Leaf b =>
    rw [flipLeast_none (fun i => not_depends (n := .Leaf b) nofun)]
    exact not_partial.1 b σ
  | Branch i l h =>
    rw [flipLeast_of (least_root o r)]
    exact (not_partial.2.1 i l h o).1 σ

theorem bitnot_canonical {n : Node I} (o : n.Ordered) (r : n.Reduced) : (bitnot n).Ordered ∧ (bitnot n).Reduced := by
  cases n with
  | Leaf b => cases b <;> exact ⟨trivial, trivial⟩
  | Branch i l h =>
    exact ⟨⟨o.2.1, o.1, o.2.2.2, o.2.2.1⟩, ⟨fun e => r.1 e.symm, r.2.2, r.2.1⟩⟩

end Node

theorem Formula.canonical (p : Formula I) : p.node.Ordered ∧ p.node.Reduced := by
  induction p with
  | leaf b => exact ⟨trivial, trivial⟩
  | positive i => exact ⟨⟨trivial, trivial, trivial, trivial⟩, ⟨nofun, trivial, trivial⟩⟩
  | negative i => exact ⟨⟨trivial, trivial, trivial, trivial⟩, ⟨nofun, trivial, trivial⟩⟩
  | and p q ihp ihq => exact ⟨ordered_bitand _ _ ihp.1 ihq.1, reduced_bitand _ _ ihp.2 ihq.2⟩
  | or p q ihp ihq => exact ⟨ordered_bitor _ _ ihp.1 ihq.1, reduced_bitor _ _ ihp.2 ihq.2⟩
  | xor p q ihp ihq =>
    have np := bitnot_canonical ihp.1 ihp.2
    have nq := bitnot_canonical ihq.1 ihq.2
    exact ⟨ordered_bitor _ _ (ordered_bitand _ _ ihp.1 nq.1) (ordered_bitand _ _ np.1 ihq.1),
      reduced_bitor _ _ (reduced_bitand _ _ ihp.2 nq.2) (reduced_bitand _ _ np.2 ihq.2)⟩
  | not p ih => exact bitnot_canonical ih.1 ih.2
  | restrict p i v ih => exact ⟨ordered_restrict ih.1 i v, reduced_restrict ih.2 i v⟩
  | reduce p ih => exact ⟨ordered_reduce ih.1, reduced_reduce _⟩

/-- C116: the node an expression gives stands for the boolean function of the expression. -/
theorem formula_exact (p : Formula I) : p.node.eval = p.meaning := by
  induction p with
  | leaf b => rfl
  | positive i => funext σ; cases h : σ i <;> simp [Formula.node, Formula.meaning, positiveBranch, TRUE_LEAF, FALSE_LEAF, eval, h]
  | negative i => funext σ; cases h : σ i <;> simp [Formula.node, Formula.meaning, negativeBranch, TRUE_LEAF, FALSE_LEAF, eval, h]
  | and p q ihp ihq => funext σ; simp only [Formula.node, Formula.meaning, eval_bitand, ihp, ihq]
  | or p q ihp ihq => funext σ; simp only [Formula.node, Formula.meaning, eval_bitor, ihp, ihq]
  | xor p q ihp ihq =>
    funext σ
    simp only [Formula.node, Formula.meaning, bitxor, eval_bitor, eval_bitand,
      eval_bitnot p.canonical.1 p.canonical.2, eval_bitnot q.canonical.1 q.canonical.2, ihp, ihq]
  | not p ih => funext σ; simp only [Formula.node, Formula.meaning, eval_bitnot p.canonical.1 p.canonical.2, ih]
  | restrict p i v ih => funext σ; simp only [Formula.node, Formula.meaning, eval_restrict p.canonical.1, ih]
  | reduce p ih => funext σ; simp only [Formula.node, Formula.meaning, eval_reduce, ih]

/-- C116: two expressions give equal nodes exactly if they stand for the same boolean function. -/
theorem formula_eq_iff (p q : Formula I) : p.node = q.node ↔ p.meaning = q.meaning := by
  rw [← formula_exact, ← formula_exact]
  exact ⟨fun e => by rw [e], fun e => Node.canonical p.canonical.1 q.canonical.1 p.canonical.2 q.canonical.2
    (fun σ => congrFun e σ)⟩

/-- C116: so comparing nodes answers questions about conditions: whether one can be met, always is, implies or
rules out another. -/
theorem formula_decides (p q : Formula I) :
    (p.node = .Leaf false ↔ ¬ ∃ σ, p.meaning σ = true) ∧ (p.node = .Leaf true ↔ ∀ σ, p.meaning σ = true) ∧
    ((p.and q).node = p.node ↔ ∀ σ, p.meaning σ = true → q.meaning σ = true) ∧
    ((p.or q).node = q.node ↔ ∀ σ, p.meaning σ = true → q.meaning σ = true) ∧
    ((p.and q).node = .Leaf false ↔ ¬ ∃ σ, p.meaning σ = true ∧ q.meaning σ = true) := by
  refine ⟨?_, ?_, ?_, ?_, ?_⟩
  · rw [show (Node.Leaf false : Node I) = (Formula.leaf false).node from rfl, formula_eq_iff, funext_iff]
    simp [Formula.meaning]
  · rw [show (Node.Leaf true : Node I) = (Formula.leaf true).node from rfl, formula_eq_iff, funext_iff]
    simp [Formula.meaning]
  · rw [formula_eq_iff, funext_iff]
    simp only [Formula.meaning]
    refine forall_congr' fun σ => ?_
    cases p.meaning σ <;> cases q.meaning σ <;> simp
  · rw [formula_eq_iff, funext_iff]
    simp only [Formula.meaning]
    refine forall_congr' fun σ => ?_
    cases p.meaning σ <;> cases q.meaning σ <;> simp
  · rw [show (Node.Leaf false : Node I) = (Formula.leaf false).node from rfl, formula_eq_iff, funext_iff]
    simp [Formula.meaning]

/-- C116: `&` and `|` of expressions obey the laws of a distributive lattice, as equalities of nodes; `^` is
commutative and `!` undoes itself. -/
theorem formula_laws (p q r : Formula I) :
    (p.and q).node = (q.and p).node ∧ (p.or q).node = (q.or p).node ∧
    ((p.and q).and r).node = (p.and (q.and r)).node ∧ ((p.or q).or r).node = (p.or (q.or r)).node ∧
    (p.and p).node = p.node ∧ (p.or p).node = p.node ∧
    (p.and (p.or q)).node = p.node ∧ (p.or (p.and q)).node = p.node ∧
    (p.and (q.or r)).node = ((p.and q).or (p.and r)).node ∧ (p.or (q.and r)).node = ((p.or q).and (p.or r)).node ∧
    (p.xor q).node = (q.xor p).node ∧ p.not.not.node = p.node := by
  refine ⟨?_, ?_, ?_, ?_, ?_, ?_, ?_, ?_, ?_, ?_, ?_, not_partial.2.2 p.node⟩ <;>
  · rw [formula_eq_iff]
    funext σ
    simp only [Formula.meaning]
    cases p.meaning σ <;> cases q.meaning σ <;> cases r.meaning σ <;>
      cases flipLeast p.meaning σ <;> cases flipLeast q.meaning σ <;> rfl

/-- C116: every condition that depends on finitely many items is the condition of an expression of items with `&`
and `|`. -/
theorem formula_complete (S : Finset I) (f : (I → Bool) → Bool)
    (hf : ∀ σ τ : I → Bool, (∀ i ∈ S, σ i = τ i) → f σ = f τ) : ∃ p : Formula I, p.Plain ∧ p.meaning = f := by
  induction S using Finset.induction_on generalizing f with
  | empty => exact ⟨.leaf (f fun _ => false), trivial, funext fun σ => hf _ _ (by simp)⟩
  | insert i S hi ih =>
    have key : ∀ v, ∀ σ τ : I → Bool, (∀ j ∈ S, σ j = τ j) →
        f (Function.update σ i v) = f (Function.update τ i v) := by
      intro v σ τ h
      refine hf _ _ fun j hj => ?_
      by_cases e : j = i
      · subst e; simp
      · rw [Function.update_of_ne e, Function.update_of_ne e]
        exact h j ((Finset.mem_insert.1 hj).resolve_left e)
    obtain ⟨p, pp, hp⟩ := ih (fun σ => f (Function.update σ i true)) (key true)
    obtain ⟨q, pq, hq⟩ := ih (fun σ => f (Function.update σ i false)) (key false)
    refine ⟨.or (.and (.positive i) p) (.and (.negative i) q), ⟨⟨trivial, pp⟩, trivial, pq⟩, ?_⟩
    funext σ
    simp only [Formula.meaning, hp, hq]
    cases e : σ i
    · have : Function.update σ i false = σ := by rw [← e]; exact Function.update_eq_self i σ
      simp [this]
    · have : Function.update σ i true = σ := by rw [← e]; exact Function.update_eq_self i σ
      simp [this]

/-- C116: `!` and `^` obey neither the laws of excluded middle and contradiction nor those of De Morgan, and
`a ^ a` need not be false. -/
theorem not_laws_fail : let a := Formula.positive 1; let b := Formula.positive 2
    ((a.and b).or (a.and b).not).node ≠ .Leaf true ∧ ((a.or b).and (a.or b).not).node ≠ .Leaf false ∧
    (a.and b).not.node ≠ (a.not.or b.not).node ∧ (a.or b).not.node ≠ (a.not.and b.not).node ∧
    ((a.or b).xor (a.or b)).node ≠ .Leaf false := by
  refine ⟨?_, ?_, ?_, ?_, ?_⟩ <;> decide +kernel

/-! ### examples -/

example := formula_exact (Formula.restrict (.not (.and (.positive 1) (.xor (.positive 2) (.negative 3)))) 2 true)

/-- 1 ∧ 2 implies 2 ∨ 3, and the nodes say so. -/
example : ((Formula.and (.positive 1) (.positive 2)).and (.or (.positive 2) (.positive 3))).node =
    (Formula.and (.positive 1) (.positive 2)).node :=
  (formula_decides _ _).2.2.1.2 (by intro σ; simp only [Formula.meaning]; cases σ 2 <;> simp)

example : (Formula.restrict (.or (.positive 1) (.positive 2)) 1 false).node = (Formula.positive 2).node :=
  (formula_eq_iff _ _).2 (by funext σ; simp [Formula.meaning])

example := formula_laws (.not (.and (.positive 1) (.positive 2))) (.positive 3) (.xor (.positive 2) (.leaf true))

/-- Exactly one of two items. -/
example : ∃ p : Formula ℕ, p.Plain ∧ p.meaning = fun σ => xor (σ 1) (σ 2) :=
  formula_complete {1, 2} _ fun σ τ h => by rw [h 1 (by simp), h 2 (by simp)]

end Verif.Bdd
