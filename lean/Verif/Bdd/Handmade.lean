import Verif.Bdd.More
import Mathlib.Data.Finset.Powerset

/-!
# Hand-made closets (C94, C95, C96)

`Closet::new` (bowtie-core/src/bdd/closet/mod.rs:20-29), `Node::branch` and the node operations are public, so a
closet can be made from any diagram and any item index, without the builder.
-/

set_option linter.unusedSimpArgs false
set_option linter.unusedSectionVars false
set_option linter.unusedVariables false

namespace Verif.Bdd
open Verif Verif.Bdd.Spec

universe u v
variable {I : Type u} {F : Type v} [LinearOrder I] [LinearOrder F]

namespace Node

/-- No path tests an item twice.  Not code: used to state or prove properties. -/
def ReadOnce : Node I → Prop
  | .Leaf _ => True
  | .Branch i l h => ¬ l.Mentions i ∧ ¬ h.Mentions i ∧ l.ReadOnce ∧ h.ReadOnce

theorem Ordered.readOnce {n : Node I} (ho : n.Ordered) : n.ReadOnce := by
  induction n with
  | Leaf b => trivial
  | Branch i l h ihl ihh =>
    exact ⟨not_mentions_above ho.2.2.1 ho.1, not_mentions_above ho.2.2.2 ho.2.1, ihl ho.2.2.1, ihh ho.2.2.2⟩

theorem readOnce_mk {i : I} {l h : Node I} (h1 : ¬ l.Mentions i) (h2 : ¬ h.Mentions i) (h3 : l.ReadOnce)
    (h4 : h.ReadOnce) : (mk i l h).ReadOnce := by
  unfold mk; split_ifs
  · exact h3
  · exact ⟨h1, h2, h3, h4⟩

theorem ro_eval_restrict {n : Node I} (ho : n.ReadOnce) (x : I) (b : Bool) (σ : I → Bool) :
    (restrict n x b).eval σ = n.eval (Function.update σ x b) := by
  induction n with
  | Leaf v => cases v <;> rfl
  | Branch i l h ihl ihh =>
    rw [restrict_branch]
    split_ifs with e hb
    · subst e; subst hb; rw [eval_branch_true ho.2.1]
    · subst e
      have : b = false := by simpa using hb
      subst this
      rw [eval_branch_false ho.1]
    · rw [eval_mk, ihl ho.2.2.1, ihh ho.2.2.2]
      have : Function.update σ x b i = σ i := by simp [e]
      simp [eval, this]

theorem ro_not_mentions_restrict {n : Node I} (ho : n.ReadOnce) (x : I) (b : Bool) :
    ¬ (restrict n x b).Mentions x := by
  induction n with
  | Leaf v => cases v <;> exact id
  | Branch i l h ihl ihh =>
    rw [restrict_branch]
    split_ifs with e
    · subst e; exact ho.2.1
    · subst e; exact ho.1
    · intro hm
      rcases mentions_mk hm with hm | hm | hm
      · exact e hm.symm
      · exact ihl ho.2.2.1 hm
      · exact ihh ho.2.2.2 hm

theorem readOnce_restrict {n : Node I} (ho : n.ReadOnce) (x : I) (b : Bool) : (restrict n x b).ReadOnce := by
  induction n with
  | Leaf v => cases v <;> trivial
  | Branch i l h ihl ihh =>
    rw [restrict_branch]
    split_ifs
    · exact ho.2.2.2
    · exact ho.2.2.1
    · exact readOnce_mk (fun hm => ho.1 (mentions_restrict hm)) (fun hm => ho.2.1 (mentions_restrict hm))
        (ihl ho.2.2.1) (ihh ho.2.2.2)

theorem mentions_reduce {n : Node I} {x : I} (h : (reduce n).Mentions x) : n.Mentions x := by
  induction n with
  | Leaf v => cases v <;> exact h
  | Branch i l h' ihl ihh =>
    rw [reduce_branch] at h
    rcases mentions_mk h with h | h | h
    · exact Or.inl h
    · exact Or.inr (Or.inl (ihl h))
    · exact Or.inr (Or.inr (ihh h))

theorem readOnce_reduce {n : Node I} (ho : n.ReadOnce) : (reduce n).ReadOnce := by
  induction n with
  | Leaf v => cases v <;> trivial
  | Branch i l h ihl ihh =>
    rw [reduce_branch]
    exact readOnce_mk (fun hm => ho.1 (mentions_reduce hm)) (fun hm => ho.2.1 (mentions_reduce hm))
      (ihl ho.2.2.1) (ihh ho.2.2.2)

theorem sol_mentions {n : Node I} {p : List I} (hp : p ∈ n.sols) {x : I} (hx : x ∈ p) : n.Mentions x := by
  induction n generalizing p with
  | Leaf b => cases b <;> simp [sols] at hp; subst hp; simp at hx
  | Branch i l h ihl ihh =>
    rw [sols, List.mem_append, List.mem_map] at hp
    rcases hp with hp | ⟨q, hq, rfl⟩
    · exact Or.inr (Or.inl (ihl hp hx))
    · rcases List.mem_cons.1 hx with rfl | hx
      · exact Or.inl rfl
      · exact Or.inr (Or.inr (ihh hq hx))

/-- A path to true of a diagram that tests no item twice: its items are different, and wearing exactly those
among the mentioned ones is accepted. -/
theorem ro_sol {n : Node I} (ho : n.ReadOnce) {p : List I} (hp : p ∈ n.sols) :
    p.Nodup ∧ ∀ σ : I → Bool, (∀ x, n.Mentions x → (σ x = true ↔ x ∈ p)) → n.eval σ = true := by
  induction n generalizing p with
  | Leaf b => cases b <;> simp [sols] at hp; subst hp; simp [eval]
  | Branch i l h ihl ihh =>
    rw [sols, List.mem_append, List.mem_map] at hp
    rcases hp with hp | ⟨q, hq, rfl⟩
    · obtain ⟨a, b⟩ := ihl ho.2.2.1 hp
      refine ⟨a, fun σ hσ => ?_⟩
      have : σ i = false := by
        rw [← Bool.not_eq_true, hσ i (Or.inl rfl)]
        exact fun hi => ho.1 (sol_mentions hp hi)
      rw [eval, if_neg (by simp [this])]
      exact b σ (fun x hx => hσ x (Or.inr (Or.inl hx)))
    · obtain ⟨a, b⟩ := ihh ho.2.2.2 hq
      have hi : i ∉ q := fun hi => ho.2.1 (sol_mentions hq hi)
      refine ⟨List.nodup_cons.2 ⟨hi, a⟩, fun σ hσ => ?_⟩
      have : σ i = true := (hσ i (Or.inl rfl)).2 (by simp)
      rw [eval, if_pos this]
      refine b σ (fun x hx => ?_)
      rw [hσ x (Or.inr (Or.inr hx)), List.mem_cons]
      exact ⟨fun e => e.resolve_left (fun e => ho.2.1 (e ▸ hx)), Or.inr⟩

theorem ro_restrictAll {n : Node I} (ho : n.ReadOnce) (sel : List I) :
    (Closet.restrictAll n sel).ReadOnce ∧ (∀ x ∈ sel, ¬ (Closet.restrictAll n sel).Mentions x) ∧
    (n.Reduced → (Closet.restrictAll n sel).Reduced) ∧
    (∀ x, (Closet.restrictAll n sel).Mentions x → n.Mentions x) ∧
    ∀ σ, (Closet.restrictAll n sel).eval σ = n.eval (fun x => σ x || decide (x ∈ sel)) := by
  induction sel generalizing n with
  | nil => exact ⟨ho, by simp, id, fun _ => id, fun σ => by simp [Closet.restrictAll]⟩
  | cons y sel ih =>
    obtain ⟨a, b, c, m, d⟩ := ih (readOnce_restrict ho y true)
    refine ⟨a, fun x hx => ?_, fun hr => c (reduced_restrict hr _ _), fun x hx => mentions_restrict (m x hx),
      fun σ => ?_⟩
    · rcases List.mem_cons.1 hx with rfl | hx
      · exact fun hm => ro_not_mentions_restrict ho x true (m x hm)
      · exact b x hx
    · have := d σ
      rw [ro_eval_restrict ho] at this
      refine this.trans (congrArg n.eval ?_)
      funext x
      by_cases e : x = y
      · subst e; simp
      · simp [e, Function.update]

end Node

open Node

/-! ## C94: completing an outfit of a hand-made closet -/

/-- Two positions of the list hold items that the closet puts in one family.
Not code: used to state or prove properties. -/
def ClashIn (c : Closet I F) (sel : List I) : Prop :=
  ∃ f, 2 ≤ (sel.filter (fun x => decide (c.getFamily x = some f))).length

theorem mapM_known {c : Closet I F} (sel : List I) (hk : ∀ x ∈ sel, c.getFamily x ≠ none) :
    ∃ ps : List (F × I), sel.mapM (fun i => (c.getFamily i).map (fun f => (f, i))) = some ps ∧
      ps.map Prod.snd = sel ∧ ∀ p ∈ ps, c.getFamily p.2 = some p.1 := by
  induction sel with
  | nil => exact ⟨[], rfl, rfl, by simp⟩
  | cons x sel ih =>
    obtain ⟨ps, e1, e2, e3⟩ := ih (fun y hy => hk y (by simp [hy]))
    obtain ⟨f, hf⟩ := Option.ne_none_iff_exists'.1 (hk x (by simp))
    refine ⟨(f, x) :: ps, ?_, by simp [e2], ?_⟩
    · simp [List.mapM_cons, hf, e1]
    · intro p hp
      rcases List.mem_cons.1 hp with rfl | hp
      · exact hf
      · exact e3 p hp

theorem mapM_groups {c : Closet I F} {sel : List I} {ps : List (F × I)} (e2 : ps.map Prod.snd = sel)
    (e3 : ∀ p ∈ ps, c.getFamily p.2 = some p.1) (f : F) :
    (ps.filter (fun p => decide (p.1 = f))).map Prod.snd =
      sel.filter (fun x => decide (c.getFamily x = some f)) := by
  rw [← e2, List.filter_map]
  congr 1
  apply List.filter_congr
  intro p hp
  simp only [Function.comp]
  congr 1
  rw [e3 p hp]; simp

/-- C94: the outcome of `complete_outfit` on any closet whatever (made by hand, read from a document, built and
selected from): it never panics, and which of the first two errors it gives is decided by the item index alone,
with the stated contents.  Otherwise all selections are known, of different families. -/
theorem handmade_errors (c : Closet I F) (sel : List I) :
    ((∃ x ∈ sel, c.getFamily x = none) ∧ c.completeOutfit sel =
      some (.error (.UnknownItems (sel.filter (fun x => (c.getFamily x).isNone))))) ∨
    ((∀ x ∈ sel, c.getFamily x ≠ none) ∧ ClashIn c sel ∧
      ∃ m, c.completeOutfit sel = some (.error (.MultipleItemsPerFamily m)) ∧ KeysLt m ∧
        ∀ f is, (f, is) ∈ m ↔ 2 ≤ is.length ∧ is = sel.filter (fun x => decide (c.getFamily x = some f))) ∨
    ((∀ x ∈ sel, c.getFamily x ≠ none) ∧ ¬ ClashIn c sel ∧ sel.Nodup ∧
      (c.completeOutfit sel = some (.error (.IncompatibleSelections (sorted sel))) ∨
       ∃ o, c.completeOutfit sel = some (.ok o))) := by
  unfold Closet.completeOutfit Closet.findUnknownItems
  dsimp only
  by_cases hk : ∀ x ∈ sel, c.getFamily x ≠ none
  · right
    have hf : sel.filter (fun i => (c.getFamily i).isNone) = [] := by
      rw [List.filter_eq_nil_iff]; intro x hx; simpa using hk x hx
    rw [hf]
    simp only [List.isEmpty_nil, Bool.not_true, Bool.false_eq_true, if_false]
    obtain ⟨ps, e1, e2, e3⟩ := mapM_known sel hk
    have hg := mapM_groups e2 e3
    unfold Closet.findDuplicateItems
    rw [e1]
    dsimp only
    have hmem : ∀ f is, (f, is) ∈ (groupPush ps).filter (fun e => decide (1 < e.2.length)) ↔
        2 ≤ is.length ∧ is = sel.filter (fun x => decide (c.getFamily x = some f)) := by
      intro f is
      rw [List.mem_filter, mem_groupPush, decide_eq_true_eq, hg]
      constructor
      · rintro ⟨⟨_, rfl⟩, h⟩; exact ⟨h, rfl⟩
      · rintro ⟨h1, rfl⟩
        refine ⟨⟨?_, rfl⟩, h1⟩
        obtain ⟨x, hx⟩ := List.exists_mem_of_length_pos (Nat.lt_of_lt_of_le Nat.zero_lt_two h1)
        rw [← hg f] at hx
        exact ⟨x, mem_group_items.1 hx⟩
    by_cases he : (groupPush ps).filter (fun e => decide (1 < e.2.length)) = []
    · right
      have hnc : ¬ ClashIn c sel := by
        rintro ⟨f, h⟩
        have := (hmem f _).2 ⟨h, rfl⟩
        rw [he] at this; simp at this
      refine ⟨hk, hnc, ?_, ?_⟩
      · by_contra hnd
        rw [List.nodup_iff_sublist] at hnd
        simp only [not_forall, not_not] at hnd
        obtain ⟨a, ha⟩ := hnd
        obtain ⟨f, hf⟩ := Option.ne_none_iff_exists'.1 (hk a (ha.subset (by simp)))
        refine hnc ⟨f, ?_⟩
        have := (ha.filter (fun x => decide (c.getFamily x = some f))).length_le
        simpa [hf] using this
      · rw [he]
        simp only [List.isEmpty_nil, Bool.not_true, Bool.false_eq_true, if_false, findConflicting_eq]
        split_ifs
        · exact Or.inl rfl
        · exact Or.inr ⟨_, rfl⟩
    · left
      have hb : (!((groupPush ps).filter (fun e => decide (1 < e.2.length))).isEmpty) = true := by
        simpa [List.isEmpty_iff] using he
      rw [if_pos hb]
      refine ⟨hk, ?_, _, rfl, (groupPush_keysLt ps).filter _, hmem⟩
      obtain ⟨⟨f, is⟩, hm⟩ := List.exists_mem_of_ne_nil _ he
      obtain ⟨h1, rfl⟩ := (hmem f is).1 hm
      exact ⟨f, h1⟩
  · left
    simp only [not_forall, not_not] at hk
    obtain ⟨x, hx, hn⟩ := hk
    have hf : sel.filter (fun i => (c.getFamily i).isNone) ≠ [] := by
      intro e
      rw [List.filter_eq_nil_iff] at e
      exact e x hx (by simp [hn])
    have hb : (!(sel.filter (fun i => (c.getFamily i).isNone)).isEmpty) = true := by
      simpa [List.isEmpty_iff] using hf
    rw [if_pos hb]
    exact ⟨⟨x, hx, hn⟩, rfl⟩

/-- The last case of `handmade_errors`, opened. -/
theorem handmade_complete_eq {c : Closet I F} {sel : List I} (hk : ∀ x ∈ sel, c.getFamily x ≠ none)
    (hc : ¬ ClashIn c sel) : c.completeOutfit sel =
      if Closet.restrictAll c.root sel = .Leaf false then some (.error (.IncompatibleSelections (sorted sel)))
      else some (.ok (Closet.walk (Closet.restrictAll c.root sel) sel)) := by
  have hf : sel.filter (fun i => (c.getFamily i).isNone) = [] := by
    rw [List.filter_eq_nil_iff]; intro x hx; simpa using hk x hx
  obtain ⟨ps, e1, e2, e3⟩ := mapM_known sel hk
  have hg := mapM_groups e2 e3
  have he : (groupPush ps).filter (fun e => decide (1 < e.2.length)) = [] := by
    by_contra hne
    obtain ⟨⟨f, is⟩, hm⟩ := List.exists_mem_of_ne_nil _ hne
    rw [List.mem_filter, mem_groupPush, decide_eq_true_eq, hg] at hm
    obtain ⟨⟨_, rfl⟩, h⟩ := hm
    exact hc ⟨f, h⟩
  unfold Closet.completeOutfit Closet.findUnknownItems Closet.findDuplicateItems
  dsimp only
  rw [hf, e1]
  dsimp only
  rw [he]
  simp only [List.isEmpty_nil, Bool.not_true, Bool.false_eq_true, if_false, findConflicting_eq]
  split_ifs <;> rfl

/-- C94, the part that holds: if no path of the diagram tests an item twice and no node has equal children, then
completing known selections of different families fails exactly if no accepted choice contains them, and else gives
a sorted choice that contains them and is accepted. -/
theorem handmade_complete_partial (c : Closet I F) (ho : c.root.ReadOnce) (hr : c.root.Reduced) (sel : List I)
    (hk : ∀ x ∈ sel, c.getFamily x ≠ none) (hc : ¬ ClashIn c sel) :
    ((∃ w : Finset I, (∀ x ∈ sel, x ∈ w) ∧ c.root.eval (fun x => decide (x ∈ w)) = true) →
      ∃ o, c.completeOutfit sel = some (.ok o) ∧ o.Pairwise (· < ·) ∧ (∀ x ∈ sel, x ∈ o) ∧
        (∀ x ∈ o, x ∉ sel → c.root.Mentions x) ∧ c.root.eval (fun x => decide (x ∈ o)) = true) ∧
    ((¬ ∃ w : Finset I, (∀ x ∈ sel, x ∈ w) ∧ c.root.eval (fun x => decide (x ∈ w)) = true) →
      c.completeOutfit sel = some (.error (.IncompatibleSelections (sorted sel)))) := by
  have hnd : sel.Nodup := by
    rcases handmade_errors c sel with ⟨⟨x, hx, hn⟩, _⟩ | ⟨_, h, _⟩ | ⟨_, _, h, _⟩
    · exact absurd hn (hk x hx)
    · exact absurd h hc
    · exact h
  obtain ⟨a, b, r, m, d⟩ := ro_restrictAll ho sel
  rw [handmade_complete_eq hk hc]
  have key : Closet.restrictAll c.root sel ≠ .Leaf false → ∃ o,
      Closet.walk (Closet.restrictAll c.root sel) sel = o ∧ o.Pairwise (· < ·) ∧ (∀ x ∈ sel, x ∈ o) ∧
        (∀ x ∈ o, x ∉ sel → c.root.Mentions x) ∧ c.root.eval (fun x => decide (x ∈ o)) = true := by
    intro hf
    obtain ⟨p, hp, hw⟩ := walk_spec (r hr) hf sel
    obtain ⟨p1, p2⟩ := ro_sol a hp
    refine ⟨_, hw, ?_, fun x hx => by rw [mem_sorted]; simp [hx], fun x hx hns => ?_, ?_⟩
    · apply sorted_lt_of_nodup
      rw [List.nodup_append]
      exact ⟨hnd, p1, fun x hx y hy e => b x hx (e ▸ sol_mentions hp hy)⟩
    · rw [mem_sorted, List.mem_append] at hx
      exact m x (sol_mentions hp (hx.resolve_left hns))
    · have := p2 (fun x => decide (x ∈ p)) (fun x _ => by simp)
      rw [d] at this
      rw [← this]
      congr 1
      funext x
      simp [mem_sorted, List.mem_append, Bool.or_comm]
  constructor
  · rintro ⟨w, h1, h2⟩
    have hf : Closet.restrictAll c.root sel ≠ .Leaf false := by
      intro e
      have := d (fun x => decide (x ∈ w))
      rw [e, eval] at this
      have e2 : (fun x => decide (x ∈ w) || decide (x ∈ sel)) = fun x => decide (x ∈ w) := by
        funext x
        by_cases hx : x ∈ sel
        · simp [hx, h1 x hx]
        · simp [hx]
      rw [e2, h2] at this
      cases this
    rw [if_neg hf]
    obtain ⟨o, e, ho⟩ := key hf
    exact ⟨o, by rw [e], ho⟩
  · intro hw
    have hf : Closet.restrictAll c.root sel = .Leaf false := by
      by_contra hf
      obtain ⟨o, _, _, h2, _, h3⟩ := key hf
      exact hw ⟨o.toFinset, fun x hx => by simpa using h2 x hx, by simpa using h3⟩
    rw [if_pos hf]

/-- C94: `Node::reduce` is enough to meet the second condition, and keeps the first and the accepted choices. -/
theorem handmade_reduce (n : Node I) :
    (reduce n).Reduced ∧ (n.ReadOnce → (reduce n).ReadOnce) ∧ ∀ σ, (reduce n).eval σ = n.eval σ :=
  ⟨reduced_reduce n, readOnce_reduce, eval_reduce n⟩

/-- Expressions of the node operations other than `Node::branch` (`^` and `!` included).
bowtie-core/src/bdd/node/mod.rs:45-60, bit_operations.rs:22-114, restrict.rs:5-27, reduce.rs:4-22. -/
inductive Plain : Node I → Prop
  | leaf (b : Bool) : Plain (.Leaf b)
  | pos (i : I) : Plain (positiveBranch i)
  | neg (i : I) : Plain (negativeBranch i)
  | and {a b : Node I} : Plain a → Plain b → Plain (bitand a b)
  | or {a b : Node I} : Plain a → Plain b → Plain (bitor a b)
  | xor {a b : Node I} : Plain a → Plain b → Plain (bitxor a b)
  | not {a : Node I} : Plain a → Plain (bitnot a)
  | restrict {a : Node I} (i : I) (v : Bool) : Plain a → Plain (restrict a i v)
  | reduce {a : Node I} : Plain a → Plain (reduce a)

theorem good_not {a : Node I} (h : a.Ordered ∧ a.Reduced) : (bitnot a).Ordered ∧ (bitnot a).Reduced := by
  cases a with
  | Leaf b => cases b <;> exact ⟨trivial, trivial⟩
  | Branch i l h' =>
    obtain ⟨⟨a, b, c, d⟩, e, f, g⟩ := h
    exact ⟨⟨b, a, d, c⟩, Ne.symm e, g, f⟩

/-- C94: without `Node::branch` both conditions always hold: the theorems above apply to every closet made from
such an expression. -/
theorem plain_meets {n : Node I} (h : Plain n) : n.Ordered ∧ n.Reduced := by
  induction h with
  | leaf b => exact ⟨trivial, trivial⟩
  | pos i => simp [positiveBranch, Ordered, Reduced, Above]
  | neg i => simp [negativeBranch, Ordered, Reduced, Above]
  | and _ _ ha hb => exact ⟨ordered_bitand _ _ ha.1 hb.1, reduced_bitand _ _ ha.2 hb.2⟩
  | or _ _ ha hb => exact ⟨ordered_bitor _ _ ha.1 hb.1, reduced_bitor _ _ ha.2 hb.2⟩
  | @xor a b _ _ ha hb =>
    have na := good_not ha
    have nb := good_not hb
    exact ⟨ordered_bitor _ _ (ordered_bitand _ _ ha.1 nb.1) (ordered_bitand _ _ na.1 hb.1),
      reduced_bitor _ _ (reduced_bitand _ _ ha.2 nb.2) (reduced_bitand _ _ na.2 hb.2)⟩
  | not _ ha => exact good_not ha
  | restrict i v _ ha => exact ⟨ordered_restrict ha.1 _ _, reduced_restrict ha.2 _ _⟩
  | reduce _ ha => exact ⟨ordered_reduce ha.1, reduced_reduce _⟩

/-- C94 is false in general: a diagram with equal children whose function is never true is completed; so is a
diagram that tests an item twice, with a choice that it rejects; and on the latter `restrict` is not the function
with the item fixed. -/
theorem handmade_wrong :
    (∃ c : Closet ℕ ℕ, c.root.ReadOnce ∧ (∀ σ, c.root.eval σ = false) ∧ c.completeOutfit [] = some (.ok [1])) ∧
    (∃ c : Closet ℕ ℕ, c.root.Reduced ∧ c.root.eval (fun x => decide (x ∈ [1])) = false ∧
      c.completeOutfit [] = some (.ok [1])) ∧
    (∃ (n : Node ℕ) (σ : ℕ → Bool), n.Reduced ∧ (restrict n 1 true).eval σ ≠ n.eval (Function.update σ 1 true)) := by
  refine ⟨⟨Closet.new [(1, 1)] (.Branch 1 (.Leaf false) (.Branch 2 (.Leaf false) (.Leaf false))), ?_, ?_, ?_⟩,
    ⟨Closet.new [(1, 1)] (.Branch 1 (.Leaf false) (.Branch 1 (.Leaf true) (.Leaf false))), ?_, ?_, ?_⟩,
    ⟨.Branch 1 (.Leaf false) (.Branch 1 (.Leaf true) (.Leaf false)), fun _ => false, ?_, ?_⟩⟩
  · simp [Closet.new, ReadOnce, Mentions]
  · intro σ; simp [Closet.new, eval]
  · rw [handmade_complete_eq (by simp) (by rintro ⟨f, h⟩; simp at h)]
    simp [Closet.new, Closet.restrictAll, Closet.walk, sorted]
  · simp [Closet.new, Reduced]
  · simp [Closet.new, eval]
  · rw [handmade_complete_eq (by simp) (by rintro ⟨f, h⟩; simp at h)]
    simp [Closet.new, Closet.restrictAll, Closet.walk, sorted]
  · simp [Reduced]
  · simp [restrict, eval]

/-- "Not both 1 and 2, and 3 if 1", made with the operators. -/
theorem demo_plain : Plain (bitand (bitor (negativeBranch 1) (negativeBranch 2))
    (bitor (negativeBranch 1) (positiveBranch 3)) : Node ℕ) :=
  .and (.or (.neg _) (.neg _)) (.or (.neg _) (.pos _))

/-- A hand-made closet that meets the conditions, and what completing from item 1 gives. -/
example : ∃ o, (Closet.new [(1, 1), (2, 2), (3, 3)] (bitand (bitor (negativeBranch 1) (negativeBranch 2))
    (bitor (negativeBranch 1) (positiveBranch 3))) : Closet ℕ ℕ).completeOutfit [1] = some (.ok o) ∧
      1 ∈ o ∧ 3 ∈ o ∧ 2 ∉ o := by
  obtain ⟨ho, hr⟩ := plain_meets demo_plain
  obtain ⟨o, h1, h2, h3, h4, h5⟩ := (handmade_complete_partial (Closet.new [(1, 1), (2, 2), (3, 3)] _) ho.readOnce hr [1]
    (by simp [Closet.new, Closet.getFamily, lookup]) (by
      rintro ⟨f, h⟩
      have := List.length_filter_le (fun x => decide ((Closet.new [(1, 1), (2, 2), (3, 3)]
        (bitand (bitor (negativeBranch 1) (negativeBranch 2))
        (bitor (negativeBranch 1) (positiveBranch 3))) : Closet ℕ ℕ).getFamily x = some f)) [1]
      simp only [List.length_singleton] at this
      omega)).1
    ⟨{1, 3}, by simp, by simp [Closet.new, eval_bitand, eval_bitor, negativeBranch, positiveBranch, eval]⟩
  refine ⟨o, h1, h3 1 (by simp), ?_, ?_⟩
  all_goals
    simp only [Closet.new, eval_bitand, eval_bitor, negativeBranch, positiveBranch, eval] at h5
    have := h3 1 (by simp)
    simp [this] at h5
  · exact h5.2
  · exact h5.1

/-! ## C95: statuses of a hand-made closet -/

/-- Item `i` still matters to the accepted choices once the items before it are as in `σ`.
Not code: used to state or prove properties. -/
def Matters (f : (I → Bool) → Bool) (σ : I → Bool) (i : I) : Prop :=
  ∃ τ : I → Bool, (∀ j, j < i → τ j = σ j) ∧ f (Function.update τ i true) ≠ f (Function.update τ i false)

theorem eval_above {i : I} {n : Node I} (ho : n.Ordered) (ha : Above i n) {σ τ : I → Bool}
    (h : ∀ j, i < j → σ j = τ j) : n.eval σ = n.eval τ :=
  eval_congr (fun x hx => h x (mentions_above ho ha hx))

theorem matters_root {i : I} {l h : Node I} (ho : (Node.Branch i l h).Ordered) (hr : (Node.Branch i l h).Reduced)
    (σ : I → Bool) : Matters (Node.Branch i l h).eval σ i := by
  have hne : ∃ τ, l.eval τ ≠ h.eval τ := by
    by_contra hc
    exact hr.1 (canonical ho.2.2.1 ho.2.2.2 hr.2.1 hr.2.2 (fun τ => by
      by_contra he; exact hc ⟨τ, he⟩))
  obtain ⟨τ, hτ⟩ := hne
  refine ⟨fun j => if j < i then σ j else τ j, fun j hj => if_pos hj, ?_⟩
  rw [eval_branch_true (not_mentions_above ho.2.2.2 ho.2.1), eval_branch_false (not_mentions_above ho.2.2.1 ho.1)]
  rw [eval_above ho.2.2.2 ho.2.1 (τ := τ), eval_above ho.2.2.1 ho.1 (τ := τ)]
  · exact Ne.symm hτ
  · intro j hj; exact if_neg (not_lt.2 hj.le)
  · intro j hj; exact if_neg (not_lt.2 hj.le)

theorem matters_child {i j : I} {l h : Node I} (ho : (Node.Branch i l h).Ordered) (hij : i < j) (σ : I → Bool) :
    Matters (Node.Branch i l h).eval σ j ↔ Matters (if σ i then h else l).eval σ j := by
  have step : ∀ (τ : I → Bool) (b : Bool), τ i = σ i →
      (Node.Branch i l h).eval (Function.update τ j b) = (if σ i then h else l).eval (Function.update τ j b) := by
    intro τ b e
    simp only [eval, Function.update_of_ne hij.ne, e]
    split_ifs <;> rfl
  constructor
  · rintro ⟨τ, h1, h2⟩
    refine ⟨τ, h1, ?_⟩
    rw [← step τ true (h1 i hij), ← step τ false (h1 i hij)]; exact h2
  · rintro ⟨τ, h1, h2⟩
    refine ⟨τ, h1, ?_⟩
    rw [step τ true (h1 i hij), step τ false (h1 i hij)]; exact h2

theorem not_matters {n : Node I} {i : I} (h : ¬ n.Mentions i) (σ : I → Bool) : ¬ Matters n.eval σ i := by
  rintro ⟨τ, _, h2⟩
  exact h2 (by rw [eval_update_of_not_mentions h, eval_update_of_not_mentions h])

/-- A diagram mentions exactly the items that its function depends on. -/
theorem mentions_iff_depends {n : Node I} (ho : n.Ordered) (hr : n.Reduced) (i : I) :
    n.Mentions i ↔ ∃ σ, n.eval (Function.update σ i true) ≠ n.eval (Function.update σ i false) := by
  constructor
  · intro hm
    induction n with
    | Leaf b => exact hm.elim
    | Branch j l h ihl ihh =>
      rcases hm with rfl | hm | hm
      · obtain ⟨τ, _, h2⟩ := matters_root ho hr (fun _ => false); exact ⟨τ, h2⟩
      · have hji := mentions_above ho.2.2.1 ho.1 hm
        obtain ⟨σ, hσ⟩ := ihl ho.2.2.1 hr.2.1 hm
        refine ⟨Function.update σ j false, ?_⟩
        rw [Function.update_comm hji.ne, Function.update_comm hji.ne,
          eval_branch_false (not_mentions_above ho.2.2.1 ho.1),
          eval_branch_false (not_mentions_above ho.2.2.1 ho.1)]
        exact hσ
      · have hji := mentions_above ho.2.2.2 ho.2.1 hm
        obtain ⟨σ, hσ⟩ := ihh ho.2.2.2 hr.2.2 hm
        refine ⟨Function.update σ j true, ?_⟩
        rw [Function.update_comm hji.ne, Function.update_comm hji.ne,
          eval_branch_true (not_mentions_above ho.2.2.2 ho.2.1),
          eval_branch_true (not_mentions_above ho.2.2.2 ho.2.1)]
        exact hσ
  · rintro ⟨σ, h⟩
    by_contra hm
    exact h (by rw [eval_update_of_not_mentions hm, eval_update_of_not_mentions hm])

theorem available_iff {n : Node I} (ho : n.Ordered) (hr : n.Reduced) (i : I) :
    Status.Available i ∈ n.occ ↔ ∃ σ, n.eval σ = true ∧ σ i = true ∧ Matters n.eval σ i := by
  induction n with
  | Leaf b =>
    simp only [occ, List.not_mem_nil, false_iff]
    rintro ⟨σ, _, _, h⟩; exact not_matters (n := .Leaf b) id σ h
  | Branch j l h ihl ihh =>
    rw [occ, List.mem_cons, List.mem_append, ihl ho.2.2.1 hr.2.1, ihh ho.2.2.2 hr.2.2, branchStatus_eq]
    constructor
    · rintro (h0 | ⟨σ, h1, h2, h3⟩ | ⟨σ, h1, h2, h3⟩)
      · split_ifs at h0 with hf
        cases h0
        obtain ⟨τ, hτ⟩ := satisfiable ho.2.2.2 hr.2.2 hf
        refine ⟨Function.update τ i true, ?_, by simp, matters_root ho hr _⟩
        rw [eval_branch_true (not_mentions_above ho.2.2.2 ho.2.1)]; exact hτ
      · have hm : h.Mentions i := by
          by_contra hm; exact not_matters hm σ h3
        have hji := mentions_above ho.2.2.2 ho.2.1 hm
        refine ⟨Function.update σ j true, ?_, by rw [Function.update_of_ne hji.ne']; exact h2, ?_⟩
        · rw [eval_branch_true (not_mentions_above ho.2.2.2 ho.2.1)]; exact h1
        · rw [matters_child ho hji]
          simp only [Function.update_self, if_true]
          obtain ⟨τ, t1, t2⟩ := h3
          refine ⟨Function.update τ j true, fun k hk => ?_, ?_⟩
          · by_cases e : k = j
            · subst e; simp
            · rw [Function.update_of_ne e, Function.update_of_ne e]; exact t1 k hk
          · rw [Function.update_comm hji.ne, Function.update_comm hji.ne,
              eval_update_of_not_mentions (not_mentions_above ho.2.2.2 ho.2.1),
              eval_update_of_not_mentions (not_mentions_above ho.2.2.2 ho.2.1)]
            exact t2
      · have hm : l.Mentions i := by
          by_contra hm; exact not_matters hm σ h3
        have hji := mentions_above ho.2.2.1 ho.1 hm
        refine ⟨Function.update σ j false, ?_, by rw [Function.update_of_ne hji.ne']; exact h2, ?_⟩
        · rw [eval_branch_false (not_mentions_above ho.2.2.1 ho.1)]; exact h1
        · rw [matters_child ho hji]
          simp only [Function.update_self, Bool.false_eq_true, if_false]
          obtain ⟨τ, t1, t2⟩ := h3
          refine ⟨Function.update τ j false, fun k hk => ?_, ?_⟩
          · by_cases e : k = j
            · subst e; simp
            · rw [Function.update_of_ne e, Function.update_of_ne e]; exact t1 k hk
          · rw [Function.update_comm hji.ne, Function.update_comm hji.ne,
              eval_update_of_not_mentions (not_mentions_above ho.2.2.1 ho.1),
              eval_update_of_not_mentions (not_mentions_above ho.2.2.1 ho.1)]
            exact t2
    · rintro ⟨σ, h1, h2, h3⟩
      have hm : (Node.Branch j l h).Mentions i := by
        by_contra hm; exact not_matters hm σ h3
      by_cases e : i = j
      · subst e
        left
        rw [eval, if_pos h2] at h1
        rw [if_neg (fun e => by (rw [e] at h1; cases h1))]
      · have hji : j < i := by
          rcases hm with e' | hm | hm
          · exact absurd e' e
          · exact mentions_above ho.2.2.1 ho.1 hm
          · exact mentions_above ho.2.2.2 ho.2.1 hm
        rw [matters_child ho hji] at h3
        rw [eval] at h1
        right
        by_cases hs : σ j = true
        · rw [if_pos hs] at h1 h3; exact Or.inl ⟨σ, h1, h2, h3⟩
        · rw [if_neg hs] at h1 h3; exact Or.inr ⟨σ, h1, h2, h3⟩

/-- C95, exactly what the statuses of a closet made from an ordered reduced diagram say: an item is listed, once,
iff the accepted choices depend on it; as Available iff some accepted choice wears it at a point where it matters
(given the smaller items of that choice), else as Excluded. -/
theorem handmade_summary_partial (index : List (I × F)) (n : Node I) (ho : n.Ordered) (hr : n.Reduced) (i : I) :
    (Status.Available i ∈ (Closet.new index n).summary ↔
      ∃ σ, n.eval σ = true ∧ σ i = true ∧ Matters n.eval σ i) ∧
    (Status.Excluded i ∈ (Closet.new index n).summary ↔
      (∃ σ, n.eval (Function.update σ i true) ≠ n.eval (Function.update σ i false)) ∧
      ∀ σ, n.eval σ = true → σ i = true → ¬ Matters n.eval σ i) ∧
    Status.Selected i ∉ (Closet.new index n).summary ∧
    (Closet.new index n).summary.Pairwise (· < ·) := by
  have hsum : (Closet.new index n).summary = summarize n := rfl
  rw [hsum]
  refine ⟨?_, ?_, selected_not_mem_summarize n i, summarize_lt n⟩
  · rw [mem_summarize, available_iff ho hr]
    exact ⟨fun h => h.1, fun h => ⟨h, fun e => by cases e⟩⟩
  · rw [mem_summarize, ← mentions_iff_depends ho hr, occ_mentions]
    have hav := available_iff ho hr i
    constructor
    · rintro ⟨h1, h2⟩
      refine ⟨⟨_, h1, rfl⟩, fun σ a b c => h2 rfl (hav.2 ⟨σ, a, b, c⟩)⟩
    · rintro ⟨⟨s, hs, rfl⟩, h2⟩
      have hna : Status.Available s.item ∉ n.occ := fun h => by
        obtain ⟨σ, a, b, c⟩ := hav.1 h; exact h2 σ a b c
      rcases occ_cases hs with e | e
      · rw [e] at hs; exact ⟨hs, fun _ => hna⟩
      · rw [e] at hs; exact absurd hs hna

/-- C95 is false in general: in the closet of "1 or not 2" (an inclusion rule by itself), item 2 is shown as Excluded
and cannot be selected, though wearing 1 and 2 is accepted. -/
theorem handmade_summary_wrong :
    ∃ c : Closet ℕ ℕ, Plain c.root ∧ Status.Excluded 2 ∈ c.summary ∧
      c.selectItem 2 = .error (.ExcludedItem 2) ∧
      c.root.eval (fun x => decide (x ∈ ({1, 2} : Finset ℕ))) = true := by
  have hp : Plain (bitor (positiveBranch 1) (negativeBranch 2) : Node ℕ) := .or (.pos _) (.neg _)
  obtain ⟨ho, hr⟩ := plain_meets hp
  have he : Status.Excluded 2 ∈ (Closet.new [(2, 2)] (bitor (positiveBranch 1) (negativeBranch 2)) :
      Closet ℕ ℕ).summary := by
    rw [(handmade_summary_partial _ _ ho hr 2).2.1]
    simp only [Matters, eval_bitor, negativeBranch, positiveBranch, eval]
    refine ⟨⟨fun _ => false, by simp [Function.update]⟩, ?_⟩
    rintro σ h1 h2 ⟨τ, h3, h4⟩
    have e := h3 1 (by omega)
    simp only [Function.update] at h4
    cases h : σ 1 <;> rw [h] at e h1 <;> simp_all
  refine ⟨Closet.new [(2, 2)] (bitor (positiveBranch 1) (negativeBranch 2)), hp, he, ?_, ?_⟩
  · rw [selectItem_eq, if_neg (by simp [Closet.new, lookup]), if_pos he]
  · simp [Closet.new, eval_bitor, negativeBranch, positiveBranch, eval]

/-- C95, selecting from such a closet: the errors are those of the item index and the statuses; otherwise the new
closet accepts exactly the choices that the old one accepts with the item, is again ordered and reduced, and if
the old one accepts anything so does the new one. -/
theorem handmade_select_partial (index : List (I × F)) (n : Node I) (ho : n.Ordered) (hr : n.Reduced) (i : I) :
    (lookup i index = none → (Closet.new index n).selectItem i = .error (.UnknownItem i)) ∧
    (lookup i index ≠ none → Status.Excluded i ∈ (Closet.new index n).summary →
      (Closet.new index n).selectItem i = .error (.ExcludedItem i)) ∧
    (lookup i index ≠ none → Status.Excluded i ∉ (Closet.new index n).summary →
      ∃ d, (Closet.new index n).selectItem i = .ok d ∧ d.itemIndex = index ∧ d.root.Ordered ∧ d.root.Reduced ∧
        (∀ σ, d.root.eval σ = n.eval (Function.update σ i true)) ∧
        ((∃ σ, n.eval σ = true) → ∃ σ, d.root.eval σ = true) ∧
        ∀ s, s ∈ d.summary ↔ s = .Selected i ∨ s ∈ (Closet.new index d.root).summary) := by
  refine ⟨fun h => ?_, fun h he => ?_, fun h he => ?_⟩
  · rw [selectItem_eq, if_pos (show lookup i (Closet.new index n).itemIndex = none from h)]
  · rw [selectItem_eq, if_neg (show ¬ lookup i (Closet.new index n).itemIndex = none from h), if_pos he]
  · rw [selectItem_eq, if_neg (show ¬ lookup i (Closet.new index n).itemIndex = none from h), if_neg he]
    refine ⟨_, rfl, rfl, ordered_restrict ho _ _, reduced_restrict hr _ _, eval_restrict ho i true, ?_, ?_⟩
    · rintro ⟨σ, hσ⟩
      by_cases hm : n.Mentions i
      · have := (handmade_summary_partial index n ho hr i).2.1
        have hn := fun h2 => he (this.2 ⟨(mentions_iff_depends ho hr i).1 hm, h2⟩)
        have hn : ∃ τ, n.eval τ = true ∧ τ i = true := by
          by_contra hc
          exact hn (fun τ h1 h2 _ => hc ⟨τ, h1, h2⟩)
        obtain ⟨τ, h1, h2⟩ := hn
        refine ⟨τ, ?_⟩
        show (restrict n i true).eval τ = true
        rw [eval_restrict ho, show Function.update τ i true = τ from by rw [← h2]; simp]
        exact h1
      · refine ⟨σ, ?_⟩
        show (restrict n i true).eval σ = true
        rw [eval_restrict ho, eval_update_of_not_mentions hm]; exact hσ
    · intro s
      simp only [mem_sorted, mem_uniq, List.mem_append, List.mem_filter, List.mem_singleton, Closet.new]
      constructor
      · rintro ((⟨h1, h2⟩ | h1) | h1)
        · cases s with
          | Excluded j => cases h2
          | Available j => cases h2
          | Selected j => exact absurd h1 (selected_not_mem_summarize n j)
        · exact Or.inl h1
        · exact Or.inr h1
      · rintro (h1 | h1)
        · exact Or.inl (Or.inr h1)
        · exact Or.inr h1

example := handmade_select_partial [(3, 1), (4, 2)] (bitand (positiveBranch 3) (positiveBranch 4))
  ((nodes_canonical (positiveBranch 3) (positiveBranch 4) (by simp [positiveBranch, Node.Ordered, Node.Above])
    (by simp [positiveBranch, Node.Ordered, Node.Above])).2.1)
  ((nodes_canonical (positiveBranch 3) (positiveBranch 4) (by simp [positiveBranch, Node.Ordered, Node.Above])
    (by simp [positiveBranch, Node.Ordered, Node.Above])).2.2.2.1 (by simp [positiveBranch, Node.Reduced])
      (by simp [positiveBranch, Node.Reduced])).1 3

/-- The diagram of `demo_plain` meets the hypotheses; items 1 and 3 are Available in it, and 2 is not, though wearing
just 2 is accepted. -/
example : (∀ i ∈ [1, 3], Status.Available i ∈ (Closet.new [(1, 1), (2, 2), (3, 3)]
    (bitand (bitor (negativeBranch 1) (negativeBranch 2))
      (bitor (negativeBranch 1) (positiveBranch 3))) : Closet ℕ ℕ).summary) ∧
    Status.Available 2 ∉ (Closet.new [(1, 1), (2, 2), (3, 3)]
    (bitand (bitor (negativeBranch 1) (negativeBranch 2))
      (bitor (negativeBranch 1) (positiveBranch 3))) : Closet ℕ ℕ).summary := by
  obtain ⟨ho, hr⟩ := plain_meets demo_plain
  refine ⟨fun i hi => ?_, ?_⟩
  · rw [(handmade_summary_partial _ _ ho hr i).1]
    simp only [List.mem_cons, List.not_mem_nil, or_false] at hi
    simp only [Matters, eval_bitand, eval_bitor, negativeBranch, positiveBranch, eval]
    rcases hi with rfl | rfl
    · exact ⟨fun x => decide (x ∈ [1, 3]), by decide, by decide, fun x => decide (x ∈ [2]),
        fun j hj => by have : j = 0 := by omega
                       subst this; rfl, by simp [Function.update]⟩
    · exact ⟨fun x => decide (x ∈ [1, 3]), by decide, by decide, fun x => decide (x ∈ [1, 3]), fun _ _ => rfl,
        by simp [Function.update]⟩
  · rw [(handmade_summary_partial _ _ ho hr 2).1]
    simp only [Matters, eval_bitand, eval_bitor, negativeBranch, positiveBranch, eval]
    rintro ⟨σ, h1, h2, τ, h3, h4⟩
    have e := h3 1 (by omega)
    simp only [Function.update] at h4
    cases h : σ 1 <;> rw [h] at e h1 <;> simp_all

/-! ## C96: counting the outfits of a hand-made closet -/

/-- The accepted choices among the items of `S`.  Not code: used to state or prove properties. -/
def acceptedIn (n : Node I) (S : Finset I) : Finset (Finset I) :=
  S.powerset.filter (fun w => n.eval (fun x => decide (x ∈ w)) = true)

theorem card_acceptedIn_insert {n : Node I} {S : Finset I} {x : I} (hx : x ∉ S) :
    (acceptedIn n (insert x S)).card = (acceptedIn n S).card +
      (S.powerset.filter (fun w => n.eval (fun y => decide (y ∈ insert x w)) = true)).card := by
  unfold acceptedIn
  rw [Finset.powerset_insert, Finset.filter_union, Finset.card_union_of_disjoint]
  · congr 1
    rw [Finset.filter_image, Finset.card_image_of_injOn]
    intro a ha b hb e
    have ha' : x ∉ a := fun h => hx (Finset.mem_powerset.1 (Finset.mem_filter.1 ha).1 h)
    have hb' : x ∉ b := fun h => hx (Finset.mem_powerset.1 (Finset.mem_filter.1 hb).1 h)
    rw [← Finset.erase_insert ha', ← Finset.erase_insert hb', e]
  · rw [Finset.disjoint_left]
    intro a ha hb
    rw [Finset.mem_filter, Finset.mem_powerset] at ha
    rw [Finset.mem_filter, Finset.mem_image] at hb
    obtain ⟨⟨b, _, rfl⟩, _⟩ := hb
    exact hx (ha.1 (Finset.mem_insert_self _ _))

theorem count_aux (S : List I) (hS : S.Pairwise (· < ·)) (n : Node I) (ho : n.Ordered) (hr : n.Reduced)
    (hm : ∀ x, n.Mentions x → x ∈ S) :
    n.outfitCount ≤ (acceptedIn n S.toFinset).card ∧
    (n.outfitCount = (acceptedIn n S.toFinset).card ↔
      ∀ w ∈ acceptedIn n S.toFinset, ∀ x ∈ S, Matters n.eval (fun y => decide (y ∈ w)) x) := by
  induction S generalizing n with
  | nil =>
    cases n with
    | Leaf b => cases b <;> simp [outfitCount, acceptedIn, eval]
    | Branch i l h => exact absurd (hm i (Or.inl rfl)) (by simp)
  | cons y S ih =>
    rw [List.pairwise_cons] at hS
    have hy : y ∉ S.toFinset := fun h => lt_irrefl _ (hS.1 y (by simpa using h))
    rw [List.toFinset_cons]
    have hsec : ∀ (m : Node I), ¬ m.Mentions y →
        S.toFinset.powerset.filter (fun w => m.eval (fun z => decide (z ∈ insert y w)) = true) =
        acceptedIn m S.toFinset := by
      intro m hmy
      unfold acceptedIn
      apply Finset.filter_congr
      intro w _
      rw [eval_congr (n := m) (σ := fun z => decide (z ∈ insert y w)) (τ := fun z => decide (z ∈ w))]
      intro x hx
      have : x ≠ y := fun e => hmy (e ▸ hx)
      simp [this]
    by_cases hym : n.Mentions y
    · -- the root tests y
      cases n with
      | Leaf b => exact hym.elim
      | Branch i l h =>
        have hiy : i = y := by
          rcases List.mem_cons.1 (hm i (Or.inl rfl)) with e | e
          · exact e
          · rcases hym with e' | h' | h'
            · exact e'.symm
            · exact absurd (mentions_above ho.2.2.1 ho.1 h') (not_lt.2 (hS.1 i e).le)
            · exact absurd (mentions_above ho.2.2.2 ho.2.1 h') (not_lt.2 (hS.1 i e).le)
        subst hiy
        have nl := not_mentions_above ho.2.2.1 ho.1
        have nh := not_mentions_above ho.2.2.2 ho.2.1
        have ml : ∀ x, l.Mentions x → x ∈ S := fun x hx =>
          (List.mem_cons.1 (hm x (Or.inr (Or.inl hx)))).resolve_left
            (fun e => absurd (mentions_above ho.2.2.1 ho.1 hx) (by rw [e]; exact lt_irrefl _))
        have mh : ∀ x, h.Mentions x → x ∈ S := fun x hx =>
          (List.mem_cons.1 (hm x (Or.inr (Or.inr hx)))).resolve_left
            (fun e => absurd (mentions_above ho.2.2.2 ho.2.1 hx) (by rw [e]; exact lt_irrefl _))
        obtain ⟨l1, l2⟩ := ih hS.2 l ho.2.2.1 hr.2.1 ml
        obtain ⟨h1, h2⟩ := ih hS.2 h ho.2.2.2 hr.2.2 mh
        have el : acceptedIn (Node.Branch i l h) S.toFinset = acceptedIn l S.toFinset := by
          unfold acceptedIn
          apply Finset.filter_congr
          intro w hw
          have : i ∉ w := fun hi => hy (Finset.mem_powerset.1 hw hi)
          simp [eval, this]
        have eh : S.toFinset.powerset.filter
            (fun w => (Node.Branch i l h).eval (fun z => decide (z ∈ insert i w)) = true) =
            acceptedIn h S.toFinset := by
          rw [← hsec h nh]
          apply Finset.filter_congr
          intro w hw
          simp [eval]
        have hcard := card_acceptedIn_insert (n := Node.Branch i l h) hy
        rw [el, eh] at hcard
        rw [hcard]
        refine ⟨by simp only [outfitCount]; omega, ?_⟩
        have split : (Node.Branch i l h).outfitCount =
            (acceptedIn l S.toFinset).card + (acceptedIn h S.toFinset).card ↔
            l.outfitCount = (acceptedIn l S.toFinset).card ∧
            h.outfitCount = (acceptedIn h S.toFinset).card := by
          simp only [outfitCount]; omega
        rw [split, l2, h2]
        constructor
        · rintro ⟨a, b⟩ w hw x hx
          rcases List.mem_cons.1 hx with rfl | hx
          · exact matters_root ho hr _
          · rw [matters_child ho (hS.1 x hx)]
            unfold acceptedIn at hw
            rw [Finset.mem_filter, Finset.mem_powerset] at hw
            obtain ⟨hw1, hw2⟩ := hw
            by_cases hi : i ∈ w
            · simp only [hi, decide_true, if_true]
              rw [eval, if_pos (by simpa using hi)] at hw2
              have hb := b (w.erase i) (by
                rw [acceptedIn, Finset.mem_filter, Finset.mem_powerset]
                refine ⟨fun z hz => ?_, ?_⟩
                · obtain ⟨z1, z2⟩ := Finset.mem_erase.1 hz
                  exact (Finset.mem_insert.1 (hw1 z2)).resolve_left z1
                · rw [← hw2]
                  refine eval_congr (fun z hz => ?_)
                  have : z ≠ i := fun e => nh (e ▸ hz)
                  simp [this]) x hx
              obtain ⟨τ, t1, t2⟩ := hb
              refine ⟨Function.update τ i true, fun j hj => ?_, ?_⟩
              · by_cases e : j = i
                · subst e; simp [hi]
                · rw [Function.update_of_ne e, t1 j hj]; simp [e]
              · rw [Function.update_comm (hS.1 x hx).ne, Function.update_comm (hS.1 x hx).ne,
                  eval_update_of_not_mentions nh, eval_update_of_not_mentions nh]
                exact t2
            · simp only [hi, decide_false, Bool.false_eq_true, if_false]
              rw [eval, if_neg (by simpa using hi)] at hw2
              refine a w ?_ x hx
              rw [acceptedIn, Finset.mem_filter, Finset.mem_powerset]
              exact ⟨fun z hz => (Finset.mem_insert.1 (hw1 hz)).resolve_left (fun e => hi (e ▸ hz)), hw2⟩
        · intro hh
          constructor
          · intro w hw x hx
            rw [acceptedIn, Finset.mem_filter, Finset.mem_powerset] at hw
            have hi : i ∉ w := fun hi => hy (hw.1 hi)
            have := hh w (by
              rw [acceptedIn, Finset.mem_filter, Finset.mem_powerset]
              refine ⟨hw.1.trans (Finset.subset_insert _ _), ?_⟩
              rw [eval, if_neg (by simpa using hi)]; exact hw.2) x (by simp [hx])
            rw [matters_child ho (hS.1 x hx)] at this
            simpa only [hi, decide_false, Bool.false_eq_true, if_false] using this
          · intro w hw x hx
            rw [acceptedIn, Finset.mem_filter, Finset.mem_powerset] at hw
            have hi : i ∉ w := fun hi => hy (hw.1 hi)
            have := hh (insert i w) (by
              rw [acceptedIn, Finset.mem_filter, Finset.mem_powerset]
              refine ⟨Finset.insert_subset_insert _ hw.1, ?_⟩
              rw [eval, if_pos (by simp)]
              rw [← hw.2]
              refine eval_congr (fun z hz => ?_)
              have : z ≠ i := fun e => nh (e ▸ hz)
              simp [this]) x (by simp [hx])
            rw [matters_child ho (hS.1 x hx)] at this
            simp only [Finset.mem_insert_self, decide_true, if_true] at this
            obtain ⟨τ, t1, t2⟩ := this
            refine ⟨Function.update τ i false, fun j hj => ?_, ?_⟩
            · by_cases e : j = i
              · subst e; simp [hi]
              · rw [Function.update_of_ne e, t1 j hj]; simp [e]
            · rw [Function.update_comm (hS.1 x hx).ne, Function.update_comm (hS.1 x hx).ne,
                eval_update_of_not_mentions nh, eval_update_of_not_mentions nh]
              exact t2
    · have mS : ∀ x, n.Mentions x → x ∈ S := fun x hx =>
        (List.mem_cons.1 (hm x hx)).resolve_left (fun e => hym (e ▸ hx))
      obtain ⟨c1, _⟩ := ih hS.2 n ho hr mS
      have hcard := card_acceptedIn_insert (n := n) hy
      rw [hsec n hym] at hcard
      refine ⟨by omega, ?_⟩
      constructor
      · intro e w hw x hx
        have : (acceptedIn n (insert y S.toFinset)).card = 0 := by omega
        rw [Finset.card_eq_zero] at this
        rw [this] at hw; simp at hw
      · intro hh
        have : acceptedIn n (insert y S.toFinset) = ∅ := by
          rw [Finset.eq_empty_iff_forall_notMem]
          intro w hw
          exact not_matters hym _ (hh w hw y (by simp))
        have h0 : (acceptedIn n (insert y S.toFinset)).card = 0 := by rw [this]; rfl
        omega

/-- C96, what `outfit_count` is on any closet made from an ordered reduced diagram, for any set of items that has
the ones the accepted choices depend on: never more than the accepted choices among them, and equal exactly if
each of the items matters in each accepted choice. -/
theorem handmade_count_partial (index : List (I × F)) (n : Node I) (ho : n.Ordered) (hr : n.Reduced)
    (S : Finset I)
    (hS : ∀ i, (∃ σ, n.eval (Function.update σ i true) ≠ n.eval (Function.update σ i false)) → i ∈ S) :
    (Closet.new index n).root.outfitCount ≤
      (S.powerset.filter (fun w => n.eval (fun x => decide (x ∈ w)) = true)).card ∧
    ((Closet.new index n).root.outfitCount =
      (S.powerset.filter (fun w => n.eval (fun x => decide (x ∈ w)) = true)).card ↔
      ∀ w, w ⊆ S → n.eval (fun x => decide (x ∈ w)) = true →
        ∀ x ∈ S, Matters n.eval (fun y => decide (y ∈ w)) x) ∧
    ((Closet.new index n).root.outfitCount = 0 ↔ ∀ σ, n.eval σ = false) := by
  have := count_aux (S.sort (· ≤ ·)) S.sortedLT_sort.pairwise n ho hr (fun x hx => by
    rw [Finset.mem_sort]; exact hS x ((mentions_iff_depends ho hr x).1 hx))
  rw [Finset.sort_toFinset] at this
  obtain ⟨h1, h2⟩ := this
  have hroot : (Closet.new index n).root = n := rfl
  rw [hroot]
  refine ⟨h1, h2.trans ?_, ?_⟩
  · unfold acceptedIn
    simp only [Finset.mem_filter, Finset.mem_powerset, Finset.mem_sort]
    exact ⟨fun h w a b x hx => h w ⟨a, b⟩ x hx, fun h w a x hx => h w a.1 a.2 x hx⟩
  · rw [← length_sols, List.length_eq_zero_iff]
    constructor
    · intro e σ
      have : n = .Leaf false := by
        by_contra hn; exact sols_ne_nil hr hn e
      rw [this]; rfl
    · intro h
      have : n = .Leaf false := canonical ho trivial hr trivial (fun σ => by rw [h σ]; rfl)
      rw [this]; rfl

example := handmade_count_partial [(3, 1)] (positiveBranch 3) (by simp [positiveBranch, Node.Ordered, Node.Above])
  (by simp [positiveBranch, Node.Reduced]) {3} (by
    rintro i ⟨σ, h⟩
    by_contra hi
    apply h
    simp only [Finset.mem_singleton] at hi
    simp [positiveBranch, eval, Function.update, Ne.symm hi])

/-- C96 is false in general: "anything but 1 without 2" accepts three of the four choices among 1 and 2, and
`outfit_count` says 2; a diagram that tests an item twice accepts nothing and has count 2. -/
theorem handmade_count_wrong :
    (∃ n : Node ℕ, n.Ordered ∧ n.Reduced ∧ n.outfitCount = 2 ∧
      (({1, 2} : Finset ℕ).powerset.filter (fun w => n.eval (fun x => decide (x ∈ w)) = true)).card = 3) ∧
    (∃ n : Node ℕ, n.Reduced ∧ n.outfitCount = 2 ∧
      (({1} : Finset ℕ).powerset.filter (fun w => n.eval (fun x => decide (x ∈ w)) = true)).card = 0) := by
  refine ⟨⟨.Branch 1 (.Leaf true) (.Branch 2 (.Leaf false) (.Leaf true)), by simp [Ordered, Above],
    by simp [Reduced], rfl, by decide⟩,
    ⟨.Branch 1 (.Branch 1 (.Leaf false) (.Leaf true)) (.Branch 1 (.Leaf true) (.Leaf false)), ?_, rfl, ?_⟩⟩
  · simp [Reduced]
  · decide

end Verif.Bdd
