import Verif.Bdd.Level
import Verif.Bdd.Spec

/-!
Helper lemmas: what the builder accumulates and what the built diagram means.
-/

set_option linter.unusedSimpArgs false
set_option linter.unusedSectionVars false

namespace Verif.Bdd
open Verif Spec

universe u v
variable {I : Type u} {F : Type v} [LinearOrder I] [LinearOrder F]

/-- Not code: used to state or prove properties. -/
def itemPairs (cs : List (Call I F)) : List (F × I) :=
  cs.filterMap (fun | .item f i => some (f, i) | _ => none)

/-- Not code: used to state or prove properties. -/
def exclPairs (cs : List (Call I F)) : List (I × I) :=
  cs.filterMap (fun | .exclude a b => some (a, b) | _ => none)

/-- Not code: used to state or prove properties. -/
def inclPairs (cs : List (Call I F)) : List (I × I) :=
  cs.filterMap (fun | .incl a b => some (a, b) | _ => none)

theorem mem_itemPairs {cs : List (Call I F)} {f : F} {i : I} :
    (f, i) ∈ itemPairs cs ↔ Call.item f i ∈ cs := by
  unfold itemPairs
  rw [List.mem_filterMap]
  constructor
  · rintro ⟨c, hc, h⟩; cases c <;> simp at h; obtain ⟨rfl, rfl⟩ := h; exact hc
  · intro h; exact ⟨_, h, rfl⟩

theorem mem_exclPairs {cs : List (Call I F)} {a b : I} :
    (a, b) ∈ exclPairs cs ↔ Call.exclude a b ∈ cs := by
  unfold exclPairs
  rw [List.mem_filterMap]
  constructor
  · rintro ⟨c, hc, h⟩; cases c <;> simp at h; obtain ⟨rfl, rfl⟩ := h; exact hc
  · intro h; exact ⟨_, h, rfl⟩

theorem mem_inclPairs {cs : List (Call I F)} {a b : I} :
    (a, b) ∈ inclPairs cs ↔ Call.incl a b ∈ cs := by
  unfold inclPairs
  rw [List.mem_filterMap]
  constructor
  · rintro ⟨c, hc, h⟩; cases c <;> simp at h; obtain ⟨rfl, rfl⟩ := h; exact hc
  · intro h; exact ⟨_, h, rfl⟩

theorem groupPush_concat {K : Type u} {V : Type v} [LinearOrder K] (l : List (K × V)) (p : K × V) :
    groupPush (l ++ [p]) = pushTo p.1 p.2 (groupPush l) := by
  simp [groupPush]

/-- First family of each item.  Not code: used to state or prove properties. -/
def indexOf (ps : List (F × I)) : List (I × F) := ps.foldl (fun m p => orInsert p.2 p.1 m) []

theorem indexOf_aux (ps : List (F × I)) (m : List (I × F)) (h : KeysLt m) :
    KeysLt (ps.foldl (fun m p => orInsert p.2 p.1 m) m) ∧
    ∀ i, lookup i (ps.foldl (fun m p => orInsert p.2 p.1 m) m) =
      (lookup i m).or ((ps.find? (fun p => decide (p.2 = i))).map Prod.fst) := by
  induction ps generalizing m with
  | nil => simpa using h
  | cons p ps ih =>
    obtain ⟨h1, h2⟩ := ih (orInsert p.2 p.1 m) (keysLt_upsert h)
    refine ⟨h1, fun i => ?_⟩
    rw [List.foldl_cons, h2, orInsert, lookup_upsert h]
    by_cases e : i = p.2
    · subst e
      cases hl : lookup p.2 m <;> simp
    · have e' : ¬ p.2 = i := fun h => e h.symm
      simp [e, e', List.find?_cons]

theorem indexOf_keysLt (ps : List (F × I)) : KeysLt (indexOf ps) :=
  (indexOf_aux ps [] List.Pairwise.nil).1

theorem lookup_indexOf (ps : List (F × I)) (i : I) :
    lookup i (indexOf ps) = (ps.find? (fun p => decide (p.2 = i))).map Prod.fst := by
  have := (indexOf_aux ps [] List.Pairwise.nil).2 i
  simpa [lookup, indexOf] using this

theorem run_eq (cs : List (Call I F)) : ClosetBuilder.run cs =
    { contents := groupPush (itemPairs cs), itemIndex := indexOf (itemPairs cs),
      exclusions := groupPush (exclPairs cs), inclusions := groupPush (inclPairs cs) } := by
  induction cs using List.reverseRecOn with
  | nil => rfl
  | append_singleton cs c ih =>
    have : ClosetBuilder.run (cs ++ [c]) = (ClosetBuilder.run cs).call c := by
      simp [ClosetBuilder.run]
    rw [this, ih]
    cases c <;>
      simp [ClosetBuilder.call, ClosetBuilder.addItem, ClosetBuilder.addExclusionRule,
        ClosetBuilder.addInclusionRule, itemPairs, exclPairs, inclPairs, groupPush_concat, indexOf]

theorem lookup_index_some {cs : List (Call I F)} {i : I} {f : F}
    (h : lookup i (indexOf (itemPairs cs)) = some f) : Call.item f i ∈ cs := by
  rw [lookup_indexOf, Option.map_eq_some_iff] at h
  obtain ⟨⟨g, j⟩, h1, rfl⟩ := h
  have := List.find?_some h1
  simp at this; subst this
  exact mem_itemPairs.1 (List.mem_of_find?_eq_some h1)

theorem lookup_index_none {cs : List (Call I F)} {i : I} :
    lookup i (indexOf (itemPairs cs)) = none ↔ ¬ Known cs i := by
  rw [lookup_indexOf, Option.map_eq_none_iff, List.find?_eq_none]
  constructor
  · rintro h ⟨f, hf⟩; simpa using h _ (mem_itemPairs.2 hf)
  · rintro h ⟨f, j⟩ hp; simp; rintro rfl; exact h ⟨f, mem_itemPairs.1 hp⟩

theorem lookup_index {cs : List (Call I F)} (hl : ∀ f g i, Call.item f i ∈ cs → Call.item g i ∈ cs → f = g)
    {i : I} {f : F} : lookup i (indexOf (itemPairs cs)) = some f ↔ Call.item f i ∈ cs := by
  refine ⟨lookup_index_some, fun h => ?_⟩
  cases e : lookup i (indexOf (itemPairs cs)) with
  | none => exact absurd ⟨f, h⟩ (lookup_index_none.1 e)
  | some g => rw [hl _ _ _ (lookup_index_some e) h]

theorem mem_groupPush {K : Type u} {V : Type v} [LinearOrder K] {l : List (K × V)} {k : K}
    {vs : List V} : (k, vs) ∈ groupPush l ↔
      (∃ w, (k, w) ∈ l) ∧ vs = (l.filter (fun p => decide (p.1 = k))).map Prod.snd := by
  rw [← lookup_eq_some (groupPush_keysLt l), lookup_groupPush]
  have : k ∈ l.map Prod.fst ↔ ∃ w, (k, w) ∈ l := by simp
  by_cases h : k ∈ l.map Prod.fst
  · simp only [h, if_true, Option.some.injEq, this.1 h, true_and]; exact eq_comm
  · simp only [h, if_false, this.not.1 h, false_and, reduceCtorEq]

theorem mem_group_items {K : Type u} {V : Type v} [LinearOrder K] {l : List (K × V)} {k : K} {x : V} :
    x ∈ (l.filter (fun p => decide (p.1 = k))).map Prod.snd ↔ (k, x) ∈ l := by
  simp only [List.mem_map, List.mem_filter, decide_eq_true_eq]
  constructor
  · rintro ⟨⟨a, b⟩, ⟨h, rfl⟩, rfl⟩; exact h
  · intro h; exact ⟨_, ⟨h, rfl⟩, rfl⟩

theorem mem_rulePairs (l : List (I × I)) (a b : I) :
    (a, b) ∈ ClosetBuilder.rulePairs (groupPush l) ↔ (a, b) ∈ l := by
  unfold ClosetBuilder.rulePairs
  simp only [List.mem_flatMap, List.mem_map]
  constructor
  · rintro ⟨⟨k, vs⟩, h, x, hx, e⟩
    obtain ⟨_, rfl⟩ := mem_groupPush.1 h
    cases e; exact mem_group_items.1 hx
  · intro h
    exact ⟨(a, _), mem_groupPush.2 ⟨⟨b, h⟩, rfl⟩, b, mem_group_items.2 h, rfl⟩

open Node

/-! ### Folds of `&` and `|` -/

theorem eval_foldl_and (l : List (Node I)) (r : Node I) (σ : I → Bool) :
    (l.foldl Node.bitand r).eval σ = true ↔ r.eval σ = true ∧ ∀ n ∈ l, n.eval σ = true := by
  induction l generalizing r with
  | nil => simp
  | cons n l ih => rw [List.foldl_cons, ih, eval_bitand]; simp [and_assoc]

theorem eval_foldl_or (l : List (Node I)) (r : Node I) (σ : I → Bool) :
    (l.foldl Node.bitor r).eval σ = true ↔ r.eval σ = true ∨ ∃ n ∈ l, n.eval σ = true := by
  induction l generalizing r with
  | nil => simp
  | cons n l ih => rw [List.foldl_cons, ih, eval_bitor]; simp [or_assoc]

/-- Ordered, reduced and mentioning only items satisfying `P`.  Not code: used to state or prove properties. -/
structure Good (P : I → Prop) (n : Node I) : Prop where
  ordered : n.Ordered
  reduced : n.Reduced
  mentions : ∀ x, n.Mentions x → P x

theorem good_leaf (P : I → Prop) (b : Bool) : Good P (.Leaf b) :=
  ⟨trivial, trivial, fun _ h => h.elim⟩

theorem good_positive {P : I → Prop} {i : I} (h : P i) : Good P (positiveBranch i) :=
  ⟨⟨trivial, trivial, trivial, trivial⟩, ⟨by simp, trivial, trivial⟩, by
    rintro x (rfl | h' | h')
    · exact h
    · exact h'.elim
    · exact h'.elim⟩

theorem good_negative {P : I → Prop} {i : I} (h : P i) : Good P (negativeBranch i) :=
  ⟨⟨trivial, trivial, trivial, trivial⟩, ⟨by simp, trivial, trivial⟩, by
    rintro x (rfl | h' | h')
    · exact h
    · exact h'.elim
    · exact h'.elim⟩

theorem good_and {P : I → Prop} {a b : Node I} (ha : Good P a) (hb : Good P b) :
    Good P (bitand a b) :=
  ⟨ordered_bitand _ _ ha.1 hb.1, reduced_bitand _ _ ha.2 hb.2,
    fun x h => (mentions_bitand _ _ h).elim (ha.3 x) (hb.3 x)⟩

theorem good_or {P : I → Prop} {a b : Node I} (ha : Good P a) (hb : Good P b) :
    Good P (bitor a b) :=
  ⟨ordered_bitor _ _ ha.1 hb.1, reduced_bitor _ _ ha.2 hb.2,
    fun x h => (mentions_bitor _ _ h).elim (ha.3 x) (hb.3 x)⟩

theorem good_foldl_and {P : I → Prop} (l : List (Node I)) (r : Node I) (hr : Good P r)
    (h : ∀ n ∈ l, Good P n) : Good P (l.foldl Node.bitand r) := by
  induction l generalizing r with
  | nil => exact hr
  | cons n l ih => exact ih _ (good_and hr (h n (by simp))) (fun m hm => h m (by simp [hm]))

theorem good_foldl_or {P : I → Prop} (l : List (Node I)) (r : Node I) (hr : Good P r)
    (h : ∀ n ∈ l, Good P n) : Good P (l.foldl Node.bitor r) := by
  induction l generalizing r with
  | nil => exact hr
  | cons n l ih => exact ih _ (good_or hr (h n (by simp))) (fun m hm => h m (by simp [hm]))

/-! ### One family -/

theorem negatives_aux (items : List I) (m : List (I × Node I)) (hm : KeysLt m) :
    KeysLt (items.foldl (fun m item => insertKV item (negativeBranch item) m) m) ∧
    ∀ a, lookup a (items.foldl (fun m item => insertKV item (negativeBranch item) m) m) =
      if a ∈ items then some (negativeBranch a) else lookup a m := by
  induction items generalizing m with
  | nil => simpa using hm
  | cons b l ih =>
    obtain ⟨h1, h2⟩ := ih (insertKV b (negativeBranch b) m) (keysLt_upsert hm)
    refine ⟨h1, fun a => ?_⟩
    rw [List.foldl_cons, h2, insertKV, lookup_upsert hm]
    by_cases e : a = b
    · subst e; simp
    · simp [e]

/-- The entries conjoined for one chosen item. -/
theorem mem_chosen (items : List I) (i : I) (hi : i ∈ items) (k : I) (n : Node I) :
    (k, n) ∈ insertKV i (positiveBranch i)
        (items.foldl (fun m item => insertKV item (negativeBranch item) m) []) ↔
      k ∈ items ∧ n = if k = i then positiveBranch k else negativeBranch k := by
  obtain ⟨h1, h2⟩ := negatives_aux items [] List.Pairwise.nil
  rw [insertKV, ← lookup_eq_some (keysLt_upsert h1), lookup_upsert h1, h2]
  by_cases e : k = i
  · subst e; simp [hi, eq_comm]
  · by_cases hk : k ∈ items <;> simp [e, hk, lookup, eq_comm]

theorem foldl_snd {α : Type u} {β γ : Type v} (f : γ → β → γ) (l : List (α × β)) (r : γ) :
    l.foldl (fun r e => f r e.2) r = (l.map Prod.snd).foldl f r := by
  induction l generalizing r with
  | nil => rfl
  | cons a l ih => exact ih _

theorem eval_positive (i : I) (σ : I → Bool) : (positiveBranch i).eval σ = σ i := by
  cases h : σ i <;> simp [positiveBranch, eval, h]

theorem eval_negative (i : I) (σ : I → Bool) : (negativeBranch i).eval σ = !σ i := by
  cases h : σ i <;> simp [negativeBranch, eval, h]

theorem sibling_eq (items : List I) : ClosetBuilder.siblingRelationship items =
    (items.map (fun i => ((insertKV i (positiveBranch i)
        (items.foldl (fun m item => insertKV item (negativeBranch item) m) [])).map
          Prod.snd).foldl Node.bitand TRUE_LEAF)).foldl Node.bitor FALSE_LEAF := by
  unfold ClosetBuilder.siblingRelationship
  simp only [foldl_snd]

theorem eval_sibling (items : List I) (σ : I → Bool) :
    (ClosetBuilder.siblingRelationship items).eval σ = true ↔
      ∃! j, j ∈ items ∧ σ j = true := by
  rw [sibling_eq, eval_foldl_or]
  simp only [eval, Bool.false_eq_true, false_or, List.mem_map]
  have key : ∀ i ∈ items, (((insertKV i (positiveBranch i)
        (items.foldl (fun m item => insertKV item (negativeBranch item) m) [])).map
          Prod.snd).foldl Node.bitand TRUE_LEAF).eval σ = true ↔
      ∀ k ∈ items, σ k = decide (k = i) := by
    intro i hi
    rw [eval_foldl_and]
    simp only [eval, true_and, List.mem_map, Prod.exists]
    constructor
    · intro h k hk
      have := h _ ⟨k, _, (mem_chosen items i hi k _).2 ⟨hk, rfl⟩, rfl⟩
      by_cases e : k = i
      · subst e; simpa [eval_positive] using this
      · simpa [e, eval_negative] using this
    · rintro h n ⟨k, n', hm, rfl⟩
      obtain ⟨hk, rfl⟩ := (mem_chosen items i hi k n').1 hm
      have := h k hk
      by_cases e : k = i
      · subst e; simpa [eval_positive] using this
      · simpa [e, eval_negative] using this
  constructor
  · rintro ⟨n, ⟨i, hi, rfl⟩, h⟩
    rw [key i hi] at h
    refine ⟨i, ⟨hi, by simpa using h i hi⟩, ?_⟩
    rintro j ⟨hj, hs⟩
    have := h j hj
    rw [hs] at this
    simpa using this.symm
  · rintro ⟨i, ⟨hi, hs⟩, hu⟩
    refine ⟨_, ⟨i, hi, rfl⟩, (key i hi).2 ?_⟩
    intro k hk
    by_cases e : k = i
    · subst e; simpa using hs
    · simp only [e, decide_false]
      cases hσ : σ k
      · rfl
      · exact absurd (hu k ⟨hk, hσ⟩) e

theorem good_sibling {P : I → Prop} {items : List I} (h : ∀ i ∈ items, P i) :
    Good P (ClosetBuilder.siblingRelationship items) := by
  rw [sibling_eq]
  apply good_foldl_or _ _ (good_leaf _ _)
  intro n hn
  obtain ⟨i, hi, rfl⟩ := List.mem_map.1 hn
  apply good_foldl_and _ _ (good_leaf _ _)
  intro n hn
  obtain ⟨⟨k, n'⟩, hm, rfl⟩ := List.mem_map.1 hn
  obtain ⟨hk, rfl⟩ := (mem_chosen items i hi k n').1 hm
  dsimp only
  split_ifs
  · exact good_positive (h k hk)
  · exact good_negative (h k hk)

/-! ### The whole root -/

theorem foldl_map_eq {α β γ : Type*} (f : γ → β → γ) (g : α → β) (l : List α) (r : γ) :
    (l.map g).foldl (fun a b => f a b) r = (l.map g).foldl f r := rfl

theorem eval_buildRoot (cs : List (Call I F)) (σ : I → Bool) :
    (ClosetBuilder.run cs).buildRoot.eval σ = true ↔ Accepts cs (fun i => σ i = true) := by
  rw [run_eq]
  unfold ClosetBuilder.buildRoot
  simp only [eval_foldl_and, List.mem_map, eval, true_and, Prod.exists]
  constructor
  · rintro ⟨⟨h1, h2⟩, h3⟩
    refine ⟨?_, ?_, ?_⟩
    · intro f i hi
      have := h1 _ ⟨f, _, mem_groupPush.2 ⟨⟨i, mem_itemPairs.2 hi⟩, rfl⟩, rfl⟩
      rw [eval_sibling] at this
      simpa only [mem_group_items, mem_itemPairs] using this
    · intro a b hab
      have := h2 _ ⟨a, b, (mem_rulePairs _ a b).2 (mem_exclPairs.2 hab), rfl⟩
      rw [ClosetBuilder.exclusionRelationship, eval_bitor, eval_negative, eval_negative] at this
      rintro ⟨ha, hb⟩
      simp [ha, hb] at this
    · intro a b hab ha
      have := h3 _ ⟨a, b, (mem_rulePairs _ a b).2 (mem_inclPairs.2 hab), rfl⟩
      rw [ClosetBuilder.inclusionRelationship, eval_bitor, eval_negative, eval_positive] at this
      simpa [ha] using this
  · rintro ⟨h1, h2, h3⟩
    refine ⟨⟨?_, ?_⟩, ?_⟩
    · rintro n ⟨f, is, hm, rfl⟩
      obtain ⟨⟨i, hi⟩, rfl⟩ := mem_groupPush.1 hm
      rw [eval_sibling]
      simpa only [mem_group_items, mem_itemPairs] using h1 f i (mem_itemPairs.1 hi)
    · rintro n ⟨a, b, hm, rfl⟩
      have := h2 a b (mem_exclPairs.1 ((mem_rulePairs _ a b).1 hm))
      rw [ClosetBuilder.exclusionRelationship, eval_bitor, eval_negative, eval_negative]
      revert this
      cases σ a <;> cases σ b <;> simp
    · rintro n ⟨a, b, hm, rfl⟩
      have := h3 a b (mem_inclPairs.1 ((mem_rulePairs _ a b).1 hm))
      rw [ClosetBuilder.inclusionRelationship, eval_bitor, eval_negative, eval_positive]
      revert this
      cases σ a <;> cases σ b <;> simp

theorem good_buildRoot {cs : List (Call I F)} (hl : Legal cs) :
    Good (Known cs) (ClosetBuilder.run cs).buildRoot := by
  rw [run_eq]
  unfold ClosetBuilder.buildRoot
  apply good_foldl_and
  · apply good_foldl_and
    · apply good_foldl_and _ _ (good_leaf _ _)
      intro n hn
      obtain ⟨⟨f, is⟩, hm, rfl⟩ := List.mem_map.1 hn
      obtain ⟨_, rfl⟩ := mem_groupPush.1 hm
      apply good_sibling
      intro i hi
      exact ⟨f, mem_itemPairs.1 (mem_group_items.1 hi)⟩
    · intro n hn
      obtain ⟨⟨a, b⟩, hm, rfl⟩ := List.mem_map.1 hn
      obtain ⟨f, g, h1, h2, _⟩ := hl.2 a b (mem_exclPairs.1 ((mem_rulePairs _ a b).1 hm))
      exact good_or (good_negative ⟨f, h1⟩) (good_negative ⟨g, h2⟩)
  · intro n hn
    obtain ⟨⟨a, b⟩, hm, rfl⟩ := List.mem_map.1 hn
    obtain ⟨f, g, h1, h2, _⟩ := hl.3 a b (mem_inclPairs.1 ((mem_rulePairs _ a b).1 hm))
    exact good_or (good_negative ⟨f, h1⟩) (good_positive ⟨g, h2⟩)

/-! ### Validation -/

theorem mem_uniq' {α : Type u} [DecidableEq α] {l : List α} {a : α} : a ∈ uniq l ↔ a ∈ l := mem_uniq

theorem mem_allConflicts (cs : List (Call I F)) (c : Conflict I F) :
    c ∈ allConflicts (ClosetBuilder.run cs).contents (ClosetBuilder.run cs).itemIndex
        (ClosetBuilder.run cs).exclusions (ClosetBuilder.run cs).inclusions ↔
      c ∈ findConflictingFamilies (ClosetBuilder.run cs).contents (ClosetBuilder.run cs).itemIndex ∨
      c ∈ findIllegalRules (ClosetBuilder.run cs).exclusions (ClosetBuilder.run cs).itemIndex
        .ExclusionError ∨
      c ∈ findIllegalRules (ClosetBuilder.run cs).inclusions (ClosetBuilder.run cs).itemIndex
        .InclusionError := by
  unfold allConflicts
  rw [mem_uniq', List.mem_append, List.mem_append, or_assoc]

theorem mem_conflictingFamilies (cs : List (Call I F)) (c : Conflict I F) :
    c ∈ findConflictingFamilies (ClosetBuilder.run cs).contents (ClosetBuilder.run cs).itemIndex ↔
      ∃ f g i, Call.item f i ∈ cs ∧ lookup i (indexOf (itemPairs cs)) = some g ∧ g ≠ f ∧
        c = .ConflictingFamilies i [g, f] := by
  rw [run_eq]
  simp only [findConflictingFamilies, List.mem_flatMap, List.mem_filterMap, Prod.exists]
  constructor
  · rintro ⟨f, is, hm, i, hi, h⟩
    obtain ⟨_, rfl⟩ := mem_groupPush.1 hm
    have hc := mem_itemPairs.1 (mem_group_items.1 hi)
    cases e : lookup i (indexOf (itemPairs cs)) with
    | none => exact absurd ⟨f, hc⟩ (lookup_index_none.1 e)
    | some g =>
      rw [e] at h
      dsimp only at h
      split_ifs at h with hg
      · exact ⟨f, g, i, hc, e, hg, by simpa using h.symm⟩
  · rintro ⟨f, g, i, hc, e, hg, rfl⟩
    refine ⟨f, _, mem_groupPush.2 ⟨⟨i, mem_itemPairs.2 hc⟩, rfl⟩, i,
      mem_group_items.2 (mem_itemPairs.2 hc), ?_⟩
    rw [e]; simp [hg]

theorem mem_illegalRules (l : List (I × I)) (idx : List (I × F)) (err : F → List I → Conflict I F)
    (c : Conflict I F) :
    c ∈ findIllegalRules (groupPush l) idx err ↔
      ∃ a b, (a, b) ∈ l ∧
        ((lookup a idx = none ∧ c = .MissingFamily a) ∨
         (∃ f, lookup a idx = some f ∧ lookup b idx = none ∧ c = .MissingFamily b) ∨
         (∃ f, lookup a idx = some f ∧ lookup b idx = some f ∧ c = err f (sorted [a, b]))) := by
  simp only [findIllegalRules, List.mem_flatMap, Prod.exists]
  constructor
  · rintro ⟨a, bs, hm, h⟩
    obtain ⟨⟨b, hb⟩, rfl⟩ := mem_groupPush.1 hm
    cases e : lookup a idx with
    | none =>
      rw [e] at h
      exact ⟨a, b, hb, Or.inl ⟨e, by simpa using h⟩⟩
    | some f =>
      rw [e] at h
      dsimp only at h
      obtain ⟨b, hb, h⟩ := List.mem_filterMap.1 h
      rw [mem_group_items] at hb
      refine ⟨a, b, hb, Or.inr ?_⟩
      cases e' : lookup b idx with
      | none => rw [e'] at h; exact Or.inl ⟨f, e, rfl, by simpa using h.symm⟩
      | some g =>
        rw [e'] at h
        dsimp only at h
        split_ifs at h with hg
        subst hg
        exact Or.inr ⟨f, e, rfl, by simpa using h.symm⟩
  · rintro ⟨a, b, hab, h⟩
    refine ⟨a, _, mem_groupPush.2 ⟨⟨b, hab⟩, rfl⟩, ?_⟩
    rcases h with ⟨e, rfl⟩ | ⟨f, e, e', rfl⟩ | ⟨f, e, e', rfl⟩
    · rw [e]; simp
    · rw [e]
      exact List.mem_filterMap.2 ⟨b, mem_group_items.2 hab, by rw [e']⟩
    · rw [e]
      exact List.mem_filterMap.2 ⟨b, mem_group_items.2 hab, by rw [e']; simp⟩

end Verif.Bdd
