import Verif.Bdd.Structure

/-!
# Property theorems for bowtie-core (C36 – C46, C48, C51, C53, C54)
-/

set_option linter.unusedSimpArgs false
set_option linter.unusedSectionVars false

namespace Verif.Bdd
open Verif Spec Node

universe u v w
variable {I : Type u} {F : Type v} [LinearOrder I] [LinearOrder F]

/-! ## C36: `&` and `|` -/

/-- `a & b` is the conjunction and `a | b` the disjunction, for all nodes, ordered or not. -/
theorem and_or_eval (a b : Node I) (σ : I → Bool) :
    (bitand a b).eval σ = (a.eval σ && b.eval σ) ∧ (bitor a b).eval σ = (a.eval σ || b.eval σ) :=
  ⟨eval_bitand a b σ, eval_bitor a b σ⟩

/-! ## C37: `!` and `^` -/

/-- An ordered reduced node on which `!` and `^` are wrong: `1 ∧ 2`.  Not code: used to state or prove properties. -/
def andNode : Node Nat := .Branch 1 (.Leaf false) (.Branch 2 (.Leaf false) (.Leaf true))

/-- C37 is false of the code: `!(1 ∧ 2)` evaluates to false when nothing is worn; `^` inherits the
error. -/
theorem not_xor_wrong :
    (andNode.Ordered ∧ andNode.Reduced) ∧
    (∃ σ : Nat → Bool, (bitnot andNode).eval σ ≠ !(andNode.eval σ)) ∧
    (∃ σ : Nat → Bool, (bitxor (.Leaf true) andNode).eval σ ≠ xor true (andNode.eval σ)) := by
  refine ⟨⟨by simp [andNode, Ordered, Above], by simp [andNode, Reduced]⟩,
    ⟨fun _ => false, by decide⟩, ⟨fun _ => false, ?_⟩⟩
  rw [bitxor, eval_bitor, eval_bitand, eval_bitand]
  decide

/-- What `!` computes: the node read with the root item flipped.  It is the negation exactly if the
two children of the root are complementary; in particular for leaves and single-item nodes. -/
theorem not_partial :
    (∀ b (σ : I → Bool), (bitnot (.Leaf b : Node I)).eval σ = !b) ∧
    (∀ (i : I) l h, (Node.Branch i l h).Ordered →
      (∀ σ, (bitnot (.Branch i l h)).eval σ =
        (Node.Branch i l h).eval (Function.update σ i (!σ i))) ∧
      ((∀ σ, (bitnot (.Branch i l h)).eval σ = !((Node.Branch i l h).eval σ)) ↔
        ∀ σ, l.eval σ = !(h.eval σ))) ∧
    (∀ n : Node I, bitnot (bitnot n) = n) := by
  refine ⟨?_, ?_, ?_⟩
  · intro b σ; cases b <;> rfl
  · intro i l h ho
    have hl : ¬ l.Mentions i := not_mentions_above ho.2.2.1 ho.1
    have hh : ¬ h.Mentions i := not_mentions_above ho.2.2.2 ho.2.1
    refine ⟨fun σ => ?_, ?_, ?_⟩
    · cases hs : σ i <;>
        simp [bitnot, eval, hs, eval_update_of_not_mentions hl, eval_update_of_not_mentions hh]
    · intro hn σ
      have := hn (Function.update σ i true)
      simpa [bitnot, eval, eval_update_of_not_mentions hl, eval_update_of_not_mentions hh] using this
    · intro hc σ
      cases hs : σ i <;> simp [bitnot, eval, hs, hc]
  · intro n; cases n with
    | Leaf b => cases b <;> rfl
    | Branch i l h => rfl

/-- `^` is exclusive or whenever `!` is right on both operands (leaves, single items, ...). -/
theorem xor_partial (a b : Node I) (ha : ∀ σ, (bitnot a).eval σ = !(a.eval σ))
    (hb : ∀ σ, (bitnot b).eval σ = !(b.eval σ)) (σ : I → Bool) :
    (bitxor a b).eval σ = xor (a.eval σ) (b.eval σ) := by
  rw [bitxor, eval_bitor, eval_bitand, eval_bitand, ha, hb]
  cases a.eval σ <;> cases b.eval σ <;> rfl

example := xor_partial (positiveBranch 3) (positiveBranch 3) (fun σ => by simp [bitnot, positiveBranch, eval])
  (fun σ => by simp [bitnot, positiveBranch, eval])

example : (∀ σ, (bitnot (positiveBranch 3)).eval σ = !((positiveBranch 3 : Node Nat).eval σ)) :=
  (not_partial.2.1 3 (.Leaf false) (.Leaf true) ⟨trivial, trivial, trivial, trivial⟩).2.2
    (fun _ => rfl)

/-! ## C38: canonicity -/

/-- Ordered reduced nodes are equal iff they denote the same function; everything the closet code
does keeps nodes ordered and reduced; `reduce` normalises any ordered node. -/
theorem nodes_canonical (a b : Node I) (oa : a.Ordered) (ob : b.Ordered) :
    (a.Reduced → b.Reduced → (a = b ↔ ∀ σ, a.eval σ = b.eval σ)) ∧
    (bitand a b).Ordered ∧ (bitor a b).Ordered ∧
    (a.Reduced → b.Reduced → (bitand a b).Reduced ∧ (bitor a b).Reduced) ∧
    (∀ x v, (restrict a x v).Ordered ∧ (a.Reduced → (restrict a x v).Reduced)) ∧
    (reduce a).Ordered ∧ (reduce a).Reduced ∧ (∀ σ, (reduce a).eval σ = a.eval σ) ∧
    (reduce a = reduce b ↔ ∀ σ, a.eval σ = b.eval σ) := by
  refine ⟨fun ra rb => ⟨fun e σ => by rw [e], canonical oa ob ra rb⟩, ordered_bitand _ _ oa ob,
    ordered_bitor _ _ oa ob, fun ra rb => ⟨reduced_bitand _ _ ra rb, reduced_bitor _ _ ra rb⟩,
    fun x v => ⟨ordered_restrict oa x v, fun ra => reduced_restrict ra x v⟩, ordered_reduce oa,
    reduced_reduce a, eval_reduce a, ?_, ?_⟩
  · intro e σ; rw [← eval_reduce a, e, eval_reduce]
  · intro e
    apply canonical (ordered_reduce oa) (ordered_reduce ob) (reduced_reduce a) (reduced_reduce b)
    intro σ; rw [eval_reduce, eval_reduce, e]

example := nodes_canonical (positiveBranch 3) (negativeBranch 4) (by simp [positiveBranch, Node.Ordered, Node.Above])
  (by simp [negativeBranch, Node.Ordered, Node.Above])

/-! ## C40: validation -/

/-- The plural builder calls are histories of single calls. -/
theorem plural_calls (cs : List (Call I F)) (f : F) (s : I) (is : List I) :
    (ClosetBuilder.run cs).addItems f is = ClosetBuilder.run (cs ++ is.map (Call.item f)) ∧
    (ClosetBuilder.run cs).addExclusionRules s is =
      ClosetBuilder.run (cs ++ is.map (Call.exclude s)) ∧
    (ClosetBuilder.run cs).addInclusionRules s is =
      ClosetBuilder.run (cs ++ is.map (Call.incl s)) := by
  refine ⟨?_, ?_, ?_⟩ <;>
    simp [ClosetBuilder.run, ClosetBuilder.addItems, ClosetBuilder.addExclusionRules,
      ClosetBuilder.addInclusionRules, List.foldl_map, ClosetBuilder.call]

theorem home_iff (cs : List (Call I F)) (i : I) (f : F) :
    lookup i (indexOf (itemPairs cs)) = some f ↔ Home cs i f := by
  rw [lookup_indexOf]
  induction cs with
  | nil => simp [itemPairs, Home]
  | cons c cs ih =>
    have hcons : Home (c :: cs) i f ↔ c = Call.item f i ∨ ((∀ g, c ≠ Call.item g i) ∧ Home cs i f) := by
      constructor
      · rintro ⟨pre, post, e, h⟩
        cases pre with
        | nil => simp at e; exact Or.inl e.1
        | cons d pre =>
          simp at e
          refine Or.inr ⟨fun g hg => h g (by rw [← hg, e.1]; simp), pre, post, e.2, fun g hg => ?_⟩
          exact h g (by simp [hg])
      · rintro (rfl | ⟨h1, pre, post, rfl, h2⟩)
        · exact ⟨[], cs, rfl, by simp⟩
        · refine ⟨c :: pre, post, rfl, fun g hg => ?_⟩
          rcases List.mem_cons.1 hg with e | e
          · exact h1 g e.symm
          · exact h2 g e
    rw [hcons]
    cases c with
    | item g j =>
      have : itemPairs (Call.item g j :: cs) = (g, j) :: itemPairs cs := rfl
      rw [this, List.find?_cons]
      by_cases e : j = i
      · subst e; simp
      · simp only [e, decide_false, ih]; simp [e]
    | exclude a b =>
      have : itemPairs (Call.exclude a b :: cs) = itemPairs cs := rfl
      rw [this, ih]; simp
    | incl a b =>
      have : itemPairs (Call.incl a b :: cs) = itemPairs cs := rfl
      rw [this, ih]; simp

/-- The violations of a call history, one clause per kind of error.  Not code: used to state or prove properties. -/
def Violation (cs : List (Call I F)) : Conflict I F → Prop
  | .ConflictingFamilies i fs => ∃ g f, fs = [g, f] ∧ Home cs i g ∧ Call.item f i ∈ cs ∧ g ≠ f
  | .MissingFamily i => ¬ Known cs i ∧ ∃ a b, (Call.exclude a b ∈ cs ∨ Call.incl a b ∈ cs) ∧
      (i = a ∨ (Known cs a ∧ i = b))
  | .ExclusionError f is => ∃ a b, Call.exclude a b ∈ cs ∧ Home cs a f ∧ Home cs b f ∧
      is = sorted [a, b]
  | .InclusionError f is => ∃ a b, Call.incl a b ∈ cs ∧ Home cs a f ∧ Home cs b f ∧
      is = sorted [a, b]

theorem mem_conflicts_iff (cs : List (Call I F)) (c : Conflict I F) :
    c ∈ allConflicts (ClosetBuilder.run cs).contents (ClosetBuilder.run cs).itemIndex
        (ClosetBuilder.run cs).exclusions (ClosetBuilder.run cs).inclusions ↔ Violation cs c := by
  rw [mem_allConflicts, mem_conflictingFamilies]
  have hE : (ClosetBuilder.run cs).exclusions = groupPush (exclPairs cs) := by rw [run_eq]
  have hN : (ClosetBuilder.run cs).inclusions = groupPush (inclPairs cs) := by rw [run_eq]
  have hX : (ClosetBuilder.run cs).itemIndex = indexOf (itemPairs cs) := by rw [run_eq]
  rw [hE, hN, hX, mem_illegalRules, mem_illegalRules]
  simp only [mem_exclPairs, mem_inclPairs, lookup_index_none, home_iff]
  have hkn : ∀ i, Known cs i → ∃ f, Home cs i f := by
    intro i hi
    cases e : lookup i (indexOf (itemPairs cs)) with
    | none => exact absurd hi (lookup_index_none.1 e)
    | some f => exact ⟨f, (home_iff cs i f).1 e⟩
  have hhk : ∀ i f, Home cs i f → Known cs i := by
    rintro i f ⟨pre, post, rfl, _⟩; exact ⟨f, by simp⟩
  constructor
  · rintro (⟨f, g, i, h1, h2, h3, rfl⟩ | ⟨a, b, hab, h⟩ | ⟨a, b, hab, h⟩)
    · exact ⟨g, f, rfl, h2, h1, h3⟩
    · rcases h with ⟨h1, rfl⟩ | ⟨f, h1, h2, rfl⟩ | ⟨f, h1, h2, rfl⟩
      · exact ⟨h1, a, b, Or.inl hab, Or.inl rfl⟩
      · exact ⟨h2, a, b, Or.inl hab, Or.inr ⟨hhk _ _ h1, rfl⟩⟩
      · exact ⟨a, b, hab, h1, h2, rfl⟩
    · rcases h with ⟨h1, rfl⟩ | ⟨f, h1, h2, rfl⟩ | ⟨f, h1, h2, rfl⟩
      · exact ⟨h1, a, b, Or.inr hab, Or.inl rfl⟩
      · exact ⟨h2, a, b, Or.inr hab, Or.inr ⟨hhk _ _ h1, rfl⟩⟩
      · exact ⟨a, b, hab, h1, h2, rfl⟩
  · cases c with
    | MissingFamily i =>
      rintro ⟨hi, a, b, hab | hab, rfl | ⟨ha, rfl⟩⟩
      · exact Or.inr (Or.inl ⟨_, b, hab, Or.inl ⟨hi, rfl⟩⟩)
      · obtain ⟨f, hf⟩ := hkn a ha
        exact Or.inr (Or.inl ⟨a, _, hab, Or.inr (Or.inl ⟨f, hf, hi, rfl⟩)⟩)
      · exact Or.inr (Or.inr ⟨_, b, hab, Or.inl ⟨hi, rfl⟩⟩)
      · obtain ⟨f, hf⟩ := hkn a ha
        exact Or.inr (Or.inr ⟨a, _, hab, Or.inr (Or.inl ⟨f, hf, hi, rfl⟩)⟩)
    | ConflictingFamilies i fs =>
      rintro ⟨g, f, rfl, h1, h2, h3⟩
      exact Or.inl ⟨f, g, i, h2, h1, h3, rfl⟩
    | InclusionError f is =>
      rintro ⟨a, b, h1, h2, h3, rfl⟩
      exact Or.inr (Or.inr ⟨a, b, h1, Or.inr (Or.inr ⟨f, h2, h3, rfl⟩)⟩)
    | ExclusionError f is =>
      rintro ⟨a, b, h1, h2, h3, rfl⟩
      exact Or.inr (Or.inl ⟨a, b, h1, Or.inr (Or.inr ⟨f, h2, h3, rfl⟩)⟩)

theorem legal_iff (cs : List (Call I F)) : Legal cs ↔ ∀ c, ¬ Violation cs c := by
  have hkn : ∀ i, Known cs i → ∃ f, Home cs i f := by
    intro i hi
    cases e : lookup i (indexOf (itemPairs cs)) with
    | none => exact absurd hi (lookup_index_none.1 e)
    | some f => exact ⟨f, (home_iff cs i f).1 e⟩
  have hhm : ∀ i f, Home cs i f → Call.item f i ∈ cs := by
    rintro i f ⟨pre, post, rfl, _⟩; simp
  constructor
  · intro hl c hv
    cases c with
    | MissingFamily i =>
      obtain ⟨hi, a, b, hab, hw⟩ := hv
      have : ∃ f g, Call.item f a ∈ cs ∧ Call.item g b ∈ cs ∧ f ≠ g :=
        hab.elim (hl.2 a b) (hl.3 a b)
      obtain ⟨f, g, h1, h2, _⟩ := this
      rcases hw with rfl | ⟨_, rfl⟩
      · exact hi ⟨f, h1⟩
      · exact hi ⟨g, h2⟩
    | ConflictingFamilies i fs =>
      obtain ⟨g, f, rfl, h1, h2, h3⟩ := hv
      exact h3 (hl.1 _ _ _ (hhm _ _ h1) h2)
    | InclusionError f is =>
      obtain ⟨a, b, h1, h2, h3, rfl⟩ := hv
      obtain ⟨f', g', h4, h5, h6⟩ := hl.3 a b h1
      exact h6 ((hl.1 _ _ _ h4 (hhm _ _ h2)).trans (hl.1 _ _ _ h5 (hhm _ _ h3)).symm)
    | ExclusionError f is =>
      obtain ⟨a, b, h1, h2, h3, rfl⟩ := hv
      obtain ⟨f', g', h4, h5, h6⟩ := hl.2 a b h1
      exact h6 ((hl.1 _ _ _ h4 (hhm _ _ h2)).trans (hl.1 _ _ _ h5 (hhm _ _ h3)).symm)
  · intro hv
    have hrule : ∀ a b, (Call.exclude a b ∈ cs ∨ Call.incl a b ∈ cs) →
        ∃ f g, Call.item f a ∈ cs ∧ Call.item g b ∈ cs ∧ f ≠ g := by
      intro a b hab
      have ha : Known cs a := by
        by_contra h; exact hv (.MissingFamily a) ⟨h, a, b, hab, Or.inl rfl⟩
      have hb : Known cs b := by
        by_contra h; exact hv (.MissingFamily b) ⟨h, a, b, hab, Or.inr ⟨ha, rfl⟩⟩
      obtain ⟨f, hf⟩ := hkn a ha
      obtain ⟨g, hg⟩ := hkn b hb
      refine ⟨f, g, hhm _ _ hf, hhm _ _ hg, ?_⟩
      rintro rfl
      rcases hab with h | h
      · exact hv (.ExclusionError f (sorted [a, b])) ⟨a, b, h, hf, hg, rfl⟩
      · exact hv (.InclusionError f (sorted [a, b])) ⟨a, b, h, hf, hg, rfl⟩
    refine ⟨?_, fun a b h => hrule a b (Or.inl h), fun a b h => hrule a b (Or.inr h)⟩
    intro f g i h1 h2
    obtain ⟨e, he⟩ := hkn i ⟨f, h1⟩
    have e1 : e = f := by
      by_contra hne
      exact hv (.ConflictingFamilies i [e, f]) ⟨e, f, rfl, he, h1, hne⟩
    have e2 : e = g := by
      by_contra hne
      exact hv (.ConflictingFamilies i [e, g]) ⟨e, g, rfl, he, h2, hne⟩
    rw [← e1, ← e2]

/-- `build` succeeds iff the history is legal; otherwise the error lists exactly the violations, each
once, as a single error if there is one and as a compound error if there are more. -/
theorem build_validates (cs : List (Call I F)) :
    (Legal cs ↔ ∃ c, (ClosetBuilder.run cs).build = .ok c) ∧
    ∀ e, (ClosetBuilder.run cs).build = .error e →
      ∃ vs : List (Conflict I F), vs.Nodup ∧ (∀ v, v ∈ vs ↔ Violation cs v) ∧
        ((∃ v, vs = [v] ∧ e = .Single v) ∨ (2 ≤ vs.length ∧ e = .CompoundError vs)) := by
  have hnd : (allConflicts (ClosetBuilder.run cs).contents (ClosetBuilder.run cs).itemIndex
        (ClosetBuilder.run cs).exclusions (ClosetBuilder.run cs).inclusions).Nodup := nodup_uniq _
  have hm := mem_conflicts_iff cs
  rw [legal_iff]
  unfold ClosetBuilder.build validateCloset
  generalize allConflicts (ClosetBuilder.run cs).contents (ClosetBuilder.run cs).itemIndex
        (ClosetBuilder.run cs).exclusions (ClosetBuilder.run cs).inclusions = vs at hnd hm
  match vs, hnd, hm with
  | [], _, hm =>
    refine ⟨⟨fun _ => ⟨_, rfl⟩, fun _ c => (hm c).not.1 (by simp)⟩, ?_⟩
    intro e he; cases he
  | [v], hnd, hm =>
    refine ⟨⟨fun h => absurd ((hm v).1 (by simp)) (h v), ?_⟩, ?_⟩
    · rintro ⟨c, hc⟩; cases hc
    · intro e he; cases he
      exact ⟨[v], hnd, hm, Or.inl ⟨v, rfl, rfl⟩⟩
  | v :: w :: vs, hnd, hm =>
    refine ⟨⟨fun h => absurd ((hm v).1 (by simp)) (h v), ?_⟩, ?_⟩
    · rintro ⟨c, hc⟩; cases hc
    · intro e he; cases he
      exact ⟨_, hnd, hm, Or.inr ⟨by simp, rfl⟩⟩

/-! ## Reached closets -/

/-- `c` is what the API gives: build the history `cs`, then select `xs` one by one.
Not code: used to state or prove properties. -/
def Reached (cs : List (Call I F)) (xs : List I) (c : Closet I F) : Prop :=
  ∃ c₀, (ClosetBuilder.run cs).build = .ok c₀ ∧ c₀.selectAll xs = .ok c

theorem build_eq {cs : List (Call I F)} {c : Closet I F} (h : (ClosetBuilder.run cs).build = .ok c) :
    Legal cs ∧
      c = Closet.new (ClosetBuilder.run cs).itemIndex (ClosetBuilder.run cs).buildRoot := by
  refine ⟨(build_validates cs).1.2 ⟨c, h⟩, ?_⟩
  unfold ClosetBuilder.build at h
  split at h
  · cases h
  · cases h; rfl

theorem selectAll_state {cs : List (Call I F)} {xs ys : List I} {c d : Closet I F}
    (h : State cs xs c) (hk : ∀ x ∈ xs, Known cs x) (hs : c.selectAll ys = .ok d) :
    State cs (xs ++ ys) d ∧ (∀ x ∈ xs ++ ys, Known cs x) ∧
      ((∃ w, Outfit cs w ∧ ∀ x ∈ xs, x ∈ w) → ∃ w, Outfit cs w ∧ ∀ x ∈ xs ++ ys, x ∈ w) := by
  induction ys generalizing xs c with
  | nil =>
    simp only [Closet.selectAll] at hs; cases hs
    simpa using ⟨h, hk⟩
  | cons y ys ih =>
    simp only [Closet.selectAll] at hs
    rw [selectItem_eq] at hs
    by_cases h1 : lookup y c.itemIndex = none
    · simp [h1] at hs
    · by_cases h2 : Status.Excluded y ∈ c.summary
      · simp [h1, h2] at hs
      · simp only [h1, h2, if_false] at hs
        rw [h.index, lookup_index_none, not_not] at h1
        have hk' : ∀ x ∈ xs ++ [y], Known cs x := by
          intro x hx
          rcases List.mem_append.1 hx with hx | hx
          · exact hk x hx
          · rw [List.mem_singleton.1 hx]; exact h1
        obtain ⟨a, b, e⟩ := ih (h.select y) hk' hs
        rw [List.append_assoc] at a b e
        refine ⟨a, b, fun hsat => e ?_⟩
        rw [h.summary_excluded hk hsat, not_and, not_not] at h2
        obtain ⟨w, ho, hw, hy⟩ := h2 h1
        refine ⟨w, ho, fun x hx => ?_⟩
        rcases List.mem_append.1 hx with hx | hx
        · exact hw x hx
        · rw [List.mem_singleton.1 hx]; exact hy

theorem Reached.state {cs : List (Call I F)} {xs : List I} {c : Closet I F} (h : Reached cs xs c) :
    Legal cs ∧ State cs xs c ∧ (∀ x ∈ xs, Known cs x) ∧
      ((∃ w, Outfit cs w) → ∃ w, Outfit cs w ∧ ∀ x ∈ xs, x ∈ w) := by
  obtain ⟨c₀, h1, h2⟩ := h
  obtain ⟨hl, rfl⟩ := build_eq h1
  obtain ⟨a, b, e⟩ := selectAll_state (state_built hl) (by simp) h2
  simp only [List.nil_append] at a b e
  exact ⟨hl, a, b, fun ⟨w, hw⟩ => e ⟨w, hw, by simp⟩⟩

/-! ## C39: the built closet accepts exactly the valid outfits -/

/-- The built closet evaluates to true exactly on the assignments picking one item of every family
and obeying all rules. -/
theorem build_accepts (cs : List (Call I F)) (c : Closet I F)
    (h : (ClosetBuilder.run cs).build = .ok c) (σ : I → Bool) :
    c.root.eval σ = true ↔ Accepts cs (fun i => σ i = true) := by
  obtain ⟨_, rfl⟩ := build_eq h
  exact eval_buildRoot cs σ

/-- C38, for closets: legal histories with the same calls, in any order and with any repetition,
build the same closet. -/
theorem build_order_irrelevant (cs ds : List (Call I F)) (hl : Legal cs)
    (hsame : ∀ c, c ∈ cs ↔ c ∈ ds) :
    ∃ c, (ClosetBuilder.run cs).build = .ok c ∧ (ClosetBuilder.run ds).build = .ok c := by
  have hl' : Legal ds := by
    refine ⟨?_, ?_, ?_⟩
    · intro f g i; rw [← hsame, ← hsame]; exact hl.1 f g i
    · intro a b; rw [← hsame]; simp only [← hsame]; exact hl.2 a b
    · intro a b; rw [← hsame]; simp only [← hsame]; exact hl.3 a b
  obtain ⟨c, hc⟩ := (build_validates cs).1.1 hl
  obtain ⟨d, hd⟩ := (build_validates ds).1.1 hl'
  refine ⟨c, hc, ?_⟩
  rw [hd]
  obtain ⟨_, rfl⟩ := build_eq hc
  obtain ⟨_, rfl⟩ := build_eq hd
  congr 1
  refine (state_built hl').unique (state_built hl) ?_ ?_ (fun i => Iff.rfl)
  · apply smap_ext (indexOf_keysLt _) (indexOf_keysLt _)
    intro k
    apply Option.ext
    intro f
    rw [lookup_index hl'.1, lookup_index hl.1, hsame]
  · intro w
    constructor
    · rintro ⟨h1, h2, h3⟩
      refine ⟨?_, ?_, ?_⟩
      · simpa only [hsame] using h1
      · simpa only [hsame] using h2
      · simpa only [hsame] using h3
    · rintro ⟨h1, h2, h3⟩
      refine ⟨?_, ?_, ?_⟩
      · simpa only [← hsame] using h1
      · simpa only [← hsame] using h2
      · simpa only [← hsame] using h3

/-! ## A concrete closet, used to show the hypotheses are met -/

/-- Shirts 0: {1, 2}; pants 1: {3, 4}; shirt 1 excludes pants 3.  Not code: used to state or prove properties. -/
def demo : List (Call Nat Nat) :=
  [.item 0 1, .item 0 2, .exclude 1 3, .item 1 3, .item 1 4, .incl 2 3]

theorem demo_legal : Legal demo := by
  refine ⟨?_, ?_, ?_⟩
  · intro f g i; simp [demo]; omega
  · intro a b; simp [demo]; rintro rfl rfl; exact ⟨0, by simp, 1, by simp⟩
  · intro a b; simp [demo]; rintro rfl rfl; exact ⟨0, by simp, 1, by simp⟩

theorem demo_outfit : Outfit demo {1, 4} := by
  refine ⟨?_, ?_, ?_, ?_⟩
  · intro i hi; simp at hi; rcases hi with rfl | rfl
    · exact ⟨0, by simp [demo]⟩
    · exact ⟨1, by simp [demo]⟩
  · intro f i hi
    simp [demo] at hi
    rcases hi with ⟨rfl, _⟩ | ⟨rfl, _⟩ | ⟨rfl, _⟩ | ⟨rfl, _⟩
    · exact ⟨1, by simp [demo], fun y => by simp [demo]; omega⟩
    · exact ⟨1, by simp [demo], fun y => by simp [demo]; omega⟩
    · exact ⟨4, by simp [demo], fun y => by simp [demo]; omega⟩
    · exact ⟨4, by simp [demo], fun y => by simp [demo]; omega⟩
  · intro a b; simp [demo]; omega
  · intro a b; simp [demo]; rintro rfl rfl; simp

example : ∃ c, (ClosetBuilder.run demo).build = .ok c := (build_validates demo).1.1 demo_legal

theorem demo_known (i : ℕ) : Known demo i ↔ i = 1 ∨ i = 2 ∨ i = 3 ∨ i = 4 := by
  simp only [Known, demo, List.mem_cons, Call.item.injEq, List.not_mem_nil, or_false, reduceCtorEq]
  constructor
  · rintro ⟨f, h⟩; simp at h; omega
  · rintro (rfl | rfl | rfl | rfl)
    · exact ⟨0, by simp⟩
    · exact ⟨0, by simp⟩
    · exact ⟨1, by simp⟩
    · exact ⟨1, by simp⟩

/-- An illegal history: item 1 in two families, a rule inside one family, a rule on an unknown
item. -/
example : ∃ e, (ClosetBuilder.run ([.item 0 1, .item 1 1, .item 0 2, .exclude 1 2, .incl 1 9] :
    List (Call Nat Nat))).build = .error e := by
  cases h : (ClosetBuilder.run ([.item 0 1, .item 1 1, .item 0 2, .exclude 1 2, .incl 1 9] :
      List (Call Nat Nat))).build with
  | error e => exact ⟨e, rfl⟩
  | ok c =>
    have := ((build_validates _).1.2 ⟨c, h⟩).1 0 1 1 (by simp) (by simp)
    cases this

/-! ## C41: the item summary -/

/-- After any successful selections of a satisfiable closet the summary lists, sorted and once each:
the selected items as Selected; as Available the other items of some outfit containing all
selections; as Excluded the known items of no such outfit. -/
theorem summary_exact (cs : List (Call I F)) (xs : List I) (c : Closet I F) (h : Reached cs xs c)
    (hs : ∃ w, Outfit cs w) (i : I) :
    c.summary.Pairwise (· < ·) ∧
    (Status.Selected i ∈ c.summary ↔ i ∈ xs) ∧
    (Status.Available i ∈ c.summary ↔
      i ∉ xs ∧ ∃ w, Outfit cs w ∧ (∀ x ∈ xs, x ∈ w) ∧ i ∈ w) ∧
    (Status.Excluded i ∈ c.summary ↔
      Known cs i ∧ ¬ ∃ w, Outfit cs w ∧ (∀ x ∈ xs, x ∈ w) ∧ i ∈ w) := by
  obtain ⟨_, h1, h2, h3⟩ := h.state
  exact ⟨h1.summary_lt, h1.summary_selected i, h1.summary_available h2 i,
    h1.summary_excluded h2 (h3 hs) i⟩

/-- Hence every known item, and nothing else, has exactly one status. -/
theorem summary_one_status (cs : List (Call I F)) (xs : List I) (c : Closet I F)
    (h : Reached cs xs c) (hs : ∃ w, Outfit cs w) (i : I) :
    (Known cs i ↔ ∃ s ∈ c.summary, s.item = i) ∧
    ∀ s ∈ c.summary, ∀ t ∈ c.summary, s.item = t.item → s = t := by
  obtain ⟨_, _, hk, hsat⟩ := h.state
  have key := summary_exact cs xs c h hs
  constructor
  · constructor
    · intro hi
      obtain ⟨_, h1, h2, h3⟩ := key i
      by_cases hx : i ∈ xs
      · exact ⟨_, h1.2 hx, rfl⟩
      · by_cases hw : ∃ w, Outfit cs w ∧ (∀ x ∈ xs, x ∈ w) ∧ i ∈ w
        · exact ⟨_, h2.2 ⟨hx, hw⟩, rfl⟩
        · exact ⟨_, h3.2 ⟨hi, hw⟩, rfl⟩
    · rintro ⟨s, hm, rfl⟩
      obtain ⟨_, h1, h2, h3⟩ := key s.item
      cases s with
      | Selected j => exact hk _ (h1.1 hm)
      | Available j =>
        obtain ⟨_, w, ho, _, hj⟩ := h2.1 hm
        exact ho.known _ hj
      | Excluded j => exact (h3.1 hm).1
  · intro s hsm t htm e
    obtain ⟨_, h1, h2, h3⟩ := key s.item
    obtain ⟨_, k1, k2, k3⟩ := key t.item
    obtain ⟨w, ho, hw⟩ := hsat hs
    cases s with
    | Selected i => cases t with
      | Selected j => cases e; rfl
      | Available j => cases e; exact absurd (h1.1 hsm) (k2.1 htm).1
      | Excluded j => cases e; exact absurd ⟨w, ho, hw, hw _ (h1.1 hsm)⟩ (k3.1 htm).2
    | Available i => cases t with
      | Selected j => cases e; exact absurd (k1.1 htm) (h2.1 hsm).1
      | Available j => cases e; rfl
      | Excluded j => cases e; exact absurd (h2.1 hsm).2 (k3.1 htm).2
    | Excluded i => cases t with
      | Selected j => cases e; exact absurd ⟨w, ho, hw, hw _ (k1.1 htm)⟩ (h3.1 hsm).2
      | Available j => cases e; exact absurd (k2.1 htm).2 (h3.1 hsm).2
      | Excluded j => cases e; rfl

/-! ## C42: selecting -/

/-- `select_item` on a reached satisfiable closet: unknown items and items of no remaining outfit
are rejected with the respective error; any other selection succeeds, and the new closet is
reached by the extended history. -/
theorem select_exact (cs : List (Call I F)) (xs : List I) (c : Closet I F) (h : Reached cs xs c)
    (hs : ∃ w, Outfit cs w) (x : I) :
    (¬ Known cs x → c.selectItem x = .error (.UnknownItem x)) ∧
    (Known cs x → (¬ ∃ w, Outfit cs w ∧ (∀ y ∈ xs, y ∈ w) ∧ x ∈ w) →
      c.selectItem x = .error (.ExcludedItem x)) ∧
    ((∃ w, Outfit cs w ∧ (∀ y ∈ xs, y ∈ w) ∧ x ∈ w) →
      ∃ c', c.selectItem x = .ok c' ∧ Reached cs (xs ++ [x]) c') := by
  obtain ⟨hl, h1, h2, h3⟩ := h.state
  have key := (summary_exact cs xs c h hs x).2.2.2
  have hn : lookup x c.itemIndex = none ↔ ¬ Known cs x := by rw [h1.index, lookup_index_none]
  refine ⟨fun hk => ?_, fun hk hw => ?_, fun hw => ?_⟩
  · rw [selectItem_eq, if_pos (hn.2 hk)]
  · rw [selectItem_eq, if_neg (fun e => hn.1 e hk), if_pos (key.2 ⟨hk, hw⟩)]
  · have hk : Known cs x := by obtain ⟨w, ho, _, hx⟩ := hw; exact ho.known x hx
    have hne : Status.Excluded x ∉ c.summary := fun hm => (key.1 hm).2 hw
    obtain ⟨c', hc'⟩ : ∃ c', c.selectItem x = .ok c' := by
      rw [selectItem_eq, if_neg (fun e => hn.1 e hk), if_neg hne]; exact ⟨_, rfl⟩
    refine ⟨c', hc', ?_⟩
    obtain ⟨c₀, e1, e2⟩ := h
    refine ⟨c₀, e1, ?_⟩
    rw [← hc']
    have happ : ∀ (ys : List I) (d : Closet I F), d.selectAll ys = .ok c →
        d.selectAll (ys ++ [x]) = c.selectItem x := by
      intro ys
      induction ys with
      | nil =>
        intro d hd
        simp only [Closet.selectAll, Except.ok.injEq] at hd
        subst hd
        simp only [List.nil_append, Closet.selectAll]
        cases d.selectItem x <;> rfl
      | cons y ys ih =>
        intro d hd
        simp only [List.cons_append, Closet.selectAll] at hd ⊢
        cases e : d.selectItem y with
        | error e' => rw [e] at hd; cases hd
        | ok d' => rw [e] at hd; exact ih d' hd
    exact happ xs c₀ e2

/-- The closet reached by selecting `xs` accepts an assignment iff wearing the selections in addition
is accepted by the closet's rules. -/
theorem selected_accepts (cs : List (Call I F)) (xs : List I) (c : Closet I F)
    (h : Reached cs xs c) (σ : I → Bool) :
    c.root.eval σ = true ↔ Accepts cs (fun i => i ∈ xs ∨ σ i = true) :=
  h.state.2.1.eval σ

/-- The order and repetition of selections do not matter: reached closets with the same set of
selections are equal. -/
theorem select_order_irrelevant (cs : List (Call I F)) (xs ys : List I) (c d : Closet I F)
    (h : Reached cs xs c) (k : Reached cs ys d) (hxy : ∀ i, i ∈ xs ↔ i ∈ ys) : c = d :=
  h.state.2.1.unique k.state.2.1 rfl (fun _ => Iff.rfl) hxy

/-- A list of selections goes through iff some outfit contains all of them; in particular the closet
stays satisfiable. -/
theorem select_all_ok_iff (cs : List (Call I F)) (hl : Legal cs) (hs : ∃ w, Outfit cs w)
    (xs : List I) :
    (∃ c, Reached cs xs c) ↔ ∃ w, Outfit cs w ∧ ∀ x ∈ xs, x ∈ w := by
  constructor
  · rintro ⟨c, h⟩; exact h.state.2.2.2 hs
  · rintro ⟨w, ho, hw⟩
    induction xs using List.reverseRecOn with
    | nil =>
      obtain ⟨c, hc⟩ := (build_validates cs).1.1 hl
      exact ⟨c, c, hc, rfl⟩
    | append_singleton xs x ih =>
      obtain ⟨c, hc⟩ := ih (fun y hy => hw y (by simp [hy]))
      obtain ⟨c', _, h'⟩ := (select_exact cs xs c hc hs x).2.2
        ⟨w, ho, fun y hy => hw y (by simp [hy]), hw x (by simp)⟩
      exact ⟨c', h'⟩

/-- The demo closet after selecting 4 and 1: the hypotheses of the claims about reached closets are met. -/
theorem demo_reached : ∃ c, Reached demo [4, 1] c :=
  (select_all_ok_iff demo demo_legal ⟨_, demo_outfit⟩ [4, 1]).2 ⟨_, demo_outfit, by simp⟩

example := build_order_irrelevant demo demo.reverse demo_legal (by simp)

example : ∃ c : Closet ℕ ℕ, ∀ σ : ℕ → Bool, c.root.eval σ = true ↔ Accepts demo (fun i => σ i = true) := by
  obtain ⟨c, hc⟩ := (build_validates demo).1.1 demo_legal
  exact ⟨c, build_accepts demo c hc⟩

example : ∃ c, ∀ s ∈ Closet.summary (I := ℕ) (F := ℕ) c, ∀ t ∈ c.summary, s.item = t.item → s = t := by
  obtain ⟨c, hc⟩ := demo_reached
  exact ⟨c, (summary_one_status demo _ c hc ⟨_, demo_outfit⟩ 3).2⟩

example : ∃ c, Reached demo [4, 1] c ∧ ∀ σ, c.root.eval σ = true ↔ Accepts demo (fun i => i ∈ [4, 1] ∨ σ i = true) := by
  obtain ⟨c, hc⟩ := demo_reached
  exact ⟨c, hc, selected_accepts demo _ c hc⟩

example : ∃ c, Reached demo [4, 1] c ∧ ∀ d, Reached demo [1, 4, 1] d → c = d := by
  obtain ⟨c, hc⟩ := demo_reached
  exact ⟨c, hc, fun d hd => select_order_irrelevant demo _ _ c d hc hd (by intro i; simp; tauto)⟩

/-- On an unsatisfiable closet nothing is ever excluded: the summary lists only the selections and
every known item can be selected. -/
theorem select_unsatisfiable (cs : List (Call I F)) (xs : List I) (c : Closet I F)
    (h : Reached cs xs c) (hs : ¬ ∃ w, Outfit cs w) :
    c.root = .Leaf false ∧ (∀ s, s ∈ c.summary ↔ ∃ i ∈ xs, s = .Selected i) ∧
      ∀ x, (∃ c', c.selectItem x = .ok c') ↔ Known cs x := by
  obtain ⟨hl, h1, h2, _⟩ := h.state
  have hr : c.root = .Leaf false := by
    by_contra hn
    obtain ⟨w, ho, _⟩ := (h1.sat_iff h2).1 hn
    exact hs ⟨w, ho⟩
  have hsum : ∀ s, s ∈ c.summary ↔ ∃ i ∈ xs, s = .Selected i := by
    intro s
    rw [h1.summary, mem_sorted, mem_uniq, List.mem_append, hr, mem_summarize]
    simp [occ, eq_comm]
  refine ⟨hr, hsum, fun x => ?_⟩
  have hn : lookup x c.itemIndex = none ↔ ¬ Known cs x := by rw [h1.index, lookup_index_none]
  have hne : Status.Excluded x ∉ c.summary := by rw [hsum]; simp
  rw [selectItem_eq]
  by_cases hk : Known cs x
  · rw [if_neg (fun e => hn.1 e hk), if_neg hne]; simp [hk]
  · rw [if_pos (hn.2 hk)]; simp [hk]

/-! ## C43, C44: completing an outfit -/

theorem findUnknown_eq {cs : List (Call I F)} {c : Closet I F}
    (hi : c.itemIndex = indexOf (itemPairs cs)) (sel : List I) :
    (c.findUnknownItems sel = none ↔ ∀ x ∈ sel, Known cs x) ∧
    ∀ u, c.findUnknownItems sel = some u →
      u ≠ [] ∧ u.Sublist sel ∧ (∀ x, x ∈ u ↔ x ∈ sel ∧ ¬ Known cs x) ∧
        ∀ x, ¬ Known cs x → u.count x = sel.count x := by
  have hn : ∀ x, (c.getFamily x).isNone = true ↔ ¬ Known cs x := by
    intro x; rw [Closet.getFamily, hi, Option.isNone_iff_eq_none, lookup_index_none]
  unfold Closet.findUnknownItems
  dsimp only
  by_cases he : sel.filter (fun i => (c.getFamily i).isNone) = []
  · rw [he]
    simp only [List.isEmpty_nil, Bool.not_true, Bool.false_eq_true, if_false, true_iff]
    rw [List.filter_eq_nil_iff] at he
    refine ⟨fun x hx => ?_, fun u hu => by (cases hu)⟩
    by_contra hk
    exact he x hx ((hn x).2 hk)
  · have : (!(sel.filter (fun i => (c.getFamily i).isNone)).isEmpty) = true := by
      simpa [List.isEmpty_iff] using he
    rw [if_pos this]
    refine ⟨⟨fun h => by (cases h), fun h => ?_⟩, ?_⟩
    · exfalso
      apply he
      rw [List.filter_eq_nil_iff]
      intro x hx hc
      exact (hn x).1 hc (h x hx)
    · intro u hu
      cases hu
      refine ⟨he, List.filter_sublist, fun x => ?_, fun x hx => ?_⟩
      · rw [List.mem_filter, hn]
      · exact List.count_filter ((hn x).2 hx)

theorem mapM_pairs {cs : List (Call I F)} (hl : Legal cs) {c : Closet I F}
    (hi : c.itemIndex = indexOf (itemPairs cs)) (sel : List I) (hk : ∀ x ∈ sel, Known cs x) :
    ∃ ps : List (F × I), sel.mapM (fun i => (c.getFamily i).map (fun f => (f, i))) = some ps ∧
      ps.map Prod.snd = sel ∧ ∀ p ∈ ps, Call.item p.1 p.2 ∈ cs := by
  induction sel with
  | nil => exact ⟨[], rfl, rfl, by simp⟩
  | cons x sel ih =>
    obtain ⟨ps, e1, e2, e3⟩ := ih (fun y hy => hk y (by simp [hy]))
    obtain ⟨f, hf⟩ := hk x (by simp)
    refine ⟨(f, x) :: ps, ?_, by simp [e2], ?_⟩
    · have : c.getFamily x = some f := by rw [Closet.getFamily, hi]; exact (lookup_index hl.1).2 hf
      simp [List.mapM_cons, this, e1]
    · intro p hp
      rcases List.mem_cons.1 hp with rfl | hp
      · exact hf
      · exact e3 p hp

/-- Two positions of the list hold items of one family.  Not code: used to state or prove properties. -/
def Clash (cs : List (Call I F)) (sel : List I) : Prop :=
  ∃ f, ∃ s : List I, s.Sublist sel ∧ 2 ≤ s.length ∧ ∀ x ∈ s, Call.item f x ∈ cs

theorem findDuplicate_eq {cs : List (Call I F)} (hl : Legal cs) {c : Closet I F}
    (hi : c.itemIndex = indexOf (itemPairs cs)) (sel : List I) (hk : ∀ x ∈ sel, Known cs x) :
    (¬ Clash cs sel ∧ c.findDuplicateItems sel = some none) ∨
    (Clash cs sel ∧ ∃ m, c.findDuplicateItems sel = some (some m) ∧ KeysLt m ∧
      ∀ f is, (f, is) ∈ m ↔ 2 ≤ is.length ∧ is.Sublist sel ∧ (∀ x ∈ is, Call.item f x ∈ cs) ∧
        ∀ x ∈ sel, Call.item f x ∈ cs → is.count x = sel.count x) := by
  obtain ⟨ps, e1, e2, e3⟩ := mapM_pairs hl hi sel hk
  have hgrp : ∀ f, ∃ q : I → Bool, (∀ x ∈ sel, q x = true ↔ Call.item f x ∈ cs) ∧
      (ps.filter (fun p => decide (p.1 = f))).map Prod.snd = sel.filter q := by
    intro f
    refine ⟨fun x => decide (c.getFamily x = some f), ?_, ?_⟩
    · intro x _
      rw [decide_eq_true_eq, Closet.getFamily, hi, lookup_index hl.1]
    · rw [← e2, List.filter_map]
      congr 1
      apply List.filter_congr
      intro p hp
      simp only [Function.comp]
      congr 1
      rw [eq_iff_iff, Closet.getFamily, hi, lookup_index hl.1]
      constructor
      · rintro rfl; exact e3 p hp
      · intro h; exact hl.1 _ _ _ (e3 p hp) h
  have hmem : ∀ f is, (f, is) ∈ (groupPush ps).filter (fun e => decide (1 < e.2.length)) ↔
      2 ≤ is.length ∧ is.Sublist sel ∧ (∀ x ∈ is, Call.item f x ∈ cs) ∧
        ∀ x ∈ sel, Call.item f x ∈ cs → is.count x = sel.count x := by
    intro f is
    obtain ⟨q, hq1, hq2⟩ := hgrp f
    rw [List.mem_filter, mem_groupPush, decide_eq_true_eq, hq2]
    constructor
    · rintro ⟨⟨_, rfl⟩, h⟩
      refine ⟨h, List.filter_sublist, fun x hx => ?_, fun x hx hf => ?_⟩
      · exact (hq1 x (List.mem_of_mem_filter hx)).1 (List.mem_filter.1 hx).2
      · exact List.count_filter ((hq1 x hx).2 hf)
    · rintro ⟨h1, h2, h3, h4⟩
      have hall : ∀ x ∈ is, q x = true := fun x hx => (hq1 x (h2.subset hx)).2 (h3 x hx)
      have hsub : is.Sublist (sel.filter q) := by
        have := h2.filter q
        rwa [List.filter_eq_self.2 hall] at this
      have heq : is = sel.filter q := by
        have hp : is.Perm (sel.filter q) := by
          rw [List.perm_iff_count]
          intro x
          by_cases hx : x ∈ sel.filter q
          · have hx' := List.mem_filter.1 hx
            rw [h4 x hx'.1 ((hq1 x hx'.1).1 hx'.2), List.count_filter hx'.2]
          · rw [List.count_eq_zero_of_not_mem hx, List.count_eq_zero_of_not_mem]
            exact fun h => hx (hsub.subset h)
        exact hsub.eq_of_length hp.length_eq
      refine ⟨⟨?_, heq⟩, h1⟩
      obtain ⟨x, hx⟩ : ∃ x, x ∈ is := by
        cases is with
        | nil => simp at h1
        | cons a l => exact ⟨a, by simp⟩
      have : x ∈ (ps.filter (fun p => decide (p.1 = f))).map Prod.snd := by rw [hq2, ← heq]; exact hx
      exact ⟨x, mem_group_items.1 this⟩
  have hclash : Clash cs sel ↔ (groupPush ps).filter (fun e => decide (1 < e.2.length)) ≠ [] := by
    constructor
    · rintro ⟨f, s, h1, h2, h3⟩ he
      obtain ⟨q, hq1, hq2⟩ := hgrp f
      have hss : s.Sublist (sel.filter q) := by
        have := h1.filter q
        rwa [List.filter_eq_self.2 (fun x hx => (hq1 x (h1.subset hx)).2 (h3 x hx))] at this
      have : (f, sel.filter q) ∈ (groupPush ps).filter (fun e => decide (1 < e.2.length)) := by
        rw [hmem]
        refine ⟨le_trans h2 hss.length_le, List.filter_sublist, fun x hx => ?_, fun x hx hf => ?_⟩
        · exact (hq1 x (List.mem_of_mem_filter hx)).1 (List.mem_filter.1 hx).2
        · exact List.count_filter ((hq1 x hx).2 hf)
      rw [he] at this; simp at this
    · intro hne
      obtain ⟨⟨f, is⟩, hm⟩ := List.exists_mem_of_ne_nil _ hne
      obtain ⟨h1, h2, h3, _⟩ := (hmem f is).1 hm
      exact ⟨f, is, h2, h1, h3⟩
  unfold Closet.findDuplicateItems
  rw [e1]
  dsimp only
  by_cases he : (groupPush ps).filter (fun e => decide (1 < e.2.length)) = []
  · left
    refine ⟨fun hc => (hclash.1 hc) he, ?_⟩
    rw [he]; rfl
  · right
    refine ⟨hclash.2 he, _, ?_, (groupPush_keysLt ps).filter _, hmem⟩
    have : (!((groupPush ps).filter (fun e => decide (1 < e.2.length))).isEmpty) = true := by
      simpa [List.isEmpty_iff] using he
    rw [if_pos this]

theorem findConflicting_eq (c : Closet I F) (sel : List I) : c.findConflictingItems sel =
    if Closet.restrictAll c.root sel = .Leaf false then some (sorted sel) else none := by
  unfold Closet.findConflictingItems
  split
  · next e => rw [if_pos e]
  · next h => rw [if_neg (fun e => h e)]

/-- The full behaviour of `complete_outfit` on a closet reached by selecting `xs` (no call panics):
exactly one of the four outcomes, decided by the selections alone.  The completed list is sorted,
duplicate free, contains the selections, is an outfit together with `xs`, and contains an item of
`xs` only if it is among the selections passed to the call. -/
theorem complete_general (cs : List (Call I F)) (xs : List I) (c : Closet I F)
    (h : Reached cs xs c) (sel : List I) :
    ((∃ x ∈ sel, ¬ Known cs x) ∧ ∃ u, c.completeOutfit sel = some (.error (.UnknownItems u)) ∧
      u.Sublist sel ∧ (∀ x, x ∈ u ↔ x ∈ sel ∧ ¬ Known cs x) ∧
      ∀ x, ¬ Known cs x → u.count x = sel.count x) ∨
    ((∀ x ∈ sel, Known cs x) ∧ Clash cs sel ∧
      ∃ m, c.completeOutfit sel = some (.error (.MultipleItemsPerFamily m)) ∧ KeysLt m ∧
        ∀ f is, (f, is) ∈ m ↔ 2 ≤ is.length ∧ is.Sublist sel ∧ (∀ x ∈ is, Call.item f x ∈ cs) ∧
          ∀ x ∈ sel, Call.item f x ∈ cs → is.count x = sel.count x) ∨
    ((∀ x ∈ sel, Known cs x) ∧ ¬ Clash cs sel ∧
      (¬ ∃ w, Outfit cs w ∧ (∀ x ∈ xs, x ∈ w) ∧ ∀ x ∈ sel, x ∈ w) ∧
      ∃ u, c.completeOutfit sel = some (.error (.IncompatibleSelections u)) ∧ u.Perm sel ∧
        u.Pairwise (· ≤ ·)) ∨
    ((∀ x ∈ sel, Known cs x) ∧ ¬ Clash cs sel ∧
      (∃ w, Outfit cs w ∧ (∀ x ∈ xs, x ∈ w) ∧ ∀ x ∈ sel, x ∈ w) ∧
      ∃ o, c.completeOutfit sel = some (.ok o) ∧ o.Pairwise (· < ·) ∧ (∀ x ∈ sel, x ∈ o) ∧
        Outfit cs (xs.toFinset ∪ o.toFinset) ∧ ∀ x ∈ xs, x ∈ o → x ∈ sel) := by
  obtain ⟨hl, h1, h2, _⟩ := h.state
  obtain ⟨hu1, hu2⟩ := findUnknown_eq h1.index sel
  unfold Closet.completeOutfit
  cases hu : c.findUnknownItems sel with
  | some u =>
    left
    obtain ⟨a, b, d, e⟩ := hu2 u hu
    obtain ⟨x, hx⟩ := List.exists_mem_of_ne_nil _ a
    exact ⟨⟨x, ((d x).1 hx).1, ((d x).1 hx).2⟩, u, rfl, b, d, e⟩
  | none =>
    right
    have hk := hu1.1 hu
    rcases findDuplicate_eq hl h1.index sel hk with ⟨hc, e⟩ | ⟨hc, m, e, hm1, hm2⟩
    · right
      have hst := h1.forget sel
      have hk2 : ∀ x ∈ xs ++ sel, Known cs x := by
        intro x hx
        rcases List.mem_append.1 hx with hx | hx
        · exact h2 x hx
        · exact hk x hx
      have hsat := hst.sat_iff hk2
      dsimp only at hsat
      have hsat' : Closet.restrictAll c.root sel ≠ .Leaf false ↔
          ∃ w, Outfit cs w ∧ (∀ x ∈ xs, x ∈ w) ∧ ∀ x ∈ sel, x ∈ w := by
        rw [hsat]
        simp only [List.mem_append, or_imp, forall_and]
      rw [e]
      simp only [findConflicting_eq]
      by_cases hf : Closet.restrictAll c.root sel = .Leaf false
      · left
        rw [if_pos hf]
        refine ⟨hk, hc, fun hw => (hsat'.2 hw) hf, _, rfl, sorted_perm sel, pairwise_sorted sel⟩
      · right
        rw [if_neg hf]
        obtain ⟨p, hp, hw⟩ := walk_spec hst.good.2 hf sel
        obtain ⟨hp1, hp2⟩ := (hst.sol_iff hk2 p).1 hp
        refine ⟨hk, hc, hsat'.1 hf, _, rfl, ?_, ?_, ?_, ?_⟩
        · rw [hw]
          apply sorted_lt_of_nodup
          rw [List.nodup_append]
          refine ⟨?_, nodup_of_lt ((free_lt _ _).sublist hp1), ?_⟩
          · by_contra hnd
            rw [List.nodup_iff_sublist] at hnd
            simp only [not_forall, not_not] at hnd
            obtain ⟨a, ha⟩ := hnd
            obtain ⟨f, hf⟩ := hk a (ha.subset (by simp))
            exact hc ⟨f, [a, a], ha, by simp, by simpa using hf⟩
          · rintro a ha b hb rfl
            exact (mem_free.1 (hp1.subset hb)).2 (by simp [ha])
        · intro x hx; rw [hw, mem_sorted]; simp [hx]
        · rw [hw]
          have : xs.toFinset ∪ (sorted (sel ++ p)).toFinset = (xs ++ sel).toFinset ∪ p.toFinset := by
            ext i
            simp only [Finset.mem_union, List.mem_toFinset, mem_sorted, List.mem_append, or_assoc]
          rw [this]; exact hp2
        · intro x hx hxo
          rw [hw, mem_sorted, List.mem_append] at hxo
          rcases hxo with hxo | hxo
          · exact hxo
          · exact absurd (mem_free.1 (hp1.subset hxo)).2 (by simp [hx])
    · left
      rw [e]
      exact ⟨hk, hc, m, rfl, hm1, hm2⟩

/-- Reached closets exist, so the claim is about something; which of the four cases holds depends on `sel`. -/
example : ∃ c, Reached demo [4, 1] c ∧ ∃ o, c.completeOutfit [4, 1] = some (.ok o) := by
  obtain ⟨c, hc⟩ := demo_reached
  refine ⟨c, hc, ?_⟩
  have hk : ∀ x ∈ [4, 1], Known demo x := by intro x hx; simp at hx; rw [demo_known]; omega
  have hn : ¬ Clash demo [4, 1] := by
    rintro ⟨f, s, h1, h2, h3⟩
    have hs : s = [4, 1] := h1.eq_of_length_le (by simpa using h2)
    subst hs
    have a := h3 4 (by simp)
    have b := h3 1 (by simp)
    simp [demo] at a b
    omega
  rcases complete_general demo _ c hc [4, 1] with ⟨⟨x, hx, h⟩, _⟩ | ⟨_, h, _⟩ | ⟨_, _, h, _⟩ | ⟨_, _, _, o, ho, _⟩
  · exact absurd (hk x hx) h
  · exact absurd h hn
  · exact absurd ⟨_, demo_outfit, by simp, by simp⟩ h
  · exact ⟨o, ho⟩

/-- C43: on a freshly built closet `complete_outfit` never panics; it succeeds iff all selections are
known, no two of them share a family and some outfit contains them all; its result is then a sorted
outfit containing the selections.  (The exact errors are in `complete_general` with `xs = []`.) -/
theorem complete_exact (cs : List (Call I F)) (c : Closet I F)
    (h : (ClosetBuilder.run cs).build = .ok c) (sel : List I) :
    (∃ r, c.completeOutfit sel = some r) ∧
    ((∃ o, c.completeOutfit sel = some (.ok o)) ↔
      (∀ x ∈ sel, Known cs x) ∧ ¬ Clash cs sel ∧ ∃ w, Outfit cs w ∧ ∀ x ∈ sel, x ∈ w) ∧
    ∀ o, c.completeOutfit sel = some (.ok o) →
      o.Pairwise (· < ·) ∧ (∀ x ∈ sel, x ∈ o) ∧ Outfit cs o.toFinset := by
  have hr : Reached cs [] c := ⟨c, h, rfl⟩
  rcases complete_general cs [] c hr sel with
    ⟨⟨x, hx, hn⟩, u, e, _⟩ | ⟨hk, hc, m, e, _⟩ | ⟨hk, hc, hw, u, e, _⟩ | ⟨hk, hc, hw, o, e, ho⟩
  · refine ⟨⟨_, e⟩, ⟨fun ⟨o, ho⟩ => by (rw [e] at ho; cases ho), fun hh => absurd (hh.1 x hx) hn⟩,
      fun o ho => by rw [e] at ho; cases ho⟩
  · refine ⟨⟨_, e⟩, ⟨fun ⟨o, ho⟩ => by (rw [e] at ho; cases ho), fun hh => absurd hc hh.2.1⟩,
      fun o ho => by rw [e] at ho; cases ho⟩
  · refine ⟨⟨_, e⟩, ⟨fun ⟨o, ho⟩ => by (rw [e] at ho; cases ho), fun hh => ?_⟩,
      fun o ho => by rw [e] at ho; cases ho⟩
    obtain ⟨w, a, b⟩ := hh.2.2
    exact absurd ⟨w, a, by simp, b⟩ hw
  · refine ⟨⟨_, e⟩, ⟨fun _ => ⟨hk, hc, ?_⟩, fun _ => ⟨o, e⟩⟩, fun o' ho' => ?_⟩
    · obtain ⟨w, a, _, b⟩ := hw; exact ⟨w, a, b⟩
    · rw [e] at ho'; cases ho'
      exact ⟨ho.1, ho.2.1, by simpa using ho.2.2.1⟩

/-- The demo closet can be completed from `[1]`. -/
example : ∃ c o, (ClosetBuilder.run demo).build = .ok c ∧ c.completeOutfit [1] = some (.ok o) := by
  obtain ⟨c, hc⟩ := (build_validates demo).1.1 demo_legal
  obtain ⟨o, ho⟩ := (complete_exact demo c hc [1]).2.1.2 ⟨fun x hx => demo_outfit.known x (by
    simp at hx; simp [hx]), by
      rintro ⟨f, s, h1, h2, _⟩
      have := h1.length_le
      simp at this; omega, _, demo_outfit, by simp⟩
  exact ⟨c, o, hc, ho⟩

/-- C44 is false of the code: after selecting item 1, completing with no further selections succeeds
with a list that lacks item 1 and is not an outfit. -/
theorem complete_after_select_wrong :
    ∃ (cs : List (Call Nat Nat)) (c : Closet Nat Nat) (o : List Nat), Reached cs [1] c ∧
      (∃ w, Outfit cs w) ∧ c.completeOutfit [] = some (.ok o) ∧ 1 ∉ o ∧ ¬ Outfit cs o.toFinset := by
  obtain ⟨c, hc⟩ := (select_all_ok_iff demo demo_legal ⟨_, demo_outfit⟩ [1]).2
    ⟨_, demo_outfit, by simp⟩
  rcases complete_general demo [1] c hc [] with
    ⟨⟨x, hx, _⟩, _⟩ | ⟨_, ⟨f, s, h1, h2, _⟩, _⟩ | ⟨_, _, hw, _⟩ | ⟨_, _, _, o, e, _, _, ho, hx⟩
  · simp at hx
  · have : s.length ≤ 0 := h1.length_le
    omega
  · exact absurd ⟨_, demo_outfit, by simp, by simp⟩ hw
  · have h1 : 1 ∉ o := fun h => by simpa using hx 1 (by simp) h
    refine ⟨demo, c, o, hc, ⟨_, demo_outfit⟩, e, h1, fun hout => ?_⟩
    obtain ⟨j, ⟨hj1, hj2⟩, _⟩ := hout.accepts.one 0 1 (by simp [demo])
    obtain ⟨k, ⟨hk1, hk2⟩, hku⟩ := ho.accepts.one 0 1 (by simp [demo])
    have e1 := hku 1 ⟨by simp [demo], by simp⟩
    have e2 := hku j ⟨hj1, by simp at hj2 ⊢; exact Or.inr hj2⟩
    rw [List.mem_toFinset] at hj2
    exact h1 (by rw [e1, ← e2]; exact hj2)

/-- What does hold after selecting `xs` (partial C44; missing: the returned list need not contain
`xs`): the completion together with `xs` is an outfit; it is missing exactly the selections not
repeated in the call; and it is a full outfit exactly if all of them are repeated. -/
theorem complete_after_select_partial (cs : List (Call I F)) (xs : List I) (c : Closet I F)
    (h : Reached cs xs c) (sel o : List I) (ho : c.completeOutfit sel = some (.ok o)) :
    Outfit cs (xs.toFinset ∪ o.toFinset) ∧ (∀ x ∈ xs, x ∈ o ↔ x ∈ sel) ∧
      ((∀ x ∈ xs, x ∈ sel) ↔ Outfit cs o.toFinset) := by
  rcases complete_general cs xs c h sel with
    ⟨_, u, e, _⟩ | ⟨hk, hc, m, e, _⟩ | ⟨hk, hc, hw, u, e, _⟩ | ⟨hk, hc, hw, o', e, _, h1, h2, h3⟩
  · rw [e] at ho; cases ho
  · rw [e] at ho; cases ho
  · rw [e] at ho; cases ho
  · rw [e] at ho; cases ho
    refine ⟨h2, fun x hx => ⟨h3 x hx, h1 x⟩, fun hh => ?_, fun hh x hx => ?_⟩
    rotate_left
    · have hxm : x ∈ xs.toFinset ∪ o.toFinset := by simp [hx]
      obtain ⟨f, hf⟩ := h2.known x hxm
      obtain ⟨j, ⟨hj, hjo⟩, _⟩ := hh.accepts.one f x hf
      have : x = j := (h2.accepts.one f x hf).unique ⟨hf, hxm⟩ ⟨hj, by simp at hjo; simp [hjo]⟩
      subst this
      exact h3 x hx (by simpa using hjo)
    have : xs.toFinset ∪ o.toFinset = o.toFinset := by
      ext i
      simp only [Finset.mem_union, List.mem_toFinset]
      exact ⟨fun hi => hi.elim (fun hi => h1 i (hh i hi)) id, Or.inr⟩
    rwa [this] at h2

/-! ## C45: counting outfits -/

/-- `outfit_count()` is the number of valid outfits containing the selections made so far. -/
theorem outfit_count_exact (cs : List (Call I F)) (xs : List I) (c : Closet I F)
    (h : Reached cs xs c) :
    ∃ L : Finset (Finset I), (∀ w, w ∈ L ↔ Outfit cs w ∧ ∀ x ∈ xs, x ∈ w) ∧
      c.root.outfitCount = L.card := by
  obtain ⟨_, h1, h2, _⟩ := h.state
  have hnd := h1.lvl.sols_nodup (free_lt cs xs)
  refine ⟨(c.root.sols.map (fun p => xs.toFinset ∪ p.toFinset)).toFinset, fun w => ?_, ?_⟩
  · simp only [List.mem_toFinset, List.mem_map]
    constructor
    · rintro ⟨p, hp, rfl⟩
      exact ⟨((h1.sol_iff h2 p).1 hp).2, fun x hx => by simp [hx]⟩
    · rintro ⟨ho, hx⟩
      exact ⟨_, h1.rest_mem h2 ho hx, rest_spec ho hx⟩
  · rw [← length_sols, List.toFinset_card_of_nodup, List.length_map]
    refine List.Nodup.map_on ?_ hnd
    intro p hp q hq e
    have hs : ∀ p ∈ c.root.sols, ∀ i, i ∈ p ↔ i ∈ xs.toFinset ∪ p.toFinset ∧ i ∉ xs := by
      intro p hp i
      simp only [Finset.mem_union, List.mem_toFinset]
      constructor
      · intro hi
        exact ⟨Or.inr hi, (mem_free.1 ((h1.lvl.sol_sublist hp).subset hi)).2⟩
      · rintro ⟨hi | hi, hn⟩
        · exact absurd hi hn
        · exact hi
    apply lt_ext ((free_lt cs xs).sublist (h1.lvl.sol_sublist hp))
      ((free_lt cs xs).sublist (h1.lvl.sol_sublist hq))
    intro i
    rw [hs p hp, hs q hq, e]

/-! ## C46: serialization -/

/-- A closet built by the builder, or obtained from one by selections, is read back unchanged. -/
theorem closet_roundtrip (cs : List (Call I F)) (xs : List I) (c : Closet I F)
    (h : Reached cs xs c) : deserializeCloset (serializeCloset c) = some c := by
  have := roundtrip_of_lvl h.state.2.1.lvl
  simp [deserializeCloset, serializeCloset, this]

/-- The restriction to closets matters: the node serialization keeps one item per depth, so an
ordered reduced node whose branches test different items at the same depth is read back as another
node (for instance the multiplexer `if 1 then 3 else 2`). -/
theorem node_roundtrip_wrong :
    ∃ n m : Node Nat, n.Ordered ∧ n.Reduced ∧ deserializeNode (serializeNode n) = some m ∧ m ≠ n := by
  refine ⟨.Branch 1 (.Branch 2 (.Leaf false) (.Leaf true)) (.Branch 3 (.Leaf false) (.Leaf true)),
    .Branch 1 (.Branch 3 (.Leaf false) (.Leaf true)) (.Branch 3 (.Leaf false) (.Leaf true)),
    ?_, ?_, by decide, by decide⟩
  · simp [Ordered, Above]
  · simp [Reduced]

/-! ## C48: restrict -/

/-- Restricting an ordered node to `x = v` denotes the function with `x` fixed to `v`; the result does
not mention `x`; restrictions of different items commute (as nodes, if reduced). -/
theorem restrict_cofactor (n : Node I) (ho : n.Ordered) (x : I) (v : Bool) :
    (∀ σ, (restrict n x v).eval σ = n.eval (Function.update σ x v)) ∧
    ¬ (restrict n x v).Mentions x ∧
    (∀ y w, x ≠ y → ∀ σ, (restrict (restrict n x v) y w).eval σ =
      (restrict (restrict n y w) x v).eval σ) ∧
    (n.Reduced → ∀ y w, x ≠ y → restrict (restrict n x v) y w = restrict (restrict n y w) x v) := by
  have hc : ∀ y w, x ≠ y → ∀ σ, (restrict (restrict n x v) y w).eval σ =
      (restrict (restrict n y w) x v).eval σ := by
    intro y w hxy σ
    rw [eval_restrict (ordered_restrict ho _ _), eval_restrict ho,
      eval_restrict (ordered_restrict ho _ _), eval_restrict ho, Function.update_comm hxy]
  refine ⟨eval_restrict ho x v, not_mentions_restrict ho x v, hc, fun hr y w hxy => ?_⟩
  exact canonical (ordered_restrict (ordered_restrict ho _ _) _ _)
    (ordered_restrict (ordered_restrict ho _ _) _ _)
    (reduced_restrict (reduced_restrict hr _ _) _ _)
    (reduced_restrict (reduced_restrict hr _ _) _ _) (hc y w hxy)

example := restrict_cofactor (bitand (positiveBranch 3) (positiveBranch 4))
  ((nodes_canonical (positiveBranch 3) (positiveBranch 4) (by simp [positiveBranch, Node.Ordered, Node.Above])
    (by simp [positiveBranch, Node.Ordered, Node.Above])).2.1) 3 true

example : andNode.Ordered ∧ andNode.Reduced := not_xor_wrong.1

/-! ## C51: categorize -/

/-- `categorize` groups the given items, in order and with repetition, under their families; items of
no family go under the "unknown" family; no item is lost and no empty group appears. -/
theorem categorize_exact (cs : List (Call I F)) (xs : List I) (c : Closet I F)
    (h : Reached cs xs c) (unknown : F) (items : List I) :
    KeysLt (c.categorize unknown items) ∧
    (∀ f is, (f, is) ∈ c.categorize unknown items →
      is ≠ [] ∧ is.Sublist items ∧
      ∀ i ∈ is, Call.item f i ∈ cs ∨ (¬ Known cs i ∧ f = unknown)) ∧
    (∀ i ∈ items, ∃! f, ∃ is, (f, is) ∈ c.categorize unknown items ∧ i ∈ is) ∧
    (∀ f is i, (f, is) ∈ c.categorize unknown items → i ∈ is → is.count i = items.count i) := by
  obtain ⟨hl, h1, _⟩ := h.state
  have hfam : ∀ i f, (c.getFamily i).getD unknown = f ↔
      Call.item f i ∈ cs ∨ (¬ Known cs i ∧ f = unknown) := by
    intro i f
    rw [Closet.getFamily, h1.index]
    cases e : lookup i (indexOf (itemPairs cs)) with
    | none =>
      have hn := lookup_index_none.1 e
      simp only [Option.getD_none, hn, not_false_eq_true, true_and]
      constructor
      · intro e; exact Or.inr e.symm
      · rintro (hf | hf)
        · exact absurd ⟨f, hf⟩ hn
        · exact hf.symm
    | some g =>
      have hg := lookup_index_some e
      simp only [Option.getD_some]
      constructor
      · rintro rfl; exact Or.inl hg
      · rintro (hf | ⟨hf, _⟩)
        · exact hl.1 _ _ _ hg hf
        · exact absurd ⟨g, hg⟩ hf
  have hmem : ∀ f is, (f, is) ∈ c.categorize unknown items ↔
      is ≠ [] ∧ is = items.filter (fun i => decide ((c.getFamily i).getD unknown = f)) := by
    intro f is
    rw [Closet.categorize, mem_groupPush]
    have e : ((items.map (fun item => ((c.getFamily item).getD unknown, item))).filter
        (fun p => decide (p.1 = f))).map Prod.snd =
        items.filter (fun i => decide ((c.getFamily i).getD unknown = f)) := by
      rw [List.filter_map, List.map_map]
      have : Prod.snd ∘ (fun item => ((c.getFamily item).getD unknown, item)) = id := rfl
      rw [this, List.map_id]; rfl
    rw [e]
    constructor
    · rintro ⟨⟨i, hi⟩, rfl⟩
      refine ⟨?_, rfl⟩
      obtain ⟨j, hj, e⟩ := List.mem_map.1 hi
      cases e
      exact List.ne_nil_of_mem (List.mem_filter.2 ⟨hj, by simp⟩)
    · rintro ⟨hne, rfl⟩
      refine ⟨?_, rfl⟩
      obtain ⟨i, hi⟩ := List.exists_mem_of_ne_nil _ hne
      rw [List.mem_filter, decide_eq_true_eq] at hi
      exact ⟨i, List.mem_map.2 ⟨i, hi.1, by rw [hi.2]⟩⟩
  refine ⟨groupPush_keysLt _, ?_, ?_, ?_⟩
  · intro f is hm
    obtain ⟨hne, rfl⟩ := (hmem f is).1 hm
    refine ⟨hne, List.filter_sublist, fun i hi => ?_⟩
    rw [List.mem_filter, decide_eq_true_eq] at hi
    exact (hfam i f).1 hi.2
  · intro i hi
    refine ⟨(c.getFamily i).getD unknown, ⟨_, (hmem _ _).2 ⟨?_, rfl⟩, ?_⟩, ?_⟩
    · exact List.ne_nil_of_mem (a := i) (List.mem_filter.2 ⟨hi, by simp⟩)
    · exact List.mem_filter.2 ⟨hi, by simp⟩
    · rintro f ⟨is, hm, hii⟩
      obtain ⟨_, rfl⟩ := (hmem f is).1 hm
      rw [List.mem_filter, decide_eq_true_eq] at hii
      exact hii.2.symm
  · intro f is i hm hi
    obtain ⟨_, rfl⟩ := (hmem f is).1 hm
    exact List.count_filter (List.mem_filter.1 hi).2

example : ∃ c, Reached demo [4, 1] c ∧ KeysLt (c.categorize 9 [4, 1, 7, 2]) := by
  obtain ⟨c, hc⟩ := demo_reached
  exact ⟨c, hc, (categorize_exact demo _ c hc 9 [4, 1, 7, 2]).1⟩

/-! ## C53: hash_structure -/

/-- Renaming items.  Not code: used to state or prove properties. -/
def Node.rename {J : Type w} (g : I → J) : Node I → Node J
  | .Leaf b => .Leaf b
  | .Branch i l h => .Branch (g i) (l.rename g) (h.rename g)

/-- `hash_structure` depends only on the shape of the diagram, never on item names; and if the
underlying hasher has no collisions on the inputs used, equal hashes mean equal shapes. -/
theorem hash_structure_shape {H : Type v} (leaf : Bool → H) (pair : H → H → H) :
    (∀ (n : Node I) (g : I → I), hashStructure leaf pair (n.rename g) = hashStructure leaf pair n) ∧
    ((∀ a b, leaf a = leaf b → a = b) → (∀ a b a' b', pair a b = pair a' b' → a = a' ∧ b = b') →
      (∀ a b c, leaf a ≠ pair b c) →
      ∀ n m : Node I, hashStructure leaf pair n = hashStructure leaf pair m ↔
        n.rename (fun _ => ()) = m.rename (fun _ => ())) := by
  constructor
  · intro n g
    induction n with
    | Leaf b => rfl
    | Branch i l h ihl ihh => simp only [rename, hashStructure, ihl, ihh]
  · intro h1 h2 h3 n
    induction n with
    | Leaf b =>
      intro m
      cases m with
      | Leaf b' => simp only [hashStructure, rename, Node.Leaf.injEq]; exact ⟨h1 b b', fun e => by rw [e]⟩
      | Branch i l h => simp only [hashStructure, rename]; exact ⟨fun e => absurd e (h3 _ _ _), fun e => by cases e⟩
    | Branch i l h ihl ihh =>
      intro m
      cases m with
      | Leaf b' => simp only [hashStructure, rename]; exact ⟨fun e => absurd e.symm (h3 _ _ _), fun e => by cases e⟩
      | Branch j l' h' =>
        simp only [hashStructure, rename, Node.Branch.injEq, true_and]
        rw [← ihl l', ← ihh h']
        exact ⟨h2 _ _ _ _, fun e => by rw [e.1, e.2]⟩

/-! ## C54: node counts and depth -/

theorem counts (n : Node I) : n.nodeCount + 1 = 2 * n.leafCount ∧ n.outfitCount ≤ n.leafCount := by
  induction n with
  | Leaf b => cases b <;> simp [nodeCount, leafCount, outfitCount]
  | Branch i l h ihl ihh =>
    simp only [nodeCount, leafCount, outfitCount]; omega

theorem lvl_depth {S : List I} {n : Node I} (h : Lvl S n) (hr : n.Reduced) (hn : n ≠ .Leaf false) :
    n.depth = S.length + 1 := by
  have hle : ∀ {S : List I} {n : Node I}, Lvl S n → n.depth ≤ S.length + 1 := by
    intro S n h
    induction n generalizing S with
    | Leaf b => simp [depth]
    | Branch i l h' ihl ihh =>
      cases S with
      | nil => exact h.elim
      | cons x s =>
        have h1 := ihl h.2.1
        have h2 := ihh h.2.2
        simp only [depth, List.length_cons]
        split_ifs <;> omega
  induction n generalizing S with
  | Leaf b =>
    cases b with
    | false => exact absurd rfl hn
    | true => cases S with
      | nil => rfl
      | cons x s => exact h.elim
  | Branch i l h' ihl ihh =>
    cases S with
    | nil => exact h.elim
    | cons x s =>
      obtain ⟨_, h1, h2⟩ := h
      have a1 := hle h1
      have a2 := hle h2
      simp only [depth, List.length_cons]
      by_cases hl : l = .Leaf false
      · have hh : h' ≠ .Leaf false := fun e => hr.1 (hl.trans e.symm)
        have := ihh h2 hr.2.2 hh
        split_ifs <;> omega
      · have := ihl h1 hr.2.1 hl
        split_ifs <;> omega

/-- The depth of a satisfiable closet is the number of known unselected items plus one; a diagram
with `l` leaf paths has `2 l - 1` nodes along its paths, at most `l` of them outfits. -/
theorem closet_counts (cs : List (Call I F)) (xs : List I) (c : Closet I F) (h : Reached cs xs c) :
    c.root.nodeCount + 1 = 2 * c.root.leafCount ∧ c.root.outfitCount ≤ c.root.leafCount ∧
    ((∃ w, Outfit cs w) → ∃ S : Finset I, (∀ i, i ∈ S ↔ Known cs i ∧ i ∉ xs) ∧
      c.root.depth = S.card + 1) := by
  obtain ⟨_, h1, h2, h3⟩ := h.state
  refine ⟨(counts _).1, (counts _).2, fun hs => ⟨(free cs xs).toFinset, fun i => ?_, ?_⟩⟩
  · rw [List.mem_toFinset, mem_free]
  · rw [List.toFinset_card_of_nodup (nodup_of_lt (free_lt cs xs))]
    exact lvl_depth h1.lvl h1.good.2 ((h1.sat_iff h2).2 (h3 hs))

example : ∃ c, Reached demo [4, 1] c ∧ c.root.nodeCount + 1 = 2 * c.root.leafCount := by
  obtain ⟨c, hc⟩ := demo_reached
  exact ⟨c, hc, (closet_counts demo _ c hc).1⟩

end Verif.Bdd
