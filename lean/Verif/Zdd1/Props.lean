import Verif.Zdd1.TreeLemmas

/-!
# Properties of weave/src/zdd (C29–C34, C59, C60)

Everything is stated about what a user sees: `combinations()` is a list of lists, and `family` of it is
the set of sets it lists.
-/

set_option linter.unusedSimpArgs false
set_option linter.unusedSectionVars false
set_option linter.unusedVariables false

namespace Verif.Zdd1
open Verif Verif.Weave Verif.Spec

universe u
variable {T : Type u} [LinearOrder T]

/-- The trees a program can make over one universe built from a list of items.  `P` restricts the lists
given to `tree` and `hyper_tree`; `fun _ => True` allows all lists.  Not code: used to state or prove properties. -/
inductive Built (P : List T → Prop) (items : List T) : Tree T → Prop
  | empty : Built P items (Universe.fromVec items).emptyTree
  | unit : Built P items (Universe.fromVec items).unitTree
  | tree {c} : P c → Built P items ((Universe.fromVec items).tree c)
  | unique (xs) : Built P items ((Universe.fromVec items).uniqueTree xs)
  | hyper {cs} : (∀ c ∈ cs, P c) → Built P items ((Universe.fromVec items).hyperTree cs)
  | union {a b} : Built P items a → Built P items b → Built P items (a.union b)
  | intersect {a b} : Built P items a → Built P items b → Built P items (a.intersect b)
  | product {a b} : Built P items a → Built P items b → Built P items (a.product b)
  | restrict {a} (inc exc) : Built P items a → Built P items (a.restrict inc exc)

/-! ## C29 construction -/

/-- C29: `tree(c)` has one combination: the known items of `c`.  No condition on the universe (it may
list an item twice) nor on `c` (it may repeat items or contain unknown ones). -/
theorem tree_exact (items c : List T) :
    family ((Universe.fromVec items).tree c).combinations = {(c.filter (fun x => x ∈ items)).toFinset} := by
  ext A
  rw [Tree.mem_combinations]
  simp only [den_tree, exists_eq_left, Set.mem_singleton_iff]
  rw [show ((Universe.fromVec items).tree c).univ = Universe.fromVec items from rfl, itemsOf_lookup]

/-- C29: `hyper_tree(cs)` has exactly the given combinations, each cut down to the known items. -/
theorem hyper_tree_exact (items : List T) (cs : List (List T)) :
    family ((Universe.fromVec items).hyperTree cs).combinations =
      {A | ∃ c ∈ cs, A = (c.filter (fun x => x ∈ items)).toFinset} := by
  ext A
  rw [Tree.mem_combinations, Universe.hyperTree, univ_foldUnion]
  simp only [den_foldUnion, Universe.emptyTree, Node.mem_false, false_or, List.mem_map]
  constructor
  · rintro ⟨s, ⟨_, ⟨c, hc, rfl⟩, hs⟩, rfl⟩
    rw [den_tree] at hs
    subst hs
    exact ⟨c, hc, itemsOf_lookup _ _⟩
  · rintro ⟨c, hc, rfl⟩
    exact ⟨_, ⟨_, ⟨c, hc, rfl⟩, (den_tree _ _ _).mpr rfl⟩, (itemsOf_lookup _ _).symm⟩

/-- C29: `unique_tree(xs)` has one single-item combination per known item, and the empty combination
exactly if some item is unknown. -/
theorem unique_tree_exact (items xs : List T) :
    family ((Universe.fromVec items).uniqueTree xs).combinations =
      {A | ∃ x ∈ xs, A = if x ∈ items then {x} else ∅} := by
  have : (Universe.fromVec items).uniqueTree xs = (Universe.fromVec items).hyperTree (xs.map (fun x => [x])) := by
    simp [Universe.uniqueTree, Universe.hyperTree, Function.comp_def]
  rw [this, hyper_tree_exact]
  ext A
  simp only [Set.mem_ofPred_eq, List.mem_map, exists_exists_and_eq_and]
  refine exists_congr fun x => and_congr_right fun _ => ?_
  by_cases h : x ∈ items <;> simp [h]

/-- C29: the empty tree has no combination, the unit tree has the empty one. -/
theorem empty_unit_exact (items : List T) :
    family (Universe.fromVec items).emptyTree.combinations = ∅ ∧
    family (Universe.fromVec items).unitTree.combinations = {∅} := by
  constructor
  · ext A; rw [Tree.mem_combinations]; simp [Universe.emptyTree, Node.mem_false]
  · ext A
    rw [Tree.mem_combinations]
    simp only [Universe.unitTree, Node.mem_true, exists_eq_left, Set.mem_singleton_iff]
    rfl

/-- C29: `combinations()` is a sorted listing without repetitions of sorted listings without
repetitions, and the recursive and the iterative enumeration return the same value, for every tree. -/
theorem combinations_listing (t : Tree T) :
    t.combinations.Pairwise (· < ·) ∧ (∀ c ∈ t.combinations, c.Pairwise (· < ·)) ∧
    t.combinationsRecursive = t.combinations := by
  refine ⟨t.combinations_lt, t.combinations_mem_lt, ?_⟩
  rw [Tree.combinationsRecursive, Tree.combinations, filterRepeats_eq_iff]
  intro c
  exact ((Node.combinationsRecursive_perm t.root).map _).mem_iff

/-- C29: order and repetition of the combinations given to `hyper_tree` do not show. -/
theorem hyper_tree_order (items : List T) {cs ds : List (List T)}
    (h : ∀ A : Finset T, (∃ c ∈ cs, c.toFinset = A) ↔ ∃ d ∈ ds, d.toFinset = A) :
    ((Universe.fromVec items).hyperTree cs).combinations = ((Universe.fromVec items).hyperTree ds).combinations := by
  refine listing_ext (Tree.combinations_lt _) (Tree.combinations_lt _) (Tree.combinations_mem_lt _)
    (Tree.combinations_mem_lt _) ?_
  rw [hyper_tree_exact, hyper_tree_exact]
  have key : ∀ cs ds : List (List T), (∀ A : Finset T, (∃ c ∈ cs, c.toFinset = A) → ∃ d ∈ ds, d.toFinset = A) →
      ∀ A : Finset T, (∃ c ∈ cs, A = (c.filter (fun x => x ∈ items)).toFinset) →
        ∃ d ∈ ds, A = (d.filter (fun x => x ∈ items)).toFinset := by
    rintro cs ds h A ⟨c, hc, rfl⟩
    obtain ⟨d, hd, e⟩ := h _ ⟨c, hc, rfl⟩
    refine ⟨d, hd, ?_⟩
    ext x
    have : x ∈ d ↔ x ∈ c := by simpa using Finset.ext_iff.mp e x
    simp [this]
  ext A
  exact ⟨key cs ds (fun A => (h A).mp) A, key ds cs (fun A => (h A).mpr) A⟩

example := hyper_tree_order [1, 2, 3] (cs := [[1, 2], [3]]) (ds := [[3], [2, 1], [1, 2, 1]]) (by
  intro A
  simp only [List.mem_cons, List.not_mem_nil, or_false, exists_eq_or_imp, exists_eq_left]
  constructor
  · rintro (rfl | rfl) <;> decide
  · rintro (rfl | rfl | rfl) <;> decide)

/-! ## C30 union -/

theorem Built.univ_eq {P : List T → Prop} {items : List T} {t : Tree T} (h : Built P items t) :
    t.univ = Universe.fromVec items := by
  induction h with
  | empty | unit | tree => rfl
  | unique => exact univ_foldUnion _ _
  | hyper => exact univ_foldUnion _ _
  | union _ _ ih _ => exact ih
  | intersect _ _ ih _ => exact ih
  | product _ _ ih _ => exact ih
  | restrict inc exc _ ih => rw [Tree.restrict, ih]; exact univ_foldUnion _ _

/-- C30: the combinations of a union are exactly those of the operands. -/
theorem union_exact {a b : Tree T} (h : a.univ = b.univ) :
    family (a.union b).combinations = family a.combinations ∪ family b.combinations := by
  ext A
  rw [Set.mem_union, Tree.mem_combinations, Tree.mem_combinations, Tree.mem_combinations, ← h]
  simp only [Tree.union, Node.mem_union]
  constructor
  · rintro ⟨s, hs | hs, rfl⟩
    · exact Or.inl ⟨s, hs, rfl⟩
    · exact Or.inr ⟨s, hs, rfl⟩
  · rintro (⟨s, hs, rfl⟩ | ⟨s, hs, rfl⟩)
    · exact ⟨s, Or.inl hs, rfl⟩
    · exact ⟨s, Or.inr hs, rfl⟩

/-- C30: every two trees over one universe are covered by `union_exact`. -/
theorem union_exact_built {items : List T} {a b : Tree T} (ha : Built (fun _ => True) items a)
    (hb : Built (fun _ => True) items b) :
    family (a.union b).combinations = family a.combinations ∪ family b.combinations :=
  union_exact (ha.univ_eq.trans hb.univ_eq.symm)

example := union_exact_built (items := [1, 2]) (.tree (c := [1, 2, 1]) trivial) (.unique [1, 2])

/-! ## C33 combinations_with and restrict -/

/-- C33: `combinations_with(inc, exc)` lists exactly the combinations with every inclusion and no
exclusion, for every tree. -/
theorem combinations_with_exact (t : Tree T) (inc exc : List T) :
    t.combinationsWith inc exc = t.combinations.filter
      (fun c => (∀ x ∈ inc, x ∈ c) ∧ (∀ x ∈ exc, x ∉ c)) := by
  refine lt_ext (filterRepeats_lt _) (t.combinations_lt.filter _) fun c => ?_
  rw [Tree.combinationsWith, Tree.combinations]
  simp only [mem_filterRepeats, List.mem_filter, List.mem_map, List.isEmpty_iff, filterRepeats_eq_nil,
    List.filter_eq_nil_iff, decide_eq_true_eq, and_assoc, filterRepeats_eq_iff]
  constructor
  · rintro ⟨hc, h1, h2⟩
    refine ⟨hc, fun x hx => ?_, fun x hx hxc => h2 x hxc (by simpa using hx)⟩
    exact ((h1 x).mpr hx).1
  · rintro ⟨hc, h1, h2⟩
    refine ⟨hc, fun x => ?_, fun x hx h => h2 x (by simpa using h) hx⟩
    exact ⟨fun h => h.2, fun h => ⟨h1 x h, h⟩⟩

theorem combinations_with_family (t : Tree T) (inc exc : List T) :
    family (t.combinationsWith inc exc) =
      {A | A ∈ family t.combinations ∧ (∀ x ∈ inc, x ∈ A) ∧ (∀ x ∈ exc, x ∉ A)} := by
  rw [combinations_with_exact]
  ext A
  constructor
  · rintro ⟨c, hc, rfl⟩
    simp only [List.mem_filter, decide_eq_true_eq] at hc
    exact ⟨⟨c, hc.1, rfl⟩, by simpa using hc.2⟩
  · rintro ⟨⟨c, hc, rfl⟩, h⟩
    exact ⟨c, by simp only [List.mem_filter, decide_eq_true_eq]; exact ⟨hc, by simpa using h⟩, rfl⟩

/-- The items of a combination are items of the universe. -/
theorem combination_listed {t : Tree T} {A : Finset T}
    (hA : A ∈ family t.combinations) {x : T} (hx : x ∈ A) : x ∈ t.univ.items := by
  rw [Tree.mem_combinations] at hA
  obtain ⟨s, hs, rfl⟩ := hA
  rw [Universe.mem_itemsOf] at hx
  obtain ⟨i, _, e⟩ := hx
  exact List.mem_of_getElem? e

theorem combination_known {items : List T} {t : Tree T} (hu : t.univ = Universe.fromVec items) {A : Finset T}
    (hA : A ∈ family t.combinations) {x : T} (hx : x ∈ A) : x ∈ items := by
  have := combination_listed hA hx
  rwa [hu] at this

/-- C33: `restrict` makes a tree with exactly the combinations `combinations_with` lists. -/
theorem restrict_exact {items : List T} {t : Tree T} (hu : t.univ = Universe.fromVec items)
    (inc exc : List T) : (t.restrict inc exc).combinations = t.combinationsWith inc exc := by
  have hlt : ∀ c ∈ t.combinationsWith inc exc, c.Pairwise (· < ·) := by
    intro c hc
    rw [combinations_with_exact, List.mem_filter] at hc
    exact t.combinations_mem_lt c hc.1
  refine listing_ext (Tree.combinations_lt _) (filterRepeats_lt _) (Tree.combinations_mem_lt _) hlt ?_
  rw [Tree.restrict, hu, hyper_tree_exact]
  ext A
  have key : ∀ c ∈ t.combinationsWith inc exc, c.filter (fun x => x ∈ items) = c := by
    intro c hc
    rw [List.filter_eq_self]
    intro x hx
    rw [combinations_with_exact, List.mem_filter] at hc
    simpa using combination_known hu (A := c.toFinset) ⟨c, hc.1, rfl⟩ (by simpa using hx)
  constructor
  · rintro ⟨c, hc, rfl⟩; exact ⟨c, hc, by rw [key c hc]⟩
  · rintro ⟨c, hc, rfl⟩; exact ⟨c, hc, by rw [key c hc]⟩

example := restrict_exact (items := [1, 2, 3, 4]) (t := (Universe.fromVec [1, 2, 3, 4]).hyperTree [[1, 2], [1, 3], [4]])
  (univ_foldUnion _ _) [1] [2]

/-- C33: restricting twice is restricting once by both. -/
theorem restrict_restrict {items : List T} {t : Tree T} (hu : t.univ = Universe.fromVec items)
    (inc exc inc' exc' : List T) :
    ((t.restrict inc exc).restrict inc' exc').combinations =
      (t.restrict (inc ++ inc') (exc ++ exc')).combinations := by
  have hu' : (t.restrict inc exc).univ = Universe.fromVec items := by
    rw [Tree.restrict, hu]; exact univ_foldUnion _ _
  rw [restrict_exact hu', restrict_exact hu, combinations_with_exact, restrict_exact hu,
    combinations_with_exact, combinations_with_exact, List.filter_filter]
  refine List.filter_congr fun c _ => ?_
  rw [Bool.eq_iff_iff]
  simp only [Bool.and_eq_true, decide_eq_true_eq, List.mem_append]
  constructor
  · rintro ⟨⟨a, b⟩, c, d⟩
    exact ⟨fun x hx => hx.elim (c x) (a x), fun x hx => hx.elim (d x) (b x)⟩
  · rintro ⟨a, b⟩
    exact ⟨⟨fun x hx => a x (Or.inr hx), fun x hx => b x (Or.inr hx)⟩,
      fun x hx => a x (Or.inl hx), fun x hx => b x (Or.inl hx)⟩

example := restrict_restrict (items := [1, 2, 3, 4]) (t := (Universe.fromVec [1, 2, 3, 4]).hyperTree [[1, 2], [1, 3], [4]])
  (univ_foldUnion _ _) [1] [] [] [2]

/-! ## C34 summarize -/

/-- The status an item should have, given the combinations that remain.
Not code: used to state or prove properties. -/
def Status (R : Set (Finset T)) (inc : List T) (x : T) (s : ItemStatus T) : Prop :=
  ((∀ A ∈ R, x ∉ A) ∧ s = .Excluded x) ∨
  ((∃ A ∈ R, x ∈ A) ∧ x ∈ inc ∧ s = .Selected x) ∨
  ((∃ A ∈ R, x ∈ A) ∧ x ∉ inc ∧ (∀ A ∈ R, x ∈ A) ∧ s = .Required x) ∨
  ((∃ A ∈ R, x ∈ A) ∧ x ∉ inc ∧ (∃ A ∈ R, x ∉ A) ∧ s = .Available x)

theorem groupCount_spec (l : List T) (h : l.Pairwise (· ≤ ·)) :
    KeysLt (groupCount l) ∧ (∀ x n, (x, n) ∈ groupCount l ↔ x ∈ l ∧ n = l.count x) ∧
      (∀ a l', l = a :: l' → ∃ n r, groupCount l = (a, n) :: r) := by
  induction l with
  | nil => exact ⟨List.Pairwise.nil, by simp [groupCount], by simp⟩
  | cons a l ih =>
    obtain ⟨i1, i2, i3⟩ := ih h.of_cons
    have hle := (List.pairwise_cons.mp h).1
    cases l with
    | nil =>
      refine ⟨by simp [groupCount, KeysLt], ?_, ?_⟩
      · intro x n
        simp only [groupCount, List.mem_singleton, Prod.mk.injEq, List.mem_cons, List.not_mem_nil, or_false]
        constructor
        · rintro ⟨rfl, rfl⟩; simp
        · rintro ⟨rfl, rfl⟩; simp
      · rintro b l' e; cases e; exact ⟨1, [], rfl⟩
    | cons b l =>
      obtain ⟨n, r, e⟩ := i3 b l rfl
      rw [groupCount, e]
      rw [e] at i1 i2
      simp only
      have hb := (i2 b n).mp (by simp)
      have hr : ∀ p ∈ r, b < p.1 := (List.pairwise_cons.mp i1).1
      split_ifs with hab
      · subst hab
        refine ⟨?_, ?_, ?_⟩
        · exact List.pairwise_cons.mpr ⟨hr, i1.of_cons⟩
        · intro x m
          have := i2 x m
          by_cases hx : x = a
          · subst hx
            simp only [List.mem_cons, Prod.mk.injEq, true_and, true_or, List.count_cons_self]
            constructor
            · rintro (rfl | hm)
              · have := hb.2; simp only [List.count_cons_self] at this; omega
              · exact absurd (hr _ hm) (lt_irrefl _)
            · intro hm
              left
              have := hb.2; simp only [List.count_cons_self] at this; omega
          · simp only [List.mem_cons, Prod.mk.injEq, hx, false_and, false_or] at this ⊢
            rw [this, List.count_cons_of_ne (Ne.symm hx), List.count_cons_of_ne (Ne.symm hx), List.count_cons_of_ne (Ne.symm hx)]
        · rintro c l' e'; cases e'; exact ⟨_, _, rfl⟩
      · have hlt : a < b := lt_of_le_of_ne (hle b (by simp)) hab
        have hna : a ∉ b :: l := by
          intro ha
          rcases List.mem_cons.mp ha with ha | ha
          · exact hab ha
          · have := (List.pairwise_cons.mp h.of_cons).1 a ha
            exact absurd (lt_of_lt_of_le hlt this) (lt_irrefl _)
        refine ⟨List.pairwise_cons.mpr ⟨?_, i1⟩, ?_, ?_⟩
        · intro p hp
          rcases List.mem_cons.mp hp with rfl | hp
          · exact hlt
          · exact hlt.trans (hr p hp)
        · intro x m
          by_cases hx : x = a
          · subst hx
            rw [List.mem_cons, i2, List.count_cons_self, List.count_eq_zero_of_not_mem hna]
            simp [hna]
          · have := i2 x m
            rw [List.mem_cons, this]
            simp only [Prod.mk.injEq, hx, false_and, false_or, List.mem_cons,
              List.count_cons_of_ne (Ne.symm hx)]
        · rintro c l' e'; cases e'; exact ⟨_, _, rfl⟩

theorem count_flatten {cs : List (List T)} (h : ∀ c ∈ cs, c.Nodup) (x : T) :
    cs.flatten.count x = cs.countP (fun c => x ∈ c) := by
  induction cs with
  | nil => rfl
  | cons c cs ih =>
    rw [List.flatten_cons, List.count_append, ih (fun d hd => h d (by simp [hd])), List.countP_cons]
    have := h c (by simp)
    by_cases hx : x ∈ c
    · rw [List.count_eq_one_of_mem this hx]; simp [hx]; omega
    · rw [List.count_eq_zero_of_not_mem hx]; simp [hx]

/-- What the count map holds. -/
theorem mem_counts_any {items : List T} {t : Tree T} (hu : t.univ.items = items)
    (inc exc : List T) (x : T) (n : Nat) :
    (x, n) ∈ t.counts inc exc ↔ x ∈ items ∧ n = (t.combinationsWith inc exc).countP (fun c => x ∈ c) := by
  have hnd : ∀ c ∈ t.combinationsWith inc exc, c.Nodup := by
    intro c hc
    rw [combinations_with_exact, List.mem_filter] at hc
    exact nodup_of_lt (t.combinations_mem_lt c hc.1)
  obtain ⟨g1, g2, -⟩ := groupCount_spec _ (pairwise_sorted (t.combinationsWith inc exc).flatten)
  have g2' : ∀ x n, (x, n) ∈ groupCount (sorted (t.combinationsWith inc exc).flatten) ↔
      x ∈ (t.combinationsWith inc exc).flatten ∧ n = (t.combinationsWith inc exc).countP (fun c => x ∈ c) := by
    intro x n
    rw [g2, mem_sorted, (sorted_perm _).count_eq, count_flatten hnd]
  have hsub : ∀ x ∈ (t.combinationsWith inc exc).flatten, x ∈ items := by
    intro x hx
    obtain ⟨c, hc, hx⟩ := List.mem_flatten.mp hx
    rw [combinations_with_exact, List.mem_filter] at hc
    exact hu ▸ combination_listed ⟨c, hc.1, rfl⟩ (by simpa using hx)
  have hk1 : KeysLt ((t.univ.items.map (fun f => (f, 0))).foldl (fun m (p : T × Nat) => insertKV p.1 p.2 m) []) :=
    keysLt_collect _ _ List.Pairwise.nil
  have hk : KeysLt (t.counts inc exc) := keysLt_collect _ _ List.Pairwise.nil
  rw [← lookup_eq_some hk, Tree.counts, List.foldl_append]
  have hitems : t.univ.items = items := hu
  by_cases hx : x ∈ (t.combinationsWith inc exc).flatten
  · have hm := (g2' x _).mpr ⟨hx, rfl⟩
    obtain ⟨v, hv, e⟩ := lookup_collect_of_mem (groupCount (sorted (t.combinationsWith inc exc).flatten)) _ hk1
      (x := x) (List.mem_map.mpr ⟨_, hm, rfl⟩)
    rw [e]
    have := ((g2' x v).mp hv).2
    simp only [Option.some.injEq, hsub x hx, true_and]
    rw [this, eq_comm]
  · have hz : (t.combinationsWith inc exc).countP (fun c => decide (x ∈ c)) = 0 := by
      rw [List.countP_eq_zero]
      intro c hc h
      exact hx (List.mem_flatten.mpr ⟨c, hc, by simpa using h⟩)
    rw [lookup_collect_of_notMem _ _ hk1 (by
      intro h
      obtain ⟨p, hp, rfl⟩ := List.mem_map.mp h
      exact hx ((g2' p.1 p.2).mp hp).1), hz]
    by_cases hi : x ∈ items
    · obtain ⟨v, hv, e⟩ := lookup_collect_of_mem (t.univ.items.map (fun f => (f, 0))) [] List.Pairwise.nil
        (x := x) (by rw [hitems]; simpa using hi)
      rw [e]
      simp only [List.mem_map, Prod.mk.injEq] at hv
      obtain ⟨_, _, _, rfl⟩ := hv
      simp [hi, eq_comm]
    · rw [lookup_collect_of_notMem _ _ List.Pairwise.nil (by rw [hitems]; simpa using hi)]
      simp [hi, lookup]

theorem mem_counts {items : List T} {t : Tree T} (hu : t.univ = Universe.fromVec items)
    (inc exc : List T) (x : T) (n : Nat) :
    (x, n) ∈ t.counts inc exc ↔ x ∈ items ∧ n = (t.combinationsWith inc exc).countP (fun c => x ∈ c) :=
  mem_counts_any (by rw [hu]; rfl) inc exc x n

theorem Status.unique {R : Set (Finset T)} {inc : List T} {x : T} {s s' : ItemStatus T}
    (h : Status R inc x s) (h' : Status R inc x s') : s = s' := by
  have nn : ∀ A ∈ R, x ∈ A → ¬ (∀ A ∈ R, x ∉ A) := fun A h1 h2 h3 => h3 A h1 h2
  rcases h with ⟨a, rfl⟩ | ⟨⟨A, hA, hx⟩, b, rfl⟩ | ⟨⟨A, hA, hx⟩, b, c, rfl⟩ | ⟨⟨A, hA, hx⟩, b, ⟨B, hB, hxB⟩, rfl⟩ <;>
  rcases h' with ⟨a', rfl⟩ | ⟨⟨A', hA', hx'⟩, b', rfl⟩ | ⟨⟨A', hA', hx'⟩, b', c', rfl⟩ | ⟨⟨A', hA', hx'⟩, b', ⟨B', hB', hxB'⟩, rfl⟩
  all_goals first
    | rfl
    | exact absurd hx' (a A' hA')
    | exact absurd hx (a' A hA)
    | exact absurd b b'
    | exact absurd b' b
    | exact absurd (c _ hB') hxB'
    | exact absurd (c' _ hB) hxB

theorem classify_status {cs : List (List T)} {inc : List T} (x : T) :
    Status (family cs) inc x (Tree.classify inc cs.length (x, cs.countP (fun c => x ∈ c))) := by
  have hall : (∀ A ∈ family cs, x ∉ A) ↔ cs.countP (fun c => decide (x ∈ c)) = 0 := by
    rw [List.countP_eq_zero]
    constructor
    · intro h c hc; simpa using h _ ⟨c, hc, rfl⟩
    · rintro h A ⟨c, hc, rfl⟩; simpa using h c hc
  have hreq : (∀ A ∈ family cs, x ∈ A) ↔ cs.countP (fun c => decide (x ∈ c)) = cs.length := by
    rw [List.countP_eq_length]
    constructor
    · intro h c hc; simpa using h _ ⟨c, hc, rfl⟩
    · rintro h A ⟨c, hc, rfl⟩; simpa using h c hc
  have hex : ¬ (∀ A ∈ family cs, x ∉ A) → ∃ A ∈ family cs, x ∈ A := by
    intro h; push Not at h; exact h
  have hex' : ¬ (∀ A ∈ family cs, x ∈ A) → ∃ A ∈ family cs, x ∉ A := by
    intro h; push Not at h; exact h
  unfold Tree.classify Status
  simp only
  split_ifs with h1 h2 h3
  · exact Or.inl ⟨hall.mpr h1, rfl⟩
  · exact Or.inr (Or.inl ⟨hex (fun h => h1 (hall.mp h)), h2, rfl⟩)
  · exact Or.inr (Or.inr (Or.inl ⟨hex (fun h => h1 (hall.mp h)), h2, hreq.mpr h3, rfl⟩))
  · exact Or.inr (Or.inr (Or.inr ⟨hex (fun h => h1 (hall.mp h)), h2, hex' (fun h => h3 (hreq.mp h)), rfl⟩))

theorem classify_item (inc : List T) (n : Nat) (e : T × Nat) : (Tree.classify inc n e).item = e.1 := by
  unfold Tree.classify; split_ifs <;> rfl

/-- C34: `summarize` lists, in order and without repetition, exactly the statuses of the universe's
items: excluded iff no remaining combination has the item; else selected iff it is an inclusion; else
required iff all remaining combinations have it; else available.  `entries` is any visiting order of
the hash map. -/
theorem summarize_exact_any {items : List T} {t : Tree T} (hu : t.univ.items = items)
    (inc exc : List T) {entries : List (T × Nat)} (he : entries.Perm (t.counts inc exc)) :
    (t.summarize inc exc entries).Pairwise (· < ·) ∧
    ∀ s, s ∈ t.summarize inc exc entries ↔ ∃ x ∈ items,
      Status {A | A ∈ family t.combinations ∧ (∀ y ∈ inc, y ∈ A) ∧ (∀ y ∈ exc, y ∉ A)} inc x s := by
  have hk : KeysLt (t.counts inc exc) := keysLt_collect _ _ List.Pairwise.nil
  constructor
  · refine sorted_lt_of_nodup ?_
    have hnd : (entries.map Prod.fst).Nodup := by
      rw [(he.map _).nodup_iff]; exact nodup_of_lt hk.keys
    refine List.Nodup.of_map (ItemStatus.item) ?_
    rw [List.map_map]
    have : (ItemStatus.item ∘ Tree.classify inc (t.combinationsWith inc exc).length) = Prod.fst := by
      funext e; exact classify_item _ _ _
    rwa [this]
  · intro s
    rw [← combinations_with_family, Tree.summarize, mem_sorted, List.mem_map]
    constructor
    · rintro ⟨⟨x, n⟩, hm, rfl⟩
      rw [he.mem_iff, mem_counts_any hu] at hm
      obtain ⟨hx, rfl⟩ := hm
      exact ⟨x, hx, classify_status x⟩
    · rintro ⟨x, hx, hs⟩
      refine ⟨(x, _), he.mem_iff.mpr ((mem_counts_any hu inc exc x _).mpr ⟨hx, rfl⟩), ?_⟩
      exact Status.unique (classify_status x) hs

/-- C34: over a universe built from a list: the summary is sorted and holds exactly the status of every item
of the list. -/
theorem summarize_exact {items : List T} {t : Tree T} (hu : t.univ = Universe.fromVec items)
    (inc exc : List T) {entries : List (T × Nat)} (he : entries.Perm (t.counts inc exc)) :
    (t.summarize inc exc entries).Pairwise (· < ·) ∧
    ∀ s, s ∈ t.summarize inc exc entries ↔ ∃ x ∈ items,
      Status {A | A ∈ family t.combinations ∧ (∀ y ∈ inc, y ∈ A) ∧ (∀ y ∈ exc, y ∉ A)} inc x s :=
  summarize_exact_any (by rw [hu]; rfl) inc exc he

example := summarize_exact (items := [1, 2, 3, 4]) (t := (Universe.fromVec [1, 2, 3, 4]).hyperTree [[1, 2], [1, 3], [4]])
  (univ_foldUnion _ _) [1] [3] (List.reverse_perm _)

/-- C34: each item of the universe has exactly one status in the summary. -/
theorem summarize_once_any {items : List T} {t : Tree T} (hu : t.univ.items = items)
    (inc exc : List T) {entries : List (T × Nat)} (he : entries.Perm (t.counts inc exc)) (x : T) :
    ((t.summarize inc exc entries).map ItemStatus.item).count x = if x ∈ items then 1 else 0 := by
  have hk : KeysLt (t.counts inc exc) := keysLt_collect _ _ List.Pairwise.nil
  have hp : ((t.summarize inc exc entries).map ItemStatus.item).Perm ((t.counts inc exc).map Prod.fst) := by
    refine ((sorted_perm _).map _).trans ?_
    rw [List.map_map]
    have : (ItemStatus.item ∘ Tree.classify inc (t.combinationsWith inc exc).length) = Prod.fst := by
      funext e; exact classify_item _ _ _
    rw [this]
    exact he.map _
  rw [hp.count_eq]
  have hmem : x ∈ (t.counts inc exc).map Prod.fst ↔ x ∈ items := by
    constructor
    · intro h
      obtain ⟨⟨y, n⟩, hm, rfl⟩ := List.mem_map.mp h
      exact ((mem_counts_any hu inc exc y n).mp hm).1
    · intro h; exact List.mem_map.mpr ⟨_, (mem_counts_any hu inc exc x _).mpr ⟨h, rfl⟩, rfl⟩
  split_ifs with h
  · exact List.count_eq_one_of_mem (nodup_of_lt hk.keys) (hmem.mpr h)
  · exact List.count_eq_zero_of_not_mem (fun h' => h (hmem.mp h'))

/-- C34: over a universe built from a list: every item of the list has exactly one status. -/
theorem summarize_once {items : List T} {t : Tree T} (hu : t.univ = Universe.fromVec items)
    (inc exc : List T) {entries : List (T × Nat)} (he : entries.Perm (t.counts inc exc)) (x : T) :
    ((t.summarize inc exc entries).map ItemStatus.item).count x = if x ∈ items then 1 else 0 :=
  summarize_once_any (by rw [hu]; rfl) inc exc he x

example := summarize_once (items := [1, 2, 3, 4]) (t := (Universe.fromVec [1, 2, 3, 4]).hyperTree [[1, 2], [1, 3], [4]])
  (univ_foldUnion _ _) [1] [3] (List.reverse_perm _) 2

/-- C34: the summary does not depend on the order the hash map is visited in. -/
theorem summarize_deterministic (t : Tree T) (inc exc : List T) {e e' : List (T × Nat)}
    (he : e.Perm (t.counts inc exc)) (he' : e'.Perm (t.counts inc exc)) :
    t.summarize inc exc e = t.summarize inc exc e' :=
  sorted_congr ((he.trans he'.symm).map _)

example := summarize_deterministic ((Universe.fromVec [1, 2, 3, 4]).hyperTree [[1, 2], [1, 3], [4]]) [1] [3]
  (List.reverse_perm _) (List.Perm.refl _)

end Verif.Zdd1
