import Verif.Zdd2.Agree
import Verif.Conform.Run

/-!
# Combining many zdd2 forests (C115)

In general neither the grouping nor a repetition is free.  It is for forests that share no item, and for
forests of single items.
-/

set_option linter.unusedSimpArgs false
set_option linter.unusedVariables false
set_option linter.unusedSectionVars false

namespace Verif.Zdd2
open Verif Verif.Spec Verif.Zdd2.Spec

universe u
variable {T : Type u} [LinearOrder T]

/-! ### the laws that fail -/

theorem run_ne {p q : Prog ℕ} (h : (run p).map (·.trees) ≠ (run q).map (·.trees)) : run p ≠ run q :=
  fun e => h (by rw [e])

/-- C115: none of these laws of sets holds of zdd2 forests in general, each with a smallest counterexample:
associativity of the three operations, absorption, distributivity, and uniting, intersecting or multiplying a
second time with the same forest. -/
theorem laws_fail :
    run (.union (.union (.unit [1]) (.unit [2])) (.unit [1, 2]) : Prog ℕ) ≠
      run (.union (.unit [1]) (.union (.unit [2]) (.unit [1, 2]))) ∧
    run (.intersect (.intersect (.unit [1]) (.unit [2])) (.unit [1, 2]) : Prog ℕ) ≠
      run (.intersect (.unit [1]) (.intersect (.unit [2]) (.unit [1, 2]))) ∧
    run (.product (.product (.unit [1]) (.unit [2])) (.unique [1, 2]) : Prog ℕ) ≠
      run (.product (.unit [1]) (.product (.unit [2]) (.unique [1, 2]))) ∧
    run (.union (.unit [1]) (.intersect (.unit [1]) (.unit [1, 2])) : Prog ℕ) ≠ run (.unit [1]) ∧
    run (.intersect (.unit [1]) (.union (.unit [1]) (.unit [1, 2])) : Prog ℕ) ≠ run (.unit [1]) ∧
    run (.intersect (.unit [1]) (.union (.unit [2]) (.unit [1, 2])) : Prog ℕ) ≠
      run (.union (.intersect (.unit [1]) (.unit [2])) (.intersect (.unit [1]) (.unit [1, 2]))) ∧
    run (.union (.unit [1]) (.intersect .empty (.unit [1, 2])) : Prog ℕ) ≠
      run (.intersect (.union (.unit [1]) .empty) (.union (.unit [1]) (.unit [1, 2]))) ∧
    run (.product (.unit [1]) (.union (.unit [2]) (.unit [1, 2])) : Prog ℕ) ≠
      run (.union (.product (.unit [1]) (.unit [2])) (.product (.unit [1]) (.unit [1, 2]))) ∧
    run (.union (.union (.unit [2]) (.many [[1, 2, 3], [1, 3]])) (.many [[1, 2, 3], [1, 3]]) : Prog ℕ) ≠
      run (.union (.unit [2]) (.many [[1, 2, 3], [1, 3]])) ∧
    run (.intersect (.intersect (.many [[1], [2, 3]]) (.many [[1, 3], [2]])) (.many [[1, 3], [2]]) : Prog ℕ) ≠
      run (.intersect (.many [[1], [2, 3]]) (.many [[1, 3], [2]])) ∧
    run (.product (.product (.unit [2]) (.unique [1, 3])) (.unique [1, 3]) : Prog ℕ) ≠
      run (.product (.unit [2]) (.unique [1, 3])) ∧
    run (.union (.unit [1]) (.union (.unit [2]) (.unit [1, 2])) : Prog ℕ) ≠ run (.many [[1], [2], [1, 2]]) := by
  refine ⟨run_ne ?_, run_ne ?_, run_ne ?_, run_ne ?_, run_ne ?_, run_ne ?_, run_ne ?_, run_ne ?_, run_ne ?_,
    run_ne ?_, run_ne ?_, run_ne ?_⟩
  all_goals
    simp only [run]
    open Verif.Zdd2 Verif.Conform in zrun

/-! ### forests that share no item -/

/-- A way of grouping the forests to be combined.  Not code: used to state or prove properties. -/
inductive Group (α : Type u) where
  | one (a : α)
  | two (p q : Group α)

/-- What is combined, in order.  Not code: used to state or prove properties. -/
def Group.leaves {α : Type u} : Group α → List α
  | .one a => [a]
  | .two p q => p.leaves ++ q.leaves

/-- Combining with one of the operations; `none` is a panic.  Not code: used to state or prove properties. -/
def Group.run {α : Type u} (op : α → α → Option α) : Group α → Option α
  | .one a => some a
  | .two p q => (p.run op).bind fun a => (q.run op).bind fun b => op a b

/-- No member of one shares an item with a member of the other.  Not code: used to state or prove properties. -/
def Apart (f g : Forest T) : Prop := ∀ s ∈ f.trees, ∀ t ∈ g.trees, ∀ x, x ∈ s → x ∉ t

theorem Apart.symm {f g : Forest T} (h : Apart f g) : Apart g f := fun s hs t ht x hx hx' => h t ht s hs x hx' hx

theorem apart_iff {f g : Forest T} : Apart f g ↔ ItemDisjoint (family f.trees) (family g.trees) := by
  constructor
  · rintro h _ ⟨s, hs, rfl⟩ _ ⟨t, ht, rfl⟩
    rw [Finset.disjoint_left]
    intro x hx hx'
    exact h s hs t ht x (by simpa using hx) (by simpa using hx')
  · intro h s hs t ht x hx hx'
    exact Finset.disjoint_left.1 (h _ ⟨s, hs, rfl⟩ _ ⟨t, ht, rfl⟩) (List.mem_toFinset.2 hx) (List.mem_toFinset.2 hx')

/-- The unions of one member from each family.  Not code: used to state or prove properties. -/
def oneOfEach (fs : List (Set (Finset T))) : Set (Finset T) :=
  {s | ∃ picks : List (Finset T), List.Forall₂ (fun p F => p ∈ F) picks fs ∧ s = picks.foldr (· ∪ ·) ∅}

theorem foldr_append (l m : List (Finset T)) :
    (l ++ m).foldr (· ∪ ·) ∅ = l.foldr (· ∪ ·) ∅ ∪ m.foldr (· ∪ ·) ∅ := by
  induction l with
  | nil => simp
  | cons a l ih => simp only [List.cons_append, List.foldr_cons, ih, Finset.union_assoc]

theorem oneOfEach_append (F G : List (Set (Finset T))) :
    oneOfEach (F ++ G) = prod (oneOfEach F) (oneOfEach G) := by
  ext s
  simp only [oneOfEach, prod, Set.mem_ofPred_eq]
  constructor
  · rintro ⟨picks, h, rfl⟩
    refine ⟨(picks.take F.length).foldr (· ∪ ·) ∅, ⟨_, List.forall₂_take_append _ _ _ h, rfl⟩,
      (picks.drop F.length).foldr (· ∪ ·) ∅, ⟨_, List.forall₂_drop_append _ _ _ h, rfl⟩, ?_⟩
    rw [← foldr_append, List.take_append_drop]
  · rintro ⟨_, ⟨a, ha, rfl⟩, _, ⟨b, hb, rfl⟩, rfl⟩
    exact ⟨a ++ b, List.rel_append ha hb, (foldr_append _ _).symm⟩

theorem oneOfEach_one (F : Set (Finset T)) : oneOfEach [F] = F := by
  ext s
  simp only [oneOfEach, Set.mem_ofPred_eq]
  constructor
  · rintro ⟨picks, h, rfl⟩
    cases h with
    | cons h t => cases t; simpa using h
  · intro h; exact ⟨[s], .cons h .nil, by simp⟩

theorem oneOfEach_cons (F : Set (Finset T)) (G : List (Set (Finset T))) :
    oneOfEach (F :: G) = prod F (oneOfEach G) := by
  rw [← List.singleton_append, oneOfEach_append, oneOfEach_one]

theorem oneOfEach_perm {F G : List (Set (Finset T))} (h : F.Perm G) : oneOfEach F = oneOfEach G := by
  induction h with
  | nil => rfl
  | cons x _ ih => rw [oneOfEach_cons, oneOfEach_cons, ih]
  | swap x y l =>
    simp only [oneOfEach_cons]
    ext s
    simp only [prod, Set.mem_ofPred_eq]
    constructor
    · rintro ⟨a, ha, _, ⟨b, hb, c, hc, rfl⟩, rfl⟩
      exact ⟨b, hb, _, ⟨a, ha, c, hc, rfl⟩, Finset.union_left_comm _ _ _⟩
    · rintro ⟨a, ha, _, ⟨b, hb, c, hc, rfl⟩, rfl⟩
      exact ⟨b, hb, _, ⟨a, ha, c, hc, rfl⟩, Finset.union_left_comm _ _ _⟩
  | trans _ _ ih1 ih2 => exact ih1.trans ih2

theorem items_oneOfEach {F : List (Set (Finset T))} {s : Finset T} (hs : s ∈ oneOfEach F) {x : T} (hx : x ∈ s) :
    ∃ A ∈ F, ∃ t ∈ A, x ∈ t := by
  induction F generalizing s with
  | nil =>
    obtain ⟨picks, h, rfl⟩ := hs
    cases h; simp at hx
  | cons A F ih =>
    rw [oneOfEach_cons] at hs
    obtain ⟨a, ha, b, hb, rfl⟩ := hs
    rcases Finset.mem_union.1 hx with h | h
    · exact ⟨A, by simp, a, ha, h⟩
    · obtain ⟨B, hB, r⟩ := ih hb h
      exact ⟨B, by simp [hB], r⟩

/-- C115: uniting any number of forests that share no item, grouped in any way, gives a forest whose members are
exactly the members of the forests. -/
theorem unions_apart (p : Group (Forest T)) (hr : ∀ f ∈ p.leaves, Reach f) (hd : p.leaves.Pairwise Apart) :
    ∃ r, p.run Forest.union = some r ∧ Reach r ∧ family r.trees = {s | ∃ f ∈ p.leaves, s ∈ family f.trees} := by
  induction p with
  | one a => exact ⟨a, rfl, hr a (by simp [Group.leaves]), by simp [Group.leaves]⟩
  | two p q ihp ihq =>
    simp only [Group.leaves, List.pairwise_append, List.mem_append] at hd hr ⊢
    obtain ⟨a, ea, ra, fa⟩ := ihp (fun f h => hr f (.inl h)) hd.1
    obtain ⟨b, eb, rb, fb⟩ := ihq (fun f h => hr f (.inr h)) hd.2.1
    obtain ⟨r, er, rr⟩ := (binary_total ra rb).1
    have dj : ItemDisjoint (family a.trees) (family b.trees) := by
      rw [fa, fb]
      rintro s ⟨f, hf, hs⟩ t ⟨g, hg, ht⟩
      exact apart_iff.1 (hd.2.2 f hf g hg) s hs t ht
    refine ⟨r, by simp only [Group.run, ea, eb, Option.bind_some, er], rr, ?_⟩
    rw [union_cases_partial ra rb (.inl dj) er, fa, fb]
    ext s
    simp only [Set.mem_union, Set.mem_ofPred_eq, or_and_right, exists_or]

/-- C115: multiplying any number of forests that share no item, grouped in any way, gives a forest whose members
are exactly the unions of one member of each. -/
theorem products_apart (p : Group (Forest T)) (hr : ∀ f ∈ p.leaves, Reach f) (hd : p.leaves.Pairwise Apart) :
    ∃ r, p.run Forest.product = some r ∧ Reach r ∧
      family r.trees = oneOfEach (p.leaves.map fun f => family f.trees) := by
  induction p with
  | one a => exact ⟨a, rfl, hr a (by simp [Group.leaves]), by simp [Group.leaves, oneOfEach_one]⟩
  | two p q ihp ihq =>
    simp only [Group.leaves, List.pairwise_append, List.mem_append, List.map_append] at hd hr ⊢
    obtain ⟨a, ea, ra, fa⟩ := ihp (fun f h => hr f (.inl h)) hd.1
    obtain ⟨b, eb, rb, fb⟩ := ihq (fun f h => hr f (.inr h)) hd.2.1
    obtain ⟨r, er, rr⟩ := (binary_total ra rb).2.2
    have dj : ItemDisjoint (family a.trees) (family b.trees) := by
      rw [fa, fb]
      intro s hs t ht
      rw [Finset.disjoint_left]
      intro x hx hx'
      obtain ⟨A, hA, s', hs', h1⟩ := items_oneOfEach hs hx
      obtain ⟨B, hB, t', ht', h2⟩ := items_oneOfEach ht hx'
      obtain ⟨f, hf, rfl⟩ := List.mem_map.1 hA
      obtain ⟨g, hg, rfl⟩ := List.mem_map.1 hB
      exact Finset.disjoint_left.1 (apart_iff.1 (hd.2.2 f hf g hg) s' hs' t' ht') h1 h2
    refine ⟨r, by simp only [Group.run, ea, eb, Option.bind_some, er], rr, ?_⟩
    rw [product_disjoint_partial ra rb dj er, fa, fb, oneOfEach_append]

/-- C115: so the order and the grouping in which such forests are united or multiplied do not matter. -/
theorem apart_any_order {p q : Group (Forest T)} (hr : ∀ f ∈ p.leaves, Reach f) (hd : p.leaves.Pairwise Apart)
    (h : p.leaves.Perm q.leaves) :
    p.run Forest.union = q.run Forest.union ∧ p.run Forest.product = q.run Forest.product := by
  have hr' : ∀ f ∈ q.leaves, Reach f := fun f hf => hr f (h.mem_iff.2 hf)
  have hd' : q.leaves.Pairwise Apart := (h.pairwise_iff fun h => Apart.symm h).1 hd
  obtain ⟨a, ea, ra, fa⟩ := unions_apart p hr hd
  obtain ⟨b, eb, rb, fb⟩ := unions_apart q hr' hd'
  obtain ⟨c, ec, rc, fc⟩ := products_apart p hr hd
  obtain ⟨d, ed, rd, fd⟩ := products_apart q hr' hd'
  rw [ea, eb, ec, ed]
  refine ⟨congrArg some ((eq_iff_family ra rb).2 ?_), congrArg some ((eq_iff_family rc rd).2 ?_)⟩
  · rw [fa, fb]; ext s; simp only [Set.mem_ofPred_eq, h.mem_iff]
  · rw [fc, fd]; exact oneOfEach_perm (h.map _)

/-! ### forests of single items -/

/-- Programs that unite and intersect forests of single items.  Not code: used to state or prove properties. -/
def Singles : Prog T → Prop
  | .empty => True
  | .unique _ => True
  | .union a b => Singles a ∧ Singles b
  | .intersect a b => Singles a ∧ Singles b
  | _ => False

/-- The items such a program is meant to keep.  Not code: used to state or prove properties. -/
def kept : Prog T → Set T
  | .unique xs => {x | x ∈ xs}
  | .union a b => kept a ∪ kept b
  | .intersect a b => kept a ∩ kept b
  | _ => ∅

/-- C115: uniting and intersecting forests of single items, in any expression, is exact. -/
theorem singles_exact (p : Prog T) (hp : Singles p) :
    ∃ f, run p = some f ∧ family f.trees = {s | ∃ x ∈ kept p, s = {x}} := by
  have simple : ∀ {f : Forest T} {A : Set T}, family f.trees = {s | ∃ x ∈ A, s = {x}} → Simple (family f.trees) := by
    intro f A h
    right
    rw [h]
    rintro s ⟨x, _, rfl⟩
    simp
  induction p with
  | empty => exact ⟨_, rfl, by rw [empty_family]; ext s; simp [kept]⟩
  | unique xs => exact ⟨_, rfl, by rw [unique_family]; rfl⟩
  | union a b iha ihb =>
    obtain ⟨f, ef, ff⟩ := iha hp.1
    obtain ⟨g, eg, fg⟩ := ihb hp.2
    obtain ⟨r, er, _⟩ := (binary_total ⟨a, ef⟩ ⟨b, eg⟩).1
    refine ⟨r, by simp only [run, ef, eg, Option.bind_some, er], ?_⟩
    rw [union_cases_partial ⟨a, ef⟩ ⟨b, eg⟩ (.inr (.inl ⟨simple ff, simple fg⟩)) er, ff, fg]
    ext s
    simp only [kept, Set.mem_union, Set.mem_ofPred_eq, or_and_right, exists_or]
  | intersect a b iha ihb =>
    obtain ⟨f, ef, ff⟩ := iha hp.1
    obtain ⟨g, eg, fg⟩ := ihb hp.2
    obtain ⟨r, er, _⟩ := (binary_total ⟨a, ef⟩ ⟨b, eg⟩).2.1
    refine ⟨r, by simp only [run, ef, eg, Option.bind_some, er], ?_⟩
    have noneAbove : ∀ A B : Set T, NoneAbove {s : Finset T | ∃ x ∈ A, s = {x}} {s | ∃ x ∈ B, s = {x}} := by
      rintro A B _ ⟨x, _, rfl⟩ _ ⟨y, _, rfl⟩ h
      have := Finset.card_lt_card h
      simp at this
    rw [intersect_family_partial ⟨a, ef⟩ ⟨b, eg⟩ (compatible_of_simple (simple ff) (simple fg))
      (by rw [ff, fg]; exact noneAbove _ _) (by rw [ff, fg]; exact noneAbove _ _) er, ff, fg]
    ext s
    simp only [kept, Set.mem_inter_iff, Set.mem_ofPred_eq]
    constructor
    · rintro ⟨⟨x, hx, rfl⟩, ⟨y, hy, e⟩⟩
      have : x = y := by simpa using e
      subst this; exact ⟨x, ⟨hx, hy⟩, rfl⟩
    · rintro ⟨x, ⟨hx, hy⟩, rfl⟩; exact ⟨⟨x, hx, rfl⟩, ⟨x, hy, rfl⟩⟩
  | unit | many | product | subset | subsetNot | subsetAll | subsetNone => exact hp.elim

/-- C115: so two such expressions that keep the same items are the same forest: every law of sets holds of them. -/
theorem singles_laws {p q : Prog T} (hp : Singles p) (hq : Singles q) : run p = run q ↔ kept p = kept q := by
  obtain ⟨f, ef, ff⟩ := singles_exact p hp
  obtain ⟨g, eg, fg⟩ := singles_exact q hq
  rw [ef, eg, Option.some.injEq, eq_iff_family ⟨p, ef⟩ ⟨q, eg⟩, ff, fg]
  constructor
  · intro h
    ext x
    have := Set.ext_iff.1 h {x}
    simpa using this
  · intro h; rw [h]

/-- C115: safe programs (C28) that mean the same non-empty sets are the same forest. -/
theorem safe_laws {p q : Prog T} (hp : Safe p) (hq : Safe q) :
    run p = run q ↔ nonempty p.meaning = nonempty q.meaning := by
  obtain ⟨f, ef⟩ := run_total p
  obtain ⟨g, eg⟩ := run_total q
  rw [ef, eg, Option.some.injEq, eq_iff_family ⟨p, ef⟩ ⟨q, eg⟩, safe_family hp ef, safe_family hq eg]

/-! ### examples -/

/-- Three forests without a common item.  Not code: used to state or prove properties. -/
def trio : Group (Forest ℕ) :=
  .two (.two (.one (Forest.many [[1, 2], [1, 3]])) (.one (Forest.many [[4], [5, 6]]))) (.one (Forest.unique [7, 8]))

theorem trio_reach : ∀ f ∈ trio.leaves, Reach f := by
  simp only [trio, Group.leaves, List.cons_append, List.nil_append, List.mem_cons, List.not_mem_nil, or_false]
  rintro f (rfl | rfl | rfl)
  exacts [reach_many _, reach_many _, reach_unique _]

theorem trio_apart : trio.leaves.Pairwise Apart := by
  simp only [trio, Group.leaves, List.cons_append, List.nil_append, List.pairwise_cons, List.mem_cons, List.not_mem_nil,
    or_false, List.Pairwise.nil, and_true, IsEmpty.forall_iff, implies_true]
  refine ⟨?_, ?_⟩
  · rintro g (rfl | rfl)
    · exact apart_iff.2 demo_apart
    · refine apart_iff.2 fun s hs t ht => ?_
      rw [many_family] at hs
      rw [unique_family] at ht
      obtain ⟨x, hx, rfl⟩ := ht
      simp only [family, List.mem_cons, List.not_mem_nil, or_false, Set.mem_ofPred_eq,
        exists_eq_or_imp, exists_eq_left] at hs hx
      obtain ⟨hs, -⟩ := hs
      rcases hs with rfl | rfl <;> rcases hx with rfl | rfl <;> decide
  · rintro g rfl
    refine apart_iff.2 fun s hs t ht => ?_
    rw [many_family] at hs
    rw [unique_family] at ht
    obtain ⟨x, hx, rfl⟩ := ht
    simp only [family, List.mem_cons, List.not_mem_nil, or_false, Set.mem_ofPred_eq,
      exists_eq_or_imp, exists_eq_left] at hs hx
    obtain ⟨hs, -⟩ := hs
    rcases hs with rfl | rfl <;> rcases hx with rfl | rfl <;> decide

example := unions_apart trio trio_reach trio_apart
example := products_apart trio trio_reach trio_apart

/-- Another order and grouping. -/
example : trio.run Forest.product = (Group.two (.one (Forest.unique [7, 8]))
    (.two (.one (Forest.many [[1, 2], [1, 3]])) (.one (Forest.many [[4], [5, 6]])))).run Forest.product :=
  (apart_any_order (p := trio) trio_reach trio_apart
    (by simp only [trio, Group.leaves]; exact List.perm_append_comm (l₁ := [_, _]) (l₂ := [_]))).2

/-- {1, 2, 3} ∩ ({2} ∪ {3, 4}). -/
example : ∃ f, run (.intersect (.unique [1, 2, 3]) (.union (.unique [2]) (.unique [3, 4])) : Prog ℕ) = some f ∧
    family f.trees = {{2}, {3}} := by
  obtain ⟨f, h, e⟩ := singles_exact (.intersect (.unique [1, 2, 3]) (.union (.unique [2]) (.unique [3, 4])) : Prog ℕ)
    (by simp [Singles])
  refine ⟨f, h, e.trans ?_⟩
  ext s
  simp only [kept, Set.mem_inter_iff, Set.mem_union, Set.mem_ofPred_eq, List.mem_cons, List.not_mem_nil, or_false,
    Set.mem_insert_iff, Set.mem_singleton_iff]
  constructor
  · rintro ⟨x, ⟨h1, h2⟩, rfl⟩
    have : x = 2 ∨ x = 3 := by omega
    rcases this with rfl | rfl <;> simp
  · rintro (rfl | rfl)
    exacts [⟨2, by simp, rfl⟩, ⟨3, by simp, rfl⟩]

/-- Distributivity for forests of single items. -/
example : run (.intersect (.unique [1, 2, 3]) (.union (.unique [2]) (.unique [3, 4])) : Prog ℕ) =
    run (.union (.intersect (.unique [1, 2, 3]) (.unique [2])) (.intersect (.unique [1, 2, 3]) (.unique [3, 4]))) :=
  (singles_laws (by simp [Singles]) (by simp [Singles])).2 (by simp only [kept]; exact Set.inter_union_distrib_left _ _ _)

/-- Filtering on one item and on all of several. -/
example : run (.subset (.subset (.many [[1, 2], [2, 3], [1, 2, 3]]) 1) 3 : Prog ℕ) =
    run (.subsetAll (.many [[1, 2], [2, 3], [1, 2, 3]]) [1, 3]) := by
  refine (safe_laws (by simp [Safe]) (by simp [Safe])).2 ?_
  ext s
  simp only [nonempty, Matrix.Prog.meaning, having, havingAll, Set.mem_ofPred_eq, List.mem_cons, List.not_mem_nil,
    or_false, forall_eq_or_imp, forall_eq, and_assoc]

end Verif.Zdd2
