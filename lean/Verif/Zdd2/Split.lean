import Verif.Zdd2.Size

/-!
# Splitting zdd2 forests by items (C74, C75)
-/

set_option linter.unusedSimpArgs false
set_option linter.unusedSectionVars false
set_option linter.unusedVariables false

namespace Verif.Zdd2
open Verif Verif.Spec Verif.Zdd2.Spec

universe u
variable {T : Type u} [LinearOrder T]

theorem reach_subset {f : Forest T} (hf : Reach f) (x : T) : Reach (f.subset x) := by
  obtain ⟨p, hp⟩ := hf
  exact ⟨.subset p x, by simp [run, hp]⟩

theorem reach_subsetNot {f : Forest T} (hf : Reach f) (x : T) : Reach (f.subsetNot x) := by
  obtain ⟨p, hp⟩ := hf
  exact ⟨.subsetNot p x, by simp [run, hp]⟩

theorem reach_subsetAll {f : Forest T} (hf : Reach f) (xs : List T) : Reach (f.subsetAll xs) := by
  obtain ⟨p, hp⟩ := hf
  exact ⟨.subsetAll p xs, by simp [run, hp]⟩

/-- C74: filters by items are independent questions: they commute and are idempotent as values, asking for
several items at once is asking for them one after the other, and contradictory questions leave nothing. -/
theorem filters_commute {f : Forest T} (hf : Reach f) (x y : T) :
    (f.subset x).subset y = (f.subset y).subset x ∧
    (f.subsetNot x).subsetNot y = (f.subsetNot y).subsetNot x ∧
    (f.subset x).subsetNot y = (f.subsetNot y).subset x ∧
    (f.subset x).subset x = f.subset x ∧
    (f.subsetNot x).subsetNot x = f.subsetNot x ∧
    (f.subset x).subsetNot x = Forest.empty := by
  have a := fun {f : Forest T} (hf : Reach f) x => subset_family hf x
  have b := fun {f : Forest T} (hf : Reach f) x => subsetNot_family hf x
  have ra := fun {f : Forest T} (hf : Reach f) x => reach_subset hf x
  have rb := fun {f : Forest T} (hf : Reach f) x => reach_subsetNot hf x
  refine ⟨?_, ?_, ?_, ?_, ?_, ?_⟩
  · refine eq_of_family (ra (ra hf y) x) (ra (ra hf x) y).canon ?_
    rw [a (ra hf _), a (ra hf _), a hf, a hf]
    ext s; simp only [having, Set.mem_ofPred_eq]; tauto
  · refine eq_of_family (rb (rb hf y) x) (rb (rb hf x) y).canon ?_
    rw [b (rb hf _), b (rb hf _), b hf, b hf]
    ext s; simp only [without, Set.mem_ofPred_eq]; tauto
  · refine eq_of_family (ra (rb hf y) x) (rb (ra hf x) y).canon ?_
    rw [b (ra hf _), a (rb hf _), a hf, b hf]
    ext s; simp only [having, without, Set.mem_ofPred_eq]; tauto
  · refine eq_of_family (ra hf x) (ra (ra hf x) x).canon ?_
    rw [a (ra hf _), a hf]
    ext s; simp only [having, Set.mem_ofPred_eq]; tauto
  · refine eq_of_family (rb hf x) (rb (rb hf x) x).canon ?_
    rw [b (rb hf _), b hf]
    ext s; simp only [without, Set.mem_ofPred_eq]; tauto
  · refine eq_of_family reach_empty (rb (ra hf x) x).canon ?_
    rw [b (ra hf _), a hf, empty_family]
    ext s; simp only [having, without, Set.mem_ofPred_eq, Set.mem_empty_iff_false]; tauto

example := filters_commute (reach_many [[1, 2], [1, 3], [4]]) 1 2

/-- C74: `subset_all` is `subset` for each of the items, in any order. -/
theorem subsetAll_fold {f : Forest T} (hf : Reach f) (xs : List T) :
    f.subsetAll xs = xs.foldl Forest.subset f := by
  have key : ∀ (xs : List T) {f : Forest T}, Reach f → Reach (xs.foldl Forest.subset f) ∧
      family (xs.foldl Forest.subset f).trees = havingAll (family f.trees) xs := by
    intro xs
    induction xs with
    | nil => intro f hf; exact ⟨hf, by ext s; simp [havingAll]⟩
    | cons x xs ih =>
      intro f hf
      obtain ⟨h1, h2⟩ := ih (reach_subset hf x)
      refine ⟨h1, ?_⟩
      rw [List.foldl_cons, h2, subset_family hf]
      ext s; simp only [having, havingAll, Set.mem_ofPred_eq, List.mem_cons, forall_eq_or_imp]; tauto
  obtain ⟨h1, h2⟩ := key xs hf
  exact eq_of_family h1 (reach_subsetAll hf xs).canon (by rw [h2, subsetAll_family hf])

example := subsetAll_fold (reach_many [[1, 2], [1, 3], [4]]) [1, 2]

/-- C74: splitting by an item is exact: every member is on exactly one side, the lengths add up, and the
length of the one side is the number that `occurrences` reports for the item (0 if it is not listed). -/
theorem split_len {f : Forest T} (hf : Reach f) (x : T) :
    family (f.subset x).trees ∪ family (f.subsetNot x).trees = family f.trees ∧
    Disjoint (family (f.subset x).trees) (family (f.subsetNot x).trees) ∧
    (f.subset x).len + (f.subsetNot x).len = f.len ∧
    (∀ n, (x, n) ∈ f.occurrences → n = (f.subset x).len) ∧
    ((∀ n, (x, n) ∉ f.occurrences) → (f.subset x).len = 0) := by
  have e1 := subset_family hf x
  have e2 := subsetNot_family hf x
  have hu : family (f.subset x).trees ∪ family (f.subsetNot x).trees = family f.trees := by
    rw [e1, e2]; ext s; simp only [having, without, Set.mem_union, Set.mem_ofPred_eq]; tauto
  have hd : Disjoint (family (f.subset x).trees) (family (f.subsetNot x).trees) := by
    rw [e1, e2, Set.disjoint_left]; rintro s ⟨_, h⟩ ⟨_, h'⟩; exact h' h
  have ho := (occurrences_exact hf f.univ.occurrences (List.Perm.refl _)).2 x
  refine ⟨hu, hd, ?_, ?_, ?_⟩
  · rw [len_exact hf, len_exact (reach_subset hf x), len_exact (reach_subsetNot hf x), ← hu,
      Set.ncard_union_eq hd (fam_finite (reach_subset hf x)) (fam_finite (reach_subsetNot hf x))]
  · intro n hn
    rw [len_exact (reach_subset hf x), e1]
    exact ((ho n).mp hn).2
  · intro hn
    rw [len_exact (reach_subset hf x), e1]
    have hz : having (family f.trees) x = ∅ := by
      ext s
      simp only [having, Set.mem_ofPred_eq, Set.mem_empty_iff_false, iff_false, not_and]
      intro hs hx
      exact hn _ ((ho _).mpr ⟨⟨s, hs, hx⟩, rfl⟩)
    rw [hz, Set.ncard_empty]

example := split_len (reach_many [[1, 2], [1, 3], [4]]) 1

/-- C75, the full statement, is false of the code: the two sides of a split, put together again with
`union`, need not give the forest back. -/
theorem reunite_wrong : ¬ ∀ (f : Forest ℕ) (x : ℕ), Reach f → (f.subset x).union (f.subsetNot x) = some f := by
  intro h
  have hr := reach_many ([[1, 2], [1, 3], [2], [2, 3]] : List (List ℕ))
  have h1 : (Forest.many [[1, 2], [1, 3], [2], [2, 3]]).subset 1 = Forest.many ([[1, 2], [1, 3]] : List (List ℕ)) := by
    refine eq_of_family (reach_many _) (reach_subset hr 1).canon ?_
    rw [subset_family hr, many_family, many_family]
    ext s
    simp only [having, family, Set.mem_ofPred_eq, List.mem_cons, List.not_mem_nil, or_false]
    constructor
    · rintro ⟨⟨⟨l, rfl | rfl | rfl | rfl, rfl⟩, hne⟩, hx⟩
      · exact ⟨⟨_, Or.inl rfl, rfl⟩, hne⟩
      · exact ⟨⟨_, Or.inr rfl, rfl⟩, hne⟩
      · simp at hx
      · simp at hx
    · rintro ⟨⟨l, rfl | rfl, rfl⟩, hne⟩
      · exact ⟨⟨⟨_, Or.inl rfl, rfl⟩, hne⟩, by simp⟩
      · exact ⟨⟨⟨_, Or.inr (Or.inl rfl), rfl⟩, hne⟩, by simp⟩
  have h2 : (Forest.many [[1, 2], [1, 3], [2], [2, 3]]).subsetNot 1 = Forest.many ([[2], [2, 3]] : List (List ℕ)) := by
    refine eq_of_family (reach_many _) (reach_subsetNot hr 1).canon ?_
    rw [subsetNot_family hr, many_family, many_family]
    ext s
    simp only [without, family, Set.mem_ofPred_eq, List.mem_cons, List.not_mem_nil, or_false]
    constructor
    · rintro ⟨⟨⟨l, rfl | rfl | rfl | rfl, rfl⟩, hne⟩, hx⟩
      · simp at hx
      · simp at hx
      · exact ⟨⟨_, Or.inl rfl, rfl⟩, hne⟩
      · exact ⟨⟨_, Or.inr rfl, rfl⟩, hne⟩
    · rintro ⟨⟨l, rfl | rfl, rfl⟩, hne⟩
      · exact ⟨⟨⟨_, Or.inr (Or.inr (Or.inl rfl)), rfl⟩, hne⟩, by simp⟩
      · exact ⟨⟨⟨_, Or.inr (Or.inr (Or.inr rfl)), rfl⟩, hne⟩, by simp⟩
  have := h _ 1 hr
  rw [h1, h2, union_witness, Option.some.injEq] at this
  have h13 : ({1, 3} : Finset ℕ) ∈ family (Forest.many [[1, 2], [1, 3], [2], [2, 3]]).trees := by
    rw [many_family]; exact ⟨⟨[1, 3], by simp, by decide⟩, by decide⟩
  rw [← this, many_family] at h13
  obtain ⟨⟨l, hl, e⟩, _⟩ := h13
  simp only [List.mem_cons, List.not_mem_nil, or_false] at hl
  rcases hl with rfl | rfl | rfl <;> exact absurd e (by decide)

/-- C75 (proved part): the two sides of a split give the forest back when they are `Compatible` (for
example when the members of one side share no item with those of the other); in every case the reunion has
at most as many members, of each size, as the forest, and is empty only if the forest is. -/
theorem reunite_partial {f : Forest T} (hf : Reach f) (x : T) :
    ∃ r, (f.subset x).union (f.subsetNot x) = some r ∧
      (Compatible (having (family f.trees) x) (without (family f.trees) x) → r = f) ∧
      r.len ≤ f.len ∧ (r.isEmpty = true ↔ f.isEmpty = true) ∧
      (∀ P : Nat → Bool, (withSize (family r.trees) P).ncard ≤ (withSize (family f.trees) P).ncard) := by
  have r1 := reach_subset hf x
  have r2 := reach_subsetNot hf x
  obtain ⟨⟨r, e, hr⟩, _⟩ := binary_total r1 r2
  obtain ⟨hu, hd, hl, _⟩ := split_len hf x
  refine ⟨r, e, fun hc => ?_, ?_, ?_, fun P => ?_⟩
  · refine eq_of_family hf hr.canon ?_
    rw [union_family_partial r1 r2 (by rw [subset_family hf, subsetNot_family hf]; exact hc) e, hu]
  · rw [← hl]; exact (len_bounds r1 r2).1 (Or.inl e)
  · rw [(empty_iff r1 r2).1 r e, isEmpty_exact r1, isEmpty_exact r2, isEmpty_exact hf, ← hu, Set.union_empty_iff]
  · have := (size_bounds r1 r2).1 (Or.inl e) P
    rwa [← Set.ncard_union_eq ?_ (withSize_finite r1 P) (withSize_finite r2 P),
      show withSize (family (f.subset x).trees) P ∪ withSize (family (f.subsetNot x).trees) P =
        withSize (family f.trees) P from ?_] at this
    · rw [← hu]; ext s; simp only [withSize, Set.mem_union, Set.mem_ofPred_eq]; tauto
    · rw [Set.disjoint_left] at hd ⊢
      exact fun s h h' => hd h.1 h'.1

example := reunite_partial (reach_many [[1, 2], [1, 3], [4]]) 1

/-- The forest of `reunite_wrong` meets the hypothesis of `split_len`, with members on both sides. -/
example : ((Forest.many [[1, 2], [1, 3], [2], [2, 3]]).subset 1).isEmpty = false ∧
    ((Forest.many [[1, 2], [1, 3], [2], [2, 3]] : Forest ℕ).subsetNot 1).isEmpty = false := by
  have hr := reach_many ([[1, 2], [1, 3], [2], [2, 3]] : List (List ℕ))
  constructor
  · rw [Bool.eq_false_iff]
    intro h
    rw [isEmpty_exact (reach_subset hr 1), subset_family hr, many_family] at h
    have : ({1, 2} : Finset ℕ) ∈ (∅ : Set (Finset ℕ)) := by
      rw [← h]; exact ⟨⟨⟨[1, 2], by simp, by decide⟩, by decide⟩, by decide⟩
    exact this
  · rw [Bool.eq_false_iff]
    intro h
    rw [isEmpty_exact (reach_subsetNot hr 1), subsetNot_family hr, many_family] at h
    have : ({2} : Finset ℕ) ∈ (∅ : Set (Finset ℕ)) := by
      rw [← h]; exact ⟨⟨⟨[2], by simp, by decide⟩, by decide⟩, by decide⟩
    exact this

end Verif.Zdd2
