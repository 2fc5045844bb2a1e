import Verif.Matrix.Props

/-!
# Matrix forests written down with the public variants (C91)

`matrix::Forest` is a public enum with public variants (weave/src/matrix/forest/mod.rs:14-18), so a user can
write `Forest::Unit(vec![2, 1, 2])` or `Forest::Many(HashSet::new())`, values no constructor makes.  The theorems
here have no reachability hypothesis: they hold for every value of the type.
-/

set_option linter.unusedSimpArgs false

namespace Verif.Matrix
open Verif Verif.Spec

universe u
variable {T : Type u} [LinearOrder T]

namespace Forest

/-- The family of any value, through its stored vectors. -/
theorem raw_many {m : List (List T)} (s : Finset T) :
    (∃ l, (many m).Stored l ∧ l.toFinset = s) ↔ ∃ l ∈ m, l.toFinset = s := by
  simp only [stored_many]
  constructor
  · rintro ⟨l, ⟨x, hx, rfl⟩, rfl⟩; exact ⟨x, hx, by simp⟩
  · rintro ⟨x, hx, rfl⟩; exact ⟨_, ⟨x, hx, rfl⟩, by simp⟩

theorem raw_union (h : HashOrder (List T)) (f g : Forest T) (s : Finset T) :
    (∃ l, (union h f g).Stored l ∧ l.toFinset = s) ↔
      (∃ l, f.Stored l ∧ l.toFinset = s) ∨ ∃ l, g.Stored l ∧ l.toFinset = s := by
  unfold union
  split_ifs with hfg
  · subst hfg; simp
  · cases f with
    | Empty => cases g <;> simp [stored_E, stored_U, stored_M]
    | Unit a =>
      cases g with
      | Empty => simp [stored_E, stored_U, stored_M]
      | Unit b => simp only [raw_many, stored_U]; simp
      | Many m => simp only [raw_many, stored_U, stored_M]; simp [or_and_right, exists_or, or_comm]
    | Many m =>
      cases g with
      | Empty => simp [stored_E, stored_U, stored_M]
      | Unit b => simp only [raw_many, stored_U, stored_M]; simp [or_and_right, exists_or]
      | Many m2 =>
        simp only
        split_ifs with h1 h2
        · simp only [stored_M]
          exact ⟨Or.inr, fun hh => hh.elim (fun ⟨l, a, b⟩ => ⟨l, h1 a, b⟩) id⟩
        · simp only [stored_M]
          exact ⟨Or.inl, fun hh => hh.elim id (fun ⟨l, a, b⟩ => ⟨l, h2 a, b⟩)⟩
        · simp only [raw_many, stored_M]; simp [or_and_right, exists_or]

theorem raw_intersect (h : HashOrder (List T)) (f g : Forest T) (s : Finset T) :
    (∃ l, (intersect h f g).Stored l ∧ l.toFinset = s) ↔
      ∃ l, f.Stored l ∧ g.Stored l ∧ l.toFinset = s := by
  unfold intersect
  split_ifs with hfg
  · subst hfg; simp
  · cases f with
    | Empty => cases g <;> simp [stored_E, stored_U, stored_M, empty]
    | Unit a =>
      cases g with
      | Empty => simp [stored_E, stored_U, stored_M, empty]
      | Unit b =>
        simp only [stored_E, stored_U, empty, false_and, exists_false, false_iff, not_exists, not_and]
        rintro l rfl rfl; exact absurd rfl hfg
      | Many m =>
        simp only
        split_ifs with h1 <;> simp [stored_E, stored_U, stored_M, empty, h1]
    | Many m =>
      cases g with
      | Empty => simp [stored_E, stored_U, stored_M, empty]
      | Unit b =>
        simp only
        split_ifs with h1
        · simp only [stored_U, stored_M]
          exact ⟨fun ⟨l, e, q⟩ => ⟨l, e ▸ h1, e, q⟩, fun ⟨l, _, e, q⟩ => ⟨l, e, q⟩⟩
        · simp only [stored_E, stored_U, stored_M, empty, false_and, exists_false, false_iff, not_exists,
            not_and]
          rintro l hm rfl; exact absurd hm h1
      | Many m2 => simp only [raw_many, stored_M]; simp [and_assoc]

theorem raw_filter (h : HashOrder (List T)) (m : Finset (List T)) (p : List T → Bool) (s : Finset T) :
    (∃ l, (many ((h.iter m).filter p)).Stored l ∧ l.toFinset = s) ↔
      ∃ l ∈ m, p l = true ∧ l.toFinset = s := by
  rw [raw_many]; simp [and_assoc]

theorem raw_subset (h : HashOrder (List T)) (f : Forest T) (x : T) (s : Finset T) :
    (∃ l, (subset h f x).Stored l ∧ l.toFinset = s) ↔ (∃ l, f.Stored l ∧ l.toFinset = s) ∧ x ∈ s := by
  cases f with
  | Empty => simp [subset, empty]
  | Unit a =>
    simp only [subset]
    split_ifs with h1
    · simp only [stored_U, exists_eq_left]
      exact ⟨fun e => ⟨e, by subst e; simpa using h1⟩, fun e => e.1⟩
    · simp only [stored_U, exists_eq_left, empty, stored_E, false_and, exists_false, false_iff, not_and]
      rintro rfl; simpa using h1
  | Many m =>
    simp only [subset, raw_filter, stored_M, decide_eq_true_eq]
    constructor
    · rintro ⟨l, hl, hx, rfl⟩; exact ⟨⟨l, hl, rfl⟩, by simpa using hx⟩
    · rintro ⟨⟨l, hl, rfl⟩, hx⟩; exact ⟨l, hl, by simpa using hx, rfl⟩

theorem raw_subsetNot (h : HashOrder (List T)) (f : Forest T) (x : T) (s : Finset T) :
    (∃ l, (subsetNot h f x).Stored l ∧ l.toFinset = s) ↔
      (∃ l, f.Stored l ∧ l.toFinset = s) ∧ x ∉ s := by
  cases f with
  | Empty => simp [subsetNot, empty]
  | Unit a =>
    simp only [subsetNot]
    split_ifs with h1
    · simp only [stored_U, exists_eq_left, empty, stored_E, false_and, exists_false, false_iff, not_and]
      rintro rfl; simpa using h1
    · simp only [stored_U, exists_eq_left]
      exact ⟨fun e => ⟨e, by subst e; simpa using h1⟩, fun e => e.1⟩
  | Many m =>
    simp only [subsetNot, raw_filter, stored_M, Bool.not_eq_true', decide_eq_false_iff_not]
    constructor
    · rintro ⟨l, hl, hx, rfl⟩; exact ⟨⟨l, hl, rfl⟩, by simpa using hx⟩
    · rintro ⟨⟨l, hl, rfl⟩, hx⟩; exact ⟨l, hl, by simpa using hx, rfl⟩

theorem raw_subsetAll (h : HashOrder (List T)) (f : Forest T) (xs : List T) (s : Finset T) :
    (∃ l, (subsetAll h f xs).Stored l ∧ l.toFinset = s) ↔
      (∃ l, f.Stored l ∧ l.toFinset = s) ∧ ∀ x ∈ xs, x ∈ s := by
  unfold subsetAll
  split_ifs with h0
  · rw [List.isEmpty_iff] at h0; subst h0; simp
  · cases f with
    | Empty => simp [empty]
    | Unit a =>
      simp only
      split_ifs with h1
      · rw [List.all_eq_true] at h1
        simp only [stored_U, exists_eq_left]
        exact ⟨fun e => ⟨e, fun x hx => by subst e; simpa using h1 x hx⟩, fun e => e.1⟩
      · simp only [stored_U, exists_eq_left, empty, stored_E, false_and, exists_false, false_iff, not_and]
        rintro rfl h2
        exact h1 (List.all_eq_true.2 (fun x hx => by simpa using h2 x hx))
    | Many m =>
      simp only [raw_filter, stored_M, List.all_eq_true, decide_eq_true_eq]
      constructor
      · rintro ⟨l, hl, hx, rfl⟩; exact ⟨⟨l, hl, rfl⟩, by simpa using hx⟩
      · rintro ⟨⟨l, hl, rfl⟩, hx⟩; exact ⟨l, hl, by simpa using hx, rfl⟩

theorem raw_subsetNone (h : HashOrder (List T)) (f : Forest T) (xs : List T) (s : Finset T) :
    (∃ l, (subsetNone h f xs).Stored l ∧ l.toFinset = s) ↔
      (∃ l, f.Stored l ∧ l.toFinset = s) ∧ ∀ x ∈ xs, x ∉ s := by
  unfold subsetNone
  split_ifs with h0
  · rw [List.isEmpty_iff] at h0; subst h0; simp
  · cases f with
    | Empty => simp [empty]
    | Unit a =>
      simp only
      split_ifs with h1
      · rw [List.all_eq_true] at h1
        simp only [stored_U, exists_eq_left]
        exact ⟨fun e => ⟨e, fun x hx => by subst e; simpa using h1 x hx⟩, fun e => e.1⟩
      · simp only [stored_U, exists_eq_left, empty, stored_E, false_and, exists_false, false_iff, not_and]
        rintro rfl h2
        exact h1 (List.all_eq_true.2 (fun x hx => by simpa using h2 x hx))
    | Many m =>
      simp only [raw_filter, stored_M, List.all_eq_true, Bool.not_eq_true', decide_eq_false_iff_not]
      constructor
      · rintro ⟨l, hl, hx, rfl⟩; exact ⟨⟨l, hl, rfl⟩, by simpa using hx⟩
      · rintro ⟨⟨l, hl, rfl⟩, hx⟩; exact ⟨l, hl, by simpa using hx, rfl⟩

end Forest

/-! ## C91 -/

/-- C91, the part that holds of every value however it was written: union, product and the four filters
treat it as the sets it lists. -/
theorem written_ops_partial (h h1 h2 h' : HashOrder (List T)) (f g : Forest T) (x : T) (xs : List T) :
    family ((Forest.union h f g).trees h') = family (f.trees h') ∪ family (g.trees h') ∧
    family ((Forest.product h1 h2 f g).trees h') = prod (family (f.trees h')) (family (g.trees h')) ∧
    family ((Forest.subset h f x).trees h') = having (family (f.trees h')) x ∧
    family ((Forest.subsetNot h f x).trees h') = without (family (f.trees h')) x ∧
    family ((Forest.subsetAll h f xs).trees h') = havingAll (family (f.trees h')) xs ∧
    family ((Forest.subsetNone h f xs).trees h') = havingNone (family (f.trees h')) xs := by
  refine ⟨?_, ?_, ?_, ?_, ?_, ?_⟩
  · ext s; simp only [Set.mem_union, Forest.mem_family, Forest.raw_union]
  · ext s
    simp only [prod, Set.mem_ofPred_eq, Forest.mem_family, Forest.stored_product]
    constructor
    · rintro ⟨l, ⟨a, b, ha, hb, rfl⟩, rfl⟩
      exact ⟨_, ⟨a, ha, rfl⟩, _, ⟨b, hb, rfl⟩, by simp⟩
    · rintro ⟨_, ⟨a, ha, rfl⟩, _, ⟨b, hb, rfl⟩, rfl⟩
      exact ⟨_, ⟨a, b, ha, hb, rfl⟩, by simp⟩
  · ext s; simp only [having, Set.mem_ofPred_eq, Forest.mem_family, Forest.raw_subset]
  · ext s; simp only [without, Set.mem_ofPred_eq, Forest.mem_family, Forest.raw_subsetNot]
  · ext s; simp only [havingAll, Set.mem_ofPred_eq, Forest.mem_family, Forest.raw_subsetAll]
  · ext s; simp only [havingNone, Set.mem_ofPred_eq, Forest.mem_family, Forest.raw_subsetNone]

/-- C91: `intersect` compares vectors, not sets: the result has the sets of the vectors listed by both.  It is
the intersection exactly if every set that both hold is listed by both as one and the same vector. -/
theorem written_intersect_partial (h h' : HashOrder (List T)) (f g : Forest T) :
    family ((Forest.intersect h f g).trees h') =
      {s | ∃ l, l ∈ f.trees h' ∧ l ∈ g.trees h' ∧ l.toFinset = s} ∧
    (family ((Forest.intersect h f g).trees h') = family (f.trees h') ∩ family (g.trees h') ↔
      ∀ a ∈ f.trees h', ∀ b ∈ g.trees h', a.toFinset = b.toFinset →
        ∃ l, l ∈ f.trees h' ∧ l ∈ g.trees h' ∧ l.toFinset = a.toFinset) := by
  have key : family ((Forest.intersect h f g).trees h') =
      {s | ∃ l, l ∈ f.trees h' ∧ l ∈ g.trees h' ∧ l.toFinset = s} := by
    ext s; simp only [Set.mem_ofPred_eq, Forest.mem_family, Forest.raw_intersect, Forest.mem_trees]
  refine ⟨key, ?_⟩
  rw [key]
  constructor
  · intro e a ha b hb hab
    have : a.toFinset ∈ family (f.trees h') ∩ family (g.trees h') := ⟨⟨a, ha, rfl⟩, ⟨b, hb, hab.symm⟩⟩
    rw [← e] at this
    exact this
  · intro hh
    ext s
    constructor
    · rintro ⟨l, h1, h2, rfl⟩; exact ⟨⟨l, h1, rfl⟩, ⟨l, h2, rfl⟩⟩
    · rintro ⟨⟨a, ha, rfl⟩, ⟨b, hb, e⟩⟩; exact hh a ha b hb e.symm

theorem len_trees (h : HashOrder (List T)) (f : Forest T) : f.len = (f.trees h).length := by
  cases f with
  | Empty => rfl
  | Unit s => rfl
  | Many m => exact (h.length_iter m).symm

/-- C91: `len` counts vectors: it is at least the number of sets, and equal to it exactly if no set is listed by
two vectors.  `is_empty` is right except for `Many` of no vectors, which lists nothing and says it is not
empty. -/
theorem written_len_partial (h : HashOrder (List T)) (f : Forest T) (S : Finset (Finset T))
    (hS : ∀ s, s ∈ S ↔ s ∈ family (f.trees h)) :
    S.card ≤ f.len ∧
    (f.len = S.card ↔ ∀ a ∈ f.trees h, ∀ b ∈ f.trees h, a.toFinset = b.toFinset → a = b) ∧
    ((f.isEmpty = true ↔ family (f.trees h) = ∅) ↔ f ≠ .Many ∅) := by
  have hS' : S = (f.trees h).toFinset.image List.toFinset := by
    ext s; rw [hS]; simp [family]
  have hc : (f.trees h).toFinset.card = f.len := by
    rw [len_trees h, List.toFinset_card_of_nodup (trees_nodup h f)]
  refine ⟨by rw [hS', ← hc]; exact Finset.card_image_le, ?_, ?_⟩
  · rw [hS', ← hc]
    constructor
    · intro e a ha b hb hab
      exact Finset.card_image_iff.mp e.symm (by simpa using ha) (by simpa using hb) hab
    · intro hh
      refine (Finset.card_image_iff.mpr ?_).symm
      intro a ha b hb hab
      exact hh a (by simpa using ha) b (by simpa using hb) hab
  · rw [Set.eq_empty_iff_forall_notMem]
    simp only [Forest.mem_family]
    cases f with
    | Empty => simp [Forest.isEmpty]
    | Unit s => simp [Forest.isEmpty]
    | Many m =>
      simp only [Forest.isEmpty, Forest.stored_M, ne_eq, Forest.Many.injEq]
      constructor
      · rintro hh rfl; simp at hh
      · intro hm
        obtain ⟨l, hl⟩ := Finset.nonempty_iff_ne_empty.mpr hm
        exact ⟨fun e => absurd e (by simp), fun e => absurd ⟨l, hl, rfl⟩ (e l.toFinset)⟩

/-- C91: `occurrences` of a written value: a `Unit` lists its vector as it stands, one entry per position; a
`Many` lists each item once, in order, with the number of positions at which it stands. -/
theorem written_occurrences_partial (h h' : HashOrder (List T)) (mo : HashOrder (T × ℕ)) :
    (∀ s : List T, (Forest.Unit s).occurrences h mo = s.map (fun x => (x, 1))) ∧
    ∀ m : Finset (List T), ((Forest.Many m).occurrences h mo).Pairwise (fun a b => a.1 < b.1) ∧
      ∀ x n, (x, n) ∈ (Forest.Many m).occurrences h mo ↔
        (∃ l ∈ m, x ∈ l) ∧ n = (((Forest.Many m).trees h').map (List.count x)).sum := by
  refine ⟨fun s => rfl, fun m => ?_⟩
  have hc : KeysLt (countMap (h.iter m).flatten) := countMap_keysLt _
  have hnd : (countMap (h.iter m).flatten).Nodup :=
    hc.imp (fun {a b} hh e => by subst e; exact lt_irrefl _ hh)
  have hocc : (Forest.Many m).occurrences h mo = countMap (h.iter m).flatten := by
    refine sortByKey_of_perm hc ?_
    exact (List.perm_ext_iff_of_nodup (mo.nodup _) hnd).2 (by simp)
  rw [hocc]
  refine ⟨hc, fun x n => ?_⟩
  rw [mem_countMap, ((h.perm h' m).flatten).count_eq x, List.count_flatten]
  simp only [Forest.trees, List.mem_flatten, HashOrder.mem_iter]

/-- C91 is false of the code: written as `Unit([2, 1])` and `Unit([1, 2])` the same set intersects to nothing and
compares unequal; `Many({[1, 2], [2, 1]})` has length 2; `Many({})` is not empty; `Unit([1, 1])` lists item 1
twice. -/
theorem written_values_wrong (h : HashOrder (List ℕ)) (mo : HashOrder (ℕ × ℕ)) :
    (∃ f g : Forest ℕ, f.trees h = [[2, 1]] ∧ g.trees h = [[1, 2]] ∧ f ≠ g ∧
      family ((Forest.intersect h f g).trees h) ≠ family (f.trees h) ∩ family (g.trees h)) ∧
    (∃ f : Forest ℕ, family (f.trees h) = {{1, 2}} ∧ f.len = 2) ∧
    (∃ f : Forest ℕ, family (f.trees h) = ∅ ∧ f.isEmpty = false) ∧
    (∃ f : Forest ℕ, family (f.trees h) = {{1}} ∧ f.occurrences h mo = [(1, 1), (1, 1)]) := by
  refine ⟨⟨.Unit [2, 1], .Unit [1, 2], rfl, rfl, by decide, ?_⟩, ⟨.Many {[1, 2], [2, 1]}, ?_, by decide⟩,
    ⟨.Many ∅, ?_, rfl⟩, ⟨.Unit [1, 1], ?_, rfl⟩⟩
  · intro e
    have : ({1, 2} : Finset ℕ) ∈ family ((Forest.Unit [2, 1]).trees h) ∩
        family ((Forest.Unit [1, 2]).trees h) := ⟨⟨[2, 1], by simp [Forest.trees], by decide⟩,
          ⟨[1, 2], by simp [Forest.trees], by decide⟩⟩
    rw [← e, (written_intersect_partial h h _ _).1] at this
    obtain ⟨l, h1, h2, _⟩ := this
    simp only [Forest.trees, List.mem_singleton] at h1 h2
    exact absurd (h1.symm.trans h2) (by decide)
  · ext s
    rw [Forest.mem_family]
    simp only [Forest.stored_M, Finset.mem_insert, Finset.mem_singleton, Set.mem_singleton_iff]
    constructor
    · rintro ⟨l, rfl | rfl, rfl⟩ <;> decide
    · rintro rfl; exact ⟨[1, 2], Or.inl rfl, by decide⟩
  · ext s; rw [Forest.mem_family]; simp
  · ext s
    rw [Forest.mem_family]
    simp only [Forest.stored_U, exists_eq_left, Set.mem_singleton_iff]
    rw [eq_comm]; simp

/-- C91: which written values are ordinary ones: exactly those with strictly ascending vectors that are not
`Many` of nothing can be made with the constructors and operations. -/
theorem written_reach_iff (f : Forest T) :
    Reach f ↔ (∀ h : HashOrder (List T), ∀ l ∈ f.trees h, l.Pairwise (· < ·)) ∧ f ≠ .Many ∅ := by
  constructor
  · intro hr
    refine ⟨fun h l hl => hr.wf.lt l ((Forest.mem_trees h f l).1 hl), ?_⟩
    rintro rfl
    simpa using hr.wf.nonempty ∅ rfl
  · rintro ⟨hl, hne⟩
    have hl' : ∀ l, f.Stored l → l.Pairwise (· < ·) := fun l hs =>
      hl (HashOrder.anyOrder _) l ((Forest.mem_trees _ f l).2 hs)
    cases f with
    | Empty => exact ⟨_, .empty⟩
    | Unit s =>
      have := Runs.unit s
      rw [Forest.unit, filterRepeats_of_lt (hl' s rfl)] at this
      exact ⟨_, this⟩
    | Many m =>
      obtain ⟨a, ha⟩ := Finset.nonempty_iff_ne_empty.mpr (fun e : m = ∅ => hne (by rw [e]))
      have key : Forest.many (a :: a :: (HashOrder.anyOrder (List T)).iter m) = .Many m := by
        simp only [Forest.many, Forest.Many.injEq]
        ext l
        simp only [List.mem_toFinset, mem_uniq, List.mem_map, List.mem_cons, HashOrder.mem_iter]
        constructor
        · rintro ⟨x, rfl | rfl | hx, rfl⟩
          · rwa [filterRepeats_of_lt (hl' _ ha)]
          · rwa [filterRepeats_of_lt (hl' _ ha)]
          · rwa [filterRepeats_of_lt (hl' _ hx)]
        · intro hm; exact ⟨l, Or.inr (Or.inr hm), filterRepeats_of_lt (hl' _ hm)⟩
      exact ⟨_, key ▸ Runs.many (a :: a :: (HashOrder.anyOrder (List T)).iter m)⟩

/-- C91: how to make a written value ordinary: the product with `unit(&[])` has the same sets and is a value
the constructors make, so everything proved of those applies to it. -/
theorem written_normalise (h1 h2 h : HashOrder (List T)) (f : Forest T) :
    Reach (Forest.product h1 h2 f (Forest.unit [])) ∧
    family ((Forest.product h1 h2 f (Forest.unit [])).trees h) = family (f.trees h) := by
  refine ⟨?_, ?_⟩
  · rw [written_reach_iff]
    have hw := Forest.wf_product h1 h2 f (Forest.unit [])
    refine ⟨fun h l hl => hw.lt l ((Forest.mem_trees h _ l).1 hl), fun e => ?_⟩
    simpa using hw.nonempty ∅ e
  · ext s
    rw [Forest.mem_family, Forest.mem_family]
    simp only [Forest.stored_product, Forest.unit, Forest.stored_U]
    constructor
    · rintro ⟨l, ⟨a, b, ha, rfl, rfl⟩, rfl⟩; exact ⟨a, ha, by simp⟩
    · rintro ⟨l, hl, rfl⟩; exact ⟨_, ⟨l, _, hl, rfl, rfl⟩, by simp⟩

/-- C91: no result depends on the order in which a hash set is visited, however the operands were written. -/
theorem written_deterministic (h h' : HashOrder (List T)) (k1 k2 k1' k2' : HashOrder (List T)) (f g : Forest T)
    (x : T) (xs : List T) :
    Forest.union h f g = Forest.union h' f g ∧ Forest.intersect h f g = Forest.intersect h' f g ∧
    Forest.product k1 k2 f g = Forest.product k1' k2' f g ∧
    Forest.subset h f x = Forest.subset h' f x ∧ Forest.subsetNot h f x = Forest.subsetNot h' f x ∧
    Forest.subsetAll h f xs = Forest.subsetAll h' f xs ∧
    Forest.subsetNone h f xs = Forest.subsetNone h' f xs := by
  refine ⟨?_, ?_, ?_, ?_, ?_, ?_, ?_⟩
  · exact ((comm_laws h h k1 k2 f g).1).trans (comm_laws h h' k1 k2 g f).1
  · exact ((comm_laws h h k1 k2 f g).2.1).trans (comm_laws h h' k1 k2 g f).2.1
  · exact ((comm_laws k1 k1 k2 k2 f g).2.2).trans (comm_laws k2 k2' k1 k1' g f).2.2
  · cases f <;> first | rfl | exact Forest.many_perm ((h.perm h' _).filter _)
  · cases f <;> first | rfl | exact Forest.many_perm ((h.perm h' _).filter _)
  · unfold Forest.subsetAll
    split_ifs
    · rfl
    · cases f <;> first | rfl | exact Forest.many_perm ((h.perm h' _).filter _)
  · unfold Forest.subsetNone
    split_ifs
    · rfl
    · cases f <;> first | rfl | exact Forest.many_perm ((h.perm h' _).filter _)

/-- A written value that is ordinary, and one that is not. -/
example : Reach (.Many {[1, 2], [3]} : Forest ℕ) ∧ ¬ Reach (.Unit [2, 1] : Forest ℕ) := by
  constructor
  · refine (written_reach_iff _).mpr ⟨fun h l hl => ?_, by decide⟩
    simp only [Forest.trees, HashOrder.mem_iter, Finset.mem_insert, Finset.mem_singleton] at hl
    rcases hl with rfl | rfl <;> decide
  · intro hr
    have := ((written_reach_iff _).mp hr).1 (HashOrder.anyOrder _) [2, 1] (by simp [Forest.trees])
    exact absurd this (by decide)

end Verif.Matrix
