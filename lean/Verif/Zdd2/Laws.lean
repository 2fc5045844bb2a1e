import Verif.Zdd2.Binary

/-!
# When the zdd2 binary operations are exact, and when not (C17, C18, C19, C55)
-/

set_option linter.unusedSimpArgs false
set_option linter.unusedVariables false
set_option linter.unusedSectionVars false

namespace Verif.Zdd2
open Verif Verif.Spec Verif.Zdd2.Spec

universe u
variable {T : Type u} [LinearOrder T]

open Forest Universe

/-! ### sufficient conditions for `Compatible` -/

theorem before_irrefl (c : T → Nat) (x : T) : ¬ Before c x x := by
  rintro (h | ⟨_, h⟩) <;> exact lt_irrefl _ h

theorem before_asymm {c : T → Nat} {x y : T} (h : Before c x y) : ¬ Before c y x := by
  rintro (h' | ⟨h', h''⟩) <;> rcases h with h | ⟨h, h3⟩
  · omega
  · omega
  · omega
  · exact lt_asymm h'' h3

/-- One member at most. -/
theorem orderSafe_of_one {A : Set (Finset T)} (c c' : T → Nat) (h : A.Subsingleton) :
    OrderSafe A c c' := by
  intro s hs t ht x hx y hy _ _ _
  have := h hs ht; subst this
  simp [hx, hy]

/-- Members with at most one item. -/
theorem orderSafe_of_small {A : Set (Finset T)} (c c' : T → Nat) (h : ∀ s ∈ A, s.card ≤ 1) :
    OrderSafe A c c' := by
  intro s hs t ht x hx y hy h1 _ _
  have := Finset.card_le_one.mp (h s hs) x hx y hy
  subst this
  exact absurd h1 (before_irrefl _ _)

/-- The other family has the same count for all the items of this one. -/
theorem orderSafe_of_const {A : Set (Finset T)} (c d : T → Nat)
    (h : ∀ s ∈ A, ∀ x ∈ s, ∀ y ∈ s, d x = d y) : OrderSafe A c (fun x => c x + d x) := by
  intro s hs t ht x hx y hy h1 h2 _
  exfalso
  have e := h s hs x hx y hy
  refine before_asymm h1 ?_
  rcases h2 with h2 | ⟨h2, h3⟩
  · exact Or.inl (by simp only at h2; omega)
  · exact Or.inr ⟨by simp only at h2; omega, h3⟩

theorem orderSafe_of_const' {A : Set (Finset T)} (c d : T → Nat)
    (h : ∀ s ∈ A, ∀ x ∈ s, ∀ y ∈ s, d x = d y) : OrderSafe A c (fun x => d x + c x) := by
  have := orderSafe_of_const (A := A) c d h
  simpa [Nat.add_comm] using this

theorem compatible_empty_right (A : Set (Finset T)) : Compatible A ∅ :=
  ⟨orderSafe_of_const _ _ (fun s _ x _ y _ => by simp [Verif.Zdd2.Spec.count, having]),
    fun s hs => absurd hs (by simp)⟩

theorem compatible_self (A : Set (Finset T)) : Compatible A A := by
  have : OrderSafe A (count A) (fun x => count A x + count A x) := by
    intro s hs t ht x hx y hy h1 h2 _
    exfalso
    refine before_asymm h1 ?_
    rcases h2 with h2 | ⟨h2, h3⟩
    · exact Or.inl (by simp only at h2; omega)
    · exact Or.inr ⟨by simp only at h2; omega, h3⟩
  exact ⟨this, this⟩

theorem count_eq_zero {A : Set (Finset T)} {x : T} (h : ∀ s ∈ A, x ∉ s) : count A x = 0 := by
  have : having A x = ∅ := by
    ext s; simp only [having, Set.mem_ofPred_eq, Set.mem_empty_iff_false, iff_false, not_and]
    exact h s
  simp [Verif.Zdd2.Spec.count, this]

theorem compatible_of_disjoint {A B : Set (Finset T)} (h : ItemDisjoint A B) : Compatible A B := by
  refine ⟨orderSafe_of_const _ _ ?_, orderSafe_of_const' _ _ ?_⟩
  · have : ∀ s ∈ A, ∀ x ∈ s, count B x = 0 := fun s hs x hx =>
      count_eq_zero fun t ht hxt => Finset.disjoint_left.mp (h s hs t ht) hx hxt
    intro s hs x hx y hy; rw [this s hs x hx, this s hs y hy]
  · have : ∀ s ∈ B, ∀ x ∈ s, count A x = 0 := fun s hs x hx =>
      count_eq_zero fun t ht hxt => Finset.disjoint_left.mp (h t ht s hs) hxt hx
    intro s hs x hx y hy; rw [this s hs x hx, this s hs y hy]

/-- A family of at most one member, or of members of at most one item.
Not code: used to state or prove properties. -/
def Simple (A : Set (Finset T)) : Prop := A.Subsingleton ∨ ∀ s ∈ A, s.card ≤ 1

theorem compatible_of_simple {A B : Set (Finset T)} (ha : Simple A) (hb : Simple B) :
    Compatible A B :=
  ⟨ha.elim (orderSafe_of_one _ _) (orderSafe_of_small _ _),
    hb.elim (orderSafe_of_one _ _) (orderSafe_of_small _ _)⟩

theorem compatible_symm {A B : Set (Finset T)} (h : Compatible A B) : Compatible B A := by
  obtain ⟨h1, h2⟩ := h
  refine ⟨?_, ?_⟩
  · simpa [Nat.add_comm] using h2
  · simpa [Nat.add_comm] using h1

/-- Equal counts for every item: in particular two forests with equal `occurrences()`. -/
theorem compatible_of_counts {A B : Set (Finset T)}
    (h : ∀ x, Verif.Zdd2.Spec.count A x = Verif.Zdd2.Spec.count B x) : Compatible A B := by
  have key : ∀ (C : Set (Finset T)) (c : T → Nat), OrderSafe C c (fun x => c x + c x) := by
    intro C c s hs t ht x hx y hy h1 h2 _
    exfalso
    refine before_asymm h1 ?_
    rcases h2 with h2 | ⟨h2, h3⟩
    · exact Or.inl (by simp only at h2; omega)
    · exact Or.inr ⟨by simp only at h2; omega, h3⟩
  refine ⟨?_, ?_⟩
  · simp only [← h]; exact key _ _
  · simp only [h]; exact key _ _

/-- C52: for forests over one universe (equal `occurrences()`), whatever the members: union is
exact; every common member is in the intersection and every member of it is in one operand; every
member of the product is a pairwise union. -/
theorem same_universe_bounds {f g r : Forest T} (hf : Reach f) (hg : Reach g)
    (h : f.occurrences = g.occurrences) :
    (f.union g = some r → family r.trees = family f.trees ∪ family g.trees) ∧
    (f.intersect g = some r → family f.trees ∩ family g.trees ⊆ family r.trees ∧
      family r.trees ⊆ family f.trees ∪ family g.trees) ∧
    (f.product g = some r → family r.trees ⊆ prod (family f.trees) (family g.trees)) := by
  have hc : Compatible (family f.trees) (family g.trees) := by
    refine compatible_of_counts fun x => ?_
    have e1 := hf.canon.count x
    have e2 := hg.canon.count x
    have e3 : f.univ.occurrences = g.univ.occurrences := by
      have h1 := sortByKey_of_perm hf.canon.ok.1 (List.Perm.refl f.univ.occurrences)
      have h2 := sortByKey_of_perm hg.canon.ok.1 (List.Perm.refl g.univ.occurrences)
      simp only [Forest.occurrences, Forest.occurrencesIter] at h
      rw [← h1, ← h2, h]
    rw [Universe.count, e3] at e1
    rw [Universe.count] at e2
    exact e1.symm.trans e2
  refine ⟨fun hr => union_family_partial hf hg hc hr, fun hr => ?_, fun hr => product_bounds hf hg hc hr⟩
  obtain ⟨lo, up⟩ := intersect_bounds hf hg hc hr
  refine ⟨lo, fun s hs => ?_⟩
  rcases up s hs with ⟨h1, _⟩ | ⟨h1, _⟩
  · exact Or.inl h1
  · exact Or.inr h1

/-- Two different forests in which every item occurs once: the hypothesis is met. -/
example := fun r => same_universe_bounds (r := r) (reach_many [[1, 2], [3, 4]]) (reach_many [[1, 3], [2, 4]])
  (by decide +kernel)

/-- Different forests over one universe. -/
example : Forest.many [[1, 2], [3, 4]] ≠ Forest.many [[1, 3], [2, 4]] ∧
    (Forest.many [[1, 2], [3, 4]]).occurrences = (Forest.many [[1, 3], [2, 4]] : Forest ℕ).occurrences := by
  refine ⟨fun h => ?_, by decide⟩
  rw [many_eq_iff] at h
  have h12 := (h {1, 2} (by decide)).mp ⟨[1, 2], by simp, by decide⟩
  obtain ⟨l, hl, e⟩ := h12
  simp only [List.mem_cons, List.not_mem_nil, or_false] at hl
  rcases hl with rfl | rfl <;> exact absurd e (by decide)

/-! ### exactness in named cases -/

/-- C17 (proved part): union is exact for forests with no item in common, for two forests each of
one member or of single-item members, and for two forests of equal members. -/
theorem union_cases_partial {f g r : Forest T} (hf : Reach f) (hg : Reach g)
    (h : ItemDisjoint (family f.trees) (family g.trees) ∨
      (Simple (family f.trees) ∧ Simple (family g.trees)) ∨ family f.trees = family g.trees)
    (hr : f.union g = some r) :
    family r.trees = family f.trees ∪ family g.trees := by
  refine union_family_partial hf hg ?_ hr
  rcases h with h | ⟨h1, h2⟩ | h
  · exact compatible_of_disjoint h
  · exact compatible_of_simple h1 h2
  · rw [h]; exact compatible_self _

/-- C18 (proved part): intersect is exact (empty) for forests with no item in common. -/
theorem intersect_disjoint_partial {f g r : Forest T} (hf : Reach f) (hg : Reach g)
    (h : ItemDisjoint (family f.trees) (family g.trees)) (hr : f.intersect g = some r) :
    family r.trees = ∅ := by
  have sub : ∀ {p q : Finset T}, Disjoint p q → q.Nonempty → ¬ q ⊂ p := by
    rintro p q hd ⟨x, hx⟩ hs
    exact Finset.disjoint_left.mp hd (hs.subset hx) hx
  rw [intersect_family_partial hf hg (compatible_of_disjoint h) ?_ ?_ hr]
  · ext s
    simp only [Set.mem_inter_iff, Set.mem_empty_iff_false, iff_false, not_and]
    intro h1 h2
    obtain ⟨x, hx⟩ := hf.canon.fam_nonempty h1
    exact Finset.disjoint_left.mp (h s h1 s h2) hx hx
  · intro p hp q hq hqp
    exact absurd hqp (sub (h p hp q hq) (hg.canon.fam_nonempty hq))
  · intro p hp q hq hqp
    exact absurd hqp (sub (h q hq p hp).symm (hf.canon.fam_nonempty hq))

/-- C18 (proved part): intersect is exact for two forests of single-item members. -/
theorem intersect_unique_partial (xs ys : List T) {r : Forest T}
    (hr : (Forest.unique xs).intersect (Forest.unique ys) = some r) :
    family r.trees = {s | ∃ x, x ∈ xs ∧ x ∈ ys ∧ s = {x}} := by
  have small : ∀ zs : List T, ∀ s ∈ family (Forest.unique zs).trees, s.card ≤ 1 := by
    intro zs s hs
    rw [unique_family] at hs
    obtain ⟨x, _, rfl⟩ := hs; simp
  have noneAbove : ∀ xs ys : List T,
      NoneAbove (family (Forest.unique xs).trees) (family (Forest.unique ys).trees) := by
    intro xs ys p hp q hq hqp
    exfalso
    have h1 := Finset.card_lt_card hqp
    have h2 := small _ p hp
    have h3 := (reach_unique ys).canon.fam_nonempty hq
    have := Finset.card_pos.mpr h3
    omega
  rw [intersect_family_partial (reach_unique xs) (reach_unique ys)
    (compatible_of_simple (Or.inr (small xs)) (Or.inr (small ys))) (noneAbove _ _) (noneAbove _ _) hr,
    unique_family, unique_family]
  ext s
  simp only [Set.mem_inter_iff, Set.mem_ofPred_eq]
  constructor
  · rintro ⟨⟨x, hx, rfl⟩, ⟨y, hy, e⟩⟩
    have : x = y := by simpa using e
    subst this; exact ⟨x, hx, hy, rfl⟩
  · rintro ⟨x, hx, hy, rfl⟩; exact ⟨⟨x, hx, rfl⟩, ⟨x, hy, rfl⟩⟩

example : ∃ r : Forest ℕ, (Forest.unique [1, 2]).intersect (Forest.unique [2, 3]) = some r ∧
    family r.trees = {s | ∃ x, x ∈ [1, 2] ∧ x ∈ [2, 3] ∧ s = {x}} := by
  obtain ⟨r, hr, _⟩ := (binary_total (reach_unique [1, 2]) (reach_unique [2, 3] : Reach (T := ℕ) _)).2.1
  exact ⟨r, hr, intersect_unique_partial _ _ hr⟩

/-- C19 (proved part): product is exact for forests with no item in common. -/
theorem product_disjoint_partial {f g r : Forest T} (hf : Reach f) (hg : Reach g)
    (h : ItemDisjoint (family f.trees) (family g.trees)) (hr : f.product g = some r) :
    family r.trees = prod (family f.trees) (family g.trees) :=
  product_family_partial hf hg (compatible_of_disjoint h) (Or.inr (Or.inr h)) hr

/-- Two forests with several members and no common item: the hypotheses of the claims about the binary
operations are met.  Not code: used to state or prove properties. -/
theorem demo_apart : ItemDisjoint (family (Forest.many [[1, 2], [1, 3]] : Forest ℕ).trees)
    (family (Forest.many [[4], [5, 6]] : Forest ℕ).trees) := by
  intro s hs t ht
  rw [many_family] at hs ht
  simp only [family, List.mem_cons, List.not_mem_nil, or_false, Set.mem_ofPred_eq,
    exists_eq_or_imp, exists_eq_left] at hs ht
  obtain ⟨hs, -⟩ := hs
  obtain ⟨ht, -⟩ := ht
  rcases hs with rfl | rfl <;> rcases ht with rfl | rfl <;> decide

example := fun r => union_family_partial (r := r) (reach_many _) (reach_many _) (compatible_of_disjoint demo_apart)
example := fun r => intersect_bounds (r := r) (reach_many _) (reach_many _) (compatible_of_disjoint demo_apart)
example := fun r => product_bounds (r := r) (reach_many _) (reach_many _) (compatible_of_disjoint demo_apart)
example := fun r => product_family_partial (r := r) (reach_many _) (reach_many _)
  (compatible_of_disjoint demo_apart) (Or.inr (Or.inr demo_apart))
example := fun r => union_cases_partial (r := r) (reach_many _) (reach_many _) (Or.inl demo_apart)
example := fun r => intersect_disjoint_partial (r := r) (reach_many _) (reach_many _) demo_apart
example := fun r => product_disjoint_partial (r := r) (reach_many _) (reach_many _) demo_apart
example := ops_comm (reach_many [[1, 2], [1, 3]]) (reach_many [[2], [3, 4], [1]])

/-- The other operand's results exist, so the conclusions above are about something. -/
example := binary_total (reach_many [[1, 2], [1, 3]]) (reach_many [[4], [5, 6]])

/-- `intersect_family_partial` with a common member on both sides. -/
example : ∃ r : Forest ℕ, (Forest.many [[1, 2], [1, 3]]).intersect (Forest.many [[1, 2], [1, 3]]) = some r ∧
    family r.trees = family (Forest.many [[1, 2], [1, 3]]).trees ∩ family (Forest.many [[1, 2], [1, 3]]).trees := by
  obtain ⟨r, hr, _⟩ := (binary_total (reach_many [[1, 2], [1, 3]]) (reach_many [[1, 2], [1, 3]] : Reach (T := ℕ) _)).2.1
  exact ⟨r, hr, intersect_family_partial (reach_many _) (reach_many _) (compatible_of_counts fun _ => rfl)
    (fun p hp _ _ _ => hp) (fun p hp _ _ _ => hp) hr⟩

/-- `ops_items`: the union of two forests with a common item has a member. -/
example : ∃ r : Forest ℕ, (Forest.unit [1, 2]).union (Forest.unit [2]) = some r ∧
    ∀ s ∈ family r.trees, ∀ x ∈ s, (∃ t ∈ family (Forest.unit [1, 2]).trees, x ∈ t) ∨
      ∃ t ∈ family (Forest.unit [2]).trees, x ∈ t := by
  obtain ⟨r, hr, _⟩ := (binary_total (reach_unit [1, 2]) (reach_unit [2] : Reach (T := ℕ) _)).1
  exact ⟨r, hr, fun s hs x hx => ops_items (reach_unit _) (reach_unit _) (Or.inl hr) hs hx⟩

/-! ## C55 laws holding on every reachable forest -/

theorem eq_of_family {f r : Forest T} (hf : Reach f) (hr : r.Canon)
    (h : family r.trees = family f.trees) : r = f :=
  hr.eq_of_fam hf.canon h

theorem reach_of_union {f g r : Forest T} (hf : Reach f) (hg : Reach g) (h : f.union g = some r) :
    Reach r := by
  obtain ⟨r', e, hr⟩ := (binary_total hf hg).1
  rw [h] at e; cases e; exact hr

theorem reach_of_intersect {f g r : Forest T} (hf : Reach f) (hg : Reach g)
    (h : f.intersect g = some r) : Reach r := by
  obtain ⟨r', e, hr⟩ := (binary_total hf hg).2.1
  rw [h] at e; cases e; exact hr

theorem reach_of_product {f g r : Forest T} (hf : Reach f) (hg : Reach g)
    (h : f.product g = some r) : Reach r := by
  obtain ⟨r', e, hr⟩ := (binary_total hf hg).2.2
  rw [h] at e; cases e; exact hr

/-- C55: union and intersect are idempotent. -/
theorem ops_idem {f : Forest T} (hf : Reach f) : f.union f = some f ∧ f.intersect f = some f := by
  obtain ⟨⟨r1, e1, h1⟩, ⟨r2, e2, h2⟩, _⟩ := binary_total hf hf
  rw [e1, e2]
  refine ⟨?_, ?_⟩
  · rw [eq_of_family hf h1.canon]
    rw [union_family_partial hf hf (compatible_self _) e1, Set.union_self]
  · rw [eq_of_family hf h2.canon]
    rw [intersect_family_partial hf hf (compatible_self _) (fun p hp _ _ _ => hp)
      (fun p hp _ _ _ => hp) e2, Set.inter_self]

/-- C55: the empty forest is neutral for union and absorbing for intersect and product. -/
theorem ops_empty {f : Forest T} (hf : Reach f) :
    f.union Forest.empty = some f ∧ f.intersect Forest.empty = some Forest.empty ∧
      f.product Forest.empty = some Forest.empty := by
  obtain ⟨⟨r1, e1, h1⟩, ⟨r2, e2, h2⟩, ⟨r3, e3, h3⟩⟩ := binary_total hf (reach_empty (T := T))
  have hc : Compatible (family f.trees) (family (Forest.empty : Forest T).trees) := by
    rw [empty_family]; exact compatible_empty_right _
  rw [e1, e2, e3]
  refine ⟨?_, ?_, ?_⟩
  · rw [eq_of_family hf h1.canon]
    rw [union_family_partial hf reach_empty hc e1, empty_family, Set.union_empty]
  · rw [eq_of_family reach_empty h2.canon]
    rw [intersect_family_partial hf reach_empty hc (by rw [empty_family]; intro p _ q hq; simp at hq)
      (by rw [empty_family]; intro p hp; simp at hp) e2, empty_family, Set.inter_empty]
  · rw [eq_of_family reach_empty h3.canon]
    refine Set.Subset.antisymm ((product_bounds hf reach_empty hc e3).trans ?_) (by rw [empty_family]; simp)
    rw [empty_family]
    rintro s ⟨p, _, q, hq, _⟩
    simp at hq

example := ops_empty (reach_many [[1, 2], [1, 3]])

/-- The code's product of a forest with itself is that forest. -/
theorem product_self {f : Forest T} (hf : Reach f) : f.product f = some f := by
  obtain ⟨a, b, hm, oa, ob, ia, ib, ea, eb, eu, ei, ep, _, _, hc⟩ := ops_raw hf.canon hf.canon
  obtain ⟨ha, hb⟩ := hc (compatible_self _)
  rw [ea] at eb; cases eb
  have e : Node.product a a = a := by rw [Node.product.eq_def, if_pos rfl]
  rw [ep, e]
  congr 1
  refine eq_of_family hf (canon_canonical _ _) ?_
  change Forest.fam _ = Forest.fam _
  rw [fam_canonical hm oa ia, ha, hf.canon.nonempty_fam]

/-! ## what is false of the code -/

/-- C19, the full statement, is false of the code: `{{1},{2}}·{{1},{2}}` loses `{1,2}`. -/
theorem product_not_exact : ¬ ∀ f g r : Forest ℕ, Reach f → Reach g → f.product g = some r →
    family r.trees = prod (family f.trees) (family g.trees) := by
  intro h
  have hf := reach_many [[1], [2]]
  have := h _ _ _ hf hf (product_self hf)
  have h12 : ({1, 2} : Finset ℕ) ∈ prod (family (Forest.many [[1], [2]]).trees)
      (family (Forest.many [[1], [2]]).trees) := by
    rw [many_family]
    exact ⟨{1}, ⟨⟨[1], by simp, by decide⟩, by decide⟩, {2}, ⟨⟨[2], by simp, by decide⟩, by decide⟩,
      by decide⟩
  rw [← this, many_family] at h12
  obtain ⟨⟨l, hl, e⟩, _⟩ := h12
  simp only [List.mem_cons, List.not_mem_nil, or_false] at hl
  rcases hl with rfl | rfl <;> exact absurd e (by decide)

/-- `{{1,2}} ∩ {{1}}` is computed as `{{1,2}}`. -/
theorem intersect_witness :
    (Forest.many [[1, 2]]).intersect (Forest.many [[1]]) = some (Forest.many [[1, 2]] : Forest ℕ) := by
  have u1 : Universe.fromMatrix [[1, 2]] =
    (⟨[(1, 1), (2, 1)], [(1, 0), (2, 1)], [1, 2]⟩ : Universe ℕ) := by decide
  have u2 : Universe.fromMatrix [[1]] = (⟨[(1, 1)], [(1, 0)], [1]⟩ : Universe ℕ) := by decide
  have m12 : Forest.many [[1, 2]] = (⟨.Branch 0 .Never (.Branch 1 .Never .Always),
      ⟨[(1, 1), (2, 1)], [(1, 0), (2, 1)], [1, 2]⟩⟩ : Forest ℕ) := by
    simp [many, u1, Universe.getPrioritiesNode, Universe.getPriority, Node.fromIter, lookup,
      Node.branch, Node.union]
  have m1 : Forest.many [[1]] =
      (⟨.Branch 0 .Never .Always, ⟨[(1, 1)], [(1, 0)], [1]⟩⟩ : Forest ℕ) := by
    simp [many, u2, Universe.getPrioritiesNode, Universe.getPriority, Node.fromIter, lookup,
      Node.branch, Node.union]
  have mm : merge (⟨[(1, 1), (2, 1)], [(1, 0), (2, 1)], [1, 2]⟩ : Universe ℕ) ⟨[(1, 1)], [(1, 0)], [1]⟩ =
      ⟨[(1, 2), (2, 1)], [(1, 0), (2, 1)], [1, 2]⟩ := by decide
  have s12 : sorted [1, 2] = ([1, 2] : List ℕ) := by decide
  rw [m1]
  conv_lhs => rw [m12]
  simp [intersect, translateRoots, mm, translateRoot, getItem, getPriority, lookup, Node.branch,
    Node.intersect, canonical, Node.trees, Node.treesLoop, getItems, s12]

/-- C18, the full statement, is false of the code. -/
theorem intersect_not_exact : ¬ ∀ f g r : Forest ℕ, Reach f → Reach g → f.intersect g = some r →
    family r.trees = family f.trees ∩ family g.trees := by
  intro h
  have := h _ _ _ (reach_many _) (reach_many _) intersect_witness
  have h12 : ({1, 2} : Finset ℕ) ∈ family (Forest.many [[1, 2]]).trees := by
    rw [many_family]; exact ⟨⟨[1, 2], by simp, by decide⟩, by decide⟩
  have h12' := h12
  rw [this] at h12'
  obtain ⟨_, h12'⟩ := h12'
  rw [many_family] at h12'
  obtain ⟨⟨l, hl, e⟩, _⟩ := h12'
  simp only [List.mem_cons, List.not_mem_nil, or_false] at hl
  subst hl; exact absurd e (by decide)

/-- `{{1,2},{1,3}} ∪ {{2},{2,3}}` is computed as `{{1,2},{2,3},{2}}`: `{1,3}` is lost. -/
theorem union_witness :
    (Forest.many [[1, 2], [1, 3]]).union (Forest.many [[2], [2, 3]]) =
      some (Forest.many [[1, 2], [2, 3], [2]] : Forest ℕ) := by
  have u1 : Universe.fromMatrix [[1, 2], [1, 3]] =
    (⟨[(1, 2), (2, 1), (3, 1)], [(1, 0), (2, 1), (3, 2)], [1, 2, 3]⟩ : Universe ℕ) := by decide
  have u2 : Universe.fromMatrix [[2], [2, 3]] =
    (⟨[(2, 2), (3, 1)], [(2, 0), (3, 1)], [2, 3]⟩ : Universe ℕ) := by decide
  have m12 : Forest.many [[1, 2], [1, 3]] =
      (⟨.Branch 0 .Never (.Branch 1 (.Branch 2 .Never .Always) .Always),
      ⟨[(1, 2), (2, 1), (3, 1)], [(1, 0), (2, 1), (3, 2)], [1, 2, 3]⟩⟩ : Forest ℕ) := by
    simp [many, u1, Universe.getPrioritiesNode, Universe.getPriority, Node.fromIter, lookup,
      Node.branch, Node.union]
  have m1 : Forest.many [[2], [2, 3]] =
      (⟨.Branch 0 .Never (.Branch 1 .Always .Always),
        ⟨[(2, 2), (3, 1)], [(2, 0), (3, 1)], [2, 3]⟩⟩ : Forest ℕ) := by
    simp [many, u2, Universe.getPrioritiesNode, Universe.getPriority, Node.fromIter, lookup,
      Node.branch, Node.union]
  have mm : merge (⟨[(1, 2), (2, 1), (3, 1)], [(1, 0), (2, 1), (3, 2)], [1, 2, 3]⟩ : Universe ℕ)
      ⟨[(2, 2), (3, 1)], [(2, 0), (3, 1)], [2, 3]⟩ =
      ⟨[(1, 2), (2, 3), (3, 2)], [(1, 1), (2, 0), (3, 2)], [2, 1, 3]⟩ := by decide
  have s1 : sorted [2, 1] = ([1, 2] : List ℕ) := by decide
  have s2 : sorted [2, 3] = ([2, 3] : List ℕ) := by decide
  have s3 : sorted [2] = ([2] : List ℕ) := by decide
  rw [m1]
  conv_lhs => rw [m12]
  simp [union, translateRoots, mm, translateRoot, getItem, getPriority, lookup, Node.branch,
    Node.union, canonical, Node.trees, Node.treesLoop, getItems, s1, s2, s3]

/-- C17, the full statement, is false of the code. -/
theorem union_not_exact : ¬ ∀ f g r : Forest ℕ, Reach f → Reach g → f.union g = some r →
    family r.trees = family f.trees ∪ family g.trees := by
  intro h
  have := h _ _ _ (reach_many _) (reach_many _) union_witness
  have h13 : ({1, 3} : Finset ℕ) ∈ family (Forest.many [[1, 2], [1, 3]]).trees := by
    rw [many_family]; exact ⟨⟨[1, 3], by simp, by decide⟩, by decide⟩
  have h13' := Set.mem_union_left (family (Forest.many [[2], [2, 3]]).trees) h13
  rw [← this, many_family] at h13'
  obtain ⟨⟨l, hl, e⟩, _⟩ := h13'
  simp only [List.mem_cons, List.not_mem_nil, or_false] at hl
  rcases hl with rfl | rfl | rfl <;> exact absurd e (by decide)

/-! ### the hypotheses are met -/

/-- Two overlapping families, not of the named shapes, that are `Compatible`; the union is exact. -/
example : Compatible (family [[1, 2], [1, 3]]) (family [[1], [1, 4]] : Set (Finset ℕ)) := by
  have hA : family [[1, 2], [1, 3]] = {({1, 2} : Finset ℕ), {1, 3}} := by
    ext s; simp [family, eq_comm]
  have hB : family [[1], [1, 4]] = {({1} : Finset ℕ), {1, 4}} := by
    ext s; simp [family, eq_comm]
  rw [hA, hB]
  have c : ∀ (a b : Finset ℕ) (x : ℕ), a ≠ b →
      Spec.count {a, b} x = (if x ∈ a then 1 else 0) + (if x ∈ b then 1 else 0) := by
    intro a b x hab
    unfold Spec.count
    by_cases h1 : x ∈ a <;> by_cases h2 : x ∈ b
    · have : having {a, b} x = {a, b} := by
        ext s; simp only [having, Set.mem_ofPred_eq, Set.mem_insert_iff, Set.mem_singleton_iff]
        constructor
        · exact fun h => h.1
        · rintro (rfl | rfl) <;> simp [h1, h2]
      rw [this, Set.ncard_pair hab]; simp [h1, h2]
    · have : having {a, b} x = {a} := by
        ext s; simp only [having, Set.mem_ofPred_eq, Set.mem_insert_iff, Set.mem_singleton_iff]
        constructor
        · rintro ⟨rfl | rfl, h⟩ <;> simp_all
        · rintro rfl; simp [h1]
      rw [this, Set.ncard_singleton]; simp [h1, h2]
    · have : having {a, b} x = {b} := by
        ext s; simp only [having, Set.mem_ofPred_eq, Set.mem_insert_iff, Set.mem_singleton_iff]
        constructor
        · rintro ⟨rfl | rfl, h⟩ <;> simp_all
        · rintro rfl; simp [h2]
      rw [this, Set.ncard_singleton]; simp [h1, h2]
    · have : having {a, b} x = ∅ := by
        ext s; simp only [having, Set.mem_ofPred_eq, Set.mem_insert_iff, Set.mem_singleton_iff,
          Set.mem_empty_iff_false, iff_false, not_and]
        rintro (rfl | rfl) <;> assumption
      rw [this]; simp [h1, h2]
  have n1 : ({1, 2} : Finset ℕ) ≠ {1, 3} := by decide
  have n2 : ({1} : Finset ℕ) ≠ {1, 4} := by decide
  constructor
  · rintro s hs t ht x hx y hy h1 h2 -
    exfalso
    simp only [Before, c _ _ _ n1, c _ _ _ n2] at h1 h2
    rcases hs with rfl | rfl <;> simp at hx hy <;> rcases hx with rfl | rfl <;>
      rcases hy with rfl | rfl <;> simp at h1 h2
  · rintro s hs t ht x hx y hy h1 h2 -
    exfalso
    simp only [Before, c _ _ _ n1, c _ _ _ n2] at h1 h2
    rcases hs with rfl | rfl <;> simp at hx hy
    · subst hx; subst hy; simp at h1
    · rcases hx with rfl | rfl <;> rcases hy with rfl | rfl <;> simp at h1 h2

end Verif.Zdd2
