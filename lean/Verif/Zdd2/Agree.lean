import Verif.Zdd2.UniverseProps
import Verif.Matrix.Props

/-!
# Agreement of the matrix and zdd2 backends (C28)
-/

set_option linter.unusedSimpArgs false
set_option linter.unusedVariables false
set_option linter.unusedSectionVars false

namespace Verif.Zdd2
open Verif Verif.Spec Verif.Zdd2.Spec

universe u
variable {T : Type u} [LinearOrder T]

/-- Programs all of whose steps are in the cases where the zdd2 operations are exact; the
conditions speak about the families the sub-programs mean only.  Not code: used to state or prove properties. -/
def Safe : Prog T → Prop
  | .empty => True
  | .unit _ => True
  | .many _ => True
  | .unique _ => True
  | .union a b => Safe a ∧ Safe b ∧ Compatible (nonempty a.meaning) (nonempty b.meaning)
  | .intersect a b => Safe a ∧ Safe b ∧ Compatible (nonempty a.meaning) (nonempty b.meaning) ∧
      NoneAbove (nonempty a.meaning) (nonempty b.meaning) ∧
      NoneAbove (nonempty b.meaning) (nonempty a.meaning)
  | .product a b => Safe a ∧ Safe b ∧ Compatible (nonempty a.meaning) (nonempty b.meaning) ∧
      (UnionClosed (nonempty a.meaning) ∨ UnionClosed (nonempty b.meaning) ∨
        ItemDisjoint (nonempty a.meaning) (nonempty b.meaning)) ∧
      ∅ ∉ a.meaning ∧ ∅ ∉ b.meaning
  | .subset a _ => Safe a
  | .subsetNot a _ => Safe a
  | .subsetAll a _ => Safe a
  | .subsetNone a xs => Safe a ∧
      ((∃ x, ∀ y ∈ xs, y = x) ∨
        ((∀ x ∈ xs, ∃ s ∈ a.meaning, x ∈ s) ∧
        ∀ x ∈ xs, ∀ p ∈ nonempty a.meaning, ∀ q ∈ nonempty a.meaning, q ⊂ p → x ∉ q → x ∉ p))

/-- The meaning of a safe program, computed by the zdd2 backend. -/
theorem safe_family {p : Prog T} {f : Forest T} (hs : Safe p) (hr : run p = some f) :
    family f.trees = nonempty p.meaning := by
  have many_ne : ∀ m : List (List T), family (Forest.many m).trees = nonempty (family m) := fun m => by
    rw [many_family]; ext s; simp [nonempty, Finset.nonempty_iff_ne_empty]
  induction p generalizing f with
  | empty =>
    simp only [run, Option.some.injEq] at hr; subst hr
    rw [empty_family]; ext s; simp [nonempty, Matrix.Prog.meaning]
  | unit s =>
    simp only [run, Option.some.injEq] at hr; subst hr
    rw [Forest.unit_eq, many_ne]
    congr 1
    ext t; simp [family, Matrix.Prog.meaning, eq_comm]
  | many m =>
    simp only [run, Option.some.injEq] at hr; subst hr
    exact many_ne m
  | unique s =>
    simp only [run, Option.some.injEq] at hr; subst hr
    rw [unique_family]
    ext t
    simp only [nonempty, Matrix.Prog.meaning, Set.mem_ofPred_eq]
    constructor
    · rintro ⟨x, hx, rfl⟩; exact ⟨⟨x, hx, rfl⟩, by simp⟩
    · exact fun h => h.1
  | union a b iha ihb =>
    obtain ⟨ha, hb, hc⟩ := hs
    obtain ⟨f1, e1⟩ := run_total a
    obtain ⟨f2, e2⟩ := run_total b
    simp only [run, e1, e2, Option.bind_some] at hr
    have i1 := iha ha e1
    have i2 := ihb hb e2
    rw [union_family_partial ⟨a, e1⟩ ⟨b, e2⟩ (by rw [i1, i2]; exact hc) hr, i1, i2]
    ext s; simp only [nonempty, Matrix.Prog.meaning, Set.mem_union, Set.mem_ofPred_eq]; tauto
  | intersect a b iha ihb =>
    obtain ⟨ha, hb, hc, n1, n2⟩ := hs
    obtain ⟨f1, e1⟩ := run_total a
    obtain ⟨f2, e2⟩ := run_total b
    simp only [run, e1, e2, Option.bind_some] at hr
    have i1 := iha ha e1
    have i2 := ihb hb e2
    rw [intersect_family_partial ⟨a, e1⟩ ⟨b, e2⟩ (by rw [i1, i2]; exact hc) (by rw [i1, i2]; exact n1)
      (by rw [i1, i2]; exact n2) hr, i1, i2]
    ext s; simp only [nonempty, Matrix.Prog.meaning, Set.mem_inter_iff, Set.mem_ofPred_eq]; tauto
  | product a b iha ihb =>
    obtain ⟨ha, hb, hc, n1, n2, n3⟩ := hs
    obtain ⟨f1, e1⟩ := run_total a
    obtain ⟨f2, e2⟩ := run_total b
    simp only [run, e1, e2, Option.bind_some] at hr
    have i1 := iha ha e1
    have i2 := ihb hb e2
    rw [product_family_partial ⟨a, e1⟩ ⟨b, e2⟩ (by rw [i1, i2]; exact hc) (by rw [i1, i2]; exact n1) hr,
      i1, i2]
    ext s
    simp only [nonempty, prod, Matrix.Prog.meaning, Set.mem_ofPred_eq]
    constructor
    · rintro ⟨p, ⟨hp, x, hx⟩, q, ⟨hq, _⟩, rfl⟩
      exact ⟨⟨p, hp, q, hq, rfl⟩, x, Finset.mem_union_left _ hx⟩
    · rintro ⟨⟨p, hp, q, hq, rfl⟩, _⟩
      refine ⟨p, ⟨hp, Finset.nonempty_iff_ne_empty.mpr ?_⟩, q, ⟨hq, Finset.nonempty_iff_ne_empty.mpr ?_⟩, rfl⟩
      · rintro rfl; exact n2 hp
      · rintro rfl; exact n3 hq
  | subset a x ih =>
    obtain ⟨f1, e1⟩ := run_total a
    simp only [run, e1, Option.map_some, Option.some.injEq] at hr; subst hr
    rw [subset_family ⟨a, e1⟩, ih hs e1]
    ext s; simp only [nonempty, having, Matrix.Prog.meaning, Set.mem_ofPred_eq]; tauto
  | subsetNot a x ih =>
    obtain ⟨f1, e1⟩ := run_total a
    simp only [run, e1, Option.map_some, Option.some.injEq] at hr; subst hr
    rw [subsetNot_family ⟨a, e1⟩, ih hs e1]
    ext s; simp only [nonempty, without, Matrix.Prog.meaning, Set.mem_ofPred_eq]; tauto
  | subsetAll a xs ih =>
    obtain ⟨f1, e1⟩ := run_total a
    simp only [run, e1, Option.map_some, Option.some.injEq] at hr; subst hr
    rw [subsetAll_family ⟨a, e1⟩, ih hs e1]
    ext s; simp only [nonempty, havingAll, Matrix.Prog.meaning, Set.mem_ofPred_eq]; tauto
  | subsetNone a xs ih =>
    obtain ⟨ha, hx⟩ := hs
    obtain ⟨f1, e1⟩ := run_total a
    simp only [run, e1, Option.map_some, Option.some.injEq] at hr; subst hr
    have i1 := ih ha e1
    have goal : family (f1.subsetNone xs).trees = havingNone (family f1.trees) xs := by
      rcases hx with ⟨x, hx⟩ | ⟨hk, hu⟩
      · by_cases hne : xs = []
        · subst hne; simp [Forest.subsetNone, Forest.subsetMany, havingNone, family]
        · exact subsetNone_one_partial ⟨a, e1⟩ hne hx
      · refine subsetNone_family_partial ⟨a, e1⟩ ?_ (by rw [i1]; exact hu)
        intro x hxs
        obtain ⟨s, hs, hxs'⟩ := hk x hxs
        exact ⟨s, by rw [i1]; exact ⟨hs, x, hxs'⟩, hxs'⟩
    rw [goal, i1]
    ext s; simp only [nonempty, havingNone, Matrix.Prog.meaning, Set.mem_ofPred_eq]; tauto

example : ∃ f, run (.product (.unit [5, 6]) (.unit [7]) : Prog ℕ) = some f ∧
    family f.trees = nonempty (Matrix.Prog.meaning (.product (.unit [5, 6]) (.unit [7]))) := by
  obtain ⟨f, hf⟩ := run_total (.product (.unit [5, 6]) (.unit [7]) : Prog ℕ)
  refine ⟨f, hf, safe_family ?_ hf⟩
  refine ⟨trivial, trivial, compatible_of_simple (Or.inl ?_) (Or.inl ?_), Or.inl ?_, ?_, ?_⟩
  · rintro a ⟨ha, _⟩ b ⟨hb, _⟩
    exact (show a = _ from ha).trans (show b = _ from hb).symm
  · rintro a ⟨ha, _⟩ b ⟨hb, _⟩
    exact (show a = _ from ha).trans (show b = _ from hb).symm
  · rintro a ⟨ha, hn⟩ b ⟨hb, _⟩
    rw [show a = b from (show a = _ from ha).trans (show b = _ from hb).symm, Finset.union_self]
    exact ⟨hb, ‹b.Nonempty›⟩
  · exact fun h => absurd (show (∅ : Finset ℕ) = _ from h) (by decide)
  · exact fun h => absurd (show (∅ : Finset ℕ) = _ from h) (by decide)

/-- C28: a safe program gives the same non-empty members on both backends, whatever hash orders the
matrix backend meets. -/
theorem backends_agree {p : Prog T} {f : Forest T} {g : Matrix.Forest T} (hs : Safe p)
    (hf : run p = some f) (hg : Matrix.Runs p g) (h : HashOrder (List T)) :
    family f.trees = {s | s ∈ family (g.trees h) ∧ s ≠ ∅} := by
  rw [safe_family hs hf, Matrix.run_family hg]
  ext s; simp [nonempty, Finset.nonempty_iff_ne_empty]

/-- The hypotheses are met: a filter, a union and two constructors, on both back ends. -/
example (h h' : HashOrder (List ℕ)) : ∃ f g, run (.subset (.union (.unit [5, 6]) (.unit [7])) 5 : Prog ℕ) = some f ∧
    Matrix.Runs (.subset (.union (.unit [5, 6]) (.unit [7])) 5) g ∧
    family f.trees = {s | s ∈ family (g.trees h) ∧ s ≠ ∅} := by
  obtain ⟨f, hf⟩ := run_total (.subset (.union (.unit [5, 6]) (.unit [7])) 5 : Prog ℕ)
  refine ⟨f, _, hf, .subset h' 5 (.union h' (.unit _) (.unit _)), backends_agree (g := _) ?_ hf
    (.subset h' 5 (.union h' (.unit _) (.unit _))) h⟩
  refine ⟨trivial, trivial, compatible_of_simple (Or.inl ?_) (Or.inl ?_)⟩
  · rintro a ⟨ha, _⟩ b ⟨hb, _⟩
    exact (show a = _ from ha).trans (show b = _ from hb).symm
  · rintro a ⟨ha, _⟩ b ⟨hb, _⟩
    exact (show a = _ from ha).trans (show b = _ from hb).symm

/-- C28: construction and filtering need no condition. -/
theorem backends_agree_build (m : List (List T)) (x : T) (xs : List T) (h h' : HashOrder (List T)) :
    family (Forest.many m).trees = {s | s ∈ family ((Matrix.Forest.many m).trees h) ∧ s ≠ ∅} ∧
    family ((Forest.many m).subset x).trees =
      {s | s ∈ family (((Matrix.Forest.many m).subset h' x).trees h) ∧ s ≠ ∅} ∧
    family ((Forest.many m).subsetNot x).trees =
      {s | s ∈ family (((Matrix.Forest.many m).subsetNot h' x).trees h) ∧ s ≠ ∅} ∧
    family ((Forest.many m).subsetAll xs).trees =
      {s | s ∈ family (((Matrix.Forest.many m).subsetAll h' xs).trees h) ∧ s ≠ ∅} :=
  ⟨backends_agree (p := .many m) trivial rfl (.many m) h,
    backends_agree (p := .subset (.many m) x) trivial rfl (.subset h' x (.many m)) h,
    backends_agree (p := .subsetNot (.many m) x) trivial rfl (.subsetNot h' x (.many m)) h,
    backends_agree (p := .subsetAll (.many m) xs) trivial rfl (.subsetAll h' xs (.many m)) h⟩

/-- A safe program using a union, a product and a filter. -/
example : Safe (.subset (.product (.many [[1, 2], [1, 3]]) (.union (.unit [5]) (.unique [6, 7]))) 5 :
    Prog ℕ) := by
  have h1 : ∀ s ∈ nonempty (Matrix.Prog.meaning (.many [[1, 2], [1, 3]] : Prog ℕ)), ∀ x ∈ s, x < 5 := by
    rintro s ⟨⟨l, hl, rfl⟩, _⟩ x hx
    simp only [List.mem_cons, List.not_mem_nil, or_false] at hl
    rcases hl with rfl | rfl <;> simp at hx <;> omega
  have h2 : ∀ s ∈ nonempty (Matrix.Prog.meaning (.union (.unit [5]) (.unique [6, 7]) : Prog ℕ)),
      ∀ x ∈ s, 5 ≤ x := by
    rintro s ⟨h | ⟨x, hx, rfl⟩, _⟩ y hy
    · rw [show s = ([5] : List ℕ).toFinset from h] at hy; simp at hy; omega
    · simp at hx hy; omega
  have hd : ItemDisjoint (nonempty (Matrix.Prog.meaning (.many [[1, 2], [1, 3]] : Prog ℕ)))
      (nonempty (Matrix.Prog.meaning (.union (.unit [5]) (.unique [6, 7]) : Prog ℕ))) := by
    intro p hp q hq
    rw [Finset.disjoint_left]
    intro x hx hx'
    have := h1 p hp x hx
    have := h2 q hq x hx'
    omega
  refine ⟨trivial, ⟨trivial, trivial, compatible_of_simple (Or.inl ?_) (Or.inr ?_)⟩,
    compatible_of_disjoint hd, Or.inr (Or.inr hd), ?_, ?_⟩
  · rintro a ⟨ha, _⟩ b ⟨hb, _⟩
    exact (show a = _ from ha).trans (show b = _ from hb).symm
  · rintro s ⟨⟨x, _, rfl⟩, _⟩; simp
  · rintro ⟨l, hl, e⟩
    simp only [List.mem_cons, List.not_mem_nil, or_false] at hl
    rcases hl with rfl | rfl <;> exact absurd e (by decide)
  · rintro (h | ⟨x, _, e⟩)
    · exact absurd (show (∅ : Finset ℕ) = _ from h) (by decide)
    · exact absurd e (by simp [eq_comm])

end Verif.Zdd2
