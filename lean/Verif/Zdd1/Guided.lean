import Verif.Zdd1.Props
import Mathlib.Data.Finset.Card

/-!
# Choosing a combination of a v1 tree step by step (C99, C100)

`summarize(inclusions, exclusions)` is what a configurator shows; its user takes or leaves items.  `R`
below is the family of the combinations that remain.
-/

set_option linter.unusedSectionVars false

namespace Verif.Zdd1
open Verif Verif.Weave Verif.Spec

universe u
variable {T : Type u} [LinearOrder T]

/-- Combinations with every inclusion and no exclusion.  Not code: specification. -/
def Left (C : Set (Finset T)) (inc exc : List T) : Set (Finset T) :=
  {A | A ∈ C ∧ (∀ y ∈ inc, y ∈ A) ∧ (∀ y ∈ exc, y ∉ A)}

theorem left_take (C : Set (Finset T)) (inc exc : List T) (x : T) :
    Left C (inc ++ [x]) exc = {A | A ∈ Left C inc exc ∧ x ∈ A} := by
  ext A
  simp only [Left, Set.mem_ofPred_eq, List.mem_append, List.mem_singleton]
  constructor
  · rintro ⟨h1, h2, h3⟩
    exact ⟨⟨h1, fun y hy => h2 y (Or.inl hy), h3⟩, h2 x (Or.inr rfl)⟩
  · rintro ⟨⟨h1, h2, h3⟩, h4⟩
    refine ⟨h1, ?_, h3⟩
    rintro y (hy | rfl)
    · exact h2 y hy
    · exact h4

theorem left_leave (C : Set (Finset T)) (inc exc : List T) (x : T) :
    Left C inc (exc ++ [x]) = {A | A ∈ Left C inc exc ∧ x ∉ A} := by
  ext A
  simp only [Left, Set.mem_ofPred_eq, List.mem_append, List.mem_singleton]
  constructor
  · rintro ⟨h1, h2, h3⟩
    exact ⟨⟨h1, h2, fun y hy => h3 y (Or.inl hy)⟩, h3 x (Or.inr rfl)⟩
  · rintro ⟨⟨h1, h2, h3⟩, h4⟩
    refine ⟨h1, h2, ?_⟩
    rintro y (hy | rfl)
    · exact h3 y hy
    · exact h4

/-- A user's conversation with the tree: starting with no wish, read `summarize` (in whatever order the
hash map is visited) and then either take an item that is not shown as excluded, or leave out an item
that is shown as available or excluded.  Not code: specification. -/
inductive Guided (t : Tree T) : List T → List T → Prop
  | start : Guided t [] []
  | take {inc exc : List T} {e : List (T × Nat)} {s : ItemStatus T} (h : Guided t inc exc)
      (he : e.Perm (t.counts inc exc)) (hs : s ∈ t.summarize inc exc e) (hx : s.isExcluded = false) :
      Guided t (inc ++ [s.item]) exc
  | leave {inc exc : List T} {e : List (T × Nat)} {s : ItemStatus T} (h : Guided t inc exc)
      (he : e.Perm (t.counts inc exc)) (hs : s ∈ t.summarize inc exc e)
      (hx : s.isAvailable = true ∨ s.isExcluded = true) : Guided t inc (exc ++ [s.item])

theorem family_nil {cs : List (List T)} : cs = [] ↔ family cs = ∅ := by
  constructor
  · rintro rfl
    ext A; simp [family]
  · intro h
    cases cs with
    | nil => rfl
    | cons c cs =>
      have : c.toFinset ∈ family (c :: cs) := ⟨c, by simp, rfl⟩
      rw [h] at this
      exact this.elim

theorem with_nil {t : Tree T} {inc exc : List T} :
    t.combinationsWith inc exc = [] ↔ ∀ A, A ∉ Left (family t.combinations) inc exc := by
  rw [family_nil, combinations_with_family, Set.eq_empty_iff_forall_notMem]
  rfl

theorem summary_status {items : List T} {t : Tree T} (hu : t.univ = Universe.fromVec items)
    {inc exc : List T} {e : List (T × Nat)} (he : e.Perm (t.counts inc exc)) {s : ItemStatus T} :
    s ∈ t.summarize inc exc e ↔ s.item ∈ items ∧ Status (Left (family t.combinations) inc exc) inc s.item s := by
  rw [(summarize_exact hu inc exc he).2 s]
  have hi : ∀ x : T, ∀ R : Set (Finset T), Status R inc x s → s.item = x := by
    rintro x R (⟨_, rfl⟩ | ⟨_, _, rfl⟩ | ⟨_, _, _, rfl⟩ | ⟨_, _, _, rfl⟩) <;> rfl
  constructor
  · rintro ⟨x, hx, h⟩
    have := hi x _ h
    subst this
    exact ⟨hx, h⟩
  · rintro ⟨h1, h2⟩
    exact ⟨_, h1, h2⟩

/-- What each of the four statuses says about the combinations that remain. -/
theorem status_says {R : Set (Finset T)} {inc : List T} {x : T} {s : ItemStatus T} (h : Status R inc x s)
    (hR : ∃ A, A ∈ R) (hinc : ∀ A ∈ R, ∀ y ∈ inc, y ∈ A) :
    (s.isExcluded = true ↔ ∀ A ∈ R, x ∉ A) ∧
    (s.isAvailable = true ↔ (∃ A ∈ R, x ∈ A) ∧ ∃ A ∈ R, x ∉ A) ∧
    ((s.isRequired = true ∨ s.isSelected = true) ↔ ∀ A ∈ R, x ∈ A) ∧
    (s.isSelected = true ↔ x ∈ inc) := by
  obtain ⟨A0, hA0⟩ := hR
  rcases h with ⟨h1, rfl⟩ | ⟨⟨A, hA, hx⟩, h2, rfl⟩ | ⟨⟨A, hA, hx⟩, h2, h3, rfl⟩ | ⟨⟨A, hA, hx⟩, h2, ⟨B, hB, hxB⟩, rfl⟩
  · refine ⟨⟨fun _ => h1, fun _ => rfl⟩, ⟨fun h => (by cases h), ?_⟩, ⟨?_, ?_⟩, ⟨fun h => (by cases h), ?_⟩⟩
    · rintro ⟨⟨A, hA, hx⟩, _⟩; exact absurd hx (h1 A hA)
    · rintro (h | h) <;> cases h
    · intro h; exact absurd (h A0 hA0) (h1 A0 hA0)
    · intro h; exact absurd (hinc A0 hA0 x h) (h1 A0 hA0)
  · refine ⟨⟨fun h => (by cases h), fun h => absurd hx (h A hA)⟩, ⟨fun h => (by cases h), ?_⟩,
      ⟨fun _ A hA => hinc A hA x h2, fun _ => Or.inr rfl⟩, ⟨fun _ => h2, fun _ => rfl⟩⟩
    rintro ⟨_, B, hB, hxB⟩; exact absurd (hinc B hB x h2) hxB
  · refine ⟨⟨fun h => (by cases h), fun h => absurd hx (h A hA)⟩, ⟨fun h => (by cases h), ?_⟩,
      ⟨fun _ => h3, fun _ => Or.inl rfl⟩, ⟨fun h => (by cases h), fun h => absurd h h2⟩⟩
    rintro ⟨_, B, hB, hxB⟩; exact absurd (h3 B hB) hxB
  · refine ⟨⟨fun h => (by cases h), fun h => absurd hx (h A hA)⟩, ⟨fun _ => ⟨⟨A, hA, hx⟩, B, hB, hxB⟩, fun _ => rfl⟩,
      ⟨?_, fun h => absurd (h B hB) hxB⟩, ⟨fun h => (by cases h), fun h => absurd h h2⟩⟩
    rintro (h | h) <;> cases h

theorem left_inc {C : Set (Finset T)} {inc exc : List T} : ∀ A ∈ Left C inc exc, ∀ y ∈ inc, y ∈ A :=
  fun _ hA => hA.2.1

/-- C99: whatever the user takes and leaves by the shown statuses, a combination remains. -/
theorem guided_never_stuck {items : List T} {t : Tree T} (hu : t.univ = Universe.fromVec items)
    (hne : t.combinations ≠ []) {inc exc : List T} (h : Guided t inc exc) :
    t.combinationsWith inc exc ≠ [] := by
  have key : ∃ A, A ∈ Left (family t.combinations) inc exc := by
    induction h with
    | start =>
      obtain ⟨c, hc⟩ := List.exists_mem_of_ne_nil _ hne
      exact ⟨c.toFinset, ⟨c, hc, rfl⟩, by simp, by simp⟩
    | @take inc exc e s h he hs hx ih =>
      have hst := ((summary_status hu he).1 hs).2
      have := (status_says hst ih left_inc).1
      rw [left_take]
      by_contra hc
      push Not at hc
      have h1 : s.isExcluded = true := this.2 (fun A hA hxA => hc A ⟨hA, hxA⟩)
      rw [hx] at h1; cases h1
    | @leave inc exc e s h he hs hx ih =>
      have hst := ((summary_status hu he).1 hs).2
      have h4 := status_says hst ih left_inc
      rw [left_leave]
      rcases hx with hx | hx
      · obtain ⟨_, B, hB, hxB⟩ := h4.2.1.1 hx
        exact ⟨B, hB, hxB⟩
      · obtain ⟨A, hA⟩ := ih
        exact ⟨A, hA, h4.1.1 hx A hA⟩
  obtain ⟨A, hA⟩ := key
  exact fun h0 => with_nil.1 h0 A hA

/-- A tree with three combinations over four items.  Not code: used to show hypotheses are met. -/
abbrev wardrobe : Tree ℕ := (Universe.fromVec [1, 2, 3, 4]).hyperTree [[1, 2], [1, 3], [4]]

theorem wardrobe_univ : wardrobe.univ = Universe.fromVec [1, 2, 3, 4] := univ_foldUnion _ _

example := guided_never_stuck wardrobe_univ (by decide +kernel) (inc := []) (exc := []) .start

/-- C99: the statuses are exact about the next step.  While a combination remains, taking a shown item
leaves none exactly if it is shown as excluded, and leaving it out leaves none exactly if it is shown as
required or selected. -/
theorem guided_next {items : List T} {t : Tree T} (hu : t.univ = Universe.fromVec items)
    {inc exc : List T} (hne : t.combinationsWith inc exc ≠ []) {e : List (T × Nat)}
    (he : e.Perm (t.counts inc exc)) {s : ItemStatus T} (hs : s ∈ t.summarize inc exc e) :
    (t.combinationsWith (inc ++ [s.item]) exc = [] ↔ s.isExcluded = true) ∧
    (t.combinationsWith inc (exc ++ [s.item]) = [] ↔ s.isRequired = true ∨ s.isSelected = true) := by
  have hst := ((summary_status hu he).1 hs).2
  have hR : ∃ A, A ∈ Left (family t.combinations) inc exc := by
    by_contra hc
    push Not at hc
    exact hne (with_nil.2 hc)
  have h4 := status_says hst hR left_inc
  rw [with_nil, with_nil, left_take, left_leave, h4.1, h4.2.2.1]
  constructor
  · exact ⟨fun h A hA hx => h A ⟨hA, hx⟩, fun h A hA => h A hA.1 hA.2⟩
  · constructor
    · intro h A hA; by_contra hx; exact h A ⟨hA, hx⟩
    · intro h A hA; exact hA.2 (h A hA.1)

example := guided_next wardrobe_univ (inc := [1]) (exc := []) (by decide +kernel) (List.Perm.refl _)
  (s := .Available 2) (by decide +kernel)

theorem combination_in {items : List T} {t : Tree T} (hu : t.univ = Universe.fromVec items) {A : Finset T}
    (hA : A ∈ family t.combinations) {x : T} (hx : x ∈ A) : x ∈ items := combination_known hu hA hx

theorem combinationsWith_lt (t : Tree T) (inc exc : List T) :
    (t.combinationsWith inc exc).Pairwise (· < ·) ∧ ∀ c ∈ t.combinationsWith inc exc, c.Pairwise (· < ·) := by
  rw [combinations_with_exact]
  exact ⟨t.combinations_lt.filter _, fun c hc => t.combinations_mem_lt c (List.mem_filter.1 hc).1⟩

/-- C99: when nothing is shown as available any more, exactly one combination remains, and it is the
list of the items shown as selected or required. -/
theorem guided_end {items : List T} {t : Tree T} (hu : t.univ = Universe.fromVec items)
    {inc exc : List T} (hne : t.combinationsWith inc exc ≠ []) {e : List (T × Nat)}
    (he : e.Perm (t.counts inc exc)) :
    (∀ s ∈ t.summarize inc exc e, s.isAvailable = false) ↔
      ∃ c, t.combinationsWith inc exc = [c] ∧
        ∀ x, x ∈ c ↔ ∃ s ∈ t.summarize inc exc e, s.item = x ∧ (s.isRequired = true ∨ s.isSelected = true) := by
  have hfam : family (t.combinationsWith inc exc) = Left (family t.combinations) inc exc :=
    combinations_with_family t inc exc
  have hR : ∃ A, A ∈ Left (family t.combinations) inc exc := by
    by_contra hc
    push Not at hc
    exact hne (with_nil.2 hc)
  have hlt := combinationsWith_lt t inc exc
  have hall : ∀ x ∈ items, ∃ s ∈ t.summarize inc exc e, s.item = x := by
    intro x hx
    have h1 := summarize_once hu inc exc he x
    rw [if_pos hx] at h1
    have h2 : x ∈ (t.summarize inc exc e).map ItemStatus.item := by
      rw [← List.count_pos_iff]; omega
    obtain ⟨s, hs, rfl⟩ := List.mem_map.1 h2
    exact ⟨s, hs, rfl⟩
  constructor
  · intro hav
    have huniq : ∀ A ∈ Left (family t.combinations) inc exc, ∀ B ∈ Left (family t.combinations) inc exc, A ⊆ B := by
      intro A hA B hB x hx
      obtain ⟨s, hs, rfl⟩ := hall x (combination_in hu hA.1 hx)
      have h4 := status_says ((summary_status hu he).1 hs).2 hR left_inc
      by_contra hxB
      have := h4.2.1.2 ⟨⟨A, hA, hx⟩, B, hB, hxB⟩
      rw [hav s hs] at this; cases this
    obtain ⟨c, hc⟩ := List.exists_mem_of_ne_nil _ hne
    have hcL : c.toFinset ∈ Left (family t.combinations) inc exc := hfam ▸ ⟨c, hc, rfl⟩
    have hone : ∀ d ∈ t.combinationsWith inc exc, d = c := by
      intro d hd
      have hdL : d.toFinset ∈ Left (family t.combinations) inc exc := hfam ▸ ⟨d, hd, rfl⟩
      apply lt_ext (hlt.2 d hd) (hlt.2 c hc)
      intro x
      constructor
      · intro hx; simpa using huniq _ hdL _ hcL (List.mem_toFinset.2 hx)
      · intro hx; simpa using huniq _ hcL _ hdL (List.mem_toFinset.2 hx)
    refine ⟨c, ?_, ?_⟩
    · apply lt_ext hlt.1 (List.pairwise_singleton _ _)
      intro d
      rw [List.mem_singleton]
      exact ⟨hone d, fun h => h ▸ hc⟩
    · intro x
      constructor
      · intro hx
        obtain ⟨s, hs, rfl⟩ := hall x (combination_in hu hcL.1 (List.mem_toFinset.2 hx))
        have h4 := status_says ((summary_status hu he).1 hs).2 hR left_inc
        refine ⟨s, hs, rfl, h4.2.2.1.2 ?_⟩
        intro A hA
        exact huniq _ hcL _ hA (List.mem_toFinset.2 hx)
      · rintro ⟨s, hs, rfl, h⟩
        have h4 := status_says ((summary_status hu he).1 hs).2 hR left_inc
        simpa using h4.2.2.1.1 h _ hcL
  · rintro ⟨c, hc, -⟩ s hs
    have h4 := status_says ((summary_status hu he).1 hs).2 hR left_inc
    cases hb : s.isAvailable with
    | false => rfl
    | true =>
      obtain ⟨⟨A, hA, hx⟩, B, hB, hxB⟩ := h4.2.1.1 hb
      rw [← hfam, hc] at hA hB
      obtain ⟨a, ha, rfl⟩ := hA
      obtain ⟨b, hb, rfl⟩ := hB
      rw [List.mem_singleton] at ha hb
      subst ha; subst hb
      exact absurd hx hxB

example := guided_end wardrobe_univ (inc := [1]) (exc := [3]) (by decide +kernel) (List.Perm.refl _)

/-- The items shown as available.  Not code: specification. -/
def availables (l : List (ItemStatus T)) : List T := (l.filter (fun s => s.isAvailable)).map ItemStatus.item

theorem mem_availables {items : List T} {t : Tree T} (hu : t.univ = Universe.fromVec items)
    {inc exc : List T} {e : List (T × Nat)} (he : e.Perm (t.counts inc exc)) {x : T} :
    x ∈ availables (t.summarize inc exc e) ↔
      (∃ A ∈ Left (family t.combinations) inc exc, x ∈ A) ∧ ∃ A ∈ Left (family t.combinations) inc exc, x ∉ A := by
  simp only [availables, List.mem_map, List.mem_filter]
  constructor
  · rintro ⟨s, ⟨hs, hav⟩, rfl⟩
    have hst := ((summary_status hu he).1 hs).2
    rcases hst with ⟨_, h⟩ | ⟨_, _, h⟩ | ⟨_, _, _, h⟩ | ⟨h1, _, h2, _⟩
    · rw [h] at hav; cases hav
    · rw [h] at hav; cases hav
    · rw [h] at hav; cases hav
    · exact ⟨h1, h2⟩
  · rintro ⟨⟨A, hA, hx⟩, B, hB, hxB⟩
    refine ⟨.Available x, ⟨(summary_status hu he).2 ⟨combination_in hu hA.1 hx, ?_⟩, rfl⟩, rfl⟩
    refine Or.inr (Or.inr (Or.inr ⟨⟨A, hA, hx⟩, ?_, ⟨B, hB, hxB⟩, rfl⟩))
    intro hi
    exact hxB (left_inc B hB x hi)

theorem nodup_availables {items : List T} {t : Tree T} (hu : t.univ = Universe.fromVec items)
    {inc exc : List T} {e : List (T × Nat)} (he : e.Perm (t.counts inc exc)) :
    (availables (t.summarize inc exc e)).Nodup := by
  have : ((t.summarize inc exc e).map ItemStatus.item).Nodup := by
    rw [List.nodup_iff_count_le_one]
    intro x
    rw [summarize_once hu inc exc he x]
    split_ifs <;> omega
  exact this.sublist (List.Sublist.map _ List.filter_sublist)

/-- C99: a decision about an available item, either way, makes the list of available items strictly
shorter: a user who decides available items only is done after at most as many decisions as items were
available at the start.  Nothing becomes available again. -/
theorem guided_shrinks {items : List T} {t : Tree T} (hu : t.univ = Universe.fromVec items)
    {inc exc : List T} {e e1 e2 : List (T × Nat)} (he : e.Perm (t.counts inc exc)) {x : T}
    (hx : .Available x ∈ t.summarize inc exc e)
    (he1 : e1.Perm (t.counts (inc ++ [x]) exc)) (he2 : e2.Perm (t.counts inc (exc ++ [x]))) :
    (availables (t.summarize (inc ++ [x]) exc e1) ⊆ availables (t.summarize inc exc e) ∧
      (availables (t.summarize (inc ++ [x]) exc e1)).length < (availables (t.summarize inc exc e)).length) ∧
    (availables (t.summarize inc (exc ++ [x]) e2) ⊆ availables (t.summarize inc exc e) ∧
      (availables (t.summarize inc (exc ++ [x]) e2)).length < (availables (t.summarize inc exc e)).length) := by
  have hxa : x ∈ availables (t.summarize inc exc e) :=
    List.mem_map.2 ⟨_, List.mem_filter.2 ⟨hx, rfl⟩, rfl⟩
  have hlen : ∀ l : List T, l.Nodup → l ⊆ availables (t.summarize inc exc e) → x ∉ l →
      l.length < (availables (t.summarize inc exc e)).length := by
    intro l hl hsub hxl
    have h1 : (x :: l).Nodup := List.nodup_cons.2 ⟨hxl, hl⟩
    have h2 : (x :: l) ⊆ availables (t.summarize inc exc e) := by
      intro y hy
      rcases List.mem_cons.1 hy with rfl | hy
      · exact hxa
      · exact hsub hy
    have := (List.subperm_of_subset h1 h2).length_le
    rw [List.length_cons] at this
    omega
  constructor
  · have hsub : availables (t.summarize (inc ++ [x]) exc e1) ⊆ availables (t.summarize inc exc e) := by
      intro y hy
      rw [mem_availables hu he1, left_take] at hy
      rw [mem_availables hu he]
      obtain ⟨⟨A, hA, h1⟩, B, hB, h2⟩ := hy
      exact ⟨⟨A, hA.1, h1⟩, B, hB.1, h2⟩
    refine ⟨hsub, hlen _ (nodup_availables hu he1) hsub ?_⟩
    rw [mem_availables hu he1, left_take]
    rintro ⟨_, B, hB, h2⟩
    exact h2 hB.2
  · have hsub : availables (t.summarize inc (exc ++ [x]) e2) ⊆ availables (t.summarize inc exc e) := by
      intro y hy
      rw [mem_availables hu he2, left_leave] at hy
      rw [mem_availables hu he]
      obtain ⟨⟨A, hA, h1⟩, B, hB, h2⟩ := hy
      exact ⟨⟨A, hA.1, h1⟩, B, hB.1, h2⟩
    refine ⟨hsub, hlen _ (nodup_availables hu he2) hsub ?_⟩
    rw [mem_availables hu he2, left_leave]
    rintro ⟨⟨A, hA, h2⟩, _⟩
    exact hA.2 h2

example := guided_shrinks wardrobe_univ (inc := [1]) (exc := []) (List.Perm.refl _) (x := 2) (by decide +kernel)
  (List.Perm.refl _) (List.reverse_perm _)

/-- C99: every combination of the tree can be reached: taking its items one after the other (in any
order) is allowed by the shown statuses. -/
theorem guided_reaches {items : List T} {t : Tree T} (hu : t.univ = Universe.fromVec items)
    {A : Finset T} (hA : A ∈ family t.combinations) (xs : List T) (hxs : ∀ x ∈ xs, x ∈ A) :
    Guided t xs [] := by
  induction xs using List.reverseRecOn with
  | nil => exact .start
  | append_singleton xs x ih =>
    have h := ih (fun y hy => hxs y (List.mem_append.2 (Or.inl hy)))
    have hAL : A ∈ Left (family t.combinations) xs [] :=
      ⟨hA, fun y hy => hxs y (List.mem_append.2 (Or.inl hy)), by simp⟩
    have hxA : x ∈ A := hxs x (by simp)
    have he : (t.counts xs []).Perm (t.counts xs []) := List.Perm.refl _
    have h1 := summarize_once hu xs [] he x
    rw [if_pos (combination_in hu hA hxA)] at h1
    have h2 : x ∈ (t.summarize xs [] (t.counts xs [])).map ItemStatus.item := by
      rw [← List.count_pos_iff]; omega
    obtain ⟨s, hs, rfl⟩ := List.mem_map.1 h2
    refine .take h he hs ?_
    have h4 := status_says ((summary_status hu he).1 hs).2 ⟨A, hAL⟩ left_inc
    cases hb : s.isExcluded with
    | false => rfl
    | true => exact absurd hxA (h4.1.1 hb A hAL)

example := guided_reaches wardrobe_univ (A := {1, 3})
  (by rw [show family wardrobe.combinations = _ from hyper_tree_exact _ _]; exact ⟨[1, 3], by simp, by decide⟩)
  [3, 1, 3] (by decide)

/-- C99: and every combination can be singled out: there is an allowed conversation at whose end it is
the only one left. -/
theorem guided_singles_out {items : List T} {t : Tree T} (hu : t.univ = Universe.fromVec items)
    {c : List T} (hc : c ∈ t.combinations) : ∃ exc, Guided t c exc ∧ t.combinationsWith c exc = [c] := by
  have hcf : c.toFinset ∈ family t.combinations := ⟨c, hc, rfl⟩
  have key : ∀ exc : List T, (∀ x ∈ exc, x ∈ items ∧ x ∉ c) → Guided t c exc := by
    intro exc
    induction exc using List.reverseRecOn with
    | nil =>
      intro _
      exact guided_reaches hu hcf c (fun x hx => List.mem_toFinset.2 hx)
    | append_singleton exc x ih =>
      intro hexc
      have h := ih (fun y hy => hexc y (List.mem_append.2 (Or.inl hy)))
      have hx := hexc x (by simp)
      have he : (t.counts c exc).Perm (t.counts c exc) := List.Perm.refl _
      have hcL : c.toFinset ∈ Left (family t.combinations) c exc :=
        ⟨hcf, fun y hy => List.mem_toFinset.2 hy, fun y hy hyc =>
          (hexc y (List.mem_append.2 (Or.inl hy))).2 (List.mem_toFinset.1 hyc)⟩
      have h1 := summarize_once hu c exc he x
      rw [if_pos hx.1] at h1
      have h2 : x ∈ (t.summarize c exc (t.counts c exc)).map ItemStatus.item := by
        rw [← List.count_pos_iff]; omega
      obtain ⟨s, hs, rfl⟩ := List.mem_map.1 h2
      refine .leave h he hs ?_
      have h4 := status_says ((summary_status hu he).1 hs).2 ⟨_, hcL⟩ left_inc
      by_cases hall : ∀ A ∈ Left (family t.combinations) c exc, s.item ∉ A
      · exact Or.inr (h4.1.2 hall)
      · push Not at hall
        obtain ⟨A, hA, hxA⟩ := hall
        exact Or.inl (h4.2.1.2 ⟨⟨A, hA, hxA⟩, _, hcL, fun h => hx.2 (List.mem_toFinset.1 h)⟩)
  refine ⟨items.filter (fun x => x ∉ c), key _ (fun x hx => ?_), ?_⟩
  · have := List.mem_filter.1 hx
    exact ⟨this.1, by simpa using this.2⟩
  · have hlt := combinationsWith_lt t c (items.filter (fun x => x ∉ c))
    apply lt_ext hlt.1 (List.pairwise_singleton _ _)
    intro d
    rw [List.mem_singleton, combinations_with_exact, List.mem_filter]
    simp only [decide_eq_true_eq, List.mem_filter]
    constructor
    · rintro ⟨h1, h2, h3⟩
      apply lt_ext (t.combinations_mem_lt d h1) (t.combinations_mem_lt c hc)
      intro x
      refine ⟨fun hx => ?_, h2 x⟩
      by_contra hxc
      exact h3 x ⟨combination_in hu ⟨d, h1, rfl⟩ (List.mem_toFinset.2 hx), hxc⟩ hx
    · rintro rfl
      exact ⟨hc, fun x hx => hx, fun x hx => hx.2⟩

example := guided_singles_out wardrobe_univ (c := [1, 3]) (by decide +kernel)

/-! ## Narrowing the tree and narrowing the question (C100) -/

theorem restrict_univ {items : List T} {t : Tree T} (hu : t.univ = Universe.fromVec items) (inc exc : List T) :
    (t.restrict inc exc).univ = Universe.fromVec items := by
  rw [← hu]; exact univ_foldUnion _ _

theorem left_left (C : Set (Finset T)) (inc exc inc' exc' : List T) :
    Left (Left C inc exc) inc' exc' = Left C (inc ++ inc') (exc ++ exc') := by
  ext A
  simp only [Left, Set.mem_ofPred_eq, List.mem_append]
  constructor
  · rintro ⟨⟨h1, h2, h3⟩, h4, h5⟩
    exact ⟨h1, fun y hy => hy.elim (h2 y) (h4 y), fun y hy => hy.elim (h3 y) (h5 y)⟩
  · rintro ⟨h1, h2, h3⟩
    exact ⟨⟨h1, fun y hy => h2 y (Or.inl hy), fun y hy => h3 y (Or.inl hy)⟩, fun y hy => h2 y (Or.inr hy),
      fun y hy => h3 y (Or.inr hy)⟩

theorem restrict_family {items : List T} {t : Tree T} (hu : t.univ = Universe.fromVec items) (inc exc : List T) :
    family (t.restrict inc exc).combinations = Left (family t.combinations) inc exc := by
  rw [restrict_exact hu]; exact combinations_with_family t inc exc

/-- A selected item that is not among `inc` read as required.  Not code: specification. -/
def asRequired (inc : List T) : ItemStatus T → ItemStatus T
  | .Selected x => if x ∈ inc then .Selected x else .Required x
  | s => s

theorem asRequired_item (inc : List T) (s : ItemStatus T) : (asRequired inc s).item = s.item := by
  cases s <;> simp only [asRequired] <;> try rfl
  split_ifs <;> rfl

theorem status_asRequired {R : Set (Finset T)} {inc inc' : List T} {x : T} {s : ItemStatus T}
    (hinc : ∀ A ∈ R, ∀ y ∈ inc, y ∈ A) (h : Status R (inc ++ inc') x s) : Status R inc' x (asRequired inc' s) := by
  rcases h with ⟨h1, rfl⟩ | ⟨h1, h2, rfl⟩ | ⟨h1, h2, h3, rfl⟩ | ⟨h1, h2, h3, rfl⟩
  · exact Or.inl ⟨h1, rfl⟩
  · simp only [asRequired]
    split_ifs with hx
    · exact Or.inr (Or.inl ⟨h1, hx, rfl⟩)
    · refine Or.inr (Or.inr (Or.inl ⟨h1, hx, ?_, rfl⟩))
      intro A hA
      rcases List.mem_append.1 h2 with h | h
      · exact hinc A hA x h
      · exact absurd h hx
  · exact Or.inr (Or.inr (Or.inl ⟨h1, fun h => h2 (List.mem_append.2 (Or.inr h)), h3, rfl⟩))
  · exact Or.inr (Or.inr (Or.inr ⟨h1, fun h => h2 (List.mem_append.2 (Or.inr h)), h3, rfl⟩))

/-- C100: the summary of a restricted tree is the summary of the tree under the joined wishes, in which
the items that were only asked for by `restrict` read `Required` instead of `Selected`. -/
theorem restrict_summarize {items : List T} {t : Tree T} (hu : t.univ = Universe.fromVec items)
    (inc exc inc' exc' : List T) {e e' : List (T × Nat)}
    (he : e.Perm ((t.restrict inc exc).counts inc' exc')) (he' : e'.Perm (t.counts (inc ++ inc') (exc ++ exc'))) :
    (t.restrict inc exc).summarize inc' exc' e =
      sorted ((t.summarize (inc ++ inc') (exc ++ exc') e').map (asRequired inc')) := by
  have hu' := restrict_univ hu inc exc
  have hfam : Left (family (t.restrict inc exc).combinations) inc' exc' =
      Left (family t.combinations) (inc ++ inc') (exc ++ exc') := by
    rw [restrict_family hu, left_left]
  have hinc : ∀ A ∈ Left (family t.combinations) (inc ++ inc') (exc ++ exc'), ∀ y ∈ inc, y ∈ A :=
    fun A hA y hy => hA.2.1 y (List.mem_append.2 (Or.inl hy))
  have hnd : ((t.summarize (inc ++ inc') (exc ++ exc') e').map (asRequired inc')).Nodup := by
    apply List.Nodup.of_map ItemStatus.item
    rw [List.map_map]
    have : ItemStatus.item ∘ asRequired inc' = (ItemStatus.item : ItemStatus T → T) :=
      funext (asRequired_item inc')
    rw [this, List.nodup_iff_count_le_one]
    intro x
    rw [summarize_once hu _ _ he' x]
    split_ifs <;> omega
  apply lt_ext (summarize_exact hu' inc' exc' he).1 (sorted_lt_of_nodup hnd)
  intro s
  rw [summary_status hu' he, hfam, mem_sorted, List.mem_map]
  constructor
  · rintro ⟨h1, h2⟩
    have h3 := summarize_once hu (inc ++ inc') (exc ++ exc') he' s.item
    rw [if_pos h1] at h3
    have h4 : s.item ∈ (t.summarize (inc ++ inc') (exc ++ exc') e').map ItemStatus.item := by
      rw [← List.count_pos_iff]; omega
    obtain ⟨s', hs', hi⟩ := List.mem_map.1 h4
    refine ⟨s', hs', ?_⟩
    have h5 := status_asRequired hinc ((summary_status hu he').1 hs').2
    rw [hi] at h5
    exact h5.unique h2
  · rintro ⟨s', hs', rfl⟩
    obtain ⟨h1, h2⟩ := (summary_status hu he').1 hs'
    rw [asRequired_item]
    exact ⟨h1, status_asRequired hinc h2⟩

example := restrict_summarize wardrobe_univ [1] [] [2] [4] (List.Perm.refl _) (List.reverse_perm _)

/-- C100: more wishes never bring an item back.  If the wishes grow, an item shown as excluded is shown as
excluded again, and an item shown as required or selected is shown as required or selected again unless no
combination is left at all. -/
theorem summarize_monotone {items : List T} {t : Tree T} (hu : t.univ = Universe.fromVec items)
    {inc exc inc' exc' : List T} (hi : inc ⊆ inc') (hx : exc ⊆ exc') {e e' : List (T × Nat)}
    (he : e.Perm (t.counts inc exc)) (he' : e'.Perm (t.counts inc' exc')) {s s' : ItemStatus T}
    (hs : s ∈ t.summarize inc exc e) (hs' : s' ∈ t.summarize inc' exc' e') (hss : s.item = s'.item) :
    (s.isExcluded = true → s'.isExcluded = true) ∧
    (s.isRequired = true ∨ s.isSelected = true → t.combinationsWith inc' exc' ≠ [] →
      s'.isRequired = true ∨ s'.isSelected = true) ∧
    (s'.isAvailable = true → s.isAvailable = true) := by
  have hsub : ∀ A ∈ Left (family t.combinations) inc' exc', A ∈ Left (family t.combinations) inc exc :=
    fun A hA => ⟨hA.1, fun y hy => hA.2.1 y (hi hy), fun y hy => hA.2.2 y (hx hy)⟩
  have h1 := ((summary_status hu he).1 hs).2
  have h2 := ((summary_status hu he').1 hs').2
  rw [hss] at h1
  by_cases hR : ∃ A, A ∈ Left (family t.combinations) inc' exc'
  · have k2 := status_says h2 hR left_inc
    have k1 := status_says h1 (hR.imp fun A hA => hsub A hA) left_inc
    refine ⟨?_, ?_, ?_⟩
    · rw [k1.1, k2.1]; exact fun h A hA => h A (hsub A hA)
    · rw [k1.2.2.1, k2.2.2.1]; exact fun h _ A hA => h A (hsub A hA)
    · rw [k1.2.1, k2.2.1]
      rintro ⟨⟨A, hA, ha⟩, B, hB, hb⟩
      exact ⟨⟨A, hsub A hA, ha⟩, B, hsub B hB, hb⟩
  · push Not at hR
    have h3 : s' = .Excluded s'.item := by
      rcases h2 with ⟨_, h⟩ | ⟨⟨A, hA, _⟩, _⟩ | ⟨⟨A, hA, _⟩, _⟩ | ⟨⟨A, hA, _⟩, _⟩
      · exact h
      · exact absurd hA (hR A)
      · exact absurd hA (hR A)
      · exact absurd hA (hR A)
    refine ⟨fun _ => by rw [h3]; rfl, fun _ h => absurd (with_nil.2 hR) h, ?_⟩
    rw [h3]; intro h; cases h

example := summarize_monotone wardrobe_univ (inc := []) (exc := []) (inc' := [1]) (exc' := [2]) (by simp) (by simp)
  (List.Perm.refl _) (List.reverse_perm _) (s := .Available 3) (s' := .Required 3) (by decide +kernel) (by decide +kernel) rfl

/-- C100: order and repetition of the wishes do not show. -/
theorem summarize_wishes {items : List T} {t : Tree T} (hu : t.univ = Universe.fromVec items)
    {inc exc inc' exc' : List T} (hi : ∀ x, x ∈ inc ↔ x ∈ inc') (hx : ∀ x, x ∈ exc ↔ x ∈ exc')
    {e e' : List (T × Nat)} (he : e.Perm (t.counts inc exc)) (he' : e'.Perm (t.counts inc' exc')) :
    t.summarize inc exc e = t.summarize inc' exc' e' := by
  apply lt_ext (summarize_exact hu inc exc he).1 (summarize_exact hu inc' exc' he').1
  intro s
  have hL : Left (family t.combinations) inc exc = Left (family t.combinations) inc' exc' := by
    ext A; simp only [Left, Set.mem_ofPred_eq, hi, hx]
  rw [summary_status hu he, summary_status hu he', hL]
  simp only [Status, hi]

example := summarize_wishes wardrobe_univ (inc := [1, 2]) (inc' := [2, 1, 2]) (exc := [4]) (exc' := [4, 4])
  (by intro x; simp; tauto) (by simp) (List.Perm.refl _) (List.reverse_perm _)

/-- C100: an item is excluded from a union exactly if it is excluded from both sides, whatever the
wishes. -/
theorem summarize_union {items : List T} {a b : Tree T} (ha : a.univ = Universe.fromVec items)
    (hb : b.univ = Universe.fromVec items) (inc exc : List T) {e e1 e2 : List (T × Nat)}
    (he : e.Perm ((a.union b).counts inc exc)) (he1 : e1.Perm (a.counts inc exc))
    (he2 : e2.Perm (b.counts inc exc)) (x : T) :
    .Excluded x ∈ (a.union b).summarize inc exc e ↔
      .Excluded x ∈ a.summarize inc exc e1 ∧ .Excluded x ∈ b.summarize inc exc e2 := by
  have hu : (a.union b).univ = Universe.fromVec items := ha
  have hex : ∀ R : Set (Finset T), Status R inc x (.Excluded x) ↔ ∀ A ∈ R, x ∉ A := by
    intro R
    constructor
    · rintro (⟨h, _⟩ | ⟨_, _, h⟩ | ⟨_, _, _, h⟩ | ⟨_, _, _, h⟩)
      · exact h
      all_goals cases h
    · exact fun h => Or.inl ⟨h, rfl⟩
  rw [summary_status hu he, summary_status ha he1, summary_status hb he2,
    union_exact (ha.trans hb.symm)]
  simp only [ItemStatus.item, hex]
  constructor
  · rintro ⟨h1, h2⟩
    exact ⟨⟨h1, fun A hA => h2 A ⟨Or.inl hA.1, hA.2⟩⟩, h1, fun A hA => h2 A ⟨Or.inr hA.1, hA.2⟩⟩
  · rintro ⟨⟨h1, h2⟩, -, h3⟩
    exact ⟨h1, fun A hA => hA.1.elim (fun h => h2 A ⟨h, hA.2⟩) (fun h => h3 A ⟨h, hA.2⟩)⟩

example := summarize_union wardrobe_univ (b := (Universe.fromVec [1, 2, 3, 4]).tree [2, 3]) rfl [2] []
  (List.Perm.refl _) (List.reverse_perm _) (List.Perm.refl _) 4

/-- Concrete case: a tree with three combinations over four items. -/
example : (((Universe.fromVec [1, 2, 3, 4]).hyperTree [[1, 2], [1, 3], [4]]).univ = Universe.fromVec [1, 2, 3, 4]) ∧
    ((Universe.fromVec [1, 2, 3, 4]).hyperTree [[1, 2], [1, 3], [4]]).combinations ≠ [] := by
  have hf := hyper_tree_exact [1, 2, 3, 4] [[1, 2], [1, 3], [4]]
  refine ⟨univ_foldUnion _ _, ?_⟩
  intro h
  rw [h] at hf
  have : ({1, 2} : Finset ℕ) ∈ family ([] : List (List ℕ)) := by
    rw [hf]
    exact ⟨[1, 2], by simp, by decide⟩
  simp [family] at this

end Verif.Zdd1
