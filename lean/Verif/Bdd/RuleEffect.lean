import Verif.Bdd.Equal

/-!
# What one more rule does to a closet, read off the closet without it (C126)
-/

set_option linter.unusedSimpArgs false
set_option linter.unusedVariables false
set_option linter.unusedSectionVars false

namespace Verif.Bdd
open Verif Verif.Bdd.Spec Verif.Bdd.Node

universe u v
variable {I : Type u} {F : Type v} [LinearOrder I] [LinearOrder F]

/-- Not code: the number a client sees when it selects `sel` in turn and asks for `outfit_count()`; none if a
selection is refused. -/
def countAfter (c : Closet I F) (sel : List I) : Nat :=
  match c.selectAll sel with
  | .ok c' => c'.root.outfitCount
  | .error _ => 0

/-- Not code: the rule forbids `a` with `b`. -/
def Forbids (ds cs : List (Call I F)) (a b : I) : Prop :=
  ∃ pre post, cs = pre ++ post ∧ ds = pre ++ .exclude a b :: post

/-- Not code: the rule asks for `b` with `a`. -/
def Requires (ds cs : List (Call I F)) (a b : I) : Prop :=
  ∃ pre post, cs = pre ++ post ∧ ds = pre ++ .incl a b :: post

theorem Forbids.outfit {ds cs : List (Call I F)} {a b : I} (h : Forbids ds cs a b) (w : Finset I) :
    Outfit ds w ↔ Outfit cs w ∧ ¬ (a ∈ w ∧ b ∈ w) := by
  obtain ⟨pre, post, rfl, rfl⟩ := h
  constructor
  · rintro ⟨h0, h1, h2, h3⟩
    refine ⟨⟨fun i hi => by simpa [Known] using h0 i hi, fun f i hf => ?_, fun x y hxy => ?_, fun x y hxy => ?_⟩,
      h2 a b (by simp)⟩
    · simpa using h1 f i (by simpa using hf)
    · refine h2 x y ?_
      rw [List.mem_append] at hxy
      rcases hxy with hxy | hxy <;> simp [hxy]
    · exact h3 x y (by simpa using hxy)
  · rintro ⟨⟨h0, h1, h2, h3⟩, h4⟩
    refine ⟨fun i hi => by simpa [Known] using h0 i hi, fun f i hf => ?_, fun x y hxy => ?_,
      fun x y hxy => h3 x y (by simpa using hxy)⟩
    · simpa using h1 f i (by simpa using hf)
    · simp only [List.mem_append, List.mem_cons, Call.exclude.injEq] at hxy
      rcases hxy with hxy | ⟨rfl, rfl⟩ | hxy
      · exact h2 x y (by simp [hxy])
      · exact h4
      · exact h2 x y (by simp [hxy])

theorem Requires.outfit {ds cs : List (Call I F)} {a b : I} (h : Requires ds cs a b) (w : Finset I) :
    Outfit ds w ↔ Outfit cs w ∧ (a ∈ w → b ∈ w) := by
  obtain ⟨pre, post, rfl, rfl⟩ := h
  constructor
  · rintro ⟨h0, h1, h2, h3⟩
    refine ⟨⟨fun i hi => by simpa [Known] using h0 i hi, fun f i hf => ?_, fun x y hxy => ?_, fun x y hxy => ?_⟩,
      h3 a b (by simp)⟩
    · simpa using h1 f i (by simpa using hf)
    · exact h2 x y (by simpa using hxy)
    · refine h3 x y ?_
      rw [List.mem_append] at hxy
      rcases hxy with hxy | hxy <;> simp [hxy]
  · rintro ⟨⟨h0, h1, h2, h3⟩, h4⟩
    refine ⟨fun i hi => by simpa [Known] using h0 i hi, fun f i hf => ?_, fun x y hxy => h2 x y (by simpa using hxy),
      fun x y hxy => ?_⟩
    · simpa using h1 f i (by simpa using hf)
    · simp only [List.mem_append, List.mem_cons, Call.incl.injEq] at hxy
      rcases hxy with hxy | ⟨rfl, rfl⟩ | hxy
      · exact h3 x y (by simp [hxy])
      · exact h4
      · exact h3 x y (by simp [hxy])

/-- C126: selecting items in turn counts the outfits that have them all. -/
theorem countAfter_exact (cs : List (Call I F)) (sel xs : List I) (c : Closet I F) (h : Reached cs xs c)
    (L : Finset (Finset I)) (hL : ∀ w, w ∈ L ↔ Outfit cs w ∧ ∀ x ∈ xs, x ∈ w) :
    countAfter c sel = (L.filter (fun w => ∀ x ∈ sel, x ∈ w)).card := by
  induction sel generalizing xs c L with
  | nil =>
    obtain ⟨M, hM, e⟩ := outfit_count_exact cs xs c h
    have : L = M := by ext w; rw [hL, hM]
    simp [countAfter, Closet.selectAll, e, this]
  | cons i sel ih =>
    have next : ∀ c', c.selectItem i = .ok c' → countAfter c (i :: sel) = countAfter c' sel := by
      intro c' e; simp [countAfter, Closet.selectAll, e]
    have stop : ∀ e, c.selectItem i = .error e → countAfter c (i :: sel) = 0 := by
      intro e he; simp [countAfter, Closet.selectAll, he]
    have go : ∀ c', c.selectItem i = .ok c' →
        countAfter c (i :: sel) = (L.filter (fun w => ∀ x ∈ i :: sel, x ∈ w)).card := by
      intro c' e
      rw [next c' e, ih (xs ++ [i]) c' (h.snoc e) (L.filter (fun w => i ∈ w)) (fun w => by
        rw [Finset.mem_filter, hL]
        simp only [List.mem_append, List.mem_singleton, or_imp, forall_and, forall_eq, and_assoc])]
      rw [Finset.filter_filter]
      congr 1
      ext w; simp
    by_cases hv : ∃ v, Outfit cs v ∧ (∀ y ∈ xs, y ∈ v) ∧ i ∈ v
    · obtain ⟨v, hv1, hv2⟩ := hv
      obtain ⟨c', e', -⟩ := (select_exact cs xs c h ⟨v, hv1⟩ i).2.2 ⟨v, hv1, hv2⟩
      exact go c' e'
    · have h0 : (L.filter (fun w => ∀ x ∈ i :: sel, x ∈ w)).card = 0 := by
        rw [Finset.card_eq_zero, Finset.filter_eq_empty_iff]
        intro w hw hiw
        obtain ⟨a, b⟩ := (hL w).mp hw
        exact hv ⟨w, a, b, hiw i (by simp)⟩
      cases e : c.selectItem i with
      | ok c' => exact go c' e
      | error r => rw [stop r e, h0]

/-- C126: one more exclusion rule takes away exactly the outfits counted by selecting both items first. -/
theorem exclude_count (cs ds : List (Call I F)) (a b : I) (hr : Forbids ds cs a b) (xs : List I) (c d : Closet I F)
    (h : Reached cs xs c) (k : Reached ds xs d) :
    c.root.outfitCount = d.root.outfitCount + countAfter c [a, b] := by
  obtain ⟨L, hL, e⟩ := outfit_count_exact cs xs c h
  obtain ⟨M, hM, e'⟩ := outfit_count_exact ds xs d k
  rw [e, e', countAfter_exact cs [a, b] xs c h L hL]
  have : M = L.filter (fun w => ¬ ∀ x ∈ [a, b], x ∈ w) := by
    ext w
    rw [hM, Finset.mem_filter, hL, hr.outfit]
    simp only [List.mem_cons, List.not_mem_nil, or_false, forall_eq_or_imp, forall_eq]
    tauto
  rw [this, add_comm, Finset.card_filter_add_card_filter_not]

/-- C126: one more inclusion rule takes away exactly the outfits with the first item and not the second. -/
theorem incl_count (cs ds : List (Call I F)) (a b : I) (hr : Requires ds cs a b) (xs : List I) (c d : Closet I F)
    (h : Reached cs xs c) (k : Reached ds xs d) :
    c.root.outfitCount + countAfter c [a, b] = d.root.outfitCount + countAfter c [a] := by
  obtain ⟨L, hL, e⟩ := outfit_count_exact cs xs c h
  obtain ⟨M, hM, e'⟩ := outfit_count_exact ds xs d k
  rw [e, e', countAfter_exact cs [a, b] xs c h L hL, countAfter_exact cs [a] xs c h L hL]
  have hM' : M = L.filter (fun w => a ∈ w → b ∈ w) := by
    ext w
    rw [hM, Finset.mem_filter, hL, hr.outfit]
    tauto
  have h1 : (L.filter (fun w => ∀ x ∈ [a, b], x ∈ w)) = L.filter (fun w => a ∈ w ∧ b ∈ w) := by
    ext w; simp
  have h2 : (L.filter (fun w => ∀ x ∈ [a], x ∈ w)) = L.filter (fun w => a ∈ w) := by
    ext w; simp
  rw [hM', h1, h2]
  have h3 : (L.filter (fun w => a ∈ w)).card =
      (L.filter (fun w => a ∈ w ∧ b ∈ w)).card + (L.filter (fun w => ¬ (a ∈ w → b ∈ w))).card := by
    rw [← Finset.card_union_of_disjoint]
    · congr 1
      ext w
      simp only [Finset.mem_filter, Finset.mem_union]
      tauto
    · rw [Finset.disjoint_left]
      intro w hw hw'
      rw [Finset.mem_filter] at hw hw'
      tauto
  have h4 := Finset.card_filter_add_card_filter_not (s := L) (fun w => a ∈ w → b ∈ w)
  omega

/-- C126: which items can be selected, and which completions fail, after an exclusion rule can be read off without
it: the outfits that are left are those of the first closet that do not have both. -/
theorem exclude_left (cs ds : List (Call I F)) (a b : I) (hr : Forbids ds cs a b) (xs sel : List I) (c d : Closet I F)
    (h : Reached cs xs c) (k : Reached ds xs d) :
    countAfter c sel = countAfter d sel + countAfter c (sel ++ [a, b]) := by
  obtain ⟨L, hL, e⟩ := outfit_count_exact cs xs c h
  obtain ⟨M, hM, e'⟩ := outfit_count_exact ds xs d k
  rw [countAfter_exact cs _ xs c h L hL, countAfter_exact cs _ xs c h L hL, countAfter_exact ds _ xs d k M hM]
  have h1 : M.filter (fun w => ∀ x ∈ sel, x ∈ w) =
      (L.filter (fun w => ∀ x ∈ sel, x ∈ w)).filter (fun w => ¬ (a ∈ w ∧ b ∈ w)) := by
    ext w
    rw [Finset.mem_filter, hM, Finset.mem_filter, Finset.mem_filter, hL, hr.outfit]
    tauto
  have h2 : L.filter (fun w => ∀ x ∈ sel ++ [a, b], x ∈ w) =
      (L.filter (fun w => ∀ x ∈ sel, x ∈ w)).filter (fun w => a ∈ w ∧ b ∈ w) := by
    ext w
    rw [Finset.mem_filter, Finset.mem_filter, Finset.mem_filter]
    simp only [List.mem_append, List.mem_cons, List.not_mem_nil, or_false, or_imp, forall_and, forall_eq]
    tauto
  rw [h1, h2, add_comm, Finset.card_filter_add_card_filter_not]

/-- C126: the same for an inclusion rule. -/
theorem incl_left (cs ds : List (Call I F)) (a b : I) (hr : Requires ds cs a b) (xs sel : List I) (c d : Closet I F)
    (h : Reached cs xs c) (k : Reached ds xs d) :
    countAfter c sel + countAfter c (sel ++ [a, b]) = countAfter d sel + countAfter c (sel ++ [a]) := by
  obtain ⟨L, hL, e⟩ := outfit_count_exact cs xs c h
  obtain ⟨M, hM, e'⟩ := outfit_count_exact ds xs d k
  rw [countAfter_exact cs _ xs c h L hL, countAfter_exact cs _ xs c h L hL, countAfter_exact cs _ xs c h L hL,
    countAfter_exact ds _ xs d k M hM]
  set S := L.filter (fun w => ∀ x ∈ sel, x ∈ w) with hS
  have h1 : M.filter (fun w => ∀ x ∈ sel, x ∈ w) = S.filter (fun w => a ∈ w → b ∈ w) := by
    ext w
    rw [Finset.mem_filter, hM, Finset.mem_filter, hS, Finset.mem_filter, hL, hr.outfit]
    tauto
  have h2 : L.filter (fun w => ∀ x ∈ sel ++ [a, b], x ∈ w) = S.filter (fun w => a ∈ w ∧ b ∈ w) := by
    ext w
    rw [hS, Finset.mem_filter, Finset.mem_filter, Finset.mem_filter]
    simp only [List.mem_append, List.mem_cons, List.not_mem_nil, or_false, or_imp, forall_and, forall_eq]
    tauto
  have h2' : L.filter (fun w => ∀ x ∈ sel ++ [a], x ∈ w) = S.filter (fun w => a ∈ w) := by
    ext w
    rw [hS, Finset.mem_filter, Finset.mem_filter, Finset.mem_filter]
    simp only [List.mem_append, List.mem_cons, List.not_mem_nil, or_false, or_imp, forall_and, forall_eq]
    tauto
  rw [h1, h2, h2']
  have h3 : (S.filter (fun w => a ∈ w)).card =
      (S.filter (fun w => a ∈ w ∧ b ∈ w)).card + (S.filter (fun w => ¬ (a ∈ w → b ∈ w))).card := by
    rw [← Finset.card_union_of_disjoint]
    · congr 1
      ext w
      simp only [Finset.mem_filter, Finset.mem_union]
      tauto
    · rw [Finset.disjoint_left]
      intro w hw hw'
      rw [Finset.mem_filter] at hw hw'
      tauto
  have h4 := Finset.card_filter_add_card_filter_not (s := S) (fun w => a ∈ w → b ∈ w)
  omega

/-- C126: selecting counts none exactly if no outfit has everything that was selected. -/
theorem countAfter_zero (cs : List (Call I F)) (xs sel : List I) (c : Closet I F) (h : Reached cs xs c) :
    countAfter c sel = 0 ↔ ∀ w, Outfit cs w → (∀ x ∈ xs, x ∈ w) → ¬ ∀ x ∈ sel, x ∈ w := by
  obtain ⟨L, hL, -⟩ := outfit_count_exact cs xs c h
  rw [countAfter_exact cs sel xs c h L hL, Finset.card_eq_zero, Finset.filter_eq_empty_iff]
  exact ⟨fun g w h1 h2 => g ((hL w).mpr ⟨h1, h2⟩), fun g w hw => g w ((hL w).mp hw).1 ((hL w).mp hw).2⟩

/-- C126: an exclusion rule changes nothing, by equality of closets, exactly if selecting both items counts nothing
without it. -/
theorem exclude_redundant (cs ds : List (Call I F)) (a b : I) (hr : Forbids ds cs a b) (xs : List I) (c d : Closet I F)
    (h : Reached cs xs c) (k : Reached ds xs d) : d = c ↔ countAfter c [a, b] = 0 := by
  rw [closet_eq_iff ds cs xs xs d c k h, countAfter_zero cs xs _ c h]
  obtain ho := hr.outfit
  have hi : ∀ f i, Call.item f i ∈ ds ↔ Call.item f i ∈ cs := by
    obtain ⟨pre, post, rfl, rfl⟩ := hr; simp
  constructor
  · rintro ⟨-, -, g⟩ w hw hx hab
    exact ((ho w).mp ((g w hx).mpr hw)).2 (by simpa using hab)
  · intro g
    refine ⟨hi, fun _ => Iff.rfl, fun w hx => ?_⟩
    rw [ho]
    exact ⟨fun hw => hw.1, fun hw => ⟨hw, fun hab => g w hw hx (by simpa using hab)⟩⟩

/-- C126: an inclusion rule changes nothing, by equality of closets, exactly if selecting the second item after the
first loses no outfit. -/
theorem incl_redundant (cs ds : List (Call I F)) (a b : I) (hr : Requires ds cs a b) (xs : List I) (c d : Closet I F)
    (h : Reached cs xs c) (k : Reached ds xs d) : d = c ↔ countAfter c [a, b] = countAfter c [a] := by
  obtain ⟨L, hL, e⟩ := outfit_count_exact cs xs c h
  have ho := hr.outfit
  have hi : ∀ f i, Call.item f i ∈ ds ↔ Call.item f i ∈ cs := by
    obtain ⟨pre, post, rfl, rfl⟩ := hr; simp
  constructor
  · intro hdc
    have := incl_count cs ds a b hr xs c d h k
    rw [hdc] at this
    omega
  · intro hc
    rw [countAfter_exact cs _ xs c h L hL, countAfter_exact cs _ xs c h L hL] at hc
    have hsub : L.filter (fun w => ∀ x ∈ [a, b], x ∈ w) ⊆ L.filter (fun w => ∀ x ∈ [a], x ∈ w) := by
      intro w hw
      rw [Finset.mem_filter] at hw ⊢
      exact ⟨hw.1, fun x hx => hw.2 x (by simp at hx; simp [hx])⟩
    have heq := Finset.eq_of_subset_of_card_le hsub hc.ge
    rw [closet_eq_iff ds cs xs xs d c k h]
    refine ⟨hi, fun _ => Iff.rfl, fun w hx => ?_⟩
    rw [ho]
    refine ⟨fun hw => hw.1, fun hw => ⟨hw, fun ha => ?_⟩⟩
    have hm : w ∈ L.filter (fun w => ∀ x ∈ [a], x ∈ w) :=
      Finset.mem_filter.mpr ⟨(hL w).mpr ⟨hw, hx⟩, by simpa using ha⟩
    rw [← heq, Finset.mem_filter] at hm
    exact hm.2 b (by simp)

/-- Not vacuous: the demo closet with the rule `1 excludes 3` and without it, nothing selected, and with `1` selected. -/
example := fun c d (h : Reached [.item 0 1, .item 0 2, .item 1 3, .item 1 4, .incl 2 3] [] c) (k : Reached demo [] d) =>
  And.intro (exclude_count _ demo 1 3 ⟨[.item 0 1, .item 0 2], [.item 1 3, .item 1 4, .incl 2 3], rfl, rfl⟩ [] c d h k) <| And.intro (
    exclude_left _ demo 1 3 ⟨[.item 0 1, .item 0 2], [.item 1 3, .item 1 4, .incl 2 3], rfl, rfl⟩ [] [4] c d h k) (
    exclude_redundant _ demo 1 3 ⟨[.item 0 1, .item 0 2], [.item 1 3, .item 1 4, .incl 2 3], rfl, rfl⟩ [] c d h k)

example := fun c d (h : Reached [.item 0 1, .item 0 2, .exclude 1 3, .item 1 3, .item 1 4] [4] c)
    (k : Reached demo [4] d) =>
  And.intro (incl_count _ demo 2 3 ⟨[.item 0 1, .item 0 2, .exclude 1 3, .item 1 3, .item 1 4], [], rfl, rfl⟩ [4] c d h k) <| And.intro (
    incl_left _ demo 2 3 ⟨[.item 0 1, .item 0 2, .exclude 1 3, .item 1 3, .item 1 4], [], rfl, rfl⟩ [4] [2] c d h k) (
    incl_redundant _ demo 2 3 ⟨[.item 0 1, .item 0 2, .exclude 1 3, .item 1 3, .item 1 4], [], rfl, rfl⟩ [4] c d h k)

/-- Such closets are made: both lists of calls are legal. -/
example : (∃ c, Reached demo [] c) ∧ ∃ c, Reached ([.item 0 1, .item 0 2, .item 1 3, .item 1 4, .incl 2 3] : List (Call ℕ ℕ)) [] c := by
  refine ⟨?_, ?_⟩
  · obtain ⟨c, hc⟩ := (build_validates demo).1.mp demo_legal
    exact ⟨c, c, hc, rfl⟩
  · have hl : Legal ([.item 0 1, .item 0 2, .item 1 3, .item 1 4, .incl 2 3] : List (Call ℕ ℕ)) := by
      refine ⟨?_, ?_, ?_⟩
      · intro f g i; simp; omega
      · intro a b; simp
      · intro a b; simp; rintro rfl rfl; exact ⟨0, by simp, 1, by simp⟩
    obtain ⟨c, hc⟩ := (build_validates _).1.mp hl
    exact ⟨c, c, hc, rfl⟩

end Verif.Bdd
