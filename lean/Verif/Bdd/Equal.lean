import Verif.Bdd.More

/-!
# When two closets are equal (C109)
-/

set_option linter.unusedSimpArgs false
set_option linter.unusedVariables false
set_option linter.unusedSectionVars false

namespace Verif.Bdd
open Verif Verif.Bdd.Spec Verif.Bdd.Node

universe u v
variable {I : Type u} {F : Type v} [LinearOrder I] [LinearOrder F]

/-- Only what is worn of the known items matters. -/
theorem accepts_known {cs : List (Call I F)} (hl : Legal cs) (w : I → Prop) :
    Accepts cs w ↔ Accepts cs (fun i => Known cs i ∧ w i) := by
  have hk : ∀ f i, Call.item f i ∈ cs → Known cs i := fun f i h => ⟨f, h⟩
  have ex : ∀ a b, Call.exclude a b ∈ cs → Known cs a ∧ Known cs b := fun a b h => by
    obtain ⟨f, g, h1, h2, _⟩ := hl.exclusions a b h
    exact ⟨hk _ _ h1, hk _ _ h2⟩
  have inc : ∀ a b, Call.incl a b ∈ cs → Known cs a ∧ Known cs b := fun a b h => by
    obtain ⟨f, g, h1, h2, _⟩ := hl.inclusions a b h
    exact ⟨hk _ _ h1, hk _ _ h2⟩
  have one : ∀ f j, (Call.item f j ∈ cs ∧ w j) ↔ (Call.item f j ∈ cs ∧ Known cs j ∧ w j) := fun f j =>
    ⟨fun h => ⟨h.1, hk _ _ h.1, h.2⟩, fun h => ⟨h.1, h.2.2⟩⟩
  constructor
  · rintro ⟨h1, h2, h3⟩
    refine ⟨fun f i h => ?_, fun a b h hw => h2 a b h ⟨hw.1.2, hw.2.2⟩, fun a b h hw => ⟨(inc a b h).2, h3 a b h hw.2⟩⟩
    simpa only [one] using h1 f i h
  · rintro ⟨h1, h2, h3⟩
    refine ⟨fun f i h => ?_, fun a b h hw => h2 a b h ⟨⟨(ex a b h).1, hw.1⟩, (ex a b h).2, hw.2⟩,
      fun a b h hw => (h3 a b h ⟨(inc a b h).1, hw⟩).2⟩
    simpa only [one] using h1 f i h

/-- The outfit worn under an assignment.  Not code: used to state or prove properties. -/
def worn (cs : List (Call I F)) (p : I → Bool) : Finset I :=
  ((itemPairs cs).map Prod.snd).toFinset.filter (fun i => p i = true)

theorem mem_worn {cs : List (Call I F)} {p : I → Bool} {i : I} : i ∈ worn cs p ↔ Known cs i ∧ p i = true := by
  simp only [worn, Finset.mem_filter, List.mem_toFinset, List.mem_map, Prod.exists, exists_eq_right, mem_itemPairs, Known]

theorem outfit_worn {cs : List (Call I F)} (hl : Legal cs) (p : I → Bool) :
    Outfit cs (worn cs p) ↔ Accepts cs (fun i => p i = true) := by
  rw [accepts_known hl]
  constructor
  · intro h
    exact (Accepts.congr fun i => mem_worn).1 h.accepts
  · intro h
    exact ⟨fun i hi => (mem_worn.1 hi).1, (Accepts.congr fun i => mem_worn).2 h⟩

/-- C109: closets reached from any two histories of builder calls by any selections are equal exactly if they have the
same items in the same families, the same selections, and the same outfits among those that contain the selections. -/
theorem closet_eq_iff (cs ds : List (Call I F)) (xs ys : List I) (c d : Closet I F) (h : Reached cs xs c)
    (k : Reached ds ys d) : c = d ↔ (∀ f i, Call.item f i ∈ cs ↔ Call.item f i ∈ ds) ∧ (∀ i, i ∈ xs ↔ i ∈ ys) ∧
      ∀ w : Finset I, (∀ x ∈ xs, x ∈ w) → (Outfit cs w ↔ Outfit ds w) := by
  obtain ⟨hl, hs, hk, _⟩ := h.state
  obtain ⟨kl, ks, kk, _⟩ := k.state
  constructor
  · rintro rfl
    have hi : ∀ f i, Call.item f i ∈ cs ↔ Call.item f i ∈ ds := fun f i => by
      rw [← lookup_index hl.1, ← lookup_index kl.1, ← hs.index, ← ks.index]
    have hx : ∀ i, i ∈ xs ↔ i ∈ ys := fun i => by rw [← hs.summary_selected, ks.summary_selected]
    refine ⟨hi, hx, fun w hw => ?_⟩
    have hkn : ∀ i, Known cs i ↔ Known ds i := fun i => by simp only [Known, hi]
    have ha : Accepts cs (fun i => i ∈ w) ↔ Accepts ds (fun i => i ∈ w) := by
      have e1 := hs.eval (fun i => decide (i ∈ w))
      have e2 := ks.eval (fun i => decide (i ∈ w))
      rw [e1] at e2
      refine Iff.trans (Iff.trans (Accepts.congr fun i => ?_) e2) (Accepts.congr fun i => ?_)
      · simp only [decide_eq_true_eq]
        exact ⟨fun h => .inr h, fun h => h.elim (hw i) id⟩
      · simp only [decide_eq_true_eq]
        exact ⟨fun h => h.elim (fun h => hw i ((hx i).2 h)) id, fun h => .inr h⟩
    exact ⟨fun o => ⟨fun i hi => (hkn i).1 (o.known i hi), ha.1 o.accepts⟩,
      fun o => ⟨fun i hi => (hkn i).2 (o.known i hi), ha.2 o.accepts⟩⟩
  · rintro ⟨hi, hx, hw⟩
    have hkn : ∀ i, Known cs i ↔ Known ds i := fun i => by simp only [Known, hi]
    have hr : c.root = d.root := by
      apply canonical hs.good.1 ks.good.1 hs.good.2 ks.good.2
      intro σ
      rw [Bool.eq_iff_iff, hs.eval, ks.eval]
      have e1 := outfit_worn hl (fun i => decide (i ∈ xs) || σ i)
      have e2 := outfit_worn kl (fun i => decide (i ∈ xs) || σ i)
      have e3 : worn cs (fun i => decide (i ∈ xs) || σ i) = worn ds (fun i => decide (i ∈ xs) || σ i) := by
        ext i; rw [mem_worn, mem_worn, hkn]
      rw [← e3, ← hw _ (fun x hx => mem_worn.2 ⟨hk x hx, by simp [hx]⟩), e1] at e2
      simp only [Bool.or_eq_true, decide_eq_true_eq] at e2
      exact e2.trans (Accepts.congr fun i => by rw [hx])
    have hsum : c.summary = d.summary := by
      rw [hs.summary, ks.summary, hr]
      apply sorted_uniq_congr
      intro s
      simp only [List.mem_append, List.mem_map, hx]
    have hii : c.itemIndex = d.itemIndex := by
      rw [hs.index, ks.index]
      apply smap_ext (indexOf_keysLt _) (indexOf_keysLt _)
      intro i
      apply Option.ext
      intro f
      rw [lookup_index hl.1, lookup_index kl.1, hi]
    cases c; cases d; simp_all

/-- C109: a rule added to a legal history changes the closet exactly if some outfit breaks it. -/
theorem redundant_iff (cs : List (Call I F)) (a b : I) (c : Closet I F) (h : (ClosetBuilder.run cs).build = .ok c) :
    (∀ d, (ClosetBuilder.run (cs ++ [.exclude a b])).build = .ok d →
      (d = c ↔ ∀ w, Outfit cs w → ¬ (a ∈ w ∧ b ∈ w))) ∧
    ∀ d, (ClosetBuilder.run (cs ++ [.incl a b])).build = .ok d → (d = c ↔ ∀ w, Outfit cs w → a ∈ w → b ∈ w) := by
  have hc : Reached cs [] c := ⟨c, h, rfl⟩
  refine ⟨fun d hd => ?_, fun d hd => ?_⟩
  · have hk : Reached (cs ++ [.exclude a b]) [] d := ⟨d, hd, rfl⟩
    rw [closet_eq_iff _ _ _ _ _ _ hk hc]
    have ho : ∀ w, Outfit (cs ++ [.exclude a b]) w ↔ Outfit cs w ∧ ¬ (a ∈ w ∧ b ∈ w) := by
      intro w
      constructor
      · rintro ⟨h0, h1, h2, h3⟩
        refine ⟨⟨fun i hi => ?_, fun f i hf => ?_, fun x y hxy => h2 x y (by simp [hxy]),
          fun x y hxy => h3 x y (by simp [hxy])⟩, h2 a b (by simp)⟩
        · simpa [Known] using h0 i hi
        · simpa using h1 f i (by simp [hf])
      · rintro ⟨⟨h0, h1, h2, h3⟩, h4⟩
        refine ⟨fun i hi => ?_, fun f i hf => ?_, fun x y hxy => ?_, fun x y hxy => h3 x y (by simpa using hxy)⟩
        · simpa [Known] using h0 i hi
        · simpa using h1 f i (by simpa using hf)
        · simp only [List.mem_append, List.mem_singleton, Call.exclude.injEq] at hxy
          rcases hxy with hxy | ⟨rfl, rfl⟩
          · exact h2 x y hxy
          · exact h4
    simp only [ho, List.mem_append, List.mem_singleton, reduceCtorEq, or_false, iff_self, implies_true, true_and,
      List.not_mem_nil, false_implies, forall_const, and_iff_left_iff_imp]
  · have hk : Reached (cs ++ [.incl a b]) [] d := ⟨d, hd, rfl⟩
    rw [closet_eq_iff _ _ _ _ _ _ hk hc]
    have ho : ∀ w, Outfit (cs ++ [.incl a b]) w ↔ Outfit cs w ∧ (a ∈ w → b ∈ w) := by
      intro w
      constructor
      · rintro ⟨h0, h1, h2, h3⟩
        refine ⟨⟨fun i hi => ?_, fun f i hf => ?_, fun x y hxy => h2 x y (by simp [hxy]),
          fun x y hxy => h3 x y (by simp [hxy])⟩, h3 a b (by simp)⟩
        · simpa [Known] using h0 i hi
        · simpa using h1 f i (by simp [hf])
      · rintro ⟨⟨h0, h1, h2, h3⟩, h4⟩
        refine ⟨fun i hi => ?_, fun f i hf => ?_, fun x y hxy => h2 x y (by simpa using hxy), fun x y hxy => ?_⟩
        · simpa [Known] using h0 i hi
        · simpa using h1 f i (by simpa using hf)
        · simp only [List.mem_append, List.mem_singleton, Call.incl.injEq] at hxy
          rcases hxy with hxy | ⟨rfl, rfl⟩
          · exact h3 x y hxy
          · exact h4
    simp only [ho, List.mem_append, List.mem_singleton, reduceCtorEq, or_false, iff_self, implies_true, true_and,
      List.not_mem_nil, false_implies, forall_const, and_iff_left_iff_imp]

/-- C109: an exclusion rule may be stated from either side. -/
theorem exclude_symm (pre post : List (Call I F)) (a b : I) (c d : Closet I F)
    (h : (ClosetBuilder.run (pre ++ .exclude a b :: post)).build = .ok c)
    (k : (ClosetBuilder.run (pre ++ .exclude b a :: post)).build = .ok d) : c = d := by
  rw [closet_eq_iff _ _ [] [] _ _ ⟨c, h, rfl⟩ ⟨d, k, rfl⟩]
  refine ⟨by simp, by simp, fun w _ => ?_⟩
  have key : ∀ a b : I, Outfit (pre ++ .exclude a b :: post) w → Outfit (pre ++ .exclude b a :: post) w := by
    rintro a b ⟨h0, h1, h2, h3⟩
    refine ⟨fun i hi => by simpa [Known] using h0 i hi, fun f i hf => by simpa using h1 f i (by simpa using hf),
      fun x y hxy => ?_, fun x y hxy => h3 x y (by simpa using hxy)⟩
    simp only [List.mem_append, List.mem_cons, Call.exclude.injEq] at hxy
    rcases hxy with hxy | ⟨rfl, rfl⟩ | hxy
    · exact h2 x y (by simp [hxy])
    · exact fun hw => h2 y x (by simp) hw.symm
    · exact h2 x y (by simp [hxy])
  exact ⟨key a b, key b a⟩

/-- C109: two closets are equal exactly if they name the same family for every item, list the same items as selected
and complete every list of items in the same way: no observation tells them apart unless one of these does. -/
theorem closet_eq_iff_observed (cs ds : List (Call I F)) (xs ys : List I) (c d : Closet I F) (h : Reached cs xs c)
    (k : Reached ds ys d) : c = d ↔ (∀ i, c.getFamily i = d.getFamily i) ∧
      (∀ i, Status.Selected i ∈ c.summary ↔ Status.Selected i ∈ d.summary) ∧
      ∀ sel, c.completeOutfit sel = d.completeOutfit sel := by
  obtain ⟨hl, hs, hk, _⟩ := h.state
  obtain ⟨kl, ks, kk, _⟩ := k.state
  constructor
  · rintro rfl; exact ⟨fun _ => rfl, fun _ => Iff.rfl, fun _ => rfl⟩
  rintro ⟨hf, hsel, hcomp⟩
  have hi : ∀ f i, Call.item f i ∈ cs ↔ Call.item f i ∈ ds := fun f i => by
    have := hf i
    rw [Closet.getFamily, Closet.getFamily, hs.index, ks.index] at this
    rw [← lookup_index hl.1, ← lookup_index kl.1, this]
  have hx : ∀ i, i ∈ xs ↔ i ∈ ys := fun i => by rw [← hs.summary_selected, hsel, ks.summary_selected]
  have key : ∀ {cs ds : List (Call I F)} {xs ys : List I} {c d : Closet I F}, Reached cs xs c → Reached ds ys d →
      (∀ f i, Call.item f i ∈ cs ↔ Call.item f i ∈ ds) → (∀ i, i ∈ xs ↔ i ∈ ys) →
      (∀ sel, c.completeOutfit sel = d.completeOutfit sel) → ∀ w : Finset I, (∀ x ∈ xs, x ∈ w) → Outfit cs w →
      Outfit ds w := by
    intro cs ds xs ys c d h k hi hx hcomp w hw ho
    have hlc := h.state.1
    have hld := k.state.1
    have hmem : ∀ x, x ∈ w.sort (· ≤ ·) ↔ x ∈ w := fun x => Finset.mem_sort _
    have hcl : ¬ Clash cs (w.sort (· ≤ ·)) := by
      rintro ⟨f, s, hsub, hlen, hs⟩
      match s, hlen, hsub, hs with
      | x :: y :: s, _, hsub, hs =>
        have hx := hs x (by simp)
        have hy := hs y (by simp)
        have := (ho.accepts.one f x hx).unique ⟨hx, (hmem x).1 (hsub.subset (by simp))⟩
          ⟨hy, (hmem y).1 (hsub.subset (by simp))⟩
        have hnd := (Finset.sort_nodup w (· ≤ ·)).sublist hsub
        rw [this] at hnd
        simp at hnd
    have hkn : ∀ x ∈ w.sort (· ≤ ·), Known cs x := fun x hx => ho.known x ((hmem x).1 hx)
    have hok : ∃ o, d.completeOutfit (w.sort (· ≤ ·)) = some (.ok o) := by
      rw [← hcomp]
      rcases complete_general cs xs c h (w.sort (· ≤ ·)) with
        ⟨⟨x, hx1, hx2⟩, _⟩ | ⟨_, hc, _⟩ | ⟨_, _, hn, _⟩ | ⟨_, _, _, o, e, _⟩
      · exact absurd (hkn x hx1) hx2
      · exact absurd hc hcl
      · exact absurd ⟨w, ho, hw, fun x hx => (hmem x).1 hx⟩ hn
      · exact ⟨o, e⟩
    obtain ⟨o, e⟩ := hok
    rcases complete_general ds ys d k (w.sort (· ≤ ·)) with
      ⟨_, u, e', _⟩ | ⟨_, _, m, e', _⟩ | ⟨_, _, _, u, e', _⟩ | ⟨_, _, ⟨w', ho', hw', hs'⟩, _⟩
    · rw [e'] at e; cases e
    · rw [e'] at e; cases e
    · rw [e'] at e; cases e
    · have : w' = w := by
        refine Finset.Subset.antisymm (fun x hx => ?_) fun x hx => hs' x ((hmem x).2 hx)
        obtain ⟨f, hf⟩ := ho'.known x hx
        obtain ⟨j, ⟨hj, hjw⟩, _⟩ := ho.accepts.one f x ((hi f x).2 hf)
        have := (ho'.accepts.one f x hf).unique ⟨hf, hx⟩ ⟨(hi f j).1 hj, hs' j ((hmem j).2 hjw)⟩
        rw [this]; exact hjw
      rw [← this]; exact ho'
  rw [closet_eq_iff _ _ _ _ _ _ h k]
  exact ⟨hi, hx, fun w hw => ⟨key h k hi hx hcomp w hw, key k h (fun f i => (hi f i).symm) (fun i => (hx i).symm)
    (fun sel => (hcomp sel).symm) w fun x hy => hw x ((hx x).2 hy)⟩⟩

/-- The demo closet with its rule `2 needs 3` stated as `2 excludes 4`.  Not code: used to state or prove properties. -/
def demo' : List (Call Nat Nat) :=
  [.item 1 4, .exclude 4 2, .item 0 1, .item 0 2, .exclude 3 1, .item 1 3]

theorem demo'_legal : Legal demo' := by
  refine ⟨?_, ?_, ?_⟩
  · intro f g i; simp [demo']; omega
  · intro a b; simp [demo']
    rintro (⟨rfl, rfl⟩ | ⟨rfl, rfl⟩)
    · exact ⟨1, by simp, 0, by simp⟩
    · exact ⟨1, by simp, 0, by simp⟩
  · intro a b; simp [demo']

theorem demo'_items (f i : ℕ) : Call.item f i ∈ demo ↔ Call.item f i ∈ demo' := by simp [demo, demo']; omega

theorem demo'_outfit (w : Finset ℕ) : Outfit demo w ↔ Outfit demo' w := by
  have known : ∀ i, Known demo i ↔ Known demo' i := fun i => by simp only [Known, demo'_items]
  constructor
  · rintro ⟨h0, h1, h2, h3⟩
    refine ⟨fun i hi => (known i).1 (h0 i hi), fun f i hi => ?_, fun a b => ?_, fun a b => by simp [demo']⟩
    · simpa only [demo'_items] using h1 f i ((demo'_items f i).2 hi)
    · simp only [demo', List.mem_cons, Call.exclude.injEq, reduceCtorEq, List.not_mem_nil, or_false, false_or]
      rintro (⟨rfl, rfl⟩ | ⟨rfl, rfl⟩)
      · rintro ⟨h4, h5⟩
        have := h3 2 3 (by simp [demo]) h5
        have := (h1 1 3 (by simp [demo])).unique ⟨by simp [demo], this⟩ (y₂ := 4) ⟨by simp [demo], h4⟩
        omega
      · rintro ⟨h4, h5⟩
        exact h2 1 3 (by simp [demo]) ⟨h5, h4⟩
  · rintro ⟨h0, h1, h2, h3⟩
    refine ⟨fun i hi => (known i).2 (h0 i hi), fun f i hi => ?_, fun a b => ?_, fun a b => ?_⟩
    · simpa only [← demo'_items] using h1 f i ((demo'_items f i).1 hi)
    · simp only [demo, List.mem_cons, Call.exclude.injEq, reduceCtorEq, List.not_mem_nil, or_false, false_or]
      rintro ⟨rfl, rfl⟩ ⟨h4, h5⟩
      exact h2 3 1 (by simp [demo']) ⟨h5, h4⟩
    · simp only [demo, List.mem_cons, Call.incl.injEq, reduceCtorEq, List.not_mem_nil, or_false, false_or]
      rintro ⟨rfl, rfl⟩ h4
      obtain ⟨j, ⟨hj, hjw⟩, _⟩ := h1 1 3 (by simp [demo'])
      have : j = 4 ∨ j = 3 := by simp [demo'] at hj; omega
      rcases this with rfl | rfl
      · exact absurd ⟨hjw, h4⟩ (h2 4 2 (by simp [demo']))
      · exact hjw

/-- Not vacuous: two ways of writing the demo closet, with different rules, give equal closets. -/
theorem demo'_same : ∃ c, (ClosetBuilder.run demo).build = .ok c ∧ (ClosetBuilder.run demo').build = .ok c := by
  obtain ⟨c, hc⟩ := (build_validates demo).1.1 demo_legal
  obtain ⟨d, hd⟩ := (build_validates demo').1.1 demo'_legal
  have e := (closet_eq_iff demo demo' [] [] c d ⟨c, hc, rfl⟩ ⟨d, hd, rfl⟩).2
    ⟨demo'_items, by simp, fun w _ => demo'_outfit w⟩
  exact ⟨c, hc, by rw [hd, e]⟩

/-- And after selecting 4 in both: the closets stay equal, and stay apart from those in which nothing was selected. -/
example : ∃ c d, Reached demo [4] c ∧ Reached demo' [4, 4] d ∧ c = d ∧ ¬ Reached demo [] c := by
  obtain ⟨c0, h0, h0'⟩ := demo'_same
  obtain ⟨c, hc⟩ := (select_all_ok_iff demo demo_legal ⟨_, demo_outfit⟩ [4]).2 ⟨_, demo_outfit, by simp⟩
  obtain ⟨d, hd⟩ := (select_all_ok_iff demo' demo'_legal ⟨_, (demo'_outfit _).1 demo_outfit⟩ [4, 4]).2
    ⟨_, (demo'_outfit _).1 demo_outfit, by simp⟩
  have e := (closet_eq_iff demo demo' [4] [4, 4] c d hc hd).2
    ⟨demo'_items, by simp, fun w _ => demo'_outfit w⟩
  refine ⟨c, d, hc, hd, e, fun hn => ?_⟩
  have := ((closet_eq_iff demo demo [4] [] c c hc hn).1 rfl).2.1 4
  simp at this

/-- A rule that follows from the others (2 excludes 4, as 2 needs 3) adds nothing; one that forbids an outfit (1 excludes
4) does. -/
example : ∃ c d d', (ClosetBuilder.run demo).build = .ok c ∧ (ClosetBuilder.run (demo ++ [.exclude 2 4])).build = .ok d ∧
    (ClosetBuilder.run (demo ++ [.exclude 1 4])).build = .ok d' ∧ d = c ∧ d' ≠ c := by
  obtain ⟨c, hc⟩ := (build_validates demo).1.1 demo_legal
  have l1 : Legal (demo ++ [.exclude 2 4]) := by
    refine ⟨?_, ?_, ?_⟩
    · intro f g i; simp [demo]; omega
    · intro a b; simp [demo]
      rintro (⟨rfl, rfl⟩ | ⟨rfl, rfl⟩) <;> exact ⟨0, by simp, 1, by simp⟩
    · intro a b; simp [demo]; rintro rfl rfl; exact ⟨0, by simp, 1, by simp⟩
  have l2 : Legal (demo ++ [.exclude 1 4]) := by
    refine ⟨?_, ?_, ?_⟩
    · intro f g i; simp [demo]; omega
    · intro a b; simp [demo]
      rintro (⟨rfl, rfl⟩ | ⟨rfl, rfl⟩) <;> exact ⟨0, by simp, 1, by simp⟩
    · intro a b; simp [demo]; rintro rfl rfl; exact ⟨0, by simp, 1, by simp⟩
  obtain ⟨d, hd⟩ := (build_validates _).1.1 l1
  obtain ⟨d', hd'⟩ := (build_validates _).1.1 l2
  refine ⟨c, d, d', hc, hd, hd', ((redundant_iff demo 2 4 c hc).1 d hd).2 fun w hw h => ?_, fun e => ?_⟩
  · exact ((demo'_outfit w).1 hw).accepts.exclusions 4 2 (by simp [demo']) h.symm
  · exact ((redundant_iff demo 1 4 c hc).1 d' hd').1 e _ demo_outfit (by simp)

/-- C109: whichever side an exclusion is stated from. -/
example (c d : Closet ℕ ℕ) := exclude_symm ([.item 0 1, .item 0 2] : List (Call ℕ ℕ)) [.item 1 3, .item 1 4, .incl 2 3]
  1 3 c d

end Verif.Bdd
