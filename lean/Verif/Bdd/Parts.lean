import Verif.Bdd.Equal

/-!
# Unrelated parts of a wardrobe do not affect each other (C127)
-/

set_option linter.unusedSimpArgs false
set_option linter.unusedVariables false
set_option linter.unusedSectionVars false

namespace Verif.Bdd
open Verif Verif.Bdd.Spec Verif.Bdd.Node

universe u v
variable {I : Type u} {F : Type v} [LinearOrder I] [LinearOrder F]

/-- Every rule is about items that were added.  Not code: specification. -/
structure OwnRules (cs : List (Call I F)) : Prop where
  exclusions : ∀ a b, Call.exclude a b ∈ cs → Known cs a ∧ Known cs b
  inclusions : ∀ a b, Call.incl a b ∈ cs → Known cs a ∧ Known cs b

/-- The calls `cs` are the calls `p` and the calls `q`, in any order (and any number of times), the two have no
family and no item in common, and no rule relates an item of the one to an item of the other.
Not code: specification. -/
structure Parts (p q cs : List (Call I F)) : Prop where
  calls : ∀ d, d ∈ cs ↔ d ∈ p ∨ d ∈ q
  families : ∀ f i j, Call.item f i ∈ p → Call.item f j ∉ q
  items : ∀ i, Known p i → ¬ Known q i
  left : OwnRules p
  right : OwnRules q

namespace Parts
variable {p q cs : List (Call I F)}

theorem symm (h : Parts p q cs) : Parts q p cs where
  calls d := (h.calls d).trans or_comm
  families f i j hq hp := h.families f j i hp hq
  items i hq hp := h.items i hp hq
  left := h.right
  right := h.left

theorem known (h : Parts p q cs) (i : I) : Known cs i ↔ Known p i ∨ Known q i := by
  simp only [Known, h.calls, exists_or]

/-- C127: the calls are accepted together exactly if they are accepted separately. -/
theorem legal (h : Parts p q cs) : Legal cs ↔ Legal p ∧ Legal q := by
  constructor
  · have side : ∀ {p q : List (Call I F)}, Parts p q cs → Legal cs → Legal p := by
      intro p q h hl
      have down : ∀ {i f}, Known p i → Call.item f i ∈ cs → Call.item f i ∈ p := by
        intro i f hk hi
        rcases (h.calls _).mp hi with hi | hi
        · exact hi
        · exact absurd ⟨f, hi⟩ (h.items i hk)
      refine ⟨fun f g i h1 h2 => hl.oneFamily f g i ((h.calls _).mpr (.inl h1)) ((h.calls _).mpr (.inl h2)), ?_, ?_⟩
      · intro a b hab
        obtain ⟨f, g, h1, h2, h3⟩ := hl.exclusions a b ((h.calls _).mpr (.inl hab))
        obtain ⟨k1, k2⟩ := h.left.exclusions a b hab
        exact ⟨f, g, down k1 h1, down k2 h2, h3⟩
      · intro a b hab
        obtain ⟨f, g, h1, h2, h3⟩ := hl.inclusions a b ((h.calls _).mpr (.inl hab))
        obtain ⟨k1, k2⟩ := h.left.inclusions a b hab
        exact ⟨f, g, down k1 h1, down k2 h2, h3⟩
    exact fun hl => ⟨side h hl, side h.symm hl⟩
  · rintro ⟨hp, hq⟩
    refine ⟨?_, ?_, ?_⟩
    · intro f g i h1 h2
      rcases (h.calls _).mp h1 with h1 | h1 <;> rcases (h.calls _).mp h2 with h2 | h2
      · exact hp.oneFamily f g i h1 h2
      · exact absurd ⟨g, h2⟩ (h.items i ⟨f, h1⟩)
      · exact absurd ⟨f, h1⟩ (h.items i ⟨g, h2⟩)
      · exact hq.oneFamily f g i h1 h2
    · intro a b hab
      rcases (h.calls _).mp hab with hab | hab
      · obtain ⟨f, g, h1, h2, h3⟩ := hp.exclusions a b hab
        exact ⟨f, g, (h.calls _).mpr (.inl h1), (h.calls _).mpr (.inl h2), h3⟩
      · obtain ⟨f, g, h1, h2, h3⟩ := hq.exclusions a b hab
        exact ⟨f, g, (h.calls _).mpr (.inr h1), (h.calls _).mpr (.inr h2), h3⟩
    · intro a b hab
      rcases (h.calls _).mp hab with hab | hab
      · obtain ⟨f, g, h1, h2, h3⟩ := hp.inclusions a b hab
        exact ⟨f, g, (h.calls _).mpr (.inl h1), (h.calls _).mpr (.inl h2), h3⟩
      · obtain ⟨f, g, h1, h2, h3⟩ := hq.inclusions a b hab
        exact ⟨f, g, (h.calls _).mpr (.inr h1), (h.calls _).mpr (.inr h2), h3⟩

/-- What an outfit wears of one part is an outfit of that part. -/
theorem outfit_left (h : Parts p q cs) {w u : Finset I} (hw : Outfit cs w) (hu : ∀ i, i ∈ u ↔ i ∈ w ∧ Known p i) :
    Outfit p u := by
  refine ⟨fun i hi => ((hu i).mp hi).2, ?_, ?_, ?_⟩
  · intro f i hi
    obtain ⟨j, ⟨h1, h2⟩, hj⟩ := hw.accepts.one f i ((h.calls _).mpr (.inl hi))
    have hjp : Call.item f j ∈ p := by
      rcases (h.calls _).mp h1 with h1 | h1
      · exact h1
      · exact absurd h1 (h.families f i j hi)
    refine ⟨j, ⟨hjp, (hu j).mpr ⟨h2, f, hjp⟩⟩, ?_⟩
    rintro k ⟨k1, k2⟩
    exact hj k ⟨(h.calls _).mpr (.inl k1), ((hu k).mp k2).1⟩
  · rintro a b hab ⟨h1, h2⟩
    exact hw.accepts.exclusions a b ((h.calls _).mpr (.inl hab)) ⟨((hu a).mp h1).1, ((hu b).mp h2).1⟩
  · intro a b hab h1
    exact (hu b).mpr ⟨hw.accepts.inclusions a b ((h.calls _).mpr (.inl hab)) ((hu a).mp h1).1,
      (h.left.inclusions a b hab).2⟩

/-- An outfit of each part, together. -/
theorem outfit_union (h : Parts p q cs) {u v : Finset I} (hu : Outfit p u) (hv : Outfit q v) : Outfit cs (u ∪ v) := by
  have notv : ∀ {i}, Known p i → i ∉ v := fun hk hi => h.items _ hk (hv.known _ hi)
  have notu : ∀ {i}, Known q i → i ∉ u := fun hk hi => h.items _ (hu.known _ hi) hk
  refine ⟨?_, ?_, ?_, ?_⟩
  · intro i hi
    rw [h.known]
    exact (Finset.mem_union.mp hi).imp (hu.known i) (hv.known i)
  · intro f i hi
    rcases (h.calls _).mp hi with hi | hi
    · obtain ⟨j, ⟨h1, h2⟩, hj⟩ := hu.accepts.one f i hi
      refine ⟨j, ⟨(h.calls _).mpr (.inl h1), Finset.mem_union_left _ h2⟩, ?_⟩
      rintro k ⟨k1, k2⟩
      rcases (h.calls _).mp k1 with k1 | k1
      · exact hj k ⟨k1, (Finset.mem_union.mp k2).resolve_right (notv ⟨f, k1⟩)⟩
      · exact absurd k1 (h.families f i k hi)
    · obtain ⟨j, ⟨h1, h2⟩, hj⟩ := hv.accepts.one f i hi
      refine ⟨j, ⟨(h.calls _).mpr (.inr h1), Finset.mem_union_right _ h2⟩, ?_⟩
      rintro k ⟨k1, k2⟩
      rcases (h.calls _).mp k1 with k1 | k1
      · exact absurd hi (h.families f k i k1)
      · exact hj k ⟨k1, (Finset.mem_union.mp k2).resolve_left (notu ⟨f, k1⟩)⟩
  · rintro a b hab ⟨h1, h2⟩
    rcases (h.calls _).mp hab with hab | hab
    · obtain ⟨k1, k2⟩ := h.left.exclusions a b hab
      exact hu.accepts.exclusions a b hab ⟨(Finset.mem_union.mp h1).resolve_right (notv k1),
        (Finset.mem_union.mp h2).resolve_right (notv k2)⟩
    · obtain ⟨k1, k2⟩ := h.right.exclusions a b hab
      exact hv.accepts.exclusions a b hab ⟨(Finset.mem_union.mp h1).resolve_left (notu k1),
        (Finset.mem_union.mp h2).resolve_left (notu k2)⟩
  · intro a b hab h1
    rcases (h.calls _).mp hab with hab | hab
    · obtain ⟨k1, k2⟩ := h.left.inclusions a b hab
      exact Finset.mem_union_left _ (hu.accepts.inclusions a b hab ((Finset.mem_union.mp h1).resolve_right (notv k1)))
    · obtain ⟨k1, k2⟩ := h.right.inclusions a b hab
      exact Finset.mem_union_right _ (hv.accepts.inclusions a b hab ((Finset.mem_union.mp h1).resolve_left (notu k1)))

theorem exists_split (h : Parts p q cs) {w : Finset I} (hw : Outfit cs w) :
    ∃ u v, Outfit p u ∧ Outfit q v ∧ w = u ∪ v ∧ (∀ i, i ∈ u ↔ i ∈ w ∧ Known p i) ∧
      ∀ i, i ∈ v ↔ i ∈ w ∧ Known q i := by
  classical
  have hu : ∀ i, i ∈ w.filter (fun i => Known p i) ↔ i ∈ w ∧ Known p i := fun i => Finset.mem_filter
  have hv : ∀ i, i ∈ w.filter (fun i => Known q i) ↔ i ∈ w ∧ Known q i := fun i => Finset.mem_filter
  refine ⟨_, _, h.outfit_left hw hu, h.symm.outfit_left hw hv, ?_, hu, hv⟩
  ext i
  rw [Finset.mem_union, hu, hv, ← and_or_left, ← h.known]
  exact ⟨fun hi => ⟨hi, hw.known i hi⟩, And.left⟩

/-- C127: the outfits of the whole are those of the parts put together. -/
theorem outfits (h : Parts p q cs) (w : Finset I) :
    Outfit cs w ↔ ∃ u v, Outfit p u ∧ Outfit q v ∧ w = u ∪ v := by
  constructor
  · intro hw
    obtain ⟨u, v, hu, hv, e, -⟩ := h.exists_split hw
    exact ⟨u, v, hu, hv, e⟩
  · rintro ⟨u, v, hu, hv, rfl⟩
    exact h.outfit_union hu hv

/-- An outfit of the whole with given items of both parts: one of each part with its own. -/
theorem exists_iff (h : Parts p q cs) {xs xp xq : List I} (hx : ∀ x, x ∈ xs ↔ x ∈ xp ∨ x ∈ xq)
    (kp : ∀ x ∈ xp, ¬ Known q x) (kq : ∀ x ∈ xq, ¬ Known p x) : (∃ w, Outfit cs w ∧ ∀ x ∈ xs, x ∈ w) ↔
      (∃ u, Outfit p u ∧ ∀ x ∈ xp, x ∈ u) ∧ ∃ v, Outfit q v ∧ ∀ x ∈ xq, x ∈ v := by
  constructor
  · rintro ⟨w, hw, hxs⟩
    obtain ⟨u, v, hu, hv, rfl, mu, mv⟩ := h.exists_split hw
    refine ⟨⟨u, hu, fun x hxp => ?_⟩, ⟨v, hv, fun x hxq => ?_⟩⟩
    · have := hxs x ((hx x).mpr (.inl hxp))
      exact (Finset.mem_union.mp this).resolve_right fun hv' => kp x hxp (hv.known x hv')
    · have := hxs x ((hx x).mpr (.inr hxq))
      exact (Finset.mem_union.mp this).resolve_left fun hu' => kq x hxq (hu.known x hu')
  · rintro ⟨⟨u, hu, hxu⟩, ⟨v, hv, hxv⟩⟩
    exact ⟨u ∪ v, h.outfit_union hu hv, fun x hxs => Finset.mem_union.mpr (((hx x).mp hxs).imp (hxu x) (hxv x))⟩

end Parts

/-- Two parts, each with what is selected of it.  Not code: specification. -/
structure Together (p q cs : List (Call I F)) (xp xq xs : List I) (a b c : Closet I F) : Prop where
  parts : Parts p q cs
  left : Reached p xp a
  right : Reached q xq b
  whole : Reached cs xs c
  selected : ∀ x, x ∈ xs ↔ x ∈ xp ∨ x ∈ xq

namespace Together
variable {p q cs : List (Call I F)} {xp xq xs : List I} {a b c : Closet I F}

theorem symm (h : Together p q cs xp xq xs a b c) : Together q p cs xq xp xs b a c where
  parts := h.parts.symm
  left := h.right
  right := h.left
  whole := h.whole
  selected x := (h.selected x).trans or_comm

theorem kp (h : Together p q cs xp xq xs a b c) : ∀ x ∈ xp, ¬ Known q x :=
  fun x hx => h.parts.items x (h.left.knowns x hx)

theorem kq (h : Together p q cs xp xq xs a b c) : ∀ x ∈ xq, ¬ Known p x :=
  fun x hx hp => h.parts.items x hp (h.right.knowns x hx)

/-- C127: the outfit counts multiply. -/
theorem count (h : Together p q cs xp xq xs a b c) :
    c.root.outfitCount = a.root.outfitCount * b.root.outfitCount := by
  obtain ⟨L, hL, e⟩ := outfit_count_exact p xp a h.left
  obtain ⟨M, hM, e'⟩ := outfit_count_exact q xq b h.right
  obtain ⟨N, hN, e''⟩ := outfit_count_exact cs xs c h.whole
  rw [e, e', e'', ← Finset.card_product]
  symm
  refine Finset.card_bij (fun uv _ => uv.1 ∪ uv.2) ?_ ?_ ?_
  · rintro ⟨u, v⟩ huv
    rw [Finset.mem_product, hL, hM] at huv
    rw [hN]
    exact ⟨h.parts.outfit_union huv.1.1 huv.2.1, fun x hx =>
      Finset.mem_union.mpr (((h.selected x).mp hx).imp (huv.1.2 x) (huv.2.2 x))⟩
  · rintro ⟨u, v⟩ huv ⟨u', v'⟩ huv' he
    rw [Finset.mem_product, hL, hM] at huv huv'
    dsimp only at he huv huv'
    have hk := h.parts.items
    have h1 : u = u' := by
      ext i
      have hi := congrArg (i ∈ ·) he
      simp only [Finset.mem_union, eq_iff_iff] at hi
      constructor
      · intro m
        exact (hi.mp (.inl m)).resolve_right fun m' => hk i (huv.1.1.known i m) (huv'.2.1.known i m')
      · intro m
        exact (hi.mpr (.inl m)).resolve_right fun m' => hk i (huv'.1.1.known i m) (huv.2.1.known i m')
    have h2 : v = v' := by
      ext i
      have hi := congrArg (i ∈ ·) he
      simp only [Finset.mem_union, eq_iff_iff] at hi
      constructor
      · intro m
        exact (hi.mp (.inr m)).resolve_left fun m' => hk i (huv'.1.1.known i m') (huv.2.1.known i m)
      · intro m
        exact (hi.mpr (.inr m)).resolve_left fun m' => hk i (huv.1.1.known i m') (huv'.2.1.known i m)
    rw [h1, h2]
  · intro w hw
    rw [hN] at hw
    obtain ⟨u, v, hu, hv, e, mu, mv⟩ := h.parts.exists_split hw.1
    refine ⟨(u, v), ?_, e.symm⟩
    rw [Finset.mem_product, hL, hM]
    refine ⟨⟨hu, fun x hx => ?_⟩, ⟨hv, fun x hx => ?_⟩⟩
    · exact (mu x).mpr ⟨hw.2 x ((h.selected x).mpr (.inl hx)), h.left.knowns x hx⟩
    · exact (mv x).mpr ⟨hw.2 x ((h.selected x).mpr (.inr hx)), h.right.knowns x hx⟩

/-- An outfit of the whole goes through an item of the first part exactly if one of that part does, given that the
other part can be completed. -/
theorem through (h : Together p q cs xp xq xs a b c) (hb : ∃ v, Outfit q v ∧ ∀ x ∈ xq, x ∈ v) {i : I}
    (hi : ¬ Known q i) : (∃ w, Outfit cs w ∧ (∀ x ∈ xs, x ∈ w) ∧ i ∈ w) ↔
      ∃ u, Outfit p u ∧ (∀ x ∈ xp, x ∈ u) ∧ i ∈ u := by
  have key := h.parts.exists_iff (xs := xs ++ [i]) (xp := xp ++ [i]) (xq := xq)
    (fun x => by simp only [List.mem_append, h.selected]; tauto)
    (fun x hx => by
      rcases List.mem_append.mp hx with hx | hx
      · exact h.kp x hx
      · rw [List.mem_singleton] at hx; rw [hx]; exact hi) h.kq
  simp only [List.mem_append, List.mem_singleton, or_imp, forall_and, forall_eq] at key
  rw [key]
  exact and_iff_left hb

theorem completable (h : Together p q cs xp xq xs a b c) (hs : ∃ w, Outfit cs w) :
    (∃ u, Outfit p u ∧ ∀ x ∈ xp, x ∈ u) ∧ ∃ v, Outfit q v ∧ ∀ x ∈ xq, x ∈ v :=
  (h.parts.exists_iff h.selected h.kp h.kq).mp (h.whole.state.2.2.2 hs)

/-- C127: if the parts have outfits, the statuses of the whole are those of the parts, sorted. -/
theorem statuses (h : Together p q cs xp xq xs a b c) (hp : ∃ u, Outfit p u) (hq : ∃ v, Outfit q v) :
    c.summary = sorted (a.summary ++ b.summary) := by
  have hs : ∃ w, Outfit cs w := by
    obtain ⟨u, hu⟩ := hp; obtain ⟨v, hv⟩ := hq
    exact ⟨_, h.parts.outfit_union hu hv⟩
  obtain ⟨ca, cb⟩ := h.completable hs
  have sa := summary_exact p xp a h.left hp
  have sb := summary_exact q xq b h.right hq
  have sc := summary_exact cs xs c h.whole hs
  have tp := fun i => h.through cb (i := i)
  have tq := fun i => h.symm.through ca (i := i)
  have one : ∀ i, (Status.Selected i ∈ c.summary ↔ Status.Selected i ∈ a.summary ∨ Status.Selected i ∈ b.summary) ∧
      (Status.Available i ∈ c.summary ↔ Status.Available i ∈ a.summary ∨ Status.Available i ∈ b.summary) ∧
      (Status.Excluded i ∈ c.summary ↔ Status.Excluded i ∈ a.summary ∨ Status.Excluded i ∈ b.summary) := by
    intro i
    obtain ⟨-, a1, a2, a3⟩ := sa i
    obtain ⟨-, b1, b2, b3⟩ := sb i
    obtain ⟨-, c1, c2, c3⟩ := sc i
    rw [a1, a2, a3, b1, b2, b3, c1, c2, c3, h.selected, h.parts.known]
    refine ⟨Iff.rfl, ?_, ?_⟩
    · by_cases ki : Known q i
      · have kn : ¬ Known p i := fun k => h.parts.items i k ki
        have n1 : ¬ ∃ u, Outfit p u ∧ (∀ x ∈ xp, x ∈ u) ∧ i ∈ u := fun ⟨u, hu, _, hi⟩ => kn (hu.known i hi)
        have n2 : i ∉ xp := fun hx => kn (h.left.knowns i hx)
        rw [tq i kn]; simp only [n1, n2, and_false, false_or]
      · have n1 : ¬ ∃ u, Outfit q u ∧ (∀ x ∈ xq, x ∈ u) ∧ i ∈ u := fun ⟨u, hu, _, hi⟩ => ki (hu.known i hi)
        have n2 : i ∉ xq := fun hx => ki (h.right.knowns i hx)
        rw [tp i ki]; simp only [n1, n2, and_false, or_false]
    · by_cases ki : Known q i
      · have kn : ¬ Known p i := fun k => h.parts.items i k ki
        rw [tq i kn]; simp only [kn, ki, false_or, false_and, true_and]
      · rw [tp i ki]; simp only [ki, or_false, false_and]
  have nd : (a.summary ++ b.summary).Nodup := by
    rw [List.nodup_append]
    have pa : a.summary.Pairwise (· < ·) := h.left.state.2.1.summary_lt
    have pb : b.summary.Pairwise (· < ·) := h.right.state.2.1.summary_lt
    refine ⟨nodup_of_lt pa, nodup_of_lt pb, ?_⟩
    rintro s ha t hb rfl
    have ka : Known p s.item := by
      cases s with
      | Selected i => exact h.left.knowns i ((sa i).2.1.mp ha)
      | Available i => obtain ⟨_, w, hw, _, hi⟩ := (sa i).2.2.1.mp ha; exact hw.known i hi
      | Excluded i => exact ((sa i).2.2.2.mp ha).1
    have kb : Known q s.item := by
      cases s with
      | Selected i => exact h.right.knowns i ((sb i).2.1.mp hb)
      | Available i => obtain ⟨_, w, hw, _, hi⟩ := (sb i).2.2.1.mp hb; exact hw.known i hi
      | Excluded i => exact ((sb i).2.2.2.mp hb).1
    exact h.parts.items _ ka kb
  refine lt_ext h.whole.state.2.1.summary_lt (sorted_lt_of_nodup nd) fun s => ?_
  rw [mem_sorted, List.mem_append]
  cases s with
  | Selected i => exact (one i).1
  | Available i => exact (one i).2.1
  | Excluded i => exact (one i).2.2

/-- C127: an item of the one part is refused by the whole exactly if that part refuses it, with the same error;
otherwise the whole and that part go on together, the other part as it was. -/
theorem select (h : Together p q cs xp xq xs a b c) (hq : ∃ v, Outfit q v) {x : I} (hx : ¬ Known q x) :
    (∀ e, c.selectItem x = .error e ↔ a.selectItem x = .error e) ∧
    ((∃ c', c.selectItem x = .ok c') ↔ ∃ a', a.selectItem x = .ok a') ∧
    ∀ c' a', c.selectItem x = .ok c' → a.selectItem x = .ok a' → Together p q cs (xp ++ [x]) xq (xs ++ [x]) a' b c' := by
  have kx : Known cs x ↔ Known p x := by rw [h.parts.known]; exact or_iff_left hx
  have third : ∀ c' a', c.selectItem x = .ok c' → a.selectItem x = .ok a' →
      Together p q cs (xp ++ [x]) xq (xs ++ [x]) a' b c' := fun c' a' e e' =>
    ⟨h.parts, h.left.snoc e', h.right, h.whole.snoc e, fun y => by
      simp only [List.mem_append, h.selected]; tauto⟩
  by_cases hp : ∃ u, Outfit p u
  · have hs : ∃ w, Outfit cs w := by
      obtain ⟨u, hu⟩ := hp; obtain ⟨v, hv⟩ := hq
      exact ⟨_, h.parts.outfit_union hu hv⟩
    obtain ⟨c1, c2, c3⟩ := select_exact cs xs c h.whole hs x
    obtain ⟨a1, a2, a3⟩ := select_exact p xp a h.left hp x
    have t := h.through (h.completable hs).2 hx
    rw [t] at c2 c3
    rw [kx] at c1 c2
    by_cases k : Known p x
    · by_cases g : ∃ u, Outfit p u ∧ (∀ x ∈ xp, x ∈ u) ∧ x ∈ u
      · obtain ⟨c', ec, -⟩ := c3 g
        obtain ⟨a', ea, -⟩ := a3 g
        refine ⟨fun e => by rw [ec, ea]; simp, ⟨fun _ => ⟨a', ea⟩, fun _ => ⟨c', ec⟩⟩, third⟩
      · refine ⟨fun e => by rw [c2 k g, a2 k g], ?_, third⟩
        rw [c2 k g, a2 k g]
    · refine ⟨fun e => by rw [c1 k, a1 k], ?_, third⟩
      rw [c1 k, a1 k]
  · have hs : ¬ ∃ w, Outfit cs w := by
      rintro ⟨w, hw⟩
      obtain ⟨u, v, hu, -⟩ := h.parts.exists_split hw
      exact hp ⟨u, hu⟩
    obtain ⟨-, -, c1⟩ := select_unsatisfiable cs xs c h.whole hs
    obtain ⟨-, -, a1⟩ := select_unsatisfiable p xp a h.left hp
    have ok : (∃ c', c.selectItem x = .ok c') ↔ ∃ a', a.selectItem x = .ok a' := by rw [c1, a1, kx]
    refine ⟨fun e => ?_, ok, third⟩
    have unk : ∀ {ds : List (Call I F)} {ys : List I} {d : Closet I F}, Reached ds ys d → ¬ Known ds x →
        d.selectItem x = .error (.UnknownItem x) := by
      intro ds ys d hd hk
      have : lookup x d.itemIndex = none := by rw [hd.state.2.1.index, lookup_index_none]; exact hk
      rw [selectItem_eq, if_pos this]
    by_cases k : Known p x
    · obtain ⟨a', ea⟩ := (a1 x).mpr k
      obtain ⟨c', ec⟩ := (c1 x).mpr (kx.mpr k)
      rw [ea, ec]; simp
    · rw [unk h.whole (fun k' => k (kx.mp k')), unk h.left k]

/-- C127: selecting an item of one part changes no status of an item of the other. -/
theorem untouched (h : Together p q cs xp xq xs a b c) (hs : ∃ w, Outfit cs w) {x : I} (hx : Known p x)
    {c' : Closet I F} (e : c.selectItem x = .ok c') (s : Status I) (hi : Known q s.item) :
    s ∈ c'.summary ↔ s ∈ c.summary := by
  obtain ⟨w, hw⟩ := hs
  obtain ⟨u, v, hu, hv, -⟩ := h.parts.exists_split hw
  have hxq : ¬ Known q x := h.parts.items x hx
  obtain ⟨-, ok, go⟩ := h.select ⟨v, hv⟩ hxq
  obtain ⟨a', ea⟩ := ok.mp ⟨c', e⟩
  have h' := go c' a' e ea
  rw [h'.statuses ⟨u, hu⟩ ⟨v, hv⟩, h.statuses ⟨u, hu⟩ ⟨v, hv⟩, mem_sorted, mem_sorted, List.mem_append,
    List.mem_append]
  have none : ∀ {ys : List I} {d : Closet I F}, Reached p ys d → s ∉ d.summary := by
    intro ys d hd hm
    refine h.parts.items s.item ?_ hi
    have sd := summary_exact p ys d hd ⟨u, hu⟩
    cases s with
    | Selected i => exact hd.knowns i ((sd i).2.1.mp hm)
    | Available i => obtain ⟨_, w, hw, _, hi⟩ := (sd i).2.2.1.mp hm; exact hw.known i hi
    | Excluded i => exact ((sd i).2.2.2.mp hm).1
  simp only [none h'.left, none h.left, false_or]

end Together

/-- What `complete_outfit` accepts and what it then says. -/
theorem completes {ds : List (Call I F)} {ys : List I} {d : Closet I F} (h : Reached ds ys d) (sel : List I) :
    ((∃ o, d.completeOutfit sel = some (.ok o)) ↔ (∀ x ∈ sel, Known ds x) ∧ ¬ Clash ds sel ∧
      ∃ w, Outfit ds w ∧ (∀ x ∈ ys, x ∈ w) ∧ ∀ x ∈ sel, x ∈ w) ∧
    ∀ o, d.completeOutfit sel = some (.ok o) → o.Pairwise (· < ·) ∧ (∀ x ∈ sel, x ∈ o) ∧
      Outfit ds (ys.toFinset ∪ o.toFinset) ∧ ∀ x ∈ ys, x ∈ o → x ∈ sel := by
  rcases complete_general ds ys d h sel with
    ⟨⟨x, hx, hn⟩, u, e, _⟩ | ⟨hk, hc, m, e, _⟩ | ⟨hk, hc, hw, u, e, _⟩ | ⟨hk, hc, hw, o', e, hh⟩
  · exact ⟨⟨fun ⟨o, ho⟩ => by (rw [e] at ho; cases ho), fun g => absurd (g.1 x hx) hn⟩,
      fun o ho => by rw [e] at ho; cases ho⟩
  · exact ⟨⟨fun ⟨o, ho⟩ => by (rw [e] at ho; cases ho), fun g => absurd hc g.2.1⟩,
      fun o ho => by rw [e] at ho; cases ho⟩
  · exact ⟨⟨fun ⟨o, ho⟩ => by (rw [e] at ho; cases ho), fun g => absurd g.2.2 hw⟩,
      fun o ho => by rw [e] at ho; cases ho⟩
  · exact ⟨⟨fun _ => ⟨hk, hc, hw⟩, fun _ => ⟨o', e⟩⟩, fun o ho => by rw [e] at ho; cases ho; exact hh⟩

namespace Together
variable {p q cs : List (Call I F)} {xp xq xs : List I} {a b c : Closet I F}

theorem clash (h : Parts p q cs) {sp sq sel : List I} (hs : sel.Perm (sp ++ sq)) (kp : ∀ x ∈ sp, Known p x)
    (kq : ∀ x ∈ sq, Known q x) : Clash cs sel ↔ Clash p sp ∨ Clash q sq := by
  constructor
  · rintro ⟨f, s, hsub, hlen, hf⟩
    have hsp := hsub.subperm.trans hs.subperm
    have side : (∀ x ∈ s, Call.item f x ∈ p) ∨ ∀ x ∈ s, Call.item f x ∈ q := by
      by_cases g : ∃ j, Call.item f j ∈ p
      · obtain ⟨j, hj⟩ := g
        exact .inl fun x hx => ((h.calls _).mp (hf x hx)).resolve_right (h.families f j x hj)
      · exact .inr fun x hx => ((h.calls _).mp (hf x hx)).resolve_left fun hp => g ⟨x, hp⟩
    have cut : ∀ {r r' : List I}, s.Subperm (r ++ r') → (∀ x ∈ s, x ∉ r') → s.Subperm r := by
      intro r r' g hn
      rw [List.subperm_ext_iff] at g ⊢
      intro x hx
      have := g x hx
      rwa [List.count_append, List.count_eq_zero_of_not_mem (hn x hx), add_zero] at this
    have fin : ∀ {ds : List (Call I F)} {r : List I}, s.Subperm r → (∀ x ∈ s, Call.item f x ∈ ds) → Clash ds r := by
      rintro ds r ⟨l, hl, hl'⟩ hx
      exact ⟨f, l, hl', by rw [hl.length_eq]; exact hlen, fun x hxl => hx x (hl.mem_iff.mp hxl)⟩
    rcases side with hp | hq
    · exact .inl (fin (cut hsp fun x hx hxq => h.items x ⟨f, hp x hx⟩ (kq x hxq)) hp)
    · refine .inr (fin (cut (hsp.trans (List.perm_append_comm.subperm)) fun x hx hxp =>
        h.items x (kp x hxp) ⟨f, hq x hx⟩) hq)
  · have go : ∀ {ds : List (Call I F)} {r : List I}, (∀ d, d ∈ ds → d ∈ cs) → r.Subperm sel → Clash ds r →
        Clash cs sel := by
      rintro ds r hm hr ⟨f, s, hsub, hlen, hf⟩
      obtain ⟨l, hl, hl'⟩ := hsub.subperm.trans hr
      exact ⟨f, l, hl', by rw [hl.length_eq]; exact hlen, fun x hx => hm _ (hf x (hl.mem_iff.mp hx))⟩
    rintro (g | g)
    · exact go (fun d hd => (h.calls d).mpr (.inl hd))
        ((List.sublist_append_left sp sq).subperm.trans hs.symm.subperm) g
    · exact go (fun d hd => (h.calls d).mpr (.inr hd))
        ((List.sublist_append_right sp sq).subperm.trans hs.symm.subperm) g

/-- C127: a list of items can be completed in the whole exactly if its items of the one part can be completed in that
part and those of the other in the other; the completed outfit is the two completed outfits together, sorted. -/
theorem complete (h : Together p q cs xp xq xs a b c) {sp sq sel : List I} (hs : sel.Perm (sp ++ sq))
    (kp : ∀ x ∈ sp, ¬ Known q x) (kq : ∀ x ∈ sq, ¬ Known p x) (o : List I) :
    c.completeOutfit sel = some (.ok o) ↔ ∃ u v, a.completeOutfit sp = some (.ok u) ∧
      b.completeOutfit sq = some (.ok v) ∧ o = sorted (u ++ v) := by
  obtain ⟨ac, ao⟩ := completes h.left sp
  obtain ⟨bc, bo⟩ := completes h.right sq
  obtain ⟨cc, co⟩ := completes h.whole sel
  have ms : ∀ x, x ∈ sel ↔ x ∈ sp ∨ x ∈ sq := fun x => by rw [hs.mem_iff, List.mem_append]
  have accepted : (∃ o, c.completeOutfit sel = some (.ok o)) ↔
      (∃ u, a.completeOutfit sp = some (.ok u)) ∧ ∃ v, b.completeOutfit sq = some (.ok v) := by
    rw [ac, bc, cc]
    have hk : (∀ x ∈ sel, Known cs x) ↔ (∀ x ∈ sp, Known p x) ∧ ∀ x ∈ sq, Known q x := by
      simp only [ms, h.parts.known]
      exact ⟨fun g => ⟨fun x hx => (g x (.inl hx)).resolve_right (kp x hx),
        fun x hx => (g x (.inr hx)).resolve_left (kq x hx)⟩,
        fun g x hx => hx.elim (fun hx => .inl (g.1 x hx)) (fun hx => .inr (g.2 x hx))⟩
    rw [hk]
    have he := h.parts.exists_iff (xs := xs ++ sel) (xp := xp ++ sp) (xq := xq ++ sq)
      (fun x => by
        simp only [List.mem_append, h.selected, ms]
        exact ⟨fun g => by rcases g with (g | g) | g | g <;> simp [g], fun g => by rcases g with (g | g) | g | g <;> simp [g]⟩)
      (fun x hx => (List.mem_append.mp hx).elim (h.kp x) (kp x))
      (fun x hx => (List.mem_append.mp hx).elim (h.kq x) (kq x))
    simp only [List.mem_append, or_imp, forall_and] at he
    rw [he]
    constructor
    · rintro ⟨⟨k1, k2⟩, hc, e1, e2⟩
      rw [clash h.parts hs k1 k2, not_or] at hc
      exact ⟨⟨k1, hc.1, e1⟩, k2, hc.2, e2⟩
    · rintro ⟨⟨k1, c1, e1⟩, k2, c2, e2⟩
      refine ⟨⟨k1, k2⟩, ?_, e1, e2⟩
      rw [clash h.parts hs k1 k2, not_or]
      exact ⟨c1, c2⟩
  have same : ∀ o u v, c.completeOutfit sel = some (.ok o) → a.completeOutfit sp = some (.ok u) →
      b.completeOutfit sq = some (.ok v) → o = sorted (u ++ v) := by
    intro o u v e1 e2 e3
    obtain ⟨o1, o2, o3, o4⟩ := co o e1
    obtain ⟨u1, u2, u3, u4⟩ := ao u e2
    obtain ⟨v1, v2, v3, v4⟩ := bo v e3
    have ku : ∀ x, x ∈ xp ∨ x ∈ u → Known p x := fun x hx =>
      u3.known x (Finset.mem_union.mpr (hx.imp List.mem_toFinset.mpr List.mem_toFinset.mpr))
    have kv : ∀ x, x ∈ xq ∨ x ∈ v → Known q x := fun x hx =>
      v3.known x (Finset.mem_union.mpr (hx.imp List.mem_toFinset.mpr List.mem_toFinset.mpr))
    have ko : ∀ x, x ∈ xs ∨ x ∈ o → Known cs x := fun x hx =>
      o3.known x (Finset.mem_union.mpr (hx.imp List.mem_toFinset.mpr List.mem_toFinset.mpr))
    -- one part of the completed outfit of the whole, compared with the completed outfit of the part
    have part : ∀ {p q : List (Call I F)} {xp sp u v xq : List I} {a : Closet I F}, Parts p q cs → Reached p xp a →
        a.completeOutfit sp = some (.ok u) → (∀ x ∈ xp, x ∈ xs) → (∀ x ∈ sp, x ∈ sel) → (∀ x ∈ sp, Known p x) →
        (∀ x, x ∈ xp ∨ x ∈ u → Known p x) →
        ∃ wp : Finset I, (∀ i, i ∈ wp ↔ (i ∈ xs ∨ i ∈ o) ∧ Known p i) ∧
          (wp ≠ xp.toFinset ∪ u.toFinset → ∃ x ∈ u, x ∉ wp ∧ ∀ y, y < x → (y ∈ xp ∨ y ∈ u ↔ y ∈ wp)) := by
      intro p q xp sp u v xq a hp ha he hx hsl hkn hku
      classical
      have hm : ∀ i, i ∈ (xs.toFinset ∪ o.toFinset).filter (fun i => Known p i) ↔ (i ∈ xs ∨ i ∈ o) ∧ Known p i := by
        intro i; rw [Finset.mem_filter, Finset.mem_union, List.mem_toFinset, List.mem_toFinset]
      refine ⟨_, hm, fun hne => ?_⟩
      refine complete_least p xp a ha sp u he _ (hp.outfit_left o3 fun i => Finset.mem_filter) ?_ ?_ hne
      · exact fun x hxp => (hm x).mpr ⟨.inl (hx x hxp), hku x (.inl hxp)⟩
      · exact fun x hxp => (hm x).mpr ⟨.inr (o2 x (hsl x hxp)), hkn x hxp⟩
    obtain ⟨wp, mp, lp⟩ := part (v := v) (xq := xq) h.parts h.left e2 (fun x hx => (h.selected x).mpr (.inl hx))
      (fun x hx => (ms x).mpr (.inl hx)) (fun x hx => ku x (.inr (u2 x hx))) ku
    obtain ⟨wq, mq, lq⟩ := part (v := u) (xq := xp) h.parts.symm h.right e3 (fun x hx => (h.selected x).mpr (.inr hx))
      (fun x hx => (ms x).mpr (.inr hx)) (fun x hx => kv x (.inr (v2 x hx))) kv
    have whole : (xp.toFinset ∪ u.toFinset) ∪ (xq.toFinset ∪ v.toFinset) = xs.toFinset ∪ o.toFinset := by
      by_contra hne
      obtain ⟨x, hx, hxw, hlt⟩ := complete_least cs xs c h.whole sel o e1 _ (h.parts.outfit_union u3 v3)
        (fun x hx => by
          rcases (h.selected x).mp hx with hx | hx
          · exact Finset.mem_union_left _ (Finset.mem_union_left _ (List.mem_toFinset.mpr hx))
          · exact Finset.mem_union_right _ (Finset.mem_union_left _ (List.mem_toFinset.mpr hx)))
        (fun x hx => by
          rcases (ms x).mp hx with hx | hx
          · exact Finset.mem_union_left _ (Finset.mem_union_right _ (List.mem_toFinset.mpr (u2 x hx)))
          · exact Finset.mem_union_right _ (Finset.mem_union_right _ (List.mem_toFinset.mpr (v2 x hx)))) hne
      simp only [Finset.mem_union, List.mem_toFinset, not_or] at hxw hlt
      obtain ⟨⟨n1, n2⟩, n3, n4⟩ := hxw
      rcases (h.parts.known x).mp (ko x (.inr hx)) with k | k
      · have hxm : x ∈ wp := (mp x).mpr ⟨.inr hx, k⟩
        obtain ⟨z, hz, hzw, hz'⟩ := lp fun e => by
          rw [e, Finset.mem_union, List.mem_toFinset, List.mem_toFinset] at hxm
          exact hxm.elim n1 n2
        rcases lt_trichotomy x z with g | rfl | g
        · exact ((hz' x g).mpr hxm).elim n1 n2
        · exact n2 hz
        · exact hzw ((mp z).mpr ⟨(hlt z g).mpr (.inl (.inr hz)), ku z (.inr hz)⟩)
      · have hxm : x ∈ wq := (mq x).mpr ⟨.inr hx, k⟩
        obtain ⟨z, hz, hzw, hz'⟩ := lq fun e => by
          rw [e, Finset.mem_union, List.mem_toFinset, List.mem_toFinset] at hxm
          exact hxm.elim n3 n4
        rcases lt_trichotomy x z with g | rfl | g
        · exact ((hz' x g).mpr hxm).elim n3 n4
        · exact n4 hz
        · exact hzw ((mq z).mpr ⟨(hlt z g).mpr (.inr (.inr hz)), kv z (.inr hz)⟩)
    have mem : ∀ x, (x ∈ xp ∨ x ∈ u) ∨ (x ∈ xq ∨ x ∈ v) ↔ x ∈ xs ∨ x ∈ o := by
      intro x
      have := congrArg (x ∈ ·) whole
      simpa only [Finset.mem_union, List.mem_toFinset, eq_iff_iff] using this
    have nd : (u ++ v).Nodup := by
      rw [List.nodup_append]
      refine ⟨nodup_of_lt u1, nodup_of_lt v1, ?_⟩
      rintro x hx y hy rfl
      exact h.parts.items x (ku x (.inr hx)) (kv x (.inr hy))
    refine lt_ext o1 (sorted_lt_of_nodup nd) fun x => ?_
    rw [mem_sorted, List.mem_append]
    constructor
    · intro hx
      rcases (mem x).mpr (.inr hx) with (m | m) | m | m
      · have hxs := (h.selected x).mpr (.inl m)
        rcases (ms x).mp (o4 x hxs hx) with g | g
        · exact .inl (u2 x g)
        · exact .inr (v2 x g)
      · exact .inl m
      · have hxs := (h.selected x).mpr (.inr m)
        rcases (ms x).mp (o4 x hxs hx) with g | g
        · exact .inl (u2 x g)
        · exact .inr (v2 x g)
      · exact .inr m
    · rintro (m | m)
      · rcases (mem x).mp (.inl (.inr m)) with g | g
        · rcases (h.selected x).mp g with g' | g'
          · exact o2 x ((ms x).mpr (.inl (u4 x g' m)))
          · exact absurd (h.right.knowns x g') (h.parts.items x (ku x (.inr m)))
        · exact g
      · rcases (mem x).mp (.inr (.inr m)) with g | g
        · rcases (h.selected x).mp g with g' | g'
          · exact absurd (kv x (.inr m)) (h.parts.items x (h.left.knowns x g'))
          · exact o2 x ((ms x).mpr (.inr (v4 x g' m)))
        · exact g
  constructor
  · intro e
    obtain ⟨⟨u, hu⟩, v, hv⟩ := accepted.mp ⟨o, e⟩
    exact ⟨u, v, hu, hv, same o u v e hu hv⟩
  · rintro ⟨u, v, hu, hv, rfl⟩
    obtain ⟨o, ho⟩ := accepted.mpr ⟨⟨u, hu⟩, v, hv⟩
    rw [ho, same o u v ho hu hv]

end Together

/-- C127: the calls together build exactly if they do separately. -/
theorem parts_build {p q cs : List (Call I F)} (h : Parts p q cs) : (∃ c, (ClosetBuilder.run cs).build = .ok c) ↔
    (∃ a, (ClosetBuilder.run p).build = .ok a) ∧ ∃ b, (ClosetBuilder.run q).build = .ok b := by
  rw [← (build_validates cs).1, ← (build_validates p).1, ← (build_validates q).1, h.legal]

/-- Not vacuous: the demo closet next to a second wardrobe with one family and its own items. -/
theorem parts_demo : Parts demo [.item 5 10, .item 5 11] ([.item 5 10] ++ demo ++ [.item 5 11]) where
  calls d := by simp only [List.mem_append, List.mem_cons, List.not_mem_nil, or_false]; tauto
  families f i j := by simp [demo]; omega
  items i := by
    rintro ⟨f, h⟩ ⟨g, k⟩
    simp [demo] at h k
    omega
  left := ⟨fun a b h => by
      obtain ⟨f, g, h1, h2, -⟩ := demo_legal.exclusions a b h
      exact ⟨⟨f, h1⟩, g, h2⟩, fun a b h => by
      obtain ⟨f, g, h1, h2, -⟩ := demo_legal.inclusions a b h
      exact ⟨⟨f, h1⟩, g, h2⟩⟩
  right := ⟨fun a b h => by simp at h, fun a b h => by simp at h⟩

example : ∃ a b c, Together demo [.item 5 10, .item 5 11] ([.item 5 10] ++ demo ++ [.item 5 11]) [] [] [] a b c := by
  have hq : Legal ([.item 5 10, .item 5 11] : List (Call ℕ ℕ)) :=
    ⟨fun f g i => by simp; omega, fun a b h => by simp at h, fun a b h => by simp at h⟩
  obtain ⟨a, ha⟩ := (build_validates demo).1.mp demo_legal
  obtain ⟨b, hb⟩ := (build_validates _).1.mp hq
  obtain ⟨c, hc⟩ := (parts_build parts_demo).mpr ⟨⟨a, ha⟩, b, hb⟩
  exact ⟨a, b, c, parts_demo, ⟨a, ha, rfl⟩, ⟨b, hb, rfl⟩, ⟨c, hc, rfl⟩, by simp⟩

example : (∃ u, Outfit demo u) ∧ ∃ v, Outfit ([.item 5 10, .item 5 11] : List (Call ℕ ℕ)) v := by
  refine ⟨⟨_, demo_outfit⟩, {10}, ?_, ?_, ?_, ?_⟩
  · intro i hi; rw [Finset.mem_singleton] at hi; exact ⟨5, by simp [hi]⟩
  · intro f i hi
    simp at hi
    refine ⟨10, ⟨by simp; omega, by simp⟩, fun y hy => by simpa using hy.2⟩
  · intro a b h; simp at h
  · intro a b h; simp at h

example := fun a b c (h : Together demo [.item 5 10, .item 5 11] ([.item 5 10] ++ demo ++ [.item 5 11]) [4] [11] [11, 4]
    a b c) => And.intro (h.count) (h.complete (sp := [1]) (sq := [10]) (sel := [10, 1]) (List.Perm.swap 1 10 [])
      (by rintro x hx ⟨f, hf⟩; simp at hx hf; omega) (by rintro x hx ⟨f, hf⟩; simp [demo] at hx hf; omega))

end Verif.Bdd
