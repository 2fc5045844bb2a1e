import Verif.Bdd.Parts
import Mathlib.Data.Finset.Preimage

/-!
# The names of items and families do not matter, their order decides only which outfit is completed (C128)
-/

set_option linter.unusedSimpArgs false
set_option linter.unusedVariables false
set_option linter.unusedSectionVars false

namespace Verif.Bdd
open Verif Verif.Bdd.Spec Verif.Bdd.Node

universe u v u' v'
variable {I : Type u} {F : Type v} {J : Type u'} {G : Type v'} [LinearOrder I] [LinearOrder F] [LinearOrder J]
  [LinearOrder G]

/-- The call with other names.  Not code: specification. -/
def renameCall (σ : I → J) (ρ : F → G) : Call I F → Call J G
  | .item f i => .item (ρ f) (σ i)
  | .exclude a b => .exclude (σ a) (σ b)
  | .incl a b => .incl (σ a) (σ b)

/-- The status with another name.  Not code: specification. -/
def renameStatus (σ : I → J) : Status I → Status J
  | .Selected i => .Selected (σ i)
  | .Available i => .Available (σ i)
  | .Excluded i => .Excluded (σ i)

/-- The refusal with another name.  Not code: specification. -/
def renameRefusal (σ : I → J) : SelectItemError I → SelectItemError J
  | .ExcludedItem i => .ExcludedItem (σ i)
  | .UnknownItem i => .UnknownItem (σ i)

section
variable {σ : I → J} {ρ : F → G} {cs : List (Call I F)}

theorem item_renamed (hσ : σ.Injective) (hρ : ρ.Injective) (f : F) (i : I) :
    Call.item (ρ f) (σ i) ∈ cs.map (renameCall σ ρ) ↔ Call.item f i ∈ cs := by
  rw [List.mem_map]
  constructor
  · rintro ⟨d, hd, e⟩
    cases d <;> simp only [renameCall, Call.item.injEq, reduceCtorEq] at e
    obtain ⟨e1, e2⟩ := e
    rw [hρ e1, hσ e2] at hd
    exact hd
  · exact fun h => ⟨_, h, rfl⟩

theorem exclude_renamed (hσ : σ.Injective) (a b : I) :
    Call.exclude (σ a) (σ b) ∈ cs.map (renameCall σ ρ) ↔ Call.exclude a b ∈ cs := by
  rw [List.mem_map]
  constructor
  · rintro ⟨d, hd, e⟩
    cases d <;> simp only [renameCall, Call.exclude.injEq, reduceCtorEq] at e
    obtain ⟨e1, e2⟩ := e
    rw [hσ e1, hσ e2] at hd
    exact hd
  · exact fun h => ⟨_, h, rfl⟩

theorem incl_renamed (hσ : σ.Injective) (a b : I) :
    Call.incl (σ a) (σ b) ∈ cs.map (renameCall σ ρ) ↔ Call.incl a b ∈ cs := by
  rw [List.mem_map]
  constructor
  · rintro ⟨d, hd, e⟩
    cases d <;> simp only [renameCall, Call.incl.injEq, reduceCtorEq] at e
    obtain ⟨e1, e2⟩ := e
    rw [hσ e1, hσ e2] at hd
    exact hd
  · exact fun h => ⟨_, h, rfl⟩

theorem item_of_renamed {g : G} {j : J} (h : Call.item g j ∈ cs.map (renameCall σ ρ)) :
    ∃ f i, Call.item f i ∈ cs ∧ g = ρ f ∧ j = σ i := by
  obtain ⟨d, hd, e⟩ := List.mem_map.mp h
  cases d <;> simp only [renameCall, Call.item.injEq, reduceCtorEq] at e
  exact ⟨_, _, hd, e.1.symm, e.2.symm⟩

theorem exclude_of_renamed {j k : J} (h : Call.exclude j k ∈ cs.map (renameCall σ ρ)) :
    ∃ a b, Call.exclude a b ∈ cs ∧ j = σ a ∧ k = σ b := by
  obtain ⟨d, hd, e⟩ := List.mem_map.mp h
  cases d <;> simp only [renameCall, Call.exclude.injEq, reduceCtorEq] at e
  exact ⟨_, _, hd, e.1.symm, e.2.symm⟩

theorem incl_of_renamed {j k : J} (h : Call.incl j k ∈ cs.map (renameCall σ ρ)) :
    ∃ a b, Call.incl a b ∈ cs ∧ j = σ a ∧ k = σ b := by
  obtain ⟨d, hd, e⟩ := List.mem_map.mp h
  cases d <;> simp only [renameCall, Call.incl.injEq, reduceCtorEq] at e
  exact ⟨_, _, hd, e.1.symm, e.2.symm⟩

theorem known_renamed (hσ : σ.Injective) (hρ : ρ.Injective) (i : I) :
    Known (cs.map (renameCall σ ρ)) (σ i) ↔ Known cs i := by
  constructor
  · rintro ⟨g, h⟩
    obtain ⟨f, k, hk, -, e⟩ := item_of_renamed h
    rw [hσ e]; exact ⟨f, hk⟩
  · rintro ⟨f, h⟩
    exact ⟨ρ f, (item_renamed hσ hρ f i).mpr h⟩

theorem legal_renamed (hσ : σ.Injective) (hρ : ρ.Injective) : Legal (cs.map (renameCall σ ρ)) ↔ Legal cs := by
  have two : ∀ a b, (∃ f g, Call.item f (σ a) ∈ cs.map (renameCall σ ρ) ∧
      Call.item g (σ b) ∈ cs.map (renameCall σ ρ) ∧ f ≠ g) ↔
      ∃ f g, Call.item f a ∈ cs ∧ Call.item g b ∈ cs ∧ f ≠ g := by
    intro a b
    constructor
    · rintro ⟨f, g, h1, h2, hn⟩
      obtain ⟨f, a', k1, rfl, e1⟩ := item_of_renamed h1
      obtain ⟨g, b', k2, rfl, e2⟩ := item_of_renamed h2
      rw [hσ e1, hσ e2]
      exact ⟨f, g, k1, k2, fun e => hn (by rw [e])⟩
    · rintro ⟨f, g, h1, h2, hn⟩
      exact ⟨ρ f, ρ g, (item_renamed hσ hρ f a).mpr h1, (item_renamed hσ hρ g b).mpr h2, fun e => hn (hρ e)⟩
  constructor
  · rintro ⟨h1, h2, h3⟩
    refine ⟨fun f g i k1 k2 => hρ (h1 _ _ (σ i) ((item_renamed hσ hρ f i).mpr k1) ((item_renamed hσ hρ g i).mpr k2)),
      fun a b hab => (two a b).mp (h2 _ _ ((exclude_renamed hσ a b).mpr hab)),
      fun a b hab => (two a b).mp (h3 _ _ ((incl_renamed hσ a b).mpr hab))⟩
  · rintro ⟨h1, h2, h3⟩
    refine ⟨?_, ?_, ?_⟩
    · intro f g j k1 k2
      obtain ⟨f, i, k0, rfl, rfl⟩ := item_of_renamed k1
      obtain ⟨g, i', k3, rfl, e⟩ := item_of_renamed k2
      rw [← hσ e] at k3
      rw [h1 f g i k0 k3]
    · intro j k hjk
      obtain ⟨a, b, hab, rfl, rfl⟩ := exclude_of_renamed hjk
      exact (two a b).mpr (h2 a b hab)
    · intro j k hjk
      obtain ⟨a, b, hab, rfl, rfl⟩ := incl_of_renamed hjk
      exact (two a b).mpr (h3 a b hab)

/-- A set of renamed items is an outfit exactly if the set with the old names is. -/
theorem outfit_renamed (hσ : σ.Injective) (hρ : ρ.Injective) {w : Finset I} {w' : Finset J}
    (hw : ∀ j, j ∈ w' ↔ ∃ i ∈ w, σ i = j) : Outfit (cs.map (renameCall σ ρ)) w' ↔ Outfit cs w := by
  have mem : ∀ i, σ i ∈ w' ↔ i ∈ w := fun i => by
    rw [hw]; exact ⟨fun ⟨k, hk, e⟩ => hσ e ▸ hk, fun h => ⟨i, h, rfl⟩⟩
  constructor
  · rintro ⟨h0, h1, h2, h3⟩
    refine ⟨fun i hi => (known_renamed hσ hρ i).mp (h0 _ ((mem i).mpr hi)), ?_, ?_, ?_⟩
    · intro f i hi
      obtain ⟨j, ⟨k1, k2⟩, k3⟩ := h1 _ _ ((item_renamed hσ hρ f i).mpr hi)
      obtain ⟨f', i', hi', ef, rfl⟩ := item_of_renamed k1
      rw [← hρ ef] at hi'
      exact ⟨i', ⟨hi', (mem i').mp k2⟩, fun y hy =>
        hσ (k3 (σ y) ⟨(item_renamed hσ hρ f y).mpr hy.1, (mem y).mpr hy.2⟩)⟩
    · exact fun a b hab hh => h2 _ _ ((exclude_renamed hσ a b).mpr hab) ⟨(mem a).mpr hh.1, (mem b).mpr hh.2⟩
    · exact fun a b hab ha => (mem b).mp (h3 _ _ ((incl_renamed hσ a b).mpr hab) ((mem a).mpr ha))
  · rintro ⟨h0, h1, h2, h3⟩
    refine ⟨?_, ?_, ?_, ?_⟩
    · intro j hj
      obtain ⟨i, hi, rfl⟩ := (hw j).mp hj
      exact (known_renamed hσ hρ i).mpr (h0 i hi)
    · intro g j hj
      obtain ⟨f, i, hi, rfl, rfl⟩ := item_of_renamed hj
      obtain ⟨y, ⟨k1, k2⟩, k3⟩ := h1 f i hi
      refine ⟨σ y, ⟨(item_renamed hσ hρ f y).mpr k1, (mem y).mpr k2⟩, ?_⟩
      rintro z ⟨z1, z2⟩
      obtain ⟨x, hx, rfl⟩ := (hw z).mp z2
      rw [k3 x ⟨(item_renamed hσ hρ f x).mp z1, hx⟩]
    · rintro j k hjk ⟨hj, hk⟩
      obtain ⟨a, b, hab, rfl, rfl⟩ := exclude_of_renamed hjk
      exact h2 a b hab ⟨(mem a).mp hj, (mem b).mp hk⟩
    · intro j k hjk hj
      obtain ⟨a, b, hab, rfl, rfl⟩ := incl_of_renamed hjk
      exact (mem b).mpr (h3 a b hab ((mem a).mp hj))

theorem mem_image (w : Finset I) (j : J) : j ∈ w.image σ ↔ ∃ i ∈ w, σ i = j := Finset.mem_image

theorem renamed_outfit (hσ : σ.Injective) (hρ : ρ.Injective) {w' : Finset J}
    (h : Outfit (cs.map (renameCall σ ρ)) w') : ∃ w, Outfit cs w ∧ w' = w.image σ := by
  classical
  have himg : ∀ j, j ∈ w' ↔ ∃ i ∈ w'.preimage σ hσ.injOn, σ i = j := by
    intro j
    constructor
    · intro hj
      obtain ⟨g, hg⟩ := h.known j hj
      obtain ⟨f, i, _, _, rfl⟩ := item_of_renamed hg
      exact ⟨i, Finset.mem_preimage.mpr hj, rfl⟩
    · rintro ⟨i, hi, rfl⟩
      exact Finset.mem_preimage.mp hi
  refine ⟨_, (outfit_renamed hσ hρ himg).mp h, ?_⟩
  ext j; rw [himg, mem_image]

theorem mem_renamed (hσ : σ.Injective) (w : Finset I) (i : I) : σ i ∈ w.image σ ↔ i ∈ w := by
  rw [mem_image]; exact ⟨fun ⟨k, hk, e⟩ => hσ e ▸ hk, fun h => ⟨i, h, rfl⟩⟩

/-- There is an outfit with certain items exactly if there is one with the renamed items. -/
theorem exists_renamed (hσ : σ.Injective) (hρ : ρ.Injective) (xs : List I) :
    (∃ w, Outfit (cs.map (renameCall σ ρ)) w ∧ ∀ x ∈ xs.map σ, x ∈ w) ↔ ∃ w, Outfit cs w ∧ ∀ x ∈ xs, x ∈ w := by
  constructor
  · rintro ⟨w', hw, hx⟩
    obtain ⟨w, ho, rfl⟩ := renamed_outfit hσ hρ hw
    exact ⟨w, ho, fun x h => (mem_renamed hσ w x).mp (hx _ (List.mem_map_of_mem h))⟩
  · rintro ⟨w, hw, hx⟩
    refine ⟨w.image σ, (outfit_renamed hσ hρ (mem_image w)).mpr hw, fun j hj => ?_⟩
    obtain ⟨x, h, rfl⟩ := List.mem_map.mp hj
    exact (mem_renamed hσ w x).mpr (hx x h)
end

section
variable {σ : I → J} {ρ : F → G} {cs : List (Call I F)} {xs : List I} {c : Closet I F} {d : Closet J G}

/-- C128: with other names the calls build exactly if they did. -/
theorem build_renamed (hσ : σ.Injective) (hρ : ρ.Injective) :
    (∃ d, (ClosetBuilder.run (cs.map (renameCall σ ρ))).build = .ok d) ↔ ∃ c, (ClosetBuilder.run cs).build = .ok c := by
  rw [← (build_validates _).1, ← (build_validates _).1, legal_renamed hσ hρ]

/-- C128: with other names there are as many outfits. -/
theorem count_renamed (hσ : σ.Injective) (hρ : ρ.Injective) (h : Reached cs xs c)
    (k : Reached (cs.map (renameCall σ ρ)) (xs.map σ) d) : d.root.outfitCount = c.root.outfitCount := by
  obtain ⟨L, hL, e⟩ := outfit_count_exact _ _ _ h
  obtain ⟨M, hM, e'⟩ := outfit_count_exact _ _ _ k
  rw [e, e']
  symm
  refine Finset.card_bij (fun w _ => w.image σ) ?_ ?_ ?_
  · intro w hw
    obtain ⟨h1, h2⟩ := (hL w).mp hw
    refine (hM _).mpr ⟨(outfit_renamed hσ hρ (mem_image w)).mpr h1, fun j hj => ?_⟩
    obtain ⟨x, hx, rfl⟩ := List.mem_map.mp hj
    exact (mem_renamed hσ w x).mpr (h2 x hx)
  · intro w _ w' _ e
    exact Finset.image_injective hσ e
  · intro w' hw
    obtain ⟨h1, h2⟩ := (hM w').mp hw
    obtain ⟨w, ho, rfl⟩ := renamed_outfit hσ hρ h1
    exact ⟨w, (hL w).mpr ⟨ho, fun x hx => (mem_renamed hσ w x).mp (h2 _ (List.mem_map_of_mem hx))⟩, rfl⟩

/-- C128: with other names every item has the status it had. -/
theorem statuses_renamed (hσ : σ.Injective) (hρ : ρ.Injective) (h : Reached cs xs c)
    (k : Reached (cs.map (renameCall σ ρ)) (xs.map σ) d) : d.summary = sorted (c.summary.map (renameStatus σ)) := by
  have inj : (renameStatus σ).Injective := by
    intro s t e
    cases s <;> cases t <;> simp only [renameStatus, Status.Selected.injEq, Status.Available.injEq,
      Status.Excluded.injEq, reduceCtorEq] at e <;> rw [hσ e]
  have nd : (c.summary.map (renameStatus σ)).Nodup :=
    (nodup_of_lt (h.state.2.1.summary_lt)).map inj
  refine lt_ext k.state.2.1.summary_lt (sorted_lt_of_nodup nd) fun s => ?_
  rw [mem_sorted, List.mem_map]
  by_cases hs : ∃ w, Outfit cs w
  · have hs' : ∃ w, Outfit (cs.map (renameCall σ ρ)) w := by
      obtain ⟨w, hw⟩ := hs
      exact ⟨_, (outfit_renamed hσ hρ (mem_image w)).mpr hw⟩
    have sc := summary_exact cs xs c h hs
    have sd := summary_exact _ _ d k hs'
    have thr : ∀ i, (∃ w, Outfit (cs.map (renameCall σ ρ)) w ∧ (∀ x ∈ xs.map σ, x ∈ w) ∧ σ i ∈ w) ↔
        ∃ w, Outfit cs w ∧ (∀ x ∈ xs, x ∈ w) ∧ i ∈ w := by
      intro i
      have := exists_renamed (cs := cs) hσ hρ (xs ++ [i])
      simpa only [List.map_append, List.map_cons, List.map_nil, List.mem_append, List.mem_singleton, or_imp,
        forall_and, forall_eq] using this
    have sel : ∀ i, σ i ∈ xs.map σ ↔ i ∈ xs := fun i => by
      rw [List.mem_map]; exact ⟨fun ⟨y, hy, e⟩ => hσ e ▸ hy, fun hy => ⟨i, hy, rfl⟩⟩
    have go : ∀ i, (Status.Selected (σ i) ∈ d.summary ↔ Status.Selected i ∈ c.summary) ∧
        (Status.Available (σ i) ∈ d.summary ↔ Status.Available i ∈ c.summary) ∧
        (Status.Excluded (σ i) ∈ d.summary ↔ Status.Excluded i ∈ c.summary) := by
      intro i
      obtain ⟨-, c1, c2, c3⟩ := sc i
      obtain ⟨-, d1, d2, d3⟩ := sd (σ i)
      rw [c1, c2, c3, d1, d2, d3, thr, sel, known_renamed hσ hρ]
      exact ⟨Iff.rfl, Iff.rfl, Iff.rfl⟩
    have kn : ∀ s ∈ d.summary, ∃ i, s.item = σ i := by
      intro s hm
      have : Known (cs.map (renameCall σ ρ)) s.item := by
        cases s with
        | Selected j => exact k.knowns j ((sd j).2.1.mp hm)
        | Available j => obtain ⟨_, w, hw, _, hi⟩ := (sd j).2.2.1.mp hm; exact hw.known j hi
        | Excluded j => exact ((sd j).2.2.2.mp hm).1
      obtain ⟨g, hg⟩ := this
      obtain ⟨f, i, _, _, e⟩ := item_of_renamed hg
      exact ⟨i, e⟩
    constructor
    · intro hm
      obtain ⟨i, e⟩ := kn s hm
      cases s with
      | Selected j => cases e; exact ⟨.Selected i, (go i).1.mp hm, rfl⟩
      | Available j => cases e; exact ⟨.Available i, (go i).2.1.mp hm, rfl⟩
      | Excluded j => cases e; exact ⟨.Excluded i, (go i).2.2.mp hm, rfl⟩
    · rintro ⟨t, ht, rfl⟩
      cases t with
      | Selected i => exact (go i).1.mpr ht
      | Available i => exact (go i).2.1.mpr ht
      | Excluded i => exact (go i).2.2.mpr ht
  · have hs' : ¬ ∃ w, Outfit (cs.map (renameCall σ ρ)) w := by
      rintro ⟨w', hw⟩
      obtain ⟨w, ho, -⟩ := renamed_outfit hσ hρ hw
      exact hs ⟨w, ho⟩
    rw [(select_unsatisfiable _ _ d k hs').2.1]
    constructor
    · rintro ⟨j, hj, rfl⟩
      obtain ⟨i, hi, rfl⟩ := List.mem_map.mp hj
      exact ⟨.Selected i, ((select_unsatisfiable _ _ c h hs).2.1 _).mpr ⟨i, hi, rfl⟩, rfl⟩
    · rintro ⟨t, ht, rfl⟩
      obtain ⟨i, hi, rfl⟩ := ((select_unsatisfiable _ _ c h hs).2.1 t).mp ht
      exact ⟨σ i, List.mem_map_of_mem hi, rfl⟩

/-- C128: with other names the same selections are refused, for the same reason, and the others go on alike. -/
theorem select_renamed (hσ : σ.Injective) (hρ : ρ.Injective) (h : Reached cs xs c)
    (k : Reached (cs.map (renameCall σ ρ)) (xs.map σ) d) (x : I) :
    (∀ e, c.selectItem x = .error e → d.selectItem (σ x) = .error (renameRefusal σ e)) ∧
    ∀ c', c.selectItem x = .ok c' → ∃ d', d.selectItem (σ x) = .ok d' ∧ Reached cs (xs ++ [x]) c' ∧
      Reached (cs.map (renameCall σ ρ)) ((xs ++ [x]).map σ) d' := by
  have unk : ∀ {ds : List (Call I F)} {ys : List I}
      {d : Closet I F} {x : I}, Reached ds ys d → ¬ Known ds x → d.selectItem x = .error (.UnknownItem x) := by
    intro ds ys d x hd hk
    have : lookup x d.itemIndex = none := by rw [hd.state.2.1.index, lookup_index_none]; exact hk
    rw [selectItem_eq, if_pos this]
  have unk' : ∀ {ys : List J} {d : Closet J G} {x : J}, Reached (cs.map (renameCall σ ρ)) ys d →
      ¬ Known (cs.map (renameCall σ ρ)) x → d.selectItem x = .error (.UnknownItem x) := by
    intro ys d x hd hk
    have : lookup x d.itemIndex = none := by rw [hd.state.2.1.index, lookup_index_none]; exact hk
    rw [selectItem_eq, if_pos this]
  have kk := known_renamed (cs := cs) hσ hρ x
  have fwd : ∀ c', c.selectItem x = .ok c' → ∀ d', d.selectItem (σ x) = .ok d' → Reached cs (xs ++ [x]) c' ∧
      Reached (cs.map (renameCall σ ρ)) ((xs ++ [x]).map σ) d' := fun c' e d' e' =>
    ⟨h.snoc e, by rw [List.map_append]; exact k.snoc e'⟩
  by_cases hk : Known cs x
  · by_cases hs : ∃ w, Outfit cs w
    · have hs' : ∃ w, Outfit (cs.map (renameCall σ ρ)) w := by
        obtain ⟨w, hw⟩ := hs
        exact ⟨_, (outfit_renamed hσ hρ (mem_image w)).mpr hw⟩
      obtain ⟨-, c2, c3⟩ := select_exact _ _ c h hs x
      obtain ⟨-, d2, d3⟩ := select_exact _ _ d k hs' (σ x)
      have thr := exists_renamed (cs := cs) hσ hρ (xs ++ [x])
      simp only [List.map_append, List.map_cons, List.map_nil, List.mem_append, List.mem_singleton, or_imp,
        forall_and, forall_eq] at thr
      by_cases g : ∃ w, Outfit cs w ∧ (∀ y ∈ xs, y ∈ w) ∧ x ∈ w
      · obtain ⟨c', ec, -⟩ := c3 g
        obtain ⟨d', ed, -⟩ := d3 (thr.mpr g)
        refine ⟨fun e he => by (rw [ec] at he; cases he), fun c'' e => ⟨d', ed, fwd c'' e d' ed⟩⟩
      · have ec := c2 hk g
        have ed := d2 (kk.mpr hk) fun g' => g (thr.mp g')
        refine ⟨fun e he => ?_, fun c' e => by rw [ec] at e; cases e⟩
        rw [ec] at he; cases he; exact ed
    · have hs' : ¬ ∃ w, Outfit (cs.map (renameCall σ ρ)) w := by
        rintro ⟨w', hw⟩
        obtain ⟨w, ho, -⟩ := renamed_outfit hσ hρ hw
        exact hs ⟨w, ho⟩
      obtain ⟨c', ec⟩ := ((select_unsatisfiable _ _ c h hs).2.2 x).mpr hk
      obtain ⟨d', ed⟩ := ((select_unsatisfiable _ _ d k hs').2.2 (σ x)).mpr (kk.mpr hk)
      exact ⟨fun e he => by (rw [ec] at he; cases he), fun c'' e => ⟨d', ed, fwd c'' e d' ed⟩⟩
  · have ed := unk' k fun g => hk (kk.mp g)
    have ec : c.selectItem x = .error (.UnknownItem x) := unk h hk
    refine ⟨fun e he => ?_, fun c' e => by rw [ec] at e; cases e⟩
    rw [ec] at he; cases he; exact ed

theorem clash_renamed (hσ : σ.Injective) (hρ : ρ.Injective) (sel : List I) :
    Clash (cs.map (renameCall σ ρ)) (sel.map σ) ↔ Clash cs sel := by
  constructor
  · rintro ⟨g, s', hsub, hlen, hs⟩
    obtain ⟨s, hs1, rfl⟩ := List.sublist_map_iff.mp hsub
    rw [List.length_map] at hlen
    have hne : s ≠ [] := by rintro rfl; simp at hlen
    obtain ⟨x, hx⟩ := List.exists_mem_of_ne_nil s hne
    obtain ⟨f, i, _, rfl, _⟩ := item_of_renamed (hs (σ x) (List.mem_map_of_mem hx))
    exact ⟨f, s, hs1, hlen, fun y hy => (item_renamed hσ hρ f y).mp (hs _ (List.mem_map_of_mem hy))⟩
  · rintro ⟨f, s, hsub, hlen, hs⟩
    refine ⟨ρ f, s.map σ, hsub.map σ, by rw [List.length_map]; exact hlen, fun j hj => ?_⟩
    obtain ⟨x, hx, rfl⟩ := List.mem_map.mp hj
    exact (item_renamed hσ hρ f x).mpr (hs x hx)

/-- C128: with other names the same lists of items can be completed. -/
theorem completable_renamed (hσ : σ.Injective) (hρ : ρ.Injective) (h : Reached cs xs c)
    (k : Reached (cs.map (renameCall σ ρ)) (xs.map σ) d) (sel : List I) :
    (∃ o, d.completeOutfit (sel.map σ) = some (.ok o)) ↔ ∃ o, c.completeOutfit sel = some (.ok o) := by
  rw [(completes k _).1, (completes h _).1, clash_renamed hσ hρ]
  have he := exists_renamed (cs := cs) hσ hρ (xs ++ sel)
  simp only [List.map_append, List.mem_append, or_imp, forall_and] at he
  rw [he]
  have hk : (∀ x ∈ sel.map σ, Known (cs.map (renameCall σ ρ)) x) ↔ ∀ x ∈ sel, Known cs x := by
    simp only [List.forall_mem_map, known_renamed hσ hρ]
  rw [hk]

/-- C128: with names in the same order, the same outfit is completed. -/
theorem complete_renamed (hσ : StrictMono σ) (hρ : ρ.Injective) (h : Reached cs xs c)
    (k : Reached (cs.map (renameCall σ ρ)) (xs.map σ) d) (sel o : List I) :
    c.completeOutfit sel = some (.ok o) → d.completeOutfit (sel.map σ) = some (.ok (o.map σ)) := by
  intro e
  obtain ⟨o', e'⟩ := (completable_renamed hσ.injective hρ h k sel).mpr ⟨o, e⟩
  obtain ⟨o1, o2, o3, o4⟩ := (completes h sel).2 o e
  obtain ⟨p1, p2, p3, p4⟩ := (completes k _).2 o' e'
  have inj := hσ.injective
  obtain ⟨w, hw, ew⟩ := renamed_outfit inj hρ p3
  have mw : ∀ i, i ∈ w ↔ σ i ∈ xs.map σ ∨ σ i ∈ o' := fun i => by
    have := congrArg (σ i ∈ ·) ew
    simp only [Finset.mem_union, List.mem_toFinset, mem_renamed inj, eq_iff_iff] at this
    exact this.symm
  have sel' : ∀ (l : List I) i, σ i ∈ l.map σ ↔ i ∈ l := fun l i => by
    rw [List.mem_map]; exact ⟨fun ⟨y, hy, e⟩ => inj e ▸ hy, fun hy => ⟨i, hy, rfl⟩⟩
  have knownJ : ∀ j, j ∈ o' → ∃ i, j = σ i := fun j hj => by
    obtain ⟨g, hg⟩ := p3.known j (Finset.mem_union_right _ (List.mem_toFinset.mpr hj))
    obtain ⟨f, i, _, _, e⟩ := item_of_renamed hg
    exact ⟨i, e⟩
  have key : w = xs.toFinset ∪ o.toFinset := by
    by_contra hne
    obtain ⟨x, hx, hxw, hlt⟩ := complete_least cs xs c h sel o e w hw
      (fun x hx => (mw x).mpr (.inl (List.mem_map_of_mem hx)))
      (fun x hx => (mw x).mpr (.inr (p2 _ (List.mem_map_of_mem hx)))) hne
    obtain ⟨y, hy, hyw, hlt'⟩ := complete_least _ _ d k _ o' e' ((xs.toFinset ∪ o.toFinset).image σ)
      ((outfit_renamed inj hρ (mem_image _)).mpr o3)
      (fun j hj => by
        obtain ⟨x, hx, rfl⟩ := List.mem_map.mp hj
        exact (mem_renamed inj _ x).mpr (Finset.mem_union_left _ (List.mem_toFinset.mpr hx)))
      (fun j hj => by
        obtain ⟨x, hx, rfl⟩ := List.mem_map.mp hj
        exact (mem_renamed inj _ x).mpr (Finset.mem_union_right _ (List.mem_toFinset.mpr (o2 x hx))))
      (fun he => hne (Finset.image_injective inj (by rw [he, ew])).symm)
    obtain ⟨z, rfl⟩ := knownJ y hy
    rw [mem_renamed inj, Finset.mem_union, List.mem_toFinset, List.mem_toFinset] at hyw
    rcases lt_trichotomy x z with g | rfl | g
    · have := (hlt' (σ x) (hσ g)).mpr ((mem_renamed inj _ x).mpr (Finset.mem_union_right _ (List.mem_toFinset.mpr hx)))
      exact hxw ((mw x).mpr this)
    · exact hxw ((mw x).mpr (.inr hy))
    · exact hyw ((hlt z g).mpr ((mw z).mpr (.inr hy)))
  rw [e']
  have : o' = o.map σ := by
    refine lt_ext p1 (List.pairwise_map.mpr (o1.imp fun {a b} hab => hσ hab)) fun j => ?_
    have both : ∀ i, (σ i ∈ xs.map σ ∨ σ i ∈ o') ↔ i ∈ xs ∨ i ∈ o := fun i => by
      rw [← mw, key, Finset.mem_union, List.mem_toFinset, List.mem_toFinset]
    constructor
    · intro hj
      obtain ⟨i, rfl⟩ := knownJ j hj
      rw [sel']
      rcases (both i).mp (.inr hj) with g | g
      · exact o2 i ((sel' sel i).mp (p4 _ (List.mem_map_of_mem g) hj))
      · exact g
    · intro hj
      obtain ⟨i, hi, rfl⟩ := List.mem_map.mp hj
      rcases (both i).mpr (.inr hi) with g | g
      · exact p2 _ (List.mem_map_of_mem (o4 i ((sel' xs i).mp g) hi))
      · exact g
  rw [this]
end

/-- C128: only the order of the item names decides: exchanging the names of the two items of a family exchanges them in
every outfit, but not in the one that is completed. -/
theorem order_decides : ∃ (σ : ℕ → ℕ) (cs : List (Call ℕ ℕ)) (c d : Closet ℕ ℕ) (o o' : List ℕ), σ.Injective ∧
    Reached cs [] c ∧ Reached (cs.map (renameCall σ id)) [] d ∧ c.completeOutfit [] = some (.ok o) ∧
    d.completeOutfit [] = some (.ok o') ∧ o' ≠ o.map σ := by
  have hσ : (Equiv.swap 1 2 : ℕ → ℕ).Injective := (Equiv.swap 1 2).injective
  have h1 : Legal ([.item 0 1, .item 0 2] : List (Call ℕ ℕ)) :=
    ⟨fun f g i => by simp; omega, fun a b h => by simp at h, fun a b h => by simp at h⟩
  obtain ⟨c, hc⟩ := (build_validates _).1.mp h1
  obtain ⟨d, hd⟩ := (build_renamed (σ := (Equiv.swap 1 2 : ℕ → ℕ)) (ρ := id) hσ Function.injective_id).mpr ⟨c, hc⟩
  have ec : (match (ClosetBuilder.run ([.item 0 1, .item 0 2] : List (Call ℕ ℕ))).build with
      | .ok c => c.completeOutfit [] | .error _ => none) = some (.ok [1]) := by decide +kernel
  have ed : (match (ClosetBuilder.run (([.item 0 1, .item 0 2] : List (Call ℕ ℕ)).map
      (renameCall (Equiv.swap 1 2 : ℕ → ℕ) id))).build with
      | .ok c => c.completeOutfit [] | .error _ => none) = some (.ok [1]) := by decide +kernel
  rw [hc] at ec
  rw [hd] at ed
  exact ⟨_, _, c, d, [1], [1], hσ, ⟨c, hc, rfl⟩, ⟨d, hd, rfl⟩, ec, ed, by decide⟩

/-- Not vacuous: the demo closet under other names (of items and families), with an item selected. -/
example : ∃ c d, Reached demo [] c ∧ Reached (demo.map (renameCall (fun i => 2 * i + 1) (fun f => f + 7))) [] d := by
  obtain ⟨c, hc⟩ := (build_validates demo).1.mp demo_legal
  obtain ⟨d, hd⟩ := (build_renamed (σ := fun i => 2 * i + 1) (ρ := fun f => f + 7) (cs := demo)
    (fun a b h => by dsimp only at h; omega) (fun a b h => by dsimp only at h; omega)).mpr ⟨c, hc⟩
  exact ⟨c, d, ⟨c, hc, rfl⟩, ⟨d, hd, rfl⟩⟩

example := fun c d => complete_renamed (σ := fun i => 2 * i + 1) (ρ := fun f => f + 7) (cs := demo) (xs := [4]) (c := c)
  (d := d) (fun a b h => by dsimp only; omega) (fun a b h => by simpa using h)

example := fun c d => select_renamed (σ := fun i => 2 * i + 1) (ρ := fun f => f + 7) (cs := demo) (xs := [4]) (c := c)
  (d := d) (fun a b h => by dsimp only at h; omega) (fun a b h => by dsimp only at h; omega)

example := fun c d => And.intro (fun hc hd => count_renamed (σ := fun i => 2 * i + 1) (ρ := fun f => f + 7) (cs := demo)
  (xs := [4]) (c := c) (d := d) (fun a b h => by dsimp only at h; omega) (fun a b h => by dsimp only at h; omega) hc hd)
  (fun hc hd => statuses_renamed (σ := fun i => 2 * i + 1) (ρ := fun f => f + 7) (cs := demo)
  (xs := [4]) (c := c) (d := d) (fun a b h => by dsimp only at h; omega) (fun a b h => by dsimp only at h; omega) hc hd)

end Verif.Bdd
