import Verif.Bdd.Builder
import Mathlib.Data.Finset.Card
import Mathlib.Data.Finset.Lattice.Basic

/-!
Helper lemmas: the closet of a call history after a list of selections (`State`), and how each
observation reads off it.
-/

set_option linter.unusedSimpArgs false
set_option linter.unusedSectionVars false

namespace Verif.Bdd
open Verif Spec Node

universe u v
variable {I : Type u} {F : Type v} [LinearOrder I] [LinearOrder F]

/-- `c` is the closet of `cs` after selecting `xs`.  Not code: used to state or prove properties. -/
structure State (cs : List (Call I F)) (xs : List I) (c : Closet I F) : Prop where
  index : c.itemIndex = indexOf (itemPairs cs)
  good : Good (fun i => Known cs i ∧ i ∉ xs) c.root
  eval : ∀ σ, c.root.eval σ = true ↔ Accepts cs (fun i => i ∈ xs ∨ σ i = true)
  summary : c.summary = sorted (uniq (xs.map Status.Selected ++ summarize c.root))

theorem sorted_uniq_congr {α : Type u} [LinearOrder α] {l m : List α} (h : ∀ a, a ∈ l ↔ a ∈ m) :
    sorted (uniq l) = sorted (uniq m) := by
  apply lt_ext (sorted_lt_of_nodup (nodup_uniq _)) (sorted_lt_of_nodup (nodup_uniq _))
  intro a
  rw [mem_sorted, mem_sorted, mem_uniq, mem_uniq, h]

theorem sorted_uniq_of_lt {α : Type u} [LinearOrder α] {l : List α} (h : l.Pairwise (· < ·)) :
    sorted (uniq l) = l := by
  rw [uniq_of_nodup (nodup_of_lt h), sorted_of_lt h]

theorem Accepts.congr {cs : List (Call I F)} {p q : I → Prop} (h : ∀ i, p i ↔ q i) :
    Accepts cs p ↔ Accepts cs q := by
  have : p = q := funext fun i => propext (h i)
  rw [this]

theorem state_built {cs : List (Call I F)} (hl : Legal cs) :
    State cs [] (Closet.new (ClosetBuilder.run cs).itemIndex (ClosetBuilder.run cs).buildRoot) where
  index := by rw [run_eq]; rfl
  good := by
    have := good_buildRoot hl
    exact ⟨this.1, this.2, fun x hx => ⟨this.3 x hx, by simp⟩⟩
  eval := by
    intro σ
    rw [Closet.new, eval_buildRoot]
    exact Accepts.congr (by simp)
  summary := by
    simp only [Closet.new, List.map_nil, List.nil_append]
    rw [sorted_uniq_of_lt (summarize_lt _)]

theorem selected_not_mem_summarize (n : Node I) (i : I) : Status.Selected i ∉ summarize n := by
  intro h
  rcases occ_cases ((mem_summarize n _).1 h).1 with e | e <;> cases e

theorem State.restrict {cs : List (Call I F)} {xs : List I} {c : Closet I F} (h : State cs xs c)
    (x : I) : Good (fun i => Known cs i ∧ i ∉ xs ++ [x]) (restrict c.root x true) ∧
      ∀ σ, (restrict c.root x true).eval σ = true ↔
        Accepts cs (fun i => i ∈ xs ++ [x] ∨ σ i = true) := by
  refine ⟨⟨ordered_restrict h.good.1 _ _, reduced_restrict h.good.2 _ _, ?_⟩, ?_⟩
  · intro y hy
    have h1 := h.good.3 y (mentions_restrict hy)
    refine ⟨h1.1, ?_⟩
    rw [List.mem_append, List.mem_singleton]
    rintro (h2 | rfl)
    · exact h1.2 h2
    · exact not_mentions_restrict h.good.1 _ _ hy
  · intro σ
    rw [eval_restrict h.good.1, h.eval]
    apply Accepts.congr
    intro i
    by_cases e : i = x
    · subst e; simp
    · simp [e]

theorem State.select {cs : List (Call I F)} {xs : List I} {c : Closet I F} (h : State cs xs c)
    (x : I) : State cs (xs ++ [x])
      { itemIndex := c.itemIndex
        summary := sorted (uniq ((c.summary.filter (fun s => s.isSelected)) ++
          [Status.Selected x] ++ summarize (Node.restrict c.root x true)))
        root := Node.restrict c.root x true } where
  index := h.index
  good := (h.restrict x).1
  eval := (h.restrict x).2
  summary := by
    apply sorted_uniq_congr
    intro s
    simp only [h.summary, List.mem_append, List.mem_filter, mem_sorted, mem_uniq, List.mem_map,
      List.map_append, List.map_cons, List.map_nil]
    have : ((∃ a ∈ xs, Status.Selected a = s) ∨ s ∈ summarize c.root) ∧ s.isSelected = true ↔
        ∃ a ∈ xs, Status.Selected a = s := by
      constructor
      · rintro ⟨h1 | h1, h2⟩
        · exact h1
        · cases s with
          | Selected i => exact absurd h1 (selected_not_mem_summarize _ _)
          | Available i => cases h2
          | Excluded i => cases h2
      · rintro ⟨a, ha, rfl⟩
        exact ⟨Or.inl ⟨a, ha, rfl⟩, rfl⟩
    rw [this]

/-- The state determines the closet, up to order and repetition of the selections. -/
theorem State.unique {cs ds : List (Call I F)} {xs ys : List I} {c d : Closet I F}
    (h : State cs xs c) (k : State ds ys d)
    (hi : indexOf (itemPairs cs) = indexOf (itemPairs ds))
    (ha : ∀ w : I → Prop, Accepts cs w ↔ Accepts ds w)
    (hx : ∀ i, i ∈ xs ↔ i ∈ ys) : c = d := by
  have hr : c.root = d.root := by
    apply canonical h.good.1 k.good.1 h.good.2 k.good.2
    intro σ
    rw [Bool.eq_iff_iff, h.eval, k.eval, ha]
    exact Accepts.congr (fun i => by rw [hx])
  have hs : c.summary = d.summary := by
    rw [h.summary, k.summary, hr]
    apply sorted_uniq_congr
    intro s
    simp only [List.mem_append, List.mem_map, hx]
  have hii : c.itemIndex = d.itemIndex := by rw [h.index, k.index, hi]
  cases c; cases d; simp_all

/-- Known, not yet selected items, sorted.  Not code: used to state or prove properties. -/
def free (cs : List (Call I F)) (xs : List I) : List I :=
  (sorted (uniq ((itemPairs cs).map Prod.snd))).filter (fun i => decide (i ∉ xs))

theorem free_lt (cs : List (Call I F)) (xs : List I) : (free cs xs).Pairwise (· < ·) :=
  (sorted_lt_of_nodup (nodup_uniq _)).filter _

theorem mem_free {cs : List (Call I F)} {xs : List I} {i : I} :
    i ∈ free cs xs ↔ Known cs i ∧ i ∉ xs := by
  simp only [free, List.mem_filter, mem_sorted, mem_uniq, List.mem_map, Prod.exists,
    exists_eq_right, mem_itemPairs, decide_eq_true_eq, Known]

theorem State.lvl {cs : List (Call I F)} {xs : List I} {c : Closet I F} (h : State cs xs c) :
    Lvl (free cs xs) c.root := by
  apply lvl_of_rigid (free_lt _ _) h.good.1 h.good.2 (fun x hx => mem_free.2 (h.good.3 x hx))
  intro σ hσ x hx
  obtain ⟨⟨f, hf⟩, hnx⟩ := mem_free.1 hx
  rw [h.eval] at hσ
  cases hb : c.root.eval (Function.update σ x (!σ x)) with
  | false => rfl
  | true =>
    exfalso
    rw [h.eval] at hb
    obtain ⟨j, ⟨hj1, hj2⟩, hju⟩ := hσ.one f x hf
    obtain ⟨k, ⟨hk1, hk2⟩, hku⟩ := hb.one f x hf
    dsimp only at hj2 hk2 hju hku
    cases hs : σ x with
    | true =>
      have hjx : x = j := hju x ⟨hf, Or.inr hs⟩
      subst hjx
      have hkx : k ≠ x := by
        rintro rfl
        rcases hk2 with h1 | h1
        · exact hnx h1
        · simp [hs] at h1
      apply hkx
      apply hju k ⟨hk1, ?_⟩
      rcases hk2 with h1 | h1
      · exact Or.inl h1
      · rw [Function.update_of_ne hkx] at h1; exact Or.inr h1
    | false =>
      have hkx : x = k := hku x ⟨hf, Or.inr (by simp [hs])⟩
      subst hkx
      have hjx : j ≠ x := by
        rintro rfl
        rcases hj2 with h1 | h1
        · exact hnx h1
        · rw [hs] at h1; cases h1
      apply hjx
      apply hku j ⟨hj1, ?_⟩
      rcases hj2 with h1 | h1
      · exact Or.inl h1
      · exact Or.inr (by rw [Function.update_of_ne hjx]; exact h1)

/-- Solutions of the diagram are the outfits extending the selections. -/
theorem State.sol_iff {cs : List (Call I F)} {xs : List I} {c : Closet I F} (h : State cs xs c)
    (hk : ∀ x ∈ xs, Known cs x) (p : List I) :
    p ∈ c.root.sols ↔ p.Sublist (free cs xs) ∧ Outfit cs (xs.toFinset ∪ p.toFinset) := by
  have hkey : ∀ p : List I, p.Sublist (free cs xs) →
      (free cs xs).filter (fun x => decide (x ∈ p)) = p := by
    intro p hp
    apply lt_ext ((free_lt cs xs).filter _) ((free_lt cs xs).sublist hp)
    intro a
    simp only [List.mem_filter, decide_eq_true_eq]
    exact ⟨fun h => h.2, fun h => ⟨hp.subset h, h⟩⟩
  have hev : ∀ p : List I, p.Sublist (free cs xs) →
      (p ∈ c.root.sols ↔ Accepts cs (fun i => i ∈ xs ∨ i ∈ p)) := by
    intro p hp
    have := h.lvl.eval_iff (free_lt cs xs) (fun x => decide (x ∈ p))
    rw [hkey p hp] at this
    rw [← this, h.eval]
    exact Accepts.congr (by simp)
  constructor
  · intro hp
    have hs := h.lvl.sol_sublist hp
    refine ⟨hs, ?_, ?_⟩
    · intro i hi
      rw [Finset.mem_union, List.mem_toFinset, List.mem_toFinset] at hi
      rcases hi with hi | hi
      · exact hk i hi
      · exact (mem_free.1 (hs.subset hi)).1
    · exact (Accepts.congr (by simp)).1 ((hev p hs).1 hp)
  · rintro ⟨hs, ho⟩
    exact (hev p hs).2 ((Accepts.congr (by simp)).1 ho.accepts)

/-- The part of an outfit which is not selected, as a sorted list.  Not code: used to state or prove properties. -/
def rest (cs : List (Call I F)) (xs : List I) (w : Finset I) : List I :=
  (free cs xs).filter (fun x => decide (x ∈ w))

theorem rest_spec {cs : List (Call I F)} {xs : List I} {w : Finset I} (ho : Outfit cs w)
    (hx : ∀ x ∈ xs, x ∈ w) : xs.toFinset ∪ (rest cs xs w).toFinset = w := by
  ext i
  simp only [Finset.mem_union, List.mem_toFinset, rest, List.mem_filter, mem_free,
    decide_eq_true_eq]
  constructor
  · rintro (h | h)
    · exact hx i h
    · exact h.2
  · intro h
    by_cases hi : i ∈ xs
    · exact Or.inl hi
    · exact Or.inr ⟨⟨ho.known i h, hi⟩, h⟩

theorem State.rest_mem {cs : List (Call I F)} {xs : List I} {c : Closet I F} (h : State cs xs c)
    (hk : ∀ x ∈ xs, Known cs x) {w : Finset I} (ho : Outfit cs w) (hx : ∀ x ∈ xs, x ∈ w) :
    rest cs xs w ∈ c.root.sols :=
  (h.sol_iff hk _).2 ⟨List.filter_sublist, by rw [rest_spec ho hx]; exact ho⟩

theorem State.sat_iff {cs : List (Call I F)} {xs : List I} {c : Closet I F} (h : State cs xs c)
    (hk : ∀ x ∈ xs, Known cs x) :
    c.root ≠ .Leaf false ↔ ∃ w, Outfit cs w ∧ ∀ x ∈ xs, x ∈ w := by
  constructor
  · intro hn
    obtain ⟨p, hp⟩ := List.exists_mem_of_ne_nil _ (sols_ne_nil h.good.2 hn)
    exact ⟨_, ((h.sol_iff hk p).1 hp).2, fun x hx => by simp [hx]⟩
  · rintro ⟨w, ho, hx⟩ e
    have := h.rest_mem hk ho hx
    rw [e] at this
    simp [sols] at this

theorem State.sol_has {cs : List (Call I F)} {xs : List I} {c : Closet I F} (h : State cs xs c)
    (hk : ∀ x ∈ xs, Known cs x) {i : I} (hi : i ∉ xs) :
    (∃ p ∈ c.root.sols, i ∈ p) ↔ ∃ w, Outfit cs w ∧ (∀ x ∈ xs, x ∈ w) ∧ i ∈ w := by
  constructor
  · rintro ⟨p, hp, hip⟩
    exact ⟨_, ((h.sol_iff hk p).1 hp).2, fun x hx => by simp [hx], by simp [hip]⟩
  · rintro ⟨w, ho, hx, hiw⟩
    refine ⟨_, h.rest_mem hk ho hx, ?_⟩
    simp only [rest, List.mem_filter, mem_free, decide_eq_true_eq]
    exact ⟨⟨ho.known i hiw, hi⟩, hiw⟩

theorem State.summary_selected {cs : List (Call I F)} {xs : List I} {c : Closet I F}
    (h : State cs xs c) (i : I) : Status.Selected i ∈ c.summary ↔ i ∈ xs := by
  rw [h.summary, mem_sorted, mem_uniq, List.mem_append]
  simp [selected_not_mem_summarize]

theorem State.summary_available {cs : List (Call I F)} {xs : List I} {c : Closet I F}
    (h : State cs xs c) (hk : ∀ x ∈ xs, Known cs x) (i : I) : Status.Available i ∈ c.summary ↔
      i ∉ xs ∧ ∃ w, Outfit cs w ∧ (∀ x ∈ xs, x ∈ w) ∧ i ∈ w := by
  rw [h.summary, mem_sorted, mem_uniq, List.mem_append]
  simp only [List.mem_map, reduceCtorEq, and_false, exists_false, false_or]
  rw [mem_summarize]
  simp only [reduceCtorEq, false_imp_iff, and_true]
  rw [h.lvl.available_iff (free_lt _ _) h.good.2]
  by_cases hi : i ∈ xs
  · simp only [hi, not_true, false_and, iff_false]
    rintro ⟨p, hp, hip⟩
    exact (mem_free.1 ((h.lvl.sol_sublist hp).subset hip)).2 hi
  · rw [h.sol_has hk hi]; simp [hi]

theorem State.summary_excluded {cs : List (Call I F)} {xs : List I} {c : Closet I F}
    (h : State cs xs c) (hk : ∀ x ∈ xs, Known cs x)
    (hs : ∃ w, Outfit cs w ∧ ∀ x ∈ xs, x ∈ w) (i : I) : Status.Excluded i ∈ c.summary ↔
      Known cs i ∧ ¬ ∃ w, Outfit cs w ∧ (∀ x ∈ xs, x ∈ w) ∧ i ∈ w := by
  rw [h.summary, mem_sorted, mem_uniq, List.mem_append]
  simp only [List.mem_map, reduceCtorEq, and_false, exists_false, false_or]
  rw [mem_summarize]
  simp only [Status.item, true_imp_iff]
  rw [h.lvl.available_iff (free_lt _ _) h.good.2]
  have hn := (h.sat_iff hk).2 hs
  constructor
  · rintro ⟨h1, h2⟩
    have hm := h.good.3 i (occ_mentions.2 ⟨_, h1, rfl⟩)
    refine ⟨hm.1, ?_⟩
    rw [← h.sol_has hk hm.2]; exact h2
  · rintro ⟨h1, h2⟩
    have hi : i ∉ xs := by
      intro hx
      obtain ⟨w, ho, hw⟩ := hs
      exact h2 ⟨w, ho, hw, hw i hx⟩
    rw [← h.sol_has hk hi] at h2
    refine ⟨?_, h2⟩
    obtain ⟨s, hs1, hs2⟩ := occ_mentions.1
      (h.lvl.mentions_all h.good.2 hn (mem_free.2 ⟨h1, hi⟩))
    rcases occ_cases hs1 with e | e
    · rw [e, hs2] at hs1; exact hs1
    · rw [e, hs2, h.lvl.available_iff (free_lt _ _) h.good.2] at hs1
      exact absurd hs1 h2

theorem State.summary_lt {cs : List (Call I F)} {xs : List I} {c : Closet I F}
    (h : State cs xs c) : c.summary.Pairwise (· < ·) := by
  rw [h.summary]; exact sorted_lt_of_nodup (nodup_uniq _)

/-- An excluded status blocks the selection; nothing else does. -/
theorem find_excluded (l : List (Status I)) (x : I) :
    ((l.filter (fun s => s.isExcluded)).find? (fun s => s.is x)).isSome ↔
      Status.Excluded x ∈ l := by
  rw [List.find?_isSome]
  simp only [List.mem_filter]
  constructor
  · rintro ⟨s, ⟨hs, he⟩, hi⟩
    cases s with
    | Excluded i => have e : i = x := of_decide_eq_true hi; subst e; exact hs
    | Available i => cases he
    | Selected i => cases he
  · intro h
    exact ⟨_, ⟨h, rfl⟩, by simp [Status.is, Status.item]⟩

theorem selectItem_eq (c : Closet I F) (x : I) : c.selectItem x =
    if lookup x c.itemIndex = none then .error (.UnknownItem x)
    else if Status.Excluded x ∈ c.summary then .error (.ExcludedItem x)
    else .ok { itemIndex := c.itemIndex
               summary := sorted (uniq ((c.summary.filter (fun s => s.isSelected)) ++
                 [Status.Selected x] ++ summarize (Node.restrict c.root x true)))
               root := Node.restrict c.root x true } := by
  unfold Closet.selectItem Closet.getFamily
  cases e : lookup x c.itemIndex with
  | none => simp
  | some f =>
    simp only [reduceCtorEq, if_false]
    have := find_excluded c.summary x
    cases e' : (c.summary.filter (fun s => s.isExcluded)).find? (fun s => s.is x) with
    | none => rw [e'] at this; simp at this; simp [this]
    | some s => rw [e'] at this; simp at this; simp [this]

/-! ### Completing an outfit -/

theorem State.restrictAll {cs : List (Call I F)} {xs : List I} {c : Closet I F}
    (h : State cs xs c) (sel : List I) :
    Good (fun i => Known cs i ∧ i ∉ xs ++ sel) (Closet.restrictAll c.root sel) ∧
    ∀ σ, (Closet.restrictAll c.root sel).eval σ = true ↔
      Accepts cs (fun i => i ∈ xs ++ sel ∨ σ i = true) := by
  induction sel generalizing xs c with
  | nil => simpa [Closet.restrictAll] using ⟨h.good, h.eval⟩
  | cons x sel ih =>
    have := ih (h.select x)
    simpa [Closet.restrictAll] using this

/-- A state with arbitrary extra selections, ignoring the summary. -/
theorem State.forget {cs : List (Call I F)} {xs : List I} {c : Closet I F}
    (h : State cs xs c) (sel : List I) :
    State cs (xs ++ sel) { itemIndex := c.itemIndex
                           summary := sorted (uniq ((xs ++ sel).map Status.Selected ++
                             summarize (Closet.restrictAll c.root sel)))
                           root := Closet.restrictAll c.root sel } :=
  ⟨h.index, (h.restrictAll sel).1, (h.restrictAll sel).2, rfl⟩

end Verif.Bdd
