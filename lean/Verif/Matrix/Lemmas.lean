import Verif.Matrix.Model
import Verif.Spec

/-! Helper lemmas about the matrix forest model. -/

set_option linter.unusedSimpArgs false

namespace Verif.Matrix
open Verif Verif.Spec

universe u
variable {T : Type u} [LinearOrder T]

namespace Forest

/-- The stored vectors.  Not code: used to state or prove properties. -/
def Stored (f : Forest T) (l : List T) : Prop :=
  match f with
  | .Empty => False
  | .Unit s => l = s
  | .Many m => l ∈ m

@[simp] theorem stored_E (l : List T) : (Forest.Empty : Forest T).Stored l ↔ False := Iff.rfl
@[simp] theorem stored_U (s l : List T) : (Forest.Unit s).Stored l ↔ l = s := Iff.rfl
@[simp] theorem stored_M (m : Finset (List T)) (l : List T) : (Forest.Many m).Stored l ↔ l ∈ m :=
  Iff.rfl

/-- Representation invariant.  Not code: used to state or prove properties. -/
structure WF (f : Forest T) : Prop where
  lt : ∀ l, f.Stored l → l.Pairwise (· < ·)
  nonempty : ∀ m, f = .Many m → m.Nonempty

theorem mem_trees (h : HashOrder (List T)) (f : Forest T) (l : List T) :
    l ∈ f.trees h ↔ f.Stored l := by
  cases f <;> simp [trees, stored_E, stored_U, stored_M]

theorem mem_family (h : HashOrder (List T)) (f : Forest T) (s : Finset T) :
    s ∈ family (f.trees h) ↔ ∃ l, f.Stored l ∧ l.toFinset = s := by
  simp [family, mem_trees]

theorem stored_many (m : List (List T)) (l : List T) :
    (many m).Stored l ↔ ∃ x ∈ m, l = filterRepeats x := by
  match m with
  | [] => simp [many, empty, stored_E, stored_U, stored_M]
  | [s] => simp [many, unit, stored_E, stored_U, stored_M]
  | a :: b :: m =>
    simp only [many, stored_E, stored_U, stored_M, List.mem_toFinset, mem_uniq, List.mem_map]
    constructor
    · rintro ⟨x, hx, rfl⟩; exact ⟨x, hx, rfl⟩
    · rintro ⟨x, hx, rfl⟩; exact ⟨x, hx, rfl⟩

theorem wf_empty : (empty : Forest T).WF :=
  ⟨fun l h => h.elim, fun m h => by cases h⟩

theorem wf_unit (s : List T) : (unit s).WF :=
  ⟨fun l h => by cases h; exact filterRepeats_lt s, fun m h => by cases h⟩

theorem wf_many (m : List (List T)) : (many m).WF := by
  constructor
  · intro l hl
    obtain ⟨x, _, rfl⟩ := (stored_many m l).1 hl
    exact filterRepeats_lt x
  · intro m' h
    match m with
    | [] => cases h
    | [s] => cases h
    | a :: b :: m =>
      injection h with h
      subst h
      refine ⟨filterRepeats a, ?_⟩
      simp

/-- `many` of already normalised vectors stores exactly those. -/
theorem stored_many_of_lt {m : List (List T)} (hm : ∀ x ∈ m, x.Pairwise (· < ·)) (l : List T) :
    (many m).Stored l ↔ l ∈ m := by
  rw [stored_many]
  constructor
  · rintro ⟨x, hx, rfl⟩; rw [filterRepeats_of_lt (hm x hx)]; exact hx
  · intro hl; exact ⟨l, hl, (filterRepeats_of_lt (hm l hl)).symm⟩

theorem stored_unit (s l : List T) : (unit s).Stored l ↔ l = filterRepeats s := Iff.rfl

theorem stored_union (h : HashOrder (List T)) {f g : Forest T} (hf : f.WF) (hg : g.WF) (l : List T) :
    (union h f g).Stored l ↔ f.Stored l ∨ g.Stored l := by
  unfold union
  split_ifs with hfg
  · subst hfg; simp
  · have lf := hf.lt
    have lg := hg.lt
    cases f with
    | Empty => cases g <;> simp [stored_E, stored_U, stored_M]
    | Unit s =>
      cases g with
      | Empty => simp [stored_E, stored_U, stored_M]
      | Unit s2 =>
        simp only
        rw [stored_many_of_lt]
        · simp [stored_E, stored_U, stored_M]
        · intro x hx
          rcases List.mem_cons.1 hx with rfl | hx
          · exact lf _ rfl
          · rcases List.mem_singleton.1 hx with rfl; exact lg _ rfl
      | Many m =>
        simp only
        rw [stored_many_of_lt]
        · simp [stored_E, stored_U, stored_M, or_comm]
        · intro x hx
          rcases List.mem_append.1 hx with hx | hx
          · exact lg _ (h.mem_iter.1 hx)
          · rcases List.mem_singleton.1 hx with rfl; exact lf _ rfl
    | Many m =>
      cases g with
      | Empty => simp [stored_E, stored_U, stored_M]
      | Unit s2 =>
        simp only
        rw [stored_many_of_lt]
        · simp [stored_E, stored_U, stored_M]
        · intro x hx
          rcases List.mem_append.1 hx with hx | hx
          · exact lf _ (h.mem_iter.1 hx)
          · rcases List.mem_singleton.1 hx with rfl; exact lg _ rfl
      | Many m2 =>
        simp only
        split_ifs with h1 h2
        · simp only [stored_E, stored_U, stored_M]; exact ⟨Or.inr, fun hh => hh.elim (fun a => h1 a) id⟩
        · simp only [stored_E, stored_U, stored_M]; exact ⟨Or.inl, fun hh => hh.elim id (fun a => h2 a)⟩
        · rw [stored_many_of_lt]
          · simp [stored_E, stored_U, stored_M]
          · intro x hx
            rw [h.mem_iter, Finset.mem_union] at hx
            exact hx.elim (lf x) (lg x)

theorem wf_union (h : HashOrder (List T)) {f g : Forest T} (hf : f.WF) (hg : g.WF) :
    (union h f g).WF := by
  unfold union
  split_ifs with hfg
  · exact hf
  · cases f with
    | Empty => cases g <;> first | exact hf | exact hg
    | Unit s => cases g <;> first | exact hf | exact wf_many _
    | Many m =>
      cases g with
      | Empty => exact hf
      | Unit s => exact wf_many _
      | Many m2 =>
        simp only
        split_ifs
        · exact hg
        · exact hf
        · exact wf_many _

theorem stored_intersect (h : HashOrder (List T)) {f g : Forest T} (hf : f.WF) (l : List T) :
    (intersect h f g).Stored l ↔ f.Stored l ∧ g.Stored l := by
  unfold intersect
  split_ifs with hfg
  · subst hfg; simp
  · have lf := hf.lt
    cases f with
    | Empty => cases g <;> simp [stored_E, stored_U, stored_M, empty]
    | Unit s =>
      cases g with
      | Empty => simp [stored_E, stored_U, stored_M, empty]
      | Unit s2 =>
        simp only [stored_E, stored_U, stored_M, empty, false_iff, not_and]
        rintro rfl rfl; exact hfg rfl
      | Many m =>
        simp only
        split_ifs with h1
        · simp only [stored_E, stored_U, stored_M]; exact ⟨fun e => ⟨e, e ▸ h1⟩, fun e => e.1⟩
        · simp only [stored_E, stored_U, stored_M, empty, false_iff, not_and]; rintro rfl; exact h1
    | Many m =>
      cases g with
      | Empty => simp [stored_E, stored_U, stored_M, empty]
      | Unit s2 =>
        simp only
        split_ifs with h1
        · simp only [stored_E, stored_U, stored_M]; exact ⟨fun e => ⟨e ▸ h1, e⟩, fun e => e.2⟩
        · simp only [stored_E, stored_U, stored_M, empty, false_iff, not_and]; rintro hm rfl; exact h1 hm
      | Many m2 =>
        simp only
        rw [stored_many_of_lt]
        · simp [stored_E, stored_U, stored_M]
        · intro x hx
          rw [h.mem_iter, Finset.mem_inter] at hx
          exact lf x hx.1

theorem wf_intersect (h : HashOrder (List T)) {f g : Forest T} (hf : f.WF) (hg : g.WF) :
    (intersect h f g).WF := by
  unfold intersect
  split_ifs with hfg
  · exact hf
  · cases f with
    | Empty => cases g <;> exact wf_empty
    | Unit s =>
      cases g with
      | Empty => exact wf_empty
      | Unit s2 => exact wf_empty
      | Many m => simp only; split_ifs <;> first | exact hf | exact wf_empty
    | Many m =>
      cases g with
      | Empty => exact wf_empty
      | Unit s => simp only; split_ifs <;> first | exact hg | exact wf_empty
      | Many m2 => exact wf_many _

theorem stored_product (h1 h2 : HashOrder (List T)) (f g : Forest T) (l : List T) :
    (product h1 h2 f g).Stored l ↔
      ∃ a b, f.Stored a ∧ g.Stored b ∧ l = filterRepeats (a ++ b) := by
  cases f with
  | Empty => cases g <;> simp [product, stored_E, stored_U, stored_M, empty]
  | Unit s =>
    cases g with
    | Empty => simp [product, stored_E, stored_U, stored_M, empty]
    | Unit s2 => simp [product, unit, stored_E, stored_U, stored_M]
    | Many m =>
      simp only [product, manyToMatrix, stored_many, stored_E, stored_U, stored_M, List.mem_map, h2.mem_iter]
      constructor
      · rintro ⟨x, ⟨a, ha, rfl⟩, rfl⟩
        exact ⟨s, a, rfl, ha, filterRepeats_eq_iff.2 (by simp [or_comm])⟩
      · rintro ⟨_, b, rfl, hb, rfl⟩
        exact ⟨_, ⟨b, hb, rfl⟩, filterRepeats_eq_iff.2 (by simp [or_comm])⟩
  | Many m =>
    cases g with
    | Empty => simp [product, stored_E, stored_U, stored_M, empty]
    | Unit s2 =>
      simp only [product, manyToMatrix, stored_many, stored_E, stored_U, stored_M, List.mem_map, h1.mem_iter]
      constructor
      · rintro ⟨x, ⟨a, ha, rfl⟩, rfl⟩
        exact ⟨a, s2, ha, rfl, rfl⟩
      · rintro ⟨b, _, hb, rfl, rfl⟩
        exact ⟨_, ⟨b, hb, rfl⟩, rfl⟩
    | Many m2 =>
      simp only [product, stored_many, stored_E, stored_U, stored_M, List.mem_flatMap, List.mem_map, h1.mem_iter,
        h2.mem_iter]
      constructor
      · rintro ⟨x, ⟨a, ha, b, hb, rfl⟩, rfl⟩
        exact ⟨a, b, ha, hb, rfl⟩
      · rintro ⟨a, b, ha, hb, rfl⟩
        exact ⟨_, ⟨a, ha, b, hb, rfl⟩, rfl⟩

theorem wf_product (h1 h2 : HashOrder (List T)) (f g : Forest T) : (product h1 h2 f g).WF := by
  cases f <;> cases g <;>
    first
      | exact wf_empty
      | exact wf_unit _
      | exact wf_many _

theorem stored_filter (h : HashOrder (List T)) {m : Finset (List T)} (hf : (Forest.Many m).WF)
    (p : List T → Bool) (l : List T) :
    (many ((h.iter m).filter p)).Stored l ↔ l ∈ m ∧ p l = true := by
  rw [stored_many_of_lt]
  · simp
  · intro x hx
    rw [List.mem_filter, h.mem_iter] at hx
    exact hf.lt x hx.1

theorem stored_subset (h : HashOrder (List T)) {f : Forest T} (hf : f.WF) (x : T) (l : List T) :
    (subset h f x).Stored l ↔ f.Stored l ∧ x ∈ l := by
  cases f with
  | Empty => simp [subset, empty, stored_E, stored_U, stored_M]
  | Unit s =>
    simp only [subset]
    split_ifs with h1
    · simp only [stored_E, stored_U, stored_M]; exact ⟨fun e => ⟨e, e ▸ h1⟩, fun e => e.1⟩
    · simp only [stored_E, stored_U, stored_M, empty, false_iff, not_and]; rintro rfl; exact h1
  | Many m => simp only [subset, stored_filter h hf, stored_E, stored_U, stored_M, decide_eq_true_eq]

theorem stored_subsetNot (h : HashOrder (List T)) {f : Forest T} (hf : f.WF) (x : T) (l : List T) :
    (subsetNot h f x).Stored l ↔ f.Stored l ∧ x ∉ l := by
  cases f with
  | Empty => simp [subsetNot, empty, stored_E, stored_U, stored_M]
  | Unit s =>
    simp only [subsetNot]
    split_ifs with h1
    · simp only [stored_E, stored_U, stored_M, empty, false_iff, not_and]; rintro rfl; exact not_not.2 h1
    · simp only [stored_E, stored_U, stored_M]; exact ⟨fun e => ⟨e, e ▸ h1⟩, fun e => e.1⟩
  | Many m =>
    simp only [subsetNot, stored_filter h hf, stored_E, stored_U, stored_M, Bool.not_eq_true', decide_eq_false_iff_not]

theorem stored_subsetAll (h : HashOrder (List T)) {f : Forest T} (hf : f.WF) (xs : List T)
    (l : List T) :
    (subsetAll h f xs).Stored l ↔ f.Stored l ∧ ∀ x ∈ xs, x ∈ l := by
  unfold subsetAll
  split_ifs with h0
  · rw [List.isEmpty_iff] at h0; subst h0; simp
  · cases f with
    | Empty => simp [empty, stored_E, stored_U, stored_M]
    | Unit s =>
      simp only
      split_ifs with h1
      · rw [List.all_eq_true] at h1
        simp only [stored_E, stored_U, stored_M]
        exact ⟨fun e => ⟨e, fun x hx => by subst e; simpa using h1 x hx⟩, fun e => e.1⟩
      · simp only [stored_E, stored_U, stored_M, empty, false_iff, not_and]
        rintro rfl h2
        exact h1 (List.all_eq_true.2 (fun x hx => by simpa using h2 x hx))
    | Many m =>
      simp only [stored_filter h hf, stored_E, stored_U, stored_M, List.all_eq_true, decide_eq_true_eq]

theorem stored_subsetNone (h : HashOrder (List T)) {f : Forest T} (hf : f.WF) (xs : List T)
    (l : List T) :
    (subsetNone h f xs).Stored l ↔ f.Stored l ∧ ∀ x ∈ xs, x ∉ l := by
  unfold subsetNone
  split_ifs with h0
  · rw [List.isEmpty_iff] at h0; subst h0; simp
  · cases f with
    | Empty => simp [empty, stored_E, stored_U, stored_M]
    | Unit s =>
      simp only
      split_ifs with h1
      · rw [List.all_eq_true] at h1
        simp only [stored_E, stored_U, stored_M]
        exact ⟨fun e => ⟨e, fun x hx => by subst e; simpa using h1 x hx⟩, fun e => e.1⟩
      · simp only [stored_E, stored_U, stored_M, empty, false_iff, not_and]
        rintro rfl h2
        exact h1 (List.all_eq_true.2 (fun x hx => by simpa using h2 x hx))
    | Many m =>
      simp only [stored_filter h hf, stored_E, stored_U, stored_M, List.all_eq_true, Bool.not_eq_true',
        decide_eq_false_iff_not]

theorem wf_subset (h : HashOrder (List T)) {f : Forest T} (hf : f.WF) (x : T) :
    (subset h f x).WF := by
  cases f with
  | Empty => exact wf_empty
  | Unit s => simp only [subset]; split_ifs <;> first | exact hf | exact wf_empty
  | Many m => exact wf_many _

theorem wf_subsetNot (h : HashOrder (List T)) {f : Forest T} (hf : f.WF) (x : T) :
    (subsetNot h f x).WF := by
  cases f with
  | Empty => exact wf_empty
  | Unit s => simp only [subsetNot]; split_ifs <;> first | exact hf | exact wf_empty
  | Many m => exact wf_many _

theorem wf_subsetAll (h : HashOrder (List T)) {f : Forest T} (hf : f.WF) (xs : List T) :
    (subsetAll h f xs).WF := by
  unfold subsetAll
  split_ifs
  · exact hf
  · cases f with
    | Empty => exact wf_empty
    | Unit s => simp only; split_ifs <;> first | exact hf | exact wf_empty
    | Many m => exact wf_many _

theorem wf_subsetNone (h : HashOrder (List T)) {f : Forest T} (hf : f.WF) (xs : List T) :
    (subsetNone h f xs).WF := by
  unfold subsetNone
  split_ifs
  · exact hf
  · cases f with
    | Empty => exact wf_empty
    | Unit s => simp only; split_ifs <;> first | exact hf | exact wf_empty
    | Many m => exact wf_many _

/-- `many` depends only on the number of vectors (0, 1, more) and on which sets they are. -/
theorem many_perm {m₁ m₂ : List (List T)} (hp : m₁.Perm m₂) : many m₁ = many m₂ := by
  match m₁, m₂, hp with
  | [], m₂, hp => rw [hp.nil_eq]
  | [s], m₂, hp => rw [List.perm_singleton.1 hp.symm]
  | a :: b :: m, m₂, hp =>
    match m₂, hp with
    | [], hp => simpa using hp.length_eq
    | [_], hp => simpa using hp.length_eq
    | c :: d :: m', hp =>
      simp only [many, Forest.Many.injEq]
      ext l
      simp only [List.mem_toFinset, mem_uniq]
      exact (hp.map filterRepeats).mem_iff

theorem many_eq_of_stored {m₁ m₂ : List (List T)} (hlen : m₁.length = m₂.length)
    (hst : ∀ l, (many m₁).Stored l ↔ (many m₂).Stored l) : many m₁ = many m₂ := by
  match m₁, m₂, hlen with
  | [], [], _ => rfl
  | [a], [b], _ =>
    have := (hst (filterRepeats a)).1 rfl
    simp only [many, unit, stored_U] at this
    simp only [many, unit, this]
  | a :: b :: m, c :: d :: m', _ =>
    simp only [many, Forest.Many.injEq]
    exact Finset.ext hst

end Forest
end Verif.Matrix
