import Verif.Base

/-!
# Order-preserving renaming and the library pieces

Sorting, `unique` and the maps commute with a renaming of the items that keeps their order.
-/

set_option linter.unusedSimpArgs false
set_option linter.unusedVariables false
set_option linter.unusedSectionVars false

namespace Verif

universe u v
variable {T : Type u} {U : Type v} [LinearOrder T] [LinearOrder U] {σ : T → U}

/-- The entries of a map with other keys.  Not code: specification. -/
def renameKeys {V : Type*} (σ : T → U) (m : List (T × V)) : List (U × V) := m.map (fun p => (σ p.1, p.2))

theorem renameKeys_inj (hσ : σ.Injective) {V : Type*} : (renameKeys (V := V) σ).Injective :=
  List.map_injective_iff.mpr fun a b h => by
    simp only [Prod.mk.injEq] at h
    exact Prod.ext (hσ h.1) h.2

theorem uniq_map {α β : Type*} [DecidableEq α] [DecidableEq β] {f : α → β} (hf : f.Injective) (l : List α) :
    uniq (l.map f) = (uniq l).map f := by
  induction l with
  | nil => rfl
  | cons a l ih =>
    simp only [List.map_cons, uniq, ih, List.filter_map, List.cons.injEq, true_and]
    congr 1
    refine List.filter_congr fun b _ => ?_
    simp only [Function.comp_apply, ne_eq, hf.eq_iff]

theorem sorted_map (hσ : StrictMono σ) (l : List T) : sorted (l.map σ) = (sorted l).map σ := by
  unfold sorted
  exact (List.map_insertionSort _ _ σ l fun a _ b _ => hσ.le_iff_le.symm).symm

theorem filterRepeats_map (hσ : StrictMono σ) (l : List T) :
    filterRepeats (l.map σ) = (filterRepeats l).map σ := by
  rw [filterRepeats, sorted_map hσ, uniq_map hσ.injective]; rfl

theorem addTo_map (hσ : StrictMono σ) (k : T) (n : Nat) (m : List (T × Nat)) :
    addTo (σ k) n (renameKeys σ m) = renameKeys σ (addTo k n m) := by
  induction m with
  | nil => rfl
  | cons p l ih =>
    obtain ⟨k', v⟩ := p
    simp only [renameKeys, List.map_cons] at ih ⊢
    simp only [addTo, hσ.lt_iff_lt, hσ.injective.eq_iff]
    split_ifs <;> simp only [List.map_cons, ih]

theorem upsert_map (hσ : StrictMono σ) {V : Type*} (k : T) (f : Option V → V) (m : List (T × V)) :
    upsert (σ k) f (renameKeys σ m) = renameKeys σ (upsert k f m) := by
  induction m with
  | nil => rfl
  | cons p l ih =>
    obtain ⟨k', v⟩ := p
    simp only [renameKeys, List.map_cons] at ih ⊢
    simp only [upsert, hσ.lt_iff_lt, hσ.injective.eq_iff]
    split_ifs <;> simp only [List.map_cons, ih]

theorem insertKV_map (hσ : StrictMono σ) {V : Type*} (k : T) (x : V) (m : List (T × V)) :
    insertKV (σ k) x (renameKeys σ m) = renameKeys σ (insertKV k x m) := upsert_map hσ _ _ _

theorem lookup_map (hσ : σ.Injective) {V : Type*} (k : T) (m : List (T × V)) :
    lookup (σ k) (renameKeys σ m) = lookup k m := by
  induction m with
  | nil => rfl
  | cons p l ih =>
    obtain ⟨k', v⟩ := p
    simp only [renameKeys, List.map_cons] at ih ⊢
    simp only [lookup, hσ.eq_iff, ih]

theorem addAll_map (hσ : StrictMono σ) (e m : List (T × Nat)) :
    (renameKeys σ e).foldl (fun m p => addTo p.1 p.2 m) (renameKeys σ m) =
      renameKeys σ (e.foldl (fun m p => addTo p.1 p.2 m) m) := by
  induction e generalizing m with
  | nil => rfl
  | cons p l ih =>
    simp only [renameKeys, List.map_cons, List.foldl_cons] at ih ⊢
    rw [show addTo (σ p.1) p.2 (m.map fun p => (σ p.1, p.2)) = (addTo p.1 p.2 m).map fun p => (σ p.1, p.2) from
      addTo_map hσ _ _ _, ih]

theorem insertAll_map (hσ : StrictMono σ) {V : Type*} (e m : List (T × V)) :
    (renameKeys σ e).foldl (fun m p => insertKV p.1 p.2 m) (renameKeys σ m) =
      renameKeys σ (e.foldl (fun m p => insertKV p.1 p.2 m) m) := by
  induction e generalizing m with
  | nil => rfl
  | cons p l ih =>
    simp only [renameKeys, List.map_cons, List.foldl_cons] at ih ⊢
    rw [show insertKV (σ p.1) p.2 (m.map fun p => (σ p.1, p.2)) = (insertKV p.1 p.2 m).map fun p => (σ p.1, p.2) from
      insertKV_map hσ _ _ _, ih]

theorem countMap_map (hσ : StrictMono σ) (l : List T) : countMap (l.map σ) = renameKeys σ (countMap l) := by
  have : ∀ m, (l.map σ).foldl (fun m k => addTo k 1 m) (renameKeys σ m) =
      renameKeys σ (l.foldl (fun m k => addTo k 1 m) m) := by
    induction l with
    | nil => intro m; rfl
    | cons a l ih => intro m; simp only [List.map_cons, List.foldl_cons, addTo_map hσ, ih]
  exact this []

theorem sortByKey_map (hσ : StrictMono σ) {V : Type*} (l : List (T × V)) :
    sortByKey (renameKeys σ l) = renameKeys σ (sortByKey l) := by
  unfold sortByKey renameKeys
  exact (List.map_insertionSort (fun a b : T × V => a.1 ≤ b.1) (fun a b : U × V => a.1 ≤ b.1)
    (fun p => (σ p.1, p.2)) l fun a _ b _ => hσ.le_iff_le.symm).symm

theorem zipIdx_map (l : List T) (n : Nat) : (l.map σ).zipIdx n = renameKeys σ (l.zipIdx n) := by
  induction l generalizing n with
  | nil => rfl
  | cons a l ih => simp only [List.map_cons, List.zipIdx_cons, ih]; rfl

end Verif
