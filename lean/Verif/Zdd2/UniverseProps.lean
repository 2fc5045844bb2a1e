import Verif.Zdd2.Laws

/-!
# Properties of the zdd2 universe and of the node constructor (C23, C24, C25, C57)
-/

set_option linter.unusedSimpArgs false
set_option linter.unusedVariables false
set_option linter.unusedSectionVars false

namespace Verif.Zdd2
open Verif Verif.Spec Verif.Zdd2.Spec

universe u
variable {T : Type u} [LinearOrder T]

open Universe

/-- The universes obtainable through the constructors, with arbitrary hash iteration orders, and
through deserialization of any map.  Not code: used to state or prove properties. -/
inductive Built : Universe T → Prop
  | default : Built Universe.default
  | items (l : List T) : Built (fromItems l)
  | matrix (m : List (List T)) : Built (fromMatrix m)
  | occurrences (m e1 e2 : List (T × Nat)) (hm : KeysLt m) (h1 : e1.Perm m) (h2 : e2.Perm m) :
      Built (fromOccurrencesIter e1 e2 m)
  | merge {u v : Universe T} (e : List (T × Nat)) (hu : Built u) (hv : Built v)
      (he : e.Perm v.occurrences) : Built (mergeIter e u v)

namespace Universe

theorem mergeIter_ok {u v : Universe T} (hu : u.Ok) (e : List (T × Nat)) : (mergeIter e u v).Ok := by
  unfold mergeIter
  split_ifs
  · exact hu
  · exact ok_from (addFold _ _ hu.1).1

theorem mergeIter_eq' {u v : Universe T} (hu : u.Ok) {e : List (T × Nat)}
    (he : e.Perm v.occurrences) : mergeIter e u v = merge u v := by
  unfold merge mergeIter
  split_ifs
  · rfl
  · congr 1
    obtain ⟨k1, l1⟩ := addFold e u.occurrences hu.1
    obtain ⟨k2, l2⟩ := addFold v.occurrences u.occurrences hu.1
    refine smap_ext k1 k2 fun x => ?_
    rw [l1, l2]
    have hm : x ∈ e.map Prod.fst ↔ x ∈ v.occurrences.map Prod.fst := (he.map _).mem_iff
    have hs : ((e.filter (fun p => p.1 = x)).map Prod.snd).sum =
        ((v.occurrences.filter (fun p => p.1 = x)).map Prod.snd).sum :=
      ((he.filter _).map _).sum_eq
    rw [hs]
    by_cases h : x ∈ e.map Prod.fst
    · rw [if_pos h, if_pos (hm.mp h)]
    · rw [if_neg h, if_neg (fun h' => h (hm.mpr h'))]

theorem fromIter_ok {m e1 e2 : List (T × Nat)} (hm : KeysLt m) (h1 : e1.Perm m) (h2 : e2.Perm m) :
    (fromOccurrencesIter e1 e2 m).Ok := by
  rw [fromOccurrencesIter_eq' h1 h2]; exact ok_from hm

end Universe

theorem Built.ok {u : Universe T} (h : Built u) : u.Ok := by
  induction h with
  | default => exact ok_default
  | items l => exact ok_fromItems l
  | matrix m => exact ok_fromMatrix m
  | occurrences m e1 e2 hm h1 h2 => exact Universe.fromIter_ok hm h1 h2
  | merge e hu hv he ihu ihv => exact mergeIter_ok ihu e

/-- Every universe inside a reachable forest is one of these. -/
theorem Reach.built {f : Forest T} (hf : Reach f) : Built f.univ := by
  obtain ⟨m, rfl⟩ := hf.canon
  exact Built.matrix m

/-! ## C23 -/

/-- C23: an item has priority `k` iff it is the item at `k`. -/
theorem priority_bijective {u : Universe T} (hu : Built u) (x : T) (k : Nat) :
    u.getPriority x = some k ↔ u.getItem k = some x := getPriority_iff hu.ok

example := priority_bijective (.matrix [[1, 3], [1]]) 3 1

/-- C23: exactly the counted items have a priority. -/
theorem priority_known {u : Universe T} (hu : Built u) (x : T) :
    (∃ k, u.getPriority x = some k) ↔ ∃ n, (x, n) ∈ u.occurrences := by
  rw [← Option.isSome_iff_exists, getPriority_isSome hu.ok, mem_index hu.ok]
  simp

example := priority_known (.matrix [[1, 3], [1]]) 3

/-- C23: the priorities are `0, 1, …` up to the number of counted items. -/
theorem priority_dense {u : Universe T} (hu : Built u) (k : Nat) :
    (∃ x, u.getItem k = some x) ↔ k < u.occurrences.length := by
  have : u.index.length = u.occurrences.length := by simpa using (index_perm hu.ok).length_eq
  rw [← this, ← Option.isSome_iff_exists]
  simp [getItem]

example := priority_dense (.matrix [[1, 3], [1]]) 1

/-- C23: smaller priority means higher count, then smaller item. -/
theorem priority_order {u : Universe T} (hu : Built u) {x y : T} {i j n m : Nat}
    (hx : u.getPriority x = some i) (hy : u.getPriority y = some j)
    (hn : (x, n) ∈ u.occurrences) (hm : (y, m) ∈ u.occurrences) :
    i < j ↔ m < n ∨ (n = m ∧ x < y) := by
  have h := priority_lt hu.ok ((priority_bijective hu x i).mp hx) ((priority_bijective hu y j).mp hy)
  rw [h]
  have e1 : u.count x = n := by
    simp [Universe.count, (lookup_eq_some hu.ok.1).mpr hn]
  have e2 : u.count y = m := by
    simp [Universe.count, (lookup_eq_some hu.ok.1).mpr hm]
  rw [e1, e2]

example := priority_order (.matrix [[1, 3], [1]]) (x := 1) (y := 3) (i := 0) (j := 1) (n := 2) (m := 1)
  (by decide) (by decide) (by decide) (by decide)

/-- C23: translating items to priorities and back sorts them and drops the unknown ones. -/
theorem priorities_roundtrip {u : Universe T} (hu : Built u) (xs : List T) :
    (u.getItems (u.getPriorities xs)).Pairwise (· ≤ ·) ∧
    (u.getItems (u.getPriorities xs)).Perm (xs.filter (fun x => (u.getPriority x).isSome)) := by
  refine ⟨pairwise_sorted _, (sorted_perm _).trans ?_⟩
  have : (u.getPriorities xs).filterMap u.getItem = xs.filter (fun x => (u.getPriority x).isSome) := by
    induction xs with
    | nil => rfl
    | cons x xs ih =>
      cases hx : u.getPriority x with
      | none =>
        have e : u.getPriorities (x :: xs) = u.getPriorities xs := by simp [getPriorities, hx]
        rw [e, ih]; simp [hx]
      | some k =>
        have e : u.getPriorities (x :: xs) = k :: u.getPriorities xs := by simp [getPriorities, hx]
        rw [e, List.filterMap_cons, (priority_bijective hu x k).mp hx, ih]
        simp [hx]
  rw [this]

example := priorities_roundtrip (.matrix [[1, 3], [1]]) [3, 1, 4, 3]

/-! ## C24 -/

/-- C24: `merge` of different universes adds the counts; of equal ones it is that universe; it knows
the items of both, and is commutative. -/
theorem merge_exact {u v : Universe T} (hu : Built u) (hv : Built v) :
    (∀ x, (∃ n, (x, n) ∈ (merge u v).occurrences) ↔
      (∃ n, (x, n) ∈ u.occurrences) ∨ (∃ n, (x, n) ∈ v.occurrences)) ∧
    (u ≠ v → ∀ x n, (x, n) ∈ (merge u v).occurrences →
      n = (lookup x u.occurrences).getD 0 + (lookup x v.occurrences).getD 0) ∧
    (u = v → merge u v = u) ∧ merge u v = merge v u := by
  have hm := ok_merge (v := v) hu.ok
  refine ⟨fun x => ?_, ?_, ?_, merge_comm hu.ok hv.ok⟩
  · have h := Forest.mem_index_merge hu.ok hv.ok x
    rw [mem_index hm, mem_index hu.ok, mem_index hv.ok] at h
    simpa using h
  · intro hne x n hn
    have := Forest.count_merge hu.ok hv.ok hne x
    rw [Universe.count, (lookup_eq_some hm.1).mpr hn] at this
    exact this
  · rintro rfl; simp [merge, mergeIter]

example := merge_exact (.items [1, 2]) (.matrix [[1, 3], [1]])

/-! ## C57 hash iteration order -/

/-- C57: a universe does not depend on the order in which its hash map is iterated. -/
theorem universe_deterministic {m e1 e2 e1' e2' : List (T × Nat)}
    (h1 : e1.Perm m) (h2 : e2.Perm m) (h1' : e1'.Perm m) (h2' : e2'.Perm m) :
    fromOccurrencesIter e1 e2 m = fromOccurrencesIter e1' e2' m := by
  rw [fromOccurrencesIter_eq' h1 h2, fromOccurrencesIter_eq' h1' h2']

example := universe_deterministic (m := [(1, 2), (3, 1)]) (e1 := [(3, 1), (1, 2)]) (e2 := [(1, 2), (3, 1)])
  (e1' := [(1, 2), (3, 1)]) (e2' := [(3, 1), (1, 2)]) (by decide) (by decide) (by decide) (by decide)

/-- C57: neither does a merge. -/
theorem merge_deterministic {u v : Universe T} (hu : Built u) {e e' : List (T × Nat)}
    (he : e.Perm v.occurrences) (he' : e'.Perm v.occurrences) : mergeIter e u v = mergeIter e' u v := by
  rw [mergeIter_eq' hu.ok he, mergeIter_eq' hu.ok he']

example := merge_deterministic (u := .fromItems [1, 2]) (v := .fromMatrix [[1, 3], [1]]) (.items _)
  (e := [(3, 1), (1, 2)]) (e' := [(1, 2), (3, 1)]) (by decide) (by decide)

/-- C57: nor the listing of occurrences. -/
theorem occurrences_deterministic {f : Forest T} (hf : Reach f) {e e' : List (T × Nat)}
    (he : e.Perm f.univ.occurrences) (he' : e'.Perm f.univ.occurrences) :
    f.occurrencesIter e = f.occurrencesIter e' := by
  have hk := hf.canon.ok.1
  simp only [Forest.occurrencesIter]
  rw [sortByKey_of_perm hk he, sortByKey_of_perm hk he']

example : Built (mergeIter [(3, 1), (1, 2)] (fromItems [1, 2]) (fromMatrix [[1, 3], [1]] : Universe ℕ)) :=
  .merge _ (.items _) (.matrix _) (by decide)

/-! ## C25 the node constructor -/

/-- C25: for every id and every two ordered diagrams the constructor (a total function) gives an
ordered, zero-suppressed diagram. -/
theorem branch_ordered (i : Nat) {l h : Node} (ol : l.Ordered) (oh : h.Ordered) :
    (Node.branch i l h).Ordered := (Node.branch_ok i l h ol oh).1

/-- C25: when the children only mention larger ids it stands for `low ∪ {id}·high`. -/
theorem branch_exact {i : Nat} {l h : Node} (ol : l.Ordered) (oh : h.Ordered)
    (hl : ∀ s ∈ l.Den, ∀ k ∈ s, i < k) (hh : ∀ s ∈ h.Den, ∀ k ∈ s, i < k) :
    (Node.branch i l h).Den = l.Den ∪ {s | ∃ t ∈ h.Den, s = insert i t} := by
  have ab : ∀ {n : Node}, n.Ordered → (∀ s ∈ n.Den, ∀ k ∈ s, i < k) → Node.Above i n := by
    intro n on hn
    cases n with
    | Never => trivial
    | Always => trivial
    | Branch j a b =>
      obtain ⟨t, ht⟩ := Node.exists_mem on.2.2.2.2 on.2.2.1
      exact hn (insert j t) (Or.inr ⟨t, ht, rfl⟩) j (Finset.mem_insert_self _ _)
  ext s
  rw [Node.mem_branch (ol := ol) (oh := oh) (ab ol hl) (ab oh hh)]
  simp only [Set.mem_union, Set.mem_ofPred_eq]
  constructor
  · rintro (⟨_, h1⟩ | ⟨h1, h2⟩)
    · exact Or.inl h1
    · exact Or.inr ⟨_, h2, (Finset.insert_erase h1).symm⟩
  · rintro (h1 | ⟨t, ht, rfl⟩)
    · exact Or.inl ⟨fun hi => lt_irrefl _ (hl s h1 i hi), h1⟩
    · refine Or.inr ⟨Finset.mem_insert_self _ _, ?_⟩
      rwa [Finset.erase_insert (fun hi => lt_irrefl _ (hh t ht i hi))]

example := branch_exact (i := 1) (l := .Branch 2 .Never .Always) (h := .Branch 3 .Always .Always)
  ⟨trivial, trivial, by simp, trivial, trivial⟩ ⟨trivial, trivial, by simp, trivial, trivial⟩
  (by simp [Node.Den]) (by simp [Node.Den])

/-- Without that condition it does not: this is the cause of the inexact translations. -/
theorem branch_not_exact : ∃ (i : Nat) (l h : Node), l.Ordered ∧ h.Ordered ∧
    (Node.branch i l h).Den ≠ l.Den ∪ {s | ∃ t ∈ h.Den, s = insert i t} := by
  refine ⟨1, .Never, .Branch 0 .Always .Always, trivial, ⟨trivial, trivial, by simp, trivial, trivial⟩, ?_⟩
  have : Node.branch 1 .Never (.Branch 0 .Always .Always) = .Branch 0 .Never (.Branch 1 .Always .Always) := by
    simp [Node.branch]
  rw [this]
  intro h
  have h1 : ({1} : Finset ℕ) ∈ Node.Den .Never ∪
      {s | ∃ t ∈ Node.Den (.Branch 0 .Always .Always), s = insert 1 t} :=
    Or.inr ⟨∅, Or.inl rfl, rfl⟩
  rw [← h] at h1
  rcases h1 with h1 | ⟨t, _, e⟩
  · exact h1
  · have : (0 : ℕ) ∈ ({1} : Finset ℕ) := by rw [e]; simp
    simp at this

example : (Node.branch 1 (.Branch 2 .Never .Always) (.Branch 3 .Always .Always)).Ordered :=
  branch_ordered 1 ⟨trivial, trivial, by simp, trivial, trivial⟩ ⟨trivial, trivial, by simp, trivial, trivial⟩

end Verif.Zdd2
