import Verif.Rename
import Verif.Zdd2.Serialize

/-!
# Other item names in the same order: the same zdd2 diagram (C129)
-/

set_option linter.unusedSimpArgs false
set_option linter.unusedVariables false
set_option linter.unusedSectionVars false

namespace Verif.Matrix.Prog
universe u v
variable {T : Type u} {U : Type v}

/-- The program with other items.  Not code: specification. -/
def rename (σ : T → U) : Matrix.Prog T → Matrix.Prog U
  | .empty => .empty
  | .unit s => .unit (s.map σ)
  | .many m => .many (m.map (List.map σ))
  | .unique s => .unique (s.map σ)
  | .union a b => .union (rename σ a) (rename σ b)
  | .intersect a b => .intersect (rename σ a) (rename σ b)
  | .product a b => .product (rename σ a) (rename σ b)
  | .subset a x => .subset (rename σ a) (σ x)
  | .subsetNot a x => .subsetNot (rename σ a) (σ x)
  | .subsetAll a xs => .subsetAll (rename σ a) (xs.map σ)
  | .subsetNone a xs => .subsetNone (rename σ a) (xs.map σ)

end Verif.Matrix.Prog

namespace Verif.Zdd2
open Verif

universe u v
variable {T : Type u} {U : Type v} [LinearOrder T] [LinearOrder U] {σ : T → U}

namespace Universe

/-- The universe with other items.  Not code: specification. -/
def rename (σ : T → U) (u : Universe T) : Universe U :=
  ⟨renameKeys σ u.occurrences, renameKeys σ u.priority, u.index.map σ⟩

theorem rename_inj (hσ : σ.Injective) : (rename σ).Injective := by
  intro a b h
  obtain ⟨a1, a2, a3⟩ := a
  obtain ⟨b1, b2, b3⟩ := b
  simp only [rename, Universe.mk.injEq] at h ⊢
  exact ⟨renameKeys_inj hσ h.1, renameKeys_inj hσ h.2.1, List.map_injective_iff.mpr hσ h.2.2⟩

theorem sort_map (hσ : StrictMono σ) (l : List (T × Nat)) :
    (renameKeys σ l).insertionSort ordLe = renameKeys σ (l.insertionSort ordLe) := by
  unfold renameKeys
  refine (List.map_insertionSort ordLe ordLe (fun p : T × Nat => (σ p.1, p.2)) l fun a _ b _ => ?_).symm
  unfold ordLe
  rw [hσ.le_iff_le]

theorem fst_map {V : Type*} (l : List (T × V)) : (renameKeys σ l).map Prod.fst = (l.map Prod.fst).map σ := by
  simp only [renameKeys, List.map_map]; rfl

theorem fromOccurrences_rename (hσ : StrictMono σ) (m : List (T × Nat)) :
    fromOccurrences (renameKeys σ m) = (fromOccurrences m).rename σ := by
  simp only [fromOccurrences, fromOccurrencesIter, rename, sort_map hσ, fst_map, zipIdx_map, Universe.mk.injEq,
    true_and, and_true]
  exact insertAll_map hσ _ []

theorem default_rename : (default : Universe T).rename σ = default := rfl

theorem fromItems_rename (hσ : StrictMono σ) (l : List T) : fromItems (l.map σ) = (fromItems l).rename σ := by
  rw [fromItems, fromItems, ← fromOccurrences_rename hσ]
  congr 1
  have : ∀ m, (l.map σ).foldl (fun m i => insertKV i 1 m) (renameKeys σ m) =
      renameKeys σ (l.foldl (fun m i => insertKV i 1 m) m) := by
    induction l with
    | nil => intro m; rfl
    | cons a l ih => intro m; simp only [List.map_cons, List.foldl_cons, insertKV_map hσ, ih]
  exact this []

theorem fromMatrix_rename (hσ : StrictMono σ) (m : List (List T)) :
    fromMatrix (m.map (List.map σ)) = (fromMatrix m).rename σ := by
  rw [fromMatrix, fromMatrix, ← fromOccurrences_rename hσ, ← countMap_map hσ, List.map_flatten,
    ← uniq_map (List.map_injective_iff.mpr hσ.injective), List.map_map, List.map_map]
  congr 4
  exact List.map_congr_left fun l _ => filterRepeats_map hσ l

theorem merge_rename (hσ : StrictMono σ) (a b : Universe T) :
    merge (a.rename σ) (b.rename σ) = (merge a b).rename σ := by
  simp only [merge, mergeIter, (rename_inj hσ.injective).eq_iff]
  split_ifs
  · rfl
  · rw [← fromOccurrences_rename hσ, ← addAll_map hσ]; rfl

theorem getPriority_rename (hσ : σ.Injective) (u : Universe T) (x : T) :
    (u.rename σ).getPriority (σ x) = u.getPriority x := lookup_map hσ _ _

theorem filterMap_rename (hσ : σ.Injective) (u : Universe T) (l : List T) :
    (l.map σ).filterMap (u.rename σ).getPriority = l.filterMap u.getPriority := by
  rw [List.filterMap_map]
  exact List.filterMap_congr fun x _ => getPriority_rename hσ u x

theorem getPriorities_rename (hσ : σ.Injective) (u : Universe T) (l : List T) :
    (u.rename σ).getPriorities (l.map σ) = u.getPriorities l := filterMap_rename hσ u l

theorem getPrioritiesNode_rename (hσ : σ.Injective) (u : Universe T) (l : List T) :
    (u.rename σ).getPrioritiesNode (l.map σ) = u.getPrioritiesNode l := by
  rw [getPrioritiesNode, getPrioritiesNode, filterMap_rename hσ, List.length_map]

theorem getItem_rename (u : Universe T) (i : Nat) : (u.rename σ).getItem i = (u.getItem i).map σ := by
  simp only [getItem, rename, List.getElem?_map]

theorem getItems_rename (hσ : StrictMono σ) (u : Universe T) (ids : List Nat) :
    (u.rename σ).getItems ids = (u.getItems ids).map σ := by
  rw [getItems, getItems, ← sorted_map hσ, List.map_filterMap]
  congr 1
  exact List.filterMap_congr fun i _ => getItem_rename u i

end Universe

namespace Forest
open Universe

/-- The forest with other items and the same diagram.  Not code: specification. -/
def rename (σ : T → U) (f : Forest T) : Forest U := ⟨f.root, f.univ.rename σ⟩

theorem rename_inj (hσ : σ.Injective) : (rename σ).Injective := by
  intro a b h
  simp only [rename, Forest.mk.injEq] at h
  obtain ⟨a1, a2⟩ := a
  obtain ⟨b1, b2⟩ := b
  simp only [Forest.mk.injEq]
  exact ⟨h.1, Universe.rename_inj hσ h.2⟩

theorem unit_rename (hσ : StrictMono σ) (s : List T) : unit (s.map σ) = (unit s).rename σ := by
  simp only [unit, rename, fromItems_rename hσ, getPrioritiesNode_rename hσ.injective]

theorem many_rename (hσ : StrictMono σ) (m : List (List T)) :
    many (m.map (List.map σ)) = (many m).rename σ := by
  simp only [many, rename, fromMatrix_rename hσ, List.map_map, Forest.mk.injEq, and_true]
  congr 2
  funext l
  exact getPrioritiesNode_rename hσ.injective _ _

theorem unique_rename (hσ : StrictMono σ) (s : List T) : unique (s.map σ) = (unique s).rename σ := by
  simp only [unique, rename, fromItems_rename hσ, getPriorities_rename hσ.injective]

theorem trees_rename (hσ : StrictMono σ) (f : Forest T) : (f.rename σ).trees = f.trees.map (List.map σ) := by
  simp only [trees, rename, List.map_map]
  exact List.map_congr_left fun s _ => getItems_rename hσ _ _

theorem canonical_rename (hσ : StrictMono σ) (n : Node) (u : Universe T) :
    canonical n (u.rename σ) = (canonical n u).rename σ := by
  rw [canonical, canonical, ← many_rename hσ, List.map_map]
  congr 1
  exact List.map_congr_left fun s _ => getItems_rename hσ _ _

theorem translateRoot_rename (hσ : σ.Injective) (a b : Universe T) (n : Node) :
    translateRoot (a.rename σ) (b.rename σ) n = translateRoot a b n := by
  induction n with
  | Branch id l h ihl ihh =>
    simp only [translateRoot, ihl, ihh, getItem_rename]
    cases translateRoot a b l <;> cases translateRoot a b h <;> cases a.getItem id <;>
      simp only [Option.map_none, Option.map_some, getPriority_rename hσ]
  | Always => rfl
  | Never => rfl

theorem translateRoots_rename (hσ : StrictMono σ) (f g : Forest T) :
    translateRoots (f.rename σ) (g.rename σ) = (translateRoots f g).map (fun r => (r.1.rename σ, r.2)) := by
  simp only [translateRoots, rename, merge_rename hσ, translateRoot_rename hσ.injective]
  cases translateRoot f.univ (f.univ.merge g.univ) f.root <;>
    cases translateRoot g.univ (f.univ.merge g.univ) g.root <;> rfl

theorem union_rename (hσ : StrictMono σ) (f g : Forest T) :
    (f.rename σ).union (g.rename σ) = (f.union g).map (rename σ) := by
  simp only [union, translateRoots_rename hσ, Option.map_map]
  congr 1
  funext r
  exact canonical_rename hσ _ _

theorem intersect_rename (hσ : StrictMono σ) (f g : Forest T) :
    (f.rename σ).intersect (g.rename σ) = (f.intersect g).map (rename σ) := by
  simp only [intersect, translateRoots_rename hσ, Option.map_map]
  congr 1
  funext r
  exact canonical_rename hσ _ _

theorem product_rename (hσ : StrictMono σ) (f g : Forest T) :
    (f.rename σ).product (g.rename σ) = (f.product g).map (rename σ) := by
  simp only [product, translateRoots_rename hσ, Option.map_map]
  congr 1
  funext r
  exact canonical_rename hσ _ _

theorem subset_rename (hσ : StrictMono σ) (f : Forest T) (x : T) :
    (f.rename σ).subset (σ x) = (f.subset x).rename σ := by
  simp only [subset]
  rw [show (f.rename σ).univ = f.univ.rename σ from rfl, getPriority_rename hσ.injective]
  cases f.univ.getPriority x with
  | none => rfl
  | some e => exact canonical_rename hσ _ _

theorem subsetNot_rename (hσ : StrictMono σ) (f : Forest T) (x : T) :
    (f.rename σ).subsetNot (σ x) = (f.subsetNot x).rename σ := by
  simp only [subsetNot]
  rw [show (f.rename σ).univ = f.univ.rename σ from rfl, getPriority_rename hσ.injective]
  cases f.univ.getPriority x with
  | none => rfl
  | some e => exact canonical_rename hσ _ _

theorem subsetMany_rename (hσ : StrictMono σ) (f : Forest T) (xs : List T) (d : Forest T → Forest T)
    (d' : Forest U → Forest U) (hd : d' (f.rename σ) = (d f).rename σ) (func : Node → List Nat → Node) :
    (f.rename σ).subsetMany (xs.map σ) d' func = (f.subsetMany xs d func).rename σ := by
  simp only [subsetMany, List.isEmpty_map, List.length_map]
  rw [show (f.rename σ).univ = f.univ.rename σ from rfl, getPriorities_rename hσ.injective]
  split_ifs
  · rfl
  · exact hd
  · exact canonical_rename hσ _ _

end Forest

open Forest

/-- C129: a program with other items in the same order panics alike and builds the same diagram, over the renamed items. -/
theorem run_renamed (hσ : StrictMono σ) (p : Prog T) : run (p.rename σ) = (run p).map (Forest.rename σ) := by
  induction p with
  | empty => rfl
  | unit s => simp only [Matrix.Prog.rename, run, unit_rename hσ]; rfl
  | many m => simp only [Matrix.Prog.rename, run, many_rename hσ]; rfl
  | unique s => simp only [Matrix.Prog.rename, run, unique_rename hσ]; rfl
  | union a b iha ihb =>
    simp only [Matrix.Prog.rename, run, iha, ihb]
    cases run a <;> cases run b <;> simp [union_rename hσ]
  | intersect a b iha ihb =>
    simp only [Matrix.Prog.rename, run, iha, ihb]
    cases run a <;> cases run b <;> simp [intersect_rename hσ]
  | product a b iha ihb =>
    simp only [Matrix.Prog.rename, run, iha, ihb]
    cases run a <;> cases run b <;> simp [product_rename hσ]
  | subset a x iha =>
    simp only [Matrix.Prog.rename, run, iha]
    cases run a <;> simp [subset_rename hσ]
  | subsetNot a x iha =>
    simp only [Matrix.Prog.rename, run, iha]
    cases run a <;> simp [subsetNot_rename hσ]
  | subsetAll a xs iha =>
    simp only [Matrix.Prog.rename, run, iha]
    cases run a <;> simp [subsetAll, subsetMany_rename hσ _ _ (fun _ => Forest.empty) (fun _ => Forest.empty) rfl]
  | subsetNone a xs iha =>
    simp only [Matrix.Prog.rename, run, iha]
    cases run a <;> simp [subsetNone, subsetMany_rename hσ _ _ (fun f => f) (fun f => f) rfl]

/-- C129: the trees are the same under the new names, in the same order, and as many; whether the forest is empty and
how often each item occurs is the same. -/
theorem views_renamed (hσ : StrictMono σ) {p : Prog T} {f : Forest T} {g : Forest U} (hf : run p = some f)
    (hg : run (p.rename σ) = some g) : g.trees = f.trees.map (List.map σ) ∧ g.len = f.len ∧ g.isEmpty = f.isEmpty ∧
    g.occurrences = f.occurrences.map (fun e => (σ e.1, e.2)) := by
  rw [run_renamed hσ, hf] at hg
  cases hg
  exact ⟨trees_rename hσ f, rfl, rfl, sortByKey_map hσ _⟩

/-- C129: a program panics exactly if it does with the other items. -/
theorem panic_renamed (hσ : StrictMono σ) (p : Prog T) : run (p.rename σ) = none ↔ run p = none := by
  rw [run_renamed hσ, Option.map_eq_none_iff]

/-- C129: two programs build equal forests exactly if they do with the other items. -/
theorem equal_renamed (hσ : StrictMono σ) (p q : Prog T) : run (p.rename σ) = run (q.rename σ) ↔ run p = run q := by
  rw [run_renamed hσ, run_renamed hσ, (Option.map_injective (Forest.rename_inj hσ.injective)).eq_iff]

/-- C129: the serialized diagram is the same text, and the serialized item counts are the same under the new names. -/
theorem document_renamed (hσ : StrictMono σ) {p : Prog T} {f : Forest T} {g : Forest U} (hf : run p = some f)
    (hg : run (p.rename σ) = some g) (e : List (T × Nat)) (e' : List (U × Nat)) (he : e.Perm f.univ.occurrences)
    (he' : e'.Perm g.univ.occurrences) : (serializeForest e' g).root = (serializeForest e f).root ∧
      (serializeForest e' g).univ = (serializeForest e f).univ.map (fun x => (σ x.1, x.2)) := by
  have cf : f.Canon := Reach.canon ⟨p, hf⟩
  have cg : g.Canon := Reach.canon ⟨_, hg⟩
  have hk := hg
  rw [run_renamed hσ, hf] at hk
  cases hk
  refine ⟨rfl, ?_⟩
  change serializeUniverse e' = renameKeys σ (serializeUniverse e)
  rw [serializeUniverse, serializeUniverse, insertFold_lookup_perm cg.ok.1 he', insertFold_lookup_perm cf.ok.1 he]
  rfl

/-- `{{1}} ∪ {{2},{1,2}}` is computed as `{{1,2},{1}}`: `{2}` is lost. -/
theorem lost_witness : (Forest.many [[1]]).union (Forest.many [[2], [1, 2]]) =
    some (Forest.many [[1, 2], [1]] : Forest ℕ) := by
  have u1 : Universe.fromMatrix [[1]] = (⟨[(1, 1)], [(1, 0)], [1]⟩ : Universe ℕ) := by decide
  have u2 : Universe.fromMatrix [[2], [1, 2]] =
    (⟨[(1, 1), (2, 2)], [(1, 1), (2, 0)], [2, 1]⟩ : Universe ℕ) := by decide
  have m1 : Forest.many [[1]] = (⟨.Branch 0 .Never .Always, ⟨[(1, 1)], [(1, 0)], [1]⟩⟩ : Forest ℕ) := by
    simp [many, u1, Universe.getPrioritiesNode, Universe.getPriority, Node.fromIter, lookup, Node.branch, Node.union]
  have m2 : Forest.many [[2], [1, 2]] = (⟨.Branch 0 .Never (.Branch 1 .Always .Always),
      ⟨[(1, 1), (2, 2)], [(1, 1), (2, 0)], [2, 1]⟩⟩ : Forest ℕ) := by
    simp [many, u2, Universe.getPrioritiesNode, Universe.getPriority, Node.fromIter, lookup, Node.branch, Node.union]
  have mm : Universe.merge (⟨[(1, 1)], [(1, 0)], [1]⟩ : Universe ℕ) ⟨[(1, 1), (2, 2)], [(1, 1), (2, 0)], [2, 1]⟩ =
      ⟨[(1, 2), (2, 2)], [(1, 0), (2, 1)], [1, 2]⟩ := by decide
  have s1 : sorted [1, 2] = ([1, 2] : List ℕ) := by decide
  have s2 : sorted [1] = ([1] : List ℕ) := by decide
  rw [m1, m2]
  simp [Forest.union, translateRoots, mm, translateRoot, Universe.getItem, Universe.getPriority, lookup, Node.branch,
    Node.union, canonical, Node.trees, Node.treesLoop, Universe.getItems, s1, s2]

/-- With the names of the two items exchanged nothing is lost. -/
theorem kept_witness : (Forest.many [[2]]).union (Forest.many [[1], [2, 1]]) =
    some (Forest.many [[1, 2], [1], [2]] : Forest ℕ) := by
  have u1 : Universe.fromMatrix [[2]] = (⟨[(2, 1)], [(2, 0)], [2]⟩ : Universe ℕ) := by decide
  have u2 : Universe.fromMatrix [[1], [2, 1]] =
    (⟨[(1, 2), (2, 1)], [(1, 0), (2, 1)], [1, 2]⟩ : Universe ℕ) := by decide
  have m1 : Forest.many [[2]] = (⟨.Branch 0 .Never .Always, ⟨[(2, 1)], [(2, 0)], [2]⟩⟩ : Forest ℕ) := by
    simp [many, u1, Universe.getPrioritiesNode, Universe.getPriority, Node.fromIter, lookup, Node.branch, Node.union]
  have m2 : Forest.many [[1], [2, 1]] = (⟨.Branch 0 .Never (.Branch 1 .Always .Always),
      ⟨[(1, 2), (2, 1)], [(1, 0), (2, 1)], [1, 2]⟩⟩ : Forest ℕ) := by
    simp [many, u2, Universe.getPrioritiesNode, Universe.getPriority, Node.fromIter, lookup, Node.branch, Node.union]
  have mm : Universe.merge (⟨[(2, 1)], [(2, 0)], [2]⟩ : Universe ℕ) ⟨[(1, 2), (2, 1)], [(1, 0), (2, 1)], [1, 2]⟩ =
      ⟨[(1, 2), (2, 2)], [(1, 0), (2, 1)], [1, 2]⟩ := by decide
  have s1 : sorted [1, 2] = ([1, 2] : List ℕ) := by decide
  have s2 : sorted [1] = ([1] : List ℕ) := by decide
  have s3 : sorted [2] = ([2] : List ℕ) := by decide
  rw [m1, m2]
  simp [Forest.union, translateRoots, mm, translateRoot, Universe.getItem, Universe.getPriority, lookup, Node.branch,
    Node.union, canonical, Node.trees, Node.treesLoop, Universe.getItems, s1, s2, s3]

/-- C129: only with names in another order can the members be others: exchanging the names of two items changes how many
members `{{1}} ∪ {{2},{1,2}}` has. -/
theorem order_decides : ∃ (σ : ℕ → ℕ) (p : Prog ℕ) (f g : Forest ℕ), σ.Injective ∧ run p = some f ∧
    run (p.rename σ) = some g ∧ f.len = 2 ∧ g.len = 3 := by
  have hp : Matrix.Prog.rename (Equiv.swap 1 2 : ℕ → ℕ) (.union (.many [[1]]) (.many [[2], [1, 2]])) =
      .union (.many [[2]]) (.many [[1], [2, 1]]) := by
    simp [Matrix.Prog.rename]
  refine ⟨Equiv.swap 1 2, .union (.many [[1]]) (.many [[2], [1, 2]]), Forest.many [[1, 2], [1]],
    Forest.many [[1, 2], [1], [2]], (Equiv.swap 1 2).injective, lost_witness, ?_, ?_, ?_⟩
  · rw [hp]; exact kept_witness
  · have u : Universe.fromMatrix [[1, 2], [1]] =
      (⟨[(1, 2), (2, 1)], [(1, 0), (2, 1)], [1, 2]⟩ : Universe ℕ) := by decide
    simp [len, many, u, Universe.getPrioritiesNode, Universe.getPriority, Node.fromIter, lookup, Node.branch, Node.union,
      Node.trees, Node.treesLoop]
  · have u : Universe.fromMatrix [[1, 2], [1], [2]] =
      (⟨[(1, 2), (2, 2)], [(1, 0), (2, 1)], [1, 2]⟩ : Universe ℕ) := by decide
    simp [len, many, u, Universe.getPrioritiesNode, Universe.getPriority, Node.fromIter, lookup, Node.branch, Node.union,
      Node.trees, Node.treesLoop]

/-- Not vacuous: numbers renamed to larger numbers; a program with a union and a selection. -/
example := run_renamed (σ := fun i : ℕ => 2 * i + 1) (fun a b h => by dsimp only; omega)
  (.subset (.union (.many [[1, 2], [3]]) (.unit [2])) 2)

example := panic_renamed (σ := fun i : ℕ => 2 * i + 1) (fun a b h => by dsimp only; omega)
  (.subset (.union (.many [[1, 2], [3]]) (.unit [2])) 2)

example := equal_renamed (σ := fun i : ℕ => 2 * i + 1) (fun a b h => by dsimp only; omega)
  (.many [[1, 2], [3]]) (.many [[3], [2, 1]])

example : ∃ f g, run (.union (.many [[1]]) (.many [[2], [1, 2]]) : Prog ℕ) = some f ∧
    run (Matrix.Prog.rename (fun i => 2 * i + 1) (.union (.many [[1]]) (.many [[2], [1, 2]]))) = some g ∧
    g.trees = f.trees.map (List.map (fun i => 2 * i + 1)) ∧
    (serializeForest g.univ.occurrences g).root = (serializeForest f.univ.occurrences f).root := by
  have hσ : StrictMono (fun i : ℕ => 2 * i + 1) := fun a b h => by dsimp only; omega
  have hf : run (.union (.many [[1]]) (.many [[2], [1, 2]]) : Prog ℕ) = some (Forest.many [[1, 2], [1]]) := lost_witness
  have hg := run_renamed hσ (.union (.many [[1]]) (.many [[2], [1, 2]]))
  rw [hf] at hg
  exact ⟨_, _, hf, hg, (views_renamed hσ hf hg).1, (document_renamed hσ hf hg _ _ (.refl _) (.refl _)).1⟩

end Verif.Zdd2
