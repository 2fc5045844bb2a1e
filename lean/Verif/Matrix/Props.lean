import Verif.Matrix.Lemmas

/-!
# Properties of the matrix forest (C01–C08, C49)

Forests are observed through `trees` (the code's `Into<Vec<Vec<T>>>`), read as a family of finite
sets by `Spec.family`.  `h`, `h'`, … are arbitrary hash-set enumeration orders.
-/

set_option linter.unusedSimpArgs false

namespace Verif.Matrix
open Verif Verif.Spec

universe u
variable {T : Type u} [LinearOrder T]

/-- Programs over the public API of the matrix forest.  Not code: used to state or prove properties. -/
inductive Prog (T : Type u) where
  | empty
  | unit (s : List T)
  | many (m : List (List T))
  | unique (s : List T)
  | union (a b : Prog T)
  | intersect (a b : Prog T)
  | product (a b : Prog T)
  | subset (a : Prog T) (x : T)
  | subsetNot (a : Prog T) (x : T)
  | subsetAll (a : Prog T) (xs : List T)
  | subsetNone (a : Prog T) (xs : List T)

/-- `Runs p f`: `f` is a possible result of running `p`, each operation enumerating its hash sets in
an arbitrary order of its own (hash seeds, capacities and rayon splits may all differ).
Not code: used to state or prove properties. -/
inductive Runs : Prog T → Forest T → Prop where
  | empty : Runs .empty Forest.empty
  | unit (s : List T) : Runs (.unit s) (Forest.unit s)
  | many (m : List (List T)) : Runs (.many m) (Forest.many m)
  | unique (s : List T) : Runs (.unique s) (Forest.unique s)
  | union {a b f g} (h : HashOrder (List T)) : Runs a f → Runs b g →
      Runs (.union a b) (Forest.union h f g)
  | intersect {a b f g} (h : HashOrder (List T)) : Runs a f → Runs b g →
      Runs (.intersect a b) (Forest.intersect h f g)
  | product {a b f g} (h1 h2 : HashOrder (List T)) : Runs a f → Runs b g →
      Runs (.product a b) (Forest.product h1 h2 f g)
  | subset {a f} (h : HashOrder (List T)) (x : T) : Runs a f →
      Runs (.subset a x) (Forest.subset h f x)
  | subsetNot {a f} (h : HashOrder (List T)) (x : T) : Runs a f →
      Runs (.subsetNot a x) (Forest.subsetNot h f x)
  | subsetAll {a f} (h : HashOrder (List T)) (xs : List T) : Runs a f →
      Runs (.subsetAll a xs) (Forest.subsetAll h f xs)
  | subsetNone {a f} (h : HashOrder (List T)) (xs : List T) : Runs a f →
      Runs (.subsetNone a xs) (Forest.subsetNone h f xs)

/-- What a program should mean: a family of sets, written with the specification only.
Not code: used to state or prove properties. -/
def Prog.meaning : Prog T → Set (Finset T)
  | .empty => ∅
  | .unit s => {s.toFinset}
  | .many m => family m
  | .unique s => {t | ∃ x ∈ s, t = {x}}
  | .union a b => a.meaning ∪ b.meaning
  | .intersect a b => a.meaning ∩ b.meaning
  | .product a b => prod a.meaning b.meaning
  | .subset a x => having a.meaning x
  | .subsetNot a x => without a.meaning x
  | .subsetAll a xs => havingAll a.meaning xs
  | .subsetNone a xs => havingNone a.meaning xs

/-- A forest obtainable through the public API.  Not code: used to state or prove properties. -/
def Reach (f : Forest T) : Prop := ∃ p, Runs p f

theorem Runs.wf {p : Prog T} {f : Forest T} (h : Runs p f) : f.WF := by
  induction h with
  | empty => exact Forest.wf_empty
  | unit s => exact Forest.wf_unit s
  | many m => exact Forest.wf_many m
  | unique s => exact Forest.wf_many _
  | union h _ _ ha hb => exact Forest.wf_union h ha hb
  | intersect h _ _ ha hb => exact Forest.wf_intersect h ha hb
  | product h1 h2 _ _ _ _ => exact Forest.wf_product h1 h2 _ _
  | subset h x _ ha => exact Forest.wf_subset h ha x
  | subsetNot h x _ ha => exact Forest.wf_subsetNot h ha x
  | subsetAll h x _ ha => exact Forest.wf_subsetAll h ha x
  | subsetNone h x _ ha => exact Forest.wf_subsetNone h ha x

theorem Reach.wf {f : Forest T} : Reach f → f.WF := fun ⟨_, h⟩ => h.wf

/-! ## C01 construction -/

/-- C01: `many` holds exactly the sets of its input vectors. -/
theorem many_family (h : HashOrder (List T)) (m : List (List T)) :
    family ((Forest.many m).trees h) = family m := by
  ext s
  rw [Forest.mem_family]
  simp only [Forest.stored_many]
  constructor
  · rintro ⟨l, ⟨x, hx, rfl⟩, rfl⟩; exact ⟨x, hx, by simp⟩
  · rintro ⟨x, hx, rfl⟩; exact ⟨_, ⟨x, hx, rfl⟩, by simp⟩

/-- C01: `unit`. -/
theorem unit_family (h : HashOrder (List T)) (s : List T) :
    family ((Forest.unit s).trees h) = {s.toFinset} := by
  ext t
  rw [Forest.mem_family]
  simp [Forest.stored_unit, eq_comm]

/-- C01: `unique`. -/
theorem unique_family (h : HashOrder (List T)) (s : List T) :
    family ((Forest.unique s).trees h) = {t | ∃ x ∈ s, t = {x}} := by
  rw [Forest.unique, many_family]
  ext t
  simp [family, eq_comm]

/-- C01: `empty`. -/
theorem empty_family (h : HashOrder (List T)) :
    family ((Forest.empty : Forest T).trees h) = ∅ := by
  ext t
  rw [Forest.mem_family]; simp [Forest.empty]

example : family ((Forest.many [[2, 1, 2], [1, 2], []]).trees (HashOrder.anyOrder (List ℕ)))
    = {{1, 2}, ∅} := by
  rw [many_family]; ext s
  simp only [family, List.mem_cons, List.not_mem_nil, or_false, exists_eq_or_imp,
    exists_eq_left, Set.mem_ofPred_eq, Set.mem_insert_iff, Set.mem_singleton_iff]
  constructor
  · rintro (rfl | rfl | rfl) <;> decide
  · rintro (rfl | rfl) <;> decide

/-! ## C02–C05 operations -/

/-- C02: union is set union. -/
theorem union_family (h h' : HashOrder (List T)) {f g : Forest T} (hf : Reach f) (hg : Reach g) :
    family ((Forest.union h f g).trees h') = family (f.trees h') ∪ family (g.trees h') := by
  ext s
  rw [Set.mem_union, Forest.mem_family, Forest.mem_family, Forest.mem_family]
  simp only [Forest.stored_union h hf.wf hg.wf, or_and_right, exists_or]

/-- The hypotheses are met. -/
example (h h' : HashOrder (List ℕ)) :=
  union_family h h' (f := Forest.many [[1, 2], [2, 3]]) (g := Forest.unique [2, 7]) ⟨_, .many _⟩ ⟨_, .unique _⟩

/-- C03: intersect is set intersection. -/
theorem intersect_family (h h' : HashOrder (List T)) {f g : Forest T} (hf : Reach f)
    (hg : Reach g) :
    family ((Forest.intersect h f g).trees h') = family (f.trees h') ∩ family (g.trees h') := by
  ext s
  rw [Set.mem_inter_iff, Forest.mem_family, Forest.mem_family, Forest.mem_family]
  simp only [Forest.stored_intersect h hf.wf]
  constructor
  · rintro ⟨l, ⟨h1, h2⟩, rfl⟩; exact ⟨⟨l, h1, rfl⟩, ⟨l, h2, rfl⟩⟩
  · rintro ⟨⟨l, h1, rfl⟩, ⟨l', h2, e⟩⟩
    have := toFinset_inj_of_lt (hg.wf.lt _ h2) (hf.wf.lt _ h1) e
    subst this
    exact ⟨l', ⟨h1, h2⟩, rfl⟩

/-- The hypotheses are met. -/
example (h h' : HashOrder (List ℕ)) :=
  intersect_family h h' (f := Forest.many [[1, 2], [2, 3]]) (g := Forest.unit [2, 1]) ⟨_, .many _⟩ ⟨_, .unit _⟩

/-- C04: product is the family of pairwise unions. -/
theorem product_family (h1 h2 h' : HashOrder (List T)) {f g : Forest T} (_hf : Reach f)
    (_hg : Reach g) :
    family ((Forest.product h1 h2 f g).trees h') =
      prod (family (f.trees h')) (family (g.trees h')) := by
  ext s
  simp only [prod, Set.mem_ofPred_eq, Forest.mem_family, Forest.stored_product]
  constructor
  · rintro ⟨l, ⟨a, b, ha, hb, rfl⟩, rfl⟩
    exact ⟨_, ⟨a, ha, rfl⟩, _, ⟨b, hb, rfl⟩, by simp⟩
  · rintro ⟨_, ⟨a, ha, rfl⟩, _, ⟨b, hb, rfl⟩, rfl⟩
    exact ⟨_, ⟨a, b, ha, hb, rfl⟩, by simp⟩

/-- The hypotheses are met. -/
example (h h' : HashOrder (List ℕ)) :=
  product_family h h h' (f := Forest.many [[1, 2], [2, 3]]) (g := Forest.unit [2, 7]) ⟨_, .many _⟩ ⟨_, .unit _⟩

/-- C05: subset keeps exactly the members containing `x`. -/
theorem subset_family (h h' : HashOrder (List T)) {f : Forest T} (hf : Reach f) (x : T) :
    family ((Forest.subset h f x).trees h') = having (family (f.trees h')) x := by
  ext s
  simp only [having, Set.mem_ofPred_eq, Forest.mem_family, Forest.stored_subset h hf.wf]
  constructor
  · rintro ⟨l, ⟨h1, h2⟩, rfl⟩; exact ⟨⟨l, h1, rfl⟩, by simpa using h2⟩
  · rintro ⟨⟨l, h1, rfl⟩, h2⟩; exact ⟨l, ⟨h1, by simpa using h2⟩, rfl⟩

/-- C05: subset_not keeps exactly the members not containing `x`. -/
theorem subsetNot_family (h h' : HashOrder (List T)) {f : Forest T} (hf : Reach f) (x : T) :
    family ((Forest.subsetNot h f x).trees h') = without (family (f.trees h')) x := by
  ext s
  simp only [without, Set.mem_ofPred_eq, Forest.mem_family, Forest.stored_subsetNot h hf.wf]
  constructor
  · rintro ⟨l, ⟨h1, h2⟩, rfl⟩; exact ⟨⟨l, h1, rfl⟩, by simpa using h2⟩
  · rintro ⟨⟨l, h1, rfl⟩, h2⟩; exact ⟨l, ⟨h1, by simpa using h2⟩, rfl⟩

/-- C05: subset_all keeps exactly the members containing all of `xs`. -/
theorem subsetAll_family (h h' : HashOrder (List T)) {f : Forest T} (hf : Reach f) (xs : List T) :
    family ((Forest.subsetAll h f xs).trees h') = havingAll (family (f.trees h')) xs := by
  ext s
  simp only [havingAll, Set.mem_ofPred_eq, Forest.mem_family, Forest.stored_subsetAll h hf.wf]
  constructor
  · rintro ⟨l, ⟨h1, h2⟩, rfl⟩; exact ⟨⟨l, h1, rfl⟩, by simpa using h2⟩
  · rintro ⟨⟨l, h1, rfl⟩, h2⟩; exact ⟨l, ⟨h1, by simpa using h2⟩, rfl⟩

/-- C05: subset_none keeps exactly the members containing none of `xs`. -/
theorem subsetNone_family (h h' : HashOrder (List T)) {f : Forest T} (hf : Reach f) (xs : List T) :
    family ((Forest.subsetNone h f xs).trees h') = havingNone (family (f.trees h')) xs := by
  ext s
  simp only [havingNone, Set.mem_ofPred_eq, Forest.mem_family, Forest.stored_subsetNone h hf.wf]
  constructor
  · rintro ⟨l, ⟨h1, h2⟩, rfl⟩; exact ⟨⟨l, h1, rfl⟩, by simpa using h2⟩
  · rintro ⟨⟨l, h1, rfl⟩, h2⟩; exact ⟨l, ⟨h1, by simpa using h2⟩, rfl⟩

/-- The hypothesis is met. -/
example (h h' : HashOrder (List ℕ)) :=
  subsetNone_family h h' (f := Forest.many [[1, 2], [2, 3], [4]]) ⟨_, .many _⟩ [1, 3]

/-- C01–C05 together: every program over the API, under every choice of enumeration orders, yields a
forest whose members are the family the program means. -/
theorem run_family {p : Prog T} {f : Forest T} (hr : Runs p f) (h' : HashOrder (List T)) :
    family (f.trees h') = p.meaning := by
  induction hr with
  | empty => exact empty_family h'
  | unit s => exact unit_family h' s
  | many m => exact many_family h' m
  | unique s => exact unique_family h' s
  | union h ha hb iha ihb => rw [union_family h h' ⟨_, ha⟩ ⟨_, hb⟩, iha, ihb]; rfl
  | intersect h ha hb iha ihb => rw [intersect_family h h' ⟨_, ha⟩ ⟨_, hb⟩, iha, ihb]; rfl
  | product h1 h2 ha hb iha ihb => rw [product_family h1 h2 h' ⟨_, ha⟩ ⟨_, hb⟩, iha, ihb]; rfl
  | subset h x ha iha => rw [subset_family h h' ⟨_, ha⟩, iha]; rfl
  | subsetNot h x ha iha => rw [subsetNot_family h h' ⟨_, ha⟩, iha]; rfl
  | subsetAll h x ha iha => rw [subsetAll_family h h' ⟨_, ha⟩, iha]; rfl
  | subsetNone h x ha iha => rw [subsetNone_family h h' ⟨_, ha⟩, iha]; rfl

/-- The hypothesis is met by a run of several operations. -/
example (h : HashOrder (List ℕ)) :=
  run_family (.product h h (.many [[1, 2], [2]]) (.subset h 4 (.unique [3, 4]))) h

/-- A reachable, non-trivial forest (two overlapping members), for the hypotheses above. -/
example : Reach (Forest.many [[1, 2], [2, 3]] : Forest ℕ) ∧
    Reach (Forest.union (HashOrder.anyOrder _) (Forest.many [[1, 2], [2, 3]])
      (Forest.unit [7]) : Forest ℕ) :=
  ⟨⟨_, .many _⟩, ⟨_, .union _ (.many _) (.unit _)⟩⟩

/-! ## C06 counting -/

theorem trees_nodup (h : HashOrder (List T)) (f : Forest T) : (f.trees h).Nodup := by
  cases f with
  | Empty => simp [Forest.trees]
  | Unit s => simp [Forest.trees]
  | Many m => exact h.nodup m

/-- C06: `trees` lists every member once, as a strictly ascending vector. -/
theorem trees_exact (h : HashOrder (List T)) {f : Forest T} (hf : Reach f) :
    (∀ l ∈ f.trees h, l.Pairwise (· < ·)) ∧
    (∀ s ∈ family (f.trees h), ∃! l, l ∈ f.trees h ∧ l.toFinset = s) ∧ (f.trees h).Nodup := by
  refine ⟨fun l hl => hf.wf.lt l ((Forest.mem_trees h f l).1 hl), ?_, trees_nodup h f⟩
  rintro s ⟨l, hl, rfl⟩
  refine ⟨l, ⟨hl, rfl⟩, ?_⟩
  rintro l' ⟨hl', e⟩
  exact toFinset_inj_of_lt (hf.wf.lt _ ((Forest.mem_trees h f l').1 hl'))
    (hf.wf.lt _ ((Forest.mem_trees h f l).1 hl)) e

/-- The hypothesis is met. -/
example (h : HashOrder (List ℕ)) := trees_exact h (f := Forest.many [[2, 1, 2], [1, 2], [3]]) ⟨_, .many _⟩

/-- C06: `len` is the number of members: the members form a finite set of that cardinality. -/
theorem len_exact (h : HashOrder (List T)) {f : Forest T} (hf : Reach f) :
    ∃ S : Finset (Finset T), (∀ s, s ∈ S ↔ s ∈ family (f.trees h)) ∧ f.len = S.card := by
  refine ⟨((f.trees h).map List.toFinset).toFinset, fun s => by simp [family], ?_⟩
  rw [List.toFinset_card_of_nodup]
  · rw [List.length_map]
    cases f with
    | Empty => rfl
    | Unit s => rfl
    | Many m => exact (h.length_iter m).symm
  · refine List.Nodup.map_on ?_ (trees_nodup h f)
    intro a ha b hb e
    exact toFinset_inj_of_lt (hf.wf.lt _ ((Forest.mem_trees h f a).1 ha))
      (hf.wf.lt _ ((Forest.mem_trees h f b).1 hb)) e

/-- C06: `is_empty` holds iff there is no member. -/
theorem isEmpty_exact (h : HashOrder (List T)) {f : Forest T} (hf : Reach f) :
    f.isEmpty = true ↔ family (f.trees h) = ∅ := by
  rw [Set.eq_empty_iff_forall_notMem]
  simp only [Forest.mem_family]
  cases f with
  | Empty => simp [Forest.isEmpty]
  | Unit s => simp only [Forest.isEmpty]; simp
  | Many m =>
    obtain ⟨l, hl⟩ := hf.wf.nonempty m rfl
    simp only [Forest.isEmpty]
    refine ⟨fun hh => absurd hh (by simp), fun hh => absurd ⟨l, hl, rfl⟩ (hh l.toFinset)⟩

theorem count_flatten_of_lt (x : T) (ls : List (List T)) (hl : ∀ l ∈ ls, l.Pairwise (· < ·)) :
    ls.flatten.count x = (ls.filter (fun l => decide (x ∈ l))).length := by
  induction ls with
  | nil => simp
  | cons a ls ih =>
    have ha : a.Nodup := nodup_of_lt (hl a (by simp))
    rw [List.flatten_cons, List.count_append, ih (fun l h => hl l (by simp [h])), List.filter_cons]
    by_cases hx : x ∈ a
    · simp [hx, List.count_eq_one_of_mem ha hx]; omega
    · simp [hx, List.count_eq_zero_of_not_mem hx]

/-- C06: `occurrences` is sorted by item and holds `(x, n)` iff `x` is in some member and `n` is the
number of members containing `x`. -/
theorem occurrences_exact (h h' : HashOrder (List T)) (mo : HashOrder (T × ℕ)) {f : Forest T}
    (hf : Reach f) :
    (f.occurrences h mo).Pairwise (fun a b => a.1 < b.1) ∧
    ∀ x n, (x, n) ∈ f.occurrences h mo ↔
      (∃ l ∈ f.trees h', x ∈ l) ∧ n = ((f.trees h').filter (fun l => decide (x ∈ l))).length := by
  cases f with
  | Empty => simp [Forest.occurrences, Forest.trees]
  | Unit s =>
    have hs := hf.wf.lt s rfl
    constructor
    · simp only [Forest.occurrences, List.pairwise_map]; exact hs
    · intro x n
      simp only [Forest.occurrences, Forest.trees, List.mem_map, Prod.mk.injEq, List.mem_singleton,
        exists_eq_left]
      by_cases hx : x ∈ s
      · simp [hx, eq_comm]
      · simp only [hx, false_and, iff_false]; rintro ⟨a, ha, rfl, _⟩; exact hx ha
  | Many m =>
    have hc : KeysLt (countMap (h.iter m).flatten) := countMap_keysLt _
    have hnd : (countMap (h.iter m).flatten).Nodup :=
      hc.imp (fun {a b} hh e => by subst e; exact lt_irrefl _ hh)
    have hocc : (Forest.Many m).occurrences h mo = countMap (h.iter m).flatten := by
      refine sortByKey_of_perm hc ?_
      exact (List.perm_ext_iff_of_nodup (mo.nodup _) hnd).2 (by simp)
    rw [hocc]
    refine ⟨hc, fun x n => ?_⟩
    rw [mem_countMap, count_flatten_of_lt x _ (fun l hl => hf.wf.lt l (h.mem_iter.1 hl))]
    simp only [Forest.trees, List.mem_flatten, HashOrder.mem_iter]
    rw [(((h.perm h' m).filter _).length_eq : (List.filter (fun l => decide (x ∈ l))
      (h.iter m)).length = _)]

/-- In `{{1,2},{2,3}}` the item 2 occurs twice, whatever the orders. -/
example (h : HashOrder (List ℕ)) (mo : HashOrder (ℕ × ℕ)) :
    (2, 2) ∈ (Forest.many [[1, 2], [2, 3], [3, 2]] : Forest ℕ).occurrences h mo := by
  have hr : Reach (Forest.many [[1, 2], [2, 3], [3, 2]] : Forest ℕ) := ⟨_, .many _⟩
  have hm : (Forest.many [[1, 2], [2, 3], [3, 2]] : Forest ℕ) = .Many {[1, 2], [2, 3]} := by decide
  have hp : (h.iter {[1, 2], [2, 3]}).Perm [[1, 2], [2, 3]] :=
    (List.perm_ext_iff_of_nodup (h.nodup _) (by decide)).2 (by simp)
  rw [(occurrences_exact h h mo hr).2, hm]
  simp only [Forest.trees]
  refine ⟨⟨[1, 2], by simp, by simp⟩, ?_⟩
  rw [(hp.filter _).length_eq]; decide

/-! ## C07 order independence -/

/-- C07: the result of a program does not depend on any enumeration order. -/
theorem runs_deterministic {p : Prog T} {f g : Forest T} (hf : Runs p f) (hg : Runs p g) :
    f = g := by
  induction hf generalizing g with
  | empty => cases hg; rfl
  | unit s => cases hg; rfl
  | many m => cases hg; rfl
  | unique s => cases hg; rfl
  | union h ha hb iha ihb =>
    cases hg with
    | union h' ha' hb' =>
      rw [← iha ha', ← ihb hb']
      unfold Forest.union
      split_ifs
      · rfl
      · split <;> first
          | rfl
          | exact Forest.many_perm ((h.perm h' _).append_right _)
          | (split_ifs <;> first | rfl | exact Forest.many_perm (h.perm h' _))
  | intersect h ha hb iha ihb =>
    cases hg with
    | intersect h' ha' hb' =>
      rw [← iha ha', ← ihb hb']
      unfold Forest.intersect
      split_ifs
      · rfl
      · split <;> first
          | rfl
          | exact Forest.many_perm (h.perm h' _)
  | product h1 h2 ha hb iha ihb =>
    cases hg with
    | product h1' h2' ha' hb' =>
      rw [← iha ha', ← ihb hb']
      unfold Forest.product
      split <;> first
          | rfl
          | exact Forest.many_perm ((h1.perm h1' _).map _)
          | exact Forest.many_perm ((h2.perm h2' _).map _)
          | exact Forest.many_perm
              (((h1.perm h1' _).flatMap_right _).trans
                (List.Perm.flatMap_left _ (fun a _ => (h2.perm h2' _).map _)))
  | subset h x ha iha =>
    cases hg with
    | subset h' _ ha' =>
      rw [← iha ha']
      unfold Forest.subset
      split <;> first | rfl | exact Forest.many_perm ((h.perm h' _).filter _)
  | subsetNot h x ha iha =>
    cases hg with
    | subsetNot h' _ ha' =>
      rw [← iha ha']
      unfold Forest.subsetNot
      split <;> first | rfl | exact Forest.many_perm ((h.perm h' _).filter _)
  | subsetAll h x ha iha =>
    cases hg with
    | subsetAll h' _ ha' =>
      rw [← iha ha']
      unfold Forest.subsetAll
      split_ifs
      · rfl
      · split <;> first | rfl | exact Forest.many_perm ((h.perm h' _).filter _)
  | subsetNone h x ha iha =>
    cases hg with
    | subsetNone h' _ ha' =>
      rw [← iha ha']
      unfold Forest.subsetNone
      split_ifs
      · rfl
      · split <;> first | rfl | exact Forest.many_perm ((h.perm h' _).filter _)

/-- Two runs of one program that visit their hash sets in different orders. -/
example (h h' : HashOrder (List ℕ)) := runs_deterministic
  (.union h (.many [[1, 2], [2]]) (.unique [3, 4])) (.union h' (.many [[1, 2], [2]]) (.unique [3, 4]))

/-- C07: `occurrences` does not depend on the enumeration orders of the matrix or the counting
map. -/
theorem occurrences_deterministic (h h' : HashOrder (List T)) (mo mo' : HashOrder (T × ℕ))
    {f : Forest T} (hf : Reach f) : f.occurrences h mo = f.occurrences h' mo' := by
  have h1 := occurrences_exact h h mo hf
  have h2 := occurrences_exact h' h mo' hf
  refine smap_ext h1.1 h2.1 (fun k => Option.ext fun v => ?_)
  rw [lookup_eq_some h1.1, lookup_eq_some h2.1, h1.2, h2.2]

/-- The hypothesis is met. -/
example (h h' : HashOrder (List ℕ)) (mo mo' : HashOrder (ℕ × ℕ)) :=
  occurrences_deterministic h h' mo mo' (f := Forest.many [[1, 2], [2, 3]]) ⟨_, .many _⟩

/-! ## C08 equality -/

/-- C08 is false of the code: two forests with the same single member, built by `many` from a
duplicated input and by `unit`, are different values. -/
theorem eq_not_extensional :
    ∃ f g : Forest ℕ, Reach f ∧ Reach g ∧
      (∀ h, family (f.trees h) = family (g.trees h)) ∧ f ≠ g := by
  refine ⟨Forest.many [[1], [1]], Forest.unit [1], ⟨_, .many _⟩, ⟨_, .unit _⟩, ?_, ?_⟩
  · intro h
    rw [many_family, unit_family]
    ext s; simp [family, eq_comm]
  · decide

/-- C08, the part that holds: forests that are not a one-element `Many` (in particular every forest
with no or at least two members, compared with any other) are equal iff they have the same members.
Missing for the full property: the one-member forests produced by `many` (or union / product) from
several equal vectors. -/
theorem eq_extensional_partial (h : HashOrder (List T)) {f g : Forest T} (hf : Reach f)
    (hg : Reach g) (hn : f.len ≠ 1) :
    f = g ↔ family (f.trees h) = family (g.trees h) := by
  constructor
  · rintro rfl; rfl
  · intro e
    have key : ∀ l, f.Stored l ↔ g.Stored l := by
      intro l
      have e' := Set.ext_iff.1 e
      constructor
      · intro hl
        obtain ⟨l', h1, h2⟩ := (Forest.mem_family h g _).1 ((e' _).1
          ((Forest.mem_family h f l.toFinset).2 ⟨l, hl, rfl⟩))
        rwa [← toFinset_inj_of_lt (hg.wf.lt _ h1) (hf.wf.lt _ hl) h2]
      · intro hl
        obtain ⟨l', h1, h2⟩ := (Forest.mem_family h f _).1 ((e' _).2
          ((Forest.mem_family h g l.toFinset).2 ⟨l, hl, rfl⟩))
        rwa [← toFinset_inj_of_lt (hf.wf.lt _ h1) (hg.wf.lt _ hl) h2]
    cases f with
    | Empty =>
      cases g with
      | Empty => rfl
      | Unit s => exact absurd ((key s).2 rfl) (by simp)
      | Many m =>
        obtain ⟨l, hl⟩ := hg.wf.nonempty m rfl
        exact absurd ((key l).2 hl) (by simp)
    | Unit s => exact absurd rfl hn
    | Many m =>
      cases g with
      | Empty =>
        obtain ⟨l, hl⟩ := hf.wf.nonempty m rfl
        exact absurd ((key l).1 hl) (by simp)
      | Unit s =>
        refine absurd ?_ hn
        simp only [Forest.len, Finset.card_eq_one]
        exact ⟨s, Finset.ext (fun l => by simpa using key l)⟩
      | Many m2 =>
        congr 1
        exact Finset.ext (fun l => by simpa using key l)

/-- The hypotheses are met. -/
example (h : HashOrder (List ℕ)) := eq_extensional_partial h (f := Forest.many [[1], [2]])
  (g := Forest.unique [1, 2]) ⟨_, .many _⟩ ⟨_, .unique _⟩ (by decide)

example : Reach (Forest.many [[1], [2]] : Forest ℕ) ∧ (Forest.many [[1], [2]] : Forest ℕ).len ≠ 1 :=
  ⟨⟨_, .many _⟩, by decide⟩

/-! ## C49 algebra -/

/-- C49: union, intersect and product do not depend on the order of their arguments, as values. -/
theorem comm_laws (h1 h2 h1' h2' : HashOrder (List T)) (f g : Forest T) :
    Forest.union h1 f g = Forest.union h2 g f ∧
    Forest.intersect h1 f g = Forest.intersect h2 g f ∧
    Forest.product h1 h1' f g = Forest.product h2' h2 g f := by
  refine ⟨?_, ?_, ?_⟩
  · unfold Forest.union
    by_cases e : f = g
    · subst e; simp
    · rw [if_neg e, if_neg (fun e' => e e'.symm)]
      cases f with
      | Empty => cases g <;> first | rfl | exact absurd rfl e
      | Unit s =>
        cases g with
        | Empty => rfl
        | Unit s' => exact Forest.many_perm (List.Perm.swap _ _ _)
        | Many m => exact Forest.many_perm ((h1.perm h2 _).append_right _)
      | Many m =>
        cases g with
        | Empty => rfl
        | Unit s' => exact Forest.many_perm ((h1.perm h2 _).append_right _)
        | Many m' =>
          simp only
          by_cases c1 : m ⊆ m'
          · by_cases c2 : m' ⊆ m
            · exact absurd (congrArg Forest.Many (Finset.Subset.antisymm c1 c2)) e
            · simp [c1, c2]
          · by_cases c2 : m' ⊆ m
            · simp [c1, c2]
            · simp only [c1, c2, if_false]
              rw [Finset.union_comm]; exact Forest.many_perm (h1.perm h2 _)
  · unfold Forest.intersect
    by_cases e : f = g
    · subst e; simp
    · rw [if_neg e, if_neg (fun e' => e e'.symm)]
      cases f with
      | Empty => cases g <;> rfl
      | Unit s => cases g <;> rfl
      | Many m =>
        cases g with
        | Empty => rfl
        | Unit s' => rfl
        | Many m' =>
          simp only
          rw [Finset.inter_comm]; exact Forest.many_perm (h1.perm h2 _)
  · cases f with
    | Empty => cases g <;> rfl
    | Unit s =>
      cases g with
      | Empty => rfl
      | Unit s' =>
        simp only [Forest.product, Forest.unit, Forest.Unit.injEq]
        exact filterRepeats_eq_iff.2 (by simp [or_comm])
      | Many m => exact Forest.many_perm ((h1'.perm h2' _).map _)
    | Many m =>
      cases g with
      | Empty => rfl
      | Unit s' => exact Forest.many_perm ((h1.perm h2 _).map _)
      | Many m' =>
        simp only [Forest.product]
        have key : ∀ (l1 l2 : List (List T)),
            Forest.many (l1.flatMap fun a => l2.map fun b => a ++ b) =
            Forest.many (l2.flatMap fun b => l1.map fun a => b ++ a) := by
          intro l1 l2
          have hlen : (l1.flatMap fun a => l2.map fun b => a ++ b).length =
              (l2.flatMap fun b => l1.map fun a => b ++ a).length := by
            simp [List.length_flatMap, Nat.mul_comm]
          have hst : ∀ l, (Forest.many (l1.flatMap fun a => l2.map fun b => a ++ b)).Stored l ↔
              (Forest.many (l2.flatMap fun b => l1.map fun a => b ++ a)).Stored l := by
            intro l
            simp only [Forest.stored_many, List.mem_flatMap, List.mem_map]
            constructor
            · rintro ⟨_, ⟨a, ha, b, hb, rfl⟩, rfl⟩
              exact ⟨_, ⟨b, hb, a, ha, rfl⟩, filterRepeats_eq_iff.2 (by simp [or_comm])⟩
            · rintro ⟨_, ⟨a, ha, b, hb, rfl⟩, rfl⟩
              exact ⟨_, ⟨b, hb, a, ha, rfl⟩, filterRepeats_eq_iff.2 (by simp [or_comm])⟩
          exact Forest.many_eq_of_stored hlen hst
        rw [key]
        exact Forest.many_perm (((h1'.perm h2' _).flatMap_right _).trans
                (List.Perm.flatMap_left _ (fun a _ => (h1.perm h2 _).map _)))

/-- C49: the laws of a lattice with product, in terms of members: associativity, idempotence,
absorption, distributivity, units, and the partition by an item. -/
theorem member_laws (h : HashOrder (List T)) {f g k : Forest T} (hf : Reach f) (hg : Reach g)
    (hk : Reach k) (x : T) :
    let U := Forest.union h
    let I := Forest.intersect h
    let P := Forest.product h h
    let M := fun f : Forest T => family (f.trees h)
    M (U (U f g) k) = M (U f (U g k)) ∧ M (I (I f g) k) = M (I f (I g k)) ∧
    M (P (P f g) k) = M (P f (P g k)) ∧
    M (U f f) = M f ∧ M (I f f) = M f ∧
    M (U f (I f g)) = M f ∧ M (I f (U f g)) = M f ∧
    M (I f (U g k)) = M (U (I f g) (I f k)) ∧ M (U f (I g k)) = M (I (U f g) (U f k)) ∧
    M (P f (U g k)) = M (U (P f g) (P f k)) ∧
    M (U f Forest.empty) = M f ∧ M (I f Forest.empty) = ∅ ∧ M (P f Forest.empty) = ∅ ∧
    M (P f (Forest.unit [])) = M f ∧
    M (U (Forest.subset h f x) (Forest.subsetNot h f x)) = M f ∧
    M (I (Forest.subset h f x) (Forest.subsetNot h f x)) = ∅ := by
  obtain ⟨pf, hf⟩ := hf
  obtain ⟨pg, hg⟩ := hg
  obtain ⟨pk, hk⟩ := hk
  intro U I P M
  have hM : ∀ {p : Prog T} {f}, Runs p f → M f = p.meaning := fun hr => run_family hr h
  have hU : ∀ {p q : Prog T} {f g}, Runs p f → Runs q g → Runs (.union p q) (U f g) :=
    fun a b => .union h a b
  have hI : ∀ {p q : Prog T} {f g}, Runs p f → Runs q g → Runs (.intersect p q) (I f g) :=
    fun a b => .intersect h a b
  have hP : ∀ {p q : Prog T} {f g}, Runs p f → Runs q g → Runs (.product p q) (P f g) :=
    fun a b => .product h h a b
  have hS := Runs.subset h x hf
  have hN := Runs.subsetNot h x hf
  refine ⟨?_, ?_, ?_, ?_, ?_, ?_, ?_, ?_, ?_, ?_, ?_, ?_, ?_, ?_, ?_, ?_⟩
  · rw [hM (hU (hU hf hg) hk), hM (hU hf (hU hg hk))]; exact Set.union_assoc _ _ _
  · rw [hM (hI (hI hf hg) hk), hM (hI hf (hI hg hk))]; exact Set.inter_assoc _ _ _
  · rw [hM (hP (hP hf hg) hk), hM (hP hf (hP hg hk))]
    ext s
    simp only [Prog.meaning, prod, Set.mem_ofPred_eq]
    constructor
    · rintro ⟨_, ⟨a, ha, b, hb, rfl⟩, c, hc, rfl⟩
      exact ⟨a, ha, _, ⟨b, hb, c, hc, rfl⟩, Finset.union_assoc _ _ _⟩
    · rintro ⟨a, ha, _, ⟨b, hb, c, hc, rfl⟩, rfl⟩
      exact ⟨_, ⟨a, ha, b, hb, rfl⟩, c, hc, (Finset.union_assoc _ _ _).symm⟩
  · rw [hM (hU hf hf), hM hf]; exact Set.union_self _
  · rw [hM (hI hf hf), hM hf]; exact Set.inter_self _
  · rw [hM (hU hf (hI hf hg)), hM hf]; simp [Prog.meaning]
  · rw [hM (hI hf (hU hf hg)), hM hf]; simp [Prog.meaning]
  · rw [hM (hI hf (hU hg hk)), hM (hU (hI hf hg) (hI hf hk))]; exact Set.inter_union_distrib_left _ _ _
  · rw [hM (hU hf (hI hg hk)), hM (hI (hU hf hg) (hU hf hk))]; exact Set.union_inter_distrib_left _ _ _
  · rw [hM (hP hf (hU hg hk)), hM (hU (hP hf hg) (hP hf hk))]
    ext s
    simp only [Prog.meaning, prod, Set.mem_ofPred_eq, Set.mem_union]
    constructor
    · rintro ⟨a, ha, b, hb | hb, rfl⟩
      · exact Or.inl ⟨a, ha, b, hb, rfl⟩
      · exact Or.inr ⟨a, ha, b, hb, rfl⟩
    · rintro (⟨a, ha, b, hb, rfl⟩ | ⟨a, ha, b, hb, rfl⟩)
      · exact ⟨a, ha, b, Or.inl hb, rfl⟩
      · exact ⟨a, ha, b, Or.inr hb, rfl⟩
  · rw [hM (hU hf .empty), hM hf]; simp [Prog.meaning]
  · rw [hM (hI hf .empty)]; simp [Prog.meaning]
  · rw [hM (hP hf .empty)]; ext s; simp [Prog.meaning, prod]
  · rw [hM (hP hf (.unit [])), hM hf]; ext s; simp [Prog.meaning, prod]
  · rw [hM (hU hS hN), hM hf]
    ext s
    simp only [Prog.meaning, having, without, Set.mem_ofPred_eq, Set.mem_union]
    tauto
  · rw [hM (hI hS hN)]
    ext s
    simp only [Prog.meaning, having, without, Set.mem_ofPred_eq, Set.mem_inter_iff,
      Set.mem_empty_iff_false]
    tauto

/-- The hypotheses are met. -/
example (h : HashOrder (List ℕ)) := member_laws h (f := Forest.many [[1], [1, 2]])
  (g := Forest.unique [1, 2]) (k := Forest.unit [3]) ⟨_, .many _⟩ ⟨_, .unique _⟩ ⟨_, .unit _⟩ 2

end Verif.Matrix
