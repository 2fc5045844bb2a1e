import Verif.Zdd2.Translate

/-!
# Properties of the zdd2 forest (C13–C25, C28, C47, C52, C55–C57)

Forests are observed through `trees()`, read as a family of finite sets by `Spec.family`.
-/

set_option linter.unusedSimpArgs false
set_option linter.unusedVariables false
set_option linter.unusedSectionVars false

namespace Verif.Zdd2
open Verif Verif.Spec Verif.Zdd2.Spec

universe u
variable {T : Type u} [LinearOrder T]

/-- Programs over the public API: the same programs as for the matrix backend
(weave/src/types.rs is the common trait). -/
abbrev Prog (T : Type u) := Matrix.Prog T

/-- Running a program on the zdd2 backend; `none` is a panic.  Not code: used to state or prove properties. -/
def run : Prog T → Option (Forest T)
  | .empty => some Forest.empty
  | .unit s => some (Forest.unit s)
  | .many m => some (Forest.many m)
  | .unique s => some (Forest.unique s)
  | .union a b => (run a).bind fun f => (run b).bind fun g => f.union g
  | .intersect a b => (run a).bind fun f => (run b).bind fun g => f.intersect g
  | .product a b => (run a).bind fun f => (run b).bind fun g => f.product g
  | .subset a x => (run a).map fun f => f.subset x
  | .subsetNot a x => (run a).map fun f => f.subsetNot x
  | .subsetAll a xs => (run a).map fun f => f.subsetAll xs
  | .subsetNone a xs => (run a).map fun f => f.subsetNone xs

/-- A forest obtainable through the public API.  Not code: used to state or prove properties. -/
def Reach (f : Forest T) : Prop := ∃ p, run p = some f

namespace Forest
open Universe

theorem canon_empty : (empty : Forest T).Canon := ⟨[], empty_eq⟩
theorem canon_unit (s : List T) : (unit s).Canon := ⟨_, unit_eq s⟩
theorem canon_unique (s : List T) : (unique s).Canon := ⟨_, unique_eq s⟩

theorem canon_subset {f : Forest T} (x : T) : (f.subset x).Canon := by
  unfold subset
  split
  · exact canon_empty
  · exact canon_canonical _ _

theorem canon_subsetNot {f : Forest T} (hf : f.Canon) (x : T) : (f.subsetNot x).Canon := by
  unfold subsetNot
  split
  · exact hf
  · exact canon_canonical _ _

theorem canon_subsetAll {f : Forest T} (hf : f.Canon) (xs : List T) : (f.subsetAll xs).Canon := by
  unfold subsetAll subsetMany
  dsimp only
  split_ifs
  · exact hf
  · exact canon_empty
  · exact canon_canonical _ _

theorem canon_subsetNone {f : Forest T} (hf : f.Canon) (xs : List T) : (f.subsetNone xs).Canon := by
  unfold subsetNone subsetMany
  dsimp only
  split_ifs
  · exact hf
  · exact hf
  · exact canon_canonical _ _

theorem binary_ok {f g : Forest T} (hf : f.Canon) (hg : g.Canon) :
    (∃ r, f.union g = some r ∧ r.Canon) ∧ (∃ r, f.intersect g = some r ∧ r.Canon) ∧
      (∃ r, f.product g = some r ∧ r.Canon) := by
  obtain ⟨a, b, e, _⟩ := translateRoots_ok hf hg
  exact ⟨⟨canonical (a.union b) (merge f.univ g.univ), (by simp [union, e]), canon_canonical _ _⟩,
    ⟨canonical (a.intersect b) (merge f.univ g.univ), (by simp [intersect, e]), canon_canonical _ _⟩,
    ⟨canonical (a.product b) (merge f.univ g.univ), (by simp [product, e]), canon_canonical _ _⟩⟩

end Forest

open Forest Universe

/-! ## C47 no panic -/

theorem run_canon (p : Prog T) : ∃ f, run p = some f ∧ f.Canon := by
  induction p with
  | empty => exact ⟨_, rfl, canon_empty⟩
  | unit s => exact ⟨_, rfl, canon_unit s⟩
  | many m => exact ⟨_, rfl, canon_many m⟩
  | unique s => exact ⟨_, rfl, canon_unique s⟩
  | union a b iha ihb =>
    obtain ⟨f, ef, hf⟩ := iha
    obtain ⟨g, eg, hg⟩ := ihb
    obtain ⟨r, er, hr⟩ := (binary_ok hf hg).1
    exact ⟨r, by simp [run, ef, eg, er], hr⟩
  | intersect a b iha ihb =>
    obtain ⟨f, ef, hf⟩ := iha
    obtain ⟨g, eg, hg⟩ := ihb
    obtain ⟨r, er, hr⟩ := (binary_ok hf hg).2.1
    exact ⟨r, by simp [run, ef, eg, er], hr⟩
  | product a b iha ihb =>
    obtain ⟨f, ef, hf⟩ := iha
    obtain ⟨g, eg, hg⟩ := ihb
    obtain ⟨r, er, hr⟩ := (binary_ok hf hg).2.2
    exact ⟨r, by simp [run, ef, eg, er], hr⟩
  | subset a x ih => obtain ⟨f, ef, hf⟩ := ih; exact ⟨f.subset x, by simp only [run, ef, Option.map_some], canon_subset x⟩
  | subsetNot a x ih => obtain ⟨f, ef, hf⟩ := ih; exact ⟨_, by simp only [run, ef, Option.map_some], canon_subsetNot hf x⟩
  | subsetAll a xs ih => obtain ⟨f, ef, hf⟩ := ih; exact ⟨_, by simp only [run, ef, Option.map_some], canon_subsetAll hf xs⟩
  | subsetNone a xs ih => obtain ⟨f, ef, hf⟩ := ih; exact ⟨_, by simp only [run, ef, Option.map_some], canon_subsetNone hf xs⟩

/-- C47: no program over the zdd2 API panics: every `unwrap` succeeds. -/
theorem run_total (p : Prog T) : ∃ f, run p = some f :=
  let ⟨f, h, _⟩ := run_canon p; ⟨f, h⟩

theorem Reach.canon {f : Forest T} (h : Reach f) : f.Canon := by
  obtain ⟨p, hp⟩ := h
  obtain ⟨g, hg, hc⟩ := run_canon p
  rw [hp] at hg
  cases hg; exact hc

/-- C47: the binary operations of reachable forests succeed with a reachable forest. -/
theorem binary_total {f g : Forest T} (hf : Reach f) (hg : Reach g) :
    (∃ r, f.union g = some r ∧ Reach r) ∧ (∃ r, f.intersect g = some r ∧ Reach r) ∧
      (∃ r, f.product g = some r ∧ Reach r) := by
  obtain ⟨⟨r1, e1, _⟩, ⟨r2, e2, _⟩, ⟨r3, e3, _⟩⟩ := binary_ok hf.canon hg.canon
  obtain ⟨p, hp⟩ := hf
  obtain ⟨q, hq⟩ := hg
  exact ⟨⟨r1, e1, .union p q, by simp [run, hp, hq, e1]⟩, ⟨r2, e2, .intersect p q, by simp [run, hp, hq, e2]⟩,
    ⟨r3, e3, .product p q, by simp [run, hp, hq, e3]⟩⟩

theorem reach_many (m : List (List T)) : Reach (Forest.many m) := ⟨.many m, rfl⟩
theorem reach_unit (s : List T) : Reach (Forest.unit s) := ⟨.unit s, rfl⟩
theorem reach_unique (s : List T) : Reach (Forest.unique s) := ⟨.unique s, rfl⟩
theorem reach_empty : Reach (Forest.empty : Forest T) := ⟨.empty, rfl⟩

/-! ## C13 construction -/

/-- C13: `many` holds exactly the non-empty input sets. -/
theorem many_family (m : List (List T)) :
    family (Forest.many m).trees = {s | s ∈ family m ∧ s ≠ ∅} := by
  rw [(many_trees m).2.2]
  ext s; simp [nonempty, Finset.nonempty_iff_ne_empty]

/-- C13: `unit`. -/
theorem unit_family (s : List T) :
    family (Forest.unit s).trees = {t | t = s.toFinset ∧ s ≠ []} := by
  rw [unit_eq, many_family]
  ext t
  simp only [family, List.mem_singleton, exists_eq_left, Set.mem_ofPred_eq]
  constructor
  · rintro ⟨rfl, h⟩; exact ⟨rfl, fun e => h (by simp [e])⟩
  · rintro ⟨rfl, h⟩; exact ⟨rfl, by simpa [List.toFinset_eq_empty_iff] using h⟩

/-- C13: `unique`. -/
theorem unique_family (s : List T) :
    family (Forest.unique s).trees = {t | ∃ x ∈ s, t = {x}} := by
  rw [unique_eq, many_family]
  ext t
  simp only [family, List.mem_map, exists_exists_and_eq_and, Set.mem_ofPred_eq]
  constructor
  · rintro ⟨⟨x, hx, rfl⟩, _⟩; exact ⟨x, hx, by simp⟩
  · rintro ⟨x, hx, rfl⟩; exact ⟨⟨x, hx, by simp⟩, by simp⟩

/-- C13: `empty`. -/
theorem empty_family : family (Forest.empty : Forest T).trees = ∅ := by
  rw [empty_eq, many_family]; ext; simp [family]

example : ({1, 2} : Finset ℕ) ∈ family (Forest.many [[2, 1, 2], [1, 2], [], [3]]).trees ∧
    (∅ : Finset ℕ) ∉ family (Forest.many [[2, 1, 2], [1, 2], [], [3]]).trees := by
  rw [many_family]
  refine ⟨⟨⟨[1, 2], by simp, by decide⟩, by decide⟩, fun h => h.2 rfl⟩

/-! ## C14 enumeration -/

/-- C14: `trees` lists every member once, as a strictly ascending vector. -/
theorem trees_exact {f : Forest T} (hf : Reach f) :
    (∀ l ∈ f.trees, l.Pairwise (· < ·)) ∧
    (∀ s ∈ family f.trees, ∃! l, l ∈ f.trees ∧ l.toFinset = s) ∧ f.trees.Nodup := by
  obtain ⟨h1, h2, _⟩ := trees_map hf.canon.ok hf.canon.ordered hf.canon.inU
  refine ⟨h1, ?_, h2⟩
  rintro s ⟨l, hl, rfl⟩
  exact ⟨l, ⟨hl, rfl⟩, fun l' ⟨hl', e⟩ => toFinset_inj_of_lt (h1 l' hl') (h1 l hl) e⟩

/-- C14: no member is the empty set. -/
theorem trees_nonempty {f : Forest T} (hf : Reach f) : ∀ l ∈ f.trees, l ≠ [] := by
  intro l hl e
  have := hf.canon.fam_nonempty (s := l.toFinset) ⟨l, hl, rfl⟩
  rw [e] at this; simp at this

example := trees_nonempty (reach_many [[1, 2], [1, 3]])

/-- C14: `len` is the number of members. -/
theorem len_exact {f : Forest T} (hf : Reach f) : f.len = (family f.trees).ncard := by
  obtain ⟨h1, _, h2⟩ := trees_exact hf
  have : family f.trees = ((f.trees.map List.toFinset).toFinset : Finset (Finset T)) := by
    ext s; simp [family]
  rw [this, Set.ncard_coe_finset, List.toFinset_card_of_nodup]
  · simp [Forest.len, Forest.trees]
  · exact List.Nodup.map_on (fun a ha b hb e => toFinset_inj_of_lt (h1 a ha) (h1 b hb) e) h2

/-- C14: `is_empty` holds iff there is no member. -/
theorem isEmpty_exact {f : Forest T} (hf : Reach f) :
    f.isEmpty = true ↔ family f.trees = ∅ := by
  simp only [Forest.isEmpty, Forest.trees, List.isEmpty_iff]
  constructor
  · intro h; rw [h]; ext; simp [family]
  · intro h
    cases e : Node.trees f.root with
    | nil => rfl
    | cons a l =>
      have : (f.univ.getItems a).toFinset ∈ family ((Node.trees f.root).map f.univ.getItems) :=
        ⟨_, by rw [e]; simp, rfl⟩
      rw [h] at this
      exact absurd this (by simp)

/-! ## C15 occurrences -/

/-- C15: `occurrences` is sorted by item and holds `(x, n)` iff `x` is in some member and `n` is the
number of members containing `x`; the order in which the hash map is visited is irrelevant. -/
theorem occurrences_exact {f : Forest T} (hf : Reach f) (e : List (T × Nat))
    (he : e.Perm f.univ.occurrences) :
    (f.occurrencesIter e).Pairwise (fun a b => a.1 < b.1) ∧
    ∀ x n, (x, n) ∈ f.occurrencesIter e ↔
      (∃ s ∈ family f.trees, x ∈ s) ∧ n = (having (family f.trees) x).ncard := by
  have hok := hf.canon.ok
  have : f.occurrencesIter e = f.univ.occurrences := sortByKey_of_perm hok.1 he
  rw [this]
  refine ⟨hok.1, fun x n => ?_⟩
  have hc := hf.canon.count x
  rw [← lookup_eq_some hok.1]
  have hi := hf.canon.mem_index x
  rw [mem_index hok, mem_keys_lookup] at hi
  rw [Universe.count] at hc
  rw [← hi]
  have hc' : (having (family f.trees) x).ncard = (lookup x f.univ.occurrences).getD 0 := hc.symm
  rw [hc']
  cases lookup x f.univ.occurrences <;> simp [eq_comm]

/-! ## C16 equality -/

/-- C16: two reachable forests are equal (`==`) iff they have the same members. -/
theorem eq_iff_family {f g : Forest T} (hf : Reach f) (hg : Reach g) :
    f = g ↔ family f.trees = family g.trees :=
  ⟨fun h => by rw [h], fun h => hf.canon.eq_of_fam hg.canon h⟩

example := eq_iff_family (reach_many [[1, 2], [1, 3]]) (reach_unit [1])

/-- C16: input order and repetitions do not matter. -/
theorem many_eq_iff (m m' : List (List T)) :
    Forest.many m = Forest.many m' ↔
      ∀ s : Finset T, s ≠ ∅ → (s ∈ family m ↔ s ∈ family m') := by
  rw [eq_iff_family (reach_many m) (reach_many m'), many_family, many_family, Set.ext_iff]
  constructor
  · intro h s hs; simpa [hs] using h s
  · intro h s
    by_cases hs : s = ∅
    · simp [hs]
    · simp [hs, h s hs]

example : Forest.many [[1, 2], [3, 2, 3], [1, 2]] = Forest.many [[2, 3], [], [2, 1]] := by
  rw [many_eq_iff]
  intro s hs
  simp only [family, List.mem_cons, List.not_mem_nil, or_false, exists_eq_or_imp, exists_eq_left,
    Set.mem_ofPred_eq]
  have e1 : ([1, 2] : List ℕ).toFinset = [2, 1].toFinset := by decide
  have e2 : ([3, 2, 3] : List ℕ).toFinset = [2, 3].toFinset := by decide
  have e3 : ([] : List ℕ).toFinset ≠ s := fun e => hs (by rw [← e]; rfl)
  rw [e1, e2]
  tauto

/-! ## C20, C21 filters -/

/-- C20: `subset` keeps exactly the members containing the element. -/
theorem subset_family {f : Forest T} (hf : Reach f) (x : T) :
    family (f.subset x).trees = having (family f.trees) x := by
  have hc := hf.canon
  unfold Forest.subset
  cases hx : f.univ.getPriority x with
  | none =>
    simp only
    rw [empty_family]
    ext s
    simp only [Set.mem_empty_iff_false, having, Set.mem_ofPred_eq, false_iff, not_and]
    intro hs hxs
    have : x ∈ f.univ.index := (hc.mem_index x).mpr ⟨s, hs, hxs⟩
    rw [getPriority_prio hc.ok this] at hx
    exact absurd hx (by simp)
  | some e =>
    have hxi := mem_of_getItem ((getPriority_iff hc.ok).mp hx)
    have he : e = f.univ.prio x := by simp [prio, hx]
    subst he
    simp only
    have hin : f.univ.InU (Node.subset f.root (f.univ.prio x)) := fun s hs =>
      hc.inU s ((Node.mem_subset hc.ordered hc.ne_always _).mp hs).1
    have := fam_canonical hc.ok (Node.subset_ordered hc.ordered (f.univ.prio x)) hin
    rw [Forest.fam] at this
    rw [this]
    have hfam := hc.fam
    rw [Forest.fam] at hfam
    rw [← hfam]
    ext S
    simp only [nonempty, Fam, having, Set.mem_ofPred_eq, Node.mem_subset hc.ordered hc.ne_always]
    constructor
    · rintro ⟨⟨h1, h2, h3⟩, _⟩
      exact ⟨⟨h1, h2⟩, (mem_image_prio hc.ok h1 hxi).mp h3⟩
    · rintro ⟨⟨h1, h2⟩, h3⟩
      exact ⟨⟨h1, h2, (mem_image_prio hc.ok h1 hxi).mpr h3⟩, ⟨x, h3⟩⟩

/-- C20: `subset_not` keeps exactly the members not containing the element. -/
theorem subsetNot_family {f : Forest T} (hf : Reach f) (x : T) :
    family (f.subsetNot x).trees = without (family f.trees) x := by
  have hc := hf.canon
  unfold Forest.subsetNot
  cases hx : f.univ.getPriority x with
  | none =>
    simp only
    ext s
    simp only [without, Set.mem_ofPred_eq]
    refine ⟨fun hs => ⟨hs, fun hxs => ?_⟩, fun h => h.1⟩
    have : x ∈ f.univ.index := (hc.mem_index x).mpr ⟨s, hs, hxs⟩
    rw [getPriority_prio hc.ok this] at hx
    exact absurd hx (by simp)
  | some e =>
    have hxi := mem_of_getItem ((getPriority_iff hc.ok).mp hx)
    have he : e = f.univ.prio x := by simp [prio, hx]
    subst he
    simp only
    have hin : f.univ.InU (Node.subsetNot f.root (f.univ.prio x)) := fun s hs =>
      hc.inU s ((Node.mem_subsetNot hc.ordered _).mp hs).1
    have := fam_canonical hc.ok (hc.ordered.subsetNot (f.univ.prio x)) hin
    rw [Forest.fam] at this
    rw [this]
    have hfam := hc.fam
    rw [Forest.fam] at hfam
    rw [← hfam]
    ext S
    simp only [nonempty, Fam, without, Set.mem_ofPred_eq, Node.mem_subsetNot hc.ordered]
    constructor
    · rintro ⟨⟨h1, h2, h3⟩, _⟩
      exact ⟨⟨h1, h2⟩, fun h => h3 ((mem_image_prio hc.ok h1 hxi).mpr h)⟩
    · rintro ⟨⟨h1, h2⟩, h3⟩
      refine ⟨⟨h1, h2, fun h => h3 ((mem_image_prio hc.ok h1 hxi).mp h)⟩, ?_⟩
      exact hc.fam_nonempty (s := S) (by rw [← hc.fam]; exact ⟨h1, h2⟩)

/-- Looking up a list of elements finds all of them iff all are known. -/
theorem priorities_length {u : Universe T} (hu : u.Ok) (xs : List T) :
    (u.getPriorities xs).length = xs.length ↔ ∀ x ∈ xs, x ∈ u.index := by
  induction xs with
  | nil => simp [getPriorities]
  | cons x xs ih =>
    have hle : (u.getPriorities xs).length ≤ xs.length := List.length_filterMap_le _ _
    by_cases hx : x ∈ u.index
    · have : u.getPriorities (x :: xs) = u.prio x :: u.getPriorities xs := by
        simp [getPriorities, getPriority_prio hu hx]
      rw [this]
      simp [ih, hx]
    · have hn : u.getPriority x = none := by
        have := mt (getPriority_isSome hu).mp hx
        simpa using this
      have : u.getPriorities (x :: xs) = u.getPriorities xs := by
        simp [getPriorities, hn]
      rw [this]
      simp only [List.length_cons, List.mem_cons, forall_eq_or_imp, hx, false_and, iff_false]
      omega

theorem mem_priorities {u : Universe T} (hu : u.Ok) {xs : List T} (hx : ∀ x ∈ xs, x ∈ u.index)
    (k : Nat) : k ∈ u.getPriorities xs ↔ ∃ x ∈ xs, k = u.prio x := by
  rw [getPriorities, ← List.mem_toFinset, toFinset_priorities hu hx]
  simp [eq_comm]

/-- C21: `subset_all` keeps exactly the members containing every element. -/
theorem subsetAll_family {f : Forest T} (hf : Reach f) (xs : List T) :
    family (f.subsetAll xs).trees = havingAll (family f.trees) xs := by
  have hc := hf.canon
  unfold Forest.subsetAll Forest.subsetMany
  cases xs with
  | nil => simp [havingAll, family]
  | cons x0 xs0 =>
    set xs := x0 :: xs0 with hxs
    have hne : xs.isEmpty = false := by simp [hxs]
    simp only [hne, Bool.false_eq_true, if_false]
    by_cases hk : ∀ x ∈ xs, x ∈ f.univ.index
    · have hlen := (priorities_length hc.ok xs).mpr hk
      rw [if_neg (by simp [hlen])]
      have hpn : f.univ.getPriorities xs ≠ [] := by
        intro h; rw [h] at hlen; simp [hxs] at hlen
      obtain ⟨oa, ma⟩ := Node.subsetAll_ok hc.ordered hc.ne_always hpn
      have hin : f.univ.InU (Node.subsetAll f.root (f.univ.getPriorities xs)) := fun s hs =>
        hc.inU s ((ma s).mp hs).1
      have := fam_canonical hc.ok oa hin
      rw [Forest.fam] at this
      rw [this]
      have hfam := hc.fam
      rw [Forest.fam] at hfam
      rw [← hfam]
      ext S
      simp only [nonempty, Fam, havingAll, Set.mem_ofPred_eq, ma, mem_priorities hc.ok hk]
      constructor
      · rintro ⟨⟨h1, h2, h3⟩, _⟩
        exact ⟨⟨h1, h2⟩, fun x hx => (mem_image_prio hc.ok h1 (hk x hx)).mp (h3 _ ⟨x, hx, rfl⟩)⟩
      · rintro ⟨⟨h1, h2⟩, h3⟩
        refine ⟨⟨h1, h2, ?_⟩, ⟨x0, h3 x0 (by simp [hxs])⟩⟩
        rintro _ ⟨x, hx, rfl⟩
        exact (mem_image_prio hc.ok h1 (hk x hx)).mpr (h3 x hx)
    · have hlen : xs.length ≠ (f.univ.getPriorities xs).length := fun h =>
        hk ((priorities_length hc.ok xs).mp h.symm)
      rw [if_pos hlen, empty_family]
      ext S
      simp only [Set.mem_empty_iff_false, havingAll, Set.mem_ofPred_eq, false_iff, not_and]
      intro hS h
      exact hk (fun x hx => (hc.mem_index x).mpr ⟨S, hS, h x hx⟩)

example : ({1, 2, 3} : Finset ℕ) ∈
    family ((Forest.many [[1, 2, 3], [1, 2], [3]]).subsetAll [2, 3]).trees := by
  rw [subsetAll_family (reach_many _), many_family]
  exact ⟨⟨⟨[1, 2, 3], by simp, rfl⟩, by decide⟩, by decide⟩

/-! ## C22 `subset_none` -/

/-- C22, general facts: an unknown element makes `subset_none` return the forest unchanged. -/
theorem subsetNone_unknown {f : Forest T} (hf : Reach f) {xs : List T} {x : T} (hx : x ∈ xs)
    (hu : ∀ s ∈ family f.trees, x ∉ s) : f.subsetNone xs = f := by
  have hc := hf.canon
  unfold Forest.subsetNone Forest.subsetMany
  dsimp only
  split_ifs with h1 h2
  · rfl
  · rfl
  · exfalso
    have := (priorities_length hc.ok xs).mp (not_not.mp h2).symm x hx
    obtain ⟨s, hs, hxs⟩ := (hc.mem_index x).mp this
    exact hu s hs hxs

example := subsetNone_unknown (reach_many [[1, 2], [1, 3]]) (xs := [1, 9]) (x := 9) (by decide) (by
  rw [many_family]; rintro s ⟨⟨l, hl, rfl⟩, -⟩
  simp only [List.mem_cons, List.not_mem_nil, or_false] at hl
  rcases hl with rfl | rfl <;> decide)

theorem subsetNone_known {f : Forest T} (hf : Reach f) {xs : List T} (hne : xs ≠ [])
    (hk : ∀ x ∈ xs, x ∈ f.univ.index) :
    f.subsetNone xs = canonical (Node.subsetNone f.root (f.univ.getPriorities xs)) f.univ ∧
      f.univ.getPriorities xs ≠ [] := by
  have hlen := (priorities_length hf.canon.ok xs).mpr hk
  constructor
  · unfold Forest.subsetNone Forest.subsetMany
    rw [if_neg (by simpa using hne), if_neg (by simp [hlen])]
  · intro h
    rw [h] at hlen
    exact hne (by simpa using hlen.symm)

/-- C22 (bounds, every input): no member is invented and no member free of all the elements is
lost. -/
theorem subsetNone_bounds {f : Forest T} (hf : Reach f) (xs : List T) :
    havingNone (family f.trees) xs ⊆ family (f.subsetNone xs).trees ∧
    family (f.subsetNone xs).trees ⊆ family f.trees := by
  have hc := hf.canon
  by_cases hne : xs = []
  · subst hne
    have : f.subsetNone [] = f := by simp [Forest.subsetNone, Forest.subsetMany]
    rw [this]; exact ⟨fun s h => h.1, fun s h => h⟩
  by_cases hk : ∀ x ∈ xs, x ∈ f.univ.index
  · obtain ⟨e, hpn⟩ := subsetNone_known hf hne hk
    obtain ⟨oa, hl, hu⟩ := Node.subsetNone_bounds hc.ordered hpn
    have hin : f.univ.InU (Node.subsetNone f.root (f.univ.getPriorities xs)) := fun s hs =>
      hc.inU s (hu s hs).1
    have := fam_canonical hc.ok oa hin
    rw [Forest.fam] at this
    rw [e, this]
    have hfam := hc.fam
    rw [Forest.fam] at hfam
    rw [← hfam]
    constructor
    · rintro S ⟨hS, hn⟩
      refine ⟨⟨hS.1, hl _ hS.2 ?_⟩, hc.fam_nonempty (by rw [← hc.fam]; exact hS)⟩
      intro k hk'
      obtain ⟨x, hx, rfl⟩ := (mem_priorities hc.ok hk k).mp hk'
      rw [mem_image_prio hc.ok hS.1 (hk x hx)]
      exact hn x hx
    · rintro S ⟨hS, _⟩
      exact ⟨hS.1, (hu _ hS.2).1⟩
  · push Not at hk
    obtain ⟨x, hx, hxi⟩ := hk
    rw [subsetNone_unknown hf hx (fun s hs hxs => hxi ((hc.mem_index x).mpr ⟨s, hs, hxs⟩))]
    exact ⟨fun s h => h.1, fun s h => h⟩

example := subsetNone_bounds (reach_many [[1, 2], [1, 3]]) [1, 2]

/-- C22, the full statement, is false of the code. -/
theorem subsetNone_not_exact : ¬ ∀ (f : Forest ℕ) (xs : List ℕ), Reach f →
    family (f.subsetNone xs).trees = havingNone (family f.trees) xs := by
  intro h
  have h1 := h (Forest.many [[1]]) [1, 2] (reach_many _)
  rw [subsetNone_unknown (reach_many _) (x := 2) (by simp) (by
    intro s hs; rw [many_family] at hs
    obtain ⟨⟨l, hl, rfl⟩, _⟩ := hs
    simp at hl; subst hl; decide)] at h1
  have h2 : ({1} : Finset ℕ) ∈ family (Forest.many [[1]]).trees := by
    rw [many_family]; exact ⟨⟨[1], by simp, by decide⟩, by decide⟩
  rw [h1] at h2
  exact h2.2 1 (by simp) (by simp)

/-- C22 (proved part): with all elements occurring in the forest, `subset_none` is exact if no
member with one of the elements strictly contains a member without it — in particular for a single
element or when no member lies inside another. -/
theorem subsetNone_family_partial {f : Forest T} (hf : Reach f) {xs : List T}
    (hk : ∀ x ∈ xs, ∃ s ∈ family f.trees, x ∈ s)
    (hup : ∀ x ∈ xs, ∀ p ∈ family f.trees, ∀ q ∈ family f.trees, q ⊂ p → x ∉ q → x ∉ p) :
    family (f.subsetNone xs).trees = havingNone (family f.trees) xs := by
  have hc := hf.canon
  by_cases hne : xs = []
  · subst hne; simp [Forest.subsetNone, Forest.subsetMany, havingNone, family]
  have hk' : ∀ x ∈ xs, x ∈ f.univ.index := fun x hx => (hc.mem_index x).mpr (hk x hx)
  obtain ⟨e, hpn⟩ := subsetNone_known hf hne hk'
  refine Set.Subset.antisymm ?_ (subsetNone_bounds hf xs).1
  have oa := (Node.subsetNone_bounds hc.ordered hpn).1
  have hin : f.univ.InU (Node.subsetNone f.root (f.univ.getPriorities xs)) := fun s hs =>
    hc.inU s ((Node.subsetNone_bounds hc.ordered hpn).2.2 s hs).1
  have hfamc := fam_canonical hc.ok oa hin
  rw [Forest.fam] at hfamc
  rw [e, hfamc]
  have hfam := hc.fam
  rw [Forest.fam] at hfam
  rw [← hfam] at hup ⊢
  have ex := Node.subsetNone_ok hc.ordered hpn (by
    intro k hkk p hp q hq hqp hkq hkp
    obtain ⟨x, hx, rfl⟩ := (mem_priorities hc.ok hk' k).mp hkk
    obtain ⟨P, hP, rfl⟩ := (mem_den_iff hc.ok hc.inU).mp hp
    obtain ⟨Q, hQ, rfl⟩ := (mem_den_iff hc.ok hc.inU).mp hq
    rw [mem_image_prio hc.ok hQ.1 (hk' x hx)] at hkq
    rw [mem_image_prio hc.ok hP.1 (hk' x hx)] at hkp
    exact hup x hx P hP Q hQ ((image_prio_ssubset hc.ok hQ.1 hP.1).mp hqp) hkq hkp)
  rintro S ⟨hS, _⟩
  obtain ⟨h1, h2⟩ := (ex _).mp hS.2
  refine ⟨⟨hS.1, h1⟩, fun x hx hxS => ?_⟩
  exact h2 (f.univ.prio x) ((mem_priorities hc.ok hk' _).mpr ⟨x, hx, rfl⟩)
    ((mem_image_prio hc.ok hS.1 (hk' x hx)).mpr hxS)

/-- The hypotheses are met: no member of `{{1,2},{1,3},{4}}` lies below another. -/
example := subsetNone_family_partial (reach_many [[1, 2], [1, 3], [4]]) (xs := [2, 3]) (by
    rw [many_family]
    intro x hx
    simp only [List.mem_cons, List.not_mem_nil, or_false] at hx
    rcases hx with rfl | rfl
    · exact ⟨{1, 2}, ⟨⟨[1, 2], by simp, by decide⟩, by decide⟩, by decide⟩
    · exact ⟨{1, 3}, ⟨⟨[1, 3], by simp, by decide⟩, by decide⟩, by decide⟩) (by
    rw [many_family]
    rintro x hx p ⟨⟨l, hl, rfl⟩, -⟩ q ⟨⟨r, hr, rfl⟩, -⟩
    simp only [List.mem_cons, List.not_mem_nil, or_false] at hx hl hr
    rcases hx with rfl | rfl <;> rcases hl with rfl | rfl | rfl <;> rcases hr with rfl | rfl | rfl <;> decide)

/-- C22 (proved part): one distinct element, known or not. -/
theorem subsetNone_one_partial {f : Forest T} (hf : Reach f) {xs : List T} {x : T} (hne : xs ≠ [])
    (hx : ∀ y ∈ xs, y = x) :
    family (f.subsetNone xs).trees = havingNone (family f.trees) xs := by
  have hc := hf.canon
  have hmem : x ∈ xs := by
    cases xs with
    | nil => exact absurd rfl hne
    | cons a l => have := hx a (by simp); subst this; simp
  have hset : havingNone (family f.trees) xs = without (family f.trees) x := by
    ext s; simp only [havingNone, without, Set.mem_ofPred_eq]
    exact ⟨fun h => ⟨h.1, h.2 x hmem⟩, fun h => ⟨h.1, fun y hy => hx y hy ▸ h.2⟩⟩
  by_cases hxi : x ∈ f.univ.index
  · obtain ⟨e, hpn⟩ := subsetNone_known hf hne (fun y hy => hx y hy ▸ hxi)
    rw [hset, ← subsetNot_family hf x, e, Node.subsetNone_const hc.ordered hpn (e := f.univ.prio x)]
    · simp [Forest.subsetNot, getPriority_prio hc.ok hxi]
    · intro k hk
      obtain ⟨y, hy, rfl⟩ := (mem_priorities hc.ok (fun y hy => hx y hy ▸ hxi) k).mp hk
      rw [hx y hy]
  · have hn : ∀ s ∈ family f.trees, x ∉ s := fun s hs hxs => hxi ((hc.mem_index x).mpr ⟨s, hs, hxs⟩)
    rw [subsetNone_unknown hf hmem hn, hset]
    ext s; simp only [without, Set.mem_ofPred_eq]
    exact ⟨fun h => ⟨h, hn s h⟩, fun h => h.1⟩

example := subsetNone_one_partial (reach_many [[1, 2], [1, 3], [4]]) (xs := [2, 2]) (x := 2) (by decide) (by decide)

end Verif.Zdd2
