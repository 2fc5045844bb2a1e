import Mathlib.Data.List.Sort
import Mathlib.Data.List.Lex
import Mathlib.Data.Finset.Basic
import Mathlib.Data.Finset.Card
import Mathlib.Data.Finset.Sort
import Mathlib.Data.List.Dedup

/-!
# Library pieces used by the code: sorting, `unique`, maps, hash-set iteration

These model `itertools::sorted`, `itertools::unique`, and the standard maps; they are not code of
the repository, so their behaviour is part of the trusted reading (see DESIGN.md).
-/

namespace Verif

universe u v

/-- `itertools::Itertools::unique`: keep the first occurrence of each element.
weave/src/matrix/forest/mod.rs:62,80, weave/src/zdd2/forest/universe/mod.rs:43,54, bowtie-core/src/closet_builder.rs:30, bowtie-core/src/bdd/closet/select.rs:23. -/
def uniq {α : Type u} [DecidableEq α] : List α → List α
  | [] => []
  | a :: l => a :: (uniq l).filter (fun b => decide (b ≠ a))

/-- `itertools::Itertools::sorted` (a stable sort by the element order).
weave/src/matrix/forest/mod.rs:80, weave/src/zdd2/forest/universe/mod.rs:54,85, weave/src/zdd/tree/mod.rs:61,77, weave/src/zdd/tree/universe.rs:53, bowtie-core/src/bdd/node/summarize.rs:35, bowtie-core/src/bdd/closet/select.rs:24. -/
def sorted {α : Type u} [LinearOrder α] (l : List α) : List α :=
  l.insertionSort (· ≤ ·)

section uniq
variable {α : Type u} [DecidableEq α]

@[simp] theorem mem_uniq {a : α} {l : List α} : a ∈ uniq l ↔ a ∈ l := by
  induction l with
  | nil => simp [uniq]
  | cons b l ih =>
    simp only [uniq, List.mem_cons, List.mem_filter, ih, decide_eq_true_eq]
    by_cases h : a = b <;> simp [h]

theorem nodup_uniq (l : List α) : (uniq l).Nodup := by
  induction l with
  | nil => simp [uniq]
  | cons b l ih =>
    simp only [uniq, List.nodup_cons, List.mem_filter]
    exact ⟨by simp, ih.filter _⟩

theorem uniq_sublist (l : List α) : (uniq l).Sublist l := by
  induction l with
  | nil => simp [uniq]
  | cons b l ih =>
    simp only [uniq]
    exact List.Sublist.cons_cons _ ((List.filter_sublist).trans ih)

theorem uniq_of_nodup {l : List α} (h : l.Nodup) : uniq l = l := by
  induction l with
  | nil => rfl
  | cons b l ih =>
    rw [List.nodup_cons] at h
    rw [uniq, ih h.2, List.filter_eq_self.2]
    intro a ha
    have : a ≠ b := fun e => h.1 (e ▸ ha)
    simp [this]

@[simp] theorem uniq_eq_nil {l : List α} : uniq l = [] ↔ l = [] := by
  cases l <;> simp [uniq]

end uniq

section sorted
variable {α : Type u} [LinearOrder α]

theorem sorted_perm (l : List α) : (sorted l).Perm l := List.perm_insertionSort _ _

@[simp] theorem mem_sorted {a : α} {l : List α} : a ∈ sorted l ↔ a ∈ l :=
  (sorted_perm l).mem_iff

@[simp] theorem length_sorted {l : List α} : (sorted l).length = l.length :=
  (sorted_perm l).length_eq

@[simp] theorem sorted_nil : sorted ([] : List α) = [] := rfl

theorem pairwise_sorted (l : List α) : (sorted l).Pairwise (· ≤ ·) :=
  List.pairwise_insertionSort _ _

theorem nodup_sorted {l : List α} : (sorted l).Nodup ↔ l.Nodup := (sorted_perm l).nodup_iff

theorem sorted_lt_of_nodup {l : List α} (h : l.Nodup) : (sorted l).Pairwise (· < ·) := by
  have h1 := pairwise_sorted l
  have h2 : (sorted l).Pairwise (· ≠ ·) := nodup_sorted.2 h
  exact (h1.and h2).imp (fun ⟨a, b⟩ => lt_of_le_of_ne a b)

theorem sorted_of_le {l : List α} (h : l.Pairwise (· ≤ ·)) : sorted l = l :=
  (sorted_perm l).eq_of_pairwise' (pairwise_sorted l) h

theorem sorted_of_lt {l : List α} (h : l.Pairwise (· < ·)) : sorted l = l :=
  sorted_of_le (h.imp le_of_lt)

theorem sorted_congr {l₁ l₂ : List α} (h : l₁.Perm l₂) : sorted l₁ = sorted l₂ :=
  ((sorted_perm l₁).trans (h.trans (sorted_perm l₂).symm)).eq_of_pairwise'
    (pairwise_sorted _) (pairwise_sorted _)

theorem lt_ext {l₁ l₂ : List α} (h₁ : l₁.Pairwise (· < ·)) (h₂ : l₂.Pairwise (· < ·))
    (h : ∀ a, a ∈ l₁ ↔ a ∈ l₂) : l₁ = l₂ :=
  List.Pairwise.eq_of_mem_iff h₁ h₂ (fun {a} => h a)

theorem nodup_of_lt {l : List α} (h : l.Pairwise (· < ·)) : l.Nodup :=
  h.imp (fun h => ne_of_lt h)

/-- `set.iter().cloned().sorted().unique().collect()`,
weave/src/matrix/forest/mod.rs:79-81 and weave/src/zdd2/forest/universe/mod.rs (`filter_repeats`). -/
def filterRepeats (set : List α) : List α := uniq (sorted set)

@[simp] theorem mem_filterRepeats {a : α} {l : List α} : a ∈ filterRepeats l ↔ a ∈ l := by
  simp [filterRepeats]

theorem filterRepeats_lt (l : List α) : (filterRepeats l).Pairwise (· < ·) := by
  have h1 : (filterRepeats l).Pairwise (· ≤ ·) := (pairwise_sorted l).sublist (uniq_sublist _)
  have h2 : (filterRepeats l).Pairwise (· ≠ ·) := nodup_uniq _
  exact (h1.and h2).imp (fun ⟨a, b⟩ => lt_of_le_of_ne a b)

theorem filterRepeats_of_lt {l : List α} (h : l.Pairwise (· < ·)) : filterRepeats l = l :=
  lt_ext (filterRepeats_lt l) h (by simp)

theorem filterRepeats_eq_iff {l₁ l₂ : List α} :
    filterRepeats l₁ = filterRepeats l₂ ↔ ∀ a, a ∈ l₁ ↔ a ∈ l₂ := by
  constructor
  · intro h a
    rw [← mem_filterRepeats (l := l₁), h, mem_filterRepeats]
  · intro h
    exact lt_ext (filterRepeats_lt _) (filterRepeats_lt _) (by simpa using h)

@[simp] theorem toFinset_filterRepeats (l : List α) : (filterRepeats l).toFinset = l.toFinset := by
  ext a; simp

theorem filterRepeats_eq_iff_toFinset {l₁ l₂ : List α} :
    filterRepeats l₁ = filterRepeats l₂ ↔ l₁.toFinset = l₂.toFinset := by
  rw [filterRepeats_eq_iff, Finset.ext_iff]; simp

@[simp] theorem filterRepeats_eq_nil {l : List α} : filterRepeats l = [] ↔ l = [] := by
  rw [List.eq_nil_iff_forall_not_mem, List.eq_nil_iff_forall_not_mem]; simp

theorem toFinset_inj_of_lt {l₁ l₂ : List α} (h₁ : l₁.Pairwise (· < ·)) (h₂ : l₂.Pairwise (· < ·))
    (h : l₁.toFinset = l₂.toFinset) : l₁ = l₂ :=
  lt_ext h₁ h₂ (fun a => by simpa using congrArg (a ∈ ·) h)

end sorted

/-! ## Hash sets -/

/-- An enumeration order for the hash sets over `α`: which order `iter()` (or a rayon split followed
by a collect) visits the elements of a set in.  It is a parameter of every operation that iterates;
theorems quantify over all of them.
weave/src/matrix/forest/mod.rs:26,38,105-112, weave/src/matrix/tree/mod.rs:30, weave/src/zdd2/forest/mod.rs:85-119. -/
structure HashOrder (α : Type u) [DecidableEq α] where
  iter : Finset α → List α
  nodup : ∀ s, (iter s).Nodup
  mem : ∀ s a, a ∈ iter s ↔ a ∈ s

namespace HashOrder
variable {α : Type u} [DecidableEq α]

@[simp] theorem mem_iter (h : HashOrder α) {s : Finset α} {a : α} : a ∈ h.iter s ↔ a ∈ s := h.mem s a

@[simp] theorem toFinset_iter (h : HashOrder α) (s : Finset α) : (h.iter s).toFinset = s := by
  ext a; simp

theorem perm (h h' : HashOrder α) (s : Finset α) : (h.iter s).Perm (h'.iter s) :=
  (List.perm_ext_iff_of_nodup (h.nodup s) (h'.nodup s)).2 (by simp)

theorem length_iter (h : HashOrder α) (s : Finset α) : (h.iter s).length = s.card := by
  conv_rhs => rw [← h.toFinset_iter s]
  exact (List.toFinset_card_of_nodup (h.nodup s)).symm

/-- Some enumeration order (used to show that hypotheses about orders are satisfiable).
Not code: used to state or prove properties. -/
noncomputable def anyOrder (α : Type u) [DecidableEq α] : HashOrder α where
  iter s := s.toList
  nodup s := s.nodup_toList
  mem s a := by simp

end HashOrder

/-! ## Maps -/

section SMap
variable {K : Type u} [LinearOrder K]

/-- `*map.entry(k).or_insert(0) += n` on a map kept as a key-sorted association list.
weave/src/matrix/forest/mod.rs:108, weave/src/zdd2/forest/universe/mod.rs:46,64. -/
def addTo (k : K) (n : Nat) : List (K × Nat) → List (K × Nat)
  | [] => [(k, n)]
  | (k', m) :: l =>
    if k < k' then (k, n) :: (k', m) :: l
    else if k = k' then (k', m + n) :: l
    else (k', m) :: addTo k n l

/-- Keys strictly ascending: the invariant of a map kept as a sorted association list.
Not code: used to state or prove properties. -/
def KeysLt {V : Type v} (m : List (K × V)) : Prop := m.Pairwise (fun a b => a.1 < b.1)

/-- `map.get(k)`.  weave/src/zdd2/forest/universe/mod.rs:71-73, weave/src/zdd/tree/universe.rs:51. -/
def lookup {V : Type v} (k : K) : List (K × V) → Option V
  | [] => none
  | (k', v) :: l => if k = k' then some v else lookup k l

theorem KeysLt.keys {V : Type v} {m : List (K × V)} (h : KeysLt m) :
    (m.map Prod.fst).Pairwise (· < ·) := by
  rw [List.pairwise_map]; exact h

theorem lookup_eq_some {V : Type v} {m : List (K × V)} (h : KeysLt m) {k : K} {v : V} :
    lookup k m = some v ↔ (k, v) ∈ m := by
  induction m with
  | nil => simp [lookup]
  | cons p l ih =>
    obtain ⟨k', v'⟩ := p
    rw [KeysLt, List.pairwise_cons] at h
    by_cases hk : k = k'
    · subst hk
      simp only [lookup, if_true, Option.some.injEq, List.mem_cons, Prod.mk.injEq, true_and]
      constructor
      · rintro rfl; simp
      · rintro (h1 | h1)
        · exact h1.symm
        · exact absurd (h.1 _ h1) (lt_irrefl _)
    · simp [lookup, hk, ih h.2]

theorem lookup_eq_none {V : Type v} {m : List (K × V)} {k : K} :
    lookup k m = none ↔ k ∉ m.map Prod.fst := by
  induction m with
  | nil => simp [lookup]
  | cons p l ih =>
    obtain ⟨k', v'⟩ := p
    by_cases hk : k = k'
    · simp [lookup, hk]
    · simp only [lookup, hk, if_false, ih, List.map_cons, List.mem_cons, false_or]

theorem keys_addTo (k : K) (n : Nat) (m : List (K × Nat)) (a : K) :
    a ∈ (addTo k n m).map Prod.fst ↔ a = k ∨ a ∈ m.map Prod.fst := by
  induction m with
  | nil => simp [addTo]
  | cons p l ih =>
    obtain ⟨k', v'⟩ := p
    unfold addTo
    split_ifs with h1 h2
    · simp
    · subst h2; simp
    · simp only [List.map_cons, List.mem_cons, ih]; tauto

theorem keysLt_addTo {k : K} {n : Nat} {m : List (K × Nat)} (h : KeysLt m) :
    KeysLt (addTo k n m) := by
  induction m with
  | nil => simp [addTo, KeysLt]
  | cons p l ih =>
    obtain ⟨k', v'⟩ := p
    have hh := h
    rw [KeysLt, List.pairwise_cons] at h
    unfold addTo
    split_ifs with h1 h2
    · rw [KeysLt, List.pairwise_cons]
      refine ⟨?_, hh⟩
      intro q hq
      rcases List.mem_cons.1 hq with rfl | hq
      · exact h1
      · exact lt_trans h1 (h.1 q hq)
    · subst h2
      rw [KeysLt, List.pairwise_cons]; exact ⟨h.1, h.2⟩
    · rw [KeysLt, List.pairwise_cons]
      refine ⟨?_, ih h.2⟩
      intro q hq
      have : q.1 ∈ (addTo k n l).map Prod.fst := List.mem_map_of_mem hq
      rw [keys_addTo] at this
      rcases this with h3 | h3
      · simp only [h3]; exact lt_of_le_of_ne (not_lt.1 h1) (fun e => h2 e.symm)
      · obtain ⟨q', hq', e⟩ := List.mem_map.1 h3
        rw [← e]; exact h.1 q' hq'

theorem lookup_addTo {k : K} {n : Nat} {m : List (K × Nat)} (h : KeysLt m) (a : K) :
    lookup a (addTo k n m) =
      if a = k then some ((lookup k m).getD 0 + n) else lookup a m := by
  induction m with
  | nil =>
    by_cases hk : a = k <;> simp [addTo, lookup, hk]
  | cons p l ih =>
    obtain ⟨k', v'⟩ := p
    rw [KeysLt, List.pairwise_cons] at h
    unfold addTo
    split_ifs with h1 h2 h3 h4 h5
    · subst h2
      have hnk : lookup a ((k', v') :: l) = none := by
        rw [lookup_eq_none]
        simp only [List.map_cons, List.mem_cons, not_or]
        refine ⟨ne_of_lt h1, ?_⟩
        intro hm
        obtain ⟨q', hq', e⟩ := List.mem_map.1 hm
        have := h.1 q' hq'
        simp only [e] at this
        exact lt_asymm h1 this
      rw [hnk]; simp [lookup]
    · simp [lookup, h2]
    · subst h4; subst h3; simp [lookup]
    · subst h3; simp [lookup, h4]
    · subst h5
      simp [lookup, h3, ih h.2]
    · simp [lookup, ih h.2, h5]

/-- Two key-sorted association lists with the same look-ups are equal. -/
theorem smap_ext {V : Type v} {m₁ m₂ : List (K × V)} (h₁ : KeysLt m₁) (h₂ : KeysLt m₂)
    (h : ∀ k, lookup k m₁ = lookup k m₂) : m₁ = m₂ := by
  have hmem : ∀ p, p ∈ m₁ ↔ p ∈ m₂ := by
    intro ⟨k, v⟩
    rw [← lookup_eq_some h₁, ← lookup_eq_some h₂, h]
  have : Std.Irrefl (fun a b : K × V => a.1 < b.1) := ⟨fun a => lt_irrefl a.1⟩
  exact List.perm_ext_iff_of_nodup
    (h₁.imp (fun {a b} hh e => by subst e; exact lt_irrefl _ hh))
    (h₂.imp (fun {a b} hh e => by subst e; exact lt_irrefl _ hh)) |>.2 hmem |>.eq_of_pairwise
    (fun a b _ _ h1 h2 => absurd h2 (lt_asymm h1)) h₁ h₂

/-- The counting fold `items.fold(HashMap::new(), |m, i| { *m.entry(i).or_insert(0) += 1; m })`.
weave/src/matrix/forest/mod.rs:105-110, weave/src/zdd2/forest/universe/mod.rs:43-48. -/
def countMap (l : List K) : List (K × Nat) := l.foldl (fun m k => addTo k 1 m) []

theorem countMap_aux (l : List K) (m : List (K × Nat)) (h : KeysLt m) :
    KeysLt (l.foldl (fun m k => addTo k 1 m) m) ∧
    ∀ a, lookup a (l.foldl (fun m k => addTo k 1 m) m) =
      if a ∈ l then some ((lookup a m).getD 0 + l.count a) else lookup a m := by
  induction l generalizing m with
  | nil => simpa using h
  | cons b l ih =>
    simp only [List.foldl_cons]
    obtain ⟨h1, h2⟩ := ih (addTo b 1 m) (keysLt_addTo h)
    refine ⟨h1, fun a => ?_⟩
    rw [h2, lookup_addTo h]
    by_cases hab : a = b
    · subst hab
      by_cases hal : a ∈ l
      · simp [hal]; omega
      · simp [hal, List.count_eq_zero_of_not_mem hal]
    · have : b ≠ a := fun e => hab e.symm
      simp [hab, this]

theorem countMap_keysLt (l : List K) : KeysLt (countMap l) :=
  (countMap_aux l [] List.Pairwise.nil).1

theorem lookup_countMap (l : List K) (a : K) :
    lookup a (countMap l) = if a ∈ l then some (l.count a) else none := by
  have := (countMap_aux l [] List.Pairwise.nil).2 a
  simpa [lookup, countMap] using this

theorem mem_countMap (l : List K) (a : K) (n : Nat) :
    (a, n) ∈ countMap l ↔ a ∈ l ∧ n = l.count a := by
  rw [← lookup_eq_some (countMap_keysLt l), lookup_countMap]
  by_cases h : a ∈ l <;> simp [h, eq_comm]

theorem countMap_congr {l₁ l₂ : List K} (h : l₁.Perm l₂) : countMap l₁ = countMap l₂ :=
  smap_ext (countMap_keysLt _) (countMap_keysLt _) (fun k => by
    rw [lookup_countMap, lookup_countMap, h.count_eq]; simp [h.mem_iff])

/-- `iter.sorted_by(|(k1, _), (k2, _)| Ord::cmp(k1, k2))`: stable sort of entries by key.
weave/src/matrix/forest/mod.rs:112, weave/src/zdd2/forest/mod.rs:119. -/
def sortByKey {V : Type v} (l : List (K × V)) : List (K × V) :=
  l.insertionSort (fun a b => a.1 ≤ b.1)

theorem sortByKey_of_perm {V : Type v} {l m : List (K × V)} (h : KeysLt m) (hp : l.Perm m) :
    sortByKey l = m := by
  have hs : (sortByKey l).Pairwise (fun a b : K × V => a.1 ≤ b.1) := by
    have : Std.Total (fun a b : K × V => a.1 ≤ b.1) := ⟨fun a b => le_total a.1 b.1⟩
    have : IsTrans (K × V) (fun a b => a.1 ≤ b.1) := ⟨fun a b c h1 h2 => le_trans h1 h2⟩
    exact List.pairwise_insertionSort _ _
  have hp' : (sortByKey l).Perm m := (List.perm_insertionSort _ l).trans hp
  refine hp'.eq_of_pairwise (le := fun a b : K × V => a.1 ≤ b.1) ?_ hs (h.imp le_of_lt)
  intro a b ha hb h1 h2
  have ha := hp'.mem_iff.1 ha
  have e : a.1 = b.1 := le_antisymm h1 h2
  have h3 := (lookup_eq_some h (k := a.1) (v := a.2)).2 ha
  have h4 := (lookup_eq_some h (k := b.1) (v := b.2)).2 hb
  rw [e, h4] at h3
  exact Prod.ext e (by simpa using h3.symm)

/-- `map.entry(k)` followed by an update: write `f (map.get(k))` at `k`.  Covers
`or_insert_with(vec).push(x)`, `or_insert_with(v)` and `insert(k, v)`.
bowtie-core/src/bdd/closet_builder/mod.rs:27-33,43-45,56-58. -/
def upsert {V : Type v} (k : K) (f : Option V → V) : List (K × V) → List (K × V)
  | [] => [(k, f none)]
  | (k', w) :: l =>
    if k < k' then (k, f none) :: (k', w) :: l
    else if k = k' then (k', f (some w)) :: l
    else (k', w) :: upsert k f l

/-- `map.insert(k, v)`.
collected maps: weave/src/zdd/tree/universe.rs:28, weave/src/zdd2/forest/universe/serialize.rs:12-32. -/
def insertKV {V : Type v} (k : K) (x : V) (m : List (K × V)) : List (K × V) :=
  upsert k (fun _ => x) m

/-- `map.entry(k).or_insert_with(|| v)`.  bowtie-core/src/bdd/closet_builder/mod.rs:31-33. -/
def orInsert {V : Type v} (k : K) (x : V) (m : List (K × V)) : List (K × V) :=
  upsert k (fun o => o.getD x) m

/-- `map.entry(k).or_insert_with(|| vec![]).push(x)`.
bowtie-core/src/bdd/closet_builder/mod.rs:27-30,43-46,56-59, bowtie-core/src/bdd/node/summarize.rs:24, bowtie-core/src/bdd/closet/categorize.rs:14, bowtie-core/src/bdd/closet/complete_outfit.rs:77. -/
def pushTo {V : Type v} (k : K) (x : V) (m : List (K × List V)) : List (K × List V) :=
  upsert k (fun o => o.getD [] ++ [x]) m

theorem keys_upsert {V : Type v} (k : K) (f : Option V → V) (m : List (K × V)) (a : K) :
    a ∈ (upsert k f m).map Prod.fst ↔ a = k ∨ a ∈ m.map Prod.fst := by
  induction m with
  | nil => simp [upsert]
  | cons p l ih =>
    obtain ⟨k', v'⟩ := p
    unfold upsert
    split_ifs with h1 h2
    · simp
    · subst h2; simp
    · simp only [List.map_cons, List.mem_cons, ih]; tauto

theorem keysLt_upsert {V : Type v} {k : K} {f : Option V → V} {m : List (K × V)} (h : KeysLt m) :
    KeysLt (upsert k f m) := by
  induction m with
  | nil => simp [upsert, KeysLt]
  | cons p l ih =>
    obtain ⟨k', v'⟩ := p
    have hh := h
    rw [KeysLt, List.pairwise_cons] at h
    unfold upsert
    split_ifs with h1 h2
    · rw [KeysLt, List.pairwise_cons]
      refine ⟨?_, hh⟩
      intro q hq
      rcases List.mem_cons.1 hq with rfl | hq
      · exact h1
      · exact lt_trans h1 (h.1 q hq)
    · subst h2
      rw [KeysLt, List.pairwise_cons]; exact ⟨h.1, h.2⟩
    · rw [KeysLt, List.pairwise_cons]
      refine ⟨?_, ih h.2⟩
      intro q hq
      have : q.1 ∈ (upsert k f l).map Prod.fst := List.mem_map_of_mem hq
      rw [keys_upsert] at this
      rcases this with h3 | h3
      · simp only [h3]; exact lt_of_le_of_ne (not_lt.1 h1) (fun e => h2 e.symm)
      · obtain ⟨q', hq', e⟩ := List.mem_map.1 h3
        rw [← e]; exact h.1 q' hq'

theorem lookup_upsert {V : Type v} {k : K} {f : Option V → V} {m : List (K × V)} (h : KeysLt m)
    (a : K) : lookup a (upsert k f m) = if a = k then some (f (lookup k m)) else lookup a m := by
  induction m with
  | nil =>
    by_cases hk : a = k <;> simp [upsert, lookup, hk]
  | cons p l ih =>
    obtain ⟨k', v'⟩ := p
    rw [KeysLt, List.pairwise_cons] at h
    unfold upsert
    split_ifs with h1 h2 h3 h4 h5
    · subst h2
      have hnk : lookup a ((k', v') :: l) = none := by
        rw [lookup_eq_none]
        simp only [List.map_cons, List.mem_cons, not_or]
        refine ⟨ne_of_lt h1, ?_⟩
        intro hm
        obtain ⟨q', hq', e⟩ := List.mem_map.1 hm
        have := h.1 q' hq'
        simp only [e] at this
        exact lt_asymm h1 this
      rw [hnk]; simp [lookup]
    · simp [lookup, h2]
    · subst h4; subst h3; simp [lookup]
    · subst h3; simp [lookup, h4]
    · subst h5
      simp [lookup, h3, ih h.2]
    · simp [lookup, ih h.2, h5]

/-- Grouping fold: `iter.fold(Map::new(), |m, (k, v)| { m.entry(k).or_insert_with(vec).push(v) })`.
bowtie-core/src/bdd/closet/categorize.rs:12-16, bowtie-core/src/bdd/closet/complete_outfit.rs:73-79. -/
def groupPush {V : Type v} (l : List (K × V)) : List (K × List V) :=
  l.foldl (fun m p => pushTo p.1 p.2 m) []

theorem groupPush_aux {V : Type v} (l : List (K × V)) (m : List (K × List V)) (h : KeysLt m) :
    KeysLt (l.foldl (fun m p => pushTo p.1 p.2 m) m) ∧
    ∀ a, lookup a (l.foldl (fun m p => pushTo p.1 p.2 m) m) =
      if a ∈ l.map Prod.fst then
        some ((lookup a m).getD [] ++ (l.filter (fun p => decide (p.1 = a))).map Prod.snd)
      else lookup a m := by
  induction l generalizing m with
  | nil => simpa using h
  | cons b l ih =>
    simp only [List.foldl_cons]
    obtain ⟨h1, h2⟩ := ih (pushTo b.1 b.2 m) (keysLt_upsert h)
    refine ⟨h1, fun a => ?_⟩
    rw [h2, pushTo, lookup_upsert h]
    by_cases hab : a = b.1
    · subst hab
      by_cases hal : b.1 ∈ l.map Prod.fst
      · simp only [hal, if_true, List.map_cons, List.mem_cons, true_or, Option.getD_some,
          List.filter_cons, decide_true, List.append_assoc, List.singleton_append]
      · have hf : l.filter (fun p => decide (p.1 = b.1)) = [] := by
          rw [List.filter_eq_nil_iff]
          intro p hp
          simp only [decide_eq_true_eq]
          intro e
          exact hal (e ▸ List.mem_map_of_mem hp)
        simp only [hal, if_false, if_true, List.map_cons, List.mem_cons, true_or, List.filter_cons,
          decide_true, hf, List.map_nil]
    · have hne : ¬ b.1 = a := fun e => hab e.symm
      simp only [hab, if_false, List.map_cons, List.mem_cons, false_or, List.filter_cons, hne,
        decide_false, Bool.false_eq_true]

theorem groupPush_keysLt {V : Type v} (l : List (K × V)) : KeysLt (groupPush l) :=
  (groupPush_aux l [] List.Pairwise.nil).1

theorem lookup_groupPush {V : Type v} (l : List (K × V)) (a : K) :
    lookup a (groupPush l) = if a ∈ l.map Prod.fst then
      some ((l.filter (fun p => decide (p.1 = a))).map Prod.snd) else none := by
  have := (groupPush_aux l [] List.Pairwise.nil).2 a
  simpa [lookup, groupPush] using this

end SMap

end Verif
