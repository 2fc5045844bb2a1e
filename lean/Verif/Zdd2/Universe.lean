import Verif.Base
import Verif.Zdd2.Node
import Mathlib.Data.List.Nodup

/-!
# Model of weave/src/zdd2/forest/universe/mod.rs

A `HashMap<T, _>` is a key-sorted association list (two hash maps are equal iff their association
lists are).  Where the code iterates over a hash map the model takes the entries in an arbitrary
order as an argument; `fromOccurrencesIter_eq` and `mergeIter_eq` show that the order is irrelevant,
so that the remaining definitions iterate in key order.
-/

set_option linter.unusedSimpArgs false
set_option linter.unusedSectionVars false

namespace Verif.Zdd2
open Verif

universe u
variable {T : Type u} [LinearOrder T]

/-- weave/src/zdd2/forest/universe/mod.rs:12-17 -/
structure Universe (T : Type u) where
  occurrences : List (T × Nat)
  priority : List (T × Nat)
  index : List T
deriving DecidableEq

namespace Universe

/-- `Default`, weave/src/zdd2/forest/universe/mod.rs:19-27 -/
def default : Universe T := ⟨[], [], []⟩

/-- The `ordering` closure, weave/src/zdd2/forest/universe/mod.rs:100: higher count first, then by
name.  `ordLe a b` is `ordering(a, b) != Greater`. -/
def ordLe (a b : T × Nat) : Prop := b.2 < a.2 ∨ (a.2 = b.2 ∧ a.1 ≤ b.1)

instance : DecidableRel (ordLe (T := T)) := fun a b => by unfold ordLe; infer_instance

/-- weave/src/zdd2/forest/universe/mod.rs:98-119.  `e1` and `e2` are the entries of `occurrences` in
the order the two iterations happen to visit them. -/
def fromOccurrencesIter (e1 e2 : List (T × Nat)) (occurrences : List (T × Nat)) : Universe T where
  occurrences := occurrences
  priority := (((e1.insertionSort ordLe).map Prod.fst).zipIdx).foldl
    (fun m e => insertKV e.1 e.2 m) []
  index := (e2.insertionSort ordLe).map Prod.fst

/-- weave/src/zdd2/forest/universe/mod.rs:98-119, iterating in key order. -/
def fromOccurrences (occurrences : List (T × Nat)) : Universe T :=
  fromOccurrencesIter occurrences occurrences occurrences

/-- weave/src/zdd2/forest/universe/mod.rs:30-38 -/
def fromItems (items : List T) : Universe T :=
  fromOccurrences (items.foldl (fun m i => insertKV i 1 m) [])

/-- weave/src/zdd2/forest/universe/mod.rs:40-51 (`filter_repeats`, 53-55, is `filterRepeats`). -/
def fromMatrix (matrix : List (List T)) : Universe T :=
  fromOccurrences (countMap (uniq (matrix.map filterRepeats)).flatten)

/-- weave/src/zdd2/forest/universe/mod.rs:57-69.  `e` is the order in which `other.occurrences` is
visited. -/
def mergeIter (e : List (T × Nat)) (self other : Universe T) : Universe T :=
  if self = other then self
  else fromOccurrences (e.foldl (fun m p => addTo p.1 p.2 m) self.occurrences)

/-- weave/src/zdd2/forest/universe/mod.rs:57-69, iterating in key order. -/
def merge (self other : Universe T) : Universe T := mergeIter other.occurrences self other

/-- weave/src/zdd2/forest/universe/mod.rs:71-73 -/
def getPriority (u : Universe T) (item : T) : Option Nat := lookup item u.priority

/-- weave/src/zdd2/forest/universe/mod.rs:75-79, collected into a `Vec`. -/
def getPriorities (u : Universe T) (items : List T) : List Nat := items.filterMap u.getPriority

/-- weave/src/zdd2/forest/universe/mod.rs:75-79, collected into a `Node`
(`FromIterator for Node`, node/mod.rs:173-183).  `filter_map` reports the upper bound of the slice
iterator below it, which is the length of the slice. -/
def getPrioritiesNode (u : Universe T) (items : List T) : Node :=
  Node.fromIter (items.length == 0) (items.filterMap u.getPriority)

/-- weave/src/zdd2/forest/universe/mod.rs:89-91 -/
def getItem (u : Universe T) (id : Nat) : Option T := u.index[id]?

/-- weave/src/zdd2/forest/universe/mod.rs:81-87 -/
def getItems (u : Universe T) (ids : List Nat) : List T := sorted (ids.filterMap u.getItem)

/-! ### helper lemmas -/

theorem ordLe_total (a b : T × Nat) : ordLe a b ∨ ordLe b a := by
  unfold ordLe
  rcases lt_trichotomy a.2 b.2 with h | h | h
  · exact Or.inr (Or.inl h)
  · rcases le_total a.1 b.1 with h' | h'
    · exact Or.inl (Or.inr ⟨h, h'⟩)
    · exact Or.inr (Or.inr ⟨h.symm, h'⟩)
  · exact Or.inl (Or.inl h)

theorem ordLe_trans {a b c : T × Nat} (h1 : ordLe a b) (h2 : ordLe b c) : ordLe a c := by
  unfold ordLe at *
  rcases h1 with h1 | ⟨h1, h1'⟩ <;> rcases h2 with h2 | ⟨h2, h2'⟩
  · left; omega
  · left; omega
  · left; omega
  · right; exact ⟨by omega, le_trans h1' h2'⟩

theorem ordLe_antisymm {a b : T × Nat} (h1 : ordLe a b) (h2 : ordLe b a) : a = b := by
  unfold ordLe at *
  rcases h1 with h1 | ⟨h1, h1'⟩ <;> rcases h2 with h2 | ⟨h2, h2'⟩
  · omega
  · omega
  · omega
  · exact Prod.ext (le_antisymm h1' h2') h1

instance : Std.Total (ordLe (T := T)) := ⟨ordLe_total⟩
instance : IsTrans (T × Nat) ordLe := ⟨fun _ _ _ => ordLe_trans⟩

theorem sort_perm {e m : List (T × Nat)} (h : e.Perm m) :
    e.insertionSort ordLe = m.insertionSort ordLe := by
  refine List.Perm.eq_of_pairwise (le := ordLe)
    ?_ (List.pairwise_insertionSort _ _)
    (List.pairwise_insertionSort _ _)
    ((List.perm_insertionSort _ _).trans (h.trans (List.perm_insertionSort _ _).symm))
  intro a b _ _ h1 h2
  exact ordLe_antisymm h1 h2

theorem fromOccurrencesIter_eq' {e1 e2 m : List (T × Nat)} (h1 : e1.Perm m) (h2 : e2.Perm m) :
    fromOccurrencesIter e1 e2 m = fromOccurrences m := by
  simp only [fromOccurrences, fromOccurrencesIter, sort_perm h1, sort_perm h2]

theorem keysLt_insertFold {V : Type*} (l : List (T × V)) (m : List (T × V)) (h : KeysLt m) :
    KeysLt (l.foldl (fun m e => insertKV e.1 e.2 m) m) := by
  induction l generalizing m with
  | nil => exact h
  | cons a l ih => exact ih _ (keysLt_upsert h)

theorem lookup_insertFold {V : Type*} (l : List (T × V)) (m : List (T × V)) (h : KeysLt m)
    (hn : (l.map Prod.fst).Nodup) (x : T) :
    lookup x (l.foldl (fun m e => insertKV e.1 e.2 m) m) =
      (lookup x l).or (lookup x m) := by
  induction l generalizing m with
  | nil => rfl
  | cons a l ih =>
    simp only [List.map_cons, List.nodup_cons] at hn
    simp only [List.foldl_cons]
    rw [ih (insertKV a.1 a.2 m) (keysLt_upsert h) hn.2, insertKV, lookup_upsert h]
    by_cases hx : x = a.1
    · subst hx
      have : lookup a.1 l = none := by rw [lookup_eq_none]; exact hn.1
      obtain ⟨a1, a2⟩ := a
      simp [this, lookup]
    · obtain ⟨a1, a2⟩ := a
      simp [hx, lookup]

theorem lookup_zipIdx (l : List T) (hn : l.Nodup) (x : T) (k n : Nat) :
    lookup x (l.zipIdx n) = some k ↔ n ≤ k ∧ l[k - n]? = some x := by
  induction l generalizing n with
  | nil => simp [lookup]
  | cons a l ih =>
    simp only [List.nodup_cons] at hn
    simp only [List.zipIdx_cons, lookup]
    by_cases hx : x = a
    · subst hx
      simp only [if_true, Option.some.injEq]
      constructor
      · rintro rfl; simp
      · rintro ⟨h1, h2⟩
        by_contra hk
        have : k - n = (k - n - 1) + 1 := by omega
        rw [this, List.getElem?_cons_succ] at h2
        exact hn.1 (List.mem_of_getElem? h2)
    · simp only [hx, if_false]
      rw [ih hn.2]
      constructor
      · rintro ⟨h1, h2⟩
        have : k - n = (k - (n+1)) + 1 := by omega
        exact ⟨by omega, by rw [this, List.getElem?_cons_succ]; exact h2⟩
      · rintro ⟨h1, h2⟩
        by_cases hk : k = n
        · subst hk; simp at h2; exact absurd h2.symm hx
        · have : k - n = (k - (n+1)) + 1 := by omega
          rw [this, List.getElem?_cons_succ] at h2
          exact ⟨by omega, h2⟩

/-- A universe made by `from_occurrences` from a proper map.  Not code: used to state or prove properties. -/
def Ok (u : Universe T) : Prop := KeysLt u.occurrences ∧ u = fromOccurrences u.occurrences

theorem ok_from {m : List (T × Nat)} (h : KeysLt m) : (fromOccurrences m).Ok := ⟨h, rfl⟩

theorem ok_default : (default : Universe T).Ok := ⟨List.Pairwise.nil, rfl⟩

theorem Ok.ext {u v : Universe T} (hu : u.Ok) (hv : v.Ok) (h : u.occurrences = v.occurrences) :
    u = v := by rw [hu.2, hv.2, h]

theorem index_perm {u : Universe T} (hu : u.Ok) : u.index.Perm (u.occurrences.map Prod.fst) := by
  rw [hu.2]
  exact (List.perm_insertionSort _ _).map _

theorem mem_index {u : Universe T} (hu : u.Ok) {x : T} :
    x ∈ u.index ↔ x ∈ u.occurrences.map Prod.fst := (index_perm hu).mem_iff

theorem nodup_index {u : Universe T} (hu : u.Ok) : u.index.Nodup :=
  (index_perm hu).nodup_iff.mpr (nodup_of_lt hu.1.keys)

theorem getPriority_iff {u : Universe T} (hu : u.Ok) {x : T} {k : Nat} :
    u.getPriority x = some k ↔ u.getItem k = some x := by
  have h : u.priority = (u.index.zipIdx).foldl (fun m e => insertKV e.1 e.2 m) [] := by
    rw [hu.2]; rfl
  have hn : ((u.index.zipIdx).map Prod.fst).Nodup := by
    rw [List.zipIdx_map_fst]; exact nodup_index hu
  rw [getPriority, getItem, h, lookup_insertFold _ _ List.Pairwise.nil hn]
  simp only [lookup, Option.or_none]
  rw [lookup_zipIdx _ (nodup_index hu)]
  simp

theorem getPriority_isSome {u : Universe T} (hu : u.Ok) {x : T} :
    (u.getPriority x).isSome ↔ x ∈ u.index := by
  rw [Option.isSome_iff_exists]
  simp only [getPriority_iff hu, getItem]
  rw [List.mem_iff_getElem?]

/-- Count of an item.  Not code: used to state or prove properties. -/
def count (u : Universe T) (x : T) : Nat := (lookup x u.occurrences).getD 0

theorem entry_count {u : Universe T} (hu : u.Ok) {p : T × Nat} (hp : p ∈ u.occurrences) :
    u.count p.1 = p.2 := by
  have := (lookup_eq_some hu.1 (k := p.1) (v := p.2)).mpr hp
  simp [count, this]

/-- The order of priorities. -/
theorem priority_lt {u : Universe T} (hu : u.Ok) {x y : T} {i j : Nat}
    (hx : u.getItem i = some x) (hy : u.getItem j = some y) :
    i < j ↔ (u.count y < u.count x ∨ (u.count x = u.count y ∧ x < y)) := by
  have hidx : u.index = (u.occurrences.insertionSort ordLe).map Prod.fst := by
    rw [hu.2]; rfl
  have hs : (u.occurrences.insertionSort ordLe).Pairwise ordLe := List.pairwise_insertionSort _ _
  have hp : (u.occurrences.insertionSort ordLe).Perm u.occurrences := List.perm_insertionSort _ _
  have key : ∀ {x y : T} {i j : Nat}, u.getItem i = some x → u.getItem j = some y → i < j →
      (u.count y < u.count x ∨ (u.count x = u.count y ∧ x < y)) := by
    intro x y i j hx hy hij
    have hx' := hx
    have hy' := hy
    rw [getItem, hidx, List.getElem?_map, Option.map_eq_some_iff] at hx hy
    obtain ⟨p, hp1, rfl⟩ := hx
    obtain ⟨q, hq1, rfl⟩ := hy
    have hne : p.1 ≠ q.1 := by
      intro e
      have h1 := (getPriority_iff hu).mpr hx'
      have h2 := (getPriority_iff hu).mpr hy'
      rw [e, h2] at h1
      simp at h1; omega
    obtain ⟨hi, hpi⟩ := List.getElem?_eq_some_iff.mp hp1
    obtain ⟨hj, hqj⟩ := List.getElem?_eq_some_iff.mp hq1
    have hle : ordLe p q := by
      have := List.pairwise_iff_getElem.mp hs i j hi hj hij
      rwa [hpi, hqj] at this
    have hpm : p ∈ u.occurrences := hp.mem_iff.mp (List.mem_of_getElem? hp1)
    have hqm : q ∈ u.occurrences := hp.mem_iff.mp (List.mem_of_getElem? hq1)
    rw [entry_count hu hpm, entry_count hu hqm]
    rcases hle with h | ⟨h, h'⟩
    · exact Or.inl h
    · exact Or.inr ⟨h, lt_of_le_of_ne h' hne⟩
  constructor
  · exact key hx hy
  · intro h
    by_contra hij
    rcases Nat.lt_or_eq_of_le (not_lt.mp hij) with h1 | h1
    · have := key hy hx h1
      rcases h with h | ⟨h, h'⟩ <;> rcases this with h2 | ⟨h2, h2'⟩
      · omega
      · omega
      · omega
      · exact lt_asymm h' h2'
    · subst h1
      rw [hx] at hy
      have := Option.some.inj hy; subst this
      rcases h with h | ⟨_, h⟩
      · omega
      · exact lt_irrefl _ h

/-! ### the maps -/

theorem addFold (e m : List (T × Nat)) (h : KeysLt m) :
    KeysLt (e.foldl (fun m p => addTo p.1 p.2 m) m) ∧
    ∀ x, lookup x (e.foldl (fun m p => addTo p.1 p.2 m) m) =
      if x ∈ e.map Prod.fst then
        some ((lookup x m).getD 0 + ((e.filter (fun p => p.1 = x)).map Prod.snd).sum)
      else lookup x m := by
  induction e generalizing m with
  | nil => simpa using h
  | cons b l ih =>
    simp only [List.foldl_cons]
    obtain ⟨h1, h2⟩ := ih (addTo b.1 b.2 m) (keysLt_addTo h)
    refine ⟨h1, fun x => ?_⟩
    rw [h2, lookup_addTo h]
    by_cases hx : x = b.1
    · subst hx
      by_cases hm : b.1 ∈ l.map Prod.fst
      · simp only [hm, if_true, List.map_cons, List.mem_cons, true_or, Option.getD_some,
          List.filter_cons, decide_true, List.map_cons, List.sum_cons]
        congr 1; omega
      · have : l.filter (fun p => p.1 = b.1) = [] := by
          rw [List.filter_eq_nil_iff]
          intro p hp e
          simp only [decide_eq_true_eq] at e
          exact hm (e ▸ List.mem_map_of_mem hp)
        simp [hm, this]
    · have hx' : ¬ b.1 = x := fun e => hx e.symm
      simp only [hx, if_false, List.map_cons, List.mem_cons, false_or, List.filter_cons, hx',
        decide_false, Bool.false_eq_true]

theorem addFold_lookup {e m : List (T × Nat)} (h : KeysLt m) (he : KeysLt e) (x : T) :
    lookup x (e.foldl (fun m p => addTo p.1 p.2 m) m) =
      match lookup x e with
      | some n => some ((lookup x m).getD 0 + n)
      | none => lookup x m := by
  rw [(addFold e m h).2]
  cases hx : lookup x e with
  | none =>
    rw [lookup_eq_none] at hx
    simp [hx]
  | some n =>
    have hmem := (lookup_eq_some he).mp hx
    have hk : x ∈ e.map Prod.fst := List.mem_map_of_mem hmem
    have : e.filter (fun p => p.1 = x) = [(x, n)] := by
      have hnd : e.Nodup := he.imp (fun {a b} hh e => by subst e; exact lt_irrefl _ hh)
      apply List.Perm.eq_singleton
      rw [List.perm_ext_iff_of_nodup (hnd.filter _) (by simp)]
      intro p
      simp only [List.mem_filter, decide_eq_true_eq, List.mem_singleton]
      constructor
      · rintro ⟨h1, rfl⟩
        have := (lookup_eq_some he (k := p.1) (v := p.2)).mpr h1
        rw [hx] at this
        have := Option.some.inj this; subst this; rfl
      · rintro rfl; exact ⟨hmem, rfl⟩
    simp [hk, this]

theorem ok_merge {u v : Universe T} (hu : u.Ok) : (merge u v).Ok := by
  unfold merge mergeIter
  split_ifs
  · exact hu
  · exact ok_from (addFold _ _ hu.1).1

theorem ok_fromMatrix (m : List (List T)) : (fromMatrix m).Ok := ok_from (countMap_keysLt _)

theorem items_fold (items : List T) (m : List (T × Nat)) (h : KeysLt m) :
    KeysLt (items.foldl (fun m i => insertKV i 1 m) m) ∧
    ∀ x, lookup x (items.foldl (fun m i => insertKV i 1 m) m) =
      if x ∈ items then some 1 else lookup x m := by
  induction items generalizing m with
  | nil => simpa using h
  | cons a l ih =>
    simp only [List.foldl_cons]
    obtain ⟨h1, h2⟩ := ih (insertKV a 1 m) (keysLt_upsert h)
    refine ⟨h1, fun x => ?_⟩
    rw [h2, insertKV, lookup_upsert h]
    by_cases hx : x = a <;> by_cases hm : x ∈ l <;> simp [hx, hm]

theorem ok_fromItems (items : List T) : (fromItems items).Ok :=
  ok_from (items_fold items [] List.Pairwise.nil).1

end Universe
end Verif.Zdd2
