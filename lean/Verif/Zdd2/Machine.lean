import Verif.Zdd2.Foreign
import Verif.Zdd2.Split
import Verif.Zdd2.Rerank

/-!
# The item counts of zdd2 forests in machine arithmetic (C82)

The counts of a `Universe` are `usize`.  A debug build checks every addition and panics on overflow, a
release build wraps around.  Both are modelled here, next to the unbounded counts of
`Verif.Zdd2.Universe`.  `M` is 2^64 (on a 64 bit machine; the theorems hold for every `M`).
-/

set_option linter.unusedSimpArgs false
set_option linter.unusedVariables false
set_option linter.unusedSectionVars false

namespace Verif.Zdd2
open Verif Verif.Spec Universe Forest
open Verif.Debug (Occurs)
open Verif.Zdd2.Node (parseNodeString)

universe u
variable {T : Type u} [LinearOrder T]

/-- `*occurrences.entry(item).or_insert(0usize) += n` with overflow checks; `none` is the panic.
weave/src/zdd2/forest/universe/mod.rs:46, 64. -/
def addToC (M : Nat) (k : T) (n : Nat) (m : List (T × Nat)) : Option (List (T × Nat)) :=
  if (lookup k m).getD 0 + n < M then some (addTo k n m) else none

/-- `*occurrences.entry(item).or_insert(0usize) += n` wrapping around.
weave/src/zdd2/forest/universe/mod.rs:46, 64. -/
def addToW (M : Nat) (k : T) (n : Nat) (m : List (T × Nat)) : List (T × Nat) :=
  insertKV k (((lookup k m).getD 0 + n) % M) m

/-- A loop of checked additions, the `fold`s of weave/src/zdd2/forest/universe/mod.rs:44-48, 62-66. -/
def addAllC (M : Nat) : List (T × Nat) → List (T × Nat) → Option (List (T × Nat))
  | [], m => some m
  | p :: e, m =>
    match addToC M p.1 p.2 m with
    | some m => addAllC M e m
    | none => none

namespace Universe

/-- weave/src/zdd2/forest/universe/mod.rs:40-51 with overflow checks. -/
def fromMatrixC (M : Nat) (matrix : List (List T)) : Option (Universe T) :=
  (addAllC M ((uniq (matrix.map filterRepeats)).flatten.map (fun x => (x, 1))) []).map fromOccurrences

/-- weave/src/zdd2/forest/universe/mod.rs:57-69 with overflow checks.  `e` is the order in which
`other.occurrences` is visited. -/
def mergeIterC (M : Nat) (e : List (T × Nat)) (self other : Universe T) : Option (Universe T) :=
  if self = other then some self
  else (addAllC M e self.occurrences).map fromOccurrences

/-- weave/src/zdd2/forest/universe/mod.rs:57-69 wrapping around. -/
def mergeIterW (M : Nat) (e : List (T × Nat)) (self other : Universe T) : Universe T :=
  if self = other then self
  else fromOccurrences (e.foldl (fun m p => addToW M p.1 p.2 m) self.occurrences)

end Universe

namespace Forest

/-- weave/src/zdd2/forest/mod.rs:71-79 with overflow checks. -/
def manyC (M : Nat) (matrix : List (List T)) : Option (Forest T) :=
  (Universe.fromMatrixC M matrix).map fun univ =>
    ⟨(matrix.map (fun items => univ.getPrioritiesNode items)).foldl Node.union .Never, univ⟩

/-- weave/src/zdd2/forest/mod.rs:91-98 with overflow checks. -/
def canonicalC (M : Nat) (root : Node) (univ : Universe T) : Option (Forest T) :=
  manyC M ((Node.trees root).map (fun set => univ.getItems set))

/-- weave/src/zdd2/forest/mod.rs:123-151, 180-187 with overflow checks: one of the three operations, by
what it does to the two roots.  `e` is the order in which the counts of `other` are visited. -/
def binaryC (M : Nat) (op : Node → Node → Node) (e : List (T × Nat)) (self other : Forest T) :
    Option (Forest T) :=
  match Universe.mergeIterC M e self.univ other.univ with
  | none => none
  | some univ =>
    match translateRoot self.univ univ self.root, translateRoot other.univ univ other.root with
    | some selfRoot, some otherRoot => canonicalC M (op selfRoot otherRoot) univ
    | _, _ => none

/-- weave/src/zdd2/forest/mod.rs:123-151, 180-187 wrapping around in `merge` (the counts made by
`from_matrix` are lengths of vectors). -/
def binaryW (M : Nat) (op : Node → Node → Node) (e : List (T × Nat)) (self other : Forest T) :
    Option (Forest T) :=
  let univ := Universe.mergeIterW M e self.univ other.univ
  match translateRoot self.univ univ self.root, translateRoot other.univ univ other.root with
  | some selfRoot, some otherRoot => some (canonical (op selfRoot otherRoot) univ)
  | _, _ => none

/-- weave/src/zdd2/forest/subset.rs:7-16 with overflow checks. -/
def subsetC (M : Nat) (f : Forest T) (element : T) : Option (Forest T) :=
  match f.univ.getPriority element with
  | none => some empty
  | some e => canonicalC M (Node.subset f.root e) f.univ

/-- weave/src/zdd2/forest/subset.rs:18-27 with overflow checks. -/
def subsetNotC (M : Nat) (f : Forest T) (element : T) : Option (Forest T) :=
  match f.univ.getPriority element with
  | none => some f
  | some e => canonicalC M (Node.subsetNot f.root e) f.univ

/-- weave/src/zdd2/forest/subset.rs:29-49 with overflow checks. -/
def subsetManyC (M : Nat) (f : Forest T) (elements : List T) (dflt : Forest T → Forest T)
    (func : Node → List Nat → Node) : Option (Forest T) :=
  if elements.isEmpty then some f
  else
    let known := f.univ.getPriorities elements
    if elements.length ≠ known.length then some (dflt f)
    else canonicalC M (func f.root known) f.univ

end Forest

/-! ### checked loops -/

theorem addAllC_eq (M : Nat) (e m : List (T × Nat)) (h : KeysLt m) :
    addAllC M e m =
      if ∀ x ∈ e.map Prod.fst,
          (lookup x (e.foldl (fun m p => addTo p.1 p.2 m) m)).getD 0 < M then
        some (e.foldl (fun m p => addTo p.1 p.2 m) m)
      else none := by
  induction e generalizing m with
  | nil => simp [addAllC]
  | cons b l ih =>
    rw [addAllC, addToC]
    have hk : KeysLt (addTo b.1 b.2 m) := keysLt_addTo h
    have hfin : ∀ x, lookup x (l.foldl (fun m p => addTo p.1 p.2 m) (addTo b.1 b.2 m)) =
        if x ∈ l.map Prod.fst then
          some ((lookup x (addTo b.1 b.2 m)).getD 0 + ((l.filter (fun p => p.1 = x)).map Prod.snd).sum)
        else lookup x (addTo b.1 b.2 m) := (addFold l (addTo b.1 b.2 m) hk).2
    have hb : (lookup b.1 m).getD 0 + b.2 ≤
        (lookup b.1 (l.foldl (fun m p => addTo p.1 p.2 m) (addTo b.1 b.2 m))).getD 0 := by
      rw [hfin, lookup_addTo h, if_pos rfl]
      split <;> simp
    simp only [List.foldl_cons, List.map_cons, List.mem_cons, forall_eq_or_imp]
    by_cases hM : (lookup b.1 m).getD 0 + b.2 < M
    · rw [if_pos hM]
      simp only
      rw [ih _ hk]
      have hb' : (lookup b.1 (l.foldl (fun m p => addTo p.1 p.2 m) (addTo b.1 b.2 m))).getD 0 < M ↔
          (b.1 ∈ l.map Prod.fst →
            (lookup b.1 (l.foldl (fun m p => addTo p.1 p.2 m) (addTo b.1 b.2 m))).getD 0 < M) := by
        constructor
        · exact fun h _ => h
        · intro hh
          by_cases hm : b.1 ∈ l.map Prod.fst
          · exact hh hm
          · rw [hfin, if_neg hm, lookup_addTo h, if_pos rfl]; exact hM
      by_cases hall : ∀ x ∈ l.map Prod.fst,
          (lookup x (l.foldl (fun m p => addTo p.1 p.2 m) (addTo b.1 b.2 m))).getD 0 < M
      · rw [if_pos hall, if_pos ⟨hb'.mpr (hall b.1), hall⟩]
      · rw [if_neg hall, if_neg fun h => hall h.2]
    · rw [if_neg hM, if_neg]
      rintro ⟨h1, _⟩
      exact hM (lt_of_le_of_lt hb h1)

/-- C82: with overflow checks `merge` panics exactly if the universes differ and some item of the second
has counts that add up to `M` or more, in whatever order the counts are visited; otherwise the result is
that of unbounded arithmetic. -/
theorem merge_checked (M : Nat) {u v : Universe T} (hu : u.Ok) (hv : v.Ok) {e : List (T × Nat)}
    (he : e.Perm v.occurrences) :
    Universe.mergeIterC M e u v =
      if u = v ∨ ∀ x ∈ v.occurrences.map Prod.fst, u.count x + v.count x < M then some (merge u v) else none := by
  rw [mergeIterC]
  by_cases h : u = v
  · rw [if_pos h, if_pos (Or.inl h), merge, mergeIter, if_pos h]
  · have hmi : ∀ e : List (T × Nat), e.Perm v.occurrences →
        e.foldl (fun m p => addTo p.1 p.2 m) u.occurrences =
          v.occurrences.foldl (fun m p => addTo p.1 p.2 m) u.occurrences := by
      intro e he
      refine smap_ext (addFold _ _ hu.1).1 (addFold _ _ hu.1).1 fun x => ?_
      rw [(addFold _ _ hu.1).2, (addFold _ _ hu.1).2]
      have h1 : x ∈ e.map Prod.fst ↔ x ∈ v.occurrences.map Prod.fst := (he.map _).mem_iff
      have h2 : ((e.filter (fun p => p.1 = x)).map Prod.snd).sum =
          ((v.occurrences.filter (fun p => p.1 = x)).map Prod.snd).sum :=
        ((he.filter _).map _).sum_eq
      by_cases hx : x ∈ v.occurrences.map Prod.fst
      · rw [if_pos hx, if_pos (h1.mpr hx), h2]
      · rw [if_neg hx, if_neg fun h => hx (h1.mp h)]
    have hc : ∀ x ∈ v.occurrences.map Prod.fst,
        (lookup x (v.occurrences.foldl (fun m p => addTo p.1 p.2 m) u.occurrences)).getD 0 =
          u.count x + v.count x := by
      intro x hx
      rw [addFold_lookup hu.1 hv.1, count, count]
      cases hl : lookup x v.occurrences with
      | none => exact absurd hx (lookup_eq_none.mp hl)
      | some n => rfl
    rw [if_neg h, addAllC_eq M e _ hu.1, hmi e he, merge, mergeIter, if_neg h]
    have : (∀ x ∈ e.map Prod.fst,
        (lookup x (v.occurrences.foldl (fun m p => addTo p.1 p.2 m) u.occurrences)).getD 0 < M) ↔
        ∀ x ∈ v.occurrences.map Prod.fst, u.count x + v.count x < M := by
      constructor
      · intro hh x hx
        rw [← hc x hx]; exact hh x ((he.map _).mem_iff.mpr hx)
      · intro hh x hx
        have hx' := (he.map Prod.fst).mem_iff.mp hx
        rw [hc x hx']; exact hh x hx'
    by_cases hall : ∀ x ∈ v.occurrences.map Prod.fst, u.count x + v.count x < M
    · rw [if_pos (this.mpr hall), if_pos (Or.inr hall)]; rfl
    · rw [if_neg fun hh => hall (this.mp hh), if_neg fun hh => hh.elim h hall]; rfl

example := merge_checked 3 (u := (many [[1, 2]]).univ) (v := (many [[1, 3], [1]]).univ) (reach_many [[1, 2]]).canon.ok
  (reach_many [[1, 3], [1]]).canon.ok (e := [(3, 1), (1, 2)]) (by decide +kernel)

theorem addFold_ones (l : List T) (m : List (T × Nat)) :
    (l.map (fun x => (x, 1))).foldl (fun m p => addTo p.1 p.2 m) m = l.foldl (fun m k => addTo k 1 m) m := by
  rw [List.foldl_map]

/-- With overflow checks `many` panics exactly if an item is in `M` or more members of the result. -/
theorem manyC_eq (M : Nat) (matrix : List (List T)) (hM : 0 < M) :
    ((∀ x, (many matrix).univ.count x < M) → manyC M matrix = some (many matrix)) ∧
    (¬ (∀ x, (many matrix).univ.count x < M) → manyC M matrix = none) := by
  have hu : (many matrix).univ = fromMatrix matrix := rfl
  have hcount : ∀ x, (fromMatrix matrix).count x =
      (lookup x (countMap (uniq (matrix.map filterRepeats)).flatten)).getD 0 := fun x => rfl
  have : (∀ x ∈ ((uniq (matrix.map filterRepeats)).flatten.map (fun x => (x, 1))).map Prod.fst,
      (lookup x (countMap (uniq (matrix.map filterRepeats)).flatten)).getD 0 < M) ↔
      ∀ x, (fromMatrix matrix).count x < M := by
    simp only [List.map_map, Function.comp_def, List.map_id', hcount]
    constructor
    · intro hh x
      by_cases hx : x ∈ (uniq (matrix.map filterRepeats)).flatten
      · exact hh x hx
      · rw [lookup_countMap, if_neg hx]; exact hM
    · exact fun hh x _ => hh x
  constructor <;> intro hall
  · have : addAllC M ((uniq (matrix.map filterRepeats)).flatten.map (fun x => (x, 1))) [] =
        some (countMap (uniq (matrix.map filterRepeats)).flatten) := by
      rw [addAllC_eq M _ _ List.Pairwise.nil, addFold_ones]
      exact if_pos (this.mpr hall)
    rw [manyC, fromMatrixC, this]; rfl
  · have : addAllC M ((uniq (matrix.map filterRepeats)).flatten.map (fun x => (x, 1))) [] = none := by
      rw [addAllC_eq M _ _ List.Pairwise.nil, addFold_ones]
      exact if_neg fun hh => hall (this.mp hh)
    rw [manyC, fromMatrixC, this]; rfl

theorem count_exact {f : Forest T} (hf : Reach f) (x : T) :
    f.univ.count x = (having (family f.trees) x).ncard := by
  have ho := (occurrences_exact hf f.univ.occurrences (List.Perm.refl _)).2 x
  have e : f.occurrencesIter f.univ.occurrences = f.univ.occurrences :=
    sortByKey_of_perm hf.canon.ok.1 (List.Perm.refl _)
  rw [e] at ho
  rw [Universe.count]
  cases hl : lookup x f.univ.occurrences with
  | some n => exact ((ho n).mp ((lookup_eq_some hf.canon.ok.1).mp hl)).2
  | none =>
    have hz : having (family f.trees) x = ∅ := by
      ext s
      simp only [having, Set.mem_ofPred_eq, Set.mem_empty_iff_false, iff_false, not_and]
      intro hs hx
      have := (ho _).mpr ⟨⟨s, hs, hx⟩, rfl⟩
      exact lookup_eq_none.mp hl (List.mem_map_of_mem this)
    rw [hz, Set.ncard_empty]; rfl

theorem count_le_len {f : Forest T} (hf : Reach f) (x : T) : f.univ.count x ≤ f.len := by
  rw [count_exact hf, len_exact hf]
  exact Set.ncard_le_ncard (fun s hs => hs.1) (fam_finite hf)

/-- C82: with overflow checks `many` panics exactly if some item is in `M` or more different members. -/
theorem many_checked (M : Nat) (hM : 0 < M) (matrix : List (List T)) :
    (manyC M matrix = none ↔ ∃ x, M ≤ (having (family matrix) x).ncard) ∧
    ∀ r, manyC M matrix = some r → r = many matrix := by
  have : ∀ x, (many matrix).univ.count x = (having (family matrix) x).ncard := by
    intro x
    rw [count_exact (reach_many matrix), many_family]
    congr 1
    ext s
    simp only [having, Set.mem_ofPred_eq]
    constructor
    · rintro ⟨⟨h, _⟩, hx⟩; exact ⟨h, hx⟩
    · rintro ⟨h, hx⟩; exact ⟨⟨h, by intro e; rw [e] at hx; simp at hx⟩, hx⟩
  obtain ⟨h1, h2⟩ := manyC_eq M matrix hM
  simp only [this] at h1 h2
  by_cases hall : ∀ x, (having (family matrix) x).ncard < M
  · rw [h1 hall]
    refine ⟨⟨nofun, fun ⟨x, hx⟩ => absurd (hall x) (by omega)⟩, fun r hr => by cases hr; rfl⟩
  · rw [h2 hall]
    refine ⟨⟨fun _ => ?_, fun _ => rfl⟩, nofun⟩
    push Not at hall
    exact hall

example := many_checked 2 (by decide) [[1, 2], [1, 3], [4]]

theorem canonicalC_eq (M : Nat) (n : Node) (u : Universe T) (h : (canonical n u).len < M) :
    canonicalC M n u = some (canonical n u) := by
  have hr : Reach (canonical n u) := by
    obtain ⟨m, hm⟩ := canon_canonical n u
    rw [hm]; exact reach_many m
  exact (manyC_eq M _ (by omega)).1 fun x => lt_of_le_of_lt (count_le_len hr x) h

/-- A forest has at most as many members as `many` was given lists. -/
theorem many_len_le {T : Type*} [LinearOrder T] (l : List (List T)) : (many l).len ≤ l.length := by
  rw [len_exact (reach_many l), many_family]
  refine le_trans (Set.ncard_le_ncard (t := ↑(l.map List.toFinset).toFinset) ?_ (Finset.finite_toSet _)) ?_
  · rintro s ⟨⟨r, hr, rfl⟩, _⟩
    simp only [Finset.mem_coe, List.mem_toFinset, List.mem_map]
    exact ⟨r, hr, rfl⟩
  · rw [Set.ncard_coe_finset]
    exact le_trans (List.toFinset_card_le _) (by simp)

/-- C82: as long as the members of two forests, and for `product` the pairs of them, number less than `M`,
no operation on them overflows, whatever the order the counts are visited in; all that is proved of them
with unbounded counts holds. -/
theorem binary_checked (M : Nat) {f g : Forest T} (hf : Reach f) (hg : Reach g)
    {e : List (T × Nat)} (he : e.Perm g.univ.occurrences) (hM : f.len + g.len < M) :
    binaryC M Node.union e f g = f.union g ∧
    binaryC M Node.intersect e f g = f.intersect g ∧
    (f.len * g.len < M → binaryC M Node.product e f g = f.product g) := by
  obtain ⟨a, b, hm, oa, ob, ia, ib, ea, eb, eu, ei, ep, _⟩ := ops_raw hf.canon hg.canon
  have hmerge : mergeIterC M e f.univ g.univ = some (merge f.univ g.univ) := by
    rw [merge_checked M hf.canon.ok hg.canon.ok he, if_pos (Or.inr fun x _ => ?_)]
    have := count_le_len hf x
    have := count_le_len hg x
    omega
  have key : ∀ op r, some (canonical (op a b) (merge f.univ g.univ)) = some r → r.len < M →
      binaryC M op e f g = some r := by
    intro op r hr hl
    cases hr
    rw [binaryC, hmerge]
    simp only
    rw [ea, eb]
    exact canonicalC_eq M _ _ hl
  refine ⟨?_, ?_, fun hp => ?_⟩
  · rw [eu]
    exact key Node.union _ rfl (lt_of_le_of_lt ((len_bounds hf hg).1 (Or.inl eu)) hM)
  · rw [ei]
    exact key Node.intersect _ rfl (lt_of_le_of_lt ((len_bounds hf hg).1 (Or.inr ei)) hM)
  · rw [ep]
    exact key Node.product _ rfl (lt_of_le_of_lt ((len_bounds hf hg).2 ep) hp)

example := binary_checked 5 (reach_many [[1, 2], [1, 3]]) (reach_many [[1], [2, 3]])
  (e := (Forest.many [[1], [2, 3]]).univ.occurrences.reverse) (List.reverse_perm _)
  (by have h1 := many_len_le [[1, 2], [1, 3]]; have h2 := many_len_le [[1], [2, 3]]; simp at h1 h2; omega)

/-- C82: filtering a forest of less than `M` members never overflows. -/
theorem filter_checked (M : Nat) {f : Forest T} (hf : Reach f) (hM : f.len < M) (x : T) (xs : List T) :
    subsetC M f x = some (f.subset x) ∧
    subsetNotC M f x = some (f.subsetNot x) ∧
    subsetManyC M f xs (fun _ => empty) Node.subsetAll = some (f.subsetAll xs) ∧
    subsetManyC M f xs (fun f => f) Node.subsetNone = some (f.subsetNone xs) := by
  have small : ∀ {g : Forest T}, Reach g → family g.trees ⊆ family f.trees → g.len < M := by
    intro g hg h
    refine lt_of_le_of_lt ?_ hM
    rw [len_exact hf, len_exact hg]
    exact Set.ncard_le_ncard h (fam_finite hf)
  have hs := small (reach_subset hf x) (by rw [subset_family hf]; exact fun s h => h.1)
  have hn := small (reach_subsetNot hf x) (by rw [subsetNot_family hf]; exact fun s h => h.1)
  have ha := small (reach_subsetAll hf xs) (by rw [subsetAll_family hf]; exact fun s h => h.1)
  have rn : Reach (f.subsetNone xs) := by
    obtain ⟨p, hp⟩ := hf
    exact ⟨.subsetNone p xs, by simp [run, hp]⟩
  have ho := small rn (subsetNone_bounds hf xs).2
  refine ⟨?_, ?_, ?_, ?_⟩
  · unfold subsetC Forest.subset at *
    split at hs
    · rename_i h; simp only [h]
    · rename_i k h; simp only [h]; exact canonicalC_eq M _ _ hs
  · unfold subsetNotC Forest.subsetNot at *
    split at hn
    · rename_i h; simp only [h]
    · rename_i k h; simp only [h]; exact canonicalC_eq M _ _ hn
  · simp only [subsetManyC, Forest.subsetAll, subsetMany] at ha ⊢
    split_ifs at ha ⊢
    · rfl
    · rfl
    · exact canonicalC_eq M _ _ ha
  · simp only [subsetManyC, Forest.subsetNone, subsetMany] at ho ⊢
    split_ifs at ho ⊢
    · rfl
    · rfl
    · exact canonicalC_eq M _ _ ho

example := filter_checked 3 (reach_many [[1, 2], [1, 3]]) (Nat.lt_succ_of_le (many_len_le [[1, 2], [1, 3]])) 1 [2, 3]

/-- C82: counts that the library did not write can overflow: a forest that is read from data, and is
otherwise in order, panics when it is combined with a forest of two members. -/
theorem foreign_counts_overflow : ∃ (d : ForestData ℕ) (f g : Forest ℕ),
    deserializeForest d = some f ∧ (∀ p ∈ d.univ, p.2 < 2 ^ 64) ∧ Sane f ∧ Reach g ∧
    (∃ r, f.union g = some r) ∧ binaryC (2 ^ 64) Node.union g.univ.occurrences f g = none := by
  have hg := reach_many ([[1], [2]] : List (List ℕ))
  have hd : deserializeForest (⟨"(A)".toList, [(1, 2 ^ 64 - 1)]⟩ : ForestData ℕ) =
      some ⟨.Always, fromOccurrences [(1, 2 ^ 64 - 1)]⟩ := by
    have : parseNodeString "(A)".toList = some .Always := by rfl
    rw [deserializeForest, this]; rfl
  have hs : Sane (⟨.Always, fromOccurrences [(1, 2 ^ 64 - 1)]⟩ : Forest ℕ) := fun i hi => hi.elim
  refine ⟨⟨"(A)".toList, [(1, 2 ^ 64 - 1)]⟩, ⟨.Always, fromOccurrences [(1, 2 ^ 64 - 1)]⟩,
    many [[1], [2]], hd, by simp, hs, hg, ?_, ?_⟩
  · exact (held_use_iff_partial (fun _ => []) (Or.inr ⟨_, hd⟩) (Or.inl hg)).1.mpr ⟨hs, sane_iff.1 hg⟩
  · rw [binaryC, merge_checked _ (ok_from (by simp [KeysLt])) hg.canon.ok (List.Perm.refl _), if_neg]
    rintro (h | h)
    · have := congrArg Universe.occurrences h
      exact absurd this (by decide)
    · exact absurd (h 1 (by decide)) (by decide)

theorem keysLt_addW (M : Nat) (e m : List (T × Nat)) (h : KeysLt m) :
    KeysLt (e.foldl (fun m p => addToW M p.1 p.2 m) m) ∧
    ∀ x, x ∈ (e.foldl (fun m p => addToW M p.1 p.2 m) m).map Prod.fst ↔
      x ∈ e.map Prod.fst ∨ x ∈ m.map Prod.fst := by
  induction e generalizing m with
  | nil => exact ⟨h, fun x => by simp⟩
  | cons p e ih =>
    obtain ⟨h1, h2⟩ := ih (addToW M p.1 p.2 m) (keysLt_upsert h)
    refine ⟨h1, fun x => ?_⟩
    rw [List.foldl_cons, h2, addToW, insertKV, keys_upsert, List.map_cons, List.mem_cons]
    tauto

theorem lookup_perm {e m : List (T × Nat)} (hm : KeysLt m) (hnd : (e.map Prod.fst).Nodup) (he : e.Perm m) (x : T) :
    lookup x e = lookup x m := by
  have mem : ∀ (e : List (T × Nat)), (e.map Prod.fst).Nodup → ∀ n, lookup x e = some n ↔ (x, n) ∈ e := by
    intro e
    induction e with
    | nil => intro _ n; simp [lookup]
    | cons p e ih =>
      obtain ⟨k, v⟩ := p
      intro h n
      rw [List.map_cons, List.nodup_cons] at h
      rw [lookup]
      by_cases hx : x = k
      · subst hx
        rw [if_pos rfl, List.mem_cons]
        constructor
        · intro e; cases e; exact Or.inl rfl
        · rintro (e | e)
          · cases e; rfl
          · exact absurd (List.mem_map.mpr ⟨_, e, rfl⟩) h.1
      · rw [if_neg hx, ih h.2, List.mem_cons]
        constructor
        · exact Or.inr
        · rintro (e | e)
          · cases e; exact absurd rfl hx
          · exact e
  refine Option.ext fun n => ?_
  rw [mem e hnd, he.mem_iff, lookup_eq_some hm]

theorem addFoldW (M : Nat) (e m : List (T × Nat)) (h : KeysLt m) (he : (e.map Prod.fst).Nodup) (x : T) :
    lookup x (e.foldl (fun m p => addToW M p.1 p.2 m) m) =
      match lookup x e with
      | some n => some (((lookup x m).getD 0 + n) % M)
      | none => lookup x m := by
  induction e generalizing m with
  | nil => rfl
  | cons p e ih =>
    rw [List.map_cons, List.nodup_cons] at he
    rw [List.foldl_cons, ih (addToW M p.1 p.2 m) (keysLt_upsert h) he.2]
    have hl : lookup x (addToW M p.1 p.2 m) =
        if x = p.1 then some (((lookup p.1 m).getD 0 + p.2) % M) else lookup x m := by
      rw [addToW, insertKV, lookup_upsert h]
    obtain ⟨k, n⟩ := p
    dsimp only at hl he ⊢
    by_cases hx : x = k
    · subst hx
      have hn : lookup x e = none := lookup_eq_none.mpr he.1
      rw [hl, if_pos rfl, hn, lookup, if_pos rfl]
    · rw [hl, if_neg hx, lookup, if_neg hx]

/-- C82: if the additions wrap around, every count of the merged universe is the sum of the two counts modulo
`M` (the first count alone if the second universe does not know the item), and the items are in the order of
these counts. -/
theorem wrapped_counts (M : Nat) {u v : Universe T} (hu : u.Ok) (hv : v.Ok) {e : List (T × Nat)}
    (he : e.Perm v.occurrences) (hne : u ≠ v) (x : T) :
    (mergeIterW M e u v).count x =
      (if x ∈ v.occurrences.map Prod.fst then (u.count x + v.count x) % M else u.count x) ∧
    (mergeIterW M e u v).index.Pairwise (Spec.Before (mergeIterW M e u v).count) := by
  have hnd : (e.map Prod.fst).Nodup :=
    ((he.map Prod.fst).nodup_iff).mpr (nodup_of_lt (List.pairwise_map.mpr hv.1))
  have hk := keysLt_addW M e u.occurrences hu.1
  have hm : mergeIterW M e u v = fromOccurrences (e.foldl (fun m p => addToW M p.1 p.2 m) u.occurrences) := by
    rw [mergeIterW, if_neg hne]
  constructor
  · rw [hm]
    change (lookup x (e.foldl (fun m p => addToW M p.1 p.2 m) u.occurrences)).getD 0 = _
    rw [addFoldW M e _ hu.1 hnd]
    have hl : lookup x e = lookup x v.occurrences := lookup_perm hv.1 hnd he x
    rw [hl]
    by_cases hx : x ∈ v.occurrences.map Prod.fst
    · rw [if_pos hx]
      cases h : lookup x v.occurrences with
      | none => exact absurd hx (lookup_eq_none.mp h)
      | some n => simp [Universe.count, h]
    · rw [if_neg hx, lookup_eq_none.mpr hx]; rfl
  · rw [hm]; exact ranked_of_index (ok_from hk.1)

example := wrapped_counts 2 (u := (many [[1, 2]]).univ) (v := (many [[1, 3], [1]]).univ) (reach_many [[1, 2]]).canon.ok
  (reach_many [[1, 3], [1]]).canon.ok (e := [(3, 1), (1, 2)]) (by decide +kernel) (by decide +kernel) 1

/-- C82: if the additions wrap around (a release build), nothing panics because of it: the counts only
order the items, so an operation on two forests, made with the API or read from any data, still returns
exactly if every id of the diagrams stands for an item, and what it returns is a forest that the API could
have made from scratch. -/
theorem wrapped_total (M : Nat) (op : Node → Node → Node) {f g : Forest T} (hf : Held f) (hg : Held g)
    {e : List (T × Nat)} (he : e.Perm g.univ.occurrences) :
    ((∃ r, binaryW M op e f g = some r) ↔ Sane f ∧ Sane g) ∧
    ∀ r, binaryW M op e f g = some r → Reach r := by
  obtain ⟨hu, of⟩ := hf.ok
  obtain ⟨hv, og⟩ := hg.ok
  have hk := keysLt_addW M e f.univ.occurrences hu.1
  have hm : (mergeIterW M e f.univ g.univ).Ok := by
    rw [mergeIterW]; split_ifs
    · exact hu
    · exact ok_from hk.1
  have hmem : ∀ x, x ∈ (mergeIterW M e f.univ g.univ).index ↔ x ∈ f.univ.index ∨ x ∈ g.univ.index := by
    intro x
    rw [mem_index hm, mem_index hu, mem_index hv, mergeIterW]
    split_ifs with h
    · rw [h]; simp
    · change x ∈ List.map Prod.fst (List.foldl (fun m p => addToW M p.1 p.2 m) f.univ.occurrences e) ↔ _
      rw [hk.2, (he.map Prod.fst).mem_iff, or_comm]
  refine ⟨⟨?_, ?_⟩, ?_⟩
  · rintro ⟨r, hr⟩
    rw [binaryW] at hr
    split at hr
    · rename_i a b ha hb
      exact ⟨translate_sane ha, translate_sane hb⟩
    · cases hr
  · rintro ⟨sf, sg⟩
    obtain ⟨a, ea, _⟩ := translate_ok hu hm
      (fun x hx => (hmem x).mpr (Or.inl hx)) f.root of ((Sane.inU of).mp sf)
    obtain ⟨b, eb, _⟩ := translate_ok hv hm
      (fun x hx => (hmem x).mpr (Or.inr hx)) g.root og ((Sane.inU og).mp sg)
    exact ⟨_, by rw [binaryW, ea, eb]⟩
  · intro r hr
    rw [binaryW] at hr
    split at hr
    · cases hr
      obtain ⟨m, hm⟩ := canon_canonical (op _ _) (mergeIterW M e f.univ g.univ)
      rw [hm]; exact reach_many m
    · cases hr

example := wrapped_total 2 Node.union (Or.inl (reach_many [[1, 2], [1, 3]])) (Or.inl (reach_many [[1], [2, 3]]))
  (e := (Forest.many [[1], [2, 3]]).univ.occurrences.reverse) (List.reverse_perm _)

/-- The hypotheses are met by forests with common items. -/
example : Reach (many [[1, 2], [1, 3]] : Forest ℕ) ∧ Reach (many [[1], [2, 3]] : Forest ℕ) ∧
    (many [[1, 2], [1, 3]] : Forest ℕ).len + (many [[1], [2, 3]] : Forest ℕ).len < 2 ^ 64 := by
  refine ⟨reach_many _, reach_many _, ?_⟩
  have key : ∀ l : List (List ℕ), l.length ≤ 2 → (many l).len ≤ 2 := fun l hl => (many_len_le l).trans hl
  have h1 := key [[1, 2], [1, 3]] (by simp)
  have h2 := key [[1], [2, 3]] (by simp)
  omega

end Verif.Zdd2
