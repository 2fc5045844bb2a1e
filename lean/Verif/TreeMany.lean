import Verif.TreeDoc
import Verif.Zdd2.Grouping

/-!
# Combining many weave trees (C117)

weave/src/matrix/tree and weave/src/zdd2/tree: `intersect` is exact in every grouping, `union` for trees that do not
have exactly one item; collecting items one by one with `union` never holds more than two of them.
-/

set_option linter.unusedVariables false
set_option linter.unusedSectionVars false

namespace Verif.Tree
open Verif Verif.Spec

universe u
variable {T : Type u} [LinearOrder T]

/-- Combining a group of trees, each call with its own hash order.  Not code: used to state or prove properties. -/
inductive Gives (op : HashOrder T → Tree T → Tree T → Tree T) : Zdd2.Group (Tree T) → Tree T → Prop where
  | one (a : Tree T) : Gives op (.one a) a
  | two {p q : Zdd2.Group (Tree T)} {a b : Tree T} (h : HashOrder T) : Gives op p a → Gives op q b →
      Gives op (.two p q) (op h a b)

theorem Gives.total (op : HashOrder T → Tree T → Tree T → Tree T) (h : HashOrder T) (p : Zdd2.Group (Tree T)) :
    ∃ t, Gives op p t := by
  induction p with
  | one a => exact ⟨a, .one a⟩
  | two p q ihp ihq =>
    obtain ⟨a, ha⟩ := ihp
    obtain ⟨b, hb⟩ := ihq
    exact ⟨_, .two h ha hb⟩

/-- C117: intersecting any number of trees, in any grouping, leaves exactly the items of all of them. -/
theorem intersect_many (k : HashOrder T) {p : Zdd2.Group (Tree T)} {t : Tree T} (h : Gives Tree.intersect p t) (x : T) :
    x ∈ t.items k ↔ ∀ a ∈ p.leaves, x ∈ a.items k := by
  induction h with
  | one a => simp [Zdd2.Group.leaves]
  | @two p q a b h _ _ iha ihb =>
    have := congrArg (x ∈ ·) (tree_intersect h k a b)
    simp only [Finset.mem_inter, List.mem_toFinset, eq_iff_iff] at this
    rw [this, iha, ihb]
    simp only [Zdd2.Group.leaves, List.mem_append]
    exact ⟨fun h c hc => hc.elim (h.1 c) (h.2 c), fun h => ⟨fun c hc => h c (.inl hc), fun c hc => h c (.inr hc)⟩⟩

namespace Tree

/-- Holding none or at least two items.  Not code: used to state or prove properties. -/
def Plural (t : Tree T) : Prop := t = .Empty ∨ ∃ s, t = .Many s ∧ 2 ≤ s.card

theorem plural_of_len {t : Tree T} (ht : Reach t) (h : t.len ≠ 1) : t.Plural := by
  cases t with
  | Empty => exact .inl rfl
  | One e => exact absurd rfl h
  | Many s =>
    have := (Finset.card_pos.2 (ht.nonempty s rfl))
    simp only [len] at h
    exact .inr ⟨s, rfl, by omega⟩

theorem many_of_card (h : HashOrder T) {s : Finset T} (hs : 2 ≤ s.card) : many (h.iter s) = .Many s := by
  have hl : (h.iter s).length = s.card := by
    rw [← List.toFinset_card_of_nodup (h.nodup s)]; congr 1; ext x; simp
  match hi : h.iter s with
  | [] => rw [hi] at hl; simp at hl; omega
  | [e] => rw [hi] at hl; simp at hl; omega
  | a :: b :: es =>
    have e : (a :: b :: es).toFinset = s := by rw [← hi]; ext x; simp
    simp only [many]
    rw [foldl_insert, e, Finset.empty_union]

theorem union_plural (h : HashOrder T) {a b : Tree T} (ha : a.Plural) (hb : b.Plural) :
    (union h a b).Plural ∧ (union h a b).elems = a.elems ∪ b.elems := by
  rcases ha with rfl | ⟨s, rfl, hs⟩
  · rcases hb with rfl | ⟨s, rfl, hs⟩
    · exact ⟨.inl rfl, rfl⟩
    · have e : union h .Empty (.Many s) = .Many s := by simp [union]
      rw [e]; exact ⟨.inr ⟨s, rfl, hs⟩, by simp [elems]⟩
  · rcases hb with rfl | ⟨s2, rfl, hs2⟩
    · have e : union h (.Many s) .Empty = .Many s := by simp [union]
      rw [e]; exact ⟨.inr ⟨s, rfl, hs⟩, by simp [elems]⟩
    · unfold union
      split_ifs with e
      · injection e with e; subst e
        exact ⟨.inr ⟨s, rfl, hs⟩, by simp [elems]⟩
      · simp only
        split_ifs with h1 h2
        · exact ⟨.inr ⟨s2, rfl, hs2⟩, by simp only [elems]; exact (Finset.union_eq_right.2 h1).symm⟩
        · exact ⟨.inr ⟨s, rfl, hs⟩, by simp only [elems]; exact (Finset.union_eq_left.2 h2).symm⟩
        · have hc : 2 ≤ (s ∪ s2).card := hs.trans (Finset.card_le_card Finset.subset_union_left)
          rw [many_of_card h hc]
          exact ⟨.inr ⟨_, rfl, hc⟩, rfl⟩

theorem plural_ext {a b : Tree T} (ha : a.Plural) (hb : b.Plural) (h : a.elems = b.elems) : a = b := by
  rcases ha with rfl | ⟨s, rfl, hs⟩ <;> rcases hb with rfl | ⟨s2, rfl, hs2⟩
  · rfl
  · simp only [elems] at h; subst h; simp at hs2
  · simp only [elems] at h; subst h; simp at hs
  · simp only [elems] at h; rw [h]

end Tree

theorem unions_plural {p : Zdd2.Group (Tree T)} {t : Tree T} (h : Gives Tree.union p t)
    (hp : ∀ a ∈ p.leaves, Tree.Reach a ∧ a.len ≠ 1) :
    t.Plural ∧ ∀ x, x ∈ t.elems ↔ ∃ a ∈ p.leaves, x ∈ a.elems := by
  induction h with
  | one a =>
    obtain ⟨h1, h2⟩ := hp a (by simp [Zdd2.Group.leaves])
    exact ⟨Tree.plural_of_len h1 h2, by simp [Zdd2.Group.leaves]⟩
  | @two p q a b h _ _ iha ihb =>
    simp only [Zdd2.Group.leaves, List.mem_append] at hp ⊢
    obtain ⟨pa, ea⟩ := iha fun c hc => hp c (.inl hc)
    obtain ⟨pb, eb⟩ := ihb fun c hc => hp c (.inr hc)
    obtain ⟨pr, er⟩ := Tree.union_plural h pa pb
    refine ⟨pr, fun x => ?_⟩
    rw [er, Finset.mem_union, ea, eb]
    simp only [or_and_right, exists_or]

/-- C117: uniting any number of trees none of which has exactly one item, in any grouping, gives exactly the items
of all of them. -/
theorem union_many (k : HashOrder T) {p : Zdd2.Group (Tree T)} {t : Tree T} (h : Gives Tree.union p t)
    (hp : ∀ a ∈ p.leaves, Tree.Reach a ∧ a.len ≠ 1) (x : T) : x ∈ t.items k ↔ ∃ a ∈ p.leaves, x ∈ a.items k := by
  have key : ∀ a : Tree T, x ∈ a.items k ↔ x ∈ a.elems := fun a => by
    rw [← Tree.items_toFinset k a, List.mem_toFinset]
  simp only [key]
  exact (unions_plural h hp).2 x

/-- C117: and the same tree, whatever the order, the grouping and the repetitions. -/
theorem union_any_order {p q : Zdd2.Group (Tree T)} {t t' : Tree T} (h : Gives Tree.union p t) (h' : Gives Tree.union q t')
    (hp : ∀ a ∈ p.leaves, Tree.Reach a ∧ a.len ≠ 1) (hpq : ∀ a, a ∈ p.leaves ↔ a ∈ q.leaves) : t = t' := by
  obtain ⟨h1, e1⟩ := unions_plural h hp
  obtain ⟨h2, e2⟩ := unions_plural h' (fun a ha => hp a ((hpq a).2 ha))
  refine Tree.plural_ext h1 h2 ?_
  ext x
  rw [e1, e2]
  simp only [hpq]

/-- Starting with the empty tree, uniting with the tree of each item in turn.  Not code: used to state or prove
properties. -/
inductive Collected : List T → Tree T → Prop where
  | none : Collected [] Tree.empty
  | next {xs : List T} {t : Tree T} (h : HashOrder T) (x : T) : Collected xs t →
      Collected (xs ++ [x]) (Tree.union h t (Tree.one x))

theorem Collected.total (h : HashOrder T) (xs : List T) : ∃ t, Collected xs t := by
  induction xs using List.reverseRecOn with
  | nil => exact ⟨_, .none⟩
  | append_singleton xs x ih =>
    obtain ⟨t, ht⟩ := ih
    exact ⟨_, .next h x ht⟩

theorem union_one (h : HashOrder T) (t : Tree T) (x : T) :
    (t = .Empty ∧ Tree.union h t (Tree.one x) = .One x) ∨ (t = .One x ∧ Tree.union h t (Tree.one x) = .One x) ∨
    (∃ y, y ≠ x ∧ t = .One y ∧ Tree.union h t (Tree.one x) = .Many {y, x}) ∨
    (∃ s, t = .Many s ∧ ((x ∈ s ∧ Tree.union h t (Tree.one x) = t) ∨
      (x ∉ s ∧ Tree.union h t (Tree.one x) = .Empty))) := by
  cases t with
  | Empty => left; exact ⟨rfl, by simp [Tree.union, Tree.one]⟩
  | One y =>
    by_cases e : y = x
    · subst e; right; left; exact ⟨rfl, by simp [Tree.union, Tree.one]⟩
    · right; right; left
      refine ⟨y, e, rfl, ?_⟩
      simp only [Tree.union, Tree.one, Tree.One.injEq, e, if_false, Tree.many]
      rw [Tree.foldl_insert]
      congr 1
      ext z; simp
  | Many s =>
    right; right; right
    refine ⟨s, rfl, ?_⟩
    by_cases e : x ∈ s
    · left; exact ⟨e, by simp [Tree.union, Tree.one, e]⟩
    · right; exact ⟨e, by simp [Tree.union, Tree.one, e]⟩

/-- C117: collecting items one by one never gives a tree with more than two items, all of them collected; it has all
the collected items exactly if those are at most two different ones. -/
theorem collected_two (k : HashOrder T) {xs : List T} {t : Tree T} (h : Collected xs t) :
    t.len ≤ 2 ∧ (∀ x ∈ t.items k, x ∈ xs) ∧ ((∀ x ∈ xs, x ∈ t.items k) ↔ xs.toFinset.card ≤ 2) := by
  have key : ∀ (a : Tree T) x, x ∈ a.items k ↔ x ∈ a.elems := fun a x => by
    rw [← Tree.items_toFinset k a, List.mem_toFinset]
  simp only [key]
  have main : t.elems.card = t.len ∧ t.len ≤ 2 ∧ (∀ x ∈ t.elems, x ∈ xs) ∧
      (∀ s, t = .Many s → s.card = 2) ∧ (xs.toFinset.card ≤ 2 → ∀ x ∈ xs, x ∈ t.elems) := by
    induction h with
    | none => simp [Tree.empty, Tree.elems, Tree.len]
    | @next xs t h x _ ih =>
      obtain ⟨i0, i1, i2, i3, i4⟩ := ih
      have mono : (xs ++ [x]).toFinset.card ≤ 2 → xs.toFinset.card ≤ 2 := fun hc =>
        (Finset.card_le_card (by intro z hz; simp only [List.mem_toFinset, List.mem_append] at hz ⊢; exact .inl hz)).trans hc
      rcases union_one h t x with ⟨e, u⟩ | ⟨e, u⟩ | ⟨y, hy, e, u⟩ | ⟨s, e, ⟨hx, u⟩ | ⟨hx, u⟩⟩
      · rw [u]
        refine ⟨rfl, by simp [Tree.len], by simp [Tree.elems], nofun, fun hc z hz => ?_⟩
        rcases List.mem_append.1 hz with hz | hz
        · have := i4 (mono hc) z hz
          rw [e] at this; simp [Tree.elems] at this
        · simpa [Tree.elems] using hz
      · rw [u]
        refine ⟨rfl, by simp [Tree.len], by simp [Tree.elems], nofun, fun hc z hz => ?_⟩
        rcases List.mem_append.1 hz with hz | hz
        · have := i4 (mono hc) z hz
          rwa [e] at this
        · simpa [Tree.elems] using hz
      · rw [u]
        have hcard : ({y, x} : Finset T).card = 2 := Finset.card_pair hy
        refine ⟨rfl, by simp only [Tree.len]; omega, ?_, ?_, fun hc z hz => ?_⟩
        · intro z hz
          simp only [Tree.elems, Finset.mem_insert, Finset.mem_singleton] at hz
          rcases hz with rfl | rfl
          · exact List.mem_append_left _ (i2 z (by rw [e]; simp [Tree.elems]))
          · simp
        · intro s hs; injection hs with hs; rw [← hs]; exact hcard
        · rcases List.mem_append.1 hz with hz | hz
          · have := i4 (mono hc) z hz
            rw [e] at this
            simp only [Tree.elems, Finset.mem_singleton] at this
            simp [Tree.elems, this]
          · simp only [List.mem_singleton] at hz
            simp [Tree.elems, hz]
      · rw [u]
        refine ⟨i0, i1, fun z hz => List.mem_append_left _ (i2 z hz), i3, fun hc z hz => ?_⟩
        rcases List.mem_append.1 hz with hz | hz
        · exact i4 (mono hc) z hz
        · simp only [List.mem_singleton] at hz
          rw [e, hz]; exact hx
      · rw [u]
        refine ⟨rfl, by simp [Tree.len], by simp [Tree.elems], nofun, fun hc => ?_⟩
        exfalso
        have h2 := i3 s e
        have hsub : insert x s ⊆ (xs ++ [x]).toFinset := by
          intro z hz
          rcases Finset.mem_insert.1 hz with rfl | hz
          · simp
          · rw [List.mem_toFinset]
            exact List.mem_append_left _ (i2 z (by rw [e]; exact hz))
        have := Finset.card_le_card hsub
        rw [Finset.card_insert_of_notMem hx] at this
        omega
  obtain ⟨m0, m1, m2, m3, m4⟩ := main
  refine ⟨m1, m2, fun hall => ?_, m4⟩
  have : xs.toFinset ⊆ t.elems := fun x hx => hall x (List.mem_toFinset.1 hx)
  have := Finset.card_le_card this
  omega

/-- C117: three different items collected in turn give the empty tree; so uniting trees of one item depends on the
grouping, and intersecting does so in the form of a result of one item. -/
theorem grouping_matters (h : HashOrder ℕ) :
    Collected [1, 2, 3] (Tree.empty : Tree ℕ) ∧
    Tree.union h (Tree.union h (Tree.one 1) (Tree.one 2)) (Tree.many [3, 4]) ≠
      Tree.union h (Tree.one 1) (Tree.union h (Tree.one 2) (Tree.many [3, 4])) ∧
    Tree.intersect h (Tree.intersect h (Tree.many [1, 3]) (Tree.many [1, 2])) (Tree.many [1, 1]) ≠
      Tree.intersect h (Tree.many [1, 3]) (Tree.intersect h (Tree.many [1, 2]) (Tree.many [1, 1])) := by
  have m : ∀ a b : ℕ, (Tree.many [a, b] : Tree ℕ) = .Many {a, b} := by
    intro a b
    simp only [Tree.many]
    rw [Tree.foldl_insert]
    congr 1
    ext z; simp
  refine ⟨?_, ?_, ?_⟩
  · have c1 := Collected.next h 1 Collected.none
    have c2 := Collected.next h 2 c1
    have c3 := Collected.next h 3 c2
    have e1 : Tree.union h (Tree.empty : Tree ℕ) (Tree.one 1) = .One 1 := by simp [Tree.union, Tree.empty, Tree.one]
    have e2 : Tree.union h (.One 1 : Tree ℕ) (Tree.one 2) = .Many {1, 2} := by
      simp [Tree.union, Tree.one, m]
    have e3 : Tree.union h (.Many {1, 2} : Tree ℕ) (Tree.one 3) = .Empty := by
      simp [Tree.union, Tree.one]
    rw [e1, e2, e3] at c3
    exact c3
  · have e1 : Tree.union h (Tree.one 1 : Tree ℕ) (Tree.one 2) = .Many {1, 2} := by
      simp [Tree.union, Tree.one, m]
    have e2 : Tree.union h (Tree.one 2 : Tree ℕ) (Tree.many [3, 4]) = .Empty := by
      simp [Tree.union, Tree.one, m]
    have e3 : (Tree.union h (.Many {1, 2} : Tree ℕ) (Tree.many [3, 4])).elems = {1, 2, 3, 4} := by
      rw [m, (Tree.union_plural h (.inr ⟨_, rfl, by simp⟩) (.inr ⟨_, rfl, by simp⟩)).2]
      decide
    rw [e1, e2]
    have e4 : Tree.union h (Tree.one 1 : Tree ℕ) .Empty = .One 1 := by simp [Tree.union, Tree.one]
    rw [e4]
    intro e
    rw [e] at e3
    exact absurd e3 (by decide)
  · have e1 : Tree.intersect h (Tree.many [1, 3] : Tree ℕ) (Tree.many [1, 2]) = .One 1 := by
      have hs : ({1, 3} ∩ {1, 2} : Finset ℕ) = {1} := by decide
      rw [m, m]
      simp only [Tree.intersect, Tree.Many.injEq]
      rw [if_neg (by decide), if_neg (by decide), if_neg (by decide), hs]
      have hp : (h.iter ({1} : Finset ℕ)) = [1] := by
        have hn := h.nodup ({1} : Finset ℕ)
        have hm : ∀ z, z ∈ h.iter ({1} : Finset ℕ) ↔ z = 1 := fun z => by simp
        match hl : h.iter ({1} : Finset ℕ) with
        | [] => have := (hm 1).2 rfl; rw [hl] at this; simp at this
        | [a] => have := (hm a).1 (by rw [hl]; simp); rw [this]
        | a :: b :: es =>
          have ha := (hm a).1 (by rw [hl]; simp)
          have hb := (hm b).1 (by rw [hl]; simp)
          rw [hl] at hn
          simp [ha, hb] at hn
      rw [hp]; rfl
    have e2 : Tree.intersect h (Tree.many [1, 2] : Tree ℕ) (Tree.many [1, 1]) = .Many {1} := by
      rw [m, m]
      simp only [Tree.intersect, Tree.Many.injEq]
      rw [if_neg (by decide), if_neg (by decide), if_pos (by decide)]
      rfl
    have e3 : Tree.intersect h (.One 1 : Tree ℕ) (Tree.many [1, 1]) = .One 1 := by
      rw [m]; simp [Tree.intersect]
    have e4 : Tree.intersect h (Tree.many [1, 3] : Tree ℕ) (.Many {1}) = .Many {1} := by
      rw [m]
      simp only [Tree.intersect, Tree.Many.injEq]
      rw [if_neg (by decide), if_neg (by decide), if_pos (by decide)]
    rw [e1, e2, e3, e4]
    exact nofun

/-! ### the hypotheses are met -/

/-- Three trees of two items or more, and the empty one.  Not code: a concrete case. -/
def some_trees : Zdd2.Group (Tree ℕ) :=
  .two (.two (.one (Tree.many [1, 2])) (.one Tree.empty)) (.two (.one (Tree.many [2, 5])) (.one (Tree.many [7, 8, 1])))

theorem some_trees_plural : ∀ a ∈ some_trees.leaves, Tree.Reach a ∧ a.len ≠ 1 := by
  intro a ha
  simp only [some_trees, Zdd2.Group.leaves, List.mem_append, List.mem_singleton] at ha
  rcases ha with (rfl | rfl) | rfl | rfl
  · exact ⟨.many _, by decide⟩
  · exact ⟨.empty, by decide⟩
  · exact ⟨.many _, by decide⟩
  · exact ⟨.many _, by decide⟩

example (k : HashOrder ℕ) : ∃ t, Gives Tree.intersect some_trees t ∧
    ∀ x, x ∈ t.items k ↔ ∀ a ∈ some_trees.leaves, x ∈ a.items k := by
  obtain ⟨t, ht⟩ := Gives.total Tree.intersect k some_trees
  exact ⟨t, ht, intersect_many k ht⟩

example (k : HashOrder ℕ) : ∃ t, Gives Tree.union some_trees t ∧
    ∀ x, x ∈ t.items k ↔ ∃ a ∈ some_trees.leaves, x ∈ a.items k := by
  obtain ⟨t, ht⟩ := Gives.total Tree.union k some_trees
  exact ⟨t, ht, union_many k ht some_trees_plural⟩

example (k k' : HashOrder ℕ) : ∃ t t', Gives Tree.union some_trees t ∧
    Gives Tree.union (.two (.one (Tree.many [1, 2])) some_trees) t' ∧ t = t' := by
  obtain ⟨t, ht⟩ := Gives.total Tree.union k some_trees
  obtain ⟨t', ht'⟩ := Gives.total Tree.union k' (.two (.one (Tree.many [1, 2])) some_trees)
  refine ⟨t, t', ht, ht', union_any_order ht ht' some_trees_plural fun a => ?_⟩
  simp only [some_trees, Zdd2.Group.leaves, List.mem_append, List.mem_singleton]
  exact ⟨.inr, fun h => h.elim (fun h => .inl (.inl h)) id⟩

example (k : HashOrder ℕ) : ∃ t, Collected [4, 9, 4] t ∧ ∀ x ∈ [4, 9, 4], x ∈ t.items k := by
  obtain ⟨t, ht⟩ := Collected.total k [4, 9, 4]
  exact ⟨t, ht, (collected_two k ht).2.2.2 (by decide)⟩

end Verif.Tree
