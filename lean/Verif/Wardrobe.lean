import Verif.Bdd.Equal
import Verif.Matrix.Props
import Verif.Zdd2.Split
import Verif.Zdd1.Props
import Verif.Trait
import Verif.Conform.Run

/-!
# One wardrobe in every package (C110)

The same wardrobe (families, exclusion and inclusion rules) as a closet of bowtie-core, as a matrix forest made
with the operations of weave, as a zdd2 forest and as a v1 tree.
-/

set_option linter.unusedSimpArgs false
set_option linter.unusedVariables false
set_option linter.unusedSectionVars false

namespace Verif.Wardrobe
open Verif Verif.Spec Verif.Bdd.Spec
open Verif.Bdd (Closet ClosetBuilder Reached)

universe u v
variable {I : Type u} {F : Type v} [LinearOrder I] [LinearOrder F]

/-- The families of a history of builder calls, each once.  Not code: used to state or prove properties. -/
def familyNames (cs : List (Call I F)) : List F :=
  (cs.filterMap (fun c => match c with
    | .item f _ => some f
    | _ => none)).dedup

/-- The items added to a family, as they were added.  Not code: used to state or prove properties. -/
def familyItems (cs : List (Call I F)) (f : F) : List I :=
  cs.filterMap (fun c => match c with
    | .item g i => if g = f then some i else none
    | _ => none)

/-- One rule as forest operations: split by the first item, filter the one side, unite.
Not code: used to state or prove properties. -/
def obey (p : Matrix.Prog I) : Call I F → Matrix.Prog I
  | .item _ _ => p
  | .exclude a b => .union (.subsetNot p a) (.subsetNot (.subset p a) b)
  | .incl a b => .union (.subsetNot p a) (.subset (.subset p a) b)

/-- One item of every family: the product of one `unique` forest per family.
Not code: used to state or prove properties. -/
def choose (cs : List (Call I F)) : List F → Matrix.Prog I
  | [] => .unit []
  | f :: fs => Trait.menu (familyItems cs f) (fs.map (familyItems cs))

/-- The wardrobe as a program over the forest operations: one item of every family, then one rule after the other.
Not code: used to state or prove properties. -/
def recipe (cs : List (Call I F)) : Matrix.Prog I := cs.foldl obey (choose cs (familyNames cs))

theorem mem_familyNames {cs : List (Call I F)} {f : F} : f ∈ familyNames cs ↔ ∃ i, Call.item f i ∈ cs := by
  simp only [familyNames, List.mem_dedup, List.mem_filterMap]
  constructor
  · rintro ⟨c, hc, e⟩
    cases c with
    | item g i => simp only [Option.some.injEq] at e; subst e; exact ⟨i, hc⟩
    | exclude a b => simp at e
    | incl a b => simp at e
  · rintro ⟨i, hi⟩; exact ⟨_, hi, rfl⟩

theorem mem_familyItems {cs : List (Call I F)} {f : F} {i : I} : i ∈ familyItems cs f ↔ Call.item f i ∈ cs := by
  simp only [familyItems, List.mem_filterMap]
  constructor
  · rintro ⟨c, hc, e⟩
    cases c with
    | item g j =>
      by_cases h : g = f
      · simp only [h, if_true, Option.some.injEq] at e; subst e; subst h; exact hc
      · simp [h] at e
    | exclude a b => simp at e
    | incl a b => simp at e
  · intro h; exact ⟨_, h, by simp⟩

theorem choose_meaning (cs : List (Call I F)) (ns : List F) : (choose cs ns).meaning =
    (ns.foldr (fun f p => Matrix.Prog.product (.unique (familyItems cs f)) p) (.unit [])).meaning := by
  cases ns with
  | nil => rfl
  | cons f fs =>
    simp only [choose]
    induction fs generalizing f with
    | nil =>
      ext w
      simp only [List.map_nil, Trait.menu, List.foldr_cons, List.foldr_nil, Matrix.Prog.meaning, prod,
        List.toFinset_nil, Set.mem_singleton_iff, exists_eq_left, Finset.union_empty, Set.mem_ofPred_eq]
      exact ⟨fun ⟨x, hx, e⟩ => ⟨_, ⟨x, hx, rfl⟩, e⟩, fun ⟨a, ⟨x, hx, e⟩, e'⟩ => ⟨x, hx, e'.trans e⟩⟩
    | cons g fs ih =>
      simp only [List.map_cons, Trait.menu, List.foldr_cons, Matrix.Prog.meaning]
      rw [ih g]; rfl

theorem base_meaning {cs : List (Call I F)} (hl : Legal cs) (ns : List F) (hn : ns.Nodup) (w : Finset I) :
    w ∈ (ns.foldr (fun f p => Matrix.Prog.product (.unique (familyItems cs f)) p) (.unit [])).meaning ↔
      (∀ i ∈ w, ∃ f ∈ ns, Call.item f i ∈ cs) ∧ ∀ f ∈ ns, ∃! j, Call.item f j ∈ cs ∧ j ∈ w := by
  induction ns generalizing w with
  | nil =>
    simp only [List.foldr_nil, Matrix.Prog.meaning, List.toFinset_nil, Set.mem_singleton_iff, List.not_mem_nil,
      false_and, exists_false, imp_false, IsEmpty.forall_iff, implies_true, and_true]
    exact Finset.eq_empty_iff_forall_notMem
  | cons f ns ih =>
    obtain ⟨hf, hn'⟩ := List.nodup_cons.mp hn
    simp only [List.foldr_cons, Matrix.Prog.meaning, prod, Set.mem_ofPred_eq]
    constructor
    · rintro ⟨a, ⟨x, hx, rfl⟩, b, hb, rfl⟩
      rw [mem_familyItems] at hx
      obtain ⟨h1, h2⟩ := (ih hn' b).1 hb
      refine ⟨?_, ?_⟩
      · intro i hi
        rcases Finset.mem_union.1 hi with hi | hi
        · rw [Finset.mem_singleton] at hi; subst hi; exact ⟨f, by simp, hx⟩
        · obtain ⟨g, hg, h⟩ := h1 i hi; exact ⟨g, by simp [hg], h⟩
      · intro g hg
        rcases List.mem_cons.1 hg with rfl | hg
        · refine ⟨x, ⟨hx, by simp⟩, ?_⟩
          rintro j ⟨hj, hw⟩
          rcases Finset.mem_union.1 hw with hw | hw
          · simpa using hw
          · obtain ⟨g', hg', h⟩ := h1 j hw
            exact absurd (hl.oneFamily _ _ _ hj h ▸ hg') hf
        · obtain ⟨j, ⟨hj1, hj2⟩, hu⟩ := h2 g hg
          refine ⟨j, ⟨hj1, by simp [hj2]⟩, ?_⟩
          rintro k ⟨hk, hw⟩
          rcases Finset.mem_union.1 hw with hw | hw
          · rw [Finset.mem_singleton] at hw; subst hw
            exact absurd (hl.oneFamily _ _ _ hx hk ▸ hg) hf
          · exact hu k ⟨hk, hw⟩
    · rintro ⟨h1, h2⟩
      obtain ⟨x, ⟨hx, hxw⟩, hu⟩ := h2 f (by simp)
      refine ⟨{x}, ⟨x, mem_familyItems.2 hx, rfl⟩, w.erase x, ?_, ?_⟩
      · refine (ih hn' _).2 ⟨?_, ?_⟩
        · intro i hi
          obtain ⟨hne, hi⟩ := Finset.mem_erase.1 hi
          obtain ⟨g, hg, h⟩ := h1 i hi
          rcases List.mem_cons.1 hg with rfl | hg
          · exact absurd (hu i ⟨h, hi⟩) hne
          · exact ⟨g, hg, h⟩
        · intro g hg
          obtain ⟨j, ⟨hj1, hj2⟩, hu'⟩ := h2 g (by simp [hg])
          refine ⟨j, ⟨hj1, Finset.mem_erase.2 ⟨?_, hj2⟩⟩, ?_⟩
          · rintro rfl; exact hf (hl.oneFamily _ _ _ hx hj1 ▸ hg)
          · rintro k ⟨hk, hw⟩; exact hu' k ⟨hk, (Finset.mem_erase.1 hw).2⟩
      · ext i
        simp only [Finset.mem_union, Finset.mem_singleton, Finset.mem_erase]
        by_cases h : i = x
        · subst h; simp [hxw]
        · simp [h]

theorem rules_meaning (ds : List (Call I F)) (p : Matrix.Prog I) (w : Finset I) :
    w ∈ (ds.foldl obey p).meaning ↔ w ∈ p.meaning ∧ (∀ a b, Call.exclude a b ∈ ds → ¬ (a ∈ w ∧ b ∈ w)) ∧
      ∀ a b, Call.incl a b ∈ ds → a ∈ w → b ∈ w := by
  induction ds generalizing p with
  | nil => simp
  | cons d ds ih =>
    rw [List.foldl_cons, ih]
    cases d with
    | item f i => simp [obey]
    | exclude x y =>
      simp only [obey, Matrix.Prog.meaning, without, having, Set.mem_union, Set.mem_ofPred_eq, List.mem_cons,
        Call.exclude.injEq, reduceCtorEq, false_or]
      constructor
      · rintro ⟨h, h1, h2⟩
        refine ⟨by rcases h with h | h; exacts [h.1, h.1.1], ?_, h2⟩
        rintro a b (⟨rfl, rfl⟩ | hab)
        · rcases h with h | h
          · exact fun e => h.2 e.1
          · exact fun e => h.2 e.2
        · exact h1 a b hab
      · rintro ⟨h, h1, h2⟩
        refine ⟨?_, fun a b hab => h1 a b (Or.inr hab), h2⟩
        by_cases hx : x ∈ w
        · exact Or.inr ⟨⟨h, hx⟩, fun hy => h1 x y (Or.inl ⟨rfl, rfl⟩) ⟨hx, hy⟩⟩
        · exact Or.inl ⟨h, hx⟩
    | incl x y =>
      simp only [obey, Matrix.Prog.meaning, without, having, Set.mem_union, Set.mem_ofPred_eq, List.mem_cons,
        Call.incl.injEq, reduceCtorEq, false_or]
      constructor
      · rintro ⟨h, h1, h2⟩
        refine ⟨by rcases h with h | h; exacts [h.1, h.1.1], h1, ?_⟩
        rintro a b (⟨rfl, rfl⟩ | hab)
        · rcases h with h | h
          · exact fun e => absurd e h.2
          · exact fun _ => h.2
        · exact h2 a b hab
      · rintro ⟨h, h1, h2⟩
        refine ⟨?_, h1, fun a b hab => h2 a b (Or.inr hab)⟩
        by_cases hx : x ∈ w
        · exact Or.inr ⟨⟨h, hx⟩, h2 x y (Or.inl ⟨rfl, rfl⟩) hx⟩
        · exact Or.inl ⟨h, hx⟩

theorem recipe_meaning {cs : List (Call I F)} (hl : Legal cs) : (recipe cs).meaning = {w | Outfit cs w} := by
  ext w
  rw [recipe, rules_meaning, choose_meaning, base_meaning hl (familyNames cs) (List.nodup_dedup _), Set.mem_ofPred_eq]
  constructor
  · rintro ⟨⟨h1, h2⟩, h3, h4⟩
    exact ⟨fun i hi => by obtain ⟨f, _, h⟩ := h1 i hi; exact ⟨f, h⟩,
      fun f i hi => h2 f (mem_familyNames.2 ⟨i, hi⟩), h3, h4⟩
  · rintro ⟨h1, h2, h3, h4⟩
    refine ⟨⟨?_, ?_⟩, h3, h4⟩
    · intro i hi; obtain ⟨f, h⟩ := h1 i hi; exact ⟨f, mem_familyNames.2 ⟨i, h⟩, h⟩
    · intro f hf; obtain ⟨i, hi⟩ := mem_familyNames.1 hf; exact h2 f i hi

/-! ## What a listing of the remaining outfits says about the closet -/

/-- A list of item lists with the remaining outfits, each once.  Not code: used to state or prove properties. -/
structure Lists (cs : List (Call I F)) (xs : List I) (ls : List (List I)) : Prop where
  sets : family ls = {w | Outfit cs w ∧ ∀ x ∈ xs, x ∈ w}
  asc : ∀ l ∈ ls, l.Pairwise (· < ·)
  nodup : ls.Nodup

theorem ncard_family {ls : List (List I)} (h1 : ∀ l ∈ ls, l.Pairwise (· < ·)) (h2 : ls.Nodup) :
    (family ls).ncard = ls.length := by
  have : family ls = ((ls.map List.toFinset).toFinset : Finset (Finset I)) := by ext s; simp [family]
  rw [this, Set.ncard_coe_finset, List.toFinset_card_of_nodup, List.length_map]
  exact List.Nodup.map_on (fun a ha b hb e => toFinset_inj_of_lt (h1 a ha) (h1 b hb) e) h2

theorem count_listed {cs : List (Call I F)} {xs : List I} {c : Closet I F} (h : Reached cs xs c)
    {ls : List (List I)} (hL : Lists cs xs ls) : c.root.outfitCount = ls.length := by
  obtain ⟨L, hL1, hL2⟩ := Bdd.outfit_count_exact cs xs c h
  rw [hL2, ← ncard_family hL.asc hL.nodup, hL.sets, ← Set.ncard_coe_finset]
  congr 1
  ext w
  simp [hL1]

theorem mem_listed {cs : List (Call I F)} {xs : List I} {ls : List (List I)} (hL : Lists cs xs ls) (i : I) :
    (∃ l ∈ ls, i ∈ l) ↔ ∃ w, Outfit cs w ∧ (∀ x ∈ xs, x ∈ w) ∧ i ∈ w := by
  constructor
  · rintro ⟨l, hl, hi⟩
    have : l.toFinset ∈ family ls := ⟨l, hl, rfl⟩
    rw [hL.sets] at this
    exact ⟨_, this.1, this.2, by simpa using hi⟩
  · rintro ⟨w, h1, h2, h3⟩
    have : w ∈ family ls := by rw [hL.sets]; exact ⟨h1, h2⟩
    obtain ⟨l, hl, rfl⟩ := this
    exact ⟨l, hl, by simpa using h3⟩

theorem narrow_listed {cs : List (Call I F)} {xs : List I} {ls : List (List I)} (hL : Lists cs xs ls) (i : I) :
    Lists cs (xs ++ [i]) (ls.filter (fun l => decide (i ∈ l))) := by
  refine ⟨?_, fun l hl => hL.asc l (List.mem_filter.1 hl).1, hL.nodup.filter _⟩
  ext w
  constructor
  · rintro ⟨l, hl, rfl⟩
    obtain ⟨h1, h2⟩ := List.mem_filter.1 hl
    have : l.toFinset ∈ family ls := ⟨l, h1, rfl⟩
    rw [hL.sets] at this
    refine ⟨this.1, fun x hx => ?_⟩
    rcases List.mem_append.1 hx with hx | hx
    · exact this.2 x hx
    · rw [List.mem_singleton] at hx; subst hx; simpa using h2
  · rintro ⟨h1, h2⟩
    have : w ∈ family ls := by rw [hL.sets]; exact ⟨h1, fun x hx => h2 x (by simp [hx])⟩
    obtain ⟨l, hl, rfl⟩ := this
    have := h2 i (by simp)
    exact ⟨l, List.mem_filter.2 ⟨hl, by simpa using this⟩, rfl⟩

/-- Everything the closet says about its items, read off a listing of the outfits that remain. -/
theorem listed_statuses {cs : List (Call I F)} {xs : List I} {c : Closet I F} (h : Reached cs xs c)
    (hs : ∃ w, Outfit cs w) {ls : List (List I)} (hL : Lists cs xs ls) (i : I) :
    (Bdd.Status.Available i ∈ c.summary ↔ i ∉ xs ∧ ∃ l ∈ ls, i ∈ l) ∧
    (Bdd.Status.Excluded i ∈ c.summary ↔ Known cs i ∧ ¬ ∃ l ∈ ls, i ∈ l) ∧
    (Bdd.Status.Selected i ∈ c.summary ↔ i ∈ xs) ∧
    ((∃ l ∈ ls, i ∈ l) → ∃ c', c.selectItem i = .ok c' ∧
      c'.root.outfitCount = (ls.filter (fun l => decide (i ∈ l))).length) := by
  obtain ⟨_, h1, h2, h3⟩ := Bdd.summary_exact cs xs c h hs i
  refine ⟨by rw [h2, mem_listed hL], by rw [h3, mem_listed hL], h1, fun hi => ?_⟩
  rw [mem_listed hL] at hi
  obtain ⟨c', hc, hr⟩ := (Bdd.select_exact cs xs c h hs i).2.2 hi
  exact ⟨c', hc, count_listed hr (narrow_listed hL i)⟩

/-! ## The theorems -/

/-- C110: the wardrobe written with the forest operations, on the matrix backend, has exactly the outfits of the
closet; its length is `outfit_count()`, and the outfit that the closet completes is one of its trees. -/
theorem recipe_exact (cs : List (Call I F)) (c : Closet I F) (hb : (ClosetBuilder.run cs).build = .ok c)
    {f : Matrix.Forest I} (hf : Matrix.Runs (recipe cs) f) (h : HashOrder (List I)) :
    family (f.trees h) = {w | Outfit cs w} ∧ f.len = c.root.outfitCount ∧
    (∀ o, c.completeOutfit [] = some (.ok o) → o ∈ f.trees h) ∧
    (f.isEmpty = true ↔ ∃ u, c.completeOutfit [] = some (.error u)) := by
  have hl := (Bdd.build_validates cs).1.2 ⟨c, hb⟩
  have e : family (f.trees h) = {w | Outfit cs w} := by rw [Matrix.run_family hf h, recipe_meaning hl]
  have hr : Reached cs [] c := ⟨c, hb, rfl⟩
  obtain ⟨h1, h2, h3⟩ := Matrix.trees_exact h ⟨_, hf⟩
  have hL : Lists cs [] (f.trees h) := ⟨by rw [e]; simp, h1, h3⟩
  refine ⟨e, ?_, ?_, ?_⟩
  · rw [count_listed hr hL]
    obtain ⟨S, hS, hc⟩ := Matrix.len_exact h ⟨_, hf⟩
    rw [hc, ← ncard_family h1 h3, ← Set.ncard_coe_finset]
    congr 1; ext w; simp [hS]
  · intro o ho
    obtain ⟨p1, _, p3⟩ := (Bdd.complete_exact cs c hb []).2.2 o ho
    have : o.toFinset ∈ family (f.trees h) := by rw [e]; exact p3
    obtain ⟨l, hl', e'⟩ := this
    rw [← toFinset_inj_of_lt (h1 l hl') p1 e']; exact hl'
  · rw [Matrix.isEmpty_exact h ⟨_, hf⟩, e]
    obtain ⟨⟨r, hr1⟩, hr2, _⟩ := Bdd.complete_exact cs c hb []
    have key : (∃ o, c.completeOutfit [] = some (.ok o)) ↔ ∃ w, Outfit cs w := by
      rw [hr2]
      constructor
      · rintro ⟨_, _, w, hw, _⟩; exact ⟨w, hw⟩
      · rintro ⟨w, hw⟩
        refine ⟨by simp, ?_, w, hw, by simp⟩
        rintro ⟨f, s, hs, hlen, _⟩
        rw [List.sublist_nil.1 hs] at hlen
        simp at hlen
    constructor
    · intro he
      cases r with
      | error u => exact ⟨u, hr1⟩
      | ok o =>
        obtain ⟨w, hw⟩ := key.1 ⟨o, hr1⟩
        have : w ∈ ({w | Outfit cs w} : Set (Finset I)) := hw
        rw [he] at this; exact this.elim
    · rintro ⟨u, hu⟩
      refine Set.eq_empty_iff_forall_notMem.2 fun w hw => ?_
      obtain ⟨o, ho⟩ := key.2 ⟨w, hw⟩
      rw [ho] at hu; cases hu

/-- C110: selecting items in the closet and filtering the matrix forest by them go hand in hand: the lengths are
the outfit counts; an item is Available exactly if it still occurs (and is not selected), Excluded exactly if it
does not; and the number of occurrences of an item is the outfit count after selecting it. -/
theorem matrix_follows (cs : List (Call I F)) (xs : List I) (c : Closet I F) (hr : Reached cs xs c)
    {f : Matrix.Forest I} (hf : Matrix.Runs (recipe cs) f) (h h' : HashOrder (List I)) (mo : HashOrder (I × ℕ)) :
    (Matrix.Forest.subsetAll h f xs).len = c.root.outfitCount ∧
    ((∃ w, Outfit cs w) → ∀ i,
      (Bdd.Status.Available i ∈ c.summary ↔
        i ∉ xs ∧ ∃ n, (i, n) ∈ (Matrix.Forest.subsetAll h f xs).occurrences h' mo) ∧
      (Bdd.Status.Excluded i ∈ c.summary ↔
        Known cs i ∧ ∀ n, (i, n) ∉ (Matrix.Forest.subsetAll h f xs).occurrences h' mo) ∧
      ∀ n, (i, n) ∈ (Matrix.Forest.subsetAll h f xs).occurrences h' mo →
        ∃ c', c.selectItem i = .ok c' ∧ c'.root.outfitCount = n) := by
  obtain ⟨c₀, hb, _⟩ := id hr
  have hl := (Bdd.build_validates cs).1.2 ⟨c₀, hb⟩
  have hg : Matrix.Reach (Matrix.Forest.subsetAll h f xs) := ⟨_, .subsetAll h xs hf⟩
  obtain ⟨h1, h2, h3⟩ := Matrix.trees_exact h' hg
  have hL : Lists cs xs ((Matrix.Forest.subsetAll h f xs).trees h') := by
    refine ⟨?_, h1, h3⟩
    rw [Matrix.subsetAll_family h h' ⟨_, hf⟩, Matrix.run_family hf h', recipe_meaning hl]; rfl
  refine ⟨?_, fun hs i => ?_⟩
  · rw [count_listed hr hL]
    obtain ⟨S, hS, hc⟩ := Matrix.len_exact h' hg
    rw [hc, ← ncard_family h1 h3, ← Set.ncard_coe_finset]
    congr 1; ext w; simp [hS]
  · obtain ⟨a1, a2, _, a4⟩ := listed_statuses hr hs hL i
    have occ := (Matrix.occurrences_exact h' h' mo hg).2 i
    have ex : (∃ n, (i, n) ∈ (Matrix.Forest.subsetAll h f xs).occurrences h' mo) ↔
        ∃ l ∈ (Matrix.Forest.subsetAll h f xs).trees h', i ∈ l :=
      ⟨fun ⟨n, hn⟩ => ((occ n).1 hn).1, fun hi => ⟨_, (occ _).2 ⟨hi, rfl⟩⟩⟩
    refine ⟨by rw [a1, ex], by rw [a2, ← ex, not_exists], fun n hn => ?_⟩
    obtain ⟨hi, rfl⟩ := (occ n).1 hn
    exact a4 hi

/-- C110: so does a zdd2 forest made from a listing of the outfits (in any order), if the wardrobe has an item. -/
theorem zdd2_follows (cs : List (Call I F)) (xs : List I) (c : Closet I F) (hr : Reached cs xs c)
    (hk : ∃ i, Known cs i) {ls : List (List I)} (hls : family ls = {w | Outfit cs w}) :
    ((Zdd2.Forest.many ls).subsetAll xs).len = c.root.outfitCount ∧
    family ((Zdd2.Forest.many ls).subsetAll xs).trees = {w | Outfit cs w ∧ ∀ x ∈ xs, x ∈ w} ∧
    ((∃ w, Outfit cs w) → ∀ i,
      (Bdd.Status.Available i ∈ c.summary ↔
        i ∉ xs ∧ ∃ n, (i, n) ∈ ((Zdd2.Forest.many ls).subsetAll xs).occurrences) ∧
      (Bdd.Status.Excluded i ∈ c.summary ↔
        Known cs i ∧ ∀ n, (i, n) ∉ ((Zdd2.Forest.many ls).subsetAll xs).occurrences) ∧
      ∀ n, (i, n) ∈ ((Zdd2.Forest.many ls).subsetAll xs).occurrences →
        ∃ c', c.selectItem i = .ok c' ∧ c'.root.outfitCount = n) := by
  have hg := Zdd2.reach_subsetAll (Zdd2.reach_many ls) xs
  obtain ⟨h1, h2, h3⟩ := Zdd2.trees_exact hg
  have ne : ∀ w, Outfit cs w → w ≠ ∅ := by
    rintro w hw rfl
    obtain ⟨i, f, hi⟩ := hk
    obtain ⟨j, ⟨_, hj⟩, _⟩ := hw.accepts.one f i hi
    simp at hj
  have e : family ((Zdd2.Forest.many ls).subsetAll xs).trees = {w | Outfit cs w ∧ ∀ x ∈ xs, x ∈ w} := by
    rw [Zdd2.subsetAll_family (Zdd2.reach_many ls), Zdd2.many_family, hls]
    ext w
    simp only [havingAll, Set.mem_ofPred_eq]
    exact ⟨fun a => ⟨a.1.1, a.2⟩, fun a => ⟨⟨a.1, ne w a.1⟩, a.2⟩⟩
  have hL : Lists cs xs ((Zdd2.Forest.many ls).subsetAll xs).trees := ⟨e, h1, h3⟩
  refine ⟨?_, e, fun hs i => ?_⟩
  · rw [count_listed hr hL, Zdd2.len_exact hg, ncard_family h1 h3]
  · obtain ⟨a1, a2, _, a4⟩ := listed_statuses hr hs hL i
    have occ : ∀ n, (i, n) ∈ ((Zdd2.Forest.many ls).subsetAll xs).occurrences ↔
        (∃ l ∈ ((Zdd2.Forest.many ls).subsetAll xs).trees, i ∈ l) ∧
          n = (((Zdd2.Forest.many ls).subsetAll xs).trees.filter (fun l => decide (i ∈ l))).length := by
      intro n
      rw [Zdd2.Forest.occurrences, (Zdd2.occurrences_exact hg _ (List.Perm.refl _)).2 i n]
      have e1 : (∃ s ∈ family ((Zdd2.Forest.many ls).subsetAll xs).trees, i ∈ s) ↔
          ∃ l ∈ ((Zdd2.Forest.many ls).subsetAll xs).trees, i ∈ l := by simp [family]
      have e2 : having (family ((Zdd2.Forest.many ls).subsetAll xs).trees) i =
          family (((Zdd2.Forest.many ls).subsetAll xs).trees.filter (fun l => decide (i ∈ l))) := by
        rw [(narrow_listed hL i).sets, e]
        ext w; simp only [having, Set.mem_ofPred_eq, List.mem_append, List.mem_singleton]
        constructor
        · rintro ⟨⟨b1, b2⟩, b3⟩
          exact ⟨b1, fun x hx => by rcases hx with hx | rfl; exacts [b2 x hx, b3]⟩
        · rintro ⟨b1, b2⟩; exact ⟨⟨b1, fun x hx => b2 x (Or.inl hx)⟩, b2 i (Or.inr rfl)⟩
      rw [e1, e2, ncard_family (narrow_listed hL i).asc (narrow_listed hL i).nodup]
    have ex : (∃ n, (i, n) ∈ ((Zdd2.Forest.many ls).subsetAll xs).occurrences) ↔
        ∃ l ∈ ((Zdd2.Forest.many ls).subsetAll xs).trees, i ∈ l :=
      ⟨fun ⟨n, hn⟩ => ((occ n).1 hn).1, fun hi => ⟨_, (occ _).2 ⟨hi, rfl⟩⟩⟩
    refine ⟨by rw [a1, ex], by rw [a2, ← ex, not_exists], fun n hn => ?_⟩
    obtain ⟨hi, rfl⟩ := (occ n).1 hn
    exact a4 hi

/-- C110: and the v1 tree of the outfits, asked with the selections as inclusions: it has as many combinations as
the closet has outfits and shows the statuses of the closet, except that it tells the items of all remaining
outfits (Required) from the other ones still possible (Available). -/
theorem tree_follows (cs : List (Call I F)) (xs : List I) (c : Closet I F) (hr : Reached cs xs c)
    {ls : List (List I)} (hls : family ls = {w | Outfit cs w}) {items : List I}
    (hi : ∀ i, i ∈ items ↔ Known cs i) {e : List (I × Nat)}
    (he : e.Perm (((Zdd1.Universe.fromVec items).hyperTree ls).counts xs [])) :
    (((Zdd1.Universe.fromVec items).hyperTree ls).combinationsWith xs []).length = c.root.outfitCount ∧
    ((∃ w, Outfit cs w) → ∀ i,
      (.Excluded i ∈ ((Zdd1.Universe.fromVec items).hyperTree ls).summarize xs [] e ↔
        Bdd.Status.Excluded i ∈ c.summary) ∧
      (.Selected i ∈ ((Zdd1.Universe.fromVec items).hyperTree ls).summarize xs [] e ↔
        Bdd.Status.Selected i ∈ c.summary) ∧
      (.Required i ∈ ((Zdd1.Universe.fromVec items).hyperTree ls).summarize xs [] e ∨
        .Available i ∈ ((Zdd1.Universe.fromVec items).hyperTree ls).summarize xs [] e ↔
        Bdd.Status.Available i ∈ c.summary) ∧
      (.Required i ∈ ((Zdd1.Universe.fromVec items).hyperTree ls).summarize xs [] e ↔
        ∃ c', i ∉ xs ∧ c.selectItem i = .ok c' ∧ c'.root.outfitCount = c.root.outfitCount)) := by
  generalize ht : (Zdd1.Universe.fromVec items).hyperTree ls = t at he ⊢
  have hu : t.univ = Zdd1.Universe.fromVec items := by rw [← ht, Zdd1.Universe.hyperTree, Zdd1.univ_foldUnion]; rfl
  have ef : family t.combinations = {w | Outfit cs w} := by
    rw [← ht, Zdd1.hyper_tree_exact, ← hls]
    ext A
    simp only [Set.mem_ofPred_eq, family]
    have flt : ∀ l ∈ ls, (l.filter (fun x => x ∈ items)) = l := by
      intro l hl
      rw [List.filter_eq_self]
      intro x hx
      have : l.toFinset ∈ family ls := ⟨l, hl, rfl⟩
      rw [hls] at this
      simpa [hi] using this.known x (by simpa using hx)
    constructor
    · rintro ⟨l, hl, rfl⟩; exact ⟨l, hl, by rw [flt l hl]⟩
    · rintro ⟨l, hl, rfl⟩; exact ⟨l, hl, by rw [flt l hl]⟩
  obtain ⟨q1, q2, _⟩ := Zdd1.combinations_listing t
  have hsub : ∀ l ∈ t.combinationsWith xs [], l ∈ t.combinations := fun l hl => by
    rw [Zdd1.combinations_with_exact] at hl; exact (List.mem_filter.1 hl).1
  have hL : Lists cs xs (t.combinationsWith xs []) := by
    refine ⟨?_, fun l hl => q2 l (hsub l hl), ?_⟩
    · rw [Zdd1.combinations_with_family, ef]; ext w; simp
    · rw [Zdd1.combinations_with_exact]; exact (q1.imp fun h => ne_of_lt h).filter _
  refine ⟨(count_listed hr hL).symm, fun hs i => ?_⟩
  obtain ⟨a1, a2, a3, a4⟩ := listed_statuses hr hs hL i
  have sm := (Zdd1.summarize_exact hu xs [] he).2
  have R : {A | A ∈ family t.combinations ∧ (∀ y ∈ xs, y ∈ A) ∧ (∀ y ∈ ([] : List I), y ∉ A)} =
      family (t.combinationsWith xs []) := (Zdd1.combinations_with_family t xs []).symm
  rw [R] at sm
  have some_iff : (∃ A ∈ family (t.combinationsWith xs []), i ∈ A) ↔ ∃ l ∈ t.combinationsWith xs [], i ∈ l := by
    simp [family]
  have known : (∃ l ∈ t.combinationsWith xs [], i ∈ l) → i ∈ items := fun h => by
    obtain ⟨w, hw, _, hiw⟩ := (mem_listed hL i).1 h
    exact (hi i).2 (hw.known i hiw)
  -- a selected item is in some remaining outfit
  have selin : i ∈ xs → ∃ l ∈ t.combinationsWith xs [], i ∈ l := fun hx => by
    obtain ⟨_, s1, s2, s3⟩ := Bdd.summary_exact cs xs c hr hs i
    obtain ⟨c₀, hb, _⟩ := id hr
    obtain ⟨w, hw, hall⟩ := (Bdd.select_all_ok_iff cs ((Bdd.build_validates cs).1.2 ⟨c₀, hb⟩) hs xs).1 ⟨c, hr⟩
    exact (mem_listed hL i).2 ⟨w, hw, hall, hall i hx⟩
  have none_iff : (∀ A ∈ family (t.combinationsWith xs []), i ∉ A) ↔ ¬ ∃ l ∈ t.combinationsWith xs [], i ∈ l := by
    rw [← some_iff]; push Not; rfl
  have rq : (.Required i ∈ t.summarize xs [] e) ↔ i ∉ xs ∧ (∃ l ∈ t.combinationsWith xs [], i ∈ l) ∧
      ∀ l ∈ t.combinationsWith xs [], i ∈ l := by
    rw [sm]
    have all_iff : (∀ A ∈ family (t.combinationsWith xs []), i ∈ A) ↔ ∀ l ∈ t.combinationsWith xs [], i ∈ l := by
      simp [family]
    constructor
    · rintro ⟨x, hx, (⟨_, h⟩ | ⟨_, _, h⟩ | ⟨h1, h2, h3, h⟩ | ⟨_, _, _, h⟩)⟩ <;> cases h
      exact ⟨h2, some_iff.1 h1, all_iff.1 h3⟩
    · rintro ⟨h1, h2, h3⟩
      exact ⟨i, known h2, Or.inr (Or.inr (Or.inl ⟨some_iff.2 h2, h1, all_iff.2 h3, rfl⟩))⟩
  have av : (.Available i ∈ t.summarize xs [] e) ↔ i ∉ xs ∧ (∃ l ∈ t.combinationsWith xs [], i ∈ l) ∧
      ¬ ∀ l ∈ t.combinationsWith xs [], i ∈ l := by
    rw [sm]
    have all_iff : (∃ A ∈ family (t.combinationsWith xs []), i ∉ A) ↔ ¬ ∀ l ∈ t.combinationsWith xs [], i ∈ l := by
      simp [family]
    constructor
    · rintro ⟨x, hx, (⟨_, h⟩ | ⟨_, _, h⟩ | ⟨_, _, _, h⟩ | ⟨h1, h2, h3, h⟩)⟩ <;> cases h
      exact ⟨h2, some_iff.1 h1, all_iff.1 h3⟩
    · rintro ⟨h1, h2, h3⟩
      exact ⟨i, known h2, Or.inr (Or.inr (Or.inr ⟨some_iff.2 h2, h1, all_iff.2 h3, rfl⟩))⟩
  refine ⟨?_, ?_, ?_, ?_⟩
  · rw [sm, a2]
    constructor
    · rintro ⟨x, hx, (⟨h0, h⟩ | ⟨_, _, h⟩ | ⟨_, _, _, h⟩ | ⟨_, _, _, h⟩)⟩ <;> cases h
      exact ⟨(hi i).1 hx, none_iff.1 h0⟩
    · rintro ⟨h1, h2⟩; exact ⟨i, (hi i).2 h1, Or.inl ⟨none_iff.2 h2, rfl⟩⟩
  · rw [sm, a3]
    constructor
    · rintro ⟨x, hx, (⟨_, h⟩ | ⟨_, h0, h⟩ | ⟨_, _, _, h⟩ | ⟨_, _, _, h⟩)⟩ <;> cases h
      exact h0
    · intro hx; exact ⟨i, known (selin hx), Or.inr (Or.inl ⟨some_iff.2 (selin hx), hx, rfl⟩)⟩
  · rw [rq, av, a1]
    constructor
    · rintro (h | h) <;> exact ⟨h.1, h.2.1⟩
    · rintro ⟨h1, h2⟩
      by_cases h : ∀ l ∈ t.combinationsWith xs [], i ∈ l
      · exact Or.inl ⟨h1, h2, h⟩
      · exact Or.inr ⟨h1, h2, h⟩
  · rw [rq]
    constructor
    · rintro ⟨h1, h2, h3⟩
      obtain ⟨c', hc, hn⟩ := a4 h2
      refine ⟨c', h1, hc, ?_⟩
      rw [hn, count_listed hr hL, List.filter_eq_self.2 (by simpa using h3)]
    · rintro ⟨c', h1, hc, hn⟩
      have h2 : ∃ l ∈ t.combinationsWith xs [], i ∈ l := by
        by_contra hno
        obtain ⟨s1, s2, _⟩ := Bdd.select_exact cs xs c hr hs i
        by_cases hk : Known cs i
        · rw [s2 hk (by rwa [← mem_listed hL])] at hc; cases hc
        · rw [s1 hk] at hc; cases hc
      obtain ⟨c'', hc'', hn''⟩ := a4 h2
      rw [hc] at hc''; cases hc''
      rw [hn, count_listed hr hL] at hn''
      refine ⟨h1, h2, fun l hl => ?_⟩
      have := List.filter_eq_self.1 (List.filter_sublist.eq_of_length hn''.symm) l hl
      simpa using this

/-- C110: where the two differ: if the rules leave no outfit at all, the tree shows every item as Excluded and the
closet shows none. -/
theorem nothing_fits (cs : List (Call I F)) (xs : List I) (c : Closet I F) (hr : Reached cs xs c)
    (hs : ¬ ∃ w, Outfit cs w) {items : List I} (hi : ∀ i, i ∈ items ↔ Known cs i) {ls : List (List I)}
    (hls : family ls = {w | Outfit cs w}) {e : List (I × Nat)}
    (he : e.Perm (((Zdd1.Universe.fromVec items).hyperTree ls).counts xs [])) :
    (∀ i, .Excluded i ∈ ((Zdd1.Universe.fromVec items).hyperTree ls).summarize xs [] e ↔ Known cs i) ∧
    ∀ i, Bdd.Status.Excluded i ∉ c.summary := by
  have hnil : ls = [] := by
    rcases ls with _ | ⟨l, ls⟩
    · rfl
    · have : l.toFinset ∈ family (l :: ls) := ⟨l, by simp, rfl⟩
      rw [hls] at this; exact absurd ⟨_, this⟩ hs
  subst hnil
  have ef : family ((Zdd1.Universe.fromVec items).hyperTree []).combinations = ∅ := by
    rw [Zdd1.hyper_tree_exact]; ext; simp
  refine ⟨fun i => ?_, fun i hx => ?_⟩
  · rw [(Zdd1.summarize_exact rfl xs [] he).2, ← hi i]
    constructor
    · rintro ⟨x, hx, (⟨_, h⟩ | ⟨_, _, h⟩ | ⟨_, _, _, h⟩ | ⟨_, _, _, h⟩)⟩ <;> cases h
      exact hx
    · intro hx; exact ⟨i, hx, Or.inl ⟨by rw [ef]; rintro A ⟨h, _⟩; exact h.elim, rfl⟩⟩
  · obtain ⟨_, h, _⟩ := Bdd.select_unsatisfiable cs xs c hr hs
    obtain ⟨j, _, e⟩ := (h _).1 hx
    cases e

/-! ## The same recipe on zdd2 -/

theorem foldl_obey_items (ds : List (Call I F)) (p : Matrix.Prog I)
    (h : ∀ c ∈ ds, ∃ f i, c = Call.item f i) : ds.foldl obey p = p := by
  induction ds generalizing p with
  | nil => rfl
  | cons d ds ih =>
    obtain ⟨f, i, rfl⟩ := h d (by simp)
    rw [List.foldl_cons]
    exact ih _ fun c hc => h c (by simp [hc])

/-- C110: without rules the recipe is right on zdd2, too: the forest has exactly the outfits of the closet, and
its length is `outfit_count()`. -/
theorem zdd2_recipe_exact (cs : List (Call I F)) (c : Closet I F) (hb : (ClosetBuilder.run cs).build = .ok c)
    (hno : ∀ d ∈ cs, ∃ f i, d = Call.item f i) (hne : cs ≠ []) {f : Zdd2.Forest I}
    (hf : Zdd2.run (recipe cs) = some f) :
    family f.trees = {w | Outfit cs w} ∧ f.len = c.root.outfitCount := by
  have hl := (Bdd.build_validates cs).1.2 ⟨c, hb⟩
  have hr : Reached cs [] c := ⟨c, hb, rfl⟩
  have hm := recipe_meaning hl
  have hg : Zdd2.Reach f := ⟨_, hf⟩
  have hk : ∃ g i, Call.item g i ∈ cs := by
    rcases cs with _ | ⟨d, ds⟩
    · exact absurd rfl hne
    · obtain ⟨g, i, rfl⟩ := hno d (by simp); exact ⟨g, i, by simp⟩
  have safe : Zdd2.Safe (recipe cs) := by
    rw [recipe, foldl_obey_items cs _ hno]
    have hnd : (familyNames cs).Nodup := List.nodup_dedup _
    cases hN : familyNames cs with
    | nil => trivial
    | cons n ns =>
      rw [hN] at hnd
      refine Trait.menu_safe _ _ ?_
      rw [← List.map_cons (f := familyItems cs), List.pairwise_map]
      refine hnd.imp fun {a b} hab x hx hy => hab ?_
      exact hl.oneFamily _ _ _ (mem_familyItems.1 hx) (mem_familyItems.1 hy)
  have e : family f.trees = {w | Outfit cs w} := by
    rw [Zdd2.safe_family safe hf, hm]
    ext w
    simp only [Verif.Zdd2.Spec.nonempty, Set.mem_ofPred_eq]
    refine ⟨fun a => a.1, fun a => ⟨a, ?_⟩⟩
    obtain ⟨g, i, hi⟩ := hk
    obtain ⟨j, ⟨_, hj⟩, _⟩ := a.accepts.one g i hi
    exact ⟨j, hj⟩
  obtain ⟨h1, h2, h3⟩ := Zdd2.trees_exact hg
  refine ⟨e, ?_⟩
  rw [count_listed hr (ls := f.trees) ⟨by rw [e]; simp, h1, h3⟩, Zdd2.len_exact hg, ncard_family h1 h3]

/-- Two families of two, one exclusion.  Not code: used to state or prove properties. -/
def ruled : List (Call Nat Nat) := [.item 0 1, .item 0 2, .item 1 3, .item 1 4, .exclude 3 1]

theorem ruled_recipe : recipe ruled =
    .union (.subsetNot (.product (.unique [1, 2]) (.unique [3, 4])) 3)
      (.subsetNot (.subset (.product (.unique [1, 2]) (.unique [3, 4])) 3) 1) := by
  have e : familyNames ruled = [0, 1] := by decide +kernel
  rw [recipe, e]; rfl

theorem ruled_outfit : Outfit ruled {1, 4} := by
  refine ⟨?_, ?_, ?_, ?_⟩
  · intro i hi; simp at hi; rcases hi with rfl | rfl
    · exact ⟨0, by simp [ruled]⟩
    · exact ⟨1, by simp [ruled]⟩
  · intro f i hi
    simp [ruled] at hi
    rcases hi with ⟨rfl, _⟩ | ⟨rfl, _⟩ | ⟨rfl, _⟩ | ⟨rfl, _⟩
    · exact ⟨1, by simp [ruled], fun y => by simp [ruled]; omega⟩
    · exact ⟨1, by simp [ruled], fun y => by simp [ruled]; omega⟩
    · exact ⟨4, by simp [ruled], fun y => by simp [ruled]; omega⟩
    · exact ⟨4, by simp [ruled], fun y => by simp [ruled]; omega⟩
  · intro a b; simp [ruled]; omega
  · intro a b; simp [ruled]

/-- C110: with a rule it is not: here the zdd2 forest lists {1, 2}, two items of one family and none of the other,
and lacks the outfit {1, 4}. -/
theorem zdd2_recipe_wrong : ∃ f, Zdd2.run (recipe ruled) = some f ∧ f.trees = [[1, 2], [2, 3], [2, 4]] ∧
    ¬ Outfit ruled {1, 2} ∧ Outfit ruled {1, 4} := by
  have key : (Zdd2.run (recipe ruled)).map (·.trees) = some [[1, 2], [2, 3], [2, 4]] := by
    rw [ruled_recipe]
    simp only [Zdd2.run]
    open Verif.Zdd2 Verif.Conform in zrun
  obtain ⟨f, h1, h2⟩ := Option.map_eq_some_iff.1 key
  refine ⟨f, h1, h2, fun h => ?_, ruled_outfit⟩
  obtain ⟨j, ⟨hj, hj'⟩, _⟩ := h.accepts.one 1 3 (by simp [ruled])
  simp [ruled] at hj hj'
  omega

/-! ## Concrete wardrobes that meet the hypotheses -/

example := recipe_meaning Bdd.demo_legal

theorem recipe_runs (cs : List (Call I F)) : ∃ f, Matrix.Runs (recipe cs) f := by
  obtain ⟨_, f, hf⟩ := Trait.client_total (recipe cs)
  exact ⟨f, Trait.eval_matrix.1 hf⟩

theorem demo_all : family [[3, 2], [1, 4]] = {w | Outfit Bdd.demo w} := by
  rw [← recipe_meaning Bdd.demo_legal]
  ext w
  have e : familyNames Bdd.demo = [0, 1] := by decide +kernel
  have ec : choose Bdd.demo [0, 1] = .product (.unique [1, 2]) (.unique [3, 4]) := rfl
  simp only [recipe, rules_meaning, e, ec, Matrix.Prog.meaning, prod, Set.mem_ofPred_eq, family]
  constructor
  · rintro ⟨l, hl, rfl⟩
    simp only [List.mem_cons, List.not_mem_nil, or_false] at hl
    rcases hl with rfl | rfl
    · exact ⟨⟨{2}, ⟨2, by simp, rfl⟩, {3}, ⟨3, by simp, rfl⟩, by decide⟩, by simp [Bdd.demo],
        by simp [Bdd.demo]⟩
    · exact ⟨⟨{1}, ⟨1, by simp, rfl⟩, {4}, ⟨4, by simp, rfl⟩, by decide⟩, by simp [Bdd.demo],
        by simp [Bdd.demo]⟩
  · rintro ⟨⟨a, ⟨x, hx, rfl⟩, b, ⟨y, hy, rfl⟩, rfl⟩, h1, h2⟩
    have h1 := h1 1 3 (by simp [Bdd.demo])
    have h2 := h2 2 3 (by simp [Bdd.demo])
    simp only [List.mem_cons, List.not_mem_nil, or_false] at hx hy
    rcases hx with rfl | rfl <;> rcases hy with rfl | rfl
    · simp at h1
    · exact ⟨[1, 4], by simp, by decide⟩
    · exact ⟨[3, 2], by simp, by decide⟩
    · simp at h2

example (h : HashOrder (List ℕ)) : ∃ c f, (ClosetBuilder.run Bdd.demo).build = .ok c ∧
    Matrix.Runs (recipe Bdd.demo) f ∧ family (f.trees h) = family [[3, 2], [1, 4]] ∧
    f.len = c.root.outfitCount := by
  obtain ⟨c, hc⟩ := (Bdd.build_validates Bdd.demo).1.1 Bdd.demo_legal
  obtain ⟨f, hf⟩ := recipe_runs Bdd.demo
  obtain ⟨h1, h2, _⟩ := recipe_exact Bdd.demo c hc hf h
  exact ⟨c, f, hc, hf, by rw [h1, demo_all], h2⟩

example (h : HashOrder (List ℕ)) (mo : HashOrder (ℕ × ℕ)) : ∃ c f, Reached Bdd.demo [4, 1] c ∧
    Matrix.Runs (recipe Bdd.demo) f ∧ (Matrix.Forest.subsetAll h f [4, 1]).len = c.root.outfitCount ∧
    ∀ n, (2, n) ∉ (Matrix.Forest.subsetAll h f [4, 1]).occurrences h mo := by
  obtain ⟨c, hc⟩ := Bdd.demo_reached
  obtain ⟨f, hf⟩ := recipe_runs Bdd.demo
  obtain ⟨h1, h2⟩ := matrix_follows Bdd.demo _ c hc hf h h mo
  have hs : ∃ w, Outfit Bdd.demo w := ⟨_, Bdd.demo_outfit⟩
  refine ⟨c, f, hc, hf, h1, ((h2 hs 2).2.1.1 ?_).2⟩
  refine ((Bdd.summary_exact _ _ c hc hs 2).2.2.2).2 ⟨(Bdd.demo_known 2).2 (by simp), ?_⟩
  rintro ⟨w, hw, hx, h2⟩
  obtain ⟨j, _, hu⟩ := hw.accepts.one 0 1 (by simp [Bdd.demo])
  have a := hu 1 ⟨by simp [Bdd.demo], hx 1 (by simp)⟩
  have b := hu 2 ⟨by simp [Bdd.demo], h2⟩
  omega

example : ∃ c, Reached Bdd.demo [4, 1] c ∧
    ((Zdd2.Forest.many [[3, 2], [1, 4]]).subsetAll [4, 1]).len = c.root.outfitCount := by
  obtain ⟨c, hc⟩ := Bdd.demo_reached
  exact ⟨c, hc, (zdd2_follows Bdd.demo _ c hc ⟨1, (Bdd.demo_known 1).2 (by simp)⟩ demo_all).1⟩

example : ∃ c, Reached Bdd.demo [4, 1] c ∧
    (((Zdd1.Universe.fromVec [1, 2, 3, 4]).hyperTree [[3, 2], [1, 4]]).combinationsWith [4, 1] []).length =
      c.root.outfitCount := by
  obtain ⟨c, hc⟩ := Bdd.demo_reached
  exact ⟨c, hc, (tree_follows Bdd.demo _ c hc demo_all (items := [1, 2, 3, 4])
    (by intro i; rw [Bdd.demo_known]; simp) (List.Perm.refl _)).1⟩

/-- The item lines of `ruled`: the recipe is right on zdd2. -/
example : ∃ c f, (ClosetBuilder.run (ruled.take 4)).build = .ok c ∧ Zdd2.run (recipe (ruled.take 4)) = some f ∧
    f.len = c.root.outfitCount := by
  have hl : Legal (ruled.take 4) := by
    refine ⟨?_, ?_, ?_⟩
    · intro f g i; simp [ruled]; omega
    · intro a b; simp [ruled]
    · intro a b; simp [ruled]
  obtain ⟨c, hc⟩ := (Bdd.build_validates _).1.1 hl
  obtain ⟨f, hf⟩ := Zdd2.run_total (recipe (ruled.take 4))
  exact ⟨c, f, hc, hf, (zdd2_recipe_exact _ c hc (by simp [ruled]) (by simp [ruled]) hf).2⟩

/-- One shirt and one pair of trousers that exclude each other.  Not code: used to state or prove properties. -/
def bare : List (Call Nat Nat) := [.item 0 1, .item 1 2, .exclude 1 2]

theorem bare_nothing : ¬ ∃ w, Outfit bare w := by
  rintro ⟨w, hw⟩
  obtain ⟨i, ⟨h1, h2⟩, _⟩ := hw.accepts.one 0 1 (by simp [bare])
  obtain ⟨j, ⟨h3, h4⟩, _⟩ := hw.accepts.one 1 2 (by simp [bare])
  simp [bare] at h1 h3
  subst h1 h3
  exact hw.accepts.exclusions 1 2 (by simp [bare]) ⟨h2, h4⟩

example : ∃ c, Reached bare [] c ∧
    .Excluded 1 ∈ ((Zdd1.Universe.fromVec [1, 2]).hyperTree []).summarize [] []
      (((Zdd1.Universe.fromVec [1, 2]).hyperTree []).counts [] []) ∧ Bdd.Status.Excluded 1 ∉ c.summary := by
  have hl : Legal bare := by
    refine ⟨?_, ?_, ?_⟩
    · intro f g i; simp [bare]; omega
    · intro a b; simp [bare]; rintro rfl rfl; exact ⟨0, by simp, 1, by simp⟩
    · intro a b; simp [bare]
  obtain ⟨c, hc⟩ := (Bdd.build_validates _).1.1 hl
  have hr : Reached bare [] c := ⟨c, hc, rfl⟩
  have hk : ∀ i, i ∈ [1, 2] ↔ Known bare i := by
    intro i
    simp only [Known, bare, List.mem_cons, Call.item.injEq, reduceCtorEq, List.not_mem_nil, or_false]
    constructor
    · rintro (rfl | rfl); exacts [⟨0, by simp⟩, ⟨1, by simp⟩]
    · rintro ⟨f, h⟩; omega
  have h0 : family ([] : List (List ℕ)) = {w | Outfit bare w} := by
    ext w
    exact ⟨fun ⟨l, h, _⟩ => (List.not_mem_nil h).elim, fun h => absurd ⟨w, h⟩ bare_nothing⟩
  obtain ⟨h1, h2⟩ := nothing_fits bare [] c hr bare_nothing hk h0 (List.Perm.refl _)
  exact ⟨c, hr, (h1 1).2 ((hk 1).1 (by simp)), h2 1⟩

end Verif.Wardrobe
