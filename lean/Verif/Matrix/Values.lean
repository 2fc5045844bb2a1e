import Verif.Sharp

/-!
# Matrix forests as values (C112)

`==` on matrix forests is derived, so a forest of exactly one member can be held in two ways that are
not equal: as the `Unit` variant, or as the `Many` variant with one vector.  `Alone` says, from the
program text and the meaning of its parts only, which of the two a program produces; it decides `==`
between any two programs.
-/

namespace Verif.Matrix
open Verif Verif.Spec

universe u
variable {T : Type u} [LinearOrder T]

/-- A family with exactly one member.  Not code: used to state or prove properties. -/
def One (A : Set (Finset T)) : Prop := ∃ s, A = {s}

/-- The program's result is held as a single vector rather than as a hash set of one.  It mentions the
program text and the family each part denotes, never a forest.
Not code: used to state or prove properties. -/
def Alone : Prog T → Prop
  | .empty => False
  | .unit _ => True
  | .many m => m.length = 1
  | .unique s => s.length = 1
  | .union a b =>
      (Alone a ∧ (b.meaning = ∅ ∨ (b.meaning = a.meaning ∧ Alone b))) ∨ (a.meaning = ∅ ∧ Alone b)
  | .intersect a b => One (a.meaning ∩ b.meaning) ∧ (a.meaning = b.meaning → Alone a ∨ Alone b)
  | .product a b => One a.meaning ∧ One b.meaning
  | .subset a x => One (having a.meaning x)
  | .subsetNot a x => One (without a.meaning x)
  | .subsetAll a xs => (xs = [] → Alone a) ∧ One (havingAll a.meaning xs)
  | .subsetNone a xs => (xs = [] → Alone a) ∧ One (havingNone a.meaning xs)

theorem one_len {p : Prog T} {f : Forest T} (hr : Runs p f) : f.len = 1 ↔ One p.meaning := by
  obtain ⟨S, h1, h2⟩ := len_exact (HashOrder.anyOrder (List T)) ⟨p, hr⟩
  rw [run_family hr] at h1
  rw [h2, Finset.card_eq_one]
  constructor
  · rintro ⟨s, rfl⟩; exact ⟨s, Set.ext fun t => by rw [← h1]; simp⟩
  · rintro ⟨s, e⟩; exact ⟨s, Finset.ext fun t => by rw [h1, e]; simp⟩

theorem empty_iff {p : Prog T} {f : Forest T} (hr : Runs p f) : f = .Empty ↔ p.meaning = ∅ := by
  rw [← run_family hr (HashOrder.anyOrder (List T)), ← isEmpty_exact _ ⟨p, hr⟩]
  cases f <;> simp [Forest.isEmpty]

theorem many_isUnit (m : List (List T)) : (Forest.many m).isUnit = true ↔ m.length = 1 := by
  match m with
  | [] => simp [Forest.many, Forest.empty, Forest.isUnit]
  | [s] => simp [Forest.many, Forest.unit, Forest.isUnit]
  | a :: b :: m => simp [Forest.many, Forest.isUnit]

theorem many_unit_len {m : List (List T)} (hn : m.Nodup) (hm : ∀ x ∈ m, x.Pairwise (· < ·)) :
    (Forest.many m).isUnit = true ↔ (Forest.many m).len = 1 := by
  rw [many_isUnit]
  match m, hn, hm with
  | [], _, _ => simp [Forest.many, Forest.empty, Forest.len]
  | [s], _, _ => simp [Forest.many, Forest.unit, Forest.len]
  | a :: b :: m, hn, hm =>
    have hab : filterRepeats a ≠ filterRepeats b := by
      rw [filterRepeats_of_lt (hm a (by simp)), filterRepeats_of_lt (hm b (by simp))]
      rintro rfl; simp at hn
    refine ⟨fun e => by simp at e, fun e => ?_⟩
    obtain ⟨c, hc⟩ := Finset.card_eq_one.1 (show Finset.card _ = 1 from e)
    have h1 : (Forest.many (a :: b :: m)).Stored (filterRepeats a) :=
      (Forest.stored_many _ _).2 ⟨a, by simp, rfl⟩
    have h2 : (Forest.many (a :: b :: m)).Stored (filterRepeats b) :=
      (Forest.stored_many _ _).2 ⟨b, by simp, rfl⟩
    simp only [Forest.many, Forest.stored_M] at h1 h2
    rw [hc, Finset.mem_singleton] at h1 h2
    exact absurd (h1.trans h2.symm) hab

/-- Which variant `union` returns. -/
theorem union_isUnit (h : HashOrder (List T)) {f g : Forest T} (hf : f.WF) (hg : g.WF) :
    (Forest.union h f g).isUnit = true ↔
      (f.isUnit = true ∧ (g = .Empty ∨ f = g)) ∨ (f = .Empty ∧ g.isUnit = true) := by
  unfold Forest.union
  by_cases e : f = g
  · subst e
    rw [if_pos rfl]
    cases f <;> simp [Forest.isUnit]
  · rw [if_neg e]
    cases f with
    | Empty => cases g <;> simp_all [Forest.isUnit]
    | Unit s =>
      cases g with
      | Empty => simp [Forest.isUnit]
      | Unit s' =>
        rw [many_isUnit]; simp only [List.length_cons, List.length_nil]; simp_all
      | Many m =>
        have := Finset.card_pos.2 (hg.nonempty m rfl)
        simp only [many_isUnit, List.length_append, h.length_iter, List.length_cons, List.length_nil]
        simp only [Forest.isUnit, true_and, reduceCtorEq, false_and, or_false, iff_false]
        omega
    | Many m =>
      cases g with
      | Empty => simp [Forest.isUnit]
      | Unit s =>
        have := Finset.card_pos.2 (hf.nonempty m rfl)
        simp only [many_isUnit, List.length_append, h.length_iter, List.length_cons, List.length_nil]
        simp only [Forest.isUnit, reduceCtorEq, false_and, or_false, iff_false, Bool.false_eq_true]
        omega
      | Many m' =>
        simp only
        split_ifs with h1 h2
        · simp [Forest.isUnit]
        · simp [Forest.isUnit]
        · rw [many_isUnit, h.length_iter]
          simp only [Forest.isUnit, reduceCtorEq, false_and, false_or, or_self, and_false, iff_false,
            Bool.false_eq_true]
          intro hc
          obtain ⟨c, hc⟩ := Finset.card_eq_one.1 hc
          obtain ⟨a, ha, ha'⟩ := Finset.not_subset.1 h1
          obtain ⟨b, hb, hb'⟩ := Finset.not_subset.1 h2
          have e1 : a = c := by
            have : a ∈ m ∪ m' := Finset.mem_union_left _ ha
            rw [hc] at this; simpa using this
          have e2 : b = c := by
            have : b ∈ m ∪ m' := Finset.mem_union_right _ hb
            rw [hc] at this; simpa using this
          subst e1; subst e2; exact ha' hb

/-- Which variant `intersect` returns. -/
theorem intersect_isUnit (h : HashOrder (List T)) {f g : Forest T} (hf : f.WF) :
    (Forest.intersect h f g).isUnit = true ↔
      (Forest.intersect h f g).len = 1 ∧ (f = g → f.isUnit = true) := by
  unfold Forest.intersect
  by_cases e : f = g
  · subst e
    rw [if_pos rfl]
    cases f <;> simp [Forest.isUnit, Forest.len]
  · rw [if_neg e]
    simp only [e, false_imp_iff, and_true]
    cases f with
    | Empty => cases g <;> simp [Forest.isUnit, Forest.len, Forest.empty]
    | Unit s =>
      cases g with
      | Empty => simp [Forest.isUnit, Forest.len, Forest.empty]
      | Unit s' => simp [Forest.isUnit, Forest.len, Forest.empty]
      | Many m => simp only; split_ifs <;> simp [Forest.isUnit, Forest.len, Forest.empty]
    | Many m =>
      cases g with
      | Empty => simp [Forest.isUnit, Forest.len, Forest.empty]
      | Unit s => simp only; split_ifs <;> simp [Forest.isUnit, Forest.len, Forest.empty]
      | Many m' =>
        exact many_unit_len (h.nodup _) fun x hx =>
          hf.lt x (Finset.mem_inter.1 (h.mem_iter.1 hx)).1

/-- Which variant `product` returns. -/
theorem product_isUnit (h1 h2 : HashOrder (List T)) (f g : Forest T) :
    (Forest.product h1 h2 f g).isUnit = true ↔ f.len = 1 ∧ g.len = 1 := by
  cases f with
  | Empty => cases g <;> simp [Forest.product, Forest.isUnit, Forest.len, Forest.empty]
  | Unit s =>
    cases g with
    | Empty => simp [Forest.product, Forest.isUnit, Forest.len, Forest.empty]
    | Unit s' => simp [Forest.product, Forest.isUnit, Forest.len, Forest.unit]
    | Many m => simp [Forest.product, Forest.manyToMatrix, many_isUnit, Forest.len, h2.length_iter]
  | Many m =>
    cases g with
    | Empty => simp [Forest.product, Forest.isUnit, Forest.len, Forest.empty]
    | Unit s' => simp [Forest.product, Forest.manyToMatrix, many_isUnit, Forest.len, h1.length_iter]
    | Many m' =>
      simp only [Forest.product, many_isUnit, Forest.len, List.length_flatMap, List.length_map,
        h2.length_iter]
      simp [h1.length_iter]

theorem filter_unit_len (h : HashOrder (List T)) {m : Finset (List T)} (hf : (Forest.Many m).WF)
    (p : List T → Bool) : (Forest.many ((h.iter m).filter p)).isUnit = true ↔
      (Forest.many ((h.iter m).filter p)).len = 1 :=
  many_unit_len ((h.nodup m).filter p) fun x hx =>
    hf.lt x (h.mem_iter.1 (List.mem_filter.1 hx).1)

/-- C112: which of the two forms a program's forest takes is decided by the program text and the families
its parts denote. -/
theorem runs_alone {p : Prog T} {f : Forest T} (hr : Runs p f) : f.isUnit = true ↔ Alone p := by
  have key : ∀ {p q : Prog T} {f g : Forest T}, Runs p f → Runs q g → (f.isUnit = true ↔ Alone p) →
      (g.isUnit = true ↔ Alone q) → (f = g ↔ p.meaning = q.meaning ∧ (Alone p ↔ Alone q)) := by
    intro p q f g hf hg h1 h2
    have e := (eq_iff_partial (HashOrder.anyOrder (List T)) ⟨p, hf⟩ ⟨q, hg⟩).1
    rw [run_family hf, run_family hg, Bool.eq_iff_iff, h1, h2] at e
    exact e
  induction hr with
  | empty => simp [Alone, Forest.empty, Forest.isUnit]
  | unit s => simp [Alone, Forest.unit, Forest.isUnit]
  | many m => exact many_isUnit m
  | unique s => simp [Alone, Forest.unique, many_isUnit]
  | union h ha hb iha ihb =>
    replace iha := Iff.intro iha.1 iha.2
    replace ihb := Iff.intro ihb.1 ihb.2
    rw [union_isUnit h ha.wf hb.wf, key ha hb iha ihb, empty_iff ha, empty_iff hb, iha, ihb, Alone]
    constructor
    · rintro (⟨h1, h2 | h2⟩ | h1)
      · exact .inl ⟨h1, .inl h2⟩
      · exact .inl ⟨h1, .inr ⟨h2.1.symm, h2.2.1 h1⟩⟩
      · exact .inr h1
    · rintro (⟨h1, h2 | h2⟩ | h1)
      · exact .inl ⟨h1, .inl h2⟩
      · exact .inl ⟨h1, .inr ⟨h2.1.symm, fun _ => h2.2, fun _ => h1⟩⟩
      · exact .inr h1
  | @intersect a b f g h ha hb iha ihb =>
    replace iha := Iff.intro iha.1 iha.2
    replace ihb := Iff.intro ihb.1 ihb.2
    rw [intersect_isUnit h ha.wf, one_len (.intersect h ha hb), key ha hb iha ihb, iha, Alone]
    refine and_congr_right fun _ => ?_
    constructor
    · intro h1 e
      by_cases hA : Alone a
      · exact .inl hA
      · by_contra hB
        push Not at hB
        exact hA (h1 ⟨e, fun x => absurd x hB.1, fun x => absurd x hB.2⟩)
    · rintro h1 ⟨e, h2⟩
      exact (h1 e).elim id h2.2
  | product h1 h2 ha hb iha ihb =>
    rw [product_isUnit, one_len ha, one_len hb, Alone]
  | @subset a f h x ha iha =>
    have e := one_len (.subset h x ha)
    rw [Alone, ← show Prog.meaning (.subset a x) = having a.meaning x from rfl, ← e]
    cases f with
    | Empty => simp [Forest.subset, Forest.isUnit, Forest.len, Forest.empty]
    | Unit s => simp only [Forest.subset]; split_ifs <;> simp [Forest.isUnit, Forest.len, Forest.empty]
    | Many m => exact filter_unit_len h ha.wf _
  | @subsetNot a f h x ha iha =>
    have e := one_len (.subsetNot h x ha)
    rw [Alone, ← show Prog.meaning (.subsetNot a x) = without a.meaning x from rfl, ← e]
    cases f with
    | Empty => simp [Forest.subsetNot, Forest.isUnit, Forest.len, Forest.empty]
    | Unit s => simp only [Forest.subsetNot]; split_ifs <;> simp [Forest.isUnit, Forest.len, Forest.empty]
    | Many m => exact filter_unit_len h ha.wf _
  | @subsetAll a f h xs ha iha =>
    replace iha := Iff.intro iha.1 iha.2
    have e := one_len (.subsetAll h xs ha)
    rw [Alone, ← show Prog.meaning (.subsetAll a xs) = havingAll a.meaning xs from rfl, ← e, ← iha]
    by_cases hx : xs = []
    · subst hx
      cases f <;> simp [Forest.subsetAll, Forest.isUnit, Forest.len]
    · have hx' : xs.isEmpty = false := by simpa using hx
      simp only [Forest.subsetAll, hx', hx, false_imp_iff, true_and, Bool.false_eq_true, if_false]
      cases f with
      | Empty => simp [Forest.isUnit, Forest.len, Forest.empty]
      | Unit s => simp only; split_ifs <;> simp [Forest.isUnit, Forest.len, Forest.empty]
      | Many m => exact filter_unit_len h ha.wf _
  | @subsetNone a f h xs ha iha =>
    replace iha := Iff.intro iha.1 iha.2
    have e := one_len (.subsetNone h xs ha)
    rw [Alone, ← show Prog.meaning (.subsetNone a xs) = havingNone a.meaning xs from rfl, ← e, ← iha]
    by_cases hx : xs = []
    · subst hx
      cases f <;> simp [Forest.subsetNone, Forest.isUnit, Forest.len]
    · have hx' : xs.isEmpty = false := by simpa using hx
      simp only [Forest.subsetNone, hx', hx, false_imp_iff, true_and, Bool.false_eq_true, if_false]
      cases f with
      | Empty => simp [Forest.isUnit, Forest.len, Forest.empty]
      | Unit s => simp only; split_ifs <;> simp [Forest.isUnit, Forest.len, Forest.empty]
      | Many m => exact filter_unit_len h ha.wf _

/-- C112: `==` between the forests of any two programs, under any hash orders: they are equal exactly when
they denote the same family and both or neither is held as a single vector. -/
theorem values_exact {p q : Prog T} {f g : Forest T} (hf : Runs p f) (hg : Runs q g) :
    f = g ↔ p.meaning = q.meaning ∧ (Alone p ↔ Alone q) := by
  have e := (eq_iff_partial (HashOrder.anyOrder (List T)) ⟨p, hf⟩ ⟨q, hg⟩).1
  rw [run_family hf, run_family hg, Bool.eq_iff_iff, runs_alone hf, runs_alone hg] at e
  exact e

/-- A forest held as a single vector has one member. -/
theorem alone_one {p : Prog T} {f : Forest T} (hf : Runs p f) (ha : Alone p) : One p.meaning :=
  (one_len hf).1 ((eq_iff_partial (HashOrder.anyOrder (List T)) ⟨p, hf⟩ ⟨p, hf⟩).2
    ((runs_alone hf).2 ha))

/-- C112: programs denoting one family, with no member or with several, yield equal forests, however each was
written and in whatever order its sets were enumerated. -/
theorem values_agree {p q : Prog T} {f g : Forest T} (hf : Runs p f) (hg : Runs q g)
    (he : p.meaning = q.meaning) (hn : ¬ One p.meaning) : f = g :=
  (values_exact hf hg).2 ⟨he, fun h => absurd (alone_one hf h) hn,
    fun h => absurd (he ▸ alone_one hg h) hn⟩

/-! ## Laws as values -/

section laws
variable {a b c : Prog T} {f g k : Forest T}

theorem meaning_empty_one : ¬ One (∅ : Set (Finset T)) := by
  rintro ⟨s, e⟩
  exact absurd (e ▸ Set.mem_singleton s : s ∈ (∅ : Set (Finset T))) (by simp)

theorem one_union {A B : Set (Finset T)} (h : One (A ∪ B)) : A = ∅ ∨ B = ∅ ∨ A = B := by
  obtain ⟨s, e⟩ := h
  have h1 : A ⊆ {s} := e ▸ Set.subset_union_left
  have h2 : B ⊆ {s} := e ▸ Set.subset_union_right
  rcases Set.subset_singleton_iff_eq.1 h1 with h1 | h1 <;>
    rcases Set.subset_singleton_iff_eq.1 h2 with h2 | h2 <;> simp [h1, h2]

/-- Being held alone implies denoting one set, for programs that run. -/
theorem exists_run (p : Prog T) : ∃ f, Runs p f := by
  have h := HashOrder.anyOrder (List T)
  induction p with
  | empty => exact ⟨_, .empty⟩
  | unit s => exact ⟨_, .unit s⟩
  | many m => exact ⟨_, .many m⟩
  | unique s => exact ⟨_, .unique s⟩
  | union a b ha hb => obtain ⟨_, ha⟩ := ha; obtain ⟨_, hb⟩ := hb; exact ⟨_, .union h ha hb⟩
  | intersect a b ha hb => obtain ⟨_, ha⟩ := ha; obtain ⟨_, hb⟩ := hb; exact ⟨_, .intersect h ha hb⟩
  | product a b ha hb => obtain ⟨_, ha⟩ := ha; obtain ⟨_, hb⟩ := hb; exact ⟨_, .product h h ha hb⟩
  | subset a x ha => obtain ⟨_, ha⟩ := ha; exact ⟨_, .subset h x ha⟩
  | subsetNot a x ha => obtain ⟨_, ha⟩ := ha; exact ⟨_, .subsetNot h x ha⟩
  | subsetAll a x ha => obtain ⟨_, ha⟩ := ha; exact ⟨_, .subsetAll h x ha⟩
  | subsetNone a x ha => obtain ⟨_, ha⟩ := ha; exact ⟨_, .subsetNone h x ha⟩

theorem alone_one' {p : Prog T} (ha : Alone p) : One p.meaning :=
  let ⟨_, h⟩ := exists_run p; alone_one h ha

theorem alone_ne {p : Prog T} (ha : Alone p) : p.meaning ≠ ∅ := by
  intro e; exact meaning_empty_one (e ▸ alone_one' ha)

/-- C112: union, as a value, is commutative, associative and idempotent, with the empty forest neutral, in
every hash order. -/
theorem union_values (h1 h2 h3 h4 : HashOrder (List T)) (hf : Runs a f) (hg : Runs b g) (hk : Runs c k) :
    Forest.union h1 f g = Forest.union h2 g f ∧
    Forest.union h1 (Forest.union h2 f g) k = Forest.union h3 f (Forest.union h4 g k) ∧
    Forest.union h1 f f = f ∧ Forest.union h1 f Forest.empty = f ∧ Forest.union h1 Forest.empty f = f := by
  refine ⟨(comm_laws h1 h2 h1 h2 f g).1, ?_, ?_, ?_, ?_⟩
  · refine (values_exact (.union h1 (.union h2 hf hg) hk) (.union h3 hf (.union h4 hg hk))).2
      ⟨Set.union_assoc _ _ _, ?_⟩
    have ea := alone_ne (p := a); have eb := alone_ne (p := b); have ec := alone_ne (p := c)
    simp only [Alone, Prog.meaning]
    by_cases Ha : a.meaning = ∅
    · have na : ¬ Alone a := fun h => ea h Ha
      simp [Ha, na]
    · by_cases Hb : b.meaning = ∅
      · have nb : ¬ Alone b := fun h => eb h Hb
        simp only [Hb, Ha, nb, Set.union_empty, Set.empty_union, false_and, false_or, or_false, true_or,
          and_true, true_and, and_false, eq_self]
      · by_cases Hc : c.meaning = ∅
        · have nc : ¬ Alone c := fun h => ec h Hc
          simp [Hb, Ha, Hc, nc]
        · simp only [Ha, Hb, Hc, false_or, or_false, false_and, Set.union_empty_iff, and_self]
          constructor
          · rintro ⟨⟨h1, h2, h3⟩, h4, h5⟩
            rw [h2, Set.union_self] at h4
            exact ⟨h1, by rw [h2, h4, Set.union_self], h3, h4.trans h2.symm, h5⟩
          · rintro ⟨h1, h2, h3, h4, h5⟩
            rw [h4, Set.union_self] at h2
            exact ⟨⟨h1, h2, h3⟩, by rw [h4, h2, Set.union_self], h5⟩
  · simp [Forest.union]
  · cases f <;> simp [Forest.union, Forest.empty]
  · cases f <;> simp [Forest.union, Forest.empty]

/-- C112: intersect, as a value, is commutative, associative and idempotent, the empty forest absorbs, and
uniting a forest with what it shares with another gives it back, in every hash order. -/
theorem intersect_values (h1 h2 h3 h4 : HashOrder (List T)) (hf : Runs a f) (hg : Runs b g)
    (hk : Runs c k) :
    Forest.intersect h1 f g = Forest.intersect h2 g f ∧
    Forest.intersect h1 (Forest.intersect h2 f g) k = Forest.intersect h3 f (Forest.intersect h4 g k) ∧
    Forest.intersect h1 f f = f ∧ Forest.intersect h1 f Forest.empty = Forest.empty ∧
    Forest.union h1 f (Forest.intersect h2 f g) = f := by
  refine ⟨(comm_laws h1 h2 h1 h2 f g).2.1, ?_, ?_, ?_, ?_⟩
  · refine (values_exact (.intersect h1 (.intersect h2 hf hg) hk)
      (.intersect h3 hf (.intersect h4 hg hk))).2 ⟨Set.inter_assoc _ _ _, ?_⟩
    simp only [Alone, Prog.meaning, Set.inter_assoc]
    refine and_congr_right fun h1 => ?_
    constructor
    · intro h2 e
      by_cases Ha : Alone a
      · exact .inl Ha
      · refine .inr ⟨?_, fun e' => ?_⟩
        · rwa [e, Set.inter_self] at h1
        · rw [← e', Set.inter_self] at e
          rcases h2 (by rw [e, e', Set.inter_self]) with h | h
          · exact .inl ((h.2 e).elim (fun h => absurd h Ha) id)
          · exact .inr h
    · intro h2 e
      by_cases Hc : Alone c
      · exact .inr Hc
      · refine .inl ⟨?_, fun e' => ?_⟩
        · rw [← Set.inter_assoc, e, Set.inter_self] at h1
          rwa [e]
        · rw [e', Set.inter_self] at e
          rcases h2 (by rw [e', e, Set.inter_self]) with h | h
          · exact .inl h
          · exact .inr ((h.2 e).elim id (fun h => absurd h Hc))
  · simp [Forest.intersect]
  · cases f <;> simp [Forest.intersect, Forest.empty]
  · refine (values_exact (.union h1 hf (.intersect h2 hf hg)) hf).2 ⟨by simp [Prog.meaning], ?_⟩
    simp only [Alone, Prog.meaning]
    constructor
    · rintro (h | ⟨h1, h2, -⟩)
      · exact h.1
      · rw [h1, Set.empty_inter] at h2; exact absurd h2 meaning_empty_one
    · intro ha
      refine .inl ⟨ha, ?_⟩
      obtain ⟨s, e⟩ := alone_one' ha
      by_cases hs : s ∈ b.meaning
      · have : a.meaning ∩ b.meaning = a.meaning := by
          rw [e]; exact Set.inter_eq_left.2 (Set.singleton_subset_iff.2 hs)
        exact .inr ⟨this, by rw [this]; exact ⟨s, e⟩, fun _ => .inl ha⟩
      · exact .inl (by rw [e]; exact Set.singleton_inter_eq_empty.2 hs)

/-- C112: the filters, as values, commute with each other and are idempotent, and the list forms are the
single forms one item after another, in every hash order. -/
theorem filter_values (h1 h2 h3 h4 : HashOrder (List T)) (hf : Runs a f) (x y : T) (xs : List T) :
    Forest.subset h1 (Forest.subset h2 f x) y = Forest.subset h3 (Forest.subset h4 f y) x ∧
    Forest.subsetNot h1 (Forest.subsetNot h2 f x) y = Forest.subsetNot h3 (Forest.subsetNot h4 f y) x ∧
    Forest.subset h1 (Forest.subsetNot h2 f x) y = Forest.subsetNot h3 (Forest.subset h4 f y) x ∧
    Forest.subset h1 (Forest.subset h2 f x) x = Forest.subset h3 f x ∧
    Forest.subsetNot h1 (Forest.subsetNot h2 f x) x = Forest.subsetNot h3 f x ∧
    Forest.subset h1 (Forest.subsetNot h2 f x) x = Forest.empty ∧
    Forest.subsetAll h1 f [] = f ∧
    Forest.subsetAll h1 f (x :: xs) = Forest.subsetAll h2 (Forest.subset h3 f x) xs ∧
    Forest.subsetNone h1 f [] = f ∧
    Forest.subsetNone h1 f (x :: xs) = Forest.subsetNone h2 (Forest.subsetNot h3 f x) xs := by
  refine ⟨?_, ?_, ?_, ?_, ?_, ?_, rfl, ?_, rfl, ?_⟩
  · have e : having (having a.meaning x) y = having (having a.meaning y) x := by
      ext s; simp only [having, Set.mem_ofPred_eq]; tauto
    exact (values_exact (.subset h1 y (.subset h2 x hf)) (.subset h3 x (.subset h4 y hf))).2
      ⟨e, by simp only [Alone, Prog.meaning, e]⟩
  · have e : without (without a.meaning x) y = without (without a.meaning y) x := by
      ext s; simp only [without, Set.mem_ofPred_eq]; tauto
    exact (values_exact (.subsetNot h1 y (.subsetNot h2 x hf)) (.subsetNot h3 x (.subsetNot h4 y hf))).2
      ⟨e, by simp only [Alone, Prog.meaning, e]⟩
  · have e : having (without a.meaning x) y = without (having a.meaning y) x := by
      ext s; simp only [without, having, Set.mem_ofPred_eq]; tauto
    exact (values_exact (.subset h1 y (.subsetNot h2 x hf)) (.subsetNot h3 x (.subset h4 y hf))).2
      ⟨e, by simp only [Alone, Prog.meaning, e]⟩
  · have e : having (having a.meaning x) x = having a.meaning x := by
      ext s; simp only [having, Set.mem_ofPred_eq]; tauto
    exact (values_exact (.subset h1 x (.subset h2 x hf)) (.subset h3 x hf)).2
      ⟨e, by simp only [Alone, Prog.meaning, e]⟩
  · have e : without (without a.meaning x) x = without a.meaning x := by
      ext s; simp only [without, Set.mem_ofPred_eq]; tauto
    exact (values_exact (.subsetNot h1 x (.subsetNot h2 x hf)) (.subsetNot h3 x hf)).2
      ⟨e, by simp only [Alone, Prog.meaning, e]⟩
  · refine (empty_iff (.subset h1 x (.subsetNot h2 x hf))).2 ?_
    simp only [Prog.meaning]
    ext s; simp only [without, having, Set.mem_ofPred_eq, Set.mem_empty_iff_false, iff_false]; tauto
  · have e : havingAll a.meaning (x :: xs) = havingAll (having a.meaning x) xs := by
      ext s; simp only [having, havingAll, Set.mem_ofPred_eq, List.forall_mem_cons]; tauto
    refine (values_exact (.subsetAll h1 (x :: xs) hf) (.subsetAll h2 xs (.subset h3 x hf))).2 ⟨e, ?_⟩
    simp only [Alone, Prog.meaning, e, reduceCtorEq, false_imp_iff, true_and]
    refine ⟨fun h => ⟨?_, h⟩, fun h => h.2⟩
    rintro rfl
    simpa [havingAll] using h
  · have e : havingNone a.meaning (x :: xs) = havingNone (without a.meaning x) xs := by
      ext s; simp only [without, havingNone, Set.mem_ofPred_eq, List.forall_mem_cons]; tauto
    refine (values_exact (.subsetNone h1 (x :: xs) hf) (.subsetNone h2 xs (.subsetNot h3 x hf))).2 ⟨e, ?_⟩
    simp only [Alone, Prog.meaning, e, reduceCtorEq, false_imp_iff, true_and]
    refine ⟨fun h => ⟨?_, h⟩, fun h => h.2⟩
    rintro rfl
    simpa [havingNone] using h

/-- C112: where the remaining laws hold as values.  Absorption, multiplying by the forest of the empty set, and
splitting by an item and uniting the halves all give a forest back except exactly when it is a hash set of
one vector (and, for absorption, the other forest has something it lacks); then they give the same family
as a single vector, which is not `==`. -/
theorem lossy_values (h1 h2 h3 : HashOrder (List T)) (hf : Runs a f) (hg : Runs b g) (x : T) :
    (Forest.intersect h1 f (Forest.union h2 f g) = f ↔
      (One a.meaning → Alone a ∨ b.meaning ⊆ a.meaning)) ∧
    (Forest.product h1 h2 f (Forest.unit []) = f ↔ (One a.meaning → Alone a)) ∧
    (Forest.union h1 (Forest.subset h2 f x) (Forest.subsetNot h3 f x) = f ↔ (One a.meaning → Alone a)) := by
  refine ⟨?_, ?_, ?_⟩
  · rw [values_exact (.intersect h1 hf (.union h2 hf hg)) hf]
    simp only [Alone, Prog.meaning, Set.inter_eq_left.2 Set.subset_union_left,
      true_and]
    have e : a.meaning = a.meaning ∪ b.meaning ↔ b.meaning ⊆ a.meaning := by
      rw [eq_comm]; exact Set.union_eq_left
    rw [e]
    constructor
    · intro h1 h2
      by_cases hb : b.meaning ⊆ a.meaning
      · exact .inr hb
      · exact .inl (h1.1 ⟨h2, fun h => absurd h hb⟩)
    · intro h1
      refine ⟨fun ⟨h2, h3⟩ => ?_, fun h => ⟨alone_one' h, fun _ => .inl h⟩⟩
      rcases h1 h2 with h | h
      · exact h
      · rcases h3 h with h | h
        · exact h
        · rcases h with h | ⟨h, -⟩
          · exact h.1
          · rw [h] at h2; exact absurd h2 meaning_empty_one
  · rw [values_exact (.product h1 h2 hf (.unit [])) hf]
    have e : prod a.meaning {∅} = a.meaning := by
      ext s; simp [prod]
    simp only [Alone, Prog.meaning, List.toFinset_nil, e, true_and]
    exact ⟨fun h1 h2 => h1.1 ⟨h2, ∅, rfl⟩, fun h => ⟨fun h' => h h'.1, fun h => ⟨alone_one' h, ∅, rfl⟩⟩⟩
  · rw [values_exact (.union h1 (.subset h2 x hf) (.subsetNot h3 x hf)) hf]
    have e : having a.meaning x ∪ without a.meaning x = a.meaning := by
      ext s; simp only [having, without, Set.mem_union, Set.mem_ofPred_eq]; tauto
    have d : having a.meaning x = without a.meaning x → a.meaning = ∅ := by
      intro h
      rw [Set.eq_empty_iff_forall_notMem]
      intro s hs
      have := Set.ext_iff.1 h s
      simp only [having, without, Set.mem_ofPred_eq] at this
      tauto
    simp only [Alone, Prog.meaning, e, true_and]
    have key : (One (having a.meaning x) ∧ (without a.meaning x = ∅ ∨
        without a.meaning x = having a.meaning x ∧ One (without a.meaning x)) ∨
        having a.meaning x = ∅ ∧ One (without a.meaning x)) ↔ One a.meaning := by
      constructor
      · rintro (⟨h1, h2 | ⟨h2, -⟩⟩ | ⟨h1, h2⟩)
        · rw [h2, Set.union_empty] at e; rwa [← e]
        · have h3 := d h2.symm
          exfalso
          obtain ⟨s, hs⟩ := h1
          have : s ∈ having a.meaning x := hs ▸ Set.mem_singleton s
          simp [having, h3] at this
        · rw [h1, Set.empty_union] at e; rwa [← e]
      · intro h
        rw [← e] at h
        rcases one_union h with h' | h' | h'
        · rw [h', Set.empty_union] at h; exact .inr ⟨h', h⟩
        · rw [h', Set.union_empty] at h; exact .inl ⟨h, .inl h'⟩
        · rw [e, d h'] at h; exact absurd h meaning_empty_one
    rw [key]
    exact ⟨fun h => h.1, fun h => ⟨h, fun h => alone_one' h⟩⟩

end laws

/-! ## Laws that fail as values -/

theorem one_single (s : Finset T) : One ({s} : Set (Finset T)) := ⟨s, rfl⟩

theorem not_one {A : Set (Finset T)} {s t : Finset T} (hs : s ∈ A) (ht : t ∈ A) (h : s ≠ t) : ¬ One A := by
  rintro ⟨u, rfl⟩
  exact h ((Set.mem_singleton_iff.1 hs).trans (Set.mem_singleton_iff.1 ht).symm)

/-- C112: product is not associative, and neither distributive law nor product over union holds, as values: in
each case both sides list the same family and are not `==`, in every hash order. -/
theorem laws_fail :
    (∃ a b c : Prog ℕ, Prog.meaning (.product (.product a b) c) = Prog.meaning (.product a (.product b c)) ∧
      ∀ f g, Runs (.product (.product a b) c) f → Runs (.product a (.product b c)) g → f ≠ g) ∧
    (∃ a b c : Prog ℕ, Prog.meaning (.intersect a (.union b c)) =
        Prog.meaning (.union (.intersect a b) (.intersect a c)) ∧
      ∀ f g, Runs (.intersect a (.union b c)) f → Runs (.union (.intersect a b) (.intersect a c)) g → f ≠ g) ∧
    (∃ a b c : Prog ℕ, Prog.meaning (.union a (.intersect b c)) =
        Prog.meaning (.intersect (.union a b) (.union a c)) ∧
      ∀ f g, Runs (.union a (.intersect b c)) f → Runs (.intersect (.union a b) (.union a c)) g → f ≠ g) ∧
    (∃ a b c : Prog ℕ, Prog.meaning (.product a (.union b c)) =
        Prog.meaning (.union (.product a b) (.product a c)) ∧
      ∀ f g, Runs (.product a (.union b c)) f → Runs (.union (.product a b) (.product a c)) g → f ≠ g) := by
  have key : ∀ {p q : Prog ℕ}, (Alone p ∧ ¬ Alone q ∨ ¬ Alone p ∧ Alone q) →
      ∀ f g, Runs p f → Runs q g → f ≠ g := by
    intro p q h f g hf hg e
    rcases h with ⟨h1, h2⟩ | ⟨h1, h2⟩
    · exact h2 (((values_exact hf hg).1 e).2.1 h1)
    · exact h1 (((values_exact hf hg).1 e).2.2 h2)
  refine ⟨⟨.many [[1], [1, 2]], .many [[2], [1, 2]], .unit [], ?_, key (.inl ⟨?_, ?_⟩)⟩,
    ⟨.many [[1], [1]], .many [[1], [1]], .many [[2], [2]], ?_, key (.inl ⟨?_, ?_⟩)⟩,
    ⟨.many [[1], [1]], .unit [2], .unit [3], ?_, key (.inr ⟨?_, ?_⟩)⟩,
    ⟨.unit [1, 2], .unit [1], .unit [2], ?_, key (.inr ⟨?_, ?_⟩)⟩⟩
  · simp only [Prog.meaning]
    ext s
    simp only [prod, Set.mem_ofPred_eq]
    constructor
    · rintro ⟨_, ⟨a, ha, b, hb, rfl⟩, c, hc, rfl⟩
      exact ⟨a, ha, _, ⟨b, hb, c, hc, rfl⟩, Finset.union_assoc _ _ _⟩
    · rintro ⟨a, ha, _, ⟨b, hb, c, hc, rfl⟩, rfl⟩
      exact ⟨_, ⟨a, ha, b, hb, rfl⟩, c, hc, (Finset.union_assoc _ _ _).symm⟩
  · refine ⟨⟨{1, 2}, ?_⟩, one_single _⟩
    ext s
    simp only [Prog.meaning, prod, family, List.mem_cons, List.not_mem_nil, or_false, exists_eq_or_imp,
      exists_eq_left, Set.mem_ofPred_eq, Set.mem_singleton_iff]
    constructor
    · rintro ⟨a, rfl | rfl, b, rfl | rfl, rfl⟩ <;> decide
    · rintro rfl; exact ⟨_, .inl rfl, _, .inl rfl, by decide⟩
  · rintro ⟨h, -⟩
    exact not_one (A := family [[1], [1, 2]]) (s := {1}) (t := {1, 2}) ⟨[1], by simp, rfl⟩
      ⟨[1, 2], by simp, rfl⟩ (by decide) h
  · simp only [Prog.meaning]; exact Set.inter_union_distrib_left _ _ _
  · refine ⟨⟨{1}, ?_⟩, fun e => ?_⟩
    · ext s; simp [Prog.meaning, family, eq_comm]
    · have : ({2} : Finset ℕ) ∈ Prog.meaning (.many [[1], [1]]) := by
        rw [e]; exact .inr ⟨[2], by simp, rfl⟩
      obtain ⟨l, hl, e⟩ := this
      simp only [List.mem_cons, List.not_mem_nil, or_false, or_self] at hl
      subst hl; exact absurd e (by decide)
  · rintro (⟨⟨-, h⟩, -⟩ | ⟨h, -⟩)
    · rcases h rfl with h | h <;> simp [Alone] at h
    · have : ({1} : Finset ℕ) ∈ Prog.meaning (.intersect (.many [[1], [1]]) (.many [[1], [1]])) :=
        ⟨⟨[1], by simp, rfl⟩, ⟨[1], by simp, rfl⟩⟩
      rw [h] at this; exact this
  · simp only [Prog.meaning]; exact Set.union_inter_distrib_left _ _ _
  · rintro (⟨h, -⟩ | ⟨h, -⟩)
    · simp [Alone] at h
    · have : ({1} : Finset ℕ) ∈ Prog.meaning (.many [[1], [1]]) := ⟨[1], by simp, rfl⟩
      rw [h] at this; exact this
  · refine ⟨⟨{1}, ?_⟩, fun e => ?_⟩
    · ext s
      simp only [Prog.meaning, family, List.mem_cons, List.not_mem_nil, or_false, or_self, exists_eq_left,
        Set.mem_inter_iff, Set.mem_union, Set.mem_ofPred_eq, Set.mem_singleton_iff]
      constructor
      · rintro ⟨rfl | rfl, h | h⟩ <;> first | rfl | (revert h; decide)
      · rintro rfl; exact ⟨.inl rfl, .inl rfl⟩
    · have : ({2} : Finset ℕ) ∈ Prog.meaning (.union (.many [[1], [1]]) (.unit [3])) := by
        rw [← e]; exact .inr rfl
      rcases this with ⟨l, hl, e⟩ | e
      · simp only [List.mem_cons, List.not_mem_nil, or_false, or_self] at hl
        subst hl; exact absurd e (by decide)
      · exact absurd (Set.mem_singleton_iff.1 e) (by decide)
  · simp only [Prog.meaning]
    ext s
    simp only [prod, Set.mem_ofPred_eq, Set.mem_union]
    constructor
    · rintro ⟨a, ha, b, hb | hb, rfl⟩
      · exact .inl ⟨a, ha, b, hb, rfl⟩
      · exact .inr ⟨a, ha, b, hb, rfl⟩
    · rintro (⟨a, ha, b, hb, rfl⟩ | ⟨a, ha, b, hb, rfl⟩)
      · exact ⟨a, ha, b, .inl hb, rfl⟩
      · exact ⟨a, ha, b, .inr hb, rfl⟩
  · rintro ⟨-, h⟩
    exact not_one (s := {1}) (t := {2}) (.inl rfl) (.inr rfl) (by decide) h
  · refine .inl ⟨⟨one_single _, one_single _⟩, .inr ⟨?_, ⟨one_single _, one_single _⟩⟩⟩
    ext s
    simp only [Prog.meaning, prod, Set.mem_ofPred_eq, Set.mem_singleton_iff, exists_eq_left]
    constructor
    · rintro rfl; decide
    · rintro rfl; decide

/-! ## The hypotheses are met -/

/-- `many [[1],[1]]` is a hash set of one vector and `unit [1]` a single vector: same family, not equal. -/
example : Forest.many [[1], [1]] ≠ Forest.unit [1] := fun e => by
  have := ((values_exact (.many [[1], [1]]) (.unit [1])).1 e).2.2 (by trivial)
  simp [Alone] at this
example (h : HashOrder (List ℕ)) :=
  values_exact (.union h (.many [[1], [2, 1]]) (.unit [3])) (.union h (.unit [1, 2]) (.many [[3], [1]]))
example (h : HashOrder (List ℕ)) : (Forest.product h h (Forest.many [[1], [1]]) (Forest.unit [2])).isUnit :=
  (runs_alone (.product h h (.many [[1], [1]]) (.unit [2]))).2
    ⟨⟨{1}, by ext s; simp [Prog.meaning, family, eq_comm]⟩, one_single _⟩
example (h h' : HashOrder (List ℕ)) :
    Forest.union h (Forest.many [[2, 1], [3]]) (Forest.unit [4]) =
      Forest.union h' (Forest.many [[3], [4]]) (Forest.unit [1, 2]) :=
  values_agree (.union h (.many _) (.unit _)) (.union h' (.many _) (.unit _))
    (by
      simp only [Prog.meaning]
      ext s
      simp only [family, List.mem_cons, List.not_mem_nil, or_false, exists_eq_or_imp, exists_eq_left,
        Set.mem_union, Set.mem_ofPred_eq, Set.mem_singleton_iff]
      have : [2, 1].toFinset = [1, 2].toFinset := by decide
      rw [this]; grind)
    (not_one (s := {3}) (t := {4}) (.inl ⟨[3], by simp, rfl⟩) (.inr rfl) (by decide))
example (h : HashOrder (List ℕ)) :=
  union_values h h h h (.many [[1], [1, 2]]) (.many [[2], [2]]) (.unit [2])
example (h : HashOrder (List ℕ)) :=
  intersect_values h h h h (.many [[1], [1, 2]]) (.many [[2], [1]]) (.unit [1])
example (h : HashOrder (List ℕ)) := filter_values h h h h (.many [[1, 2], [1, 2, 3], [3]]) 1 2 [3]
/-- A hash set of one vector does not survive multiplication by the forest of the empty set. -/
example (h : HashOrder (List ℕ)) :
    Forest.product h h (Forest.many [[1], [1]]) (Forest.unit []) ≠ Forest.many [[1], [1]] := fun e => by
  have := (lossy_values h h h (.many [[1], [1]]) (.unit [2]) 1).2.1.1 e
    ⟨{1}, by ext s; simp [Prog.meaning, family, eq_comm]⟩
  simp [Alone] at this

end Verif.Matrix
