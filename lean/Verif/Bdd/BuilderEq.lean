import Verif.Bdd.Equal

/-!
# When two closet builders are equal, and what the order of calls changes (C118)
-/

set_option linter.unusedSimpArgs false
set_option linter.unusedVariables false
set_option linter.unusedSectionVars false

namespace Verif.Bdd
open Verif Verif.Bdd.Spec

universe u v
variable {I : Type u} {F : Type v} [LinearOrder I] [LinearOrder F]

/-- The items added to a family, in the order of the calls.  Not code: used to state or prove properties. -/
def addedTo (cs : List (Call I F)) (f : F) : List I :=
  cs.filterMap fun
    | .item g i => if g = f then some i else none
    | _ => none

/-- What the selection excludes, in the order of the calls.  Not code: used to state or prove properties. -/
def excludedBy (cs : List (Call I F)) (a : I) : List I :=
  cs.filterMap fun
    | .exclude s b => if s = a then some b else none
    | _ => none

/-- What the selection includes, in the order of the calls.  Not code: used to state or prove properties. -/
def includedBy (cs : List (Call I F)) (a : I) : List I :=
  cs.filterMap fun
    | .incl s b => if s = a then some b else none
    | _ => none

theorem addedTo_eq (cs : List (Call I F)) (f : F) :
    addedTo cs f = ((itemPairs cs).filter (fun p => decide (p.1 = f))).map Prod.snd := by
  induction cs with
  | nil => rfl
  | cons c cs ih =>
    unfold addedTo itemPairs at *
    cases c with
    | item g i => by_cases e : g = f <;> simp [e, ih]
    | exclude a b => simp [ih]
    | incl a b => simp [ih]

theorem excludedBy_eq (cs : List (Call I F)) (f : I) :
    excludedBy cs f = ((exclPairs cs).filter (fun p => decide (p.1 = f))).map Prod.snd := by
  induction cs with
  | nil => rfl
  | cons c cs ih =>
    unfold excludedBy exclPairs at *
    cases c with
    | exclude g i => by_cases e : g = f <;> simp [e, ih]
    | item a b => simp [ih]
    | incl a b => simp [ih]

theorem includedBy_eq (cs : List (Call I F)) (f : I) :
    includedBy cs f = ((inclPairs cs).filter (fun p => decide (p.1 = f))).map Prod.snd := by
  induction cs with
  | nil => rfl
  | cons c cs ih =>
    unfold includedBy inclPairs at *
    cases c with
    | incl g i => by_cases e : g = f <;> simp [e, ih]
    | item a b => simp [ih]
    | exclude a b => simp [ih]

theorem group_eq_iff {K : Type u} {V : Type v} [LinearOrder K] (l m : List (K × V)) :
    groupPush l = groupPush m ↔ ∀ k, (l.filter (fun p => decide (p.1 = k))).map Prod.snd =
      (m.filter (fun p => decide (p.1 = k))).map Prod.snd := by
  have mem : ∀ (l : List (K × V)) k, k ∈ l.map Prod.fst ↔ (l.filter (fun p => decide (p.1 = k))).map Prod.snd ≠ [] := by
    intro l k
    simp only [List.mem_map, Ne, List.map_eq_nil_iff, List.filter_eq_nil_iff, decide_eq_true_eq]
    push Not
    rfl
  constructor
  · intro h k
    have := congrArg (lookup k) h
    rw [lookup_groupPush, lookup_groupPush] at this
    by_cases h1 : k ∈ l.map Prod.fst <;> by_cases h2 : k ∈ m.map Prod.fst
    · simpa only [h1, h2, if_true, Option.some.injEq] using this
    · simp only [h1, h2, if_true, if_false, reduceCtorEq] at this
    · simp only [h1, h2, if_true, if_false, reduceCtorEq] at this
    · rw [mem, not_not] at h1 h2
      rw [h1, h2]
  · intro h
    refine smap_ext (groupPush_keysLt l) (groupPush_keysLt m) fun k => ?_
    rw [lookup_groupPush, lookup_groupPush, h k]
    simp only [mem, h k]

/-- C118: two builders are equal exactly if every family got the same items in the same order, every item was first
added to the same family, and every selection got the same exclusions and inclusions, each in the same order. -/
theorem builder_eq_iff (cs ds : List (Call I F)) :
    ClosetBuilder.run cs = ClosetBuilder.run ds ↔
      (∀ f, addedTo cs f = addedTo ds f) ∧ (∀ i f, Home cs i f ↔ Home ds i f) ∧
      (∀ a, excludedBy cs a = excludedBy ds a) ∧ (∀ a, includedBy cs a = includedBy ds a) := by
  rw [run_eq, run_eq]
  simp only [ClosetBuilder.mk.injEq, group_eq_iff, addedTo_eq, excludedBy_eq, includedBy_eq]
  refine and_congr_right fun _ => and_congr_left fun _ => ?_
  constructor
  · intro h i f
    rw [← home_iff, ← home_iff, h]
  · intro h
    refine smap_ext (indexOf_keysLt _) (indexOf_keysLt _) fun i => ?_
    refine Option.ext fun f => ?_
    have := h i f
    rw [← home_iff, ← home_iff] at this
    simpa using this

/-- Calls that name different families and items, or make rules of different kinds or for different selections.
Not code: used to state or prove properties. -/
def Unrelated : Call I F → Call I F → Prop
  | .item f i, .item g j => f ≠ g ∧ i ≠ j
  | .exclude a _, .exclude b _ => a ≠ b
  | .incl a _, .incl b _ => a ≠ b
  | _, _ => True

/-- C118: unrelated calls may be made in either order. -/
theorem calls_commute (pre post : List (Call I F)) (c d : Call I F) (h : Unrelated c d) :
    ClosetBuilder.run (pre ++ c :: d :: post) = ClosetBuilder.run (pre ++ d :: c :: post) := by
  rw [builder_eq_iff]
  refine ⟨fun f => ?_, fun i f => ?_, fun a => ?_, fun a => ?_⟩
  · simp only [addedTo, List.filterMap_append, List.filterMap_cons]
    cases c <;> cases d <;> simp only [Unrelated] at h <;> try rfl
    rename_i g i g' j
    by_cases e : g = f <;> by_cases e' : g' = f <;> simp [e, e']
    exact absurd (e.trans e'.symm) h.1
  · rw [← home_iff, ← home_iff, lookup_indexOf, lookup_indexOf]
    simp only [itemPairs, List.filterMap_append, List.filterMap_cons, List.find?_append]
    cases c <;> cases d <;> simp only [Unrelated] at h <;> try rfl
    rename_i g k g' j
    by_cases e : k = i <;> by_cases e' : j = i <;> simp [e, e', List.find?_cons]
    exact absurd (e.trans e'.symm) h.2
  · simp only [excludedBy, List.filterMap_append, List.filterMap_cons]
    cases c <;> cases d <;> simp only [Unrelated] at h <;> try rfl
    rename_i g i g' j
    by_cases e : g = a <;> by_cases e' : g' = a <;> simp [e, e']
    exact absurd (e.trans e'.symm) h
  · simp only [includedBy, List.filterMap_append, List.filterMap_cons]
    cases c <;> cases d <;> simp only [Unrelated] at h <;> try rfl
    rename_i g i g' j
    by_cases e : g = a <;> by_cases e' : g' = a <;> simp [e, e']
    exact absurd (e.trans e'.symm) h

theorem legal_same {cs ds : List (Call I F)} (h : ∀ c, c ∈ cs ↔ c ∈ ds) (hl : Legal cs) : Legal ds where
  oneFamily f g i h1 h2 := hl.oneFamily f g i ((h _).2 h1) ((h _).2 h2)
  exclusions a b h1 := by
    obtain ⟨f, g, h1, h2, h3⟩ := hl.exclusions a b ((h _).2 h1)
    exact ⟨f, g, (h _).1 h1, (h _).1 h2, h3⟩
  inclusions a b h1 := by
    obtain ⟨f, g, h1, h2, h3⟩ := hl.inclusions a b ((h _).2 h1)
    exact ⟨f, g, (h _).1 h1, (h _).1 h2, h3⟩

theorem outfit_same {cs ds : List (Call I F)} (h : ∀ c, c ∈ cs ↔ c ∈ ds) (w : Finset I) : Outfit cs w ↔ Outfit ds w := by
  constructor
  · rintro ⟨h1, h2, h3, h4⟩
    refine ⟨fun i hi => ?_, ⟨fun f i hi => ?_, fun a b hab => h3 a b ((h _).2 hab), fun a b hab => h4 a b ((h _).2 hab)⟩⟩
    · obtain ⟨f, hf⟩ := h1 i hi; exact ⟨f, (h _).1 hf⟩
    · simpa only [h] using h2 f i ((h _).2 hi)
  · rintro ⟨h1, h2, h3, h4⟩
    refine ⟨fun i hi => ?_, ⟨fun f i hi => ?_, fun a b hab => h3 a b ((h _).1 hab), fun a b hab => h4 a b ((h _).1 hab)⟩⟩
    · obtain ⟨f, hf⟩ := h1 i hi; exact ⟨f, (h _).2 hf⟩
    · simpa only [h] using h2 f i ((h _).1 hi)

/-- C118: a closet that can be built depends only on which calls were made, not on their order or repetition. -/
theorem closet_order_free (cs ds : List (Call I F)) (h : ∀ c, c ∈ cs ↔ c ∈ ds) (c : Closet I F) :
    (ClosetBuilder.run cs).build = .ok c ↔ (ClosetBuilder.run ds).build = .ok c := by
  have key : ∀ {cs ds : List (Call I F)}, (∀ c, c ∈ cs ↔ c ∈ ds) → (ClosetBuilder.run cs).build = .ok c →
      (ClosetBuilder.run ds).build = .ok c := by
    intro cs ds h hc
    obtain ⟨d, hd⟩ := (build_validates ds).1.1 (legal_same h ((build_validates cs).1.2 ⟨c, hc⟩))
    have : c = d := (closet_eq_iff cs ds [] [] c d ⟨c, hc, rfl⟩ ⟨d, hd, rfl⟩).2
      ⟨fun f i => h _, fun i => Iff.rfl, fun w _ => outfit_same h w⟩
    rw [this]; exact hd
  exact ⟨key h, key fun c => (h c).symm⟩

/-- The violations an error lists.  Not code: used to state or prove properties. -/
def BuilderError.listed : BuilderError I F → List (Conflict I F)
  | .Single c => [c]
  | .CompoundError cs => cs

theorem build_error {cs : List (Call I F)} {e : BuilderError I F} (h : (ClosetBuilder.run cs).build = .error e) :
    e.listed = allConflicts (ClosetBuilder.run cs).contents (ClosetBuilder.run cs).itemIndex
        (ClosetBuilder.run cs).exclusions (ClosetBuilder.run cs).inclusions := by
  unfold ClosetBuilder.build validateCloset at h
  split at h
  · rename_i e' he
    split at he <;> simp_all [BuilderError.listed] <;> cases he <;> cases h <;> rfl
  · cases h

/-- C118: a failed build depends on the calls made and on the family each item was added to first; otherwise the
order changes at most the order of the violations listed. -/
theorem report_order_free (cs ds : List (Call I F)) (h : ∀ c, c ∈ cs ↔ c ∈ ds)
    (hh : ∀ i f, Home cs i f ↔ Home ds i f) (e : BuilderError I F) (he : (ClosetBuilder.run cs).build = .error e) :
    ∃ e', (ClosetBuilder.run ds).build = .error e' ∧ e.listed.Perm e'.listed ∧ (e.listed.length = 1 → e' = e) := by
  have hv : ∀ v, Violation cs v ↔ Violation ds v := by
    intro v
    cases v <;> simp only [Violation, h, hh, Known]
  cases hb : (ClosetBuilder.run ds).build with
  | ok d =>
    rw [(closet_order_free cs ds h d).2 hb] at he
    cases he
  | error e' =>
    have p : e.listed.Perm e'.listed := by
      rw [build_error he, build_error hb]
      refine (List.perm_ext_iff_of_nodup (nodup_uniq _) (nodup_uniq _)).2 fun v => ?_
      have := (mem_conflicts_iff cs v).trans ((hv v).trans (mem_conflicts_iff ds v).symm)
      exact this
    refine ⟨e', rfl, p, fun hl => ?_⟩
    obtain ⟨vs, _, _, h1 | h1⟩ := (build_validates cs).2 e he
    · obtain ⟨v, rfl, rfl⟩ := h1
      obtain ⟨vs', _, _, h2 | h2⟩ := (build_validates ds).2 e' hb
      · obtain ⟨v', rfl, rfl⟩ := h2
        have p' : v = v' := by simpa only [BuilderError.listed, List.perm_singleton, List.cons.injEq, and_true] using p
        rw [p']
      · have := p.length_eq
        rw [h2.2] at this
        simp only [BuilderError.listed, List.length_singleton] at this
        omega
    · rw [h1.2] at hl
      simp only [BuilderError.listed] at hl
      omega

theorem uniq_append {α : Type u} [DecidableEq α] (l m : List α) :
    uniq (l ++ m) = uniq l ++ (uniq m).filter (fun b => decide (b ∉ l)) := by
  induction l with
  | nil => simp [uniq]
  | cons a l ih =>
    simp only [List.cons_append, uniq, ih, List.filter_append, List.filter_filter]
    congr 2
    refine List.filter_congr fun b _ => ?_
    simp

/-- C118: the violations are listed in three groups: items in two families, by the later family's order; then those of
exclusion rules; then those of inclusion rules. -/
theorem report_groups (cs : List (Call I F)) (e : BuilderError I F) (he : (ClosetBuilder.run cs).build = .error e) :
    ∃ A B C, e.listed = A ++ B ++ C ∧
      (∀ v ∈ A, ∃ i g f, v = .ConflictingFamilies i [g, f]) ∧
      A.Pairwise (fun v w => ∀ i g f j g' f', v = .ConflictingFamilies i [g, f] → w = .ConflictingFamilies j [g', f'] →
        f ≤ f') ∧
      (∀ v ∈ B, (∃ i, v = .MissingFamily i) ∨ ∃ f is, v = .ExclusionError f is) ∧
      (∀ v ∈ C, (∃ i, v = .MissingFamily i) ∨ ∃ f is, v = .InclusionError f is) := by
  rw [build_error he]
  unfold allConflicts
  rw [uniq_append, uniq_append]
  refine ⟨_, _, _, rfl, fun v hv => ?_, ?_, fun v hv => ?_, fun v hv => ?_⟩
  · rw [mem_uniq, mem_conflictingFamilies] at hv
    obtain ⟨f, g, i, _, _, _, rfl⟩ := hv
    exact ⟨i, g, f, rfl⟩
  · refine List.Pairwise.sublist (uniq_sublist _) ?_
    have hk : KeysLt (ClosetBuilder.run cs).contents := by rw [run_eq]; exact groupPush_keysLt _
    unfold findConflictingFamilies
    generalize (ClosetBuilder.run cs).contents = m at hk
    have fam : ∀ (p : F × List I) v, v ∈ (p.2.filterMap (fun item =>
        match lookup item (ClosetBuilder.run cs).itemIndex with
        | none => some (Conflict.MissingFamily item)
        | some itemFamily =>
          if itemFamily ≠ p.1 then some (.ConflictingFamilies item [itemFamily, p.1])
          else none)) → ∀ i g f, v = .ConflictingFamilies i [g, f] → f = p.1 := by
      intro p v hv i g f e
      rw [List.mem_filterMap] at hv
      obtain ⟨j, _, hj⟩ := hv
      split at hj
      · cases hj; cases e
      · split_ifs at hj
        injection hj with hj
        rw [← hj] at e
        cases e; rfl
    rw [List.pairwise_flatMap]
    refine ⟨fun p hp => ?_, hk.imp fun {p q} hpq v hv w hw i g f j g' f' e e' => ?_⟩
    · refine List.Pairwise.imp_of_mem (R := fun _ _ => True) ?_ (List.pairwise_of_forall fun _ _ => trivial)
      intro v w hv hw _ i g f j g' f' e e'
      rw [fam p v hv i g f e, fam p w hw j g' f' e']
    · rw [fam p v hv i g f e, fam q w hw j g' f' e']
      exact hpq.le
  · rw [List.mem_filter, mem_uniq] at hv
    have := hv.1
    unfold findIllegalRules at this
    rw [List.mem_flatMap] at this
    obtain ⟨p, _, hp⟩ := this
    simp only at hp
    split at hp
    · simp only [List.mem_singleton] at hp; exact .inl ⟨_, hp⟩
    · rw [List.mem_filterMap] at hp
      obtain ⟨j, _, hj⟩ := hp
      split at hj
      · cases hj; exact .inl ⟨_, rfl⟩
      · split_ifs at hj
        cases hj; exact .inr ⟨_, _, rfl⟩
  · rw [List.mem_filter, mem_uniq] at hv
    have := hv.1
    unfold findIllegalRules at this
    rw [List.mem_flatMap] at this
    obtain ⟨p, _, hp⟩ := this
    simp only at hp
    split at hp
    · simp only [List.mem_singleton] at hp; exact .inl ⟨_, hp⟩
    · rw [List.mem_filterMap] at hp
      obtain ⟨j, _, hj⟩ := hp
      split at hj
      · cases hj; exact .inl ⟨_, rfl⟩
      · split_ifs at hj
        cases hj; exact .inr ⟨_, _, rfl⟩

/-- An item put in two families, then a rule inside the first.  Not code: a concrete case. -/
def twice : List (Call ℕ ℕ) := [.item 1 7, .item 2 7, .item 1 8, .exclude 7 8]

/-- The same calls, the second family first.  Not code: a concrete case. -/
def twice' : List (Call ℕ ℕ) := [.item 2 7, .item 1 7, .item 1 8, .exclude 7 8]

/-- C118: the first family does matter: the same calls in another order report another number of violations. -/
theorem first_family_matters :
    (∀ c, c ∈ twice ↔ c ∈ twice') ∧
    (ClosetBuilder.run twice).build =
      .error (.CompoundError [.ConflictingFamilies 7 [1, 2], .ExclusionError 1 [7, 8]]) ∧
    (ClosetBuilder.run twice').build = .error (.Single (.ConflictingFamilies 7 [2, 1])) := by
  refine ⟨fun c => ?_, ?_, ?_⟩
  · simp only [twice, twice', List.mem_cons]
    exact or_left_comm
  · have e : validateCloset (ClosetBuilder.run twice).contents (ClosetBuilder.run twice).itemIndex
        (ClosetBuilder.run twice).exclusions (ClosetBuilder.run twice).inclusions =
        .error (.CompoundError [.ConflictingFamilies 7 [1, 2], .ExclusionError 1 [7, 8]]) := by decide +kernel
    simp only [ClosetBuilder.build, e]
  · have e : validateCloset (ClosetBuilder.run twice').contents (ClosetBuilder.run twice').itemIndex
        (ClosetBuilder.run twice').exclusions (ClosetBuilder.run twice').inclusions =
        .error (.Single (.ConflictingFamilies 7 [2, 1])) := by decide +kernel
    simp only [ClosetBuilder.build, e]

/-! ### the hypotheses are met -/

example : ClosetBuilder.run ([.item 1 7, .item 2 8, .exclude 7 8] : List (Call ℕ ℕ)) =
    ClosetBuilder.run [.item 2 8, .item 1 7, .exclude 7 8] :=
  calls_commute [] _ _ _ (by simp [Unrelated])

example : ClosetBuilder.run ([.item 1 7, .item 1 8] : List (Call ℕ ℕ)) ≠ ClosetBuilder.run [.item 1 8, .item 1 7] := by
  rw [Ne, builder_eq_iff]
  intro h
  exact absurd (h.1 1) (by decide)

example : ∃ c : Closet ℕ ℕ, (ClosetBuilder.run demo).build = .ok c ∧
    (ClosetBuilder.run (demo.reverse ++ demo)).build = .ok c := by
  obtain ⟨c, hc⟩ := (build_validates demo).1.1 demo_legal
  exact ⟨c, hc, (closet_order_free _ _ (fun x => by simp) c).1 hc⟩

example : ∃ e', (ClosetBuilder.run (twice ++ twice)).build = .error e' ∧ e'.listed.length = 2 := by
  obtain ⟨e', h1, h2, _⟩ := report_order_free twice (twice ++ twice) (fun x => by simp) (fun i f => by
    rw [← home_iff, ← home_iff, lookup_indexOf, lookup_indexOf]
    have : itemPairs (twice ++ twice) = itemPairs twice ++ itemPairs twice := by decide
    rw [this, List.find?_append, Option.or_self]) _ first_family_matters.2.1
  exact ⟨e', h1, h2.length_eq.symm⟩

example := report_groups twice _ first_family_matters.2.1

end Verif.Bdd
