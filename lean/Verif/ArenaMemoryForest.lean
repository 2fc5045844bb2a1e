import Verif.ArenaMemory

/-!
# What forest programs leave in the arena (C107)
-/

set_option linter.unusedSectionVars false
set_option linter.unusedVariables false
set_option linter.unusedSimpArgs false

namespace Verif.ArenaZdd2
open Verif Verif.Arena Verif.Zdd2

universe u v
variable {T : Type u} [LinearOrder T] {R : Nat → Nat → Prop}

theorem branch_alike (f id : Nat) {x y x' y' : Arg Nat Bool} (hx : ArgRel R x x')
    (hy : ArgRel R y y') : Alike R (CellRel R) (branchP f id x y) (branchP f id x' y') := by
  induction f generalizing id x y x' y' with
  | zero => exact .spin
  | succ f ih =>
    rw [branchP, branchP]
    refine .into hx fun _ _ h1 => .load h1 fun l l' hl => .into hy fun _ _ h2 => .load h2 fun h h' hh => ?_
    have plain : Alike R (CellRel R)
        (.intern l fun lo => .intern h fun hi => .ret (.branch id lo hi) : P)
        (.intern l' fun lo => .intern h' fun hi => .ret (.branch id lo hi)) :=
      .intern hl fun _ _ h1 => .intern hh fun _ _ h2 => .ret (.branch h1 h2)
    cases hh with
    | leaf b =>
      cases b with
      | false =>
        simp only [branchBody]
        exact .ret hl
      | true =>
        cases hl with
        | leaf b' => simp only [branchBody]; exact plain
        | branch h3 h4 =>
          simp only [branchBody]
          refine .ite Iff.rfl ?_ (.ite Iff.rfl ?_ plain)
          · exact (ih _ (.id h3) (.node (.leaf _))).bind fun _ _ h => ih _ (.node h) (.id h4)
          · exact ih _ (.id h3) (.node (.leaf _))
    | branch h5 h6 =>
      cases hl with
      | leaf b' =>
        simp only [branchBody]
        refine .ite Iff.rfl ?_ (.ite Iff.rfl ?_ plain)
        · exact (ih _ (.id h5) (.id h6)).bind fun _ _ h => ih _ (.node (.leaf _)) (.node h)
        · exact ih _ (.node (.leaf _)) (.id h6)
      | branch h3 h4 =>
        simp only [branchBody]
        refine .ite Iff.rfl ?_ (.ite Iff.rfl ?_ (.ite Iff.rfl ?_ (.ite Iff.rfl ?_ (.ite Iff.rfl ?_ plain))))
        · exact (ih _ (.id h3) (.id h5)).bind fun _ _ h => (ih _ (.id h4) (.id h6)).bind fun _ _ h' =>
            ih _ (.node h) (.node h')
        · exact (ih _ (.id h5) (.id h6)).bind fun _ _ h => ih _ (.node (.branch h3 h4)) (.node h)
        · exact (ih _ (.id h3) (.node (.branch h5 h6))).bind fun _ _ h => ih _ (.node h) (.id h4)
        · exact ih _ (.node (.branch h3 h4)) (.id h6)
        · exact ih _ (.id h3) (.node (.branch h5 h6))

/-- An operation on two nodes that does not look at the ids.  Not code: used to state or prove properties. -/
def Blind2 (op : Nat → C → C → P) : Prop :=
  ∀ (R : Nat → Nat → Prop), Pairing R → ∀ (f : Nat) {n m n' m' : C}, CellRel R n n' → CellRel R m m' →
    Alike R (CellRel R) (op f n m) (op f n' m')

theorem union_alike : Blind2 unionP := by
  intro R hR f
  induction f with
  | zero => intro n m n' m' _ _; exact .spin
  | succ f ih =>
    intro n m n' m' hn hm
    rw [unionP, unionP]
    refine .ite (hn.eq_iff hR hm) (.ret hn) ?_
    cases hn with
    | leaf b =>
      cases hm with
      | leaf b' => cases b <;> cases b' <;> simp only [unionBody] <;> exact .ret (.leaf _)
      | branch h3 h4 =>
        cases b <;> simp only [unionBody]
        · exact .ret (.branch h3 h4)
        · exact .load h3 fun _ _ h => (ih (.leaf _) h).bind fun _ _ h' => .load h4 fun _ _ h'' =>
            branch_alike _ _ (.node h') (.node h'')
    | branch h1 h2 =>
      cases hm with
      | leaf b' =>
        cases b' <;> simp only [unionBody]
        · exact .ret (.branch h1 h2)
        · exact .load h1 fun _ _ h => (ih h (.leaf _)).bind fun _ _ h' => .load h2 fun _ _ h'' =>
            branch_alike _ _ (.node h') (.node h'')
      | branch h3 h4 =>
        simp only [unionBody]
        refine .ite Iff.rfl ?_ (.ite Iff.rfl ?_ ?_)
        · exact .load h1 fun _ _ h => (ih h (.branch h3 h4)).bind fun _ _ h' => .load h2 fun _ _ h'' =>
            branch_alike _ _ (.node h') (.node h'')
        · exact .load h3 fun _ _ h => (ih (.branch h1 h2) h).bind fun _ _ h' => .load h4 fun _ _ h'' =>
            branch_alike _ _ (.node h') (.node h'')
        · exact .load h1 fun _ _ h => .load h3 fun _ _ h' => (ih h h').bind fun _ _ l => .load h2 fun _ _ h =>
            .load h4 fun _ _ h' => (ih h h').bind fun _ _ r => branch_alike _ _ (.node l) (.node r)

theorem intersect_alike : Blind2 intersectP := by
  intro R hR f
  induction f with
  | zero => intro n m n' m' _ _; exact .spin
  | succ f ih =>
    intro n m n' m' hn hm
    rw [intersectP, intersectP]
    refine .ite (hn.eq_iff hR hm) (.ret hn) ?_
    cases hn with
    | leaf b =>
      cases hm with
      | leaf b' => cases b <;> cases b' <;> simp only [intersectBody] <;> exact .ret (.leaf _)
      | branch h3 h4 =>
        cases b <;> simp only [intersectBody]
        · exact .ret (.leaf _)
        · exact .ret (.branch h3 h4)
    | branch h1 h2 =>
      cases hm with
      | leaf b' =>
        cases b' <;> simp only [intersectBody]
        · exact .ret (.leaf _)
        · exact .ret (.branch h1 h2)
      | branch h3 h4 =>
        simp only [intersectBody]
        refine .ite Iff.rfl ?_ (.ite Iff.rfl ?_ ?_)
        · exact .load h1 fun _ _ h => ih h (.branch h3 h4)
        · exact .load h3 fun _ _ h => ih (.branch h1 h2) h
        · exact .load h1 fun _ _ h => .load h3 fun _ _ h' => (ih h h').bind fun _ _ l => .load h2 fun _ _ h =>
            .load h4 fun _ _ h' => (ih h h').bind fun _ _ r => branch_alike _ _ (.node l) (.node r)

theorem product_alike : Blind2 productP := by
  intro R hR f
  induction f with
  | zero => intro n m n' m' _ _; exact .spin
  | succ f ih =>
    intro n m n' m' hn hm
    rw [productP, productP]
    refine .ite (hn.eq_iff hR hm) (.ret hn) ?_
    cases hn with
    | leaf b =>
      cases hm with
      | leaf b' => cases b <;> cases b' <;> simp only [productBody] <;> exact .ret (.leaf _)
      | branch h3 h4 =>
        cases b <;> simp only [productBody]
        · exact .ret (.leaf _)
        · exact .ret (.branch h3 h4)
    | branch h1 h2 =>
      cases hm with
      | leaf b' =>
        cases b' <;> simp only [productBody]
        · exact .ret (.leaf _)
        · exact .ret (.branch h1 h2)
      | branch h3 h4 =>
        simp only [productBody]
        refine .ite Iff.rfl ?_ (.ite Iff.rfl ?_ ?_)
        · exact .load h1 fun _ _ h => (ih h (.branch h3 h4)).bind fun _ _ l => .load h2 fun _ _ h =>
            (ih h (.branch h3 h4)).bind fun _ _ r => branch_alike _ _ (.node l) (.node r)
        · exact .load h3 fun _ _ h => (ih (.branch h1 h2) h).bind fun _ _ l => .load h4 fun _ _ h =>
            (ih (.branch h1 h2) h).bind fun _ _ r => branch_alike _ _ (.node l) (.node r)
        · exact .load h1 fun _ _ a => .load h3 fun _ _ b => (ih a b).bind fun _ _ ll =>
            .load h1 fun _ _ a => .load h4 fun _ _ b => (ih a b).bind fun _ _ lh =>
            .load h2 fun _ _ a => .load h3 fun _ _ b => (ih a b).bind fun _ _ hl =>
            .load h2 fun _ _ a => .load h4 fun _ _ b => (ih a b).bind fun _ _ hh =>
            (union_alike R hR f hl hh).bind fun _ _ nh => (union_alike R hR f lh nh).bind fun _ _ r =>
            branch_alike _ _ (.node ll) (.node r)

/-- A node with a mark.  Not code: used to state or prove properties. -/
def PairRel (R : Nat → Nat → Prop) (x y : C × Bool) : Prop := CellRel R x.1 y.1 ∧ x.2 = y.2

theorem reduceBranch_rel {x y : C × Bool} (h : PairRel R x y) : PairRel R (reduceBranchC x) (reduceBranchC y) := by
  unfold reduceBranchC
  rw [h.2]
  split_ifs
  · exact h
  · exact ⟨.leaf _, rfl⟩

theorem subsetInner_alike (hR : Pairing R) (f e : Nat) {n n' : C} (hn : CellRel R n n') :
    Alike R (PairRel R) (subsetInnerP f n e) (subsetInnerP f n' e) := by
  induction f generalizing n n' with
  | zero => exact .spin
  | succ f ih =>
    rw [subsetInnerP, subsetInnerP]
    cases hn with
    | leaf b => exact .ret ⟨.leaf _, rfl⟩
    | branch h1 h2 =>
      simp only [subsetInnerBody]
      refine .ite Iff.rfl ?_ ?_
      · exact (branch_alike _ _ (.id hR.zero) (.id h2)).bind fun _ _ h => .ret ⟨h, rfl⟩
      · refine .load h1 fun _ _ h => (ih h).bind fun _ _ l => .load h2 fun _ _ h => (ih h).bind fun _ _ r => ?_
        have l' := reduceBranch_rel l
        have r' := reduceBranch_rel r
        exact (branch_alike _ _ (.node l'.1) (.node r'.1)).bind fun _ _ h => .ret ⟨h, by rw [l'.2, r'.2]⟩

theorem subset_alike (hR : Pairing R) (f e : Nat) {n n' : C} (hn : CellRel R n n') :
    Alike R (CellRel R) (subsetP f n e) (subsetP f n' e) :=
  (subsetInner_alike hR f e hn).bind fun _ _ h => .ret h.1

theorem subsetNot_alike (f e : Nat) {n n' : C} (hn : CellRel R n n') :
    Alike R (CellRel R) (subsetNotP f n e) (subsetNotP f n' e) := by
  induction f generalizing n n' with
  | zero => exact .spin
  | succ f ih =>
    rw [subsetNotP, subsetNotP]
    cases hn with
    | leaf b => exact .ret (.leaf _)
    | branch h1 h2 =>
      simp only [subsetNotBody]
      refine .ite Iff.rfl ?_ ?_
      · exact .load h1 fun _ _ h => .ret h
      · exact .load h1 fun _ _ h => (ih h).bind fun _ _ l => .load h2 fun _ _ h => (ih h).bind fun _ _ r =>
          branch_alike _ _ (.node l) (.node r)

theorem fold_alike {β : Type u} {step step' : C → β → P}
    (hs : ∀ e x y, CellRel R x y → Alike R (CellRel R) (step x e) (step' y e)) (es : List β) {x y : C}
    (h : CellRel R x y) : Alike R (CellRel R) (foldP step es x) (foldP step' es y) := by
  induction es generalizing x y with
  | nil => exact .ret h
  | cons e es ih => exact (hs e x y h).bind fun x y h => ih h

theorem subsetAll_alike (hR : Pairing R) (f : Nat) (es : List Nat) {n n' : C} (hn : CellRel R n n') :
    Alike R (CellRel R) (subsetAllP f n es) (subsetAllP f n' es) :=
  fold_alike (fun e x y h => (subset_alike hR f e hn).bind fun _ _ h' => intersect_alike R hR f h h') es (.leaf _)

theorem subsetNone_alike (hR : Pairing R) (f : Nat) (es : List Nat) {n n' : C} (hn : CellRel R n n') :
    Alike R (CellRel R) (subsetNoneP f n es) (subsetNoneP f n' es) :=
  fold_alike (fun e x y h => (subsetNot_alike f e hn).bind fun _ _ h' => intersect_alike R hR f h h') es (.leaf _)

theorem treesLoop_alike (f : Nat) {q q' : List (C × List Nat)} (ts : List (List Nat))
    (h : List.Forall₂ (fun x y => CellRel R x.1 y.1 ∧ x.2 = y.2) q q') :
    Alike R (· = ·) (treesLoopP f q ts) (treesLoopP f q' ts) := by
  induction f generalizing q q' ts with
  | zero => exact .spin
  | succ f ih =>
    cases h with
    | nil => exact .ret rfl
    | @cons x y xs ys hx hxs =>
      obtain ⟨c, path⟩ := x
      obtain ⟨d, path'⟩ := y
      obtain ⟨hc, rfl⟩ : CellRel R c d ∧ path = path' := hx
      cases hc with
      | leaf b => cases b <;> simp only [treesLoopP] <;> exact ih _ hxs
      | branch h1 h2 =>
        simp only [treesLoopP]
        exact .load h1 fun _ _ l => .load h2 fun _ _ r => ih _ (.cons ⟨r, rfl⟩ (.cons ⟨l, rfl⟩ hxs))

theorem trees_alike (f : Nat) {i j : Nat} (h : R i j) : Alike R (· = ·) (treesP f i) (treesP f j) :=
  .load h fun _ _ h => treesLoop_alike f [] (.cons ⟨h, rfl⟩ .nil)

/-- Forests that are the same but for the root id.  Not code: used to state or prove properties. -/
def ForestRel (R : Nat → Nat → Prop) (x y : ForestC T) : Prop := R x.root y.root ∧ x.univ = y.univ

theorem getPrioritiesNode_alike (f : Nat) (u : Universe T) (items : List T) :
    Alike R (CellRel R) (getPrioritiesNodeP f u items) (getPrioritiesNodeP f u items) := by
  unfold getPrioritiesNodeP fromIterP
  refine .ite Iff.rfl (.ret (.leaf _)) ?_
  exact fold_alike (fun e x y h => branch_alike f e (.node (.leaf _)) (.node h)) _ (.leaf _)

theorem many_alike (hR : Pairing R) (f : Nat) (m : List (List T)) :
    Alike R (ForestRel R) (manyP f m) (manyP f m) := by
  unfold manyP
  refine (fold_alike (fun e x y h => ?_) _ (.leaf _)).bind fun _ _ h => .intern h fun _ _ h => .ret ⟨h, rfl⟩
  exact (getPrioritiesNode_alike f _ _).bind fun _ _ h' => union_alike R hR f h h'

theorem canonical_alike (hR : Pairing R) (f : Nat) (u : Universe T) {c d : C} (h : CellRel R c d) :
    Alike R (ForestRel R) (canonicalP f c u) (canonicalP f d u) :=
  .intern h fun _ _ h => (trees_alike f h).bind fun _ _ e => by subst e; exact many_alike hR f _

theorem translateRoot_alike (f : Nat) (u u' : Universe T) {c d : C} (h : CellRel R c d) :
    Alike R (CellRel R) (translateRootP f u u' c) (translateRootP f u u' d) := by
  induction f generalizing c d with
  | zero => exact .spin
  | succ f ih =>
    rw [translateRootP, translateRootP]
    cases h with
    | leaf b => exact .ret (.leaf _)
    | branch h1 h2 =>
      simp only [translateRootBody]
      refine .load h1 fun _ _ h => (ih h).bind fun _ _ l => .load h2 fun _ _ h => (ih h).bind fun _ _ r => ?_
      cases u.getItem _ with
      | none => exact .panic
      | some item =>
        dsimp only
        cases u'.getPriority item with
        | none => exact .panic
        | some id => exact branch_alike _ _ (.node l) (.node r)

theorem binary_alike (hR : Pairing R) {op : Nat → C → C → P} (ho : Blind2 op) (f : Nat) {x y x' y' : ForestC T}
    (hx : ForestRel R x x') (hy : ForestRel R y y') :
    Alike R (ForestRel R) (binaryP op f x y) (binaryP op f x' y') := by
  unfold binaryP
  rw [hx.2, hy.2]
  exact .load hx.1 fun _ _ h => .load hy.1 fun _ _ h' => (translateRoot_alike f _ _ h).bind fun _ _ a =>
    (translateRoot_alike f _ _ h').bind fun _ _ b => (ho R hR f a b).bind fun _ _ c => canonical_alike hR f _ c

theorem run_alike (hR : Pairing R) (f : Nat) (p : Matrix.Prog T) : Alike R (ForestRel R) (runP f p) (runP f p) := by
  have he : Alike R (ForestRel R) (emptyP : Prog Nat Bool (ForestC T)) emptyP := .ret ⟨hR.zero, rfl⟩
  induction p with
  | empty => exact he
  | unit s =>
    exact (getPrioritiesNode_alike f _ _).bind fun _ _ h => .intern h fun _ _ h => .ret ⟨h, rfl⟩
  | many m => exact many_alike hR f m
  | unique s =>
    unfold runP uniqueP
    exact (fold_alike (fun e x y h => branch_alike f e (.node h) (.node (.leaf _))) _ (.leaf _)).bind fun _ _ h =>
      .intern h fun _ _ h => .ret ⟨h, rfl⟩
  | union a b iha ihb => exact iha.bind fun _ _ h => ihb.bind fun _ _ h' => binary_alike hR union_alike f h h'
  | intersect a b iha ihb => exact iha.bind fun _ _ h => ihb.bind fun _ _ h' => binary_alike hR intersect_alike f h h'
  | product a b iha ihb => exact iha.bind fun _ _ h => ihb.bind fun _ _ h' => binary_alike hR product_alike f h h'
  | subset a e ih =>
    refine ih.bind fun x y h => ?_
    unfold forestSubsetP
    rw [h.2]
    cases y.univ.getPriority e with
    | none => exact he
    | some e => exact .load h.1 fun _ _ h' => (subset_alike hR f e h').bind fun _ _ h => canonical_alike hR f _ h
  | subsetNot a e ih =>
    refine ih.bind fun x y h => ?_
    unfold forestSubsetNotP
    rw [h.2]
    cases y.univ.getPriority e with
    | none => exact .ret h
    | some e => exact .load h.1 fun _ _ h' => (subsetNot_alike f e h').bind fun _ _ h => canonical_alike hR f _ h
  | subsetAll a es ih =>
    refine ih.bind fun x y h => ?_
    unfold subsetManyP
    rw [h.2]
    refine .ite Iff.rfl (.ret h) (.ite Iff.rfl he ?_)
    exact .load h.1 fun _ _ h' => (subsetAll_alike hR f _ h').bind fun _ _ h => canonical_alike hR f _ h
  | subsetNone a es ih =>
    refine ih.bind fun x y h => ?_
    unfold subsetManyP
    rw [h.2]
    refine .ite Iff.rfl (.ret h) (.ite Iff.rfl (.ret h) ?_)
    exact .load h.1 fun _ _ h' => (subsetNone_alike hR f _ h').bind fun _ _ h => canonical_alike hR f _ h

theorem thread_blind (f : Nat) (p : Matrix.Prog T) : Blind (threadP f p) := by
  intro R hR
  unfold threadP forestTreesP
  refine (run_alike hR f p).bind fun x y h => ((trees_alike f h.1).bind fun _ _ e => ?_).bind
    (S := fun _ _ => True) fun _ _ _ => .ret trivial
  exact .ret trivial

/-- C107, forests: when the same threads have finished and no others have started, the arena holds the same
diagrams, and equally many nodes, whatever the schedule was. -/
theorem memory_same {T : Nat → Type u} [∀ t, LinearOrder (T t)] (ps : (t : Nat) → Matrix.Prog (T t)) :
    ∃ F : Nat → Nat, ∀ f : Nat → Nat, (∀ t, F t ≤ f t) → ∀ m m', MRun (boot f ps) m → MRun (boot f ps) m' →
      (∀ t, (m.threads t = (boot f ps).threads t ∧ m'.threads t = (boot f ps).threads t) ∨
        ((∃ x, m.threads t = .run (.ret x)) ∧ ∃ x, m'.threads t = .run (.ret x))) →
      diagrams m.arena = diagrams m'.arena ∧ m.arena.nodes.length = m'.arena.nodes.length := by
  obtain ⟨F, hF⟩ := boot_ok ps
  exact ⟨F, fun f hf m m' h h' hd => by
    have ended := fun m hm t => never_ended (m := m) (by decide) (fun t => forest_stable (ps t)) (hF f hf) hm t
    refine fresh_same (by decide) (fun t => never_stable (forest_stable (ps t)))
      (fun t => wpo_of_wp (hF f hf t) fun _ _ h => h) (fun t => thread_blind (f t) (ps t)) h h' fun t => ?_
    rw [ended m h, ended m' h']
    exact hd t⟩

/-- C107, forests: at no time does the arena hold a diagram it will not hold when the threads that have started
have finished, under any other schedule. -/
theorem memory_within {T : Nat → Type u} [∀ t, LinearOrder (T t)] (ps : (t : Nat) → Matrix.Prog (T t)) :
    ∃ F : Nat → Nat, ∀ f : Nat → Nat, (∀ t, F t ≤ f t) → ∀ m m', MRun (boot f ps) m → MRun (boot f ps) m' →
      (∀ t, m.threads t ≠ (boot f ps).threads t → ∃ x, m'.threads t = .run (.ret x)) →
      diagrams m.arena ⊆ diagrams m'.arena ∧ m.arena.nodes.length ≤ m'.arena.nodes.length := by
  obtain ⟨F, hF⟩ := boot_ok ps
  exact ⟨F, fun f hf m m' h h' hd => by
    have ended := fun m hm t => never_ended (m := m) (by decide) (fun t => forest_stable (ps t)) (hF f hf) hm t
    refine fresh_at_most (by decide) (fun t => never_stable (forest_stable (ps t)))
      (fun t => wpo_of_wp (hF f hf t) fun _ _ h => h) (fun t => thread_blind (f t) (ps t)) h h' fun t => ?_
    rw [ended m' h']
    exact hd t⟩

/-- C107, forests: what the arena holds is what the finished threads leave in it when each of them runs alone. -/
theorem memory_adds_up {T : Nat → Type u} [∀ t, LinearOrder (T t)] (ps : (t : Nat) → Matrix.Prog (T t)) :
    ∃ F : Nat → Nat, ∀ f : Nat → Nat, (∀ t, F t ≤ f t) → ∀ m, MRun (boot f ps) m →
      (∀ t, m.threads t = (boot f ps).threads t ∨ ∃ x, m.threads t = .run (.ret x)) →
      ∀ alone : Nat → _, (∀ t, MRun (boot f ps) (alone t) ∧ (∃ x, (alone t).threads t = .run (.ret x)) ∧
        ∀ s, s ≠ t → (alone t).threads s = (boot f ps).threads s) →
      diagrams m.arena = {.leaf false, .leaf true} ∪
        ⋃ t ∈ {t | ∃ x, m.threads t = .run (.ret x)}, diagrams (alone t).arena := by
  obtain ⟨F, hF⟩ := boot_ok ps
  exact ⟨F, fun f hf m h hd alone ha => by
    have ended := fun m hm t => never_ended (m := m) (by decide) (fun t => forest_stable (ps t)) (hF f hf) hm t
    have := fresh_adds_up (by decide) (fun t => never_stable (forest_stable (ps t)))
      (fun t => wpo_of_wp (hF f hf t) fun _ _ h => h) (fun t => thread_blind (f t) (ps t)) h
      (fun t => by rw [ended m h]; exact hd t) alone
      (fun t => ⟨(ha t).1, .inr (ha t).2.1, (ha t).2.2⟩)
    simp only [ended m h] at this
    exact this⟩

/-- The hypotheses are met: two threads finish in either order, the others do not start. -/
example : ∃ f m m', MRun (boot f (fun t => if t = 0 then .many [[1, 2], [3]] else .union (.unit [3]) (.unit [2, 1]) : Nat → Matrix.Prog Nat)) m ∧
    MRun (boot f (fun t => if t = 0 then .many [[1, 2], [3]] else .union (.unit [3]) (.unit [2, 1]) : Nat → Matrix.Prog Nat)) m' ∧
    (∀ t, (m.threads t = (boot f (fun t => if t = 0 then .many [[1, 2], [3]] else .union (.unit [3]) (.unit [2, 1]) : Nat → Matrix.Prog Nat)).threads t ∧
        m'.threads t = (boot f (fun t => if t = 0 then .many [[1, 2], [3]] else .union (.unit [3]) (.unit [2, 1]) : Nat → Matrix.Prog Nat)).threads t) ∨
      ((∃ x, m.threads t = .run (.ret x)) ∧ ∃ x, m'.threads t = .run (.ret x))) ∧
    ((∃ x, m.threads 0 = .run (.ret x)) ∧ ∃ x, m.threads 1 = .run (.ret x)) ∧
    diagrams m.arena = diagrams m'.arena := by
  obtain ⟨F, hF⟩ := boot_ok (fun t => if t = 0 then .many [[1, 2], [3]] else .union (.unit [3]) (.unit [2, 1]) : Nat → Matrix.Prog Nat)
  obtain ⟨G, hG⟩ := memory_same (fun t => if t = 0 then .many [[1, 2], [3]] else .union (.unit [3]) (.unit [2, 1]) : Nat → Matrix.Prog Nat)
  let f := fun t => F t + G t
  have fin := fun m hm t => can_finish (m' := m) (fun t => forest_stable ((fun t => if t = 0 then .many [[1, 2], [3]] else .union (.unit [3]) (.unit [2, 1]) : Nat → Matrix.Prog Nat) t)) hm
    (init_inv (by decide)) (hF f (fun t => Nat.le_add_right _ _)) t
  obtain ⟨m1, r1, k1, d1⟩ := fin _ (.nil _) 0
  obtain ⟨m2, r2, k2, d2⟩ := fin _ r1 1
  obtain ⟨n1, s1, l1, e1⟩ := fin _ (.nil _) 1
  obtain ⟨n2, s2, l2, e2⟩ := fin _ s1 0
  have h0 : ∃ x, m2.threads 0 = .run (.ret x) := by rw [k2 0 (by decide)]; exact d1
  have h1 : ∃ x, n2.threads 1 = .run (.ret x) := by rw [l2 1 (by decide)]; exact e1
  have all : ∀ t, (m2.threads t = (boot f (fun t => if t = 0 then .many [[1, 2], [3]] else .union (.unit [3]) (.unit [2, 1]) : Nat → Matrix.Prog Nat)).threads t ∧
        n2.threads t = (boot f (fun t => if t = 0 then .many [[1, 2], [3]] else .union (.unit [3]) (.unit [2, 1]) : Nat → Matrix.Prog Nat)).threads t) ∨
      ((∃ x, m2.threads t = .run (.ret x)) ∧ ∃ x, n2.threads t = .run (.ret x)) := by
    intro t
    by_cases t0 : t = 0
    · subst t0; exact .inr ⟨h0, e2⟩
    · by_cases t1 : t = 1
      · subst t1; exact .inr ⟨d2, h1⟩
      · exact .inl ⟨(k2 t t1).trans (k1 t t0), (l2 t t0).trans (l1 t t1)⟩
  exact ⟨f, m2, n2, r1.trans r2, s1.trans s2, all, ⟨h0, d2⟩,
    (hG f (fun t => Nat.le_add_left _ _) m2 n2 (r1.trans r2) (s1.trans s2) all).1⟩

/-- Every thread can run alone, so `memory_adds_up` speaks of something. -/
example : ∃ f, ∃ alone : Nat → _, ∀ t, MRun (boot f (fun t => if t = 0 then .many [[1, 2], [3]] else .union (.unit [3]) (.unit [2, 1]) : Nat → Matrix.Prog Nat)) (alone t) ∧
    (∃ x, (alone t).threads t = .run (.ret x)) ∧
    ∀ s, s ≠ t → (alone t).threads s = (boot f (fun t => if t = 0 then .many [[1, 2], [3]] else .union (.unit [3]) (.unit [2, 1]) : Nat → Matrix.Prog Nat)).threads s := by
  obtain ⟨F, hF⟩ := boot_ok (fun t => if t = 0 then .many [[1, 2], [3]] else .union (.unit [3]) (.unit [2, 1]) : Nat → Matrix.Prog Nat)
  choose alone h1 h2 h3 using fun t => can_finish (fun t => forest_stable ((fun t => if t = 0 then .many [[1, 2], [3]] else .union (.unit [3]) (.unit [2, 1]) : Nat → Matrix.Prog Nat) t)) (.nil _)
    (init_inv (by decide)) (hF F (fun t => le_rfl)) t
  exact ⟨F, alone, fun t => ⟨h1 t, h3 t, h2 t⟩⟩

end Verif.ArenaZdd2
