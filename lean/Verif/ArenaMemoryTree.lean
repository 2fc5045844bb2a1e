import Verif.ArenaMemory

/-!
# What tree programs (v1) leave in the arena (C107)
-/

set_option linter.unusedSectionVars false
set_option linter.unusedVariables false
set_option linter.unusedSimpArgs false

namespace Verif.ArenaZdd1
open Verif Verif.Arena Verif.Zdd1

universe u v
variable {T : Type u} [LinearOrder T] {R : Nat → Nat → Prop}

theorem branch_alike (id : Nat) {x y x' y' : Arg Nat Bool} (hx : ArgRel R x x') (hy : ArgRel R y y') :
    Alike R (CellRel R) (branchP id x y) (branchP id x' y') :=
  .into hx fun _ _ h => .into hy fun _ _ h' => .ret (.branch h h')

theorem finish_alike (hR : Pairing R) (id : Nat) {l h l' h' : C} (hl : CellRel R l l') (hh : CellRel R h h') :
    Alike R (CellRel R) (finishP id l h) (finishP id l' h') :=
  .ite (hh.eq_iff hR (.leaf _)) (.ret hl) (branch_alike id (.node hl) (.node hh))

/-- An operation on two nodes that does not look at the ids.  Not code: used to state or prove properties. -/
def Blind2 (op : Nat → C → C → P) : Prop :=
  ∀ (R : Nat → Nat → Prop), Pairing R → ∀ (f : Nat) {n m n' m' : C}, CellRel R n n' → CellRel R m m' →
    Alike R (CellRel R) (op f n m) (op f n' m')

theorem union_alike : Blind2 unionP := by
  intro R hR f
  induction f with
  | zero => intro n m n' m' _ _; exact .spin
  | succ f ih =>
    intro n m n' m' hn hm
    rw [unionP, unionP]
    refine .ite (hn.eq_iff hR hm) (.ret hn) ?_
    cases hn with
    | leaf b =>
      cases hm with
      | leaf b' => cases b <;> cases b' <;> simp only [unionBody] <;> exact .ret (.leaf _)
      | branch h3 h4 =>
        cases b <;> simp only [unionBody]
        · exact .ret (.branch h3 h4)
        · exact .load h3 fun _ _ h => (ih (.leaf _) h).bind fun _ _ h' => .load h4 fun _ _ h'' =>
            finish_alike hR _ h' h''
    | branch h1 h2 =>
      cases hm with
      | leaf b' =>
        cases b' <;> simp only [unionBody]
        · exact .ret (.branch h1 h2)
        · exact .load h1 fun _ _ h => (ih h (.leaf _)).bind fun _ _ h' => .load h2 fun _ _ h'' =>
            finish_alike hR _ h' h''
      | branch h3 h4 =>
        simp only [unionBody]
        refine .ite Iff.rfl ?_ (.ite Iff.rfl ?_ ?_)
        · exact .load h1 fun _ _ h => (ih h (.branch h3 h4)).bind fun _ _ h' => .load h2 fun _ _ h'' =>
            finish_alike hR _ h' h''
        · exact .load h3 fun _ _ h => (ih (.branch h1 h2) h).bind fun _ _ h' => .load h4 fun _ _ h'' =>
            finish_alike hR _ h' h''
        · exact .load h1 fun _ _ h => .load h3 fun _ _ h' => (ih h h').bind fun _ _ l => .load h2 fun _ _ h =>
            .load h4 fun _ _ h' => (ih h h').bind fun _ _ r => finish_alike hR _ l r

theorem intersect_alike : Blind2 intersectP := by
  intro R hR f
  induction f with
  | zero => intro n m n' m' _ _; exact .spin
  | succ f ih =>
    intro n m n' m' hn hm
    rw [intersectP, intersectP]
    refine .ite (hn.eq_iff hR hm) (.ret hn) ?_
    cases hn with
    | leaf b =>
      cases hm with
      | leaf b' => cases b <;> cases b' <;> simp only [intersectBody] <;> exact .ret (.leaf _)
      | branch h3 h4 =>
        cases b <;> simp only [intersectBody]
        · exact .ret (.leaf _)
        · exact .ret (.branch h3 h4)
    | branch h1 h2 =>
      cases hm with
      | leaf b' =>
        cases b' <;> simp only [intersectBody]
        · exact .ret (.leaf _)
        · exact .ret (.branch h1 h2)
      | branch h3 h4 =>
        simp only [intersectBody]
        refine .ite Iff.rfl ?_ (.ite Iff.rfl ?_ ?_)
        · exact .load h1 fun _ _ l => .load h2 fun _ _ h => (ih h (.branch h3 h4)).bind fun _ _ r =>
            finish_alike hR _ l r
        · exact .load h3 fun _ _ l => .load h4 fun _ _ h => (ih (.branch h1 h2) h).bind fun _ _ r =>
            finish_alike hR _ l r
        · exact .load h1 fun _ _ h => .load h3 fun _ _ h' => (ih h h').bind fun _ _ l => .load h2 fun _ _ h =>
            .load h4 fun _ _ h' => (ih h h').bind fun _ _ r => finish_alike hR _ l r

theorem product_alike : Blind2 productP := by
  intro R hR f
  induction f with
  | zero => intro n m n' m' _ _; exact .spin
  | succ f ih =>
    intro n m n' m' hn hm
    rw [productP, productP]
    refine .ite (hn.eq_iff hR hm) (.ret hn) ?_
    cases hn with
    | leaf b =>
      cases hm with
      | leaf b' => cases b <;> cases b' <;> simp only [productBody] <;> exact .ret (.leaf _)
      | branch h3 h4 =>
        cases b <;> simp only [productBody]
        · exact .ret (.leaf _)
        · exact .ret (.branch h3 h4)
    | branch h1 h2 =>
      cases hm with
      | leaf b' =>
        cases b' <;> simp only [productBody]
        · exact .ret (.leaf _)
        · exact .ret (.branch h1 h2)
      | branch h3 h4 =>
        simp only [productBody]
        refine .ite Iff.rfl ?_ (.ite Iff.rfl ?_ ?_)
        · exact .load h1 fun _ _ h => (ih h (.branch h3 h4)).bind fun _ _ l => .load h2 fun _ _ h =>
            (ih h (.branch h3 h4)).bind fun _ _ r => finish_alike hR _ l r
        · exact .load h3 fun _ _ h => (ih (.branch h1 h2) h).bind fun _ _ l => .load h4 fun _ _ h =>
            (ih (.branch h1 h2) h).bind fun _ _ r => finish_alike hR _ l r
        · exact .load h1 fun _ _ h => .load h3 fun _ _ h' => (ih h h').bind fun _ _ l => .load h2 fun _ _ h =>
            .load h4 fun _ _ h' => (ih h h').bind fun _ _ r => finish_alike hR _ l r

theorem inner_alike (f : Nat) (path : List Nat) {i j : Nat} (h : R i j) :
    Alike R (· = ·) (innerP f i path) (innerP f j path) := by
  induction f generalizing path i j with
  | zero => exact .spin
  | succ f ih =>
    rw [innerP, innerP]
    refine .load h fun c d hc => ?_
    cases hc with
    | leaf b => cases b <;> exact .ret rfl
    | branch h1 h2 => exact (ih _ h1).bind fun _ _ e => (ih _ h2).bind fun _ _ e' => .ret (by rw [e, e'])

theorem recursive_alike (f : Nat) {i j : Nat} (h : R i j) : Alike R (· = ·) (recursiveP f i) (recursiveP f j) :=
  (inner_alike f [] h).bind fun _ _ e => .ret (by rw [e])

theorem loop_alike (f : Nat) {q q' : List (C × List Nat)} (ts : List (List Nat))
    (h : List.Forall₂ (fun x y => CellRel R x.1 y.1 ∧ x.2 = y.2) q q') :
    Alike R (· = ·) (loopP f q ts) (loopP f q' ts) := by
  induction f generalizing q q' ts with
  | zero => exact .spin
  | succ f ih =>
    cases h with
    | nil => exact .ret rfl
    | @cons x y xs ys hx hxs =>
      obtain ⟨c, path⟩ := x
      obtain ⟨d, path'⟩ := y
      obtain ⟨hc, rfl⟩ : CellRel R c d ∧ path = path' := hx
      cases hc with
      | leaf b => cases b <;> simp only [loopP] <;> exact ih _ hxs
      | branch h1 h2 =>
        simp only [loopP]
        exact .load h1 fun _ _ l => .load h2 fun _ _ r => ih _ (.cons ⟨r, rfl⟩ (.cons ⟨l, rfl⟩ hxs))

theorem iter_alike (f : Nat) {i j : Nat} (h : R i j) : Alike R (· = ·) (iterP f i) (iterP f j) :=
  .load h fun _ _ h => loop_alike f [] (.cons ⟨h, rfl⟩ .nil)

/-- Trees that are the same but for the root id.  Not code: used to state or prove properties. -/
def TreeRel (R : Nat → Nat → Prop) (x y : TreeC T) : Prop := R x.root y.root ∧ x.univ = y.univ

theorem fromRoot_alike (u : Universe T) {x y : Arg Nat Bool} (h : ArgRel R x y) :
    Alike R (TreeRel R) (fromRootP u x) (fromRootP u y) :=
  .into h fun _ _ h => .ret ⟨h, rfl⟩

theorem tree_alike (hR : Pairing R) (u : Universe T) (c : List T) :
    Alike R (TreeRel R) (treeP u c) (treeP u c) := by
  unfold treeP
  refine (Alike.fold (S := R) (fun e x y h => ?_) _ hR.one).bind fun _ _ h => fromRoot_alike u (.id h)
  unfold requiredBranchP
  exact Alike.bind (S := CellRel R) (.into (.id h) fun _ _ h => branch_alike e (.id hR.zero) (.id h))
    fun _ _ h => .intern h fun _ _ h => .ret h

theorem binary_alike (hR : Pairing R) {op : Nat → C → C → P} (ho : Blind2 op) (f : Nat) {x y x' y' : TreeC T}
    (hx : TreeRel R x x') (hy : TreeRel R y y') :
    Alike R (TreeRel R) (binaryP op f x y) (binaryP op f x' y') := by
  unfold binaryP
  rw [hx.2]
  exact .load hx.1 fun _ _ h => .load hy.1 fun _ _ h' => (ho R hR f h h').bind fun _ _ c => fromRoot_alike _ (.node c)

theorem hyper_alike (hR : Pairing R) (f : Nat) (u : Universe T) (cs : List (List T)) :
    Alike R (TreeRel R) (hyperP f u cs) (hyperP f u cs) :=
  Alike.fold (fun e x y h => (tree_alike hR u e).bind fun _ _ h' => binary_alike hR union_alike f h h') cs
    ⟨hR.zero, rfl⟩

theorem unique_alike (hR : Pairing R) (f : Nat) (u : Universe T) (xs : List T) :
    Alike R (TreeRel R) (uniqueP f u xs) (uniqueP f u xs) :=
  Alike.fold (fun e x y h => (tree_alike hR u [e]).bind fun _ _ h' => binary_alike hR union_alike f h h') xs
    ⟨hR.zero, rfl⟩

theorem combinations_alike (f : Nat) {x y : TreeC T} (h : TreeRel R x y) :
    Alike R (· = ·) (combinationsP f x) (combinationsP f y) :=
  (iter_alike f h.1).bind fun _ _ e => .ret (by rw [e, h.2])

theorem combinationsRecursive_alike (f : Nat) {x y : TreeC T} (h : TreeRel R x y) :
    Alike R (· = ·) (combinationsRecursiveP f x) (combinationsRecursiveP f y) :=
  (recursive_alike f h.1).bind fun _ _ e => .ret (by rw [e, h.2])

theorem combinationsWith_alike (f : Nat) (inc exc : List T) {x y : TreeC T} (h : TreeRel R x y) :
    Alike R (· = ·) (combinationsWithP f x inc exc) (combinationsWithP f y inc exc) :=
  (iter_alike f h.1).bind fun _ _ e => .ret (by rw [e, h.2])

theorem prog_alike (hR : Pairing R) (f : Nat) (e : Ex T) : Alike R (TreeRel R) (e.prog f) (e.prog f) := by
  induction e with
  | empty items => exact .ret ⟨hR.zero, rfl⟩
  | unit items => exact .ret ⟨hR.one, rfl⟩
  | tree items c => exact tree_alike hR _ c
  | unique items xs => exact unique_alike hR f _ xs
  | hyper items cs => exact hyper_alike hR f _ cs
  | union a b iha ihb => exact iha.bind fun _ _ h => ihb.bind fun _ _ h' => binary_alike hR union_alike f h h'
  | intersect a b iha ihb => exact iha.bind fun _ _ h => ihb.bind fun _ _ h' => binary_alike hR intersect_alike f h h'
  | product a b iha ihb => exact iha.bind fun _ _ h => ihb.bind fun _ _ h' => binary_alike hR product_alike f h h'
  | restrict a inc exc ih =>
    refine ih.bind fun x y h => (combinationsWith_alike f inc exc h).bind fun _ _ e => ?_
    rw [e, h.2]
    exact hyper_alike hR f _ _

theorem thread_blind (f : Nat) (q : Ex T × List T × List T) : Blind (threadP f q) := by
  intro R hR
  exact (prog_alike hR f q.1).bind fun _ _ h => (combinations_alike f h).bind fun _ _ _ =>
    (combinationsRecursive_alike f h).bind fun _ _ _ => (combinationsWith_alike f _ _ h).bind fun _ _ _ => .ret trivial

/-- C107, v1 trees: when the same threads have finished and no others have started, the arena holds the same
diagrams, and equally many nodes, whatever the schedule was. -/
theorem memory_same (qs : Nat → Ex T × List T × List T) :
    ∃ F : Nat → Nat, ∀ f : Nat → Nat, (∀ t, F t ≤ f t) → ∀ m m', MRun (boot f qs) m → MRun (boot f qs) m' →
      (∀ t, (m.threads t = (boot f qs).threads t ∧ m'.threads t = (boot f qs).threads t) ∨
        ((∃ x, m.threads t = .run (.ret x)) ∧ ∃ x, m'.threads t = .run (.ret x))) →
      diagrams m.arena = diagrams m'.arena ∧ m.arena.nodes.length = m'.arena.nodes.length := by
  obtain ⟨F, hF⟩ := boot_ok qs
  exact ⟨F, fun f hf m m' h h' hd => by
    have ended := fun m hm t => never_ended (m := m) (by decide) (fun t => right_stable (qs t)) (hF f hf) hm t
    refine fresh_same (by decide) (fun t => never_stable (right_stable (qs t)))
      (fun t => wpo_of_wp (hF f hf t) fun _ _ h => h) (fun t => thread_blind (f t) (qs t)) h h' fun t => ?_
    rw [ended m h, ended m' h']
    exact hd t⟩

/-- C107, v1 trees: at no time does the arena hold a diagram it will not hold when the threads that have started
have finished, under any other schedule. -/
theorem memory_within (qs : Nat → Ex T × List T × List T) :
    ∃ F : Nat → Nat, ∀ f : Nat → Nat, (∀ t, F t ≤ f t) → ∀ m m', MRun (boot f qs) m → MRun (boot f qs) m' →
      (∀ t, m.threads t ≠ (boot f qs).threads t → ∃ x, m'.threads t = .run (.ret x)) →
      diagrams m.arena ⊆ diagrams m'.arena ∧ m.arena.nodes.length ≤ m'.arena.nodes.length := by
  obtain ⟨F, hF⟩ := boot_ok qs
  exact ⟨F, fun f hf m m' h h' hd => by
    have ended := fun m hm t => never_ended (m := m) (by decide) (fun t => right_stable (qs t)) (hF f hf) hm t
    refine fresh_at_most (by decide) (fun t => never_stable (right_stable (qs t)))
      (fun t => wpo_of_wp (hF f hf t) fun _ _ h => h) (fun t => thread_blind (f t) (qs t)) h h' fun t => ?_
    rw [ended m' h']
    exact hd t⟩

/-- C107, v1 trees: what the arena holds is what the finished threads leave in it when each of them runs alone. -/
theorem memory_adds_up (qs : Nat → Ex T × List T × List T) :
    ∃ F : Nat → Nat, ∀ f : Nat → Nat, (∀ t, F t ≤ f t) → ∀ m, MRun (boot f qs) m →
      (∀ t, m.threads t = (boot f qs).threads t ∨ ∃ x, m.threads t = .run (.ret x)) →
      ∀ alone : Nat → _, (∀ t, MRun (boot f qs) (alone t) ∧ (∃ x, (alone t).threads t = .run (.ret x)) ∧
        ∀ s, s ≠ t → (alone t).threads s = (boot f qs).threads s) →
      diagrams m.arena = {.leaf false, .leaf true} ∪
        ⋃ t ∈ {t | ∃ x, m.threads t = .run (.ret x)}, diagrams (alone t).arena := by
  obtain ⟨F, hF⟩ := boot_ok qs
  exact ⟨F, fun f hf m h hd alone ha => by
    have ended := fun m hm t => never_ended (m := m) (by decide) (fun t => right_stable (qs t)) (hF f hf) hm t
    have := fresh_adds_up (by decide) (fun t => never_stable (right_stable (qs t)))
      (fun t => wpo_of_wp (hF f hf t) fun _ _ h => h) (fun t => thread_blind (f t) (qs t)) h
      (fun t => by rw [ended m h]; exact hd t) alone
      (fun t => ⟨(ha t).1, .inr (ha t).2.1, (ha t).2.2⟩)
    simp only [ended m h] at this
    exact this⟩

/-- The hypotheses are met: two threads finish in either order, the others do not start. -/
example : ∃ f m m', MRun (boot f (fun t => if t = 0 then (.hyper [1, 2, 3] [[1, 2], [3]], [], [1]) else (.tree [1, 2, 3] [3], [], []) : Nat → Ex Nat × List Nat × List Nat)) m ∧
    MRun (boot f (fun t => if t = 0 then (.hyper [1, 2, 3] [[1, 2], [3]], [], [1]) else (.tree [1, 2, 3] [3], [], []) : Nat → Ex Nat × List Nat × List Nat)) m' ∧
    (∀ t, (m.threads t = (boot f (fun t => if t = 0 then (.hyper [1, 2, 3] [[1, 2], [3]], [], [1]) else (.tree [1, 2, 3] [3], [], []) : Nat → Ex Nat × List Nat × List Nat)).threads t ∧
        m'.threads t = (boot f (fun t => if t = 0 then (.hyper [1, 2, 3] [[1, 2], [3]], [], [1]) else (.tree [1, 2, 3] [3], [], []) : Nat → Ex Nat × List Nat × List Nat)).threads t) ∨
      ((∃ x, m.threads t = .run (.ret x)) ∧ ∃ x, m'.threads t = .run (.ret x))) ∧
    ((∃ x, m.threads 0 = .run (.ret x)) ∧ ∃ x, m.threads 1 = .run (.ret x)) ∧
    diagrams m.arena = diagrams m'.arena := by
  obtain ⟨F, hF⟩ := boot_ok (fun t => if t = 0 then (.hyper [1, 2, 3] [[1, 2], [3]], [], [1]) else (.tree [1, 2, 3] [3], [], []) : Nat → Ex Nat × List Nat × List Nat)
  obtain ⟨G, hG⟩ := memory_same (fun t => if t = 0 then (.hyper [1, 2, 3] [[1, 2], [3]], [], [1]) else (.tree [1, 2, 3] [3], [], []) : Nat → Ex Nat × List Nat × List Nat)
  let f := fun t => F t + G t
  have fin := fun m hm t => can_finish (m' := m) (fun t => right_stable ((fun t => if t = 0 then (.hyper [1, 2, 3] [[1, 2], [3]], [], [1]) else (.tree [1, 2, 3] [3], [], []) : Nat → Ex Nat × List Nat × List Nat) t)) hm
    (init_inv (by decide)) (hF f (fun t => Nat.le_add_right _ _)) t
  obtain ⟨m1, r1, k1, d1⟩ := fin _ (.nil _) 0
  obtain ⟨m2, r2, k2, d2⟩ := fin _ r1 1
  obtain ⟨n1, s1, l1, e1⟩ := fin _ (.nil _) 1
  obtain ⟨n2, s2, l2, e2⟩ := fin _ s1 0
  have h0 : ∃ x, m2.threads 0 = .run (.ret x) := by rw [k2 0 (by decide)]; exact d1
  have h1 : ∃ x, n2.threads 1 = .run (.ret x) := by rw [l2 1 (by decide)]; exact e1
  have all : ∀ t, (m2.threads t = (boot f (fun t => if t = 0 then (.hyper [1, 2, 3] [[1, 2], [3]], [], [1]) else (.tree [1, 2, 3] [3], [], []) : Nat → Ex Nat × List Nat × List Nat)).threads t ∧
        n2.threads t = (boot f (fun t => if t = 0 then (.hyper [1, 2, 3] [[1, 2], [3]], [], [1]) else (.tree [1, 2, 3] [3], [], []) : Nat → Ex Nat × List Nat × List Nat)).threads t) ∨
      ((∃ x, m2.threads t = .run (.ret x)) ∧ ∃ x, n2.threads t = .run (.ret x)) := by
    intro t
    by_cases t0 : t = 0
    · subst t0; exact .inr ⟨h0, e2⟩
    · by_cases t1 : t = 1
      · subst t1; exact .inr ⟨d2, h1⟩
      · exact .inl ⟨(k2 t t1).trans (k1 t t0), (l2 t t0).trans (l1 t t1)⟩
  exact ⟨f, m2, n2, r1.trans r2, s1.trans s2, all, ⟨h0, d2⟩,
    (hG f (fun t => Nat.le_add_left _ _) m2 n2 (r1.trans r2) (s1.trans s2) all).1⟩

/-- Every thread can run alone, so `memory_adds_up` speaks of something. -/
example : ∃ f, ∃ alone : Nat → _, ∀ t, MRun (boot f (fun t => if t = 0 then (.hyper [1, 2, 3] [[1, 2], [3]], [], [1]) else (.tree [1, 2, 3] [3], [], []) : Nat → Ex Nat × List Nat × List Nat)) (alone t) ∧
    (∃ x, (alone t).threads t = .run (.ret x)) ∧
    ∀ s, s ≠ t → (alone t).threads s = (boot f (fun t => if t = 0 then (.hyper [1, 2, 3] [[1, 2], [3]], [], [1]) else (.tree [1, 2, 3] [3], [], []) : Nat → Ex Nat × List Nat × List Nat)).threads s := by
  obtain ⟨F, hF⟩ := boot_ok (fun t => if t = 0 then (.hyper [1, 2, 3] [[1, 2], [3]], [], [1]) else (.tree [1, 2, 3] [3], [], []) : Nat → Ex Nat × List Nat × List Nat)
  choose alone h1 h2 h3 using fun t => can_finish (fun t => right_stable ((fun t => if t = 0 then (.hyper [1, 2, 3] [[1, 2], [3]], [], [1]) else (.tree [1, 2, 3] [3], [], []) : Nat → Ex Nat × List Nat × List Nat) t)) (.nil _)
    (init_inv (by decide)) (hF F (fun t => le_rfl)) t
  exact ⟨F, alone, fun t => ⟨h1 t, h3 t, h2 t⟩⟩

end Verif.ArenaZdd1
