import Verif.ArenaMemoryText
import Verif.ArenaMemoryTree
import Verif.ArenaTreeClient

/-!
# What clients of the whole v1 tree API leave in the arena (C108)
-/

set_option linter.unusedSectionVars false
set_option linter.unusedVariables false

namespace Verif.ArenaZdd1
open Verif Verif.Arena Verif.Zdd1 Verif.Debug Verif.Text Verif.Weave

universe u w
variable {T : Type u} [LinearOrder T] {R : Nat → Nat → Prop}

theorem fmtInner_alike (f d : Nat) {n n' : C} (h : CellRel R n n') :
    Alike R (· = ·) (fmtInnerP f d n) (fmtInnerP f d n') := by
  induction f generalizing d n n' with
  | zero => exact .spin
  | succ f ih =>
    cases h with
    | leaf l => exact .ret rfl
    | branch h1 h2 =>
      refine .load h1 fun _ _ h => (ih _ h).bind fun _ _ e => ?_
      subst e
      refine .load h2 fun _ _ h => (ih _ h).bind fun _ _ e => ?_
      subst e
      exact .ret rfl

theorem traverse_alike (uni : Universe T) (f : Nat) {i j : Nat} (h : R i j) :
    Alike R (· = ·) (traverseP uni f i) (traverseP uni f j) := by
  induction f generalizing i j with
  | zero => exact .spin
  | succ f ih =>
    rw [traverseP, traverseP]
    refine .load h fun c d h => ?_
    cases h with
    | leaf l => exact .ret rfl
    | branch h1 h2 =>
      dsimp only
      split
      · exact .panic
      · refine (ih h1).bind fun _ _ e => ?_
        subst e
        refine (ih h2).bind fun _ _ e => ?_
        subst e
        exact .ret rfl

theorem TreeRel.eq_iff (hR : Pairing R) {x y x' y' : TreeC T} (hx : TreeRel R x x') (hy : TreeRel R y y') :
    x = y ↔ x' = y' := by
  obtain ⟨r, u⟩ := x
  obtain ⟨r1, u1⟩ := y
  obtain ⟨r2, u2⟩ := x'
  obtain ⟨r3, u3⟩ := y'
  obtain ⟨h1, h2⟩ := hx
  obtain ⟨h3, h4⟩ := hy
  dsimp only at h1 h2 h3 h4
  subst h2 h4
  simp only [TreeC.mk.injEq, and_congr_left_iff]
  intro _
  constructor
  · rintro rfl; exact hR.fwd _ _ _ h1 h3
  · rintro rfl; exact hR.bwd _ _ _ h1 h3

/-- No call of the tree API looks at the numbers of the ids. -/
theorem tree_blind : (treeApi T).Blind (fun R => TreeRel (T := T) R) where
  den := fun h1 h2 => ⟨⟨_, h1.1, h2.1⟩, h1.2.trans h2.2.symm⟩
  call := by
    intro R hR f op s s' hs
    change Alike R _ (TOp.prog f s op) (TOp.prog f s' op)
    have mk : ∀ {p q : Prog Nat Bool (TreeC T)}, Alike R (TreeRel R) p q →
        Alike R (fun x y => List.Forall₂ (TreeRel R) x.1 y.1 ∧ x.2 = y.2) (made s p) (made s' q) := fun h =>
      h.bind fun _ _ h => .ret ⟨snoc_rel hs h, rfl⟩
    have rep : ∀ {γ : Type u} {p q : Prog Nat Bool γ} (g : γ → TReply T), Alike R (· = ·) p q →
        Alike R (fun x y => List.Forall₂ (TreeRel R) x.1 y.1 ∧ x.2 = y.2) (p.bind fun x => .ret (s, g x))
          (q.bind fun x => .ret (s', g x)) := fun g h => h.bind fun _ _ e => .ret ⟨hs, by rw [e]⟩
    have rep0 : ∀ {γ : Type} {p q : Prog Nat Bool γ} (g : γ → TReply T), Alike R (· = ·) p q →
        Alike R (fun x y => List.Forall₂ (TreeRel R) x.1 y.1 ∧ x.2 = y.2) (p.bind fun x => .ret (s, g x))
          (q.bind fun x => .ret (s', g x)) := fun g h => h.bind fun _ _ e => .ret ⟨hs, by rw [e]⟩
    cases op with
    | empty uni => exact mk (.ret ⟨hR.zero, rfl⟩)
    | unit uni => exact mk (.ret ⟨hR.one, rfl⟩)
    | tree uni c => exact mk (tree_alike hR uni c)
    | unique uni xs => exact mk (unique_alike hR f uni xs)
    | hyper uni cs => exact mk (hyper_alike hR f uni cs)
    | union x y => exact named_alike hs x fun _ _ h => named_alike hs y fun _ _ h' => mk (binary_alike hR union_alike f h h')
    | intersect x y =>
      exact named_alike hs x fun _ _ h => named_alike hs y fun _ _ h' => mk (binary_alike hR intersect_alike f h h')
    | product x y =>
      exact named_alike hs x fun _ _ h => named_alike hs y fun _ _ h' => mk (binary_alike hR product_alike f h h')
    | restrict x inc exc =>
      refine named_alike hs x fun x y h => mk ?_
      unfold restrictP
      rw [h.2]
      exact (combinationsWith_alike f inc exc h).bind fun _ _ e => by subst e; exact hyper_alike hR f _ _
    | combinations x => exact named_alike hs x fun _ _ h => rep _ (combinations_alike f h)
    | combinationsRecursive x => exact named_alike hs x fun _ _ h => rep _ (combinationsRecursive_alike f h)
    | combinationsWith x inc exc => exact named_alike hs x fun _ _ h => rep _ (combinationsWith_alike f inc exc h)
    | summarize x inc exc =>
      refine named_alike hs x fun x y h => rep _ ?_
      unfold summarizeP
      rw [h.2]
      exact (combinationsWith_alike f inc exc h).bind fun _ _ e => .ret (by rw [e])
    | traverse x =>
      refine named_alike hs x fun x y h => rep _ ?_
      rw [h.2]
      exact traverse_alike _ f h.1
    | same x y =>
      exact named_alike hs x fun _ _ h => named_alike hs y fun _ _ h' => .ret ⟨hs,
        congrArg TReply.bool (decide_eq_decide.2 (TreeRel.eq_iff hR h h'))⟩
    | debug x =>
      refine named_alike hs x fun x y h => rep0 _ ?_
      exact .load h.1 fun _ _ h => (fmtInner_alike f 1 h).bind fun _ _ e => .ret (by rw [e])
    | save x =>
      refine named_alike hs x fun x y h => rep _ ?_
      unfold saveP
      rw [h.2]
      exact .load h.1 fun _ _ h => (buildText_alike _ _ f h).bind fun _ _ e => .ret (by rw [e])
    | load d =>
      refine Alike.bind (S := Option.Rel (TreeRel R)) ?_ fun x y h => ?_
      · unfold loadP
        refine (readText_alike _ _ (fun id _ _ _ _ h h' => branch_alike id (.node h) (.node h')) _).bind
          fun x y h => ?_
        cases h with
        | none => exact .ret .none
        | some h => exact .intern h fun _ _ h => .ret (.some ⟨h, rfl⟩)
      · cases h with
        | none => exact .ret ⟨hs, rfl⟩
        | some h => exact .ret ⟨snoc_rel hs h, rfl⟩

/-- C108, v1 trees: every client, handed given trees, has a set of diagrams it leaves in the arena.  At every moment of
every process, whichever clients were started when and handed which trees, the arena holds all that the ended clients
leave, and besides the two leaves nothing that the started clients do not. -/
theorem clients_leave {O : Type w} : ∃ need : Client _ _ O → List _ → Nat,
    ∀ fuel : Client _ _ O → List _ → Nat, (∀ cl g, need cl g ≤ fuel cl g) →
    ∃ leaves : Client _ _ O → List _ → Set (Tr Nat Bool), ∀ m log, Process (treeApi T) false true fuel m log →
      (∀ t cl g, log t = some (cl, g) → Ended (m.threads t) → leaves cl g ⊆ diagrams m.arena) ∧
      diagrams m.arena ⊆ {.leaf false, .leaf true} ∪ {d | ∃ t cl g, log t = some (cl, g) ∧ d ∈ leaves cl g} :=
  clients_memory tree_sound tree_blind (by decide)

/-- C108, v1 trees: a process in which every client of another one was started with the same trees, in whichever order
and on whichever thread, and has ended, holds every diagram the other one holds, and no fewer nodes. -/
theorem clients_within {O : Type w} : ∃ need : Client _ _ O → List _ → Nat,
    ∀ fuel : Client _ _ O → List _ → Nat, (∀ cl g, need cl g ≤ fuel cl g) →
    ∀ m log m' log', Process (treeApi T) false true fuel m log → Process (treeApi T) false true fuel m' log' →
      (∀ t q, log t = some q → ∃ t', log' t' = some q ∧ Ended (m'.threads t')) →
      diagrams m.arena ⊆ diagrams m'.arena ∧ m.arena.nodes.length ≤ m'.arena.nodes.length :=
  clients_memory_within tree_sound tree_blind (by decide)

/-- C108, v1 trees: what the arena holds when all clients have ended depends only on which clients were started with
which trees. -/
theorem clients_same {O : Type w} : ∃ need : Client _ _ O → List _ → Nat,
    ∀ fuel : Client _ _ O → List _ → Nat, (∀ cl g, need cl g ≤ fuel cl g) →
    ∀ m log m' log', Process (treeApi T) false true fuel m log → Process (treeApi T) false true fuel m' log' →
      {q | ∃ t, log t = some q} = {q | ∃ t, log' t = some q} →
      (∀ t, Ended (m.threads t)) → (∀ t, Ended (m'.threads t)) →
      diagrams m.arena = diagrams m'.arena ∧ m.arena.nodes.length = m'.arena.nodes.length :=
  clients_memory_same tree_sound tree_blind (by decide)

/-- Not vacuous: a process in which thread 0 makes a tree, thread 1 gets it, writes it and reads it back, and thread 2
panics on it, and one in which thread 5 makes the tree, thread 7 panics on it and thread 3 copies it.  Both hold the same
diagrams in the end. -/
example : ∃ fuel m log m' log',
    Process (treeApi Nat) (O := TReply Nat) false true fuel m log ∧ Process (treeApi Nat) false true fuel m' log' ∧
      log 1 = some (copier, [(Universe.fromVec [7, 8]).tree [8]]) ∧ log' 1 = none ∧
      log' 3 = some (copier, [(Universe.fromVec [7, 8]).tree [8]]) ∧
      {q | ∃ t, log t = some q} = {q | ∃ t, log' t = some q} ∧
      (∀ t, Ended (m.threads t)) ∧ (∀ t, Ended (m'.threads t)) ∧
      diagrams m.arena = diagrams m'.arena ∧ m.arena.nodes.length = m'.arena.nodes.length := by
  obtain ⟨n1, h1⟩ := process_spawn (O := TReply Nat) (tree_sound (T := Nat)) tree_blind (by decide)
  obtain ⟨n2, h2⟩ := clients_same (T := Nat) (O := TReply Nat)
  let fuel := fun cl g => n1 cl g + n2 cl g
  have f1 : ∀ cl g, n1 cl g ≤ fuel cl g := fun _ _ => Nat.le_add_right _ _
  have f2 : ∀ cl g, n2 cl g ≤ fuel cl g := fun _ _ => Nat.le_add_left _ _
  have a0 : maker.alone (treeApi Nat) [] = some ([(Universe.fromVec [7, 8]).tree [8]], .done) := rfl
  have boot := Process.boot (A := treeApi Nat) (O := TReply Nat) (l0 := false) (l1 := true) (fuel := fuel)
  obtain ⟨m1, p1, k1, d1, e1⟩ := h1 fuel f1 _ _ boot 0 maker [] [] [] rfl rfl rfl
  obtain ⟨s1, e1, l1⟩ := e1 _ _ a0
  obtain ⟨x, rfl⟩ := List.length_eq_one_iff.1 l1
  obtain ⟨m2, p2, k2, d2, -⟩ := h1 fuel f1 _ _ p1 1 copier [(0, 0)] [x] [(Universe.fromVec [7, 8]).tree [8]] rfl
    (by simp only [pick, held, List.mapM_cons, List.mapM_nil, e1]; rfl) rfl
  obtain ⟨m3, p3, k3, d3, -⟩ := h1 fuel f1 _ _ p2 2 careless [(0, 0)] [x] [(Universe.fromVec [7, 8]).tree [8]] rfl
    (by simp only [pick, held, List.mapM_cons, List.mapM_nil, k2 0 (by decide), e1]; rfl) rfl
  obtain ⟨m5, p5, k5, d5, e5⟩ := h1 fuel f1 _ _ boot 5 maker [] [] [] rfl rfl rfl
  obtain ⟨s5, e5, l5⟩ := e5 _ _ a0
  obtain ⟨y, rfl⟩ := List.length_eq_one_iff.1 l5
  obtain ⟨m4, p4, k4, d4, -⟩ := h1 fuel f1 _ _ p5 7 careless [(5, 0)] [y] [(Universe.fromVec [7, 8]).tree [8]] rfl
    (by simp only [pick, held, List.mapM_cons, List.mapM_nil, e5]; rfl) rfl
  obtain ⟨m6, p6, k6, d6, -⟩ := h1 fuel f1 _ _ p4 3 copier [(5, 0)] [y] [(Universe.fromVec [7, 8]).tree [8]] rfl
    (by simp only [pick, held, List.mapM_cons, List.mapM_nil, k4 5 (by decide), e5]; rfl) rfl
  have he : ∀ t, Ended (m3.threads t) := by
    intro t
    by_cases t2 : t = 2
    · rw [t2]; exact d3
    rw [k3 t t2]
    by_cases t1 : t = 1
    · rw [t1]; exact d2
    rw [k2 t t1]
    by_cases t0 : t = 0
    · rw [t0]; exact d1
    rw [k1 t t0]
    exact .inl rfl
  have he' : ∀ t, Ended (m6.threads t) := by
    intro t
    by_cases t2 : t = 3
    · rw [t2]; exact d6
    rw [k6 t t2]
    by_cases t1 : t = 7
    · rw [t1]; exact d4
    rw [k4 t t1]
    by_cases t0 : t = 5
    · rw [t0]; exact d5
    rw [k5 t t0]
    exact .inl rfl
  have hq := started_eq' (q := (maker, ([] : List (Tree Nat)))) (r := (copier, [(Universe.fromVec [7, 8]).tree [8]]))
    (s := (careless, [(Universe.fromVec [7, 8]).tree [8]]))
  exact ⟨fuel, m3, _, m6, _, p3, p6, rfl, rfl, rfl, hq, he, he', h2 fuel f2 _ _ _ _ p3 p6 hq he he'⟩

end Verif.ArenaZdd1
