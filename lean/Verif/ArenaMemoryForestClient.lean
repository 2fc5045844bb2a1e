import Verif.ArenaMemoryText
import Verif.ArenaMemoryForest
import Verif.ArenaForestClient

/-!
# What clients of the whole forest API leave in the arena (C108)
-/

set_option linter.unusedSectionVars false
set_option linter.unusedVariables false

namespace Verif.ArenaZdd2
open Verif Verif.Arena Verif.Zdd2 Verif.Debug Verif.Text

universe u w
variable {T : Type u} [LinearOrder T] {R : Nat → Nat → Prop}

theorem fmtInner_alike (dbg : T → List Char) (univ : Universe T) (f d : Nat) {n n' : C} (h : CellRel R n n') :
    Alike R (· = ·) (fmtInnerP dbg univ f d n) (fmtInnerP dbg univ f d n') := by
  induction f generalizing d n n' with
  | zero => exact .spin
  | succ f ih =>
    cases h with
    | leaf l => cases l <;> exact .ret rfl
    | branch h1 h2 =>
      rw [fmtInnerP, fmtInnerP]
      cases univ.getItem _ with
      | none => exact .panic
      | some item =>
        refine .load h1 fun _ _ h => (ih _ h).bind fun _ _ e => ?_
        subst e
        refine .load h2 fun _ _ h => (ih _ h).bind fun _ _ e => ?_
        subst e
        exact .ret rfl

theorem ForestRel.eq_iff (hR : Pairing R) {x y x' y' : ForestC T} (hx : ForestRel R x x') (hy : ForestRel R y y') :
    x = y ↔ x' = y' := by
  obtain ⟨r, u⟩ := x
  obtain ⟨r1, u1⟩ := y
  obtain ⟨r2, u2⟩ := x'
  obtain ⟨r3, u3⟩ := y'
  obtain ⟨h1, h2⟩ := hx
  obtain ⟨h3, h4⟩ := hy
  dsimp only at h1 h2 h3 h4
  subst h2 h4
  simp only [ForestC.mk.injEq, and_congr_left_iff]
  intro _
  constructor
  · rintro rfl; exact hR.fwd _ _ _ h1 h3
  · rintro rfl; exact hR.bwd _ _ _ h1 h3

/-- No call of the forest API looks at the numbers of the ids. -/
theorem forest_blind (dbg : T → List Char) : (forestApi dbg).Blind (fun R => ForestRel (T := T) R) where
  den := fun h1 h2 => ⟨⟨_, h1.1, h2.1⟩, h1.2.trans h2.2.symm⟩
  call := by
    intro R hR f op s s' hs
    change Alike R _ (FOp.prog dbg f s op) (FOp.prog dbg f s' op)
    have mk : ∀ {p q : Prog Nat Bool (ForestC T)}, Alike R (ForestRel R) p q →
        Alike R (fun x y => List.Forall₂ (ForestRel R) x.1 y.1 ∧ x.2 = y.2) (made s p) (made s' q) := fun h =>
      h.bind fun _ _ h => .ret ⟨snoc_rel hs h, rfl⟩
    have he : Alike R (ForestRel R) (emptyP : Prog Nat Bool (ForestC T)) emptyP := .ret ⟨hR.zero, rfl⟩
    have rep : ∀ {γ : Type u} {p q : Prog Nat Bool γ} (g : γ → FReply T), Alike R (· = ·) p q →
        Alike R (fun x y => List.Forall₂ (ForestRel R) x.1 y.1 ∧ x.2 = y.2) (p.bind fun x => .ret (s, g x))
          (q.bind fun x => .ret (s', g x)) := fun g h => h.bind fun _ _ e => .ret ⟨hs, by rw [e]⟩
    have rep0 : ∀ {γ : Type} {p q : Prog Nat Bool γ} (g : γ → FReply T), Alike R (· = ·) p q →
        Alike R (fun x y => List.Forall₂ (ForestRel R) x.1 y.1 ∧ x.2 = y.2) (p.bind fun x => .ret (s, g x))
          (q.bind fun x => .ret (s', g x)) := fun g h => h.bind fun _ _ e => .ret ⟨hs, by rw [e]⟩
    cases op with
    | empty => exact mk he
    | unit items => exact mk (run_alike hR f (.unit items))
    | many m => exact mk (many_alike hR f m)
    | unique items => exact mk (run_alike hR f (.unique items))
    | union x y => exact named_alike hs x fun _ _ h => named_alike hs y fun _ _ h' => mk (binary_alike hR union_alike f h h')
    | intersect x y =>
      exact named_alike hs x fun _ _ h => named_alike hs y fun _ _ h' => mk (binary_alike hR intersect_alike f h h')
    | product x y =>
      exact named_alike hs x fun _ _ h => named_alike hs y fun _ _ h' => mk (binary_alike hR product_alike f h h')
    | subset x e =>
      refine named_alike hs x fun x y h => mk ?_
      unfold forestSubsetP
      rw [h.2]
      cases y.univ.getPriority e with
      | none => exact he
      | some e => exact .load h.1 fun _ _ h' => (subset_alike hR f e h').bind fun _ _ h => canonical_alike hR f _ h
    | subsetNot x e =>
      refine named_alike hs x fun x y h => mk ?_
      unfold forestSubsetNotP
      rw [h.2]
      cases y.univ.getPriority e with
      | none => exact .ret h
      | some e => exact .load h.1 fun _ _ h' => (subsetNot_alike f e h').bind fun _ _ h => canonical_alike hR f _ h
    | subsetAll x es =>
      refine named_alike hs x fun x y h => mk ?_
      unfold subsetManyP
      rw [h.2]
      refine .ite Iff.rfl (.ret h) (.ite Iff.rfl he ?_)
      exact .load h.1 fun _ _ h' => (subsetAll_alike hR f _ h').bind fun _ _ h => canonical_alike hR f _ h
    | subsetNone x es =>
      refine named_alike hs x fun x y h => mk ?_
      unfold subsetManyP
      rw [h.2]
      refine .ite Iff.rfl (.ret h) (.ite Iff.rfl (.ret h) ?_)
      exact .load h.1 fun _ _ h' => (subsetNone_alike hR f _ h').bind fun _ _ h => canonical_alike hR f _ h
    | len x => exact named_alike hs x fun _ _ h => rep0 _ (trees_alike f h.1)
    | isEmpty x => exact named_alike hs x fun _ _ h => rep0 _ (trees_alike f h.1)
    | trees x =>
      refine named_alike hs x fun x y h => rep _ ?_
      unfold forestTreesP
      rw [h.2]
      exact (trees_alike f h.1).bind fun _ _ e => .ret (by rw [e])
    | occurrences x => exact named_alike hs x fun _ _ h => .ret ⟨hs, by rw [h.2]⟩
    | same x y =>
      exact named_alike hs x fun _ _ h => named_alike hs y fun _ _ h' => .ret ⟨hs,
        congrArg FReply.bool (decide_eq_decide.2 (ForestRel.eq_iff hR h h'))⟩
    | debug x =>
      refine named_alike hs x fun x y h => rep0 _ ?_
      unfold forestDebugP
      rw [h.2]
      exact .load h.1 fun _ _ h => (fmtInner_alike dbg _ f 1 h).bind fun _ _ e => .ret (by rw [e])
    | save x =>
      refine named_alike hs x fun x y h => rep _ ?_
      unfold saveP
      rw [h.2]
      exact .load h.1 fun _ _ h => (buildText_alike _ _ f h).bind fun _ _ e => .ret (by rw [e])
    | load d =>
      refine Alike.bind (S := Option.Rel (ForestRel R)) ?_ fun x y h => ?_
      · unfold loadP
        refine (readText_alike _ _ (fun id _ _ _ _ h h' => branch_alike f id (.node h) (.node h')) _).bind
          fun x y h => ?_
        cases h with
        | none => exact .ret .none
        | some h => exact .intern h fun _ _ h => .ret (.some ⟨h, rfl⟩)
      · cases h with
        | none => exact .ret ⟨hs, rfl⟩
        | some h => exact .ret ⟨snoc_rel hs h, rfl⟩

/-- C108, forests: every client, handed given forests, has a set of diagrams it leaves in the arena.  At every moment of
every process, whichever clients were started when and handed which forests, the arena holds all that the ended clients
leave, and besides the two leaves nothing that the started clients do not. -/
theorem clients_leave {O : Type w} (dbg : T → List Char) : ∃ need : Client _ _ O → List _ → Nat,
    ∀ fuel : Client _ _ O → List _ → Nat, (∀ cl g, need cl g ≤ fuel cl g) →
    ∃ leaves : Client _ _ O → List _ → Set (Tr Nat Bool), ∀ m log, Process (forestApi dbg) false true fuel m log →
      (∀ t cl g, log t = some (cl, g) → Ended (m.threads t) → leaves cl g ⊆ diagrams m.arena) ∧
      diagrams m.arena ⊆ {.leaf false, .leaf true} ∪ {d | ∃ t cl g, log t = some (cl, g) ∧ d ∈ leaves cl g} :=
  clients_memory (forest_sound dbg) (forest_blind dbg) (by decide)

/-- C108, forests: a process in which every client of another one was started with the same forests, in whichever order
and on whichever thread, and has ended, holds every diagram the other one holds, and no fewer nodes. -/
theorem clients_within {O : Type w} (dbg : T → List Char) : ∃ need : Client _ _ O → List _ → Nat,
    ∀ fuel : Client _ _ O → List _ → Nat, (∀ cl g, need cl g ≤ fuel cl g) →
    ∀ m log m' log', Process (forestApi dbg) false true fuel m log → Process (forestApi dbg) false true fuel m' log' →
      (∀ t q, log t = some q → ∃ t', log' t' = some q ∧ Ended (m'.threads t')) →
      diagrams m.arena ⊆ diagrams m'.arena ∧ m.arena.nodes.length ≤ m'.arena.nodes.length :=
  clients_memory_within (forest_sound dbg) (forest_blind dbg) (by decide)

/-- C108, forests: what the arena holds when all clients have ended depends only on which clients were started with
which forests. -/
theorem clients_same {O : Type w} (dbg : T → List Char) : ∃ need : Client _ _ O → List _ → Nat,
    ∀ fuel : Client _ _ O → List _ → Nat, (∀ cl g, need cl g ≤ fuel cl g) →
    ∀ m log m' log', Process (forestApi dbg) false true fuel m log → Process (forestApi dbg) false true fuel m' log' →
      {q | ∃ t, log t = some q} = {q | ∃ t, log' t = some q} →
      (∀ t, Ended (m.threads t)) → (∀ t, Ended (m'.threads t)) →
      diagrams m.arena = diagrams m'.arena ∧ m.arena.nodes.length = m'.arena.nodes.length :=
  clients_memory_same (forest_sound dbg) (forest_blind dbg) (by decide)

/-- Not vacuous: a process in which thread 0 makes a forest, thread 1 gets it, writes it and reads it back, and thread 2
panics, and one in which thread 7 panics first, thread 5 makes the forest and thread 3 copies it.  Both hold the same
diagrams in the end. -/
example (dbg : Nat → List Char) : ∃ fuel m log m' log',
    Process (forestApi dbg) (O := FReply Nat) false true fuel m log ∧ Process (forestApi dbg) false true fuel m' log' ∧
      log 1 = some (copier, [Forest.many [[1, 2], [1, 3]]]) ∧ log' 1 = none ∧
      log' 3 = some (copier, [Forest.many [[1, 2], [1, 3]]]) ∧
      {q | ∃ t, log t = some q} = {q | ∃ t, log' t = some q} ∧
      (∀ t, Ended (m.threads t)) ∧ (∀ t, Ended (m'.threads t)) ∧
      diagrams m.arena = diagrams m'.arena ∧ m.arena.nodes.length = m'.arena.nodes.length := by
  obtain ⟨n1, h1⟩ := process_spawn (O := FReply Nat) (forest_sound dbg) (forest_blind dbg) (by decide)
  obtain ⟨n2, h2⟩ := clients_same (O := FReply Nat) dbg
  let fuel := fun cl g => n1 cl g + n2 cl g
  have f1 : ∀ cl g, n1 cl g ≤ fuel cl g := fun _ _ => Nat.le_add_right _ _
  have f2 : ∀ cl g, n2 cl g ≤ fuel cl g := fun _ _ => Nat.le_add_left _ _
  have a0 : maker.alone (forestApi dbg) [] = some ([Forest.many [[1, 2], [1, 3]]], .done) := rfl
  have boot := Process.boot (A := forestApi dbg) (O := FReply Nat) (l0 := false) (l1 := true) (fuel := fuel)
  obtain ⟨m1, p1, k1, d1, e1⟩ := h1 fuel f1 _ _ boot 0 maker [] [] [] rfl rfl rfl
  obtain ⟨s1, e1, l1⟩ := e1 _ _ a0
  obtain ⟨x, rfl⟩ := List.length_eq_one_iff.1 l1
  obtain ⟨m2, p2, k2, d2, -⟩ := h1 fuel f1 _ _ p1 1 copier [(0, 0)] [x] [Forest.many [[1, 2], [1, 3]]] rfl
    (by simp only [pick, held, List.mapM_cons, List.mapM_nil, e1]; rfl) rfl
  obtain ⟨m3, p3, k3, d3, -⟩ := h1 fuel f1 _ _ p2 2 careless [] [] [] rfl rfl rfl
  obtain ⟨m4, p4, k4, d4, -⟩ := h1 fuel f1 _ _ boot 7 careless [] [] [] rfl rfl rfl
  obtain ⟨m5, p5, k5, d5, e5⟩ := h1 fuel f1 _ _ p4 5 maker [] [] [] rfl rfl rfl
  obtain ⟨s5, e5, l5⟩ := e5 _ _ a0
  obtain ⟨y, rfl⟩ := List.length_eq_one_iff.1 l5
  obtain ⟨m6, p6, k6, d6, -⟩ := h1 fuel f1 _ _ p5 3 copier [(5, 0)] [y] [Forest.many [[1, 2], [1, 3]]] rfl
    (by simp only [pick, held, List.mapM_cons, List.mapM_nil, e5]; rfl) rfl
  have he : ∀ t, Ended (m3.threads t) := by
    intro t
    by_cases t2 : t = 2
    · rw [t2]; exact d3
    rw [k3 t t2]
    by_cases t1 : t = 1
    · rw [t1]; exact d2
    rw [k2 t t1]
    by_cases t0 : t = 0
    · rw [t0]; exact d1
    rw [k1 t t0]
    exact .inl rfl
  have he' : ∀ t, Ended (m6.threads t) := by
    intro t
    by_cases t2 : t = 3
    · rw [t2]; exact d6
    rw [k6 t t2]
    by_cases t1 : t = 5
    · rw [t1]; exact d5
    rw [k5 t t1]
    by_cases t0 : t = 7
    · rw [t0]; exact d4
    rw [k4 t t0]
    exact .inl rfl
  have hq := started_eq (q := (maker, ([] : List (Forest Nat)))) (r := (copier, [Forest.many [[1, 2], [1, 3]]]))
    (s := (careless, ([] : List (Forest Nat))))
  exact ⟨fuel, m3, _, m6, _, p3, p6, rfl, rfl, rfl, hq, he, he', h2 fuel f2 _ _ _ _ p3 p6 hq he he'⟩

end Verif.ArenaZdd2
