import Verif.ArenaMemoryClosetClient

/-!
# Clients of the node and closet API that may panic, next to threads doing anything (C98)
-/

set_option linter.unusedSectionVars false
set_option linter.unusedVariables false
set_option linter.checkUnivs false

namespace Verif.ArenaBdd

open Verif Verif.Arena Verif.Bdd Verif.Bdd.Spec

universe u v w x
variable {I : Type u} [LinearOrder I] {F : Type v} [LinearOrder F] {H : Type x} {O : Type w}

/-- What the client of thread `t` holds when it has ended alone, if it ends.  Not code: used to state or prove
properties. -/
def crowdKept (e : Env I H) (log : Nat → Option (Client I F H O × Store (Node I) (Closet I F))) (t : Nat) :
    Option (Store (Node I) (Closet I F)) :=
  (log t).bind fun q => (q.1.alone e q.2).map Prod.fst

/-- A process in which clients of the library, which may panic, are started at any time, with any nodes and closets
finished clients hold, next to threads doing anything at all, started at any time too; `log` says which client each
thread runs and what it was handed.  `need` says how much fuel a client is given at least.
Not code: used to state or prove properties. -/
inductive Crowd (e : Env I H) (need : Client I F H O → Store (Node I) (Closet I F) → Nat) :
    Machine I Bool (fun _ => StoreC I F × O) →
    (Nat → Option (Client I F H O × Store (Node I) (Closet I F))) → Prop where
  | boot (ths : Nat → Thread I Bool (StoreC I F × O)) : Crowd e need ⟨Arena.init false true, ths⟩ (fun _ => none)
  | step {m m' log} : Crowd e need m log → MStep m m' → Crowd e need m' log
  | client {m log} (t : Nat) (cl : Client I F H O) (ns cs : List (Nat × Nat)) (s g) (f : Nat) :
    Crowd e need m log → pick (held m) ns cs = some s → pick (crowdKept e log) ns cs = some g → need cl g ≤ f →
    Crowd e need ⟨m.arena, Function.update m.threads t (.run (clientP e f cl s))⟩
      (Function.update log t (some (cl, g)))
  | other {m log} (t : Nat) (th : Thread I Bool (StoreC I F × O)) : Crowd e need m log →
    Crowd e need ⟨m.arena, Function.update m.threads t th⟩ (Function.update log t none)

theorem crowd_ok (e : Env I H) : ∃ need : Client I F H O → Store (Node I) (Closet I F) → Nat,
    ∀ m log, Crowd e need m log → m.arena.Inv ∧
      ∀ t q, log t = some q → wpoT (m.threads t) m.arena (Post (q.1.alone e q.2)) := by
  choose n1 h1 using client_outcome (I := I) (F := F) (O := O) e
  obtain ⟨n2, h2⟩ := world_ok (I := I) (F := F) (O := O) e
  refine ⟨fun cl g => n1 cl g + n2 cl g, fun m log h => ?_⟩
  suffices hs : (m.arena.Inv ∧ ∀ t q, log t = some q → wpoT (m.threads t) m.arena (Post (q.1.alone e q.2))) ∧
      World.Run e n2 ⟨m, fun t => (log t).bind fun q => q.1.alone e q.2⟩ from hs.1
  induction h with
  | boot ths => exact ⟨⟨init_inv (by decide), fun t q h => (by cases h)⟩, .boot _⟩
  | @step m m' log _ hs ih =>
    refine ⟨⟨?_, fun t q hq => (mstep_outcome (post_stable _) hs ih.1.1 (ih.1.2 t q hq)).2⟩, ih.2.step hs⟩
    cases hs with
    | step t ht => exact (tstep_ext ht ih.1.1).right
  | @client m log t cl ns cs s g f _ hs hg hf ih =>
    have hk : (fun t => ((log t).bind fun q => q.1.alone e q.2).map Prod.fst) = crowdKept e log := by
      funext t
      simp only [crowdKept]
      cases log t <;> rfl
    have hg' : pick (fun t => ((log t).bind fun q => q.1.alone e q.2).map Prod.fst) ns cs = some g := by
      rw [hk]; exact hg
    have hh := pick_den (h2 _ ih.2) hs hg'
    refine ⟨⟨ih.1.1, fun t' q h => ?_⟩, ?_⟩
    · by_cases ht : t' = t
      · subst ht
        simp only [Function.update_self, Option.some.injEq] at h ⊢
        subst h
        exact h1 cl g f (by omega) _ s ih.1.1 hh
      · simp only [Function.update_of_ne ht] at h ⊢
        exact ih.1.2 t' q h
    · have upd : (fun t' => (Function.update log t (some (cl, g)) t').bind fun q => q.1.alone e q.2) =
          Function.update (fun t => (log t).bind fun q => q.1.alone e q.2) t (cl.alone e g) := by
        funext t'
        by_cases ht : t' = t
        · subst ht; simp
        · simp [Function.update_of_ne ht]
      rw [upd]
      cases hr : cl.alone e g with
      | none => exact ih.2.other t _
      | some r => exact ih.2.client t cl ns cs s g r f hs hg' hr (by omega)
  | @other m log t th _ ih =>
    refine ⟨⟨ih.1.1, fun t' q h => ?_⟩, ?_⟩
    · by_cases ht : t' = t
      · subst ht; simp at h
      · simp only [Function.update_of_ne ht] at h ⊢
        exact ih.1.2 t' q h
    · have upd : (fun t' => (Function.update log t none t').bind fun q => q.1.alone e q.2) =
          Function.update (fun t => (log t).bind fun q => q.1.alone e q.2) t none := by
        funext t'
        by_cases ht : t' = t
        · subst ht; simp
        · simp [Function.update_of_ne ht]
      rw [upd]
      exact ih.2.other t th

/-- C98, whether or not the client panics: clients of the whole node and closet API, deciding each call from the
answers so far, started at any time with any nodes and closets finished clients hold, next to threads doing anything
at all.  Under every schedule a client's thread panics only if the client panics in a process of its own; one that
finishes does so only if the client finishes alone, with the same output, holding as much; one that has done neither
can go on; and at every moment it can come to its end, the same as alone, while all others stand still. -/
theorem crowds_exact (e : Env I H) : ∃ need : Client I F H O → Store (Node I) (Closet I F) → Nat,
    ∀ m log, Crowd e need m log → ∀ t cl g, log t = some (cl, g) →
      (m.threads t = .panicked → cl.alone e g = none) ∧
      (∀ s o, m.threads t = .run (.ret (s, o)) → ∃ g', cl.alone e g = some (g', o) ∧
        s.nodes.length = g'.nodes.length ∧ s.closets.length = g'.closets.length) ∧
      (m.threads t = .panicked ∨ (∃ r, m.threads t = .run (.ret r)) ∨ ∃ a th, TStep m.arena (m.threads t) a th) ∧
      ∃ m', Crowd e need m' log ∧ MRun m m' ∧ (∀ s, s ≠ t → m'.threads s = m.threads s) ∧
        (cl.alone e g = none → m'.threads t = .panicked) ∧
        ∀ g' o, cl.alone e g = some (g', o) → ∃ s, m'.threads t = .run (.ret (s, o)) ∧
          s.nodes.length = g'.nodes.length ∧ s.closets.length = g'.closets.length := by
  obtain ⟨need, h⟩ := crowd_ok (I := I) (F := F) (O := O) e
  refine ⟨need, fun m log hp t cl g ht => ?_⟩
  have key : ∀ m', Crowd e need m' log →
      (m'.threads t = .panicked → cl.alone e g = none) ∧
      (∀ s o, m'.threads t = .run (.ret (s, o)) → ∃ g', cl.alone e g = some (g', o) ∧
        s.nodes.length = g'.nodes.length ∧ s.closets.length = g'.closets.length) := by
    intro m' hp'
    have hw := (h m' log hp').2 t _ ht
    refine ⟨fun ep => ?_, fun s o er => ?_⟩
    · rw [ep] at hw
      cases ho : cl.alone e g with
      | none => rfl
      | some p => simp only [ho] at hw; exact hw.elim
    · rw [er] at hw
      cases ho : cl.alone e g with
      | none => simp only [ho] at hw; exact hw.elim
      | some p =>
        simp only [ho] at hw
        obtain ⟨g', o'⟩ := p
        have h3 : o = o' := hw.2
        exact ⟨g', by rw [h3], hw.1.1.length_eq, hw.1.2.length_eq⟩
  obtain ⟨hI, hw⟩ := h m log hp
  obtain ⟨m', r, hs, hx⟩ := outcome_finish (t := t) (post_stable (cl.alone e g)) hI (hw t _ ht)
  have hp' : Crowd e need m' log := by
    clear hx hs hw hI key
    induction r with
    | nil => exact hp
    | cons h1 _ ih => exact ih (hp.step h1)
  refine ⟨(key m hp).1, (key m hp).2, ?_, m', hp', r, hs, fun eo => ?_, fun g' o eo => ?_⟩
  · exact outcome_moves (hw t _ ht)
  · rcases hx with hx | ⟨⟨s, o⟩, hx, _⟩
    · exact hx.1
    · obtain ⟨g', e', _⟩ := (key m' hp').2 s o hx
      rw [eo] at e'; cases e'
  · rcases hx with hx | ⟨⟨s, o'⟩, h3, _⟩
    · rw [(key m' hp').1 hx.1] at eo; cases eo
    · obtain ⟨g2, e', h4, h5⟩ := (key m' hp').2 s o' h3
      rw [eo] at e'; cases e'
      exact ⟨s, h3, h4, h5⟩

/-- Not vacuous: thread 9 loads a node that does not exist and panics, thread 0 builds a closet, thread 1 panics on data
in which a depth stands for no item, and thread 2, handed the closet of thread 0, copies it and finds it equal. -/
example (e : Env Nat Nat) : ∃ need m log, ∃ c : Closet Nat Nat,
    Crowd (O := Reply Nat Nat Nat) e need m log ∧ (ClosetBuilder.run demo).build = .ok c ∧
      log 1 = some (misreader, ⟨[], []⟩) ∧ m.threads 1 = .panicked ∧ log 2 = some (checker, ⟨[], [c]⟩) ∧
      (∃ s, m.threads 2 = .run (.ret (s, .same true))) ∧ log 9 = none ∧ m.threads 9 = .panicked := by
  obtain ⟨need, h1⟩ := crowds_exact (I := Nat) (F := Nat) (O := Reply Nat Nat Nat) e
  obtain ⟨c, hc⟩ := (build_validates demo).1.1 demo_legal
  have a0 : builder.alone e ⟨[], []⟩ = some (⟨[], [c]⟩, .done) := by
    simp [builder, Client.alone, Op.alone, hc, Store.closet]
  have a1 : checker.alone e ⟨[], [c]⟩ = some (⟨[], [c, c]⟩, .same true) := by
    have := closet_roundtrip demo [] c ⟨c, hc, rfl⟩
    simp [checker, Client.alone, Op.alone, this, Store.closet]
  have a2 : misreader.alone e ⟨[], []⟩ = none := rfl
  have spawn : ∀ m log, Crowd (O := Reply Nat Nat Nat) e need m log → ∀ t cl ns cs s g,
      pick (held m) ns cs = some s → pick (crowdKept e log) ns cs = some g → ∃ m',
        Crowd e need m' (Function.update log t (some (cl, g))) ∧
        (∀ u, u ≠ t → m'.threads u = m.threads u) ∧ (cl.alone e g = none → m'.threads t = .panicked) ∧
        ∀ g' o, cl.alone e g = some (g', o) → ∃ s', m'.threads t = .run (.ret (s', o)) ∧
          s'.nodes.length = g'.nodes.length ∧ s'.closets.length = g'.closets.length := by
    intro m log hp t cl ns cs s g hs hg
    have hp1 := Crowd.client t cl ns cs s g _ hp hs hg le_rfl
    obtain ⟨m', p', _, k', pa, fi⟩ := (h1 _ _ hp1 t cl g (by simp)).2.2.2
    refine ⟨m', p', fun u hu => ?_, pa, fi⟩
    rw [k' u hu]; exact Function.update_of_ne hu _ _
  let ths : Nat → Thread Nat Bool (StoreC Nat Nat × Reply Nat Nat Nat) := fun _ => .run (.load 99 fun _ => .panic)
  have r0 : Crowd e need ⟨Arena.init false true, ths⟩ (fun _ => none) := .boot ths
  have r1 := r0.step (.step 9 (.loadMissing
    (show (Arena.init false true : Arena Nat Bool).getById 99 = none by decide)))
  obtain ⟨m1, p1, k1, -, e1⟩ := spawn _ _ r1 0 builder [] [] ⟨[], []⟩ ⟨[], []⟩ rfl rfl
  obtain ⟨⟨ns1, cs1⟩, e1, -, l1⟩ := e1 _ _ a0
  obtain ⟨x, rfl⟩ := List.length_eq_one_iff.1 l1
  obtain ⟨m2, p2, k2, e2, -⟩ := spawn _ _ p1 1 misreader [] [] ⟨[], []⟩ ⟨[], []⟩ rfl rfl
  obtain ⟨m3, p3, k3, -, e3⟩ := spawn _ _ p2 2 checker [] [(0, 0)] ⟨[], [x]⟩ ⟨[], [c]⟩
    (by simp only [pick, held, List.mapM_cons, List.mapM_nil, k2 0 (by decide), e1]; rfl)
    (by simp [pick, crowdKept, a0])
  obtain ⟨s3, e3, -⟩ := e3 _ _ a1
  refine ⟨need, m3, _, c, p3, hc, rfl, ?_, rfl, ⟨s3, e3⟩, rfl, ?_⟩
  · rw [k3 1 (by decide)]; exact e2 a2
  · rw [k3 9 (by decide), k2 9 (by decide), k1 9 (by decide)]
    simp

end Verif.ArenaBdd
