import Verif.ArenaForest
import Verif.ArenaBdd
import Verif.ArenaZdd1

/-!
# Repeating a call allocates nothing (C70)

The arena is never emptied, so a process that repeats the same work must not grow it.  Proved for every
program over the arena, hence for the forest API, the closet API and the tree API: once some thread has
finished a program, any other thread (or the same one) running that program again, next to any others
and under any schedule, finds every node it needs, adds none, and ends with the very same ids.
-/

set_option linter.unusedSectionVars false
set_option linter.unusedVariables false

namespace Verif.Arena

universe u v w
variable {K : Type u} {L : Type v} [DecidableEq K] [DecidableEq L]

/-- Running `p` in `a` (or later) only meets nodes already present, and ends with `x`.
Not code: used to state or prove properties. -/
inductive Settled {α : Type w} (a : Arena K L) : Prog K L α → α → Prop where
  | ret (x) : Settled a (.ret x) x
  | load {i k c x} : a.getById i = some c → Settled a (k c) x → Settled a (.load i k) x
  | intern {c k i x} : a.getByNode c = some i → Settled a (k i) x → Settled a (.intern c k) x

/-- The same for a thread.  Not code: used to state or prove properties. -/
def SettledT {α : Type w} (a : Arena K L) : Thread K L α → α → Prop
  | .run p, x => Settled a p x
  | .missed c k, x => Settled a (.intern c k) x
  | .panicked, _ => False

theorem Ext.node {a b : Arena K L} (h : Ext a b) {c : Cell K L} {i : Nat} (hi : a.getByNode c = some i) :
    b.getByNode c = some i :=
  (h.right.index c i).2 (h.keep i c ((h.left.index c i).1 hi))

theorem Settled.mono {α : Type w} {a b : Arena K L} (h : Ext a b) {p : Prog K L α} {x : α}
    (hp : Settled a p x) : Settled b p x := by
  induction hp with
  | ret x => exact .ret x
  | load hc _ ih => exact .load (h.keep _ _ hc) ih
  | intern hc _ ih => exact .intern (h.node hc) ih

theorem SettledT.mono {α : Type w} {a b : Arena K L} (h : Ext a b) {th : Thread K L α} {x : α}
    (hp : SettledT a th x) : SettledT b th x := by
  cases th with
  | run p => exact Settled.mono h hp
  | missed c k => exact Settled.mono h hp
  | panicked => exact hp

/-- A step of a settled thread: the arena stays as it is, the thread stays settled. -/
theorem SettledT.step {α : Type w} {a a' : Arena K L} {th th' : Thread K L α} {x : α}
    (hs : SettledT a th x) (h : TStep a th a' th') : a' = a ∧ SettledT a th' x := by
  have present : ∀ {c : Cell K L} {i : Nat}, a.getByNode c = some i → a.add c = (a, i) := by
    intro c i e; unfold Arena.add; rw [e]
  cases h with
  | load hc =>
    cases hs with
    | load hc' hk => rw [hc] at hc'; cases hc'; exact ⟨rfl, hk⟩
  | loadMissing hc =>
    cases hs with
    | load hc' hk => rw [hc] at hc'; cases hc'
  | hit hi =>
    cases hs with
    | intern hc' hk => rw [hi] at hc'; cases hc'; exact ⟨rfl, hk⟩
  | miss hc =>
    cases hs with
    | intern hc' hk => rw [hc] at hc'; cases hc'
  | add =>
    cases hs with
    | intern hc' hk => rw [present hc']; exact ⟨rfl, hk⟩
  | panic => cases hs
  | addDirect =>
    cases hs with
    | intern hc' hk => rw [present hc']; exact ⟨rfl, hk⟩

/-- Backwards over a step of the thread itself: what is settled afterwards was settled before. -/
theorem SettledT.back {α : Type w} {a a' b : Arena K L} {th th' : Thread K L α} {x : α}
    (h : TStep a th a' th') (hI : a.Inv) (hab : Ext a' b) (hb : Ext a b) (hs : SettledT b th' x) :
    SettledT b th x := by
  cases h with
  | load hc => exact .load (hb.keep _ _ hc) hs
  | loadMissing hc => exact hs.elim
  | hit hi => exact .intern (hb.node hi) hs
  | miss hc => exact hs
  | panic => exact hs.elim
  | add => exact .intern (hab.node ((hab.left.index _ _).2 (add_getById hI.index _))) hs
  | addDirect => exact .intern (hab.node ((hab.left.index _ _).2 (add_getById hI.index _))) hs

/-- Verified threads: a thread that has finished is settled in the arena it leaves, from its start on. -/
theorem finished_settled {α : Nat → Type w} {m m' : Machine K L α}
    {Q : (t : Nat) → Arena K L → α t → Prop} (hQ : ∀ t, Stable (Q t)) (h : MRun m m')
    (hI : m.arena.Inv) (hw : ∀ t, wpT (m.threads t) m.arena (Q t)) (t : Nat) {x : α t}
    (hx : m'.threads t = .run (.ret x)) : SettledT m'.arena (m.threads t) x := by
  induction h with
  | nil => rw [hx]; exact .ret x
  | @cons m m1 m' h1 h2 ih =>
    obtain ⟨he, hw'⟩ := mstep_ok hQ h1 hI hw
    obtain ⟨he', _⟩ := mrun_ok hQ h2 he.right hw'
    have hs := ih he.right hw' hx
    cases h1 with
    | @step s a' th' hst =>
      by_cases e : s = t
      · subst e
        dsimp only at hs he'
        rw [Function.update_self] at hs
        exact SettledT.back hst hI he' (he.trans he') hs
      · dsimp only at hs
        rwa [Function.update_of_ne (Ne.symm e)] at hs

/-- Settled threads stay settled and never change the arena, under every schedule. -/
theorem settled_run {α : Nat → Type w} {m m' : Machine K L α}
    {Q : (t : Nat) → Arena K L → α t → Prop} (hQ : ∀ t, Stable (Q t)) (h : MRun m m')
    (hI : m.arena.Inv) (hw : ∀ t, wpT (m.threads t) m.arena (Q t)) (t : Nat) {x : α t}
    (hs : SettledT m.arena (m.threads t) x) : SettledT m'.arena (m'.threads t) x := by
  induction h with
  | nil => exact hs
  | @cons m m1 m' h1 h2 ih =>
    obtain ⟨he, hw'⟩ := mstep_ok hQ h1 hI hw
    refine ih he.right hw' ?_
    cases h1 with
    | @step s a' th' hst =>
      by_cases e : s = t
      · subst e
        obtain ⟨rfl, hs'⟩ := hs.step hst
        dsimp only
        rw [Function.update_self]; exact hs'
      · dsimp only
        rw [Function.update_of_ne (Ne.symm e)]
        exact hs.mono he

/-- C70, for any programs over the arena.  Let thread `t` have finished its program with `x`, and let
thread `s`, which runs the same program, not have started yet.  Whatever happens afterwards: no step of
`s` changes the arena, and if `s` finishes, it finishes with `x`. -/
theorem repeat_free {β : Type w} {m m' : Machine K L (fun _ => β)}
    {Q : (t : Nat) → Arena K L → β → Prop} (hQ : ∀ t, Stable (Q t)) (h : MRun m m')
    (hI : m.arena.Inv) (hw : ∀ t, wpT (m.threads t) m.arena (Q t)) {s t : Nat}
    (hst : m.threads s = m.threads t) {x : β} (hx : m'.threads t = .run (.ret x))
    (hs : m'.threads s = m.threads s) :
    ∀ m2, MRun m' m2 → (∀ m3, StepBy s m2 m3 → m3.arena = m2.arena) ∧
      ∀ y, m2.threads s = .run (.ret y) → y = x := by
  intro m2 h2
  obtain ⟨he, hw'⟩ := mrun_ok hQ h hI hw
  have h1 := finished_settled hQ h hI hw t hx
  rw [← hst, ← hs] at h1
  have h3 : SettledT m2.arena (m2.threads s) x := settled_run hQ h2 he.right hw' s h1
  refine ⟨fun m3 hstep => (h3.step hstep.1).1, fun y hy => ?_⟩
  rw [hy] at h3
  cases h3; rfl

end Verif.Arena

/-! ## The three APIs -/

namespace Verif.ArenaZdd2
open Verif Verif.Arena Verif.Zdd2

universe u
variable {T : Type u} [LinearOrder T]

/-- C70, forests: once a thread has run a forest program, running it again in another thread adds no node
and gives the identical forest (root id included), under every schedule. -/
theorem repeat_allocates_nothing (ps : Nat → Matrix.Prog T) :
    ∃ F : Nat → Nat, ∀ f : Nat → Nat, (∀ t, F t ≤ f t) → ∀ m, MRun (boot f ps) m →
      ∀ s t x, ps s = ps t → f s = f t → m.threads t = .run (.ret x) →
      m.threads s = (boot f ps).threads s → ∀ m2, MRun m m2 →
      (∀ m3, StepBy s m2 m3 → m3.arena = m2.arena) ∧ ∀ y, m2.threads s = .run (.ret y) → y = x := by
  obtain ⟨F, hF⟩ := boot_ok ps
  refine ⟨F, fun f hf m hm s t x hp hff hx hs => ?_⟩
  refine repeat_free (fun t => forest_stable (ps t)) hm (init_inv (by decide)) (hF f hf) ?_ hx hs
  change Thread.run (threadP (f s) (ps s)) = Thread.run (threadP (f t) (ps t))
  rw [hp, hff]

/-- The hypotheses are met: one thread finishes while its twin has not started. -/
example : ∃ (f : Nat → Nat) (m : Machine Nat Bool (fun _ => ForestC Nat × List (List Nat))) (x : _),
    MRun (boot f (fun _ => .union (.unit [3]) (.unit [2, 1]))) m ∧ m.threads 0 = .run (.ret x) ∧
    m.threads 1 = (boot f (fun _ => .union (.unit [3]) (.unit [2, 1]))).threads 1 ∧ f 1 = f 0 := by
  obtain ⟨F, hF⟩ := threads_finish (fun _ => .union (.unit [3]) (.unit [2, 1]) : Nat → Matrix.Prog Nat)
  have hle : ∀ t, F t ≤ (fun t => if t = 0 ∨ t = 1 then F 0 + F 1 else F t) t := by
    intro t; dsimp only; split_ifs with h
    · rcases h with rfl | rfl <;> omega
    · exact le_rfl
  obtain ⟨m, hm, hk, x, g, e, _⟩ := hF _ hle _ (.nil _) 0
  exact ⟨_, m, _, hm, e, hk 1 (by decide), by simp⟩

end Verif.ArenaZdd2

namespace Verif.ArenaBdd
open Verif Verif.Arena Verif.Bdd

universe u v
variable {I : Type u} {F : Type v} [LinearOrder I] [LinearOrder F]

/-- C70, closets: repeating a whole session (build, select, complete) adds no node. -/
theorem repeat_allocates_nothing (ss : Nat → Session I F) :
    ∃ K : Nat → Nat, ∀ f : Nat → Nat, (∀ t, K t ≤ f t) → ∀ m, MRun (boot f ss) m →
      ∀ s t x, ss s = ss t → f s = f t → m.threads t = .run (.ret x) →
      m.threads s = (boot f ss).threads s → ∀ m2, MRun m m2 →
      (∀ m3, StepBy s m2 m3 → m3.arena = m2.arena) ∧ ∀ y, m2.threads s = .run (.ret y) → y = x := by
  obtain ⟨K, hK⟩ := boot_ok ss
  refine ⟨K, fun f hf m hm s t x hp hff hx hs => ?_⟩
  refine repeat_free (fun t => answer_stable (ss t)) hm (init_inv (by decide)) (hK f hf) ?_ hx hs
  change Thread.run (threadP (f s) (ss s)) = Thread.run (threadP (f t) (ss t))
  rw [hp, hff]

end Verif.ArenaBdd

namespace Verif.ArenaZdd1
open Verif Verif.Arena Verif.Zdd1

universe u
variable {T : Type u} [LinearOrder T]

/-- C70, v1 trees: repeating a tree expression adds no node and gives the identical tree. -/
theorem repeat_allocates_nothing (qs : Nat → Ex T × List T × List T) :
    ∃ F : Nat → Nat, ∀ f : Nat → Nat, (∀ t, F t ≤ f t) → ∀ m, MRun (boot f qs) m →
      ∀ s t x, qs s = qs t → f s = f t → m.threads t = .run (.ret x) →
      m.threads s = (boot f qs).threads s → ∀ m2, MRun m m2 →
      (∀ m3, StepBy s m2 m3 → m3.arena = m2.arena) ∧ ∀ y, m2.threads s = .run (.ret y) → y = x := by
  obtain ⟨F, hF⟩ := boot_ok qs
  refine ⟨F, fun f hf m hm s t x hp hff hx hs => ?_⟩
  refine repeat_free (fun t => right_stable (qs t)) hm (init_inv (by decide)) (hF f hf) ?_ hx hs
  change Thread.run (threadP (f s) (qs s)) = Thread.run (threadP (f t) (qs t))
  rw [hp, hff]

end Verif.ArenaZdd1
