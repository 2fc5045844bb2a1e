import Verif.Arena
import Mathlib.Data.Set.Finite.Basic
import Mathlib.Order.Interval.Set.Infinite
import Mathlib.Order.WellFounded

/-!
# Programs over a shared arena (C64, C65)

The node operations of the three diagram packages are recursive programs that load nodes from, and
intern nodes into, one global arena shared by all threads.  This file defines such programs, a machine
running any number of them under an arbitrary schedule, and a logic in which "this program, run in any
thread next to any others, returns a node denoting the diagram `t`" is proved per operation (the files
`ArenaZdd2`, `ArenaBdd`, `ArenaZdd1`).  This is what connects the arena code with the models of the
operations on plain diagrams used everywhere else.
-/

set_option linter.dupNamespace false
set_option linter.unusedSectionVars false
set_option linter.unusedVariables false

namespace Verif.Arena

universe u v w w' x y
variable {K : Type u} {L : Type v} [DecidableEq K] [DecidableEq L]

/-- A sequential program of one thread: `load` is `Node::from(id)`, `intern` is `NodeId::from(node)`
(weave/src/zdd2/forest/node/mod.rs:127-152).  `spin` stands for a recursion deeper than the
fuel given to a model function; the theorems show that with enough fuel it is not met.  `panic` is a
failed `unwrap` outside the arena. -/
inductive Prog (K : Type u) (L : Type v) (α : Type w) where
  | ret (x : α)
  | load (i : Nat) (k : Cell K L → Prog K L α)
  | intern (c : Cell K L) (k : Nat → Prog K L α)
  | panic
  | spin

namespace Prog

variable {α : Type w} {β : Type w'}

/-- Sequencing of Rust statements.  Not code: used to state or prove properties. -/
def bind : Prog K L α → (α → Prog K L β) → Prog K L β
  | .ret x, f => f x
  | .load i k, f => .load i (fun c => (k c).bind f)
  | .intern c k, f => .intern c (fun i => (k i).bind f)
  | .panic, _ => .panic
  | .spin, _ => .spin

end Prog

/-! ## The machine -/

/-- State of one thread.  `missed` is inside `NodeId::from`, between the failed look-up under the read
lock and the write lock (weave/src/zdd2/forest/node/mod.rs:127-138); `panicked` is the
`panic!("Expected node to exist for")` of weave/src/zdd2/forest/node/mod.rs:146-152 or a failed `unwrap`. -/
inductive Thread (K : Type u) (L : Type v) (α : Type w) where
  | run (p : Prog K L α)
  | missed (c : Cell K L) (k : Nat → Prog K L α)
  | panicked

/-- One atomic step of one thread: the arena before, the thread before, the arena after, the thread
after.  Each step holds the lock once: weave/src/zdd2/forest/node/mod.rs:127-152,
weave/src/zdd/node/mod.rs:62-80, bowtie-core/src/bdd/node/arena.rs:48-60. -/
inductive TStep {α : Type w} : Arena K L → Thread K L α → Arena K L → Thread K L α → Prop where
  | load {a i k c} : a.getById i = some c → TStep a (.run (.load i k)) a (.run (k c))
  | loadMissing {a i k} : a.getById i = none → TStep a (.run (.load i k)) a .panicked
  | hit {a c k i} : a.getByNode c = some i → TStep a (.run (.intern c k)) a (.run (k i))
  | miss {a c k} : a.getByNode c = none → TStep a (.run (.intern c k)) a (.missed c k)
  | add {a c k} : TStep a (.missed c k) (a.add c).1 (.run (k (a.add c).2))
  | panic {a} : TStep a (.run .panic) a .panicked
  | addDirect {a c k} : TStep a (.run (.intern c k)) (a.add c).1 (.run (k (a.add c).2))

/-- The machine: the shared arena and all threads, each with its own result type.
Not code: used to state or prove properties. -/
structure Machine (K : Type u) (L : Type v) (α : Nat → Type w) where
  arena : Arena K L
  threads : (t : Nat) → Thread K L (α t)

/-- Some thread makes a step.  Not code: used to state or prove properties. -/
inductive MStep {α : Nat → Type w} : Machine K L α → Machine K L α → Prop where
  | step {m : Machine K L α} (t : Nat) {a' : Arena K L} {th' : Thread K L (α t)} :
      TStep m.arena (m.threads t) a' th' →
      MStep m { arena := a', threads := Function.update m.threads t th' }

/-- Any number of steps under any schedule.  Not code: used to state or prove properties. -/
inductive MRun {α : Nat → Type w} : Machine K L α → Machine K L α → Prop where
  | nil (m) : MRun m m
  | cons {m m' m''} : MStep m m' → MRun m' m'' → MRun m m''

/-! ## The logic -/

/-- What other threads may have done meanwhile: the arena stays well formed and keeps every node.
Not code: used to state or prove properties. -/
structure Ext (a b : Arena K L) : Prop where
  left : a.Inv
  right : b.Inv
  keep : ∀ i c, a.getById i = some c → b.getById i = some c

theorem Ext.refl {a : Arena K L} (h : a.Inv) : Ext a a := ⟨h, h, fun _ _ h => h⟩

theorem Ext.trans {a b c : Arena K L} (h1 : Ext a b) (h2 : Ext b c) : Ext a c :=
  ⟨h1.left, h2.right, fun i x h => h2.keep i x (h1.keep i x h)⟩

/-- The children of the node are ids of the arena.  Not code: used to state or prove properties. -/
def InRange (a : Arena K L) : Cell K L → Prop
  | .leaf _ => True
  | .branch _ lo hi => lo < a.nodes.length ∧ hi < a.nodes.length

theorem Ext.length {a b : Arena K L} (h : Ext a b) {i : Nat} (hi : i < a.nodes.length) :
    i < b.nodes.length := by
  have := h.keep i _ (show a.getById i = some a.nodes[i] from List.getElem?_eq_getElem hi)
  by_contra hh
  rw [Arena.getById, List.getElem?_eq_none (by omega)] at this
  cases this

theorem InRange.mono {a b : Arena K L} (h : Ext a b) {c : Cell K L} (hc : InRange a c) :
    InRange b c := by
  cases c with
  | leaf l => trivial
  | branch k lo hi => exact ⟨h.length hc.1, h.length hc.2⟩

/-- The program, started now and interleaved with any well-behaved others, neither loads a missing node
nor spins, and ends with a result satisfying `Q`.  Not code: used to state or prove properties. -/
def wp {α : Type w} : Prog K L α → Arena K L → (Arena K L → α → Prop) → Prop
  | .ret x, a, Q => Q a x
  | .load i k, a, Q => ∃ c, a.getById i = some c ∧ ∀ b, Ext a b → wp (k c) b Q
  | .intern c k, a, Q => InRange a c ∧ ∀ b i, Ext a b → b.getById i = some c → wp (k i) b Q
  | .panic, _, _ => False
  | .spin, _, _ => False

theorem wp_bind {α : Type w} {β : Type w'} (p : Prog K L α) (f : α → Prog K L β) (a : Arena K L)
    (Q : Arena K L → β → Prop) : wp (p.bind f) a Q ↔ wp p a (fun b x => wp (f x) b Q) := by
  induction p generalizing a with
  | ret x => rfl
  | load i k ih => simp only [Prog.bind, wp, ih]
  | intern c k ih => simp only [Prog.bind, wp, ih]
  | panic => rfl
  | spin => rfl

theorem wp_imp {α : Type w} {p : Prog K L α} {a : Arena K L} {Q R : Arena K L → α → Prop}
    (h : wp p a Q) (hi : ∀ b x, Q b x → R b x) : wp p a R := by
  induction p generalizing a with
  | ret x => exact hi _ _ h
  | load i k ih =>
    obtain ⟨c, hc, hk⟩ := h
    exact ⟨c, hc, fun b hb => ih c (hk b hb)⟩
  | intern c k ih => exact ⟨h.1, fun b i hb hi' => ih i (h.2 b i hb hi')⟩
  | panic => exact h
  | spin => exact h

/-- A postcondition other threads cannot invalidate.  Not code: used to state or prove properties. -/
def Stable {α : Type w} (Q : Arena K L → α → Prop) : Prop := ∀ a b x, Ext a b → Q a x → Q b x

theorem wp_mono {α : Type w} {p : Prog K L α} {a b : Arena K L} {Q : Arena K L → α → Prop}
    (hQ : Stable Q) (h : wp p a Q) (hab : Ext a b) : wp p b Q := by
  cases p with
  | ret x => exact hQ a b x hab h
  | load i k =>
    obtain ⟨c, hc, hk⟩ := h
    exact ⟨c, hab.keep _ _ hc, fun d hd => hk d (hab.trans hd)⟩
  | intern c k =>
    exact ⟨h.1.mono hab, fun d i hd hi => h.2 d i (hab.trans hd) hi⟩
  | panic => exact h
  | spin => exact h

/-- The logic for a thread state.  Not code: used to state or prove properties. -/
def wpT {α : Type w} : Thread K L α → Arena K L → (Arena K L → α → Prop) → Prop
  | .run p, a, Q => wp p a Q
  | .missed c k, a, Q => wp (.intern c k) a Q
  | .panicked, _, _ => False

theorem wpT_mono {α : Type w} {th : Thread K L α} {a b : Arena K L} {Q : Arena K L → α → Prop}
    (hQ : Stable Q) (h : wpT th a Q) (hab : Ext a b) : wpT th b Q := by
  cases th with
  | run p => exact wp_mono hQ h hab
  | missed c k => exact wp_mono hQ h hab
  | panicked => exact h

theorem add_ext {a : Arena K L} (h : a.Inv) (c : Cell K L) : Ext a (a.add c).1 :=
  ⟨h, add_inv h c, fun i d hd => add_mono a c hd⟩

theorem tstep_ok {α : Type w} {a a' : Arena K L} {th th' : Thread K L α}
    {Q : Arena K L → α → Prop} (h : TStep a th a' th') (hI : a.Inv) (hw : wpT th a Q) :
    Ext a a' ∧ wpT th' a' Q := by
  cases h with
  | load hc =>
    obtain ⟨d, hd, hk⟩ := hw
    rw [hc] at hd; cases hd
    exact ⟨Ext.refl hI, hk _ (Ext.refl hI)⟩
  | loadMissing hc =>
    obtain ⟨d, hd, _⟩ := hw
    rw [hc] at hd; cases hd
  | hit hi =>
    exact ⟨Ext.refl hI, hw.2 _ _ (Ext.refl hI) ((hI.index _ _).1 hi)⟩
  | miss hc => exact ⟨Ext.refl hI, hw⟩
  | panic => exact hw.elim
  | @add c k =>
    have he := add_ext hI c
    exact ⟨he, hw.2 _ _ he (add_getById hI.index _)⟩
  | @addDirect c k =>
    have he := add_ext hI c
    exact ⟨he, hw.2 _ _ he (add_getById hI.index _)⟩

/-- Whatever a thread does — also one that panics, or that interns nodes with children that are not there — the
arena stays well formed and keeps every node. -/
theorem tstep_ext {α : Type w} {a a' : Arena K L} {th th' : Thread K L α} (h : TStep a th a' th') (hI : a.Inv) :
    Ext a a' := by
  cases h with
  | add => exact add_ext hI _
  | addDirect => exact add_ext hI _
  | _ => exact Ext.refl hI

/-- Soundness of the logic for one step of the machine, of which only the threads in `G` are verified. -/
theorem mstep_among {α : Nat → Type w} {m m' : Machine K L α} {G : Nat → Prop}
    {Q : (t : Nat) → Arena K L → α t → Prop} (hQ : ∀ t, G t → Stable (Q t)) (h : MStep m m')
    (hI : m.arena.Inv) (hw : ∀ t, G t → wpT (m.threads t) m.arena (Q t)) :
    Ext m.arena m'.arena ∧ ∀ t, G t → wpT (m'.threads t) m'.arena (Q t) := by
  cases h with
  | step t hs =>
    have he := tstep_ext hs hI
    refine ⟨he, fun s hg => ?_⟩
    by_cases e : s = t
    · subst e
      simpa using (tstep_ok hs hI (hw s hg)).2
    · simp only [Function.update_of_ne e]
      exact wpT_mono (hQ s hg) (hw s hg) he

/-- Soundness of the logic for one step of the machine. -/
theorem mstep_ok {α : Nat → Type w} {m m' : Machine K L α}
    {Q : (t : Nat) → Arena K L → α t → Prop} (hQ : ∀ t, Stable (Q t)) (h : MStep m m')
    (hI : m.arena.Inv) (hw : ∀ t, wpT (m.threads t) m.arena (Q t)) :
    Ext m.arena m'.arena ∧ ∀ t, wpT (m'.threads t) m'.arena (Q t) := by
  have := mstep_among (G := fun _ => True) (fun t _ => hQ t) h hI fun t _ => hw t
  exact ⟨this.1, fun t => this.2 t trivial⟩

theorem mrun_among {α : Nat → Type w} {m m' : Machine K L α} {G : Nat → Prop}
    {Q : (t : Nat) → Arena K L → α t → Prop} (hQ : ∀ t, G t → Stable (Q t)) (h : MRun m m')
    (hI : m.arena.Inv) (hw : ∀ t, G t → wpT (m.threads t) m.arena (Q t)) :
    Ext m.arena m'.arena ∧ ∀ t, G t → wpT (m'.threads t) m'.arena (Q t) := by
  induction h with
  | nil => exact ⟨Ext.refl hI, hw⟩
  | cons h1 _ ih =>
    obtain ⟨he, hw'⟩ := mstep_among hQ h1 hI hw
    obtain ⟨he', hw''⟩ := ih he.right hw'
    exact ⟨he.trans he', hw''⟩

theorem mrun_ok {α : Nat → Type w} {m m' : Machine K L α}
    {Q : (t : Nat) → Arena K L → α t → Prop} (hQ : ∀ t, Stable (Q t)) (h : MRun m m')
    (hI : m.arena.Inv) (hw : ∀ t, wpT (m.threads t) m.arena (Q t)) :
    Ext m.arena m'.arena ∧ ∀ t, wpT (m'.threads t) m'.arena (Q t) := by
  have := mrun_among (G := fun _ => True) (fun t _ => hQ t) h hI fun t _ => hw t
  exact ⟨this.1, fun t => this.2 t trivial⟩

theorem tstep_sound {α : Type w} {a a' : Arena K L} {th th' : Thread K L α}
    {Q : Arena K L → α → Prop} (h : TStep a th a' th') (hS : a.Sound) (hw : wpT th a Q) : a'.Sound := by
  cases h with
  | @add c k =>
    refine add_sound hS fun k lo hi e => ?_
    have := hw.1
    rw [e] at this
    exact this
  | @addDirect c k =>
    refine add_sound hS fun k lo hi e => ?_
    have := hw.1
    rw [e] at this
    exact this
  | _ => exact hS

/-- With every thread verified, children also stay before parents. -/
theorem mrun_sound {α : Nat → Type w} {m m' : Machine K L α}
    {Q : (t : Nat) → Arena K L → α t → Prop} (hQ : ∀ t, Stable (Q t)) (h : MRun m m')
    (hS : m.arena.Sound) (hw : ∀ t, wpT (m.threads t) m.arena (Q t)) : m'.arena.Sound := by
  induction h with
  | nil => exact hS
  | cons h1 _ ih =>
    refine ih ?_ (fun t => (mstep_among (G := fun _ => True) (fun t _ => hQ t) h1 hS.toInv fun t _ => hw t).2 t trivial)
    cases h1 with
    | step t hs => exact tstep_sound hs hS (hw t)

/-- What the logic means: start threads of which those in `G` are verified, the others running anything at all;
after any number of steps under any schedule no thread in `G` has panicked or is spinning, and every one that has
finished satisfies its postcondition.  Moreover every unfinished one can make a step. -/
theorem among_sound {α : Nat → Type w} {m m' : Machine K L α} {G : Nat → Prop}
    {Q : (t : Nat) → Arena K L → α t → Prop} (hQ : ∀ t, G t → Stable (Q t)) (h : MRun m m')
    (hI : m.arena.Inv) (hw : ∀ t, G t → wpT (m.threads t) m.arena (Q t)) (t : Nat) (hg : G t) :
    m'.threads t ≠ .panicked ∧ (∀ x, m'.threads t = .run (.ret x) → Q t m'.arena x) ∧
    ((∃ x, m'.threads t = .run (.ret x)) ∨ ∃ a th, TStep m'.arena (m'.threads t) a th) := by
  obtain ⟨he, hw'⟩ := mrun_among hQ h hI hw
  have ht := hw' t hg
  refine ⟨fun e => by rw [e] at ht; exact ht, fun x e => by rw [e] at ht; exact ht, ?_⟩
  generalize m'.threads t = th at ht
  cases th with
  | panicked => exact ht.elim
  | missed c k => exact Or.inr ⟨_, _, .add⟩
  | run p =>
    cases p with
    | ret x => exact Or.inl ⟨x, rfl⟩
    | load i k =>
      obtain ⟨c, hc, _⟩ := ht
      exact Or.inr ⟨_, _, .load hc⟩
    | intern c k => exact Or.inr ⟨_, _, .addDirect⟩
    | panic => exact ht.elim
    | spin => exact ht.elim

/-- What the logic means when every thread is verified: after any number of steps under any schedule no thread has
panicked or is spinning, and every thread that has finished satisfies its postcondition.  Moreover every
unfinished thread can make a step. -/
theorem schedules_sound {α : Nat → Type w} {m m' : Machine K L α}
    {Q : (t : Nat) → Arena K L → α t → Prop} (hQ : ∀ t, Stable (Q t)) (h : MRun m m')
    (hI : m.arena.Inv) (hw : ∀ t, wpT (m.threads t) m.arena (Q t)) (t : Nat) :
    m'.threads t ≠ .panicked ∧ (∀ x, m'.threads t = .run (.ret x) → Q t m'.arena x) ∧
    ((∃ x, m'.threads t = .run (.ret x)) ∨ ∃ a th, TStep m'.arena (m'.threads t) a th) :=
  among_sound (G := fun _ => True) (fun t _ => hQ t) h hI (fun t _ => hw t) t trivial

/-- A thread can only make finitely many steps of its own, whatever the others do in between. -/
theorem steps_finite {α : Type w} :
    WellFounded (fun (th' th : Thread K L α) => ∃ a a', TStep a th a' th') := by
  have hp : Acc (fun (th' th : Thread K L α) => ∃ a a', TStep a th a' th') Thread.panicked :=
    ⟨_, fun _ ⟨_, _, h⟩ => by cases h⟩
  have hr : ∀ p : Prog K L α, Acc (fun (th' th : Thread K L α) => ∃ a a', TStep a th a' th') (.run p) := by
    intro p
    induction p with
    | ret x => exact ⟨_, fun _ ⟨_, _, h⟩ => by cases h⟩
    | spin => exact ⟨_, fun _ ⟨_, _, h⟩ => by cases h⟩
    | panic => exact ⟨_, fun _ ⟨_, _, h⟩ => by cases h; exact hp⟩
    | load i k ih =>
      refine ⟨_, fun th ⟨_, _, h⟩ => ?_⟩
      cases h with
      | load hc => exact ih _
      | loadMissing hc => exact hp
    | intern c k ih =>
      refine ⟨_, fun th ⟨_, _, h⟩ => ?_⟩
      cases h with
      | hit hc => exact ih _
      | addDirect => exact ih _
      | miss hc =>
        refine ⟨_, fun th ⟨_, _, h⟩ => ?_⟩
        cases h with
        | add => exact ih _
  refine ⟨fun th => ?_⟩
  cases th with
  | panicked => exact hp
  | run p => exact hr p
  | missed c k =>
    refine ⟨_, fun th ⟨_, _, h⟩ => ?_⟩
    cases h with
    | add => exact hr _

/-- Thread `t` makes a step.  Not code: used to state or prove properties. -/
def StepBy {α : Nat → Type w} (t : Nat) (m m' : Machine K L α) : Prop :=
  TStep m.arena (m.threads t) m'.arena (m'.threads t) ∧ ∀ s, s ≠ t → m'.threads s = m.threads s

theorem mstep_iff {α : Nat → Type w} {m m' : Machine K L α} : MStep m m' ↔ ∃ t, StepBy t m m' := by
  constructor
  · rintro ⟨t, h⟩
    exact ⟨t, by simpa using h, fun s hs => Function.update_of_ne hs _ _⟩
  · rintro ⟨t, h, hs⟩
    have e : m' = { arena := m'.arena, threads := Function.update m.threads t (m'.threads t) } := by
      cases m'
      congr
      funext s
      by_cases e : s = t
      · subst e; simp
      · rw [Function.update_of_ne e]; exact hs s e
    rw [e]
    exact .step t h

/-- In every infinite execution, under every schedule, each thread makes only finitely many steps: no
thread retries for ever because of what the others do. -/
theorem no_livelock {α : Nat → Type w} (σ : Nat → Machine K L α) (who : Nat → Nat)
    (h : ∀ k, StepBy (who k) (σ k) (σ (k + 1))) (t : Nat) : {k | who k = t}.Finite := by
  have key : ∀ th : Thread K L (α t), ∀ k, (σ k).threads t = th →
      ∃ N, ∀ j ≥ k, who j = t → j < N := by
    intro th
    have wf := steps_finite (K := K) (L := L) (α := α t)
    apply wf.induction th
    · intro th ih
      intro k hk
      by_cases hj : ∃ j, j ≥ k ∧ who j = t
      · classical
        have hsame : ∀ j, k ≤ j → j ≤ Nat.find hj → (σ j).threads t = th := by
          intro j hkj
          induction j, hkj using Nat.le_induction with
          | base => intro _; exact hk
          | succ j hkj ihj =>
            intro hle
            have hne : who j ≠ t := fun e => Nat.find_min hj (by omega) ⟨hkj, e⟩
            rw [(h j).2 t (Ne.symm hne)]
            exact ihj (by omega)
        obtain ⟨hk', he⟩ := Nat.find_spec hj
        have hs := h (Nat.find hj)
        rw [he] at hs
        have hstep := hs.1
        rw [hsame _ hk' le_rfl] at hstep
        obtain ⟨N, hN⟩ := ih _ ⟨_, _, hstep⟩ (Nat.find hj + 1) rfl
        refine ⟨max N (Nat.find hj + 1), fun j hjk hw => ?_⟩
        by_cases hlt : j < Nat.find hj + 1
        · exact lt_of_lt_of_le hlt (le_max_right _ _)
        · exact lt_of_lt_of_le (hN j (by omega) hw) (le_max_left _ _)
      · exact ⟨0, fun j hjk hw => absurd ⟨j, hjk, hw⟩ hj⟩
  obtain ⟨N, hN⟩ := key _ 0 rfl
  exact Set.Finite.subset (Set.finite_lt_nat N) (fun k hk => hN k (Nat.zero_le k) hk)

theorem MRun.trans {α : Nat → Type w} {m m' m'' : Machine K L α} (h : MRun m m') (h' : MRun m' m'') :
    MRun m m'' := by
  induction h with
  | nil => exact h'
  | cons h1 _ ih => exact .cons h1 (ih h')

/-- From every state reached under any schedule, every verified thread can finish on its own, the others (whatever
they run) standing still: no thread waits for another. -/
theorem among_finish {α : Nat → Type w} {m m' : Machine K L α} {G : Nat → Prop}
    {Q : (t : Nat) → Arena K L → α t → Prop} (hQ : ∀ t, G t → Stable (Q t)) (h : MRun m m')
    (hI : m.arena.Inv) (hw : ∀ t, G t → wpT (m.threads t) m.arena (Q t)) (t : Nat) (hg : G t) :
    ∃ m'', MRun m' m'' ∧ (∀ s, s ≠ t → m''.threads s = m'.threads s) ∧
      ∃ x, m''.threads t = .run (.ret x) := by
  have key : ∀ th : Thread K L (α t), ∀ m', MRun m m' → m'.threads t = th →
      ∃ m'', MRun m' m'' ∧ (∀ s, s ≠ t → m''.threads s = m'.threads s) ∧
      ∃ x, m''.threads t = .run (.ret x) := by
    intro th
    have wf := steps_finite (K := K) (L := L) (α := α t)
    apply wf.induction th
    · intro th ih
      intro m' hm e
      rcases (among_sound hQ hm hI hw t hg).2.2 with hd | ⟨a, th', hs⟩
      · exact ⟨m', .nil _, fun _ _ => rfl, hd⟩
      · have hst : MStep m' { arena := a, threads := Function.update m'.threads t th' } := .step t hs
        rw [e] at hs
        obtain ⟨m2, r2, k2, d2⟩ := ih th' ⟨_, _, hs⟩ _ (hm.trans (.cons hst (.nil _))) (by simp)
        refine ⟨m2, .cons hst r2, fun s hne => ?_, d2⟩
        rw [k2 s hne]
        exact Function.update_of_ne hne _ _
  exact key _ m' h rfl

/-- From every state reached under any schedule, every thread can finish on its own, the others standing
still: no thread waits for another. -/
theorem can_finish {α : Nat → Type w} {m m' : Machine K L α}
    {Q : (t : Nat) → Arena K L → α t → Prop} (hQ : ∀ t, Stable (Q t)) (h : MRun m m')
    (hI : m.arena.Inv) (hw : ∀ t, wpT (m.threads t) m.arena (Q t)) (t : Nat) :
    ∃ m'', MRun m' m'' ∧ (∀ s, s ≠ t → m''.threads s = m'.threads s) ∧
      ∃ x, m''.threads t = .run (.ret x) :=
  among_finish (G := fun _ => True) (fun t _ => hQ t) h hI (fun t _ => hw t) t trivial

/-! ## Denotations -/

theorem Unfolds.mono {a b : Arena K L} (h : Ext a b) {i : Nat} {t : Tr K L} (hu : Unfolds a i t) :
    Unfolds b i t := by
  induction hu with
  | leaf hg => exact .leaf (h.keep _ _ hg)
  | branch hg _ _ ih1 ih2 => exact .branch (h.keep _ _ hg) ih1 ih2

/-- The diagram a node value (as opposed to an id) denotes.  Not code: used to state or prove properties. -/
def CellDen (a : Arena K L) : Cell K L → Tr K L → Prop
  | .leaf l, t => t = .leaf l
  | .branch k lo hi, t => ∃ tl th, t = .branch k tl th ∧ Unfolds a lo tl ∧ Unfolds a hi th

theorem CellDen.mono {a b : Arena K L} (h : Ext a b) {c : Cell K L} {t : Tr K L}
    (hc : CellDen a c t) : CellDen b c t := by
  cases c with
  | leaf l => exact hc
  | branch k lo hi =>
    obtain ⟨tl, th, e, h1, h2⟩ := hc
    exact ⟨tl, th, e, h1.mono h, h2.mono h⟩

theorem Unfolds.lt {a : Arena K L} {i : Nat} {t : Tr K L} (h : Unfolds a i t) :
    i < a.nodes.length := by
  have : ∃ c, a.getById i = some c := by
    cases h with
    | leaf hg => exact ⟨_, hg⟩
    | branch hg _ _ => exact ⟨_, hg⟩
  obtain ⟨c, hc⟩ := this
  by_contra hh
  rw [Arena.getById, List.getElem?_eq_none (by omega)] at hc
  cases hc

theorem CellDen.inRange {a : Arena K L} {c : Cell K L} {t : Tr K L} (h : CellDen a c t) :
    InRange a c := by
  cases c with
  | leaf l => trivial
  | branch k lo hi =>
    obtain ⟨tl, th, _, h1, h2⟩ := h
    exact ⟨h1.lt, h2.lt⟩

theorem unfolds_iff {a : Arena K L} {i : Nat} {t : Tr K L} :
    Unfolds a i t ↔ ∃ c, a.getById i = some c ∧ CellDen a c t := by
  constructor
  · intro h
    cases h with
    | leaf hg => exact ⟨_, hg, rfl⟩
    | branch hg h1 h2 => exact ⟨_, hg, _, _, rfl, h1, h2⟩
  · rintro ⟨c, hg, hc⟩
    cases c with
    | leaf l => cases hc; exact .leaf hg
    | branch k lo hi =>
      obtain ⟨tl, th, rfl, h1, h2⟩ := hc
      exact .branch hg h1 h2

/-- Equality of node values decides equality of diagrams. -/
theorem cell_eq_iff {a : Arena K L} (hi : a.Inv) {c d : Cell K L} {t s : Tr K L}
    (hc : CellDen a c t) (hd : CellDen a d s) : c = d ↔ t = s := by
  constructor
  · rintro rfl
    cases c with
    | leaf l => exact hc.trans hd.symm
    | branch k lo hi' =>
      obtain ⟨tl, th, rfl, h1, h2⟩ := hc
      obtain ⟨sl, sh, rfl, h3, h4⟩ := hd
      rw [unfolds_fun h1 h3, unfolds_fun h2 h4]
  · rintro rfl
    cases c with
    | leaf l =>
      cases hc
      cases d with
      | leaf l' => cases hd; rfl
      | branch k' lo' hi'' => obtain ⟨_, _, e, _⟩ := hd; cases e
    | branch k lo hi' =>
      obtain ⟨tl, th, rfl, h1, h2⟩ := hc
      cases d with
      | leaf l' => cases hd
      | branch k' lo' hi'' =>
        obtain ⟨sl, sh, e, h3, h4⟩ := hd
        cases e
        rw [unfolds_inj hi h1 h3, unfolds_inj hi h2 h4]

/-- The program, run next to anything, ends with a result satisfying `R`.
Not code: used to state or prove properties. -/
def Yields {α : Type w} (p : Prog K L α) (a : Arena K L) (R : Arena K L → α → Prop) : Prop :=
  wp p a (fun b x => Ext a b ∧ R b x)

/-- The program, run next to anything, returns a node denoting `t`.
Not code: used to state or prove properties. -/
def Returns (p : Prog K L (Cell K L)) (a : Arena K L) (t : Tr K L) : Prop :=
  Yields p a (fun b c => CellDen b c t)

theorem stable_den (t : Tr K L) : Stable (fun (b : Arena K L) c => CellDen b c t) :=
  fun _ _ _ h hc => hc.mono h

/-! ### Rules -/

theorem wp_load {α : Type w} {i : Nat} {k : Cell K L → Prog K L α} {a : Arena K L}
    {Q : Arena K L → α → Prop} {t : Tr K L} (hu : Unfolds a i t)
    (h : ∀ b c, Ext a b → CellDen b c t → wp (k c) b Q) : wp (.load i k) a Q := by
  obtain ⟨c, hc, hd⟩ := unfolds_iff.1 hu
  exact ⟨c, hc, fun b hb => h b c hb (hd.mono hb)⟩

theorem wp_intern {α : Type w} {c : Cell K L} {k : Nat → Prog K L α} {a : Arena K L}
    {Q : Arena K L → α → Prop} {t : Tr K L} (hd : CellDen a c t)
    (h : ∀ b i, Ext a b → Unfolds b i t → wp (k i) b Q) : wp (.intern c k) a Q :=
  ⟨hd.inRange, fun b i hb hi => h b i hb (unfolds_iff.2 ⟨c, hi, hd.mono hb⟩)⟩

theorem wp_call {α : Type w} {p : Prog K L (Cell K L)} {k : Cell K L → Prog K L α} {a : Arena K L}
    {Q : Arena K L → α → Prop} {t : Tr K L} (hp : Returns p a t)
    (h : ∀ b c, Ext a b → CellDen b c t → wp (k c) b Q) : wp (p.bind k) a Q := by
  rw [wp_bind]
  exact wp_imp hp (fun b c hb => h b c hb.1 hb.2)

theorem Returns.ret {a : Arena K L} (hI : a.Inv) {c : Cell K L} {t : Tr K L} (h : CellDen a c t) :
    Returns (.ret c) a t := ⟨Ext.refl hI, h⟩

theorem returns_load {i : Nat} {k : Cell K L → Prog K L (Cell K L)} {a : Arena K L}
    {t s : Tr K L} (hu : Unfolds a i t)
    (h : ∀ b c, Ext a b → CellDen b c t → Returns (k c) b s) : Returns (.load i k) a s :=
  wp_load hu (fun b c hb hc => wp_imp (h b c hb hc) (fun _ _ hx => ⟨hb.trans hx.1, hx.2⟩))

theorem returns_intern {c : Cell K L} {k : Nat → Prog K L (Cell K L)} {a : Arena K L}
    {t s : Tr K L} (hd : CellDen a c t)
    (h : ∀ b i, Ext a b → Unfolds b i t → Returns (k i) b s) : Returns (.intern c k) a s :=
  wp_intern hd (fun b c hb hc => wp_imp (h b c hb hc) (fun _ _ hx => ⟨hb.trans hx.1, hx.2⟩))

theorem returns_call {p : Prog K L (Cell K L)} {k : Cell K L → Prog K L (Cell K L)}
    {a : Arena K L} {t s : Tr K L} (hp : Returns p a t)
    (h : ∀ b c, Ext a b → CellDen b c t → Returns (k c) b s) : Returns (p.bind k) a s :=
  wp_call hp (fun b c hb hc => wp_imp (h b c hb hc) (fun _ _ hx => ⟨hb.trans hx.1, hx.2⟩))

theorem Yields.ret {α : Type w} {a : Arena K L} (hI : a.Inv) {x : α} {R : Arena K L → α → Prop}
    (h : R a x) : Yields (.ret x) a R := ⟨Ext.refl hI, h⟩

theorem yields_load {α : Type w} {i : Nat} {k : Cell K L → Prog K L α} {a : Arena K L}
    {t : Tr K L} {R : Arena K L → α → Prop} (hu : Unfolds a i t)
    (h : ∀ b c, Ext a b → CellDen b c t → Yields (k c) b R) : Yields (.load i k) a R :=
  wp_load hu (fun b c hb hc => wp_imp (h b c hb hc) (fun _ _ hx => ⟨hb.trans hx.1, hx.2⟩))

theorem yields_intern {α : Type w} {c : Cell K L} {k : Nat → Prog K L α} {a : Arena K L}
    {t : Tr K L} {R : Arena K L → α → Prop} (hd : CellDen a c t)
    (h : ∀ b i, Ext a b → Unfolds b i t → Yields (k i) b R) : Yields (.intern c k) a R :=
  wp_intern hd (fun b c hb hc => wp_imp (h b c hb hc) (fun _ _ hx => ⟨hb.trans hx.1, hx.2⟩))

theorem yields_bind {α : Type w} {β : Type w'} {p : Prog K L α} {k : α → Prog K L β}
    {a : Arena K L} {R : Arena K L → α → Prop} {S : Arena K L → β → Prop} (hp : Yields p a R)
    (h : ∀ b x, Ext a b → R b x → Yields (k x) b S) : Yields (p.bind k) a S := by
  rw [Yields, wp_bind]
  exact wp_imp hp (fun b c hb => wp_imp (h b c hb.1 hb.2) (fun _ _ hx => ⟨hb.1.trans hx.1, hx.2⟩))

theorem Yields.imp {α : Type w} {p : Prog K L α} {a : Arena K L} {R S : Arena K L → α → Prop}
    (hp : Yields p a R) (h : ∀ b x, R b x → S b x) : Yields p a S :=
  wp_imp hp (fun b x hx => ⟨hx.1, h b x hx.2⟩)

theorem CellDen.branch_inv {a : Arena K L} {c : Cell K L} {k : K} {tl th : Tr K L}
    (h : CellDen a c (.branch k tl th)) :
    ∃ lo hi, c = .branch k lo hi ∧ Unfolds a lo tl ∧ Unfolds a hi th := by
  cases c with
  | leaf l => cases h
  | branch k' lo hi =>
    obtain ⟨_, _, e, h1, h2⟩ := h
    cases e
    exact ⟨lo, hi, rfl, h1, h2⟩

theorem CellDen.leaf_inv {a : Arena K L} {c : Cell K L} {l : L} (h : CellDen a c (.leaf l)) :
    c = .leaf l := by
  cases c with
  | leaf l' => cases h; rfl
  | branch k' lo hi => obtain ⟨_, _, e, _⟩ := h; cases e

theorem CellDen.branch {a : Arena K L} {k : K} {lo hi : Nat} {tl th : Tr K L}
    (h1 : Unfolds a lo tl) (h2 : Unfolds a hi th) :
    CellDen a (.branch k lo hi) (.branch k tl th) := ⟨_, _, rfl, h1, h2⟩

/-- An argument of type `impl Into<NodeId>`: an id, or a node to be interned
(weave/src/zdd2/forest/node/mod.rs:67, bowtie-core/src/bdd/node/mod.rs:44). -/
inductive Arg (K : Type u) (L : Type v) where
  | id (i : Nat)
  | node (c : Cell K L)

/-- `.into()` on such an argument (weave/src/zdd2/forest/node/mod.rs:68-69). -/
def Arg.into {α : Type w} : Arg K L → (Nat → Prog K L α) → Prog K L α
  | .id i, k => k i
  | .node c, k => .intern c k

/-- The diagram an argument denotes.  Not code: used to state or prove properties. -/
def ArgDen (a : Arena K L) : Arg K L → Tr K L → Prop
  | .id i, t => Unfolds a i t
  | .node c, t => CellDen a c t

theorem ArgDen.id {a : Arena K L} {i : Nat} {t : Tr K L} (h : Unfolds a i t) : ArgDen a (.id i) t := h

theorem ArgDen.node {a : Arena K L} {c : Cell K L} {t : Tr K L} (h : CellDen a c t) :
    ArgDen a (.node c) t := h

theorem ArgDen.mono {a b : Arena K L} (h : Ext a b) {x : Arg K L} {t : Tr K L}
    (hc : ArgDen a x t) : ArgDen b x t := by
  cases x with
  | id i => exact Unfolds.mono h hc
  | node c => exact CellDen.mono h hc

theorem returns_into {x : Arg K L} {k : Nat → Prog K L (Cell K L)} {a : Arena K L}
    {t s : Tr K L} (hI : a.Inv) (hd : ArgDen a x t)
    (h : ∀ b i, Ext a b → Unfolds b i t → Returns (k i) b s) : Returns (x.into k) a s := by
  cases x with
  | id i => exact h a i (Ext.refl hI) hd
  | node c => exact returns_intern hd h

/-! ## Folds -/

/-- `Iterator::fold` with a body using the arena (bowtie-core/src/bdd/closet_builder/mod.rs:78,
weave/src/zdd/tree/universe.rs:55, 63, 69). -/
def foldP {β : Type w} {γ : Type w'} (step : γ → β → Prog K L γ) : List β → γ → Prog K L γ
  | [], acc => .ret acc
  | e :: es, acc => (step acc e).bind fun acc => foldP step es acc

/-- Folding preserves a stable relation between what the program computes and what the model computes;
`env` is what the body captured. -/
theorem fold_ok {β : Type w} {γ : Type w'} {δ : Type x} {ρ : Type y}
    (step : Nat → ρ → γ → β → Prog K L γ) (g : δ → β → δ)
    (Ctx : Arena K L → ρ → Prop) (R : Arena K L → γ → δ → Prop)
    (hC : ∀ a b r, Ext a b → Ctx a r → Ctx b r)
    (hs : ∀ d e, ∃ F, ∀ f ≥ F, ∀ a env acc, a.Inv → Ctx a env → R a acc d →
      Yields (step f env acc e) a (fun b r => R b r (g d e))) (es : List β) (d : δ) :
    ∃ F, ∀ f ≥ F, ∀ a env acc, a.Inv → Ctx a env → R a acc d →
      Yields (foldP (step f env) es acc) a (fun b r => R b r (es.foldl g d)) := by
  induction es generalizing d with
  | nil => exact ⟨0, fun f _ a env acc hI _ hc => Yields.ret hI hc⟩
  | cons e es ih =>
    obtain ⟨F1, h1⟩ := hs d e
    obtain ⟨F2, h2⟩ := ih (g d e)
    refine ⟨F1 + F2, fun f hf a env acc hI hx hc => ?_⟩
    rw [foldP]
    refine yields_bind (h1 f (by omega) a env acc hI hx hc) fun b c' e' d => ?_
    exact h2 f (by omega) b env c' e'.right (hC _ _ _ e' hx) d

end Verif.Arena
