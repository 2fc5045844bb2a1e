import Verif.ArenaForest
import Verif.ArenaBdd
import Verif.ArenaZdd1

/-!
# The arena lock, step by step (C83)

`ArenaProg` lets a thread do each critical section in one step.  Here the sections are taken apart the way the
code does them: create the arena on first use, acquire the `RwLock` for reading or for writing, read the map or
the vector, ask the map for the entry, push onto the vector, insert into the map, drop the guard — with other
threads running in between.  The machine is shown to do nothing that the one-step machine cannot do, never to
deadlock, whichever waiting thread the lock admits first, and to come to an end.
-/

set_option linter.dupNamespace false
set_option linter.unusedSectionVars false
set_option linter.unusedVariables false
set_option linter.unusedSimpArgs false

namespace Verif.Arena

universe u v w
variable {K : Type u} {L : Type v} [DecidableEq K] [DecidableEq L]

/-- Where a thread is.  `From<Node> for NodeId` and `From<NodeId> for Node` (weave/src/zdd2/forest/node/mod.rs:127-152,
weave/src/zdd/node/mod.rs:62-80, bowtie-core/src/bdd/node/arena.rs:47-60) and `add`
(weave/src/zdd2/forest/node/arena.rs:27-37). -/
inductive FThread (K : Type u) (L : Type v) (α : Type w) where
  /-- holds no guard -/
  | out (th : Thread K L α)
  /-- is running the initialiser of the `lazy_static` (bowtie-core/src/bdd/node/arena.rs:7-14) -/
  | initing (th : Thread K L α)
  /-- holds a read guard, about to call `get_by_id` -/
  | rdLoad (i : Nat) (k : Cell K L → Prog K L α)
  /-- holds a read guard, about to call `get_by_node` -/
  | rdLook (c : Cell K L) (k : Nat → Prog K L α)
  /-- holds a read guard that is about to be dropped -/
  | rdDone (th : Thread K L α)
  /-- holds the write guard, about to call `node_index.entry` -/
  | wrEntry (c : Cell K L) (k : Nat → Prog K L α)
  /-- holds the write guard and a vacant entry, about to push -/
  | wrVacant (c : Cell K L) (k : Nat → Prog K L α)
  /-- holds the write guard, has pushed, about to insert `i` -/
  | wrPushed (c : Cell K L) (k : Nat → Prog K L α) (i : Nat)
  /-- holds the write guard that is about to be dropped -/
  | wrDone (th : Thread K L α)

/-- The state of `std::sync::Once` inside `lazy_static`: untouched, being run by a thread, finished
(bowtie-core/src/bdd/node/arena.rs:7-14, weave/src/zdd/node/mod.rs:95-100, weave/src/zdd2/forest/node/mod.rs:166-171). -/
inductive Once where
  | no
  | by (t : Nat)
  | done

/-- The global arena, the `Once` and the `RwLock` around it (the threads holding read guards, one entry per
guard, and the thread holding the write guard), and the threads: bowtie-core/src/bdd/node/arena.rs:7-14.
Poisoning is not modelled: nothing that can panic runs under a write guard. -/
structure FMachine (K : Type u) (L : Type v) (α : Nat → Type w) where
  arena : Arena K L
  once : Once
  readers : List Nat
  writer : Option Nat
  threads : (t : Nat) → FThread K L (α t)

/-- The thread's next step is to go for the lock.  Not code: used to state or prove properties. -/
def FThread.Waiting {α : Type w} : FThread K L α → Prop
  | .out (.run (.load _ _)) => True
  | .out (.run (.intern _ _)) => True
  | .out (.missed _ _) => True
  | _ => False

/-- The thread has its result.  Not code: used to state or prove properties. -/
def FThread.Finished {α : Type w} : FThread K L α → Prop
  | .out (.run (.ret _)) => True
  | _ => False

/-- One step of thread `t`.  With `direct` interning takes the write lock at once
(weave/src/zdd/node/mod.rs:62-67, bowtie-core/src/bdd/node/arena.rs:47-50); without, it looks under the read lock
first, drops that guard at the end of the block, and takes the write lock on a miss
(weave/src/zdd2/forest/node/mod.rs:127-138).  A read guard is granted when nobody writes, the write guard when
nobody holds any guard (`RwLock`).  `l0`, `l1` are the leaves of a new arena. -/
inductive FStep (direct : Bool) (l0 l1 : L) {α : Nat → Type w} (t : Nat) :
    FMachine K L α → FMachine K L α → Prop where
  | initBegin {m : FMachine K L α} {th} : m.threads t = .out th → m.once = .no → (FThread.out th).Waiting →
      FStep direct l0 l1 t m { m with once := .by t, threads := Function.update m.threads t (.initing th) }
  | initEnd {m : FMachine K L α} {th} : m.threads t = .initing th →
      FStep direct l0 l1 t m { m with arena := Arena.init l0 l1, once := .done, threads := Function.update m.threads t (.out th) }
  | loadAcq {m : FMachine K L α} {i k} : m.threads t = .out (.run (.load i k)) → m.once = .done → m.writer = none →
      FStep direct l0 l1 t m { m with readers := t :: m.readers, threads := Function.update m.threads t (.rdLoad i k) }
  | lookAcq {m : FMachine K L α} {c k} : direct = false → m.threads t = .out (.run (.intern c k)) → m.once = .done →
      m.writer = none →
      FStep direct l0 l1 t m { m with readers := t :: m.readers, threads := Function.update m.threads t (.rdLook c k) }
  | directAcq {m : FMachine K L α} {c k} : direct = true → m.threads t = .out (.run (.intern c k)) → m.once = .done →
      m.writer = none → m.readers = [] →
      FStep direct l0 l1 t m { m with writer := some t, threads := Function.update m.threads t (.wrEntry c k) }
  | addAcq {m : FMachine K L α} {c k} : m.threads t = .out (.missed c k) → m.once = .done →
      m.writer = none → m.readers = [] →
      FStep direct l0 l1 t m { m with writer := some t, threads := Function.update m.threads t (.wrEntry c k) }
  | loadHit {m : FMachine K L α} {i k c} : m.threads t = .rdLoad i k → m.arena.getById i = some c →
      FStep direct l0 l1 t m { m with threads := Function.update m.threads t (.rdDone (.run (k c))) }
  | loadMissing {m : FMachine K L α} {i k} : m.threads t = .rdLoad i k → m.arena.getById i = none →
      FStep direct l0 l1 t m { m with threads := Function.update m.threads t (.rdDone .panicked) }
  | lookHit {m : FMachine K L α} {c k i} : m.threads t = .rdLook c k → m.arena.getByNode c = some i →
      FStep direct l0 l1 t m { m with threads := Function.update m.threads t (.rdDone (.run (k i))) }
  | lookMiss {m : FMachine K L α} {c k} : m.threads t = .rdLook c k → m.arena.getByNode c = none →
      FStep direct l0 l1 t m { m with threads := Function.update m.threads t (.rdDone (.missed c k)) }
  | relRead {m : FMachine K L α} {th} : m.threads t = .rdDone th →
      FStep direct l0 l1 t m { m with readers := m.readers.erase t, threads := Function.update m.threads t (.out th) }
  | entryOcc {m : FMachine K L α} {c k i} : m.threads t = .wrEntry c k → m.arena.getByNode c = some i →
      FStep direct l0 l1 t m { m with threads := Function.update m.threads t (.wrDone (.run (k i))) }
  | entryVac {m : FMachine K L α} {c k} : m.threads t = .wrEntry c k → m.arena.getByNode c = none →
      FStep direct l0 l1 t m { m with threads := Function.update m.threads t (.wrVacant c k) }
  | push {m : FMachine K L α} {c k} : m.threads t = .wrVacant c k →
      FStep direct l0 l1 t m { m with
        arena := { nodes := m.arena.nodes ++ [c], index := m.arena.index },
        threads := Function.update m.threads t (.wrPushed c k m.arena.nodes.length) }
  | insert {m : FMachine K L α} {c k i} : m.threads t = .wrPushed c k i →
      FStep direct l0 l1 t m { m with
        arena := { nodes := m.arena.nodes, index := (c, i) :: m.arena.index },
        threads := Function.update m.threads t (.wrDone (.run (k i))) }
  | relWrite {m : FMachine K L α} {th} : m.threads t = .wrDone th →
      FStep direct l0 l1 t m { m with writer := none, threads := Function.update m.threads t (.out th) }
  | panic {m : FMachine K L α} : m.threads t = .out (.run .panic) →
      FStep direct l0 l1 t m { m with threads := Function.update m.threads t (.out .panicked) }

/-- Any number of steps by any threads.  Not code: used to state or prove properties. -/
inductive FRun (direct : Bool) (l0 l1 : L) {α : Nat → Type w} : FMachine K L α → FMachine K L α → Prop where
  | nil (m) : FRun direct l0 l1 m m
  | snoc {m m' m'' t} : FRun direct l0 l1 m m' → FStep direct l0 l1 t m' m'' → FRun direct l0 l1 m m''

/-- Process start: no arena yet, the lock free, every thread about to run its program
(bowtie-core/src/bdd/node/arena.rs:7-14). -/
def fstart {α : Nat → Type w} (ths : (t : Nat) → Thread K L (α t)) : FMachine K L α where
  arena := { nodes := [], index := [] }
  once := .no
  readers := []
  writer := none
  threads := fun t => .out (ths t)

/-! ## The invariant of the lock -/

/-- Not code: used to state or prove properties. -/
def FThread.Reads {α : Type w} : FThread K L α → Prop
  | .rdLoad _ _ => True
  | .rdLook _ _ => True
  | .rdDone _ => True
  | _ => False

/-- Not code: used to state or prove properties. -/
def FThread.Writes {α : Type w} : FThread K L α → Prop
  | .wrEntry _ _ => True
  | .wrVacant _ _ => True
  | .wrPushed _ _ _ => True
  | .wrDone _ => True
  | _ => False

/-- Not code: used to state or prove properties. -/
def FThread.Inits {α : Type w} : FThread K L α → Prop
  | .initing _ => True
  | _ => False

/-- Not code: used to state or prove properties. -/
structure Guards {α : Nat → Type w} (m : FMachine K L α) : Prop where
  reads : ∀ t, t ∈ m.readers ↔ (m.threads t).Reads
  nodup : m.readers.Nodup
  writes : ∀ t, m.writer = some t ↔ (m.threads t).Writes
  inits : ∀ t, (m.threads t).Inits ↔ m.once = .by t
  excl : m.writer = none ∨ m.readers = []
  early : m.once = .done ∨ (m.writer = none ∧ m.readers = [])

/-- What a thread inside a section looks like to the one-step machine.
Not code: used to state or prove properties. -/
def FThread.Looks {α : Type w} : FThread K L α → Thread K L α → Prop
  | .out th, x => x = th
  | .initing th, x => x = th
  | .rdLoad i k, x => x = .run (.load i k)
  | .rdLook c k, x => x = .run (.intern c k)
  | .rdDone th, x => x = th
  | .wrEntry c k, x => x = .run (.intern c k) ∨ x = .missed c k
  | .wrVacant c k, x => x = .run (.intern c k) ∨ x = .missed c k
  | .wrPushed c k _, x => x = .run (.intern c k) ∨ x = .missed c k
  | .wrDone th, x => x = th

/-- The arena `a` as the holder `th` of the write guard has it half-way; `b` is what it was before.
Not code: used to state or prove properties. -/
def Halfway {α : Type w} (a b : Arena K L) : FThread K L α → Prop
  | .wrVacant c _ => a = b ∧ b.getByNode c = none
  | .wrPushed c _ i => a = ⟨b.nodes ++ [c], b.index⟩ ∧ b.getByNode c = none ∧ i = b.nodes.length
  | _ => a = b

/-- Not code: used to state or prove properties. -/
structure Sim (l0 l1 : L) {α : Nat → Type w} (m : FMachine K L α) (n : Machine K L α) : Prop where
  looks : ∀ t, (m.threads t).Looks (n.threads t)
  arena : m.once = .done → m.writer = none → m.arena = n.arena
  half : ∀ t, m.writer = some t → Halfway m.arena n.arena (m.threads t)
  early : m.once ≠ .done → n.arena = Arena.init l0 l1

theorem guards_start {α : Nat → Type w} (ths : (t : Nat) → Thread K L (α t)) : Guards (fstart ths) := by
  refine ⟨fun t => ?_, ?_, fun t => ?_, fun t => ?_, ?_, ?_⟩ <;>
    simp [fstart, FThread.Reads, FThread.Writes, FThread.Inits]

theorem guards_upd {α : Nat → Type w} {t : Nat} {m : FMachine K L α} (g : Guards m) {a : Arena K L} {o : Once}
    {r : List Nat} {x : Option Nat} {th : FThread K L (α t)} (h1 : ∀ s, s ≠ t → (s ∈ r ↔ s ∈ m.readers))
    (h2 : t ∈ r ↔ th.Reads) (h3 : r.Nodup) (h4 : ∀ s, s ≠ t → (x = some s ↔ m.writer = some s))
    (h5 : x = some t ↔ th.Writes) (h6 : ∀ s, s ≠ t → (o = .by s ↔ m.once = .by s))
    (h7 : th.Inits ↔ o = .by t) (h8 : x = none ∨ r = []) (h9 : o = .done ∨ (x = none ∧ r = [])) :
    Guards ⟨a, o, r, x, Function.update m.threads t th⟩ := by
  refine ⟨fun s => ?_, h3, fun s => ?_, fun s => ?_, h8, h9⟩
  · by_cases e : s = t
    · subst e; simpa using h2
    · simpa [e] using (h1 s e).trans (g.reads s)
  · by_cases e : s = t
    · subst e; simpa using h5
    · simpa [e] using (h4 s e).trans (g.writes s)
  · by_cases e : s = t
    · subst e; simpa using h7
    · simpa [e] using (g.inits s).trans (h6 s e).symm

/-- A step that takes or drops no guard. -/
theorem guards_local {α : Nat → Type w} {t : Nat} {m : FMachine K L α} (g : Guards m) {a : Arena K L}
    {th : FThread K L (α t)} (h1 : (m.threads t).Reads ↔ th.Reads) (h2 : (m.threads t).Writes ↔ th.Writes)
    (h3 : (m.threads t).Inits ↔ th.Inits) :
    Guards ⟨a, m.once, m.readers, m.writer, Function.update m.threads t th⟩ :=
  guards_upd g (fun _ _ => Iff.rfl) ((g.reads t).trans h1) g.nodup (fun _ _ => Iff.rfl) ((g.writes t).trans h2)
    (fun _ _ => Iff.rfl) (h3.symm.trans (g.inits t)) g.excl g.early

theorem guards_step {direct : Bool} {l0 l1 : L} {α : Nat → Type w} {t : Nat} {m m' : FMachine K L α}
    (g : Guards m) (h : FStep direct l0 l1 t m m') : Guards m' := by
  have hr := g.reads t
  have hw := g.writes t
  have hi := g.inits t
  have noW : m.writer = none → ∀ s, s ≠ t → (some t = some s ↔ m.writer = some s) := by
    intro e s hs
    rw [e]
    simp [Ne.symm hs]
  cases h with
  | initBegin e o w =>
    rw [e] at hr hw
    have he : m.writer = none ∧ m.readers = [] := g.early.resolve_left (by rw [o]; simp)
    refine guards_upd g (fun _ _ => Iff.rfl) hr g.nodup (fun _ _ => Iff.rfl) hw (fun s hs => ?_) ?_ g.excl (.inr he)
    · rw [o]; simp [Ne.symm hs]
    · simp [FThread.Inits]
  | initEnd e =>
    rw [e] at hr hw hi
    have o := hi.1 trivial
    refine guards_upd g (fun _ _ => Iff.rfl) hr g.nodup (fun _ _ => Iff.rfl) hw (fun s hs => ?_) ?_ g.excl (.inl rfl)
    · rw [o]; simp [Ne.symm hs]
    · simp [FThread.Inits]
  | loadAcq e o w =>
    rw [e] at hr hw
    refine guards_upd g (fun s hs => ?_) ?_ ?_ (fun _ _ => Iff.rfl) ?_ (fun s hs => Iff.rfl) ?_ (.inl w) (.inl o)
    · simp [hs]
    · simp [FThread.Reads]
    · exact List.nodup_cons.2 ⟨fun hh => hr.1 hh, g.nodup⟩
    · exact hw
    · rw [o]; simp [FThread.Inits]
  | lookAcq d e o w =>
    rw [e] at hr hw
    refine guards_upd g (fun s hs => ?_) ?_ ?_ (fun _ _ => Iff.rfl) ?_ (fun s hs => Iff.rfl) ?_ (.inl w) (.inl o)
    · simp [hs]
    · simp [FThread.Reads]
    · exact List.nodup_cons.2 ⟨fun hh => hr.1 hh, g.nodup⟩
    · exact hw
    · rw [o]; simp [FThread.Inits]
  | directAcq d e o w r =>
    rw [e] at hr
    refine guards_upd g (fun s hs => Iff.rfl) hr g.nodup (noW w) ?_ (fun s hs => Iff.rfl) ?_ (.inr r) (.inl o)
    · simp [FThread.Writes]
    · rw [o]; simp [FThread.Inits]
  | addAcq e o w r =>
    rw [e] at hr
    refine guards_upd g (fun s hs => Iff.rfl) hr g.nodup (noW w) ?_ (fun s hs => Iff.rfl) ?_ (.inr r) (.inl o)
    · simp [FThread.Writes]
    · rw [o]; simp [FThread.Inits]
  | relRead e =>
    rw [e] at hr hw hi
    have ho : m.once = .done := by
      refine g.early.resolve_right fun h => ?_
      have := hr.2 trivial
      rw [h.2] at this
      cases this
    refine guards_upd g (fun s hs => List.mem_erase_of_ne hs) ?_ (g.nodup.erase _) (fun _ _ => Iff.rfl) hw
      (fun s hs => Iff.rfl) hi ?_ (.inl ho)
    · simp [g.nodup.mem_erase_iff, FThread.Reads]
    · exact g.excl.imp id fun h => by rw [h]; rfl
  | relWrite e =>
    rw [e] at hr hw hi
    have hw' := hw.2 trivial
    have ho : m.once = .done := g.early.resolve_right fun h => by rw [hw'] at h; cases h.1
    refine guards_upd g (fun s hs => Iff.rfl) hr g.nodup (fun s hs => ?_) ?_ (fun s hs => Iff.rfl) hi (.inl rfl) (.inl ho)
    · rw [hw']; simp [Ne.symm hs]
    · simp [FThread.Writes]
  | loadHit e _ => exact guards_local g (by rw [e]; exact Iff.rfl) (by rw [e]; exact Iff.rfl) (by rw [e]; exact Iff.rfl)
  | loadMissing e _ => exact guards_local g (by rw [e]; exact Iff.rfl) (by rw [e]; exact Iff.rfl) (by rw [e]; exact Iff.rfl)
  | lookHit e _ => exact guards_local g (by rw [e]; exact Iff.rfl) (by rw [e]; exact Iff.rfl) (by rw [e]; exact Iff.rfl)
  | lookMiss e _ => exact guards_local g (by rw [e]; exact Iff.rfl) (by rw [e]; exact Iff.rfl) (by rw [e]; exact Iff.rfl)
  | entryOcc e _ => exact guards_local g (by rw [e]; exact Iff.rfl) (by rw [e]; exact Iff.rfl) (by rw [e]; exact Iff.rfl)
  | entryVac e _ => exact guards_local g (by rw [e]; exact Iff.rfl) (by rw [e]; exact Iff.rfl) (by rw [e]; exact Iff.rfl)
  | push e => exact guards_local g (by rw [e]; exact Iff.rfl) (by rw [e]; exact Iff.rfl) (by rw [e]; exact Iff.rfl)
  | insert e => exact guards_local g (by rw [e]; exact Iff.rfl) (by rw [e]; exact Iff.rfl) (by rw [e]; exact Iff.rfl)
  | panic e => exact guards_local g (by rw [e]; exact Iff.rfl) (by rw [e]; exact Iff.rfl) (by rw [e]; exact Iff.rfl)

/-! ## Refinement -/

theorem sim_start {l0 l1 : L} {α : Nat → Type w} (ths : (t : Nat) → Thread K L (α t)) :
    Sim l0 l1 (fstart ths) ⟨Arena.init l0 l1, ths⟩ := by
  refine ⟨fun t => rfl, fun h => ?_, fun t h => ?_, fun _ => rfl⟩
  · cases h
  · cases h

/-- A step the one-step machine does not see. -/
theorem sim_stutter {l0 l1 : L} {α : Nat → Type w} {t : Nat} {m : FMachine K L α} {n : Machine K L α}
    (s : Sim l0 l1 m n) {a : Arena K L} {o : Once} {r : List Nat} {x : Option Nat} {th : FThread K L (α t)}
    (h1 : th.Looks (n.threads t)) (h2 : o = .done → x = none → a = n.arena)
    (h3 : ∀ s, s ≠ t → x = some s → Halfway a n.arena (m.threads s)) (h4 : x = some t → Halfway a n.arena th)
    (h5 : o ≠ .done → m.once ≠ .done) :
    Sim l0 l1 ⟨a, o, r, x, Function.update m.threads t th⟩ n := by
  refine ⟨fun s' => ?_, h2, fun s' hs => ?_, fun ho => s.early (h5 ho)⟩
  · by_cases e : s' = t
    · subst e; simpa using h1
    · simpa [e] using s.looks s'
  · by_cases e : s' = t
    · subst e; simpa using h4 hs
    · simpa [e] using h3 s' e hs

/-- A step the one-step machine does as well. -/
theorem sim_step {l0 l1 : L} {α : Nat → Type w} {t : Nat} {m : FMachine K L α} {n : Machine K L α}
    (s : Sim l0 l1 m n) {a : Arena K L} {b : Arena K L} {th : FThread K L (α t)}
    {th' : Thread K L (α t)}
    (h1 : th.Looks th') (h2 : m.writer = none → a = b)
    (h3 : ∀ s, s ≠ t → m.writer = some s → Halfway a b (m.threads s)) (h4 : m.writer = some t → Halfway a b th)
    (h5 : m.once = .done) :
    Sim l0 l1 ⟨a, m.once, m.readers, m.writer, Function.update m.threads t th⟩
      ⟨b, Function.update n.threads t th'⟩ := by
  refine ⟨fun s' => ?_, fun _ => h2, fun s' hs => ?_, fun ho => absurd h5 ho⟩
  · by_cases e : s' = t
    · subst e; simpa using h1
    · simpa [e] using s.looks s'
  · by_cases e : s' = t
    · subst e; simpa using h4 hs
    · simpa [e] using h3 s' e hs

theorem MRun.one {α : Nat → Type w} {n : Machine K L α} {t : Nat} {a : Arena K L} {th : Thread K L (α t)}
    (h : TStep n.arena (n.threads t) a th) : MRun n ⟨a, Function.update n.threads t th⟩ :=
  .cons (.step t h) (.nil _)

/-- Every step is no step or one step of the one-step machine. -/
theorem refine_step {direct : Bool} {l0 l1 : L} {α : Nat → Type w} {t : Nat} {m m' : FMachine K L α}
    {n : Machine K L α} (g : Guards m) (s : Sim l0 l1 m n) (h : FStep direct l0 l1 t m m') :
    ∃ n', MRun n n' ∧ Sim l0 l1 m' n' := by
  have hl := s.looks t
  -- while `t` reads nobody writes, the arena exists and is whole
  have hread : (m.threads t).Reads → m.writer = none ∧ m.once = .done ∧ m.arena = n.arena := by
    intro hr
    have hm := (g.reads t).2 hr
    have h1 : m.writer = none := g.excl.resolve_right fun h => by rw [h] at hm; cases hm
    have h2 : m.once = .done := g.early.resolve_right fun h => by rw [h.2] at hm; cases hm
    exact ⟨h1, h2, s.arena h2 h1⟩
  have hwrite : (m.threads t).Writes → m.writer = some t ∧ m.once = .done := by
    intro hr
    have hm := (g.writes t).2 hr
    exact ⟨hm, g.early.resolve_right fun h => by rw [hm] at h; cases h.1⟩
  have other : m.writer = some t → ∀ (P : Nat → Prop) s', s' ≠ t → m.writer = some s' → P s' := by
    intro h1 P s' hs h2
    rw [h1] at h2
    cases h2
    exact absurd rfl hs
  cases h with
  | initBegin e o w =>
    rw [e] at hl
    have he : m.writer = none ∧ m.readers = [] := g.early.resolve_left (by rw [o]; simp)
    refine ⟨n, .nil _, sim_stutter s hl (fun h => by cases h) (fun s' _ hs => ?_) (fun hs => ?_) (fun _ => by rw [o]; simp)⟩
    · rw [he.1] at hs; cases hs
    · rw [he.1] at hs; cases hs
  | initEnd e =>
    have o := (g.inits t).1 (by rw [e]; trivial)
    rw [e] at hl
    have he : m.writer = none ∧ m.readers = [] := g.early.resolve_left (by rw [o]; simp)
    refine ⟨n, .nil _, sim_stutter s hl (fun _ _ => ?_) (fun s' _ hs => ?_) (fun hs => ?_) (fun h => absurd rfl h)⟩
    · exact (s.early (by rw [o]; simp)).symm
    · rw [he.1] at hs; cases hs
    · rw [he.1] at hs; cases hs
  | loadAcq e o w =>
    rw [e] at hl
    refine ⟨n, .nil _, sim_stutter s hl (fun _ _ => s.arena o w) (fun s' _ hs => ?_) (fun hs => ?_) (fun h => absurd o h)⟩
    · rw [w] at hs; cases hs
    · rw [w] at hs; cases hs
  | lookAcq d e o w =>
    rw [e] at hl
    refine ⟨n, .nil _, sim_stutter s hl (fun _ _ => s.arena o w) (fun s' _ hs => ?_) (fun hs => ?_) (fun h => absurd o h)⟩
    · rw [w] at hs; cases hs
    · rw [w] at hs; cases hs
  | directAcq d e o w r =>
    rw [e] at hl
    refine ⟨n, .nil _, sim_stutter s (.inl hl) (fun _ h => by cases h) (fun s' h hs => ?_) (fun hs => ?_) (fun h => absurd o h)⟩
    · cases hs; exact absurd rfl h
    · exact s.arena o w
  | addAcq e o w r =>
    rw [e] at hl
    refine ⟨n, .nil _, sim_stutter s (.inr hl) (fun _ h => by cases h) (fun s' h hs => ?_) (fun hs => ?_) (fun h => absurd o h)⟩
    · cases hs; exact absurd rfl h
    · exact s.arena o w
  | @loadHit i k c e hc =>
    obtain ⟨w, o, ha⟩ := hread (by rw [e]; trivial)
    rw [e] at hl
    rw [ha] at hc
    refine ⟨_, .one (by rw [hl]; exact .load hc), sim_step s rfl (fun _ => ha) (fun s' h hs => ?_) (fun hs => ?_) o⟩
    · rw [w] at hs; cases hs
    · rw [w] at hs; cases hs
  | @loadMissing i k e hc =>
    obtain ⟨w, o, ha⟩ := hread (by rw [e]; trivial)
    rw [e] at hl
    rw [ha] at hc
    refine ⟨_, .one (by rw [hl]; exact .loadMissing hc), sim_step s rfl (fun _ => ha) (fun s' h hs => ?_) (fun hs => ?_) o⟩
    · rw [w] at hs; cases hs
    · rw [w] at hs; cases hs
  | @lookHit c k i e hc =>
    obtain ⟨w, o, ha⟩ := hread (by rw [e]; trivial)
    rw [e] at hl
    rw [ha] at hc
    refine ⟨_, .one (by rw [hl]; exact .hit hc), sim_step s rfl (fun _ => ha) (fun s' h hs => ?_) (fun hs => ?_) o⟩
    · rw [w] at hs; cases hs
    · rw [w] at hs; cases hs
  | @lookMiss c k e hc =>
    obtain ⟨w, o, ha⟩ := hread (by rw [e]; trivial)
    rw [e] at hl
    rw [ha] at hc
    refine ⟨_, .one (by rw [hl]; exact .miss hc), sim_step s rfl (fun _ => ha) (fun s' h hs => ?_) (fun hs => ?_) o⟩
    · rw [w] at hs; cases hs
    · rw [w] at hs; cases hs
  | relRead e =>
    obtain ⟨w, o, ha⟩ := hread (by rw [e]; trivial)
    rw [e] at hl
    refine ⟨n, .nil _, sim_stutter s hl (fun _ _ => ha) (fun s' _ hs => ?_) (fun hs => ?_) (fun h => absurd o h)⟩
    · rw [w] at hs; cases hs
    · rw [w] at hs; cases hs
  | @entryOcc c k i e hc =>
    obtain ⟨w, o⟩ := hwrite (by rw [e]; trivial)
    have ha := s.half t w
    rw [e] at hl ha
    change m.arena = n.arena at ha
    rw [ha] at hc
    have hadd : n.arena.add c = (n.arena, i) := by simp only [Arena.add, hc]
    have hstep : TStep n.arena (n.threads t) n.arena (.run (k i)) := by
      rcases hl with hl | hl <;> rw [hl]
      · exact .hit hc
      · have := TStep.add (a := n.arena) (c := c) (k := k)
        rwa [hadd] at this
    exact ⟨_, .one hstep, sim_step s rfl (fun h => by rw [w] at h; cases h) (other w (fun s => Halfway _ _ (m.threads s))) (fun _ => ha) o⟩
  | @entryVac c k e hc =>
    obtain ⟨w, o⟩ := hwrite (by rw [e]; trivial)
    have ha := s.half t w
    rw [e] at hl ha
    change m.arena = n.arena at ha
    rw [ha] at hc
    exact ⟨n, .nil _, sim_stutter s hl (fun _ h => by rw [w] at h; cases h) (other w (fun s => Halfway _ _ (m.threads s))) (fun _ => ⟨ha, hc⟩)
      (fun h => absurd o h)⟩
  | @push c k e =>
    obtain ⟨w, o⟩ := hwrite (by rw [e]; trivial)
    have ha := s.half t w
    rw [e] at hl ha
    obtain ⟨ha, hc⟩ := ha
    refine ⟨n, .nil _, sim_stutter s hl (fun _ h => by rw [w] at h; cases h) (other w (fun s => Halfway _ _ (m.threads s))) (fun _ => ⟨?_, hc, ?_⟩)
      (fun h => absurd o h)⟩
    · rw [ha]
    · rw [ha]
  | @insert c k i e =>
    obtain ⟨w, o⟩ := hwrite (by rw [e]; trivial)
    have ha := s.half t w
    rw [e] at hl ha
    obtain ⟨ha, hc, hi⟩ := ha
    have hadd : n.arena.add c = (⟨n.arena.nodes ++ [c], (c, i) :: n.arena.index⟩, i) := by
      simp only [Arena.add, hc, hi]
    have hstep : TStep n.arena (n.threads t) ⟨n.arena.nodes ++ [c], (c, i) :: n.arena.index⟩ (.run (k i)) := by
      rcases hl with hl | hl <;> rw [hl]
      · have := TStep.addDirect (a := n.arena) (c := c) (k := k)
        rwa [hadd] at this
      · have := TStep.add (a := n.arena) (c := c) (k := k)
        rwa [hadd] at this
    exact ⟨_, .one hstep, sim_step s rfl (fun h => by rw [w] at h; cases h) (other w (fun s => Halfway _ _ (m.threads s))) (fun _ => by
      rw [ha]; rfl) o⟩
  | relWrite e =>
    obtain ⟨w, o⟩ := hwrite (by rw [e]; trivial)
    have ha := s.half t w
    rw [e] at hl ha
    exact ⟨n, .nil _, sim_stutter s hl (fun _ _ => ha) (fun _ _ h => by cases h) (fun h => by cases h)
      (fun h => absurd o h)⟩
  | panic e =>
    rw [e] at hl
    refine ⟨⟨n.arena, Function.update n.threads t .panicked⟩, .one (by rw [hl]; exact .panic), ?_⟩
    refine ⟨fun s' => ?_, s.arena, fun s' hs => ?_, s.early⟩
    · by_cases e' : s' = t
      · subst e'; simp [FThread.Looks]
      · simpa [e'] using s.looks s'
    · have := s.half s' hs
      by_cases e' : s' = t
      · subst e'
        have := (g.writes s').1 hs
        rw [e] at this
        exact this.elim
      · simpa [e'] using this

/-- Everything the machine with the lock does, the one-step machine does. -/
theorem refine_run {direct : Bool} {l0 l1 : L} {α : Nat → Type w} {ths : (t : Nat) → Thread K L (α t)}
    {m : FMachine K L α} (h : FRun direct l0 l1 (fstart ths) m) :
    Guards m ∧ ∃ n, MRun ⟨Arena.init l0 l1, ths⟩ n ∧ Sim l0 l1 m n := by
  induction h with
  | nil => exact ⟨guards_start ths, _, .nil _, sim_start ths⟩
  | snoc _ h2 ih =>
    obtain ⟨g, n, hn, s⟩ := ih
    obtain ⟨n', hn', s'⟩ := refine_step g s h2
    exact ⟨guards_step g h2, n', hn.trans hn', s'⟩

/-! ## Atomicity -/

section
variable {direct : Bool} {l0 l1 : L} {α : Nat → Type w} {ths : (t : Nat) → Thread K L (α t)} {m : FMachine K L α}

/-- C83: while a thread holds the write guard no other thread holds any guard. -/
theorem guards_exclusive (h : FRun direct l0 l1 (fstart ths) m) (s t : Nat) (hs : (m.threads s).Writes)
    (ht : (m.threads t).Writes ∨ (m.threads t).Reads) : s = t := by
  obtain ⟨g, _⟩ := refine_run h
  have hw := (g.writes s).2 hs
  rcases ht with ht | ht
  · have := (g.writes t).2 ht
    rw [hw] at this
    exact Option.some.inj this
  · have h1 := (g.reads t).2 ht
    rcases g.excl with h2 | h2
    · rw [hw] at h2; cases h2
    · rw [h2] at h1; cases h1

/-- C83: the sections are atomic.  Whatever the interleaving of the single steps, there is a run of the
machine that does each section in one step in which exactly the same threads have finished, with the same
results; whenever no thread holds the write guard and the arena exists, it is the arena of that run. -/
theorem sections_atomic (h : FRun direct l0 l1 (fstart ths) m) :
    ∃ n, MRun ⟨Arena.init l0 l1, ths⟩ n ∧
      (∀ t x, m.threads t = .out (.run (.ret x)) → n.threads t = .run (.ret x)) ∧
      (∀ t, m.threads t = .out .panicked → n.threads t = .panicked) ∧
      (m.once = .done → m.writer = none → m.arena = n.arena) := by
  obtain ⟨g, n, hn, s⟩ := refine_run h
  refine ⟨n, hn, fun t x e => ?_, fun t e => ?_, s.arena⟩
  · have := s.looks t
    rw [e] at this
    exact this
  · have := s.looks t
    rw [e] at this
    exact this

variable {Q : (t : Nat) → Arena K L → α t → Prop}

/-- C97: verified programs stay right under the single steps, whatever the other threads run: no verified thread
ever panics, also not while it holds a guard, every finished one satisfies its postcondition, and a thread holding
a read guard sees a whole arena (map and vector agree). -/
theorem among_locks_sound {G : Nat → Prop} (hQ : ∀ t, G t → Stable (Q t)) (hI : (Arena.init l0 l1 : Arena K L).Inv)
    (hw : ∀ t, G t → wpT (ths t) (Arena.init l0 l1) (Q t)) (h : FRun direct l0 l1 (fstart ths) m) :
    (∀ t, G t → m.threads t ≠ .out .panicked ∧ m.threads t ≠ .rdDone .panicked ∧ m.threads t ≠ .wrDone .panicked) ∧
    (∀ t, (m.threads t).Reads → m.arena.Inv) ∧
    ∃ b : Arena K L, b.Inv ∧ ∀ t, G t → ∀ x, m.threads t = .out (.run (.ret x)) → Q t b x := by
  obtain ⟨g, n, hn, s⟩ := refine_run h
  have hs := among_sound hQ hn hI hw
  have hi := (mrun_among hQ hn hI hw).1.right
  refine ⟨fun t hg => ⟨fun e => ?_, fun e => ?_, fun e => ?_⟩, fun t hr => ?_, n.arena, hi, fun t hg x e => ?_⟩
  · have := s.looks t
    rw [e] at this
    exact (hs t hg).1 this
  · have := s.looks t
    rw [e] at this
    exact (hs t hg).1 this
  · have := s.looks t
    rw [e] at this
    exact (hs t hg).1 this
  · have hm := (g.reads t).2 hr
    have h1 : m.writer = none := g.excl.resolve_right fun h => by rw [h] at hm; cases hm
    have h2 : m.once = .done := g.early.resolve_right fun h => by rw [h.2] at hm; cases hm
    rw [s.arena h2 h1]
    exact hi
  · have := s.looks t
    rw [e] at this
    exact (hs t hg).2.1 x this

/-- C83: verified programs stay right under the single steps: no thread ever panics, also not while it holds a
guard, every finished thread satisfies its postcondition, and a thread holding a read guard sees a whole arena
(map and vector agree, children come before parents). -/
theorem locks_sound (hQ : ∀ t, Stable (Q t)) (hI : (Arena.init l0 l1 : Arena K L).Sound)
    (hw : ∀ t, wpT (ths t) (Arena.init l0 l1) (Q t)) (h : FRun direct l0 l1 (fstart ths) m) :
    (∀ t, m.threads t ≠ .out .panicked ∧ m.threads t ≠ .rdDone .panicked ∧ m.threads t ≠ .wrDone .panicked) ∧
    (∀ t, (m.threads t).Reads → m.arena.Sound) ∧
    ∃ b : Arena K L, b.Sound ∧ ∀ t x, m.threads t = .out (.run (.ret x)) → Q t b x := by
  obtain ⟨g, n, hn, s⟩ := refine_run h
  have hs := schedules_sound hQ hn hI.toInv hw
  have hi := mrun_sound hQ hn hI hw
  have ha := among_locks_sound (G := fun _ => True) (fun t _ => hQ t) hI.toInv (fun t _ => hw t) h
  refine ⟨fun t => ha.1 t trivial, fun t hr => ?_, n.arena, hi, fun t x e => ?_⟩
  · have hm := (g.reads t).2 hr
    have h1 : m.writer = none := g.excl.resolve_right fun h => by rw [h] at hm; cases hm
    have h2 : m.once = .done := g.early.resolve_right fun h => by rw [h.2] at hm; cases hm
    rw [s.arena h2 h1]
    exact hi
  · have := s.looks t
    rw [e] at this
    exact (hs t).2.1 x this

/-! ## No deadlock -/

/-- Which of the waiting threads the lock lets in.  The implementation of `RwLock` decides; it may let writers
wait for ever behind readers or readers behind waiting writers.  Not code: used to state or prove properties. -/
abbrev Policy (K : Type u) (L : Type v) (α : Nat → Type w) := FMachine K L α → Nat → Prop

/-- A lock that nobody holds lets some waiting thread in.  Not code: used to state or prove properties. -/
def Policy.Live (A : Policy K L α) : Prop :=
  ∀ m : FMachine K L α, m.once = .done → m.writer = none → m.readers = [] → (∃ t, (m.threads t).Waiting) →
    ∃ t, (m.threads t).Waiting ∧ A m t

/-- A step the lock permits.  Not code: used to state or prove properties. -/
def PStep (A : Policy K L α) (direct : Bool) (l0 l1 : L) (t : Nat) (m m' : FMachine K L α) : Prop :=
  FStep direct l0 l1 t m m' ∧ ((m.threads t).Waiting → m.once = .done → A m t)

/-- C97: no deadlock.  At every point of every interleaving, if some verified thread has not finished, some thread
can make a step, whatever the lock's admission policy and whatever the other threads run. -/
theorem among_deadlock_free {G : Nat → Prop} (hQ : ∀ t, G t → Stable (Q t))
    (hI : (Arena.init l0 l1 : Arena K L).Inv)
    (hw : ∀ t, G t → wpT (ths t) (Arena.init l0 l1) (Q t)) (h : FRun direct l0 l1 (fstart ths) m)
    (A : Policy K L α) (hA : A.Live) (hu : ∃ t, G t ∧ ¬ (m.threads t).Finished) :
    ∃ t m', PStep A direct l0 l1 t m m' := by
  obtain ⟨g, n, hn, s⟩ := refine_run h
  have hwn := (mrun_among hQ hn hI hw).2
  -- a thread that holds nothing and has not finished goes for the lock
  have waits : ∀ t, G t → ∀ th, m.threads t = .out th → ¬ (m.threads t).Finished → (m.threads t).Waiting := by
    intro t hg th e hf
    have h1 := s.looks t
    have h2 := hwn t hg
    rw [e] at h1 hf ⊢
    have h1 : n.threads t = th := h1
    rw [h1] at h2
    cases th with
    | panicked => exact h2
    | missed c k => trivial
    | run p =>
      cases p with
      | ret x => exact absurd trivial hf
      | load i k => trivial
      | intern c k => trivial
      | panic => exact h2.elim
      | spin => exact h2.elim
  obtain ⟨t0, hg0, ht0⟩ := hu
  cases ho : m.once with
  | «by» t =>
    have hi := (g.inits t).2 ho
    cases e : m.threads t <;> rw [e] at hi <;> try exact hi.elim
    exact ⟨t, _, .initEnd e, fun hh => by rw [e] at hh; exact hh.elim⟩
  | no =>
    have he : m.writer = none ∧ m.readers = [] := g.early.resolve_left (by rw [ho]; simp)
    have hr := g.reads t0
    have hx := g.writes t0
    have hi := g.inits t0
    rw [he.2] at hr
    rw [he.1] at hx
    rw [ho] at hi
    cases e : m.threads t0 <;> rw [e] at hr hx hi <;> try (simp [FThread.Reads, FThread.Writes, FThread.Inits] at hr hx hi; done)
    rename_i th
    have hwt := waits t0 hg0 th e ht0
    rw [e] at hwt
    exact ⟨t0, _, .initBegin e ho hwt, fun _ h => by rw [ho] at h; cases h⟩
  | done =>
    cases hwr : m.writer with
    | some t =>
      have hx := (g.writes t).1 hwr
      cases e : m.threads t <;> rw [e] at hx <;> try exact hx.elim
      · rename_i c k
        cases hc : m.arena.getByNode c with
        | some i => exact ⟨t, _, .entryOcc e hc, fun hh => by rw [e] at hh; exact hh.elim⟩
        | none => exact ⟨t, _, .entryVac e hc, fun hh => by rw [e] at hh; exact hh.elim⟩
      · exact ⟨t, _, .push e, fun hh => by rw [e] at hh; exact hh.elim⟩
      · exact ⟨t, _, .insert e, fun hh => by rw [e] at hh; exact hh.elim⟩
      · exact ⟨t, _, .relWrite e, fun hh => by rw [e] at hh; exact hh.elim⟩
    | none =>
      cases hrd : m.readers with
      | cons t r =>
        have hx := (g.reads t).1 (by rw [hrd]; simp)
        cases e : m.threads t <;> rw [e] at hx <;> try exact hx.elim
        · rename_i i k
          cases hc : m.arena.getById i with
          | some c => exact ⟨t, _, .loadHit e hc, fun hh => by rw [e] at hh; exact hh.elim⟩
          | none => exact ⟨t, _, .loadMissing e hc, fun hh => by rw [e] at hh; exact hh.elim⟩
        · rename_i c k
          cases hc : m.arena.getByNode c with
          | some i => exact ⟨t, _, .lookHit e hc, fun hh => by rw [e] at hh; exact hh.elim⟩
          | none => exact ⟨t, _, .lookMiss e hc, fun hh => by rw [e] at hh; exact hh.elim⟩
        · exact ⟨t, _, .relRead e, fun hh => by rw [e] at hh; exact hh.elim⟩
      | nil =>
        have hr := g.reads t0
        have hx := g.writes t0
        have hi := g.inits t0
        rw [hrd] at hr
        rw [hwr] at hx
        rw [ho] at hi
        have hwt0 : (m.threads t0).Waiting := by
          cases e : m.threads t0 <;> rw [e] at hr hx hi <;> try (simp [FThread.Reads, FThread.Writes, FThread.Inits] at hr hx hi; done)
          rename_i th
          have := waits t0 hg0 th e ht0
          rwa [e] at this
        obtain ⟨t, hwt, hAt⟩ := hA m ho hwr hrd ⟨t0, hwt0⟩
        have : ∃ m', FStep direct l0 l1 t m m' := by
          cases e : m.threads t <;> rw [e] at hwt <;> try exact hwt.elim
          rename_i th
          cases th with
          | panicked => exact hwt.elim
          | missed c k => exact ⟨_, .addAcq e ho hwr hrd⟩
          | run p =>
            cases p with
            | ret x => exact hwt.elim
            | panic => exact hwt.elim
            | spin => exact hwt.elim
            | load i k => exact ⟨_, .loadAcq e ho hwr⟩
            | intern c k =>
              cases hd : direct with
              | false => exact ⟨_, .lookAcq rfl e ho hwr⟩
              | true => exact ⟨_, .directAcq rfl e ho hwr hrd⟩
        obtain ⟨m', hm'⟩ := this
        exact ⟨t, m', hm', fun _ _ => hAt⟩

/-- C83: no deadlock.  At every point of every interleaving, if some thread has not finished, some thread can
make a step, whatever the lock's admission policy. -/
theorem deadlock_free (hQ : ∀ t, Stable (Q t)) (hI : (Arena.init l0 l1 : Arena K L).Inv)
    (hw : ∀ t, wpT (ths t) (Arena.init l0 l1) (Q t)) (h : FRun direct l0 l1 (fstart ths) m)
    (A : Policy K L α) (hA : A.Live) (hu : ∃ t, ¬ (m.threads t).Finished) :
    ∃ t m', PStep A direct l0 l1 t m m' :=
  among_deadlock_free (G := fun _ => True) (fun t _ => hQ t) hI (fun t _ => hw t) h A hA
    (hu.imp fun _ h => ⟨trivial, h⟩)

/-! ## Termination -/

/-- Not code: used to state or prove properties. -/
def Once.rank : Once → Nat
  | .no => 2
  | .by _ => 1
  | .done => 0

/-- Not code: used to state or prove properties. -/
def FThread.phase {α : Type w} : FThread K L α → Thread K L α × Nat
  | .out th => (th, 4)
  | .initing th => (th, 5)
  | .rdLoad i k => (.run (.load i k), 3)
  | .rdLook c k => (.run (.intern c k), 3)
  | .rdDone th => (th, 5)
  | .wrEntry c k => (.missed c k, 3)
  | .wrVacant c k => (.missed c k, 2)
  | .wrPushed c k _ => (.missed c k, 1)
  | .wrDone th => (th, 5)

/-- Not code: used to state or prove properties. -/
def FNext {α : Type w} (th' th : FThread K L α) : Prop :=
  Prod.Lex (fun x y => ∃ a a', TStep a y a' x) (· < ·) th'.phase th.phase

theorem fnext_wf {α : Type w} : WellFounded (FNext (K := K) (L := L) (α := α)) :=
  InvImage.wf _ (WellFounded.prod_lex steps_finite wellFounded_lt)

/-- A step brings its thread closer to the end or is part of the one initialisation of the arena; it leaves the
other threads alone. -/
theorem fstep_next {t : Nat} {m m' : FMachine K L α} (h : FStep direct l0 l1 t m m') :
    m'.once.rank ≤ m.once.rank ∧ (m'.once.rank < m.once.rank ∨ FNext (m'.threads t) (m.threads t)) ∧
    ∀ s, s ≠ t → m'.threads s = m.threads s := by
  have addAt : ∀ (c : Cell K L) (k : Nat → Prog K L (α t)) (i : Nat),
      ∃ a a', TStep a (.missed c k) a' (.run (k i)) := by
    intro c k i
    have := TStep.add (a := ⟨[], [(c, i)]⟩) (c := c) (k := k)
    have e : (Arena.add (⟨[], [(c, i)]⟩ : Arena K L) c).2 = i := by simp [Arena.add, Arena.getByNode]
    rw [e] at this
    exact ⟨_, _, this⟩
  have missAt : ∀ (c : Cell K L) (k : Nat → Prog K L (α t)),
      ∃ a a', TStep a (.run (.intern c k)) a' (.missed c k) :=
    fun c k => ⟨⟨[], []⟩, _, .miss rfl⟩
  refine ⟨?_, ?_, ?_⟩
  · cases h with
    | initBegin _ o _ => simp [o, Once.rank]
    | initEnd => simp [Once.rank]
    | _ => exact le_rfl
  · cases h with
    | initBegin _ o _ => left; simp [o, Once.rank]
    | initEnd e => right; simp only [Function.update_self, e]; exact .right _ (by decide)
    | loadAcq e => right; simp only [Function.update_self, e]; exact .right _ (by decide)
    | lookAcq d e => right; simp only [Function.update_self, e]; exact .right _ (by decide)
    | directAcq d e => right; simp only [Function.update_self, e]; exact .left _ _ (missAt _ _)
    | addAcq e => right; simp only [Function.update_self, e]; exact .right _ (by decide)
    | loadHit e hc => right; simp only [Function.update_self, e]; exact .left _ _ ⟨_, _, .load hc⟩
    | loadMissing e hc => right; simp only [Function.update_self, e]; exact .left _ _ ⟨_, _, .loadMissing hc⟩
    | lookHit e hc => right; simp only [Function.update_self, e]; exact .left _ _ ⟨_, _, .hit hc⟩
    | lookMiss e hc => right; simp only [Function.update_self, e]; exact .left _ _ ⟨_, _, .miss hc⟩
    | relRead e => right; simp only [Function.update_self, e]; exact .right _ (by decide)
    | entryOcc e hc => right; simp only [Function.update_self, e]; exact .left _ _ (addAt _ _ _)
    | entryVac e hc => right; simp only [Function.update_self, e]; exact .right _ (by decide)
    | push e => right; simp only [Function.update_self, e]; exact .right _ (by decide)
    | insert e => right; simp only [Function.update_self, e]; exact .left _ _ (addAt _ _ _)
    | relWrite e => right; simp only [Function.update_self, e]; exact .right _ (by decide)
    | panic e => right; simp only [Function.update_self, e]; exact .left _ _ ⟨⟨[], []⟩, _, .panic⟩
  · intro s hs
    cases h <;> exact Function.update_of_ne hs _ _

/-- A sequence that only moves down a well-founded relation moves finitely often. -/
theorem moves_end {β : Type w} {r : β → β → Prop} (wf : WellFounded r) (f : Nat → β) (P : Nat → Prop) (N : Nat)
    (h1 : ∀ k ≥ N, P k → r (f (k + 1)) (f k)) (h2 : ∀ k ≥ N, ¬ P k → f (k + 1) = f k) :
    ∃ M, ∀ k ≥ M, ¬ P k := by
  have key : ∀ b, ∀ k ≥ N, f k = b → ∃ M, ∀ j ≥ M, ¬ P j := by
    intro b
    induction b using wf.induction with
    | _ b ih =>
      intro k hk e
      by_cases hj : ∃ j, j ≥ k ∧ P j
      · classical
        have hsame : ∀ j, k ≤ j → j ≤ Nat.find hj → f j = b := by
          intro j hkj
          induction j, hkj using Nat.le_induction with
          | base => intro _; exact e
          | succ j hkj ihj =>
            intro hle
            have hne : ¬ P j := fun hh => Nat.find_min hj (by omega) ⟨hkj, hh⟩
            rw [h2 j (by omega) hne]
            exact ihj (by omega)
        obtain ⟨hk', he⟩ := Nat.find_spec hj
        have hs := h1 (Nat.find hj) (by omega) he
        rw [hsame _ hk' le_rfl] at hs
        exact ih _ hs (Nat.find hj + 1) (by omega) rfl
      · exact ⟨k, fun j hjk hP => hj ⟨j, hjk, hP⟩⟩
  exact key _ N le_rfl rfl

/-- C83: in every infinite execution of the machine with the lock, each thread makes only finitely many
steps. -/
theorem locks_no_livelock (σ : Nat → FMachine K L α) (who : Nat → Nat)
    (h : ∀ k, FStep direct l0 l1 (who k) (σ k) (σ (k + 1))) (t : Nat) : ∃ M, ∀ k ≥ M, who k ≠ t := by
  have hrank : ∀ j k, j ≤ k → (σ k).once.rank ≤ (σ j).once.rank := by
    intro j k hjk
    induction k, hjk using Nat.le_induction with
    | base => exact le_rfl
    | succ k _ ih => exact (fstep_next (h k)).1.trans ih
  obtain ⟨N, hN⟩ : ∃ N, ∀ k, (σ N).once.rank ≤ (σ k).once.rank := by
    have := wellFounded_lt.has_min (Set.range fun k => (σ k).once.rank) ⟨_, 0, rfl⟩
    obtain ⟨_, ⟨N, rfl⟩, hm⟩ := this
    exact ⟨N, fun k => not_lt.1 (hm _ ⟨k, rfl⟩)⟩
  refine moves_end fnext_wf (fun k => (σ k).threads t) (fun k => who k = t) N (fun k hk e => ?_) (fun k hk e => ?_)
  · obtain ⟨_, hn, _⟩ := fstep_next (h k)
    rw [e] at hn
    refine hn.resolve_left fun hl => ?_
    have h1 := hN (k + 1)
    have h2 := hrank N k hk
    omega
  · exact (fstep_next (h k)).2.2 t (Ne.symm e)

theorem finished_rests {t : Nat} {m m' : FMachine K L α} (h : FStep direct l0 l1 t m m') :
    ¬ (m.threads t).Finished := by
  intro hf
  cases h with
  | @initBegin th e _ w =>
    rw [e] at hf
    cases th with
    | run p => cases p <;> first | exact hf.elim | exact w.elim
    | _ => exact hf.elim
  | initEnd e => rw [e] at hf; exact hf.elim
  | loadAcq e => rw [e] at hf; exact hf.elim
  | lookAcq d e => rw [e] at hf; exact hf.elim
  | directAcq d e => rw [e] at hf; exact hf.elim
  | addAcq e => rw [e] at hf; exact hf.elim
  | loadHit e => rw [e] at hf; exact hf.elim
  | loadMissing e => rw [e] at hf; exact hf.elim
  | lookHit e => rw [e] at hf; exact hf.elim
  | lookMiss e => rw [e] at hf; exact hf.elim
  | relRead e => rw [e] at hf; exact hf.elim
  | entryOcc e => rw [e] at hf; exact hf.elim
  | entryVac e => rw [e] at hf; exact hf.elim
  | push e => rw [e] at hf; exact hf.elim
  | insert e => rw [e] at hf; exact hf.elim
  | relWrite e => rw [e] at hf; exact hf.elim
  | panic e => rw [e] at hf; exact hf.elim

/-- C83: with finitely many threads at work every execution comes to an end: there is no infinite sequence of
steps. -/
theorem every_schedule_ends (σ : Nat → FMachine K L α) (who : Nat → Nat)
    (h : ∀ k, FStep direct l0 l1 (who k) (σ k) (σ (k + 1)))
    (hfin : {t | ¬ ((σ 0).threads t).Finished}.Finite) : False := by
  have stays : ∀ t, ((σ 0).threads t).Finished → ∀ k, ((σ k).threads t).Finished ∧ who k ≠ t := by
    intro t ht k
    have step : ∀ k, ((σ k).threads t).Finished → who k ≠ t := by
      intro k hk e
      have hs := h k
      rw [e] at hs
      exact finished_rests hs hk
    have hk : ((σ k).threads t).Finished := by
      induction k with
      | zero => exact ht
      | succ k ih =>
        rw [(fstep_next (h k)).2.2 t (Ne.symm (step k ih))]
        exact ih
    exact ⟨hk, step k hk⟩
  choose M hM using locks_no_livelock σ who h
  let B := hfin.toFinset.sup M
  by_cases hB : ((σ 0).threads (who B)).Finished
  · exact (stays _ hB B).2 rfl
  · exact hM (who B) B (Finset.le_sup (f := M) (hfin.mem_toFinset.2 hB)) rfl

/-- C97: when no step is left, every verified thread has its result. -/
theorem among_stuck {G : Nat → Prop} (hQ : ∀ t, G t → Stable (Q t)) (hI : (Arena.init l0 l1 : Arena K L).Inv)
    (hw : ∀ t, G t → wpT (ths t) (Arena.init l0 l1) (Q t)) (h : FRun direct l0 l1 (fstart ths) m)
    (A : Policy K L α) (hA : A.Live) (hs : ∀ t m', ¬ PStep A direct l0 l1 t m m') (t : Nat) (hg : G t) :
    ∃ x, m.threads t = .out (.run (.ret x)) := by
  by_contra hx
  have : ∃ t, G t ∧ ¬ (m.threads t).Finished := by
    refine ⟨t, hg, fun hf => hx ?_⟩
    cases hth : m.threads t with
    | out th =>
      rw [hth] at hf
      cases th with
      | run p => cases p <;> first | exact ⟨_, rfl⟩ | exact hf.elim
      | _ => exact hf.elim
    | _ => rw [hth] at hf; exact hf.elim
  obtain ⟨t, m', hp⟩ := among_deadlock_free hQ hI hw h A hA this
  exact hs t m' hp

/-- C83: when no step is left, every thread has its result. -/
theorem stuck_is_finished (hQ : ∀ t, Stable (Q t)) (hI : (Arena.init l0 l1 : Arena K L).Inv)
    (hw : ∀ t, wpT (ths t) (Arena.init l0 l1) (Q t)) (h : FRun direct l0 l1 (fstart ths) m)
    (A : Policy K L α) (hA : A.Live) (hs : ∀ t m', ¬ PStep A direct l0 l1 t m m') (t : Nat) :
    ∃ x, m.threads t = .out (.run (.ret x)) :=
  among_stuck (G := fun _ => True) (fun t _ => hQ t) hI (fun t _ => hw t) h A hA hs t trivial

/-- Any number of permitted steps.  Not code: used to state or prove properties. -/
inductive PRun (A : Policy K L α) (direct : Bool) (l0 l1 : L) : FMachine K L α → FMachine K L α → Prop where
  | nil (x) : PRun A direct l0 l1 x x
  | snoc {x y z t} : PRun A direct l0 l1 x y → PStep A direct l0 l1 t y z → PRun A direct l0 l1 x z

theorem FRun.trans {m m' m'' : FMachine K L α} (h : FRun direct l0 l1 m m') (h' : FRun direct l0 l1 m' m'') :
    FRun direct l0 l1 m m'' := by
  induction h' with
  | nil => exact h
  | snoc _ h2 ih => exact .snoc ih h2

theorem PRun.run {A : Policy K L α} {m m' : FMachine K L α} (h : PRun A direct l0 l1 m m') :
    FRun direct l0 l1 m m' := by
  induction h with
  | nil => exact .nil _
  | snoc _ h2 ih => exact .snoc ih h2.1

/-- C97: from every point of every interleaving, whatever the admission policy and whatever the others run, the
verified threads all reach their ends (if finitely many threads are at work). -/
theorem among_all_finish {G : Nat → Prop} (hQ : ∀ t, G t → Stable (Q t)) (hI : (Arena.init l0 l1 : Arena K L).Inv)
    (hw : ∀ t, G t → wpT (ths t) (Arena.init l0 l1) (Q t)) (h : FRun direct l0 l1 (fstart ths) m)
    (A : Policy K L α) (hA : A.Live) (hfin : {t | ¬ (m.threads t).Finished}.Finite) :
    ∃ m', PRun A direct l0 l1 m m' ∧ ∀ t, G t → ∃ x, m'.threads t = .out (.run (.ret x)) := by
  by_contra hno
  -- otherwise a step is always left, and the run never ends
  have next : ∀ x : {m' // FRun direct l0 l1 (fstart ths) m' ∧ PRun A direct l0 l1 m m'},
      ∃ t, ∃ y : {m' // FRun direct l0 l1 (fstart ths) m' ∧ PRun A direct l0 l1 m m'},
        PStep A direct l0 l1 t x.1 y.1 := by
    rintro ⟨m', h1, h2⟩
    have hex : ∃ t m'', PStep A direct l0 l1 t m' m'' := by
      by_contra hs
      push Not at hs
      exact hno ⟨m', h2, fun t => among_stuck hQ hI hw h1 A hA hs t⟩
    obtain ⟨t, m'', hp⟩ := hex
    exact ⟨t, ⟨m'', .snoc h1 hp.1, .snoc h2 hp⟩, hp⟩
  choose who nx hnx using next
  let σ : Nat → {m' // FRun direct l0 l1 (fstart ths) m' ∧ PRun A direct l0 l1 m m'} :=
    fun k => nx^[k] ⟨m, h, .nil _⟩
  refine every_schedule_ends (direct := direct) (l0 := l0) (l1 := l1) (fun k => (σ k).1) (fun k => who (σ k)) (fun k => ?_) hfin
  have := (hnx (σ k)).1
  rw [show σ (k + 1) = nx (σ k) from Function.iterate_succ_apply' _ _ _]
  exact this

/-- C83: from every point of every interleaving, whatever the admission policy, the threads all reach their
ends (if finitely many are at work). -/
theorem all_finish (hQ : ∀ t, Stable (Q t)) (hI : (Arena.init l0 l1 : Arena K L).Inv)
    (hw : ∀ t, wpT (ths t) (Arena.init l0 l1) (Q t)) (h : FRun direct l0 l1 (fstart ths) m)
    (A : Policy K L α) (hA : A.Live) (hfin : {t | ¬ (m.threads t).Finished}.Finite) :
    ∃ m', PRun A direct l0 l1 m m' ∧ ∀ t, ∃ x, m'.threads t = .out (.run (.ret x)) := by
  obtain ⟨m', h1, h2⟩ := among_all_finish (G := fun _ => True) (fun t _ => hQ t) hI (fun t _ => hw t) h A hA hfin
  exact ⟨m', h1, fun t => h2 t trivial⟩

/-! ## Crews -/

/-- `N` threads, each running its program once.  Not code: used to state or prove properties. -/
def crew (N : Nat) (p : (t : Nat) → Prog K L (α t)) (t : Nat) : Thread K L (Option (α t)) :=
  if t < N then .run ((p t).bind fun x => .ret (some x)) else .run (.ret none)

/-- Not code: used to state or prove properties. -/
def CrewPost (Q : (t : Nat) → Arena K L → α t → Prop) (N t : Nat) (b : Arena K L) (r : Option (α t)) : Prop :=
  t < N → ∃ x, r = some x ∧ Q t b x

theorem crewPost_stable (hQ : ∀ t, Stable (Q t)) (N t : Nat) : Stable (CrewPost Q N t) :=
  fun a b r e h ht => by
    obtain ⟨x, hx, hq⟩ := h ht
    exact ⟨x, hx, hQ t a b x e hq⟩

theorem crew_ok {p : (t : Nat) → Prog K L (α t)} {a : Arena K L} (hw : ∀ t, wp (p t) a (Q t)) (N t : Nat) :
    wpT (crew N p t) a (CrewPost Q N t) := by
  rw [crew]
  split
  · show wp _ _ _
    rw [wp_bind]
    exact wp_imp (hw t) fun b x hx _ => ⟨x, rfl, hx⟩
  · next h => exact fun h' => absurd h' h

/-- A thread that has finished when the program starts stays so. -/
theorem finite_start (hfin : {t | ¬ (FThread.out (ths t)).Finished}.Finite)
    (h : FRun direct l0 l1 (fstart ths) m) : {t | ¬ (m.threads t).Finished}.Finite := by
  refine hfin.subset fun t ht hN => ht ?_
  clear ht
  induction h with
  | nil => exact hN
  | @snoc y z s _ h2 ih =>
    have hne : t ≠ s := fun e => by subst e; exact finished_rests h2 ih
    rw [(fstep_next h2).2.2 t hne]
    exact ih

theorem crew_finite {N : Nat} {p : (t : Nat) → Prog K L (α t)} {m : FMachine K L (fun t => Option (α t))}
    (h : FRun direct l0 l1 (fstart (crew N p)) m) : {t | ¬ (m.threads t).Finished}.Finite := by
  refine finite_start ((Set.finite_lt_nat N).subset fun t ht => ?_) h
  by_contra hN
  have hN : ¬ t < N := hN
  exact ht (by rw [crew, if_neg hN]; trivial)

/-- C83 for `N` threads running any verified programs: under every interleaving of the single steps no thread
panics and every finished thread has a right result; whatever the admission policy of the lock, some thread can
go on as long as one has not finished; and no execution goes on for ever. -/
theorem crew_runs (hQ : ∀ t, Stable (Q t)) (hI : (Arena.init l0 l1 : Arena K L).Sound)
    {p : (t : Nat) → Prog K L (α t)} (hw : ∀ t, wp (p t) (Arena.init l0 l1) (Q t)) (N : Nat)
    {m : FMachine K L (fun t => Option (α t))} (h : FRun direct l0 l1 (fstart (crew N p)) m) :
    (∀ t, m.threads t ≠ .out .panicked) ∧
    (∃ b : Arena K L, b.Sound ∧ ∀ t < N, ∀ r, m.threads t = .out (.run (.ret r)) → ∃ x, r = some x ∧ Q t b x) ∧
    (∀ A : Policy K L (fun t => Option (α t)), A.Live → (∃ t, ¬ (m.threads t).Finished) →
      ∃ t m', PStep A direct l0 l1 t m m') ∧
    (∀ σ : Nat → FMachine K L (fun t => Option (α t)), σ 0 = m →
      ¬ ∀ k, ∃ t, FStep direct l0 l1 t (σ k) (σ (k + 1))) := by
  have hw' := crew_ok hw N
  have hQ' := crewPost_stable hQ N
  obtain ⟨h1, _, b, hb, h3⟩ := locks_sound hQ' hI hw' h
  refine ⟨fun t => (h1 t).1, ⟨b, hb, fun t ht r e => h3 t r e ht⟩, fun A hA hu => deadlock_free hQ' hI.toInv hw' h A hA hu,
    fun σ h0 hs => ?_⟩
  choose who hwho using hs
  exact every_schedule_ends σ who hwho (by rw [h0]; exact crew_finite h)

/-- C83: from every point of every interleaving and under every live policy the crew gets done. -/
theorem crew_finish (hQ : ∀ t, Stable (Q t)) (hI : (Arena.init l0 l1 : Arena K L).Sound)
    {p : (t : Nat) → Prog K L (α t)} (hw : ∀ t, wp (p t) (Arena.init l0 l1) (Q t)) (N : Nat)
    {m : FMachine K L (fun t => Option (α t))} (h : FRun direct l0 l1 (fstart (crew N p)) m)
    (A : Policy K L (fun t => Option (α t))) (hA : A.Live) :
    ∃ m', PRun A direct l0 l1 m m' ∧ ∃ b : Arena K L, b.Sound ∧
      ∀ t < N, ∃ x, m'.threads t = .out (.run (.ret (some x))) ∧ Q t b x := by
  obtain ⟨m', hr, hall⟩ := all_finish (crewPost_stable hQ N) hI.toInv (crew_ok hw N) h A hA (crew_finite h)
  obtain ⟨_, ⟨b, hb, h2⟩, _⟩ := crew_runs hQ hI hw N (h.trans hr.run)
  refine ⟨m', hr, b, hb, fun t ht => ?_⟩
  obtain ⟨r, e⟩ := hall t
  obtain ⟨x, rfl, hx⟩ := h2 t ht r e
  exact ⟨x, e, hx⟩

end

end Verif.Arena

namespace Verif.ArenaZdd2

open Verif.Arena Verif.Zdd2

universe u
variable {T : Nat → Type u} [∀ t, LinearOrder (T t)]

/-- C83 for the forest API (read-locked look-up first): `N` threads, each running any program over the API and
listing the result, all lock operations and all reads and writes of the arena interleaved at will. -/
theorem locked_exact (ps : (t : Nat) → Matrix.Prog (T t)) :
    ∃ F : Nat → Nat, ∀ f : Nat → Nat, (∀ t, F t ≤ f t) → ∀ N m,
      FRun false false true (fstart (crew N fun t => threadP (f t) (ps t))) m →
      (∀ t, m.threads t ≠ .out .panicked) ∧
      (∀ t < N, ∀ r, m.threads t = .out (.run (.ret r)) →
        ∃ x g, r = some (x, g.trees) ∧ run (ps t) = some g ∧ x.univ = g.univ) ∧
      (∀ A : Policy Nat Bool (fun t => Option (ForestC (T t) × List (List (T t)))), A.Live →
        (∃ t, ¬ (m.threads t).Finished) → ∃ t m', PStep A false false true t m m') ∧
      (∀ σ : Nat → FMachine Nat Bool (fun t => Option (ForestC (T t) × List (List (T t)))), σ 0 = m → ¬ ∀ k, ∃ t, FStep false false true t (σ k) (σ (k + 1))) := by
  obtain ⟨F, hF⟩ := boot_ok ps
  refine ⟨F, fun f hf N m hm => ?_⟩
  obtain ⟨h1, ⟨b, _, h2⟩, h3, h4⟩ := crew_runs (fun t => forest_stable (ps t)) (init_sound (by decide)) (hF f hf) N hm
  refine ⟨h1, fun t ht r e => ?_, h3, h4⟩
  obtain ⟨⟨x, ts⟩, rfl, g, hg, hd, he⟩ := h2 t ht r e
  exact ⟨x, g, by rw [← show ts = g.trees from he], hg, hd.2⟩

/-- C83: forests made by different threads of the machine with the lock compare with `==` exactly as their sets
do. -/
theorem locked_compare {T : Type u} [LinearOrder T] (ps : Nat → Matrix.Prog T) :
    ∃ F : Nat → Nat, ∀ f : Nat → Nat, (∀ t, F t ≤ f t) → ∀ m,
      FRun false false true (fstart fun t => .run (threadP (f t) (ps t))) m → ∀ s t x y xs ys,
      m.threads s = .out (.run (.ret (x, xs))) → m.threads t = .out (.run (.ret (y, ys))) →
      (x = y ↔ Spec.family xs = Spec.family ys) := by
  obtain ⟨F, hF⟩ := threads_compare ps
  refine ⟨F, fun f hf m hm s t x y xs ys es et => ?_⟩
  obtain ⟨n, hn, hr, _⟩ := sections_atomic hm
  exact hF f hf n hn s t x y xs ys (hr s _ es) (hr t _ et)

/-- C83: from every point of every interleaving and under every admission policy the `N` threads reach their
ends, with the sets of the sequential model. -/
theorem locked_finish (ps : (t : Nat) → Matrix.Prog (T t)) :
    ∃ F : Nat → Nat, ∀ f : Nat → Nat, (∀ t, F t ≤ f t) → ∀ N m,
      FRun false false true (fstart (crew N fun t => threadP (f t) (ps t))) m →
      ∀ A : Policy Nat Bool (fun t => Option (ForestC (T t) × List (List (T t)))), A.Live →
      ∃ m', PRun A false false true m m' ∧
        ∀ t < N, ∃ x g, m'.threads t = .out (.run (.ret (some (x, g.trees)))) ∧ run (ps t) = some g := by
  obtain ⟨F, hF⟩ := boot_ok ps
  refine ⟨F, fun f hf N m hm A hA => ?_⟩
  obtain ⟨m', hr, b, _, hall⟩ := crew_finish (fun t => forest_stable (ps t)) (init_sound (by decide)) (hF f hf) N hm A hA
  refine ⟨m', hr, fun t ht => ?_⟩
  obtain ⟨⟨x, ts⟩, e, g, hg, _, he⟩ := hall t ht
  have he : ts = g.trees := he
  subst he
  exact ⟨x, g, e, hg⟩

/-- Not vacuous: there is a live policy (let everybody in), and under it three threads do finish. -/
example : ∃ (f : Nat → Nat) (m : FMachine Nat Bool (fun _ => Option (ForestC Nat × List (List Nat)))), PRun (fun _ _ => True) false false true
        (fstart (crew 3 fun t => threadP (f t) (.union (.many [[1, 2], [3]]) (.unit [t])))) m ∧
      ∀ t < 3, ∃ x g, m.threads t = .out (.run (.ret (some (x, g.trees)))) ∧
        run (.union (.many [[1, 2], [3]]) (.unit [t])) = some g := by
  obtain ⟨F, hF⟩ := locked_finish fun t => (.union (.many [[1, 2], [3]]) (.unit [t]) : Matrix.Prog Nat)
  obtain ⟨m, hm⟩ := hF F (fun _ => le_rfl) 3 _ (.nil _) (fun _ _ => True)
    fun m _ _ _ ⟨t, ht⟩ => ⟨t, ht, trivial⟩
  exact ⟨F, m, hm⟩

end Verif.ArenaZdd2

namespace Verif.ArenaBdd

open Verif Verif.Arena Verif.Bdd Verif.Bdd.Spec

universe u v
variable {I : Type u} {F : Type v} [LinearOrder I] [LinearOrder F]

/-- C83 for the closets (the write lock is taken at once): `N` sessions, all lock operations and all reads and
writes of the arena interleaved at will. -/
theorem locked_exact (ss : Nat → Session I F) :
    ∃ K : Nat → Nat, ∀ f : Nat → Nat, (∀ t, K t ≤ f t) → ∀ N m,
      FRun true false true (fstart (crew N fun t => threadP (f t) (ss t))) m →
      (∀ t, m.threads t ≠ .out .panicked) ∧
      (∀ t < N, ∀ r, m.threads t = .out (.run (.ret r)) → ∃ x g, r = some x ∧ (ss t).alone = some g ∧
        x.seen ClosetC.itemIndex ClosetC.summary = g.seen Closet.itemIndex Closet.summary) ∧
      (∀ A : Policy I Bool (fun _ => Option (Answer (ClosetC I F) I F)), A.Live →
        (∃ t, ¬ (m.threads t).Finished) → ∃ t m', PStep A true false true t m m') ∧
      (∀ σ : Nat → FMachine I Bool (fun _ => Option (Answer (ClosetC I F) I F)), σ 0 = m → ¬ ∀ k, ∃ t, FStep true false true t (σ k) (σ (k + 1))) := by
  obtain ⟨F', hF⟩ := boot_ok ss
  refine ⟨F', fun f hf N m hm => ?_⟩
  obtain ⟨h1, ⟨b, _, h2⟩, h3, h4⟩ := crew_runs (fun t => answer_stable (ss t)) (init_sound (by decide)) (hF f hf) N hm
  refine ⟨h1, fun t ht r e => ?_, h3, h4⟩
  obtain ⟨x, rfl, g, hg, hd⟩ := h2 t ht r e
  exact ⟨x, g, rfl, hg, hd.seen⟩

/-- C83: under every admission policy the `N` sessions reach their ends, with the answers of the sequential
model. -/
theorem locked_finish (ss : Nat → Session I F) :
    ∃ K : Nat → Nat, ∀ f : Nat → Nat, (∀ t, K t ≤ f t) → ∀ N m,
      FRun true false true (fstart (crew N fun t => threadP (f t) (ss t))) m →
      ∀ A : Policy I Bool (fun _ => Option (Answer (ClosetC I F) I F)), A.Live →
      ∃ m', PRun A true false true m m' ∧
        ∀ t < N, ∃ x g, m'.threads t = .out (.run (.ret (some x))) ∧ (ss t).alone = some g ∧
          x.seen ClosetC.itemIndex ClosetC.summary = g.seen Closet.itemIndex Closet.summary := by
  obtain ⟨F', hF⟩ := boot_ok ss
  refine ⟨F', fun f hf N m hm A hA => ?_⟩
  obtain ⟨m', hr, b, _, hall⟩ := crew_finish (fun t => answer_stable (ss t)) (init_sound (by decide)) (hF f hf) N hm A hA
  refine ⟨m', hr, fun t ht => ?_⟩
  obtain ⟨x, e, g, hg, hd⟩ := hall t ht
  exact ⟨x, g, e, hg, hd.seen⟩

/-- Not vacuous: two sessions do finish. -/
example : ∃ (f : Nat → Nat) (m : FMachine Nat Bool (fun _ => Option (Answer (ClosetC Nat Nat) Nat Nat))),
    PRun (fun _ _ => True) true false true
      (fstart (crew 2 fun t => threadP (f t) ⟨[.item 0 1, .item 1 1], [], [t]⟩)) m ∧
    ∀ t < 2, ∃ x, m.threads t = .out (.run (.ret (some x))) := by
  obtain ⟨F, hF⟩ := locked_finish fun t => (⟨[.item 0 1, .item 1 1], [], [t]⟩ : Session Nat Nat)
  obtain ⟨m, hm, hall⟩ := hF F (fun _ => le_rfl) 2 _ (.nil _) (fun _ _ => True)
    fun m _ _ _ ⟨t, ht⟩ => ⟨t, ht, trivial⟩
  exact ⟨F, m, hm, fun t ht => by obtain ⟨x, _, e, _⟩ := hall t ht; exact ⟨x, e⟩⟩

end Verif.ArenaBdd

namespace Verif.ArenaZdd1

open Verif.Arena Verif.Zdd1

universe u
variable {T : Type u} [LinearOrder T]

/-- C83 for the trees of the first weave package (the write lock is taken at once). -/
theorem locked_exact (qs : Nat → Ex T × List T × List T) :
    ∃ F : Nat → Nat, ∀ f : Nat → Nat, (∀ t, F t ≤ f t) → ∀ N m,
      FRun true false true (fstart (crew N fun t => threadP (f t) (qs t))) m →
      (∀ t, m.threads t ≠ .out .panicked) ∧
      (∀ t < N, ∀ r, m.threads t = .out (.run (.ret r)) → ∃ x : TreeC T, r = some (x, (qs t).1.eval.combinations,
        (qs t).1.eval.combinationsRecursive, (qs t).1.eval.combinationsWith (qs t).2.1 (qs t).2.2) ∧
        x.univ = (qs t).1.eval.univ) ∧
      (∀ A : Policy Nat Bool (fun _ => Option (TreeC T × List (List T) × List (List T) × List (List T))), A.Live →
        (∃ t, ¬ (m.threads t).Finished) → ∃ t m', PStep A true false true t m m') ∧
      (∀ σ : Nat → FMachine Nat Bool (fun _ => Option (TreeC T × List (List T) × List (List T) × List (List T))),
        σ 0 = m → ¬ ∀ k, ∃ t, FStep true false true t (σ k) (σ (k + 1))) := by
  obtain ⟨F, hF⟩ := boot_ok qs
  refine ⟨F, fun f hf N m hm => ?_⟩
  obtain ⟨h1, ⟨b, _, h2⟩, h3, h4⟩ := crew_runs (fun t => right_stable (qs t)) (init_sound (by decide)) (hF f hf) N hm
  refine ⟨h1, fun t ht r e => ?_, h3, h4⟩
  obtain ⟨⟨x, cs⟩, rfl, hd, he⟩ := h2 t ht r e
  refine ⟨x, ?_, hd.2⟩
  have he : cs = _ := he
  rw [he]

/-- C83: under every admission policy the `N` threads reach their ends, with the lists of the sequential
model. -/
theorem locked_finish (qs : Nat → Ex T × List T × List T) :
    ∃ F : Nat → Nat, ∀ f : Nat → Nat, (∀ t, F t ≤ f t) → ∀ N m,
      FRun true false true (fstart (crew N fun t => threadP (f t) (qs t))) m →
      ∀ A : Policy Nat Bool (fun _ => Option (TreeC T × List (List T) × List (List T) × List (List T))), A.Live →
      ∃ m', PRun A true false true m m' ∧ ∀ t < N, ∃ x : TreeC T,
        m'.threads t = .out (.run (.ret (some (x, (qs t).1.eval.combinations, (qs t).1.eval.combinationsRecursive,
          (qs t).1.eval.combinationsWith (qs t).2.1 (qs t).2.2)))) := by
  obtain ⟨F, hF⟩ := boot_ok qs
  refine ⟨F, fun f hf N m hm A hA => ?_⟩
  obtain ⟨m', hr, b, _, hall⟩ := crew_finish (fun t => right_stable (qs t)) (init_sound (by decide)) (hF f hf) N hm A hA
  refine ⟨m', hr, fun t ht => ?_⟩
  obtain ⟨⟨x, cs⟩, e, hd, he⟩ := hall t ht
  have he : cs = _ := he
  subst he
  exact ⟨x, e⟩

end Verif.ArenaZdd1
