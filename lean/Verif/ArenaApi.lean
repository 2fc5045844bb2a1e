import Verif.ArenaRogue

/-!
# Clients of any API over the shared arena (C103, C104)

The generic part of `ArenaForestClient` (zdd2 forests) and `ArenaTreeClient` (zdd v1 trees): clients that decide each
next call from the answers so far, threads handing what they hold to new threads, next to threads doing anything
at all.  Unlike C98 this also covers clients that panic when they run alone: they panic here too.
-/

set_option linter.dupNamespace false
set_option linter.unusedSectionVars false
set_option linter.unusedVariables false
set_option linter.unusedSimpArgs false
set_option linter.checkUnivs false

namespace Verif.Arena

universe u v w w' x y z o
variable {K : Type u} {L : Type v} [DecidableEq K] [DecidableEq L] {α : Type w} {β : Type w'}

/-! ## A logic for programs that may panic -/

/-- The program, started now and interleaved with any others, does not spin and ends with an outcome satisfying `Q`:
`none` is a panic.  Not code: used to state or prove properties. -/
def wpo : Prog K L α → Arena K L → (Arena K L → Option α → Prop) → Prop
  | .ret x, a, Q => Q a (some x)
  | .load i k, a, Q => ∃ c, a.getById i = some c ∧ ∀ b, Ext a b → wpo (k c) b Q
  | .intern c k, a, Q => InRange a c ∧ ∀ b i, Ext a b → b.getById i = some c → wpo (k i) b Q
  | .panic, a, Q => Q a none
  | .spin, _, _ => False

theorem wpo_imp {p : Prog K L α} {a : Arena K L} {Q R : Arena K L → Option α → Prop}
    (h : wpo p a Q) (hi : ∀ b x, Q b x → R b x) : wpo p a R := by
  induction p generalizing a with
  | ret x => exact hi _ _ h
  | load i k ih =>
    obtain ⟨c, hc, hk⟩ := h
    exact ⟨c, hc, fun b hb => ih c (hk b hb)⟩
  | intern c k ih => exact ⟨h.1, fun b i hb hi' => ih i (h.2 b i hb hi')⟩
  | panic => exact hi _ _ h
  | spin => exact h

theorem wpo_of_wp {p : Prog K L α} {a : Arena K L} {Q : Arena K L → α → Prop} {R : Arena K L → Option α → Prop}
    (h : wp p a Q) (hi : ∀ b x, Q b x → R b (some x)) : wpo p a R := by
  induction p generalizing a with
  | ret x => exact hi _ _ h
  | load i k ih =>
    obtain ⟨c, hc, hk⟩ := h
    exact ⟨c, hc, fun b hb => ih c (hk b hb)⟩
  | intern c k ih => exact ⟨h.1, fun b i hb hi' => ih i (h.2 b i hb hi')⟩
  | panic => exact h.elim
  | spin => exact h

theorem wpo_bind {p : Prog K L α} {f : α → Prog K L β} {a : Arena K L} {Q : Arena K L → Option α → Prop}
    {R : Arena K L → Option β → Prop} (h : wpo p a Q) (h0 : ∀ b, Q b none → R b none)
    (h1 : ∀ b x, Q b (some x) → wpo (f x) b R) : wpo (p.bind f) a R := by
  induction p generalizing a with
  | ret x => exact h1 _ _ h
  | load i k ih =>
    obtain ⟨c, hc, hk⟩ := h
    exact ⟨c, hc, fun b hb => ih c (hk b hb)⟩
  | intern c k ih => exact ⟨h.1, fun b i hb hi' => ih i (h.2 b i hb hi')⟩
  | panic => exact h0 _ h
  | spin => exact h

/-- A postcondition other threads cannot invalidate.  Not code: used to state or prove properties. -/
def StableO (Q : Arena K L → Option α → Prop) : Prop := ∀ a b x, Ext a b → Q a x → Q b x

theorem wpo_mono {p : Prog K L α} {a b : Arena K L} {Q : Arena K L → Option α → Prop}
    (hQ : StableO Q) (h : wpo p a Q) (hab : Ext a b) : wpo p b Q := by
  cases p with
  | ret x => exact hQ a b _ hab h
  | load i k =>
    obtain ⟨c, hc, hk⟩ := h
    exact ⟨c, hab.keep _ _ hc, fun d hd => hk d (hab.trans hd)⟩
  | intern c k => exact ⟨h.1.mono hab, fun d i hd hi => h.2 d i (hab.trans hd) hi⟩
  | panic => exact hQ a b _ hab h
  | spin => exact h

/-- The logic for a thread state.  Not code: used to state or prove properties. -/
def wpoT : Thread K L α → Arena K L → (Arena K L → Option α → Prop) → Prop
  | .run p, a, Q => wpo p a Q
  | .missed c k, a, Q => wpo (.intern c k) a Q
  | .panicked, a, Q => Q a none

theorem wpoT_mono {th : Thread K L α} {a b : Arena K L} {Q : Arena K L → Option α → Prop}
    (hQ : StableO Q) (h : wpoT th a Q) (hab : Ext a b) : wpoT th b Q := by
  cases th with
  | run p => exact wpo_mono hQ h hab
  | missed c k => exact wpo_mono hQ h hab
  | panicked => exact hQ a b _ hab h

theorem tstep_outcome {a a' : Arena K L} {th th' : Thread K L α} {Q : Arena K L → Option α → Prop}
    (h : TStep a th a' th') (hI : a.Inv) (hw : wpoT th a Q) : wpoT th' a' Q := by
  cases h with
  | load hc =>
    obtain ⟨d, hd, hk⟩ := hw
    rw [hc] at hd; cases hd
    exact hk _ (Ext.refl hI)
  | loadMissing hc =>
    obtain ⟨d, hd, _⟩ := hw
    rw [hc] at hd; cases hd
  | hit hi => exact hw.2 _ _ (Ext.refl hI) ((hI.index _ _).1 hi)
  | miss hc => exact hw
  | panic => exact hw
  | @add c k => exact hw.2 _ _ (add_ext hI c) (add_getById hI.index _)
  | @addDirect c k => exact hw.2 _ _ (add_ext hI c) (add_getById hI.index _)

theorem mstep_outcome {α : Nat → Type w} {m m' : Machine K L α} {t : Nat} {Q : Arena K L → Option (α t) → Prop}
    (hQ : StableO Q) (h : MStep m m') (hI : m.arena.Inv) (hw : wpoT (m.threads t) m.arena Q) :
    Ext m.arena m'.arena ∧ wpoT (m'.threads t) m'.arena Q := by
  cases h with
  | step s hs =>
    have he := tstep_ext hs hI
    refine ⟨he, ?_⟩
    by_cases e : t = s
    · subst e
      simpa using tstep_outcome hs hI hw
    · simp only [Function.update_of_ne e]
      exact wpoT_mono hQ hw he

theorem mrun_outcome {α : Nat → Type w} {m m' : Machine K L α} {t : Nat} {Q : Arena K L → Option (α t) → Prop}
    (hQ : StableO Q) (h : MRun m m') (hI : m.arena.Inv) (hw : wpoT (m.threads t) m.arena Q) :
    Ext m.arena m'.arena ∧ wpoT (m'.threads t) m'.arena Q := by
  induction h with
  | nil => exact ⟨Ext.refl hI, hw⟩
  | cons h1 _ ih =>
    obtain ⟨he, hw'⟩ := mstep_outcome hQ h1 hI hw
    obtain ⟨he', hw''⟩ := ih he.right hw'
    exact ⟨he.trans he', hw''⟩

theorem outcome_moves {a : Arena K L} {th : Thread K L α} {Q : Arena K L → Option α → Prop} (h : wpoT th a Q) :
    th = .panicked ∨ (∃ x, th = .run (.ret x)) ∨ ∃ a' th', TStep a th a' th' := by
  cases th with
  | panicked => exact .inl rfl
  | missed c k => exact .inr (.inr ⟨_, _, .add⟩)
  | run p =>
    cases p with
    | ret x => exact .inr (.inl ⟨x, rfl⟩)
    | load i k => obtain ⟨c, hc, _⟩ := h; exact .inr (.inr ⟨_, _, .load hc⟩)
    | intern c k => exact .inr (.inr ⟨_, _, .addDirect⟩)
    | panic => exact .inr (.inr ⟨_, _, .panic⟩)
    | spin => exact h.elim

/-- Such a thread can come to its end while all the others stand still. -/
theorem outcome_finish {α : Nat → Type w} {m : Machine K L α} {t : Nat} {Q : Arena K L → Option (α t) → Prop}
    (hQ : StableO Q) (hI : m.arena.Inv) (hw : wpoT (m.threads t) m.arena Q) :
    ∃ m', MRun m m' ∧ (∀ s, s ≠ t → m'.threads s = m.threads s) ∧
      (m'.threads t = .panicked ∧ Q m'.arena none ∨ ∃ x, m'.threads t = .run (.ret x) ∧ Q m'.arena (some x)) := by
  have key : ∀ th : Thread K L (α t), ∀ m : Machine K L α, m.arena.Inv → m.threads t = th → wpoT th m.arena Q →
      ∃ m', MRun m m' ∧ (∀ s, s ≠ t → m'.threads s = m.threads s) ∧
      (m'.threads t = .panicked ∧ Q m'.arena none ∨ ∃ x, m'.threads t = .run (.ret x) ∧ Q m'.arena (some x)) := by
    intro th
    have wf := steps_finite (K := K) (L := L) (α := α t)
    apply wf.induction th
    intro th ih m hI e hw
    rcases outcome_moves hw with rfl | ⟨x, rfl⟩ | ⟨a, th', hs⟩
    · exact ⟨m, .nil _, fun _ _ => rfl, .inl ⟨e, hw⟩⟩
    · exact ⟨m, .nil _, fun _ _ => rfl, .inr ⟨x, e, hw⟩⟩
    · have hst : MStep m { arena := a, threads := Function.update m.threads t th' } := .step t (by rw [e]; exact hs)
      obtain ⟨m2, r2, k2, d2⟩ := ih th' ⟨_, _, hs⟩ ⟨a, Function.update m.threads t th'⟩ (tstep_ext hs hI).right
        (by simp) (tstep_outcome hs hI hw)
      refine ⟨m2, .cons hst r2, fun s hne => ?_, d2⟩
      rw [k2 s hne]
      exact Function.update_of_ne hne _ _
  exact key _ m hI rfl hw

/-- The program panics, whatever the other threads do meanwhile.  Not code: used to state or prove properties. -/
def Fails (p : Prog K L α) (a : Arena K L) : Prop := wpo p a (fun _ r => r = none)

theorem Fails.bind {p : Prog K L α} {a : Arena K L} (h : Fails p a) (f : α → Prog K L β) : Fails (p.bind f) a :=
  wpo_bind h (fun _ _ => rfl) (fun _ _ e => by cases e)

theorem fails_bind {p : Prog K L α} {f : α → Prog K L β} {a : Arena K L} {R : Arena K L → α → Prop}
    (h : Yields p a R) (hf : ∀ b x, Ext a b → R b x → Fails (f x) b) : Fails (p.bind f) a :=
  wpo_bind (Q := fun b r => ∃ x, r = some x ∧ Ext a b ∧ R b x)
    (wpo_of_wp h fun b x hx => ⟨x, rfl, hx⟩) (fun _ ⟨_, e, _⟩ => by cases e)
    (fun b x ⟨_, e, h1, h2⟩ => by cases e; exact hf b x h1 h2)

theorem fails_load {i : Nat} {t : Tr K L} {a : Arena K L} {k : Cell K L → Prog K L α} (hu : Unfolds a i t)
    (h : ∀ b c, Ext a b → CellDen b c t → Fails (k c) b) : Fails (.load i k) a := by
  obtain ⟨c, hc, hd⟩ := unfolds_iff.1 hu
  exact ⟨c, hc, fun b hb => h b c hb (hd.mono hb)⟩

/-- A client that names something it does not hold panics.  Not code: used to state or prove properties. -/
def named (o : Option α) (k : α → Prog K L β) : Prog K L β :=
  match o with
  | none => .panic
  | some x => k x

/-! ## Clients -/

/-- A library over the arena.  `V` are the values the calls are about (forests, trees), as the sequential model has
them; `VC` are the same values as the code has them, with node ids; `den` says when one stands for the other.
`alone` is a call in a process of its own (`none` is a panic); `prog` is the same call as a program over the arena,
its first argument bounds the depth of its recursions.  A client holds a list of values and names them by
position.  Not code: used to state or prove properties. -/
structure Api (K : Type u) (L : Type v) where
  Op : Type w
  Reply : Type w'
  V : Type x
  VC : Type y
  good : Arena K L → Prop
  den : V → Arena K L → VC → Prop
  alone : List V → Op → Option (List V × Reply)
  prog : Nat → List VC → Op → Prog K L (List VC × Reply)

/-- What a thread holds stands for what the sequential client holds.  Not code: used to state or prove properties. -/
def Api.Holds (A : Api.{u, v, w, w', x, y} K L) (g : List A.V) (a : Arena K L) (s : List A.VC) : Prop :=
  List.Forall₂ (fun c v => A.den v a c) s g

/-- Every call, next to any other threads, ends as it does alone: with the same answer, or with a panic.
Not code: used to state or prove properties. -/
structure Api.Sound (A : Api.{u, v, w, w', x, y} K L) (l0 l1 : L) : Prop where
  init : A.good (Arena.init l0 l1)
  good_mono : ∀ {a b}, A.good a → Ext a b → A.good b
  den_mono : ∀ {v a b c}, A.den v a c → Ext a b → A.den v b c
  ok : ∀ op g g' r, A.alone g op = some (g', r) → ∃ F, ∀ f ≥ F, ∀ a s, a.Inv → A.good a → A.Holds g a s →
    Yields (A.prog f s op) a (fun b x => A.Holds g' b x.1 ∧ x.2 = r)
  fails : ∀ op g, A.alone g op = none → ∃ F, ∀ f ≥ F, ∀ a s, a.Inv → A.good a → A.Holds g a s →
    Fails (A.prog f s op) a

/-- A client: it ends with an output, or makes a call and goes on depending on the answer.
Not code: used to state or prove properties. -/
inductive Client (Op : Type w) (Reply : Type w') (O : Type o) where
  | ends (o : O)
  | call (op : Op) (k : Reply → Client Op Reply O)

variable {A : Api.{u, v, w, w', x, y} K L} {l0 l1 : L} {O : Type o}

/-- The client in a process of its own: what it holds at its end and its output; `none` is a panic.
Not code: used to state or prove properties. -/
def Client.alone (A : Api.{u, v, w, w', x, y} K L) : Client A.Op A.Reply O → List A.V → Option (List A.V × O)
  | .ends o, s => some (s, o)
  | .call op k, s => (A.alone s op).bind fun r => (k r.2).alone A r.1

/-- The client as a thread over the shared arena.  Not code: used to state or prove properties. -/
def clientP (A : Api.{u, v, w, w', x, y} K L) (f : Nat) : Client A.Op A.Reply O → List A.VC → Prog K L (List A.VC × O)
  | .ends o, s => .ret (s, o)
  | .call op k, s => (A.prog f s op).bind fun r => clientP A f (k r.2) r.1

/-- How a client's thread may end, given how it ends alone.  Not code: used to state or prove properties. -/
def Post (A : Api.{u, v, w, w', x, y} K L) (out : Option (List A.V × O)) (a : Arena K L)
    (r : Option (List A.VC × O)) : Prop :=
  match out, r with
  | none, none => True
  | some (g, o), some (s, o') => A.Holds g a s ∧ o' = o
  | _, _ => False

theorem Api.Sound.holds_mono (hA : A.Sound l0 l1) {g : List A.V} {a b : Arena K L} {s : List A.VC}
    (h : A.Holds g a s) (e : Ext a b) : A.Holds g b s :=
  List.Forall₂.imp (fun _ _ hx => hA.den_mono hx e) h

theorem post_stable (hA : A.Sound l0 l1) (out : Option (List A.V × O)) : StableO (Post A out) := by
  rintro a b (_ | ⟨s, o'⟩) e h
  · cases out <;> exact h
  · cases out with
    | none => exact h
    | some p => exact ⟨hA.holds_mono h.1 e, h.2⟩

theorem client_outcome (hA : A.Sound l0 l1) (cl : Client A.Op A.Reply O) (g : List A.V) :
    ∃ F, ∀ f ≥ F, ∀ (a : Arena K L) s, a.Inv → A.good a → A.Holds g a s →
      wpo (clientP A f cl s) a (Post A (cl.alone A g)) := by
  induction cl generalizing g with
  | ends o => exact ⟨0, fun f hf a s hI hg hs => ⟨hs, rfl⟩⟩
  | call op k ih =>
    cases h1 : A.alone g op with
    | none =>
      obtain ⟨F, hF⟩ := hA.fails op g h1
      refine ⟨F, fun f hf a s hI hg hs => ?_⟩
      simp only [Client.alone, h1, Option.bind_none, clientP]
      exact wpo_imp ((hF f hf a s hI hg hs).bind _) fun b r hr => by rw [hr]; trivial
    | some p =>
      obtain ⟨g1, r⟩ := p
      obtain ⟨F1, hF1⟩ := hA.ok op g g1 r h1
      obtain ⟨F2, hF2⟩ := ih r g1
      refine ⟨F1 + F2, fun f hf a s hI hg hs => ?_⟩
      simp only [Client.alone, h1, Option.bind_some, clientP]
      refine wpo_bind (Q := fun b q => ∃ x, q = some x ∧ Ext a b ∧ A.Holds g1 b x.1 ∧ x.2 = r)
        (wpo_of_wp (hF1 f (by omega) a s hI hg hs) fun b x hx => ⟨x, rfl, hx⟩) (fun _ ⟨_, e, _⟩ => by cases e) ?_
      rintro b x ⟨_, e, he, h3, h4⟩
      cases e
      rw [h4]
      exact hF2 f (by omega) b x.1 he.right (hA.good_mono hg he) h3

/-! ## Threads that start further threads and hand values to them -/

/-- The values named by (thread, position) pairs among what finished threads hold.
Not code: used to state or prove properties. -/
def pick {V : Type x} (st : Nat → Option (List V)) (ns : List (Nat × Nat)) : Option (List V) :=
  ns.mapM fun p => (st p.1).bind (·[p.2]?)

/-- What a finished thread holds.  Not code: used to state or prove properties. -/
def held (m : Machine K L (fun _ => List A.VC × O)) (t : Nat) : Option (List A.VC) :=
  match m.threads t with
  | .run (.ret x) => some x.1
  | _ => none

/-- The process and, for each thread running a client, how the client ends in a process of its own.
Not code: used to state or prove properties. -/
structure World (A : Api.{u, v, w, w', x, y} K L) (O : Type o) where
  machine : Machine K L (fun _ => List A.VC × O)
  alone : Nat → Option (Option (List A.V × O))

/-- What the client of thread `t` holds when it has ended alone.  Not code: used to state or prove properties. -/
def World.kept (w : World A O) (t : Nat) : Option (List A.V) :=
  (w.alone t).bind fun r => r.map Prod.fst

/-- How a process goes on: a thread makes a step; or a new thread (or one taking the place of an old one) starts a
client with any values finished client threads hold; or a new thread starts anything at all.
`need` says how much fuel a client is given at least.  Not code: used to state or prove properties. -/
inductive World.Run (l0 l1 : L) (need : Client A.Op A.Reply O → List A.V → Nat) : World A O → Prop where
  | boot (ths : Nat → Thread K L (List A.VC × O)) : Run l0 l1 need ⟨⟨Arena.init l0 l1, ths⟩, fun _ => none⟩
  | step {w : World A O} {m} : Run l0 l1 need w → MStep w.machine m → Run l0 l1 need ⟨m, w.alone⟩
  | client {w : World A O} (t : Nat) (cl : Client A.Op A.Reply O) (ns : List (Nat × Nat)) (s g) (f : Nat) :
    Run l0 l1 need w → pick (held w.machine) ns = some s → pick w.kept ns = some g → need cl g ≤ f →
    Run l0 l1 need ⟨⟨w.machine.arena, Function.update w.machine.threads t (.run (clientP A f cl s))⟩,
      Function.update w.alone t (some (cl.alone A g))⟩
  | other {w : World A O} (t : Nat) (th : Thread K L (List A.VC × O)) : Run l0 l1 need w →
    Run l0 l1 need ⟨⟨w.machine.arena, Function.update w.machine.threads t th⟩, Function.update w.alone t none⟩

theorem World.Run.steps {need : Client A.Op A.Reply O → List A.V → Nat} {w : World A O}
    (h : World.Run l0 l1 need w) {m : Machine K L (fun _ => List A.VC × O)} (hm : MRun w.machine m) :
    World.Run l0 l1 need ⟨m, w.alone⟩ := by
  obtain ⟨m0, al⟩ := w
  dsimp only at hm ⊢
  induction hm with
  | nil => exact h
  | cons h1 _ ih => exact ih (World.Run.step h h1)

/-- Not code: used to state or prove properties. -/
def World.Ok (w : World A O) : Prop :=
  w.machine.arena.Inv ∧ A.good w.machine.arena ∧
  ∀ t out, w.alone t = some out → wpoT (w.machine.threads t) w.machine.arena (Post A out)

theorem held_rel {γ : Type x} {δ : Type y} {R : γ → δ → Prop} {xs : List γ} {ys : List δ} (h : List.Forall₂ R xs ys)
    {i : Nat} {y : δ} (hy : ys[i]? = some y) : ∃ x, xs[i]? = some x ∧ R x y := by
  induction h generalizing i with
  | nil => simp at hy
  | cons hx _ ih =>
    cases i with
    | zero => simp at hy; subst hy; exact ⟨_, by simp, hx⟩
    | succ i => simp at hy; simpa using ih hy

theorem pick_rel {γ : Type x} {δ : Type y} {ι : Type z} {R : γ → δ → Prop} {p : ι → Option γ} {q : ι → Option δ}
    (h : ∀ i x y, p i = some x → q i = some y → R x y) (l : List ι) {xs : List γ} {ys : List δ}
    (hx : l.mapM p = some xs) (hy : l.mapM q = some ys) : List.Forall₂ R xs ys := by
  induction l generalizing xs ys with
  | nil => simp at hx hy; subst hx; subst hy; exact .nil
  | cons i l ih =>
    simp only [List.mapM_cons, Option.bind_eq_bind, Option.bind_eq_some_iff, Option.pure_def, Option.some.injEq] at hx hy
    obtain ⟨x, h1, xs, h2, rfl⟩ := hx
    obtain ⟨y, h3, ys, h4, rfl⟩ := hy
    exact .cons (h i x y h1 h3) (ih h2 h4)

theorem pick_holds {w : World A O} (hw : w.Ok) {ns : List (Nat × Nat)} {s : List A.VC} {g : List A.V}
    (hs : pick (held w.machine) ns = some s) (hg : pick w.kept ns = some g) : A.Holds g w.machine.arena s := by
  refine pick_rel (fun p x y hx hy => ?_) ns hs hg
  obtain ⟨s, h5, h6⟩ := Option.bind_eq_some_iff.1 hx
  obtain ⟨g, h7, h8⟩ := Option.bind_eq_some_iff.1 hy
  obtain ⟨out, h9, h10⟩ := Option.bind_eq_some_iff.1 h7
  obtain ⟨r, rfl, rfl⟩ := Option.map_eq_some_iff.1 h10
  have hp := hw.2.2 p.1 _ h9
  have hd : A.Holds r.1 w.machine.arena s := by
    rw [held] at h5
    cases ht : w.machine.threads p.1 with
    | panicked => rw [ht] at h5; cases h5
    | missed _ _ => rw [ht] at h5; cases h5
    | run q =>
      rw [ht] at h5 hp
      cases q <;> first | (cases h5; exact hp.1) | cases h5
  obtain ⟨x', e1, h11⟩ := held_rel hd h8
  rw [h6] at e1; cases e1; exact h11

theorem world_ok (hA : A.Sound l0 l1) (hl : l0 ≠ l1) : ∃ need : Client A.Op A.Reply O → List A.V → Nat,
    ∀ w : World A O, World.Run l0 l1 need w → w.Ok := by
  choose need hn using client_outcome (O := O) hA
  refine ⟨need, fun w hw => ?_⟩
  induction hw with
  | boot ths => exact ⟨init_inv hl, hA.init, fun t r h => by cases h⟩
  | @step w m _ hs ih =>
    have he : Ext w.machine.arena m.arena := by
      cases hs with
      | step t ht => exact tstep_ext ht ih.1
    exact ⟨he.right, hA.good_mono ih.2.1 he, fun t r hr => (mstep_outcome (post_stable hA r) hs ih.1 (ih.2.2 t r hr)).2⟩
  | @client w t cl ns s g f _ hs hg hf ih =>
    refine ⟨ih.1, ih.2.1, fun t' r' h => ?_⟩
    by_cases ht : t' = t
    · subst ht
      simp only [Function.update_self, Option.some.injEq] at h ⊢
      subst h
      exact hn cl g f hf _ s ih.1 ih.2.1 (pick_holds ih hs hg)
    · simp only [Function.update_of_ne ht] at h ⊢
      exact ih.2.2 t' r' h
  | @other w t th _ ih =>
    refine ⟨ih.1, ih.2.1, fun t' r' h => ?_⟩
    by_cases ht : t' = t
    · subst ht; simp at h
    · simp only [Function.update_of_ne ht] at h ⊢
      exact ih.2.2 t' r' h

/-- Clients of a sound library, started at any time with any values finished client threads hold, next to threads
doing anything at all, under every schedule: a client's thread panics only if the client panics alone; one that
finishes does so only if the client finishes alone, with the same output, holding as much; one that has done neither
can go on; and at every moment it can come to its end, the same as alone, while all others stand still. -/
theorem worlds_exact (hA : A.Sound l0 l1) (hl : l0 ≠ l1) : ∃ need : Client A.Op A.Reply O → List A.V → Nat,
    ∀ w : World A O, World.Run l0 l1 need w → ∀ t out, w.alone t = some out →
      (w.machine.threads t = .panicked → out = none) ∧
      (∀ s o, w.machine.threads t = .run (.ret (s, o)) → ∃ g, out = some (g, o) ∧ s.length = g.length) ∧
      (w.machine.threads t = .panicked ∨ (∃ r, w.machine.threads t = .run (.ret r)) ∨
        ∃ a th, TStep w.machine.arena (w.machine.threads t) a th) ∧
      ∃ m, World.Run l0 l1 need ⟨m, w.alone⟩ ∧ MRun w.machine m ∧ (∀ s, s ≠ t → m.threads s = w.machine.threads s) ∧
        (out = none → m.threads t = .panicked) ∧
        ∀ g o, out = some (g, o) → ∃ s, m.threads t = .run (.ret (s, o)) ∧ s.length = g.length := by
  obtain ⟨need, h⟩ := world_ok (A := A) (O := O) hA hl
  refine ⟨need, fun w hw t out ht => ?_⟩
  have hk := h w hw
  have hwp := hk.2.2 t out ht
  refine ⟨fun e => ?_, fun s o e => ?_, outcome_moves hwp, ?_⟩
  · rw [e] at hwp
    cases out with
    | none => rfl
    | some p => exact hwp.elim
  · rw [e] at hwp
    cases out with
    | none => exact hwp.elim
    | some p =>
      obtain ⟨g, o'⟩ := p
      obtain ⟨h1, h2⟩ := hwp
      exact ⟨g, by rw [h2], h1.length_eq⟩
  · obtain ⟨m, hm, hs, hx⟩ := outcome_finish (post_stable hA out) hk.1 hwp
    refine ⟨m, hw.steps hm, hm, hs, fun e => ?_, fun g o e => ?_⟩
    · subst e
      rcases hx with hx | ⟨x, _, hx⟩
      · exact hx.1
      · exact hx.elim
    · subst e
      rcases hx with hx | ⟨⟨s, o'⟩, hx, h1, h2⟩
      · exact hx.2.elim
      · exact ⟨s, by rw [hx, show o' = o from h2], h1.length_eq⟩

/-- A new client can be started and come to its end while all the others stand still. -/
theorem spawn (hA : A.Sound l0 l1) {need : Client A.Op A.Reply O → List A.V → Nat}
    (hn : ∀ w : World A O, World.Run l0 l1 need w → w.Ok) {w : World A O} (hw : World.Run l0 l1 need w) (t : Nat)
    (cl : Client A.Op A.Reply O) (ns : List (Nat × Nat)) {s : List A.VC} {g : List A.V}
    (hs : pick (held w.machine) ns = some s) (hg : pick w.kept ns = some g) {out : Option (List A.V × O)}
    (ho : cl.alone A g = out) :
    ∃ m, World.Run l0 l1 need ⟨m, Function.update w.alone t (some out)⟩ ∧
      (∀ u, u ≠ t → m.threads u = w.machine.threads u) ∧ (out = none → m.threads t = .panicked) ∧
      ∀ g' o, out = some (g', o) → ∃ s', m.threads t = .run (.ret (s', o)) ∧ s'.length = g'.length := by
  subst ho
  have r2 := World.Run.client t cl ns s g _ hw hs hg le_rfl
  have hk := hn _ r2
  obtain ⟨m, hm, hs', hx⟩ := outcome_finish (post_stable hA (cl.alone A g)) hk.1 (hk.2.2 t _ (by simp))
  refine ⟨m, r2.steps hm, fun u hu => ?_, fun e => ?_, fun g' o e => ?_⟩
  · rw [hs' u hu]
    exact Function.update_of_ne hu _ _
  · rcases hx with hx | ⟨x, _, hx⟩
    · exact hx.1
    · rw [e] at hx; exact hx.elim
  · rcases hx with hx | ⟨⟨s', o'⟩, h1, hx⟩
    · have := hx.2; rw [e] at this; exact this.elim
    · rw [e] at hx
      exact ⟨s', by rw [h1, show o' = o from hx.2], hx.1.length_eq⟩

/-- With every lock operation and every read and write of the arena interleaved at will, clients started with the
process: no client's thread panics that does not panic alone; whichever finishes has the output it has alone; and
those that do not panic alone all come to their end, under every lock policy that lets some waiting thread in. -/
theorem clients_locked (hA : A.Sound l0 l1) (hl : l0 ≠ l1) (direct : Bool) (G : Nat → Prop)
    (cl : Nat → Client A.Op A.Reply O) :
    ∃ F : Nat → Nat, ∀ (f : Nat → Nat) (ths : Nat → Thread K L (List A.VC × O)),
      (∀ t, G t → F t ≤ f t ∧ ths t = .run (clientP A (f t) (cl t) [])) →
      ∀ m, FRun direct l0 l1 (fstart ths) m →
      (∀ t, G t → m.threads t = .out .panicked → (cl t).alone A [] = none) ∧
      (∀ t, G t → ∀ s o, m.threads t = .out (.run (.ret (s, o))) → ∃ g, (cl t).alone A [] = some (g, o)) ∧
      ({t | ¬ (FThread.out (ths t)).Finished}.Finite →
        (∀ P : Policy K L (fun _ => List A.VC × O), P.Live →
          (∃ t, G t ∧ (cl t).alone A [] ≠ none ∧ ¬ (m.threads t).Finished) → ∃ t m', PStep P direct l0 l1 t m m') ∧
        (∀ P : Policy K L (fun _ => List A.VC × O), P.Live →
          ∃ m', PRun P direct l0 l1 m m' ∧
            ∀ t, G t → (cl t).alone A [] ≠ none → ∃ s, m'.threads t = .out (.run (.ret s))) ∧
        (∀ σ : Nat → FMachine K L (fun _ => List A.VC × O), σ 0 = m →
          ¬ ∀ k, ∃ t, FStep direct l0 l1 t (σ k) (σ (k + 1)))) := by
  choose F hF using fun t => client_outcome (O := O) hA (cl t) []
  refine ⟨F, fun f ths h m hm => ?_⟩
  have hw : ∀ t, G t → wpoT (ths t) (Arena.init l0 l1) (Post A ((cl t).alone A [])) := by
    intro t ht
    rw [(h t ht).2]
    exact hF t (f t) (h t ht).1 _ [] (init_inv hl) hA.init .nil
  obtain ⟨n, hn, h1, h2, _⟩ := sections_atomic hm
  have hwn := fun t ht => (mrun_outcome (post_stable hA _) hn (init_inv hl) (hw t ht)).2
  refine ⟨fun t ht e => ?_, fun t ht s o e => ?_, fun hfin => ?_⟩
  · have := hwn t ht
    rw [h2 t e] at this
    cases hc : (cl t).alone A [] with
    | none => rfl
    | some p => rw [hc] at this; exact this.elim
  · have := hwn t ht
    rw [h1 t _ e] at this
    cases hc : (cl t).alone A [] with
    | none => rw [hc] at this; exact this.elim
    | some p =>
      rw [hc] at this
      obtain ⟨g, o'⟩ := p
      exact ⟨g, by rw [show o = o' from this.2]⟩
  · have hwp : ∀ t, (G t ∧ (cl t).alone A [] ≠ none) → wpT (ths t) (Arena.init l0 l1) (fun _ _ => True) := by
      rintro t ⟨ht, hc⟩
      have hs : ∀ (p : Prog K L (List A.VC × O)) (a : Arena K L), wpo p a (Post A ((cl t).alone A [])) →
          wp p a (fun _ _ => True) := by
        intro p
        induction p with
        | ret x => intro _ _; trivial
        | load i k ih => exact fun a ⟨c, e, hk⟩ => ⟨c, e, fun b hb => ih c b (hk b hb)⟩
        | intern c k ih => exact fun a hk => ⟨hk.1, fun b i hb hi => ih i b (hk.2 b i hb hi)⟩
        | panic =>
          intro a hp
          cases e : (cl t).alone A [] with
          | none => exact hc e
          | some q => rw [e] at hp; exact hp
        | spin => exact fun a hp => hp
      have := hw t ht
      rw [(h t ht).2] at this ⊢
      exact hs _ _ this
    obtain ⟨_, _, h3, h4, h5⟩ := among_runs (G := fun t => G t ∧ (cl t).alone A [] ≠ none)
      (Q := fun _ _ _ => True) hl (fun _ _ _ _ _ _ h => h) hwp hfin hm
    refine ⟨fun P hP ⟨t, h6, h7, h8⟩ => h3 P hP ⟨t, ⟨h6, h7⟩, h8⟩, fun P hP => ?_, h5⟩
    obtain ⟨m', hm', hx⟩ := h4 P hP
    exact ⟨m', hm', fun t h6 h7 => hx t ⟨h6, h7⟩⟩

end Verif.Arena
