import Verif.ArenaRepeat
import Verif.ArenaApi

/-!
# What the arena holds does not depend on the schedule (C107)

The arena only grows.  This file proves that what it holds once some threads have finished is a function of the
programs they ran: the union of what each of them adds when it runs alone in a fresh process.  The reason is that no
operation looks at the number of an id: it only loads it, stores it in a node, or compares it with another
(`Blind`, proved operation by operation in the three packages).
-/

set_option linter.unusedSectionVars false
set_option linter.unusedVariables false

namespace Verif.Arena

universe u v w w' w'' x
variable {K : Type u} {L : Type v} [DecidableEq K] [DecidableEq L]

/-- The diagrams whose nodes the arena holds.  Not code: used to state or prove properties. -/
def diagrams (a : Arena K L) : Set (Tr K L) := {t | ∃ i, Unfolds a i t}

/-! ## Programs that do not look at the numbers of ids -/

/-- A correspondence between the ids of two processes.  Not code: used to state or prove properties. -/
structure Pairing (R : Nat → Nat → Prop) : Prop where
  fwd : ∀ i j j', R i j → R i j' → j = j'
  bwd : ∀ i i' j, R i j → R i' j → i = i'
  zero : R 0 0
  one : R 1 1

/-- Nodes that are the same but for the ids in them.  Not code: used to state or prove properties. -/
inductive CellRel (R : Nat → Nat → Prop) : Cell K L → Cell K L → Prop where
  | leaf (l) : CellRel R (.leaf l) (.leaf l)
  | branch {k lo hi lo' hi'} : R lo lo' → R hi hi' → CellRel R (.branch k lo hi) (.branch k lo' hi')

/-- Programs that do the same but for the ids.  Not code: used to state or prove properties. -/
inductive Alike {α : Type w} {β : Type w'} (R : Nat → Nat → Prop) (S : α → β → Prop) :
    Prog K L α → Prog K L β → Prop where
  | ret {x y} : S x y → Alike R S (.ret x) (.ret y)
  | load {i j k k'} : R i j → (∀ c d, CellRel R c d → Alike R S (k c) (k' d)) → Alike R S (.load i k) (.load j k')
  | intern {c d k k'} : CellRel R c d → (∀ i j, R i j → Alike R S (k i) (k' j)) →
      Alike R S (.intern c k) (.intern d k')
  | panic : Alike R S .panic .panic
  | spin : Alike R S .spin .spin

/-- The program does not depend on the numbers of the ids.  Not code: used to state or prove properties. -/
def Blind {α : Type w} (p : Prog K L α) : Prop :=
  ∀ R : Nat → Nat → Prop, Pairing R → Alike R (fun _ _ => True) p p

theorem Alike.bind {α : Type w} {β : Type w'} {γ : Type w''} {δ : Type x} {R : Nat → Nat → Prop} {S : α → β → Prop}
    {S' : γ → δ → Prop} {p : Prog K L α} {q : Prog K L β} {f : α → Prog K L γ} {g : β → Prog K L δ}
    (h : Alike R S p q) (hf : ∀ x y, S x y → Alike R S' (f x) (g y)) : Alike R S' (p.bind f) (q.bind g) := by
  induction h with
  | ret hs => exact hf _ _ hs
  | load hr _ ih => exact .load hr ih
  | intern hc _ ih => exact .intern hc ih
  | panic => exact .panic
  | spin => exact .spin

theorem Alike.imp {α : Type w} {β : Type w'} {R : Nat → Nat → Prop} {S S' : α → β → Prop}
    {p : Prog K L α} {q : Prog K L β} (h : Alike R S p q) (hs : ∀ x y, S x y → S' x y) : Alike R S' p q := by
  induction h with
  | ret h => exact .ret (hs _ _ h)
  | load hr _ ih => exact .load hr ih
  | intern hc _ ih => exact .intern hc ih
  | panic => exact .panic
  | spin => exact .spin

theorem Alike.ite {α : Type w} {β : Type w'} {R : Nat → Nat → Prop} {S : α → β → Prop} {A B : Prop} [Decidable A]
    [Decidable B] {p p' : Prog K L α} {q q' : Prog K L β} (h : A ↔ B) (h1 : Alike R S p q) (h2 : Alike R S p' q') :
    Alike R S (if A then p else p') (if B then q else q') := by
  by_cases ha : A
  · rw [if_pos ha, if_pos (h.1 ha)]; exact h1
  · rw [if_neg ha, if_neg (fun hb => ha (h.2 hb))]; exact h2

theorem CellRel.eq_iff {R : Nat → Nat → Prop} (hR : Pairing R) {c c' d d' : Cell K L} (h : CellRel R c d)
    (h' : CellRel R c' d') : c = c' ↔ d = d' := by
  cases h with
  | leaf l =>
    cases h' with
    | leaf l' => simp
    | branch _ _ => simp
  | branch h1 h2 =>
    cases h' with
    | leaf l' => simp
    | branch h3 h4 =>
      constructor
      · intro e
        cases e
        rw [hR.fwd _ _ _ h1 h3, hR.fwd _ _ _ h2 h4]
      · intro e
        cases e
        rw [hR.bwd _ _ _ h1 h3, hR.bwd _ _ _ h2 h4]

/-- Not code: used to state or prove properties. -/
inductive ArgRel (R : Nat → Nat → Prop) : Arg K L → Arg K L → Prop where
  | id {i j} : R i j → ArgRel R (.id i) (.id j)
  | node {c d} : CellRel R c d → ArgRel R (.node c) (.node d)

theorem Alike.into {α : Type w} {β : Type w'} {R : Nat → Nat → Prop} {S : α → β → Prop} {x y : Arg K L}
    {k : Nat → Prog K L α} {k' : Nat → Prog K L β} (h : ArgRel R x y) (hk : ∀ i j, R i j → Alike R S (k i) (k' j)) :
    Alike R S (x.into k) (y.into k') := by
  cases h with
  | id h => exact hk _ _ h
  | node h => exact .intern h hk

theorem Alike.fold {β : Type w} {γ δ : Type w'} {R : Nat → Nat → Prop} {S : γ → δ → Prop}
    {step : γ → β → Prog K L γ} {step' : δ → β → Prog K L δ}
    (hs : ∀ e x y, S x y → Alike R S (step x e) (step' y e)) (es : List β) {x : γ} {y : δ} (h : S x y) :
    Alike R S (foldP step es x) (foldP step' es y) := by
  induction es generalizing x y with
  | nil => exact .ret h
  | cons e es ih => exact (hs e x y h).bind fun x y h => ih h

/-! ## What a run adds -/

/-- Walking through the program in the arena, one comes by the conversion of the node `c` to an id.
Not code: used to state or prove properties. -/
inductive Visits {α : Type w} (a : Arena K L) (c : Cell K L) : Prog K L α → Prop where
  | here {k} : Visits a c (.intern c k)
  | load {i k d} : a.getById i = some d → Visits a c (k d) → Visits a c (.load i k)
  | intern {d k i} : a.getByNode d = some i → Visits a c (k i) → Visits a c (.intern d k)

/-- The same for a thread.  Not code: used to state or prove properties. -/
def VisitsT {α : Type w} (a : Arena K L) (c : Cell K L) : Thread K L α → Prop
  | .run p => Visits a c p
  | .missed d k => Visits a c (.intern d k)
  | .panicked => False

theorem VisitsT.back {α : Type w} {a a' b : Arena K L} {c : Cell K L} {th th' : Thread K L α}
    (h : TStep a th a' th') (hI : a.Inv) (hab : Ext a' b) (hb : Ext a b) (hs : VisitsT b c th') :
    VisitsT b c th := by
  cases h with
  | load hc => exact .load (hb.keep _ _ hc) hs
  | loadMissing hc => exact hs.elim
  | hit hi => exact .intern (hb.node hi) hs
  | miss hc => exact hs
  | panic => exact hs.elim
  | add => exact .intern (hab.node ((hab.left.index _ _).2 (add_getById hI.index _))) hs
  | addDirect => exact .intern (hab.node ((hab.left.index _ _).2 (add_getById hI.index _))) hs

theorem add_new {a : Arena K L} {c d : Cell K L} {i : Nat} (h : (a.add c).1.getById i = some d) :
    a.getById i = some d ∨ d = c := by
  unfold Arena.add at h
  cases e : a.getByNode c with
  | some j => rw [e] at h; exact .inl h
  | none =>
    rw [e] at h
    simp only [Arena.getById, List.getElem?_append] at h ⊢
    split_ifs at h with hlt
    · exact .inl h
    · right
      cases e' : i - a.nodes.length with
      | zero => rw [e'] at h; simpa using h.symm
      | succ n => rw [e'] at h; simp at h

theorem tstep_new {α : Type w} {a a' b : Arena K L} {th th' : Thread K L α} (h : TStep a th a' th') {i : Nat}
    {c : Cell K L} (hc : a'.getById i = some c) : a.getById i = some c ∨ VisitsT b c th := by
  cases h with
  | add =>
    rcases add_new hc with h | rfl
    · exact .inl h
    · exact .inr .here
  | addDirect =>
    rcases add_new hc with h | rfl
    · exact .inl h
    · exact .inr .here
  | load => exact .inl hc
  | loadMissing => exact .inl hc
  | hit => exact .inl hc
  | miss => exact .inl hc
  | panic => exact .inl hc

theorem mrun_ext {α : Nat → Type w} {m m' : Machine K L α} (h : MRun m m') (hI : m.arena.Inv) :
    Ext m.arena m'.arena := by
  induction h with
  | nil => exact Ext.refl hI
  | cons h1 _ ih =>
    cases h1 with
    | step t hs =>
      have he := tstep_ext hs hI
      exact he.trans (ih he.right)

theorem mrun_steps {α : Nat → Type w} {m m' : Machine K L α} (h : MRun m m') (t : Nat) :
    Relation.ReflTransGen (fun th th' : Thread K L (α t) => ∃ a a', TStep a th a' th') (m.threads t) (m'.threads t) := by
  induction h with
  | nil => exact .refl
  | @cons m m1 m' h1 _ ih =>
    cases h1 with
    | @step s a' th' hs =>
      by_cases e : s = t
      · subst e
        refine .head ⟨_, _, hs⟩ ?_
        simpa using ih
      · simpa [Function.update_of_ne (Ne.symm e)] using ih

/-- A thread that has made a step never is again in the state it was in. -/
theorem never_back {α : Type w} {th th' th'' : Thread K L α} (h : ∃ a a', TStep a th a' th')
    (hs : Relation.ReflTransGen (fun th th' : Thread K L α => ∃ a a', TStep a th a' th') th' th'') : th'' ≠ th := by
  rintro rfl
  have hg : Relation.TransGen (fun th th' : Thread K L α => ∃ a a', TStep a th a' th') th'' th'' := .head' h hs
  have wf := (steps_finite (K := K) (L := L) (α := α)).transGen
  have hg' : Relation.TransGen (fun (th' th : Thread K L α) => ∃ a a', TStep a th a' th') th'' th'' :=
    (Relation.transGen_swap (r := fun th th' : Thread K L α => ∃ a a', TStep a th a' th')).2 hg
  exact wf.irrefl.irrefl _ hg'

/-- Whatever is in the arena in the end was there before, or is converted by a thread that has started. -/
theorem mrun_new {α : Nat → Type w} {m m' : Machine K L α} (h : MRun m m') (hI : m.arena.Inv) {i : Nat}
    {c : Cell K L} (hc : m'.arena.getById i = some c) :
    m.arena.getById i = some c ∨ ∃ t, m'.threads t ≠ m.threads t ∧ VisitsT m'.arena c (m.threads t) := by
  induction h with
  | nil => exact .inl hc
  | @cons m m1 m' h1 h2 ih =>
    cases h1 with
    | @step s a' th' hs =>
      have he := tstep_ext hs hI
      have he' := mrun_ext h2 he.right
      have hne : m'.threads s ≠ m.threads s := by
        refine never_back ⟨_, _, hs⟩ ?_
        simpa using mrun_steps h2 s
      rcases ih he.right hc with h | ⟨t, ht, hv⟩
      · rcases tstep_new (b := m'.arena) hs h with h | h
        · exact .inl h
        · exact .inr ⟨s, hne, h⟩
      · right
        by_cases e : s = t
        · subst e
          dsimp only at hv
          rw [Function.update_self] at hv
          exact ⟨s, hne, hv.back hs hI he' (he.trans he')⟩
        · dsimp only at hv ht
          rw [Function.update_of_ne (Ne.symm e)] at hv ht
          exact ⟨t, ht, hv⟩

/-- The thread has come to its end: with a result or by a panic.  Not code: used to state or prove properties. -/
def Ended {α : Type w} (th : Thread K L α) : Prop := th = .panicked ∨ ∃ x, th = .run (.ret x)

/-- Walking through the program in the arena, one finds every node and comes to its end.
Not code: used to state or prove properties. -/
inductive Gone {α : Type w} (a : Arena K L) : Prog K L α → Prop where
  | ret (x) : Gone a (.ret x)
  | panic : Gone a .panic
  | load {i k c} : a.getById i = some c → Gone a (k c) → Gone a (.load i k)
  | intern {c k i} : a.getByNode c = some i → Gone a (k i) → Gone a (.intern c k)

/-- The same for a thread.  Not code: used to state or prove properties. -/
def GoneT {α : Type w} (a : Arena K L) : Thread K L α → Prop
  | .run p => Gone a p
  | .missed c k => Gone a (.intern c k)
  | .panicked => True

theorem GoneT.back {α : Type w} {a a' b : Arena K L} {th th' : Thread K L α} {Q : Arena K L → Option α → Prop}
    (h : TStep a th a' th') (hI : a.Inv) (hw : wpoT th a Q) (hab : Ext a' b) (hb : Ext a b) (hs : GoneT b th') :
    GoneT b th := by
  cases h with
  | load hc => exact .load (hb.keep _ _ hc) hs
  | loadMissing hc =>
    obtain ⟨d, hd, _⟩ := hw
    rw [hc] at hd; cases hd
  | hit hi => exact .intern (hb.node hi) hs
  | miss hc => exact hs
  | panic => exact .panic
  | add => exact .intern (hab.node ((hab.left.index _ _).2 (add_getById hI.index _))) hs
  | addDirect => exact .intern (hab.node ((hab.left.index _ _).2 (add_getById hI.index _))) hs

theorem ended_gone {α : Nat → Type w} {m m' : Machine K L α} {t : Nat} {Q : Arena K L → Option (α t) → Prop}
    (hQ : StableO Q) (h : MRun m m') (hI : m.arena.Inv) (hw : wpoT (m.threads t) m.arena Q)
    (he : Ended (m'.threads t)) : GoneT m'.arena (m.threads t) := by
  induction h with
  | nil =>
    rcases he with e | ⟨x, e⟩
    · rw [e]; trivial
    · rw [e]; exact .ret x
  | @cons m m1 m' h1 h2 ih =>
    obtain ⟨hx, hw'⟩ := mstep_outcome hQ h1 hI hw
    have hg := ih hx.right hw' he
    have hx' := mrun_ext h2 hx.right
    cases h1 with
    | @step s a' th' hst =>
      by_cases e : s = t
      · subst e
        dsimp only at hg hx'
        rw [Function.update_self] at hg
        exact hg.back hst hI hw hx' (hx.trans hx')
      · dsimp only at hg
        rwa [Function.update_of_ne (Ne.symm e)] at hg

theorem tstep_sound_outcome {α : Type w} {a a' : Arena K L} {th th' : Thread K L α}
    {Q : Arena K L → Option α → Prop} (h : TStep a th a' th') (hS : a.Sound) (hw : wpoT th a Q) : a'.Sound := by
  cases h with
  | @add c k =>
    refine add_sound hS fun k lo hi e => ?_
    have := hw.1
    rw [e] at this
    exact this
  | @addDirect c k =>
    refine add_sound hS fun k lo hi e => ?_
    have := hw.1
    rw [e] at this
    exact this
  | _ => exact hS

theorem mrun_sound_outcome {α : Nat → Type w} {m m' : Machine K L α}
    {Q : (t : Nat) → Arena K L → Option (α t) → Prop} (hQ : ∀ t, StableO (Q t)) (h : MRun m m')
    (hS : m.arena.Sound) (hw : ∀ t, wpoT (m.threads t) m.arena (Q t)) : m'.arena.Sound := by
  induction h with
  | nil => exact hS
  | cons h1 _ ih =>
    refine ih ?_ (fun t => (mstep_outcome (hQ t) h1 hS.toInv (hw t)).2)
    cases h1 with
    | step t hs => exact tstep_sound_outcome hs hS (hw t)

/-! ## Comparing two processes -/

/-- The id `i` of one process and the id `j` of the other denote the same diagram.
Not code: used to state or prove properties. -/
def Same (a b : Arena K L) (i j : Nat) : Prop := ∃ t, Unfolds a i t ∧ Unfolds b j t

theorem same_cell {a b : Arena K L} {i j : Nat} (h : Same a b i j) {c d : Cell K L} (hc : a.getById i = some c)
    (hd : b.getById j = some d) : CellRel (Same a b) c d := by
  obtain ⟨t, h1, h2⟩ := h
  cases h1 with
  | leaf e =>
    rw [hc] at e; cases e
    cases h2 with
    | leaf e => rw [hd] at e; cases e; exact .leaf _
  | branch e u1 u2 =>
    rw [hc] at e; cases e
    cases h2 with
    | branch e w1 w2 => rw [hd] at e; cases e; exact .branch ⟨_, u1, w1⟩ ⟨_, u2, w2⟩

theorem cell_same {a b : Arena K L} {c d : Cell K L} (h : CellRel (Same a b) c d) {i j : Nat}
    (hc : a.getById i = some c) (hd : b.getById j = some d) : Same a b i j := by
  cases h with
  | leaf l => exact ⟨_, .leaf hc, .leaf hd⟩
  | branch h1 h2 =>
    obtain ⟨t1, u1, w1⟩ := h1
    obtain ⟨t2, u2, w2⟩ := h2
    exact ⟨_, .branch hc u1 u2, .branch hd w1 w2⟩

theorem same_pairing {a b : Arena K L} {l0 l1 : L} (ha : Ext (Arena.init l0 l1) a) (hb : Ext (Arena.init l0 l1) b)
    (hl : l0 ≠ l1) : Pairing (Same a b) where
  fwd := fun i j j' ⟨t, h1, h2⟩ ⟨t', h1', h2'⟩ => by
    cases unfolds_fun h1 h1'
    exact unfolds_inj hb.right h2 h2'
  bwd := fun i i' j ⟨t, h1, h2⟩ ⟨t', h1', h2'⟩ => by
    cases unfolds_fun h2 h2'
    exact unfolds_inj ha.right h1 h1'
  zero := by
    have e : (Arena.init l0 l1 : Arena K L).getById 0 = some (.leaf l0) := by
      rw [Arena.init]
      exact add_mono _ _ rfl
    exact ⟨.leaf l0, .leaf (ha.keep _ _ e), .leaf (hb.keep _ _ e)⟩
  one := by
    have hne : ¬ (Cell.leaf l0 : Cell K L) = .leaf l1 := fun h => hl (by cases h; rfl)
    have e : (Arena.init l0 l1 : Arena K L).getById 1 = some (.leaf l1) := by
      simp [Arena.init, Arena.add, Arena.getByNode, Arena.getById, hl]
    exact ⟨.leaf l1, .leaf (ha.keep _ _ e), .leaf (hb.keep _ _ e)⟩

/-- What one process converts on its way, the other one holds, if it has gone all the way. -/
theorem visits_held {α : Type w} {β : Type w'} {a b : Arena K L} (ha : a.Inv) (hb : b.Inv) {c : Cell K L}
    {p : Prog K L α} {q : Prog K L β} {S : α → β → Prop} (hp : Visits a c p) (h : Alike (Same a b) S p q)
    (hq : Gone b q) : ∃ d j, CellRel (Same a b) c d ∧ b.getById j = some d := by
  induction hp generalizing q with
  | here =>
    cases h with
    | intern hc _ =>
      cases hq with
      | intern hd _ => exact ⟨_, _, hc, (hb.index _ _).1 hd⟩
  | load hc _ ih =>
    cases h with
    | load hr hk =>
      cases hq with
      | load hd hq => exact ih (hk _ _ (same_cell hr hc hd)) hq
  | intern hc _ ih =>
    cases h with
    | intern hr hk =>
      cases hq with
      | intern hd hq => exact ih (hk _ _ (cell_same hr ((ha.index _ _).1 hc) ((hb.index _ _).1 hd))) hq

/-- Arenas that hold the same diagrams hold equally many nodes. -/
theorem length_le {a b : Arena K L} (ha : a.Sound) (hb : b.Inv) (h : diagrams a ⊆ diagrams b) :
    a.nodes.length ≤ b.nodes.length := by
  choose f hf using fun i : Fin a.nodes.length => unfolds_exists ha i.1 i.2
  choose g hg using fun i : Fin a.nodes.length => h ⟨i.1, hf i⟩
  have := Fintype.card_le_of_injective (fun i : Fin a.nodes.length => (⟨g i, (hg i).lt⟩ : Fin b.nodes.length)) (by
    intro i j e
    simp only [Fin.mk.injEq] at e
    have := hg i
    rw [e] at this
    have e2 : f i = f j := unfolds_fun this (hg j)
    have h3 := hf i
    rw [e2] at h3
    exact Fin.ext (unfolds_inj ha.toInv h3 (hf j)))
  simpa using this

section
variable {α : Nat → Type w} {l0 l1 : L}

/-- The machine at process start.  Not code: used to state or prove properties. -/
def fresh (l0 l1 : L) (ps : (t : Nat) → Prog K L (α t)) : Machine K L α :=
  ⟨Arena.init l0 l1, fun t => .run (ps t)⟩

theorem fresh_within {ps : (t : Nat) → Prog K L (α t)} {Q : (t : Nat) → Arena K L → Option (α t) → Prop} (hl : l0 ≠ l1)
    (hQ : ∀ t, StableO (Q t)) (hw : ∀ t, wpo (ps t) (Arena.init l0 l1) (Q t)) (hb : ∀ t, Blind (ps t))
    {m : Machine K L α} (h : MRun (fresh l0 l1 ps) m) {D : Set (Tr K L)}
    (hD : ∀ t, m.threads t ≠ (fresh l0 l1 ps).threads t → ∃ m', MRun (fresh l0 l1 ps) m' ∧
      Ended (m'.threads t) ∧ diagrams m'.arena ⊆ D) (h0 : Tr.leaf l0 ∈ D) (h1 : Tr.leaf l1 ∈ D) :
    diagrams m.arena ⊆ D := by
  rintro t ⟨i, hu⟩
  have hI : (Arena.init l0 l1 : Arena K L).Inv := init_inv hl
  have hx : Ext (Arena.init l0 l1) m.arena := mrun_ext h hI
  obtain ⟨c, hc⟩ : ∃ c, m.arena.getById i = some c := by
    cases hu with
    | leaf e => exact ⟨_, e⟩
    | branch e _ _ => exact ⟨_, e⟩
  rcases mrun_new h hI hc with e | ⟨s, hs, hv⟩
  · have hlen : (Arena.init l0 l1 : Arena K L).nodes = [.leaf l0, .leaf l1] := by
      simp [Arena.init, Arena.add, Arena.getByNode, hl]
    change (Arena.init l0 l1 : Arena K L).nodes[i]? = some c at e
    rw [hlen] at e
    rcases i with _ | _ | i
    · simp only [List.getElem?_cons_zero, Option.some.injEq] at e
      subst e
      cases unfolds_fun hu (.leaf hc); exact h0
    · simp only [zero_add, List.getElem?_cons_succ, List.getElem?_cons_zero, Option.some.injEq] at e
      subst e
      cases unfolds_fun hu (.leaf hc); exact h1
    · simp at e
  · obtain ⟨m', hm', hx', hsub⟩ := hD s hs
    have he' : Ext (Arena.init l0 l1) m'.arena := mrun_ext hm' hI
    have hset : Gone m'.arena (ps s) := ended_gone (hQ s) hm' hI (hw s) hx'
    obtain ⟨d, j, hr, hj⟩ := visits_held hx.right he'.right hv (hb s _ (same_pairing hx he' hl)) hset
    obtain ⟨t', u1, u2⟩ := cell_same hr hc hj
    cases unfolds_fun hu u1
    exact hsub ⟨j, u2⟩

variable {ps : (t : Nat) → Prog K L (α t)} {Q : (t : Nat) → Arena K L → Option (α t) → Prop}

theorem leaves_held (hl : l0 ≠ l1) {a : Arena K L} (h : Ext (Arena.init l0 l1) a) :
    Tr.leaf l0 ∈ diagrams a ∧ Tr.leaf l1 ∈ diagrams a := by
  have hlen : (Arena.init l0 l1 : Arena K L).nodes = [.leaf l0, .leaf l1] := by
    simp [Arena.init, Arena.add, Arena.getByNode, hl]
  refine ⟨⟨0, .leaf (h.keep _ _ ?_)⟩, ⟨1, .leaf (h.keep _ _ ?_)⟩⟩ <;> rw [Arena.getById, hlen] <;> rfl

/-- C107, for any programs over the arena that do not look at ids: what is held at any time is held once the threads
that have started have ended, under any other schedule. -/
theorem fresh_at_most (hl : l0 ≠ l1) (hQ : ∀ t, StableO (Q t)) (hw : ∀ t, wpo (ps t) (Arena.init l0 l1) (Q t))
    (hb : ∀ t, Blind (ps t)) {m m' : Machine K L α} (h : MRun (fresh l0 l1 ps) m) (h' : MRun (fresh l0 l1 ps) m')
    (hd : ∀ t, m.threads t ≠ (fresh l0 l1 ps).threads t → Ended (m'.threads t)) :
    diagrams m.arena ⊆ diagrams m'.arena ∧ m.arena.nodes.length ≤ m'.arena.nodes.length := by
  have hx := mrun_ext h' (init_inv hl)
  have hlv := leaves_held hl hx
  have hsub : diagrams m.arena ⊆ diagrams m'.arena :=
    fresh_within hl hQ hw hb h (fun t ht => ⟨m', h', hd t ht, subset_rfl⟩) hlv.1 hlv.2
  exact ⟨hsub, length_le (mrun_sound_outcome hQ h (init_sound hl) hw) hx.right hsub⟩

/-- C107, for any such programs: the same threads ended, the same held. -/
theorem fresh_same (hl : l0 ≠ l1) (hQ : ∀ t, StableO (Q t)) (hw : ∀ t, wpo (ps t) (Arena.init l0 l1) (Q t))
    (hb : ∀ t, Blind (ps t)) {m m' : Machine K L α} (h : MRun (fresh l0 l1 ps) m) (h' : MRun (fresh l0 l1 ps) m')
    (hd : ∀ t, (m.threads t = (fresh l0 l1 ps).threads t ∧ m'.threads t = (fresh l0 l1 ps).threads t) ∨
      (Ended (m.threads t) ∧ Ended (m'.threads t))) :
    diagrams m.arena = diagrams m'.arena ∧ m.arena.nodes.length = m'.arena.nodes.length := by
  have h1 := fresh_at_most hl hQ hw hb h h' fun t ht => (hd t).elim (fun e => absurd e.1 ht) (·.2)
  have h2 := fresh_at_most hl hQ hw hb h' h fun t ht => (hd t).elim (fun e => absurd e.2 ht) (·.1)
  exact ⟨h1.1.antisymm h2.1, le_antisymm h1.2 h2.2⟩

/-- C107, for any such programs: what is held is the union of what each thread that has ended leaves when it runs
alone. -/
theorem fresh_adds_up (hl : l0 ≠ l1) (hQ : ∀ t, StableO (Q t)) (hw : ∀ t, wpo (ps t) (Arena.init l0 l1) (Q t))
    (hb : ∀ t, Blind (ps t)) {m : Machine K L α} (h : MRun (fresh l0 l1 ps) m)
    (hd : ∀ t, m.threads t = (fresh l0 l1 ps).threads t ∨ Ended (m.threads t)) (alone : Nat → Machine K L α)
    (ha : ∀ t, MRun (fresh l0 l1 ps) (alone t) ∧ Ended ((alone t).threads t) ∧
      ∀ s, s ≠ t → (alone t).threads s = (fresh l0 l1 ps).threads s) :
    diagrams m.arena = {.leaf l0, .leaf l1} ∪ ⋃ t ∈ {t | Ended (m.threads t)}, diagrams (alone t).arena := by
  have hlv := leaves_held hl (mrun_ext h (init_inv hl))
  apply Set.Subset.antisymm
  · refine fresh_within hl hQ hw hb h (fun t ht => ?_) (.inl (.inl rfl)) (.inl (.inr rfl))
    obtain ⟨h1, h2, _⟩ := ha t
    refine ⟨alone t, h1, h2, fun d hd' => .inr ?_⟩
    exact Set.mem_biUnion (x := t) ((hd t).resolve_left ht) hd'
  · rintro d (hd' | hd')
    · rcases hd' with rfl | rfl
      · exact hlv.1
      · exact hlv.2
    · obtain ⟨t, ht, hd'⟩ := Set.mem_iUnion₂.1 hd'
      refine (fresh_at_most hl hQ hw hb (ha t).1 h fun s hs => ?_).1 hd'
      by_cases e : s = t
      · subst e; exact ht
      · exact absurd ((ha t).2.2 s e) hs

/-- Not code: used to state or prove properties. -/
def never {α : Type w} (Q : Arena K L → α → Prop) (a : Arena K L) : Option α → Prop
  | none => False
  | some x => Q a x

theorem never_stable {α : Type w} {Q : Arena K L → α → Prop} (h : Stable Q) : StableO (never Q) := by
  rintro a b (_ | x) e hq
  · exact hq
  · exact h a b x e hq

theorem never_ended {Q : (t : Nat) → Arena K L → α t → Prop} (hl : l0 ≠ l1) (hQ : ∀ t, Stable (Q t))
    (hw : ∀ t, wp (ps t) (Arena.init l0 l1) (Q t)) {m : Machine K L α} (h : MRun (fresh l0 l1 ps) m) (t : Nat) :
    Ended (m.threads t) ↔ ∃ x, m.threads t = .run (.ret x) := by
  refine ⟨fun he => he.resolve_left ?_, .inr⟩
  exact (schedules_sound hQ h (init_inv hl) hw t).1

end

end Verif.Arena
