import Verif.ArenaMemory

/-!
# What clients leave in the arena (C108)

The generic part: clients that decide each next call from the answers so far, started at any time by handing them
values finished clients hold.  What such a client adds to the arena depends only on the client and on which values
(diagrams) it was handed, not on the schedule, on the other threads or on what the arena held before.
-/

set_option linter.unusedSectionVars false
set_option linter.unusedVariables false
set_option linter.checkUnivs false

namespace Verif.Arena

universe u v w w' x y z o
variable {K : Type u} {L : Type v} [DecidableEq K] [DecidableEq L]

/-! ## Processes whose threads start one after the other -/

section
variable {α : Type w} {ι : Type z} {l0 l1 : L}

/-- A process whose threads are started at any time; `log` says what each thread was started for and
`starts i a p` that `p` is a program a thread may be started with for `i` when the arena is `a`.
Not code: used to state or prove properties. -/
inductive Made (l0 l1 : L) (starts : ι → Arena K L → Prog K L α → Prop) :
    Machine K L (fun _ => α) → (Nat → Option ι) → Prop where
  | boot : Made l0 l1 starts ⟨Arena.init l0 l1, fun _ => .panicked⟩ (fun _ => none)
  | step {m m' log} : Made l0 l1 starts m log → MStep m m' → Made l0 l1 starts m' log
  | start {m log} (t : Nat) (i : ι) (p : Prog K L α) : Made l0 l1 starts m log → log t = none →
    starts i m.arena p → Made l0 l1 starts ⟨m.arena, Function.update m.threads t (.run p)⟩ (Function.update log t (some i))

/-- What is asked of the programs threads are started with.  Not code: used to state or prove properties. -/
structure Starting (starts : ι → Arena K L → Prog K L α → Prop) (Q : ι → Arena K L → Option α → Prop)
    (l0 l1 : L) : Prop where
  mono : ∀ {i a b p}, starts i a p → Ext a b → starts i b p
  good : ∀ {i a p}, starts i a p → a.Inv → Ext (Arena.init l0 l1) a → wpo p a (Q i)
  stable : ∀ i, StableO (Q i)
  alike : ∀ {i a b p q}, starts i a p → starts i b q → Ext (Arena.init l0 l1) a → Ext (Arena.init l0 l1) b →
    Alike (Same a b) (fun _ _ => True) p q

/-- What is known of a process at every moment.  Not code: used to state or prove properties. -/
structure Known (starts : ι → Arena K L → Prog K L α → Prop) (Q : ι → Arena K L → Option α → Prop) (l0 l1 : L)
    (m : Machine K L (fun _ => α)) (log : Nat → Option ι) : Prop where
  sound : m.arena.Sound
  ext : Ext (Arena.init l0 l1) m.arena
  idle : ∀ t, log t = none → m.threads t = .panicked
  runs : ∀ t i, log t = some i → wpoT (m.threads t) m.arena (Q i) ∧ ∃ p, starts i m.arena p ∧
    ∀ b, Ext m.arena b → (GoneT b (m.threads t) → Gone b p) ∧ ∀ c, VisitsT b c (m.threads t) → Visits b c p
  held : ∀ j c, m.arena.getById j = some c → c = .leaf l0 ∨ c = .leaf l1 ∨
    ∃ t i p, log t = some i ∧ starts i m.arena p ∧ (∀ b, Ext m.arena b → GoneT b (m.threads t) → Gone b p) ∧
      ∀ b, Ext m.arena b → Visits b c p

theorem init_held {j : Nat} {c : Cell K L} (h : (Arena.init l0 l1 : Arena K L).getById j = some c) :
    c = .leaf l0 ∨ c = .leaf l1 := by
  rw [Arena.init] at h
  rcases add_new h with h | h
  · rcases add_new h with h | h
    · simp [Arena.getById] at h
    · exact .inl h
  · exact .inr h

theorem made_known {starts : ι → Arena K L → Prog K L α → Prop} {Q : ι → Arena K L → Option α → Prop}
    (hS : Starting starts Q l0 l1) (hl : l0 ≠ l1) {m : Machine K L (fun _ => α)} {log : Nat → Option ι}
    (h : Made l0 l1 starts m log) : Known starts Q l0 l1 m log := by
  induction h with
  | boot =>
    exact ⟨init_sound hl, Ext.refl (init_inv hl), fun _ _ => rfl, fun t i h => (by cases h),
      fun j c h => (init_held h).imp_right Or.inl⟩
  | @step m m' log _ hs ih =>
    cases hs with
    | @step s a' th' hst =>
      cases hlog : log s with
      | none => 
        have hid := ih.idle s hlog
        rw [hid] at hst; cases hst
      | some i =>
        obtain ⟨hw, p, hp, hb⟩ := ih.runs s i hlog
        have he := tstep_ext hst ih.sound.toInv
        have hw' := tstep_outcome hst ih.sound.toInv hw
        refine ⟨tstep_sound_outcome hst ih.sound hw, ih.ext.trans he, fun t ht => ?_, fun t j ht => ?_, fun j c hc => ?_⟩
        · have hne : t ≠ s := by rintro rfl; rw [hlog] at ht; cases ht
          simp only [Function.update_of_ne hne]
          exact ih.idle t ht
        · by_cases e : t = s
          · subst e
            rw [hlog] at ht; cases ht
            dsimp only
            rw [Function.update_self]
            exact ⟨hw', p, hS.mono hp he, fun b hab =>
              ⟨fun hg => (hb b (he.trans hab)).1 (hg.back hst ih.sound.toInv hw hab (he.trans hab)),
               fun c hv => (hb b (he.trans hab)).2 c (hv.back hst ih.sound.toInv hab (he.trans hab))⟩⟩
          · obtain ⟨h1, q, h2, h3⟩ := ih.runs t j ht
            simp only [Function.update_of_ne e]
            exact ⟨wpoT_mono (hS.stable j) h1 he, q, hS.mono h2 he, fun b hab => h3 b (he.trans hab)⟩
        · have back : ∀ (t : Nat) (q : Prog K L α), (∀ b, Ext m.arena b → GoneT b (m.threads t) → Gone b q) → ∀ b, Ext a' b →
              GoneT b (Function.update m.threads s th' t) → Gone b q := by
            intro t q hq b hab hg
            by_cases e : t = s
            · subst e
              rw [Function.update_self] at hg
              exact hq b (he.trans hab) (hg.back hst ih.sound.toInv hw hab (he.trans hab))
            · rw [Function.update_of_ne e] at hg
              exact hq b (he.trans hab) hg
          rcases hold : m.arena.getById j with _ | d
          · right; right
            refine ⟨s, i, p, hlog, hS.mono hp he, back s p (fun b hab => (hb b hab).1), fun b hab => ?_⟩
            rcases tstep_new (b := b) hst hc with h | h
            · rw [hold] at h; cases h
            · exact (hb b (he.trans hab)).2 c h
          · have := he.keep _ _ hold
            rw [show a'.getById j = some c from hc] at this
            cases this
            rcases ih.held j c hold with h | h | ⟨t, i', q, h1, h2, h3, h4⟩
            · exact .inl h
            · exact .inr (.inl h)
            · exact .inr (.inr ⟨t, i', q, h1, hS.mono h2 he, back t q h3, fun b hab => h4 b (he.trans hab)⟩)
  | @start m log t i p _ hlog hp ih =>
    refine ⟨ih.sound, ih.ext, fun t' ht => ?_, fun t' j ht => ?_, fun j c hc => ?_⟩
    · have hne : t' ≠ t := by rintro rfl; rw [Function.update_self] at ht; cases ht
      simp only [Function.update_of_ne hne] at ht ⊢
      exact ih.idle t' ht
    · by_cases e : t' = t
      · subst e
        rw [Function.update_self] at ht
        cases ht
        dsimp only
        rw [Function.update_self]
        exact ⟨hS.good hp ih.sound.toInv ih.ext, p, hp, fun b _ => ⟨id, fun _ => id⟩⟩
      · simp only [Function.update_of_ne e] at ht ⊢
        exact ih.runs t' j ht
    · rcases ih.held j c hc with h | h | ⟨t', i', q, h1, h2, h3, h4⟩
      · exact .inl h
      · exact .inr (.inl h)
      · have e : t' ≠ t := by rintro rfl; rw [hlog] at h1; cases h1
        refine .inr (.inr ⟨t', i', q, ?_, h2, ?_, h4⟩)
        · rw [Function.update_of_ne e]; exact h1
        · simp only [Function.update_of_ne e]; exact h3

theorem ended_goneT {a : Arena K L} {th : Thread K L α} (h : Ended th) : GoneT a th := by
  rcases h with rfl | ⟨x, rfl⟩
  · trivial
  · exact .ret x

theorem Made.steps {starts : ι → Arena K L → Prog K L α → Prop} {m m' : Machine K L (fun _ => α)} {log : Nat → Option ι}
    (h : Made l0 l1 starts m log) (hm : MRun m m') : Made l0 l1 starts m' log := by
  induction hm with
  | nil => exact h
  | cons h1 _ ih => exact ih (h.step h1)

/-- What threads started for `i` leave behind: the diagrams found by every one of them that has ended, in any
process.  Not code: used to state or prove properties. -/
def footprint (starts : ι → Arena K L → Prog K L α → Prop) (l0 l1 : L) (i : ι) : Set (Tr K L) :=
  {d | ∃ m log t, Made l0 l1 starts m log ∧ log t = some i ∧ Ended (m.threads t) ∧
    ∃ p, starts i m.arena p ∧ Gone m.arena p ∧ ∃ c j, Visits m.arena c p ∧ m.arena.getById j = some c ∧
      Unfolds m.arena j d}

/-- At every moment the arena holds all that the ended threads leave behind, and besides the leaves nothing that the
started threads do not leave behind. -/
theorem made_memory {starts : ι → Arena K L → Prog K L α → Prop} {Q : ι → Arena K L → Option α → Prop}
    (hS : Starting starts Q l0 l1) (hl : l0 ≠ l1) {m : Machine K L (fun _ => α)} {log : Nat → Option ι}
    (h : Made l0 l1 starts m log) :
    (∀ t i, log t = some i → Ended (m.threads t) → footprint starts l0 l1 i ⊆ diagrams m.arena) ∧
    diagrams m.arena ⊆ {.leaf l0, .leaf l1} ∪ {d | ∃ t i, log t = some i ∧ d ∈ footprint starts l0 l1 i} := by
  have hk := made_known hS hl h
  refine ⟨?_, ?_⟩
  · rintro t i ht he d ⟨m2, log2, t2, h2, ht2, he2, p2, hp2, hg2, c, j, hv, hj, hu⟩
    have hk2 := made_known hS hl h2
    obtain ⟨_, p, hp, hb⟩ := hk.runs t i ht
    have hg := (hb _ (Ext.refl hk.sound.toInv)).1 (ended_goneT he)
    obtain ⟨c', j', hr, hj'⟩ := visits_held hk2.sound.toInv hk.sound.toInv hv (hS.alike hp2 hp hk2.ext hk.ext) hg
    obtain ⟨d', u1, u2⟩ := cell_same hr hj hj'
    cases unfolds_fun hu u1
    exact ⟨j', u2⟩
  · rintro d ⟨j, hu⟩
    obtain ⟨c, hc, -⟩ := unfolds_iff.1 hu
    rcases hk.held j c hc with rfl | rfl | ⟨t, i, p, h1, h2, h3, h4⟩
    · cases unfolds_fun hu (.leaf hc); simp
    · cases unfolds_fun hu (.leaf hc); simp
    · right
      obtain ⟨m2, r2, _, hx⟩ := outcome_finish (t := t) (hS.stable i) hk.sound.toInv (hk.runs t i h1).1
      have he : Ext m.arena m2.arena := mrun_ext r2 hk.sound.toInv
      have hend : Ended (m2.threads t) := by
        rcases hx with hx | ⟨x, hx⟩
        · exact .inl hx.1
        · exact .inr ⟨x, hx.1⟩
      have hg : GoneT m2.arena (m.threads t) :=
        ended_gone (hS.stable i) r2 hk.sound.toInv (hk.runs t i h1).1 hend
      exact ⟨t, i, h1, m2, log, t, h.steps r2, h1, hend, p, hS.mono h2 he, h3 _ he hg, c, j, h4 _ he,
        he.keep _ _ hc, hu.mono he⟩

/-- The same diagrams and as many nodes, whenever the same things have been started and all has ended. -/
theorem made_same {starts : ι → Arena K L → Prog K L α → Prop} {Q : ι → Arena K L → Option α → Prop}
    (hS : Starting starts Q l0 l1) (hl : l0 ≠ l1) {m m' : Machine K L (fun _ => α)} {log log' : Nat → Option ι}
    (h : Made l0 l1 starts m log) (h' : Made l0 l1 starts m' log')
    (hd : ∀ t i, log t = some i → ∃ t', log' t' = some i ∧ Ended (m'.threads t')) :
    diagrams m.arena ⊆ diagrams m'.arena ∧ m.arena.nodes.length ≤ m'.arena.nodes.length := by
  have hk := made_known hS hl h
  have hk' := made_known hS hl h'
  have hsub : diagrams m.arena ⊆ diagrams m'.arena := by
    intro d hd'
    rcases (made_memory hS hl h).2 hd' with hx | ⟨t, i, h1, h2⟩
    · have e0 := hk'.ext.keep 0 (.leaf l0) (by rw [Arena.init]; exact add_mono _ _ rfl)
      have e1 := hk'.ext.keep 1 (.leaf l1) (by simp [Arena.init, Arena.add, Arena.getByNode, Arena.getById, hl])
      rcases hx with rfl | hx
      · exact ⟨_, .leaf e0⟩
      · cases hx; exact ⟨_, .leaf e1⟩
    · obtain ⟨t', h3, h4⟩ := hd t i h1
      exact (made_memory hS hl h').1 t' i h3 h4 h2
  exact ⟨hsub, length_le hk.sound hk'.sound.toInv hsub⟩

end

/-! ## Clients of a library -/

section
variable {A : Api.{u, v, w, w', x, y} K L} {l0 l1 : L} {O : Type o}

/-- No call looks at the numbers of the ids.  Not code: used to state or prove properties. -/
structure Api.Blind (A : Api.{u, v, w, w', x, y} K L) (V : (Nat → Nat → Prop) → A.VC → A.VC → Prop) : Prop where
  call : ∀ {R : Nat → Nat → Prop}, Pairing R → ∀ f op s s', List.Forall₂ (V R) s s' →
    Alike R (fun x y => List.Forall₂ (V R) x.1 y.1 ∧ x.2 = y.2) (A.prog f s op) (A.prog f s' op)
  den : ∀ {v a b x y}, A.den v a x → A.den v b y → V (Same a b) x y

theorem client_alike {V : (Nat → Nat → Prop) → A.VC → A.VC → Prop} (hB : A.Blind V) {R : Nat → Nat → Prop}
    (hR : Pairing R) (f : Nat) (cl : Client A.Op A.Reply O) {s s' : List A.VC} (h : List.Forall₂ (V R) s s') :
    Alike R (fun _ _ => True) (clientP A f cl s) (clientP A f cl s') := by
  induction cl generalizing s s' with
  | ends o => exact .ret trivial
  | call op k ih =>
    refine (hB.call hR f op s s' h).bind fun x y hx => ?_
    rw [hx.2]
    exact ih y.2 hx.1

/-- What the client of thread `t` holds when it has ended alone.  Not code: used to state or prove properties. -/
def keptBy (log : Nat → Option (Client A.Op A.Reply O × List A.V)) (t : Nat) : Option (List A.V) :=
  (log t).bind fun q => (q.1.alone A q.2).map Prod.fst

/-- A process in which clients of the library are started at any time, with any values finished clients hold; `log`
says which client each thread runs and which values it was handed.  `fuel` bounds the depth of recursions.
Not code: used to state or prove properties. -/
inductive Process (A : Api.{u, v, w, w', x, y} K L) (l0 l1 : L) (fuel : Client A.Op A.Reply O → List A.V → Nat) :
    Machine K L (fun _ => List A.VC × O) → (Nat → Option (Client A.Op A.Reply O × List A.V)) → Prop where
  | boot : Process A l0 l1 fuel ⟨Arena.init l0 l1, fun _ => .panicked⟩ (fun _ => none)
  | step {m m' log} : Process A l0 l1 fuel m log → MStep m m' → Process A l0 l1 fuel m' log
  | client {m log} (t : Nat) (cl : Client A.Op A.Reply O) (ns : List (Nat × Nat)) (s : List A.VC) (g : List A.V) :
    Process A l0 l1 fuel m log → log t = none → pick (held m) ns = some s → pick (keptBy log) ns = some g →
    Process A l0 l1 fuel ⟨m.arena, Function.update m.threads t (.run (clientP A (fuel cl g) cl s))⟩
      (Function.update log t (some (cl, g)))

/-- Not code: used to state or prove properties. -/
def clientStarts (A : Api.{u, v, w, w', x, y} K L) (fuel : Client A.Op A.Reply O → List A.V → Nat)
    (q : Client A.Op A.Reply O × List A.V) (a : Arena K L) (p : Prog K L (List A.VC × O)) : Prop :=
  ∃ s, A.Holds q.2 a s ∧ p = clientP A (fuel q.1 q.2) q.1 s

theorem client_starting (hA : A.Sound l0 l1) {V : (Nat → Nat → Prop) → A.VC → A.VC → Prop} (hB : A.Blind V)
    (hl : l0 ≠ l1) : ∃ need : Client A.Op A.Reply O → List A.V → Nat, ∀ fuel : Client A.Op A.Reply O → List A.V → Nat,
      (∀ cl g, need cl g ≤ fuel cl g) →
      Starting (clientStarts A fuel) (fun q => Post A (q.1.alone A q.2)) l0 l1 := by
  choose need hn using client_outcome (O := O) hA
  refine ⟨need, fun fuel hf => ⟨?_, ?_, fun q => post_stable hA _, ?_⟩⟩
  · rintro q a b p ⟨s, h, rfl⟩ e
    exact ⟨s, hA.holds_mono h e, rfl⟩
  · rintro q a p ⟨s, h, rfl⟩ hI e
    exact hn q.1 q.2 _ (hf _ _) a s hI (hA.good_mono hA.init e) h
  · rintro q a b p p' ⟨s, h, rfl⟩ ⟨s', h', rfl⟩ ea eb
    refine client_alike hB (same_pairing ea eb hl) _ _ ?_
    generalize q.2 = g at h h'
    induction h generalizing s' with
    | nil => cases h'; exact .nil
    | cons hx _ ih =>
      cases h' with
      | cons hy h' => exact .cons (hB.den hx hy) (ih _ h')

theorem process_made (hA : A.Sound l0 l1) (hl : l0 ≠ l1) : ∃ need : Client A.Op A.Reply O → List A.V → Nat,
    ∀ fuel : Client A.Op A.Reply O → List A.V → Nat, (∀ cl g, need cl g ≤ fuel cl g) → ∀ m log,
      Process A l0 l1 fuel m log → Made l0 l1 (clientStarts A fuel) m log := by
  obtain ⟨need, hn⟩ := world_ok (O := O) hA hl
  refine ⟨need, fun fuel hf m log h => ?_⟩
  suffices hs : Made l0 l1 (clientStarts A fuel) m log ∧
      World.Run l0 l1 need ⟨m, fun t => (log t).map fun q => q.1.alone A q.2⟩ from hs.1
  induction h with
  | boot => exact ⟨.boot, .boot _⟩
  | step _ hs ih => exact ⟨ih.1.step hs, ih.2.step hs⟩
  | @client m log t cl ns s g _ hlog hs hg ih =>
    have hk : (⟨m, fun t => (log t).map fun q => q.1.alone A q.2⟩ : World A O).kept = keptBy log := by
      funext t
      simp only [World.kept, keptBy]
      cases log t <;> rfl
    have hh := pick_holds (hn _ ih.2) hs (by rw [hk]; exact hg)
    refine ⟨.start t (cl, g) _ ih.1 hlog ⟨s, hh, rfl⟩, ?_⟩
    have r := ih.2.client t cl ns s g (fuel cl g) hs (by rw [hk]; exact hg) (hf cl g)
    have e : (fun t' => (Function.update log t (some (cl, g)) t').map fun q => q.1.alone A q.2) =
        Function.update (fun t => (log t).map fun q => q.1.alone A q.2) t (some (cl.alone A g)) := by
      funext t'
      by_cases ht : t' = t
      · subst ht; simp
      · simp [Function.update_of_ne ht]
    rw [e]
    exact r

/-- C108, for any library: each client, handed given values, has a set of diagrams it leaves behind.  At every moment
of every process the arena holds all that the ended clients leave behind, and besides the two leaves nothing that
the started clients do not. -/
theorem clients_memory (hA : A.Sound l0 l1) {V : (Nat → Nat → Prop) → A.VC → A.VC → Prop} (hB : A.Blind V)
    (hl : l0 ≠ l1) : ∃ need : Client A.Op A.Reply O → List A.V → Nat, ∀ fuel : Client A.Op A.Reply O → List A.V → Nat,
      (∀ cl g, need cl g ≤ fuel cl g) → ∃ leaves : Client A.Op A.Reply O → List A.V → Set (Tr K L),
      ∀ m log, Process A l0 l1 fuel m log →
        (∀ t cl g, log t = some (cl, g) → Ended (m.threads t) → leaves cl g ⊆ diagrams m.arena) ∧
        diagrams m.arena ⊆ {.leaf l0, .leaf l1} ∪ {d | ∃ t cl g, log t = some (cl, g) ∧ d ∈ leaves cl g} := by
  obtain ⟨n1, h1⟩ := client_starting (O := O) hA hB hl
  obtain ⟨n2, h2⟩ := process_made (O := O) hA hl
  refine ⟨fun cl g => n1 cl g + n2 cl g, fun fuel hf => ?_⟩
  have hS := h1 fuel fun cl g => le_trans (Nat.le_add_right _ _) (hf cl g)
  refine ⟨fun cl g => footprint (clientStarts A fuel) l0 l1 (cl, g), fun m log hp => ?_⟩
  have hm := h2 fuel (fun cl g => le_trans (Nat.le_add_left _ _) (hf cl g)) m log hp
  obtain ⟨h3, h4⟩ := made_memory hS hl hm
  refine ⟨fun t cl g ht => h3 t _ ht, fun d hd => ?_⟩
  rcases h4 hd with h | ⟨t, ⟨cl, g⟩, h5, h6⟩
  · exact .inl h
  · exact .inr ⟨t, cl, g, h5, h6⟩

/-- C108, for any library: a process in which every client of another one has been started with the same values, in
whichever order and on whichever thread, and has ended, holds every diagram the other one holds, and as many
nodes. -/
theorem clients_memory_within (hA : A.Sound l0 l1) {V : (Nat → Nat → Prop) → A.VC → A.VC → Prop} (hB : A.Blind V)
    (hl : l0 ≠ l1) : ∃ need : Client A.Op A.Reply O → List A.V → Nat, ∀ fuel : Client A.Op A.Reply O → List A.V → Nat,
      (∀ cl g, need cl g ≤ fuel cl g) →
      ∀ m log m' log', Process A l0 l1 fuel m log → Process A l0 l1 fuel m' log' →
        (∀ t q, log t = some q → ∃ t', log' t' = some q ∧ Ended (m'.threads t')) →
        diagrams m.arena ⊆ diagrams m'.arena ∧ m.arena.nodes.length ≤ m'.arena.nodes.length := by
  obtain ⟨n1, h1⟩ := client_starting (O := O) hA hB hl
  obtain ⟨n2, h2⟩ := process_made (O := O) hA hl
  refine ⟨fun cl g => n1 cl g + n2 cl g, fun fuel hf m log m' log' hp hp' hd => ?_⟩
  have hS := h1 fuel fun cl g => le_trans (Nat.le_add_right _ _) (hf cl g)
  exact made_same hS hl (h2 fuel (fun cl g => le_trans (Nat.le_add_left _ _) (hf cl g)) m log hp)
    (h2 fuel (fun cl g => le_trans (Nat.le_add_left _ _) (hf cl g)) m' log' hp') hd

/-- C108, for any library: what the arena holds when all has ended depends only on which clients were started with
which values. -/
theorem clients_memory_same (hA : A.Sound l0 l1) {V : (Nat → Nat → Prop) → A.VC → A.VC → Prop} (hB : A.Blind V)
    (hl : l0 ≠ l1) : ∃ need : Client A.Op A.Reply O → List A.V → Nat, ∀ fuel : Client A.Op A.Reply O → List A.V → Nat,
      (∀ cl g, need cl g ≤ fuel cl g) →
      ∀ m log m' log', Process A l0 l1 fuel m log → Process A l0 l1 fuel m' log' →
        {q | ∃ t, log t = some q} = {q | ∃ t, log' t = some q} →
        (∀ t, Ended (m.threads t)) → (∀ t, Ended (m'.threads t)) →
        diagrams m.arena = diagrams m'.arena ∧ m.arena.nodes.length = m'.arena.nodes.length := by
  obtain ⟨need, h⟩ := clients_memory_within (O := O) hA hB hl
  refine ⟨need, fun fuel hf m log m' log' hp hp' hq he he' => ?_⟩
  have a := h fuel hf m log m' log' hp hp' fun t q ht => by
    have : q ∈ {q | ∃ t, log' t = some q} := hq ▸ ⟨t, ht⟩
    obtain ⟨t', ht'⟩ := this
    exact ⟨t', ht', he' t'⟩
  have b := h fuel hf m' log' m log hp' hp fun t q ht => by
    have : q ∈ {q | ∃ t, log t = some q} := hq ▸ ⟨t, ht⟩
    obtain ⟨t', ht'⟩ := this
    exact ⟨t', ht', he t'⟩
  exact ⟨a.1.antisymm b.1, le_antisymm a.2 b.2⟩

theorem Process.steps {fuel : Client A.Op A.Reply O → List A.V → Nat} {m m' : Machine K L (fun _ => List A.VC × O)}
    {log : Nat → Option (Client A.Op A.Reply O × List A.V)} (h : Process A l0 l1 fuel m log) (r : MRun m m') :
    Process A l0 l1 fuel m' log := by
  induction r with
  | nil => exact h
  | cons h1 _ ih => exact ih (h.step h1)

/-- A new client can be started and come to its end while all the others stand still. -/
theorem process_spawn (hA : A.Sound l0 l1) {V : (Nat → Nat → Prop) → A.VC → A.VC → Prop} (hB : A.Blind V)
    (hl : l0 ≠ l1) : ∃ need : Client A.Op A.Reply O → List A.V → Nat, ∀ fuel : Client A.Op A.Reply O → List A.V → Nat,
      (∀ cl g, need cl g ≤ fuel cl g) → ∀ m log, Process A l0 l1 fuel m log → ∀ t cl ns s g, log t = none →
      pick (held m) ns = some s → pick (keptBy log) ns = some g → ∃ m',
      Process A l0 l1 fuel m' (Function.update log t (some (cl, g))) ∧ (∀ u, u ≠ t → m'.threads u = m.threads u) ∧
      Ended (m'.threads t) ∧ ∀ g' o, cl.alone A g = some (g', o) → ∃ s', m'.threads t = .run (.ret (s', o)) ∧
        s'.length = g'.length := by
  obtain ⟨n1, h1⟩ := client_starting (O := O) hA hB hl
  obtain ⟨n2, h2⟩ := process_made (O := O) hA hl
  refine ⟨fun cl g => n1 cl g + n2 cl g, fun fuel hf m log hp t cl ns s g ht hs hg => ?_⟩
  have hS := h1 fuel fun cl g => le_trans (Nat.le_add_right _ _) (hf cl g)
  have hp1 := Process.client t cl ns s g hp ht hs hg
  have hk := made_known hS hl (h2 fuel (fun cl g => le_trans (Nat.le_add_left _ _) (hf cl g)) _ _ hp1)
  obtain ⟨m', r, ho, hx⟩ := outcome_finish (t := t) (hS.stable (cl, g)) hk.sound.toInv
    (hk.runs t (cl, g) (by simp)).1
  have hp' : Process A l0 l1 fuel m' (Function.update log t (some (cl, g))) := by
    exact hp1.steps r
  refine ⟨m', hp', fun u hu => ?_, ?_, fun g' o e => ?_⟩
  · rw [ho u hu]; exact Function.update_of_ne hu _ _
  · rcases hx with hx | ⟨x, hx⟩
    · exact .inl hx.1
    · exact .inr ⟨x, hx.1⟩
  · rcases hx with hx | ⟨⟨s', o'⟩, h3, hx⟩
    · have := hx.2; simp only [Post, e] at this
    · simp only [Post, e] at hx
      exact ⟨s', by rw [h3, hx.2], hx.1.length_eq⟩

/-- Two ways of handing the same three things to threads. -/
theorem started_eq {α : Type u} {q r s : α} :
    {x | ∃ t : Nat, Function.update (Function.update (Function.update (fun _ => none) 0 (some q)) 1 (some r)) 2 (some s) t
      = some x} =
    {x | ∃ t : Nat, Function.update (Function.update (Function.update (fun _ => none) 7 (some s)) 5 (some q)) 3 (some r) t
      = some x} := by
  ext x
  constructor
  · rintro ⟨t, h⟩
    by_cases t2 : t = 2
    · subst t2; exact ⟨7, h⟩
    rw [Function.update_of_ne t2] at h
    by_cases t1 : t = 1
    · subst t1; exact ⟨3, h⟩
    rw [Function.update_of_ne t1] at h
    by_cases t0 : t = 0
    · subst t0; exact ⟨5, h⟩
    rw [Function.update_of_ne t0] at h
    cases h
  · rintro ⟨t, h⟩
    by_cases t2 : t = 3
    · subst t2; exact ⟨1, h⟩
    rw [Function.update_of_ne t2] at h
    by_cases t1 : t = 5
    · subst t1; exact ⟨0, h⟩
    rw [Function.update_of_ne t1] at h
    by_cases t0 : t = 7
    · subst t0; exact ⟨2, h⟩
    rw [Function.update_of_ne t0] at h
    cases h

/-- Two ways of handing the same three things to threads. -/
theorem started_eq' {α : Type u} {q r s : α} :
    {x | ∃ t : Nat, Function.update (Function.update (Function.update (fun _ => none) 0 (some q)) 1 (some r)) 2 (some s) t
      = some x} =
    {x | ∃ t : Nat, Function.update (Function.update (Function.update (fun _ => none) 5 (some q)) 7 (some s)) 3 (some r) t
      = some x} := by
  rw [started_eq, Function.update_comm (show (7 : Nat) ≠ 5 by decide)]

end

end Verif.Arena
