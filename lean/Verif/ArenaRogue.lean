import Verif.ArenaLock
import Verif.ArenaForge

/-!
# Misbehaving threads do not disturb the others (C97)

The theorems about threads so far assume that every thread of the process runs the library's operations on diagrams
the library made.  Here only the threads in a set `G` do.  The others run any program over the arena at all: they
may use numbers read from documents as ids, panic while holding a read guard (which does not poison a
`std::sync::RwLock`), store nodes that are their own children, or return anything.  What the threads of `G` get, and
that they get it, is not touched.  A stack overflow of a misbehaving thread aborts the process and is not covered.
-/

set_option linter.dupNamespace false
set_option linter.unusedSectionVars false
set_option linter.unusedVariables false
set_option linter.unusedSimpArgs false

namespace Verif.Arena

universe u v w
variable {K : Type u} {L : Type v} [DecidableEq K] [DecidableEq L]
variable {direct : Bool} {l0 l1 : L} {α : Nat → Type w} {ths : (t : Nat) → Thread K L (α t)} {m : FMachine K L α}
  {Q : (t : Nat) → Arena K L → α t → Prop}

/-- C97 for any verified programs next to anything, with the lock taken apart. -/
theorem among_runs {G : Nat → Prop} (hl : l0 ≠ l1) (hQ : ∀ t, G t → Stable (Q t))
    (hw : ∀ t, G t → wpT (ths t) (Arena.init l0 l1) (Q t))
    (hfin : {t | ¬ (FThread.out (ths t)).Finished}.Finite) (h : FRun direct l0 l1 (fstart ths) m) :
    (∀ t, G t → m.threads t ≠ .out .panicked ∧ m.threads t ≠ .rdDone .panicked ∧ m.threads t ≠ .wrDone .panicked) ∧
    (∃ b : Arena K L, b.Inv ∧ ∀ t, G t → ∀ x, m.threads t = .out (.run (.ret x)) → Q t b x) ∧
    (∀ A : Policy K L α, A.Live → (∃ t, G t ∧ ¬ (m.threads t).Finished) → ∃ t m', PStep A direct l0 l1 t m m') ∧
    (∀ A : Policy K L α, A.Live → ∃ m', PRun A direct l0 l1 m m' ∧
      ∀ t, G t → ∃ x, m'.threads t = .out (.run (.ret x))) ∧
    (∀ σ : Nat → FMachine K L α, σ 0 = m → ¬ ∀ k, ∃ t, FStep direct l0 l1 t (σ k) (σ (k + 1))) := by
  obtain ⟨h1, _, h3⟩ := among_locks_sound hQ (init_inv hl) hw h
  refine ⟨h1, h3, fun A hA hu => among_deadlock_free hQ (init_inv hl) hw h A hA hu,
    fun A hA => among_all_finish hQ (init_inv hl) hw h A hA (finite_start hfin h), fun σ h0 hs => ?_⟩
  choose who hwho using hs
  exact every_schedule_ends σ who hwho (by rw [h0]; exact finite_start hfin h)

end Verif.Arena

namespace Verif.ArenaBdd

open Verif Verif.Arena Verif.Bdd Verif.Bdd.Spec

universe u v
variable {I : Type u} {F : Type v} [LinearOrder I] [LinearOrder F]

theorem among_ok (G : Nat → Prop) (ss : Nat → Session I F) :
    ∃ K : Nat → Nat, ∀ (f : Nat → Nat) (ths : Nat → Thread I Bool (Answer (ClosetC I F) I F)),
      (∀ t, G t → K t ≤ f t ∧ ths t = .run (threadP (f t) (ss t))) → ∀ t, G t →
      wpT (ths t) (Arena.init false true) (fun b r => ∃ g, (ss t).alone = some g ∧ AnswerDen g b r) := by
  choose g hg using fun t => alone_total (ss t)
  choose K hK using fun t => thread_ok (ss t) (g t) (hg t)
  refine ⟨K, fun f ths h t ht => ?_⟩
  rw [(h t ht).2]
  exact wp_imp (hK t (f t) (h t ht).1 _ (init_inv (by decide))) fun b r hr => ⟨g t, hg t, hr.2⟩

/-- C97: some threads of the process each build a closet, select items on it and ask for an outfit; the other
threads run anything at all over the same arena.  Under every schedule none of the former panics, none is stuck
before its end, and every finished one got exactly the answers it would have got in a process of its own. -/
theorem rogue_exact (G : Nat → Prop) (ss : Nat → Session I F) :
    ∃ K : Nat → Nat, ∀ (f : Nat → Nat) (ths : Nat → Thread I Bool (Answer (ClosetC I F) I F)),
      (∀ t, G t → K t ≤ f t ∧ ths t = .run (threadP (f t) (ss t))) →
      ∀ m, MRun ⟨Arena.init false true, ths⟩ m → ∀ t, G t →
      m.threads t ≠ .panicked ∧
      (∀ r, m.threads t = .run (.ret r) → ∃ g, (ss t).alone = some g ∧
        r.seen ClosetC.itemIndex ClosetC.summary = g.seen Closet.itemIndex Closet.summary) ∧
      ((∃ r, m.threads t = .run (.ret r)) ∨ ∃ a th, TStep m.arena (m.threads t) a th) := by
  obtain ⟨K, hK⟩ := among_ok G ss
  refine ⟨K, fun f ths h m hm t ht => ?_⟩
  obtain ⟨h1, h2, h3⟩ := among_sound (fun t _ => answer_stable (ss t)) hm (init_inv (by decide)) (hK f ths h) t ht
  refine ⟨h1, fun r e => ?_, h3⟩
  obtain ⟨g, hg, hd⟩ := h2 _ e
  exact ⟨g, hg, hd.seen⟩

/-- C97: at every point of every schedule each of the well-behaved threads can run to its end while the others
stand still, and gets the answers it would have got alone. -/
theorem rogue_finish (G : Nat → Prop) (ss : Nat → Session I F) :
    ∃ K : Nat → Nat, ∀ (f : Nat → Nat) (ths : Nat → Thread I Bool (Answer (ClosetC I F) I F)),
      (∀ t, G t → K t ≤ f t ∧ ths t = .run (threadP (f t) (ss t))) →
      ∀ m, MRun ⟨Arena.init false true, ths⟩ m → ∀ t, G t →
      ∃ m', MRun m m' ∧ (∀ s, s ≠ t → m'.threads s = m.threads s) ∧
        ∃ r g, m'.threads t = .run (.ret r) ∧ (ss t).alone = some g ∧
          r.seen ClosetC.itemIndex ClosetC.summary = g.seen Closet.itemIndex Closet.summary := by
  obtain ⟨K, hK⟩ := among_ok G ss
  refine ⟨K, fun f ths h m hm t ht => ?_⟩
  obtain ⟨m', hm', hs, r, hx⟩ := among_finish (fun t _ => answer_stable (ss t)) hm (init_inv (by decide)) (hK f ths h) t ht
  obtain ⟨_, h2, _⟩ := among_sound (fun t _ => answer_stable (ss t)) (hm.trans hm') (init_inv (by decide)) (hK f ths h) t ht
  obtain ⟨g, hg, hd⟩ := h2 _ hx
  exact ⟨m', hm', hs, r, g, hx, hg, hd.seen⟩

/-- C97: closets made by well-behaved threads next to misbehaving ones are equal values exactly when they are equal
in the sequential model. -/
theorem rogue_compare (G : Nat → Prop) (ss : Nat → Session I F) :
    ∃ K : Nat → Nat, ∀ (f : Nat → Nat) (ths : Nat → Thread I Bool (Answer (ClosetC I F) I F)),
      (∀ t, G t → K t ≤ f t ∧ ths t = .run (threadP (f t) (ss t))) →
      ∀ m, MRun ⟨Arena.init false true, ths⟩ m → ∀ s t, G s → G t → ∀ c d o p,
      m.threads s = .run (.ret (.answered c o)) → m.threads t = .run (.ret (.answered d p)) →
      ∃ g h, (ss s).alone = some (.answered g o) ∧ (ss t).alone = some (.answered h p) ∧ (c = d ↔ g = h) := by
  obtain ⟨K, hK⟩ := among_ok G ss
  refine ⟨K, fun f ths hth m hm s t gs gt c d o p es et => ?_⟩
  have hs := (among_sound (fun t _ => answer_stable (ss t)) hm (init_inv (by decide)) (hK f ths hth) s gs).2.1 _ es
  have ht := (among_sound (fun t _ => answer_stable (ss t)) hm (init_inv (by decide)) (hK f ths hth) t gt).2.1 _ et
  have hI : m.arena.Inv := (mrun_among (fun t _ => answer_stable (ss t)) hm (init_inv (by decide)) (hK f ths hth)).1.right
  obtain ⟨g, hg, hd⟩ := hs
  obtain ⟨h, hh, hd'⟩ := ht
  cases g with
  | buildFailed e => exact hd.elim
  | selectFailed e => exact hd.elim
  | answered g o' =>
    cases h with
    | buildFailed e => exact hd'.elim
    | selectFailed e => exact hd'.elim
    | answered h p' =>
      obtain ⟨⟨i1, i2, i3⟩, rfl⟩ := hd
      obtain ⟨⟨j1, j2, j3⟩, rfl⟩ := hd'
      refine ⟨g, h, hg, hh, ?_⟩
      have key := (cell_eq_iff hI i3 j3).trans tr_inj
      obtain ⟨ci, cs, cr⟩ := c
      obtain ⟨di, ds, dr⟩ := d
      obtain ⟨gi, gs, gr⟩ := g
      obtain ⟨ki, ks, kr⟩ := h
      simp only at i1 i2 j1 j2 key
      subst i1; subst i2; subst j1; subst j2
      simp only [ClosetC.mk.injEq, Closet.mk.injEq, key]

/-- C97 with every lock operation and every read and write of the arena interleaved at will: the well-behaved threads
never panic, also not under a guard, and get the answers they would have got alone; as long as one of them has
not finished some thread can go on, whichever waiting thread the lock admits; they all reach their ends; and
no execution goes on for ever. -/
theorem rogue_locked (G : Nat → Prop) (ss : Nat → Session I F) :
    ∃ K : Nat → Nat, ∀ (f : Nat → Nat) (ths : Nat → Thread I Bool (Answer (ClosetC I F) I F)),
      (∀ t, G t → K t ≤ f t ∧ ths t = .run (threadP (f t) (ss t))) →
      {t | ¬ (FThread.out (ths t)).Finished}.Finite →
      ∀ m, FRun true false true (fstart ths) m →
      (∀ t, G t → m.threads t ≠ .out .panicked ∧ m.threads t ≠ .rdDone .panicked ∧
        m.threads t ≠ .wrDone .panicked) ∧
      (∀ t, G t → ∀ r, m.threads t = .out (.run (.ret r)) → ∃ g, (ss t).alone = some g ∧
        r.seen ClosetC.itemIndex ClosetC.summary = g.seen Closet.itemIndex Closet.summary) ∧
      (∀ A : Policy I Bool (fun _ => Answer (ClosetC I F) I F), A.Live →
        (∃ t, G t ∧ ¬ (m.threads t).Finished) → ∃ t m', PStep A true false true t m m') ∧
      (∀ A : Policy I Bool (fun _ => Answer (ClosetC I F) I F), A.Live →
        ∃ m', PRun A true false true m m' ∧ ∀ t, G t → ∃ r, m'.threads t = .out (.run (.ret r))) ∧
      (∀ σ : Nat → FMachine I Bool (fun _ => Answer (ClosetC I F) I F), σ 0 = m →
        ¬ ∀ k, ∃ t, FStep true false true t (σ k) (σ (k + 1))) := by
  obtain ⟨K, hK⟩ := among_ok G ss
  refine ⟨K, fun f ths h hfin m hm => ?_⟩
  obtain ⟨h1, ⟨b, _, h2⟩, h3, h4, h5⟩ :=
    among_runs (by decide) (fun t _ => answer_stable (ss t)) (hK f ths h) hfin hm
  refine ⟨h1, fun t ht r e => ?_, h3, h4, h5⟩
  obtain ⟨g, hg, hd⟩ := h2 t ht r e
  exact ⟨g, hg, hd.seen⟩

/-- A thread that takes the number `n` from a document for an id and makes a branch on it
(bowtie-core/src/bdd/node/mod.rs:19-20, bowtie-core/src/bdd/node/arena.rs:47-60).
Not code: used to state or prove properties. -/
def forger {I : Type u} {α : Type v} (k : I) (n : Nat) (x : α) : Prog I Bool α :=
  .intern (.branch k (readId n) (readId n)) fun i => .load i fun _ => .ret x

/-- Not vacuous: in one run, thread 1 uses the missing id 99 and panics, thread 2 makes a node that is its own
child, and thread 0 still gets what it gets alone: an outfit of the demo closet with item 1. -/
example : ∃ (f : Nat → Nat) (ths : Nat → Thread Nat Bool (Answer (ClosetC Nat Nat) Nat Nat)) (m : Machine Nat Bool (fun _ => Answer (ClosetC Nat Nat) Nat Nat))
    (r : Answer (ClosetC Nat Nat) Nat Nat) (c : Closet Nat Nat) (o : List Nat),
    MRun ⟨Arena.init false true, ths⟩ m ∧ m.threads 1 = .panicked ∧
    (∃ i k, m.arena.getById i = some (.branch k i i)) ∧
    m.threads 0 = .run (.ret r) ∧ (⟨demo, [], [1]⟩ : Session Nat Nat).alone = some (.answered c (.ok o)) ∧
    r.seen ClosetC.itemIndex ClosetC.summary = .answered (c.itemIndex, c.summary) (.ok o) ∧ 1 ∈ o := by
  obtain ⟨K, hK⟩ := rogue_finish (· = 0) (fun _ => (⟨demo, [], [1]⟩ : Session Nat Nat))
  let ths : Nat → Thread Nat Bool (Answer (ClosetC Nat Nat) Nat Nat) := fun t =>
    if t = 0 then .run (threadP (K 0) ⟨demo, [], [1]⟩)
    else if t = 1 then .run (.load (readId 99) fun _ => .panic) else .run (forger 7 2 (.selectFailed (.UnknownItem 0)))
  have r1 : MRun ⟨Arena.init false true, ths⟩ ⟨Arena.init false true, Function.update ths 1 .panicked⟩ :=
    MRun.one (t := 1) (n := ⟨Arena.init false true, ths⟩) (.loadMissing (show (Arena.init false true : Arena Nat Bool).getById (readId 99) = none by decide))
  have hgood : ∀ t, t = 0 → K t ≤ K t ∧ ths t = .run (threadP (K t) ⟨demo, [], [1]⟩) := by
    rintro t rfl; exact ⟨le_rfl, rfl⟩
  have r2 := r1.trans (MRun.one (t := 2)
    (n := ⟨Arena.init false true, Function.update ths 1 .panicked⟩)
    (a := ((Arena.init false true).add (.branch 7 2 2)).1)
    (th := .run (.load 2 fun _ => .ret (.selectFailed (.UnknownItem 0)))) .addDirect)
  obtain ⟨m, r3, k3, r, g, e, hg, hs⟩ := hK K ths hgood _ r2 0 rfl
  obtain ⟨c, hc⟩ := (build_validates demo).1.1 demo_legal
  obtain ⟨o, ho⟩ := (complete_exact demo c hc [1]).2.1.2 ⟨fun x hx => demo_outfit.known x (by
    simp at hx; simp [hx]), by
      rintro ⟨f, s, h1, h2, _⟩
      have := h1.length_le
      simp at this; omega, _, demo_outfit, by simp⟩
  have h1 : Session.alone (⟨demo, [], [1]⟩ : Session Nat Nat) = some (.answered c (.ok o)) := by
    simp only [Session.alone, hc, Closet.selectAll, ho, Option.map_some]
  obtain rfl : Answer.answered c (.ok o) = g := Option.some.inj (h1.symm.trans hg)
  refine ⟨K, ths, m, r, c, o, r2.trans r3, ?_, ⟨2, 7, ?_⟩, e, h1, hs, ((complete_exact demo c hc [1]).2.2 o ho).2.1 1 (by simp)⟩
  · rw [k3 1 (by decide)]; rfl
  · exact (mrun_among (G := fun _ => False) (Q := fun _ _ _ => True) (fun _ h => h.elim) r3
      (add_inv (init_inv (by decide)) _) (fun _ h => h.elim)).1.keep _ _
      (show ((Arena.init false true : Arena Nat Bool).add (.branch 7 2 2)).1.getById 2 = some (.branch 7 2 2) by decide)

end Verif.ArenaBdd

namespace Verif.ArenaZdd2

open Verif.Arena Verif.Zdd2

universe u
variable {T : Nat → Type u} [∀ t, LinearOrder (T t)]

/-- C97 for forests: some threads each run a program over the forest API and list the result; the others run
anything at all over the same arena. -/
theorem rogue_locked (G : Nat → Prop) (ps : (t : Nat) → Matrix.Prog (T t)) :
    ∃ F : Nat → Nat, ∀ (f : Nat → Nat) (ths : (t : Nat) → Thread Nat Bool (ForestC (T t) × List (List (T t)))),
      (∀ t, G t → F t ≤ f t ∧ ths t = .run (threadP (f t) (ps t))) →
      {t | ¬ (FThread.out (ths t)).Finished}.Finite →
      ∀ m, FRun false false true (fstart ths) m →
      (∀ t, G t → m.threads t ≠ .out .panicked ∧ m.threads t ≠ .rdDone .panicked ∧
        m.threads t ≠ .wrDone .panicked) ∧
      (∀ t, G t → ∀ x ts, m.threads t = .out (.run (.ret (x, ts))) →
        ∃ g, run (ps t) = some g ∧ ts = g.trees ∧ x.univ = g.univ) ∧
      (∀ A : Policy Nat Bool (fun t => ForestC (T t) × List (List (T t))), A.Live →
        (∃ t, G t ∧ ¬ (m.threads t).Finished) → ∃ t m', PStep A false false true t m m') ∧
      (∀ A : Policy Nat Bool (fun t => ForestC (T t) × List (List (T t))), A.Live →
        ∃ m', PRun A false false true m m' ∧ ∀ t, G t → ∃ r, m'.threads t = .out (.run (.ret r))) ∧
      (∀ σ : Nat → FMachine Nat Bool (fun t => ForestC (T t) × List (List (T t))), σ 0 = m →
        ¬ ∀ k, ∃ t, FStep false false true t (σ k) (σ (k + 1))) := by
  obtain ⟨F, hF⟩ := boot_ok ps
  refine ⟨F, fun f ths h hfin m hm => ?_⟩
  have hw : ∀ t, G t → wpT (ths t) (Arena.init false true) _ := fun t ht => by
    rw [(h t ht).2]
    have := hF (fun s => max (F s) (f s)) (fun s => le_max_left _ _) t
    have e : max (F t) (f t) = f t := max_eq_right (h t ht).1
    simp only [boot, e] at this
    exact this
  obtain ⟨h1, ⟨b, _, h2⟩, h3, h4, h5⟩ := among_runs (by decide) (fun t _ => forest_stable (ps t)) hw hfin hm
  refine ⟨h1, fun t ht x ts e => ?_, h3, h4, h5⟩
  obtain ⟨g, hg, hd, he⟩ := h2 t ht _ e
  exact ⟨g, hg, he, hd.2⟩

end Verif.ArenaZdd2

namespace Verif.ArenaZdd1

open Verif.Arena Verif.Zdd1

universe u
variable {T : Type u} [LinearOrder T]

/-- C97 for the trees of the first weave package. -/
theorem rogue_locked (G : Nat → Prop) (qs : Nat → Ex T × List T × List T) :
    ∃ F : Nat → Nat, ∀ (f : Nat → Nat) (ths : Nat → Thread Nat Bool (TreeC T × List (List T) × List (List T) × List (List T))),
      (∀ t, G t → F t ≤ f t ∧ ths t = .run (threadP (f t) (qs t))) →
      {t | ¬ (FThread.out (ths t)).Finished}.Finite →
      ∀ m, FRun true false true (fstart ths) m →
      (∀ t, G t → m.threads t ≠ .out .panicked ∧ m.threads t ≠ .rdDone .panicked ∧
        m.threads t ≠ .wrDone .panicked) ∧
      (∀ t, G t → ∀ r, m.threads t = .out (.run (.ret r)) → ∃ x : TreeC T, r = (x, (qs t).1.eval.combinations,
        (qs t).1.eval.combinationsRecursive, (qs t).1.eval.combinationsWith (qs t).2.1 (qs t).2.2) ∧
        x.univ = (qs t).1.eval.univ) ∧
      (∀ A : Policy Nat Bool (fun _ => TreeC T × List (List T) × List (List T) × List (List T)), A.Live →
        (∃ t, G t ∧ ¬ (m.threads t).Finished) → ∃ t m', PStep A true false true t m m') ∧
      (∀ A : Policy Nat Bool (fun _ => TreeC T × List (List T) × List (List T) × List (List T)), A.Live →
        ∃ m', PRun A true false true m m' ∧ ∀ t, G t → ∃ r, m'.threads t = .out (.run (.ret r))) ∧
      (∀ σ : Nat → FMachine Nat Bool (fun _ => TreeC T × List (List T) × List (List T) × List (List T)), σ 0 = m →
        ¬ ∀ k, ∃ t, FStep true false true t (σ k) (σ (k + 1))) := by
  obtain ⟨F, hF⟩ := boot_ok qs
  refine ⟨F, fun f ths h hfin m hm => ?_⟩
  have hw : ∀ t, G t → wpT (ths t) (Arena.init false true) _ := fun t ht => by
    rw [(h t ht).2]
    have := hF (fun s => max (F s) (f s)) (fun s => le_max_left _ _) t
    have e : max (F t) (f t) = f t := max_eq_right (h t ht).1
    simp only [boot, e] at this
    exact this
  obtain ⟨h1, ⟨b, _, h2⟩, h3, h4, h5⟩ := among_runs (by decide) (fun t _ => right_stable (qs t)) hw hfin hm
  refine ⟨h1, fun t ht r e => ?_, h3, h4, h5⟩
  obtain ⟨x, cs⟩ := r
  obtain ⟨hd, he⟩ := h2 t ht _ e
  have he : cs = _ := he
  exact ⟨x, by rw [he], hd.2⟩

end Verif.ArenaZdd1
