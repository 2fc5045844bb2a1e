import Verif.ArenaClosetCrowd
import Verif.ArenaForestClient
import Verif.ArenaTreeClient
import Verif.Zdd2.Split

/-!
# Sessions that are saved and continued in another process (C125)

A client saves everything it holds and ends; its process may die at any moment after that.  In another process, with a node
store of its own and other threads doing anything, a client reads the documents back and goes on.
-/

set_option linter.unusedSectionVars false
set_option linter.unusedVariables false
set_option linter.checkUnivs false

namespace Verif.ArenaBdd

open Verif Verif.Arena Verif.Bdd Verif.Bdd.Spec

universe u v w w' x
variable {I : Type u} [LinearOrder I] {F : Type v} [LinearOrder F] {H : Type x} {O : Type w} {O' : Type w'}

/-- First the one client, then the one chosen by its output.  Not code: specification. -/
def Client.andThen : Client I F H O → (O → Client I F H O') → Client I F H O'
  | .ends o, k => k o
  | .call op c, k => .call op fun r => (c r).andThen k

/-- The calls that make, narrow and question closets through the builder.  Not code: specification. -/
def Op.Plain : Op I F → Prop
  | .build _ | .look _ | .select _ _ | .complete _ _ | .counts _ | .sameCloset _ _ | .saveCloset _ => True
  | _ => False

/-- The client makes only such calls, whatever it is answered.  Not code: specification. -/
def Client.Plain : Client I F H O → Prop
  | .ends _ => True
  | .call op k => op.Plain ∧ ∀ r, (k r).Plain

/-- Saves the closets at the given positions (bowtie-core/src/bdd/closet/mod.rs:12, bowtie-core/src/bdd/node/serialize.rs:8)
and ends with the documents.  Not code: specification. -/
def saveAll : List Nat → Client I F H (List (ClosetData I F))
  | [] => .ends []
  | i :: is => .call (.saveCloset i) fun
    | .closetData d => (saveAll is).andThen fun ds => .ends (d :: ds)
    | _ => saveAll is

/-- Reads the documents back one after the other, then goes on.  Not code: specification. -/
def loadAll (k : Client I F H O) : List (ClosetData I F) → Client I F H O
  | [] => k
  | d :: ds => .call (.loadCloset d) fun _ => loadAll k ds

theorem alone_andThen (e : Env I H) (c : Client I F H O) (k : O → Client I F H O') (s : Store (Node I) (Closet I F)) :
    (c.andThen k).alone e s = (c.alone e s).bind fun r => (k r.2).alone e r.1 := by
  induction c generalizing s with
  | ends o => rfl
  | call op c ih =>
    simp only [Client.andThen, Client.alone, Option.bind_assoc]
    congr 1
    funext r
    exact ih r.2 r.1

theorem alone_saveAll (e : Env I H) (s : Store (Node I) (Closet I F)) (is : List Nat) (cs : List (Closet I F))
    (h : List.Forall₂ (fun i c => s.closets[i]? = some c) is cs) :
    (saveAll is : Client I F H _).alone e s = some (s, cs.map serializeCloset) := by
  induction h with
  | nil => rfl
  | @cons i c is cs h1 h2 ih =>
    simp only [saveAll, Client.alone, Op.alone, h1, Option.bind_some, alone_andThen, ih, List.map_cons]

theorem alone_loadAll (e : Env I H) (k : Client I F H O) (cs done : List (Closet I F))
    (h : ∀ c ∈ cs, deserializeCloset (serializeCloset c) = some c) :
    (loadAll k (cs.map serializeCloset)).alone e ⟨[], done⟩ = k.alone e ⟨[], done ++ cs⟩ := by
  induction cs generalizing done with
  | nil => simp [loadAll]
  | cons c cs ih =>
    simp only [List.map_cons, loadAll, Client.alone, Op.alone, h c (by simp), Option.bind_some, Store.closet]
    rw [ih _ fun d hd => h d (by simp [hd])]
    simp

/-- Nothing but closets made with the builder and narrowed by selections.  Not code: used to state or prove properties. -/
def Own (s : Store (Node I) (Closet I F)) : Prop := s.nodes = [] ∧ ∀ c ∈ s.closets, ∃ cs xs, Reached cs xs c

theorem plain_op (e : Env I H) {op : Op I F} (hp : op.Plain) {s g : Store (Node I) (Closet I F)} {r : Reply I F H}
    (hs : Own s) (h : op.alone e s = some (g, r)) : Own g := by
  have add : ∀ {s : Store (Node I) (Closet I F)} {c : Closet I F}, Own s → (∃ cs xs, Reached cs xs c) → Own (s.closet c) := by
    intro s c hs hc
    refine ⟨hs.1, fun d hd => ?_⟩
    simp only [Store.closet, List.mem_append, List.mem_singleton] at hd
    rcases hd with hd | rfl
    · exact hs.2 d hd
    · exact hc
  cases op <;> simp only [Op.Plain] at hp
  case build calls =>
    simp only [Op.alone] at h
    cases hb : (ClosetBuilder.run calls).build with
    | error e => rw [hb] at h; cases h; exact hs
    | ok c => rw [hb] at h; cases h; exact add hs ⟨calls, [], c, hb, rfl⟩
  case select c i =>
    simp only [Op.alone, Option.bind_eq_some_iff] at h
    obtain ⟨c, hc, h⟩ := h
    cases hb : c.selectItem i with
    | error e => rw [hb] at h; cases h; exact hs
    | ok d =>
      rw [hb] at h; cases h
      obtain ⟨cs, xs, hr⟩ := hs.2 c (List.mem_of_getElem? hc)
      obtain ⟨c0, h1, h2⟩ := hr
      refine add hs ⟨cs, xs ++ [i], c0, h1, ?_⟩
      rw [selectAll_append c0 xs [i] h2]
      simp [Closet.selectAll, hb]
  all_goals
    simp only [Op.alone, Option.bind_eq_some_iff, Option.some.injEq, Prod.mk.injEq] at h
  case look c => obtain ⟨_, _, rfl, _⟩ := h; exact hs
  case complete c sel => obtain ⟨_, _, _, _, rfl, _⟩ := h; exact hs
  case counts c => obtain ⟨_, _, rfl, _⟩ := h; exact hs
  case sameCloset c d => obtain ⟨_, _, _, _, rfl, _⟩ := h; exact hs
  case saveCloset c => obtain ⟨_, _, rfl, _⟩ := h; exact hs

theorem plain_alone (e : Env I H) {c : Client I F H O} (hp : c.Plain) {s g : Store (Node I) (Closet I F)} {o : O}
    (hs : Own s) (h : c.alone e s = some (g, o)) : Own g := by
  induction c generalizing s with
  | ends o => cases h; exact hs
  | call op k ih =>
    simp only [Client.alone, Option.bind_eq_some_iff] at h
    obtain ⟨⟨s', r⟩, h1, h2⟩ := h
    exact ih r (hp.2 r) (plain_op e hp.1 hs h1) h2

theorem forall₂_range (l : List O) : List.Forall₂ (fun i c => l[i]? = some c) (List.range l.length) l := by
  rw [List.forall₂_iff_get]
  refine ⟨by simp, fun i h1 h2 => ?_⟩
  simp

/-- C125, in one sentence about single clients: saving all closets, and reading them back, is no interruption. -/
theorem interrupted_alone (e : Env I H) {session : Client I F H Nat} (hp : session.Plain)
    (hn : ∀ g n, session.alone e ⟨[], []⟩ = some (g, n) → n = g.closets.length) {g : Store (Node I) (Closet I F)}
    {docs : List (ClosetData I F)}
    (h : (session.andThen fun n => saveAll (List.range n)).alone e ⟨[], []⟩ = some (g, docs)) (k : Nat → Client I F H O) :
    (loadAll (k docs.length) docs).alone e ⟨[], []⟩ = (session.andThen k).alone e ⟨[], []⟩ := by
  rw [alone_andThen, Option.bind_eq_some_iff] at h
  obtain ⟨⟨g1, n⟩, h1, h2⟩ := h
  obtain rfl := hn _ _ h1
  obtain ⟨a, b⟩ := plain_alone e hp ⟨rfl, by simp⟩ h1
  rw [alone_saveAll e g1 _ _ (forall₂_range g1.closets)] at h2
  cases h2
  obtain ⟨ns, cs⟩ := g
  subst a
  rw [alone_loadAll e _ _ _ fun c hc => ?_, alone_andThen, h1]
  · simp
  · obtain ⟨ds, xs, hr⟩ := b c hc
    exact closet_roundtrip ds xs c hr

/-- C125: a client builds, narrows and questions closets, saves all it holds and ends, in one process; that process, at
whatever moment after that, is gone.  In a second process, next to threads doing anything, a client reads the documents back
and goes on in any way.  It then gets exactly what it would have got by going on in the first place, in a process of its own:
it panics only if that does, its output is the same, and it can always come to its end. -/
theorem restart_exact (e : Env I H) :
    ∃ (need1 : Client I F H (List (ClosetData I F)) → Store (Node I) (Closet I F) → Nat)
      (need2 : Client I F H O → Store (Node I) (Closet I F) → Nat),
    ∀ (session : Client I F H Nat), session.Plain →
    (∀ g n, session.alone e ⟨[], []⟩ = some (g, n) → n = g.closets.length) →
    ∀ m1 log1, Crowd e need1 m1 log1 → ∀ t1,
      log1 t1 = some (session.andThen fun n => saveAll (List.range n), ⟨[], []⟩) →
    ∀ s1 docs, m1.threads t1 = .run (.ret (s1, docs)) →
    ∀ (k : Nat → Client I F H O) m2 log2, Crowd e need2 m2 log2 → ∀ t2,
      log2 t2 = some (loadAll (k docs.length) docs, ⟨[], []⟩) →
      (m2.threads t2 = .panicked → (session.andThen k).alone e ⟨[], []⟩ = none) ∧
      (∀ s o, m2.threads t2 = .run (.ret (s, o)) → ∃ g, (session.andThen k).alone e ⟨[], []⟩ = some (g, o) ∧
        s.nodes.length = g.nodes.length ∧ s.closets.length = g.closets.length) ∧
      (m2.threads t2 = .panicked ∨ (∃ r, m2.threads t2 = .run (.ret r)) ∨
        ∃ a th, TStep m2.arena (m2.threads t2) a th) ∧
      ∃ m', Crowd e need2 m' log2 ∧ MRun m2 m' ∧ (∀ t, t ≠ t2 → m'.threads t = m2.threads t) ∧
        ((session.andThen k).alone e ⟨[], []⟩ = none → m'.threads t2 = .panicked) ∧
        ∀ g o, (session.andThen k).alone e ⟨[], []⟩ = some (g, o) → ∃ s, m'.threads t2 = .run (.ret (s, o)) := by
  obtain ⟨need1, h1⟩ := crowds_exact (I := I) (F := F) (O := List (ClosetData I F)) e
  obtain ⟨need2, h2⟩ := crowds_exact (I := I) (F := F) (O := O) e
  refine ⟨need1, need2, fun session hp hn m1 log1 hc1 t1 hl1 s1 docs hd k m2 log2 hc2 t2 hl2 => ?_⟩
  obtain ⟨g, hg, -⟩ := (h1 m1 log1 hc1 t1 _ _ hl1).2.1 s1 docs hd
  obtain ⟨a, b, c, m', d1, d2, d3, d4, d5⟩ := h2 m2 log2 hc2 t2 _ _ hl2
  rw [interrupted_alone e hp hn hg k] at a b d4 d5
  exact ⟨a, b, c, m', d1, d2, d3, d4, fun g o ho => (d5 g o ho).imp fun s hs => hs.1⟩

/-! ### the hypotheses are met -/

/-- Builds a closet, selects item 4, and reports how many closets it holds.  Not code: used to state or prove properties. -/
def shopper : Client Nat Nat Nat Nat :=
  .call (.build demo) fun _ => .call (.select 0 4) fun _ => .ends 2

/-- Asks for the counts of the last closet.  Not code: used to state or prove properties. -/
def counter (n : Nat) : Client Nat Nat Nat (Reply Nat Nat Nat) := .call (.counts (n - 1)) fun r => .ends r

/-- Not vacuous: the first process ends with two documents, its second thread panics; in the second process, whose thread 5
does something else, the client of thread 0 reads them back and is told the counts of the narrowed closet. -/
example (e : Env Nat Nat) : ∃ (need1 : Client Nat Nat Nat (List (ClosetData Nat Nat)) → Store (Node Nat) (Closet Nat Nat) → Nat)
    (need2 : Client Nat Nat Nat (Reply Nat Nat Nat) → Store (Node Nat) (Closet Nat Nat) → Nat), ∃
    m1 log1 s1 docs m2 log2 s2 c,
    shopper.Plain ∧ (∀ g n, shopper.alone e ⟨[], []⟩ = some (g, n) → n = g.closets.length) ∧ Reached demo [4] c ∧
    Crowd e need1 m1 log1 ∧ log1 0 = some (shopper.andThen fun n => saveAll (List.range n), ⟨[], []⟩) ∧
    m1.threads 0 = .run (.ret (s1, docs)) ∧ docs.length = 2 ∧
    Crowd e need2 m2 log2 ∧ log2 0 = some (loadAll (counter docs.length) docs, ⟨[], []⟩) ∧
    m2.threads 0 = .run (.ret (s2, .counts c.root.nodeCount c.root.leafCount c.root.outfitCount c.root.depth)) := by
  obtain ⟨c0, hc0⟩ := (build_validates demo).1.1 demo_legal
  obtain ⟨c1, hc1, hr⟩ := (select_exact demo [] c0 ⟨c0, hc0, rfl⟩ ⟨_, demo_outfit⟩ 4).2.2 ⟨_, demo_outfit, by simp, by simp⟩
  have al : shopper.alone e ⟨[], []⟩ = some (⟨[], [c0, c1]⟩, 2) := by
    simp [shopper, Client.alone, Op.alone, hc0, hc1, Store.closet]
  have hp : shopper.Plain := ⟨trivial, fun r => ⟨trivial, fun r => trivial⟩⟩
  have hn : ∀ g n, shopper.alone e ⟨[], []⟩ = some (g, n) → n = g.closets.length := by
    intro g n h
    rw [al] at h
    cases h
    rfl
  have a1 : (shopper.andThen fun n => saveAll (List.range n)).alone e ⟨[], []⟩ =
      some (⟨[], [c0, c1]⟩, [serializeCloset c0, serializeCloset c1]) := by
    rw [alone_andThen, al]
    exact alone_saveAll e ⟨[], [c0, c1]⟩ _ _ (forall₂_range [c0, c1])
  have a2 := interrupted_alone e hp hn a1 counter
  obtain ⟨need1, h1⟩ := crowds_exact (I := Nat) (F := Nat) (O := List (ClosetData Nat Nat)) e
  obtain ⟨need2, h2⟩ := crowds_exact (I := Nat) (F := Nat) (O := Reply Nat Nat Nat) e
  have p1 := Crowd.client 0 (shopper.andThen fun n => saveAll (List.range n)) [] [] ⟨[], []⟩ ⟨[], []⟩ _
    (Crowd.boot (e := e) (need := need1) fun _ => .panicked) rfl rfl le_rfl
  obtain ⟨m1, q1, -, -, -, f1⟩ := (h1 _ _ p1 0 _ _ rfl).2.2.2
  obtain ⟨s1, f1, -⟩ := f1 _ _ a1
  have p2 := Crowd.client 0 (loadAll (counter 2) [serializeCloset c0, serializeCloset c1]) [] [] ⟨[], []⟩ ⟨[], []⟩ _
    (Crowd.boot (e := e) (need := need2) fun _ => .run (.load 0 fun _ => .panic)) rfl rfl le_rfl
  obtain ⟨m2, q2, -, -, -, f2⟩ := (h2 _ _ p2 0 _ _ rfl).2.2.2
  obtain ⟨s2, f2, -⟩ := f2 ⟨[], [c0, c1]⟩
    (.counts c1.root.nodeCount c1.root.leafCount c1.root.outfitCount c1.root.depth) (by
      refine a2.trans ?_
      rw [alone_andThen, al]
      simp [counter, Client.alone, Op.alone])
  exact ⟨need1, need2, m1, _, s1, _, m2, _, s2, c1, hp, hn, hr, q1, rfl, f1, rfl, q2, rfl, f2⟩

end Verif.ArenaBdd

/-! ## zdd2 forests and v1 trees -/

namespace Verif.Arena

universe u v w w' x y z o o'
variable {K : Type u} {L : Type v} [DecidableEq K] [DecidableEq L]
variable {A : Api.{u, v, w, w', x, y} K L} {l0 l1 : L} {O : Type o} {O' : Type o'} {D : Type z}

/-- First the one client, then the one chosen by its output.  Not code: specification. -/
def Client.andThen {Op : Type w} {Reply : Type w'} : Client Op Reply O → (O → Client Op Reply O') → Client Op Reply O'
  | .ends o, k => k o
  | .call op c, k => .call op fun r => (c r).andThen k

/-- The client makes only calls of the given kind, whatever it is answered.  Not code: specification. -/
def Client.Only {Op : Type w} {Reply : Type w'} (P : Op → Prop) : Client Op Reply O → Prop
  | .ends _ => True
  | .call op k => P op ∧ ∀ r, (k r).Only P

/-- Saves what is at the given positions and ends with the documents.  Not code: specification. -/
def saveAll {Op : Type w} {Reply : Type w'} (save : Nat → Op) (got : Reply → Option D) :
    List Nat → Client Op Reply (List D)
  | [] => .ends []
  | i :: is => .call (save i) fun r => match got r with
    | some d => (saveAll save got is).andThen fun ds => .ends (d :: ds)
    | none => saveAll save got is

/-- Reads the documents back one after the other, then goes on.  Not code: specification. -/
def loadAll {Op : Type w} {Reply : Type w'} (load : D → Op) (k : Client Op Reply O) : List D → Client Op Reply O
  | [] => k
  | d :: ds => .call (load d) fun _ => loadAll load k ds

theorem alone_andThen (c : Client A.Op A.Reply O) (k : O → Client A.Op A.Reply O') (s : List A.V) :
    (c.andThen k).alone A s = (c.alone A s).bind fun r => (k r.2).alone A r.1 := by
  induction c generalizing s with
  | ends o => rfl
  | call op c ih =>
    simp only [Client.andThen, Client.alone, Option.bind_assoc]
    congr 1
    funext r
    exact ih r.2 r.1

theorem alone_saveAll {save : Nat → A.Op} {got : A.Reply → Option D} {doc : A.V → D}
    (hs : ∀ (s : List A.V) i v, s[i]? = some v → ∃ r, A.alone s (save i) = some (s, r) ∧ got r = some (doc v))
    (s : List A.V) (is : List Nat) (vs : List A.V) (h : List.Forall₂ (fun i c => s[i]? = some c) is vs) :
    (saveAll save got is).alone A s = some (s, vs.map doc) := by
  induction h with
  | nil => rfl
  | @cons i v is vs h1 h2 ih =>
    obtain ⟨r, hr, hg⟩ := hs s i v h1
    simp only [saveAll, Client.alone, hr, Option.bind_some, hg, alone_andThen, ih, List.map_cons]

theorem alone_loadAll {load : D → A.Op} {doc : A.V → D} (k : Client A.Op A.Reply O) (vs done : List A.V)
    (hl : ∀ v ∈ vs, ∀ s : List A.V, ∃ r, A.alone s (load (doc v)) = some (s ++ [v], r)) :
    (loadAll load k (vs.map doc)).alone A done = k.alone A (done ++ vs) := by
  induction vs generalizing done with
  | nil => simp [loadAll]
  | cons v vs ih =>
    obtain ⟨r, hr⟩ := hl v (by simp) done
    simp only [List.map_cons, loadAll, Client.alone, hr, Option.bind_some]
    rw [ih _ fun d hd => hl d (by simp [hd])]
    simp

/-- Saving everything, and reading it back, is no interruption. -/
theorem interrupted_alone {save : Nat → A.Op} {load : D → A.Op} {got : A.Reply → Option D} {doc : A.V → D}
    (hs : ∀ (s : List A.V) i v, s[i]? = some v → ∃ r, A.alone s (save i) = some (s, r) ∧ got r = some (doc v))
    {session : Client A.Op A.Reply Nat}
    (hl : ∀ g n, session.alone A [] = some (g, n) → n = g.length ∧
      ∀ v ∈ g, ∀ s : List A.V, ∃ r, A.alone s (load (doc v)) = some (s ++ [v], r))
    {g : List A.V} {docs : List D}
    (h : (session.andThen fun n => saveAll save got (List.range n)).alone A [] = some (g, docs))
    (k : Nat → Client A.Op A.Reply O) :
    (loadAll load (k docs.length) docs).alone A [] = (session.andThen k).alone A [] := by
  rw [alone_andThen, Option.bind_eq_some_iff] at h
  obtain ⟨⟨g1, n⟩, h1, h2⟩ := h
  obtain ⟨rfl, hl⟩ := hl _ _ h1
  rw [alone_saveAll hs g1 _ _ (ArenaBdd.forall₂_range g1)] at h2
  cases h2
  rw [alone_loadAll _ _ _ hl, alone_andThen, h1]
  simp

theorem only_alone {P : A.Op → Prop} {Q : A.V → Prop}
    (hop : ∀ op, P op → ∀ s g r, (∀ v ∈ s, Q v) → A.alone s op = some (g, r) → ∀ v ∈ g, Q v)
    {c : Client A.Op A.Reply O} (hp : c.Only P) {s g : List A.V} {o : O} (hs : ∀ v ∈ s, Q v)
    (h : c.alone A s = some (g, o)) : ∀ v ∈ g, Q v := by
  induction c generalizing s with
  | ends o => cases h; exact hs
  | call op k ih =>
    simp only [Client.alone, Option.bind_eq_some_iff] at h
    obtain ⟨⟨s', r⟩, h1, h2⟩ := h
    exact ih r (hp.2 r) (hop op hp.1 _ _ _ hs h1) h2

end Verif.Arena

namespace Verif.ArenaZdd2

open Verif Verif.Arena Verif.Zdd2

universe u w
variable {T : Type u} [LinearOrder T] {O : Type w}

/-- Every call but reading data.  Not code: specification. -/
def FOp.Plain : FOp T → Prop
  | .load _ => False
  | _ => True

/-- The document in an answer.  Not code: specification. -/
def FReply.doc : FReply T → Option (ForestData T)
  | .data d => some d
  | _ => none

theorem plain_reach (dbg : T → List Char) (op : FOp T) (hp : op.Plain) (s g : List (Forest T)) (r : FReply T)
    (hs : ∀ v ∈ s, Reach v) (h : op.alone dbg s = some (g, r)) : ∀ v ∈ g, Reach v := by
  have add : ∀ {v : Forest T}, Reach v → ∀ w ∈ s ++ [v], Reach w := by
    intro v hv w hw
    rcases List.mem_append.1 hw with hw | hw
    · exact hs w hw
    · rw [List.mem_singleton] at hw; subst hw; exact hv
  have get : ∀ {i : Nat} {v : Forest T}, s[i]? = some v → Reach v := fun h => hs _ (List.mem_of_getElem? h)
  cases op <;> simp only [FOp.Plain] at hp
  case empty => cases h; exact add reach_empty
  case unit items => cases h; exact add (reach_unit items)
  case many matrix => cases h; exact add (reach_many matrix)
  case unique items => cases h; exact add (reach_unique items)
  all_goals simp only [FOp.alone, Option.bind_eq_some_iff, Option.some.injEq, Prod.mk.injEq] at h
  case union => obtain ⟨v, hv, v', hv', z, hz, rfl, _⟩ := h; exact add (reach_of_union (get hv) (get hv') hz)
  case intersect => obtain ⟨v, hv, v', hv', z, hz, rfl, _⟩ := h; exact add (reach_of_intersect (get hv) (get hv') hz)
  case product => obtain ⟨v, hv, v', hv', z, hz, rfl, _⟩ := h; exact add (reach_of_product (get hv) (get hv') hz)
  case subset => obtain ⟨v, hv, rfl, _⟩ := h; exact add (reach_subset (get hv) _)
  case subsetNot => obtain ⟨v, hv, rfl, _⟩ := h; exact add (reach_subsetNot (get hv) _)
  case subsetAll => obtain ⟨v, hv, rfl, _⟩ := h; exact add (reach_subsetAll (get hv) _)
  case subsetNone x es =>
    obtain ⟨v, hv, rfl, _⟩ := h
    obtain ⟨p, hp⟩ := get hv
    exact add ⟨.subsetNone p es, by simp only [run, hp, Option.map_some]⟩
  case len => obtain ⟨_, _, rfl, _⟩ := h; exact hs
  case isEmpty => obtain ⟨_, _, rfl, _⟩ := h; exact hs
  case trees => obtain ⟨_, _, rfl, _⟩ := h; exact hs
  case occurrences => obtain ⟨_, _, rfl, _⟩ := h; exact hs
  case same => obtain ⟨_, _, _, _, rfl, _⟩ := h; exact hs
  case debug => obtain ⟨_, _, _, _, rfl, _⟩ := h; exact hs
  case save => obtain ⟨_, _, rfl, _⟩ := h; exact hs

theorem save_alone (dbg : T → List Char) (s : List (Forest T)) (i : Nat) (v : Forest T) (h : s[i]? = some v) :
    ∃ r, FOp.alone dbg s (.save i) = some (s, r) ∧ r.doc = some (serializeForest v.univ.occurrences v) :=
  ⟨.data _, by simp only [FOp.alone, h, Option.bind_some], rfl⟩

theorem load_alone (dbg : T → List Char) {v : Forest T} (hr : Reach v) (hb : v.occurrences.length ≤ 2 ^ 64)
    (s : List (Forest T)) : ∃ r, FOp.alone dbg s (.load (serializeForest v.univ.occurrences v)) = some (s ++ [v], r) :=
  ⟨.done, by simp only [FOp.alone, forest_roundtrip hr (List.Perm.refl _) hb]⟩

theorem session_saved (dbg : T → List Char) {session : Client (FOp T) (FReply T) Nat} (hp : session.Only FOp.Plain)
    (hn : ∀ g n, session.alone (forestApi dbg) [] = some (g, n) → n = g.length ∧ ∀ f ∈ g, f.occurrences.length ≤ 2 ^ 64)
    {g : List (Forest T)} {docs : List (ForestData T)}
    (h : (session.andThen fun n => saveAll FOp.save FReply.doc (List.range n)).alone (forestApi dbg) [] = some (g, docs))
    (k : Nat → Client (FOp T) (FReply T) O) :
    (loadAll FOp.load (k docs.length) docs).alone (forestApi dbg) [] = (session.andThen k).alone (forestApi dbg) [] :=
  interrupted_alone (A := forestApi dbg) (save := FOp.save) (load := FOp.load) (got := FReply.doc)
    (doc := fun x : Forest T => serializeForest x.univ.occurrences x) (save_alone dbg)
    (fun g n h => ⟨(hn g n h).1, fun v hv s => load_alone dbg
      (only_alone (A := forestApi dbg) (plain_reach dbg) hp (by simp) h v hv) ((hn g n h).2 v hv) s⟩) h k

/-- C125 for forests: a client makes, combines, narrows and questions forests, saves all it holds and ends, in one process;
that process, at whatever moment after that, is gone.  In a second process, next to threads doing anything, a client reads
the documents back and goes on in any way.  It then gets exactly what it would have got by going on in the first place. -/
theorem restart_exact {O : Type w} (dbg : T → List Char) :
    ∃ (need1 : Client (FOp T) (FReply T) (List (ForestData T)) → List (Forest T) → Nat)
      (need2 : Client (FOp T) (FReply T) O → List (Forest T) → Nat),
    ∀ session : Client (FOp T) (FReply T) Nat, session.Only FOp.Plain →
    (∀ g n, session.alone (forestApi dbg) [] = some (g, n) → n = g.length ∧ ∀ f ∈ g, f.occurrences.length ≤ 2 ^ 64) →
    ∀ w1 : World (forestApi dbg) (List (ForestData T)), World.Run false true need1 w1 → ∀ t1,
      w1.alone t1 = some ((session.andThen fun n => saveAll FOp.save FReply.doc (List.range n)).alone (forestApi dbg) []) →
    ∀ s1 docs, w1.machine.threads t1 = .run (.ret (s1, docs)) →
    ∀ (k : Nat → Client (FOp T) (FReply T) O) (w2 : World (forestApi dbg) O), World.Run false true need2 w2 → ∀ t2,
      w2.alone t2 = some ((loadAll FOp.load (k docs.length) docs).alone (forestApi dbg) []) →
      (w2.machine.threads t2 = .panicked → (session.andThen k).alone (forestApi dbg) [] = none) ∧
      (∀ s o, w2.machine.threads t2 = .run (.ret (s, o)) →
        ∃ g, (session.andThen k).alone (forestApi dbg) [] = some (g, o) ∧ s.length = g.length) ∧
      (w2.machine.threads t2 = .panicked ∨ (∃ r, w2.machine.threads t2 = .run (.ret r)) ∨
        ∃ a th, TStep w2.machine.arena (w2.machine.threads t2) a th) ∧
      ∃ m, World.Run false true need2 ⟨m, w2.alone⟩ ∧ MRun w2.machine m ∧
        (∀ t, t ≠ t2 → m.threads t = w2.machine.threads t) ∧
        ((session.andThen k).alone (forestApi dbg) [] = none → m.threads t2 = .panicked) ∧
        ∀ g o, (session.andThen k).alone (forestApi dbg) [] = some (g, o) →
          ∃ s, m.threads t2 = .run (.ret (s, o)) ∧ s.length = g.length := by
  obtain ⟨need1, h1⟩ := worlds_exact (O := List (ForestData T)) dbg
  obtain ⟨need2, h2⟩ := worlds_exact (O := O) dbg
  refine ⟨need1, need2, fun session hp hn w1 hw1 t1 ha1 s1 docs hd k w2 hw2 t2 ha2 => ?_⟩
  obtain ⟨g, hg, -⟩ := (h1 w1 hw1 t1 _ ha1).2.1 s1 docs hd
  have := h2 w2 hw2 t2 _ ha2
  rw [session_saved dbg hp hn hg k] at this
  exact this

/-- Makes two forests and intersects them.  Not code: used to state or prove properties. -/
def shopper : Client (FOp Nat) (FReply Nat) Nat :=
  .call (.many [[1, 2], [1, 3]]) fun _ => .call (.subset 0 2) fun _ => .ends 2

/-- Asks for the sets of the last forest.  Not code: used to state or prove properties. -/
def asker (n : Nat) : Client (FOp Nat) (FReply Nat) (FReply Nat) := .call (.trees (n - 1)) fun r => .ends r

/-- Not vacuous: the first process, with a panicking thread, ends with two documents; in the second, the client that reads them
back is told the sets of the narrowed forest. -/
example (dbg : Nat → List Char) :
    ∃ (need1 : Client (FOp Nat) (FReply Nat) (List (ForestData Nat)) → List (Forest Nat) → Nat)
      (need2 : Client (FOp Nat) (FReply Nat) (FReply Nat) → List (Forest Nat) → Nat), ∃
      (w1 : World (forestApi dbg) (List (ForestData Nat))) (w2 : World (forestApi dbg) (FReply Nat)), ∃ s1 docs s2,
      shopper.Only FOp.Plain ∧
      (∀ g n, shopper.alone (forestApi dbg) [] = some (g, n) → n = g.length ∧ ∀ f ∈ g, f.occurrences.length ≤ 2 ^ 64) ∧
      World.Run false true need1 w1 ∧
      w1.alone 0 = some ((shopper.andThen fun n => saveAll FOp.save FReply.doc (List.range n)).alone (forestApi dbg) []) ∧
      w1.machine.threads 0 = .run (.ret (s1, docs)) ∧ docs.length = 2 ∧ World.Run false true need2 w2 ∧
      w2.alone 0 = some ((loadAll FOp.load (asker docs.length) docs).alone (forestApi dbg) []) ∧
      w2.machine.threads 0 = .run (.ret (s2, .sets ((Forest.many [[1, 2], [1, 3]]).subset 2).trees)) := by
  obtain ⟨need1, n1⟩ := world_ok (O := List (ForestData Nat)) (forest_sound dbg) (by decide)
  obtain ⟨need2, n2⟩ := world_ok (O := FReply Nat) (forest_sound dbg) (by decide)
  have al : shopper.alone (forestApi dbg) [] =
      some ([Forest.many [[1, 2], [1, 3]], (Forest.many [[1, 2], [1, 3]]).subset 2], 2) := by
    simp [shopper, Client.alone, forestApi, FOp.alone]
  have hp : shopper.Only FOp.Plain := ⟨trivial, fun r => ⟨trivial, fun r => trivial⟩⟩
  have hn : ∀ g n, shopper.alone (forestApi dbg) [] = some (g, n) →
      n = g.length ∧ ∀ f ∈ g, f.occurrences.length ≤ 2 ^ 64 := by
    intro g n h
    rw [al] at h
    cases h
    refine ⟨rfl, ?_⟩
    have b : (Forest.many [[1, 2], [1, 3]] : Forest Nat).occurrences.length ≤ 2 ^ 64 := by decide
    have : ∀ f ∈ [(Forest.many [[1, 2], [1, 3]] : Forest Nat), (Forest.many [[1, 2], [1, 3]]).subset 2],
        f.occurrences.length ≤ 2 ^ 64 := by
      intro f hf
      simp only [List.mem_cons, List.not_mem_nil, or_false] at hf
      rcases hf with rfl | rfl
      · exact b
      · have hr := reach_subset (reach_many [[1, 2], [1, 3]]) (2 : Nat)
        obtain ⟨o1, o2⟩ := occurrences_exact hr _ (List.Perm.refl _)
        have nd : (((Forest.many [[1, 2], [1, 3]]).subset 2).occurrences.map Prod.fst).Nodup := by
          refine List.Pairwise.map _ (fun a b h => ?_) o1
          exact ne_of_lt h
        have sub : ((Forest.many [[1, 2], [1, 3]]).subset 2).occurrences.map Prod.fst ⊆ [1, 2, 3] := by
          intro x hx
          simp only [List.mem_map] at hx
          obtain ⟨⟨x, n⟩, hx, rfl⟩ := hx
          obtain ⟨⟨s, hs, hx⟩, -⟩ := (o2 x n).1 hx
          rw [subset_family (reach_many _), many_family] at hs
          have h1 := hs.1.1
          simp [Spec.family] at h1
          rcases h1 with rfl | rfl <;> simp at hx <;> rcases hx with rfl | rfl <;> simp
        have := (nd.subperm sub).length_le
        rw [List.length_map] at this
        exact this.trans (by decide)
    exact this
  have a1 : (shopper.andThen fun n => saveAll FOp.save FReply.doc (List.range n)).alone (forestApi dbg) [] =
      some ([Forest.many [[1, 2], [1, 3]], (Forest.many [[1, 2], [1, 3]]).subset 2],
        [Forest.many [[1, 2], [1, 3]], (Forest.many [[1, 2], [1, 3]]).subset 2].map
          fun x => serializeForest x.univ.occurrences x) := by
    refine (alone_andThen (A := forestApi dbg) shopper _ []).trans ?_
    rw [al]
    exact alone_saveAll (A := forestApi dbg) (save := FOp.save) (got := FReply.doc)
      (doc := fun x : Forest Nat => serializeForest x.univ.occurrences x) (save_alone dbg) _ _ _
      (ArenaBdd.forall₂_range _)
  have hs := forest_sound (T := Nat) dbg
  have p1 : World.Run (A := forestApi dbg) (O := List (ForestData Nat)) false true need1
    ⟨⟨Arena.init false true, fun _ => .panicked⟩, fun _ => none⟩ := .boot _
  have p2 : World.Run (A := forestApi dbg) (O := FReply Nat) false true need2
    ⟨⟨Arena.init false true, fun _ => .panicked⟩, fun _ => none⟩ := .boot _
  obtain ⟨m1, r1, -, -, e1⟩ := spawn hs n1 p1 0 _ [] rfl rfl a1
  obtain ⟨s1, e1, l1⟩ := e1 _ _ rfl
  have key := session_saved dbg hp hn a1 asker
  have a2 : (shopper.andThen asker).alone (forestApi dbg) [] =
      some ([Forest.many [[1, 2], [1, 3]], (Forest.many [[1, 2], [1, 3]]).subset 2],
        .sets ((Forest.many [[1, 2], [1, 3]]).subset 2).trees) := by
    refine (alone_andThen (A := forestApi dbg) shopper _ []).trans ?_
    rw [al]
    simp [asker, Client.alone, forestApi, FOp.alone]
  obtain ⟨m2, r2, -, -, e2⟩ := spawn hs n2 p2 0 _ [] rfl rfl (key.trans a2)
  obtain ⟨s2, e2, l2⟩ := e2 _ _ rfl
  refine ⟨need1, need2, ⟨m1, _⟩, ⟨m2, _⟩, s1, _, s2, hp, hn, r1, ?_, e1, rfl, r2, ?_, e2⟩
  · dsimp only; rw [Function.update_self, a1]
  · dsimp only; rw [Function.update_self, key, a2]

end Verif.ArenaZdd2

namespace Verif.ArenaZdd1

open Verif Verif.Arena Verif.Zdd1

universe u w
variable {T : Type u} [LinearOrder T] {O : Type w}

/-- A universe made from a list of at most 2^64 items (weave/src/zdd/tree/universe.rs:25).  Not code: specification. -/
def Usual (uni : Universe T) : Prop := ∃ items : List T, items.length ≤ 2 ^ 64 ∧ uni = Universe.fromVec items

/-- Every call but reading data, over universes made from lists of at most 2^64 items.  Not code: specification. -/
def TOp.Plain : TOp T → Prop
  | .load _ => False
  | .empty uni | .unit uni | .tree uni _ | .unique uni _ | .hyper uni _ => Usual uni
  | _ => True

/-- The document in an answer.  Not code: specification. -/
def TReply.doc : TReply T → Option (TreeData T)
  | .data d => some d
  | _ => none

/-- A tree over a usual universe whose ids fit.  Not code: used to state or prove properties. -/
def Own (t : Tree T) : Prop := Usual t.univ ∧ t.root.Fits

theorem known_fits {uni : Universe T} (h : Usual uni) {n : Node} (hn : n.Ids uni.Known) : n.Fits := by
  obtain ⟨items, hlen, rfl⟩ := h
  refine hn.mono fun i hi => ?_
  obtain ⟨x, hx, _⟩ := Universe.known_get hi
  obtain ⟨h, _⟩ := List.getElem?_eq_some_iff.mp hx
  show i < 2 ^ 64
  omega

theorem own_tree {uni : Universe T} (h : Usual uni) (c : List T) : Own (uni.tree c) :=
  ⟨h, known_fits h (by obtain ⟨items, hlen, rfl⟩ := h; exact tree_ids _ _)⟩

theorem plain_own (op : TOp T) (hp : op.Plain) (s g : List (Tree T)) (r : TReply T)
    (hs : ∀ v ∈ s, Own v) (h : op.alone s = some (g, r)) : ∀ v ∈ g, Own v := by
  have add : ∀ {v : Tree T}, Own v → ∀ w ∈ s ++ [v], Own w := by
    intro v hv w hw
    rcases List.mem_append.1 hw with hw | hw
    · exact hs w hw
    · rw [List.mem_singleton] at hw; subst hw; exact hv
  have get : ∀ {i : Nat} {v : Tree T}, s[i]? = some v → Own v := fun h => hs _ (List.mem_of_getElem? h)
  cases op <;> simp only [TOp.Plain] at hp
  case empty => cases h; exact add ⟨hp, trivial⟩
  case unit => cases h; exact add ⟨hp, trivial⟩
  case tree => cases h; exact add (own_tree hp _)
  case unique uni xs =>
    cases h
    refine add ⟨by rw [Universe.uniqueTree, univ_foldUnion]; exact hp, known_fits hp ?_⟩
    obtain ⟨items, hlen, rfl⟩ := hp
    refine foldUnion_ids _ _ trivial ?_
    simp only [List.mem_map]; rintro _ ⟨x, _, rfl⟩; exact tree_ids _ _
  case hyper uni xs =>
    cases h
    refine add ⟨by rw [Universe.hyperTree, univ_foldUnion]; exact hp, known_fits hp ?_⟩
    obtain ⟨items, hlen, rfl⟩ := hp
    refine foldUnion_ids _ _ trivial ?_
    simp only [List.mem_map]; rintro _ ⟨x, _, rfl⟩; exact tree_ids _ _
  all_goals simp only [TOp.alone, Option.bind_eq_some_iff, Option.some.injEq, Prod.mk.injEq] at h
  case union => obtain ⟨v, hv, v', hv', rfl, _⟩ := h; exact add ⟨(get hv).1, (get hv).2.union (get hv').2⟩
  case intersect => obtain ⟨v, hv, v', hv', rfl, _⟩ := h; exact add ⟨(get hv).1, (get hv).2.intersect (get hv').2⟩
  case product => obtain ⟨v, hv, v', hv', rfl, _⟩ := h; exact add ⟨(get hv).1, (get hv).2.product (get hv').2⟩
  case restrict =>
    obtain ⟨v, hv, rfl, _⟩ := h
    refine add ⟨by rw [Tree.restrict, Universe.hyperTree, univ_foldUnion]; exact (get hv).1, known_fits (get hv).1 ?_⟩
    obtain ⟨items, hlen, hu⟩ := (get hv).1
    rw [Tree.restrict, hu]
    refine foldUnion_ids _ _ trivial ?_
    simp only [List.mem_map]; rintro _ ⟨x, _, rfl⟩; exact tree_ids _ _
  case combinations => obtain ⟨_, _, rfl, _⟩ := h; exact hs
  case combinationsRecursive => obtain ⟨_, _, rfl, _⟩ := h; exact hs
  case combinationsWith => obtain ⟨_, _, rfl, _⟩ := h; exact hs
  case summarize => obtain ⟨_, _, rfl, _⟩ := h; exact hs
  case traverse => obtain ⟨_, _, _, _, rfl, _⟩ := h; exact hs
  case same => obtain ⟨_, _, _, _, rfl, _⟩ := h; exact hs
  case debug => obtain ⟨_, _, rfl, _⟩ := h; exact hs
  case save => obtain ⟨_, _, rfl, _⟩ := h; exact hs

theorem own_roundtrip {t : Tree T} (h : Own t) : deserializeTree (serializeTree t t.univ.itemIndex) = some t := by
  obtain ⟨⟨items, _, hu⟩, hf⟩ := h
  exact tree_roundtrip_any hu hf (List.Perm.refl _)

theorem save_alone (s : List (Tree T)) (i : Nat) (v : Tree T) (h : s[i]? = some v) :
    ∃ r, TOp.alone s (.save i) = some (s, r) ∧ r.doc = some (serializeTree v v.univ.itemIndex) :=
  ⟨.data _, by simp only [TOp.alone, h, Option.bind_some], rfl⟩

theorem load_alone {v : Tree T} (hr : Own v) (s : List (Tree T)) :
    ∃ r, TOp.alone s (.load (serializeTree v v.univ.itemIndex)) = some (s ++ [v], r) :=
  ⟨.done, by simp only [TOp.alone, own_roundtrip hr]⟩

theorem session_saved {session : Client (TOp T) (TReply T) Nat} (hp : session.Only TOp.Plain)
    (hn : ∀ g n, session.alone (treeApi T) [] = some (g, n) → n = g.length) {g : List (Tree T)} {docs : List (TreeData T)}
    (h : (session.andThen fun n => saveAll TOp.save TReply.doc (List.range n)).alone (treeApi T) [] = some (g, docs))
    (k : Nat → Client (TOp T) (TReply T) O) :
    (loadAll TOp.load (k docs.length) docs).alone (treeApi T) [] = (session.andThen k).alone (treeApi T) [] :=
  interrupted_alone (A := treeApi T) (save := TOp.save) (load := TOp.load) (got := TReply.doc)
    (doc := fun x : Tree T => serializeTree x x.univ.itemIndex) save_alone
    (fun g n h => ⟨hn g n h, fun v hv s => load_alone
      (only_alone (A := treeApi T) plain_own hp (by simp) h v hv) s⟩) h k

/-- C125 for v1 trees, over any universes, combined across them or not: a client makes, combines and questions trees, saves all
it holds and ends, in one process; that process, at whatever moment after that, is gone.  In a second process, next to threads
doing anything, a client reads the documents back and goes on in any way.  It then gets exactly what it would have got by
going on in the first place. -/
theorem restart_exact {O : Type w} :
    ∃ (need1 : Client (TOp T) (TReply T) (List (TreeData T)) → List (Tree T) → Nat)
      (need2 : Client (TOp T) (TReply T) O → List (Tree T) → Nat),
    ∀ session : Client (TOp T) (TReply T) Nat, session.Only TOp.Plain →
    (∀ g n, session.alone (treeApi T) [] = some (g, n) → n = g.length) →
    ∀ w1 : World (treeApi T) (List (TreeData T)), World.Run false true need1 w1 → ∀ t1,
      w1.alone t1 = some ((session.andThen fun n => saveAll TOp.save TReply.doc (List.range n)).alone (treeApi T) []) →
    ∀ s1 docs, w1.machine.threads t1 = .run (.ret (s1, docs)) →
    ∀ (k : Nat → Client (TOp T) (TReply T) O) (w2 : World (treeApi T) O), World.Run false true need2 w2 → ∀ t2,
      w2.alone t2 = some ((loadAll TOp.load (k docs.length) docs).alone (treeApi T) []) →
      (w2.machine.threads t2 = .panicked → (session.andThen k).alone (treeApi T) [] = none) ∧
      (∀ s o, w2.machine.threads t2 = .run (.ret (s, o)) →
        ∃ g, (session.andThen k).alone (treeApi T) [] = some (g, o) ∧ s.length = g.length) ∧
      (w2.machine.threads t2 = .panicked ∨ (∃ r, w2.machine.threads t2 = .run (.ret r)) ∨
        ∃ a th, TStep w2.machine.arena (w2.machine.threads t2) a th) ∧
      ∃ m, World.Run false true need2 ⟨m, w2.alone⟩ ∧ MRun w2.machine m ∧
        (∀ t, t ≠ t2 → m.threads t = w2.machine.threads t) ∧
        ((session.andThen k).alone (treeApi T) [] = none → m.threads t2 = .panicked) ∧
        ∀ g o, (session.andThen k).alone (treeApi T) [] = some (g, o) →
          ∃ s, m.threads t2 = .run (.ret (s, o)) ∧ s.length = g.length := by
  obtain ⟨need1, h1⟩ := worlds_exact (T := T) (O := List (TreeData T))
  obtain ⟨need2, h2⟩ := worlds_exact (T := T) (O := O)
  refine ⟨need1, need2, fun session hp hn w1 hw1 t1 ha1 s1 docs hd k w2 hw2 t2 ha2 => ?_⟩
  obtain ⟨g, hg, -⟩ := (h1 w1 hw1 t1 _ ha1).2.1 s1 docs hd
  have := h2 w2 hw2 t2 _ ha2
  rw [session_saved hp hn hg k] at this
  exact this

/-- Makes two trees over different universes and joins them.  Not code: used to state or prove properties. -/
def shopper : Client (TOp Nat) (TReply Nat) Nat :=
  .call (.tree (Universe.fromVec [7, 8]) [8]) fun _ => .call (.unique (Universe.fromVec [1, 2]) [1, 2]) fun _ =>
    .call (.union 1 0) fun _ => .ends 3

/-- Asks for the sets of the last tree.  Not code: used to state or prove properties. -/
def asker (n : Nat) : Client (TOp Nat) (TReply Nat) (TReply Nat) := .call (.combinations (n - 1)) fun r => .ends r

/-- Not vacuous: the first process, with a panicking thread, ends with three documents; in the second, the client that reads
them back is told the sets of the joined tree. -/
example :
    ∃ (need1 : Client (TOp Nat) (TReply Nat) (List (TreeData Nat)) → List (Tree Nat) → Nat)
      (need2 : Client (TOp Nat) (TReply Nat) (TReply Nat) → List (Tree Nat) → Nat), ∃
      (w1 : World (treeApi Nat) (List (TreeData Nat))) (w2 : World (treeApi Nat) (TReply Nat)), ∃ s1 docs s2,
      shopper.Only TOp.Plain ∧ (∀ g n, shopper.alone (treeApi Nat) [] = some (g, n) → n = g.length) ∧
      World.Run false true need1 w1 ∧
      w1.alone 0 = some ((shopper.andThen fun n => saveAll TOp.save TReply.doc (List.range n)).alone (treeApi Nat) []) ∧
      w1.machine.threads 0 = .run (.ret (s1, docs)) ∧ docs.length = 3 ∧ World.Run false true need2 w2 ∧
      w2.alone 0 = some ((loadAll TOp.load (asker docs.length) docs).alone (treeApi Nat) []) ∧
      w2.machine.threads 0 = .run (.ret (s2, .sets
        ((Universe.uniqueTree (Universe.fromVec [1, 2]) [1, 2]).union ((Universe.fromVec [7, 8]).tree [8])).combinations)) := by
  obtain ⟨need1, n1⟩ := world_ok (O := List (TreeData Nat)) (tree_sound (T := Nat)) (by decide)
  obtain ⟨need2, n2⟩ := world_ok (O := TReply Nat) (tree_sound (T := Nat)) (by decide)
  obtain ⟨a, ha⟩ : ∃ a, a = (Universe.fromVec [7, 8]).tree [8] := ⟨_, rfl⟩
  obtain ⟨b, hb⟩ : ∃ b, b = Universe.uniqueTree (Universe.fromVec [1, 2]) [1, 2] := ⟨_, rfl⟩
  have al : shopper.alone (treeApi Nat) [] = some ([a, b, b.union a], 3) := by
    simp [shopper, Client.alone, treeApi, TOp.alone, ha, hb]
  have hp : shopper.Only TOp.Plain :=
    ⟨⟨_, by decide, rfl⟩, fun r => ⟨⟨_, by decide, rfl⟩, fun r => ⟨trivial, fun r => trivial⟩⟩⟩
  have hn : ∀ g n, shopper.alone (treeApi Nat) [] = some (g, n) → n = g.length := by
    intro g n h
    rw [al] at h
    cases h
    rfl
  have a1 : (shopper.andThen fun n => saveAll TOp.save TReply.doc (List.range n)).alone (treeApi Nat) [] =
      some ([a, b, b.union a], [a, b, b.union a].map fun x => serializeTree x x.univ.itemIndex) := by
    refine (alone_andThen (A := treeApi Nat) shopper _ []).trans ?_
    rw [al]
    exact alone_saveAll (A := treeApi Nat) (save := TOp.save) (got := TReply.doc)
      (doc := fun x : Tree Nat => serializeTree x x.univ.itemIndex) save_alone _ _ _
      (ArenaBdd.forall₂_range _)
  have hs := tree_sound (T := Nat)
  have p1 : World.Run (A := treeApi Nat) (O := List (TreeData Nat)) false true need1
    ⟨⟨Arena.init false true, fun _ => .panicked⟩, fun _ => none⟩ := .boot _
  have p2 : World.Run (A := treeApi Nat) (O := TReply Nat) false true need2
    ⟨⟨Arena.init false true, fun _ => .panicked⟩, fun _ => none⟩ := .boot _
  obtain ⟨m1, r1, -, -, e1⟩ := spawn hs n1 p1 0 _ [] rfl rfl a1
  obtain ⟨s1, e1, l1⟩ := e1 _ _ rfl
  have key := session_saved hp hn a1 asker
  have a2 : (shopper.andThen asker).alone (treeApi Nat) [] = some ([a, b, b.union a], .sets (b.union a).combinations) := by
    refine (alone_andThen (A := treeApi Nat) shopper _ []).trans ?_
    rw [al]
    simp [asker, Client.alone, treeApi, TOp.alone]
  obtain ⟨m2, r2, -, -, e2⟩ := spawn hs n2 p2 0 _ [] rfl rfl (key.trans a2)
  obtain ⟨s2, e2, l2⟩ := e2 _ _ rfl
  subst ha hb
  refine ⟨need1, need2, ⟨m1, _⟩, ⟨m2, _⟩, s1, _, s2, hp, hn, r1, ?_, e1, rfl, r2, ?_, e2⟩
  · dsimp only; rw [Function.update_self, a1]
  · dsimp only; rw [Function.update_self, key, a2]

end Verif.ArenaZdd1
