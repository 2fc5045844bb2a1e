import Verif.ArenaMemory

/-!
# What closet sessions leave in the arena (C107)
-/

set_option linter.unusedSectionVars false
set_option linter.unusedVariables false
set_option linter.unusedSimpArgs false

namespace Verif.ArenaBdd
open Verif Verif.Arena Verif.Bdd

universe u v w
variable {I : Type u} {F : Type v} [LinearOrder I] [LinearOrder F] {R : Nat → Nat → Prop}

theorem branch_alike (id : I) {x y x' y' : Arg I Bool} (hx : ArgRel R x x') (hy : ArgRel R y y') :
    Alike R (CellRel R) (branchP id x y) (branchP id x' y') :=
  .into hx fun _ _ h => .into hy fun _ _ h' => .ret (.branch h h')

theorem positive_alike (id : I) : Alike R (CellRel R) (positiveBranchP id) (positiveBranchP id) :=
  branch_alike id (.node (.leaf _)) (.node (.leaf _))

theorem negative_alike (id : I) : Alike R (CellRel R) (negativeBranchP id) (negativeBranchP id) :=
  branch_alike id (.node (.leaf _)) (.node (.leaf _))

theorem join_alike (hR : Pairing R) (id : I) {l h l' h' : C I} (hl : CellRel R l l') (hh : CellRel R h h') :
    Alike R (CellRel R) (if l = h then .ret l else branchP id (.node l) (.node h))
      (if l' = h' then .ret l' else branchP id (.node l') (.node h')) :=
  .ite (hl.eq_iff hR hh) (.ret hl) (branch_alike id (.node hl) (.node hh))

theorem split_alike (id : I) {n n' : C I} (h : CellRel R n n') :
    Alike R (fun x y => CellRel R x.1 y.1 ∧ CellRel R x.2 y.2) (splitP n id) (splitP n' id) := by
  cases h with
  | leaf b => exact .ret ⟨.leaf _, .leaf _⟩
  | branch h1 h2 =>
    simp only [splitP]
    exact .ite Iff.rfl (.load h1 fun _ _ l => .load h2 fun _ _ h => .ret ⟨l, h⟩)
      (.ret ⟨.branch h1 h2, .branch h1 h2⟩)

theorem tail_alike (hR : Pairing R) {rec : C I → C I → P I}
    (ih : ∀ {n m n' m' : C I}, CellRel R n n' → CellRel R m m' → Alike R (CellRel R) (rec n m) (rec n' m')) (id : I)
    {n m n' m' : C I} (hn : CellRel R n n') (hm : CellRel R m m') :
    Alike R (CellRel R) (bitTail rec id n m) (bitTail rec id n' m') :=
  (split_alike id hn).bind fun _ _ s => (split_alike id hm).bind fun _ _ s' => (ih s.1 s'.1).bind fun _ _ l =>
    (ih s.2 s'.2).bind fun _ _ h => join_alike hR id l h

theorem bitor_alike (hR : Pairing R) (f : Nat) {n m n' m' : C I} (hn : CellRel R n n') (hm : CellRel R m m') :
    Alike R (CellRel R) (bitorP f n m) (bitorP f n' m') := by
  induction f generalizing n m n' m' with
  | zero => exact .spin
  | succ f ih =>
    rw [bitorP, bitorP]
    cases hn with
    | leaf b =>
      cases hm with
      | leaf b' => cases b <;> cases b' <;> simp only [bitorBody] <;> exact .ret (.leaf _)
      | branch h3 h4 =>
        cases b <;> simp only [bitorBody]
        · exact .ret (.branch h3 h4)
        · exact tail_alike hR ih _ (.leaf _) (.branch h3 h4)
    | branch h1 h2 =>
      cases hm with
      | leaf b' =>
        cases b' <;> simp only [bitorBody]
        · exact .ret (.branch h1 h2)
        · exact tail_alike hR ih _ (.branch h1 h2) (.leaf _)
      | branch h3 h4 => exact tail_alike hR ih _ (.branch h1 h2) (.branch h3 h4)

theorem bitand_alike (hR : Pairing R) (f : Nat) {n m n' m' : C I} (hn : CellRel R n n') (hm : CellRel R m m') :
    Alike R (CellRel R) (bitandP f n m) (bitandP f n' m') := by
  induction f generalizing n m n' m' with
  | zero => exact .spin
  | succ f ih =>
    rw [bitandP, bitandP]
    cases hn with
    | leaf b =>
      cases hm with
      | leaf b' => cases b <;> cases b' <;> simp only [bitandBody] <;> exact .ret (.leaf _)
      | branch h3 h4 =>
        cases b <;> simp only [bitandBody]
        · exact tail_alike hR ih _ (.leaf _) (.branch h3 h4)
        · exact .ret (.branch h3 h4)
    | branch h1 h2 =>
      cases hm with
      | leaf b' =>
        cases b' <;> simp only [bitandBody]
        · exact tail_alike hR ih _ (.branch h1 h2) (.leaf _)
        · exact .ret (.branch h1 h2)
      | branch h3 h4 => exact tail_alike hR ih _ (.branch h1 h2) (.branch h3 h4)

theorem restrict_alike (hR : Pairing R) (f : Nat) (item : I) (b : Bool) {n n' : C I} (hn : CellRel R n n') :
    Alike R (CellRel R) (restrictP f n item b) (restrictP f n' item b) := by
  induction f generalizing n n' with
  | zero => exact .spin
  | succ f ih =>
    cases hn with
    | leaf v => exact .ret (.leaf _)
    | branch h1 h2 =>
      simp only [restrictP]
      exact .load h1 fun _ _ l => .load h2 fun _ _ h => .ite Iff.rfl (.ite Iff.rfl (.ret l) (.ret h))
        ((ih l).bind fun _ _ l => (ih h).bind fun _ _ h => join_alike hR _ l h)

theorem status_rel (item : I) {c d : C I} (h : CellRel R c d) : statusP item c = statusP item d := by
  cases h with
  | leaf b => rfl
  | branch _ _ => rfl

theorem summarizeLoop_alike (f : Nat) {q q' : List (C I)} (h : List.Forall₂ (CellRel R) q q')
    (ns : List (I × List (Status I))) : Alike R (· = ·) (summarizeLoopP f q ns) (summarizeLoopP f q' ns) := by
  induction f generalizing q q' ns with
  | zero => exact .spin
  | succ f ih =>
    cases h with
    | nil => exact .ret rfl
    | cons hx hxs =>
      cases hx with
      | leaf b => simp only [summarizeLoopP]; exact ih hxs _
      | branch h1 h2 =>
        simp only [summarizeLoopP]
        refine .load h1 fun _ _ l => .load h2 fun _ _ h => ?_
        rw [status_rel _ h]
        exact ih (.cons h (.cons l hxs)) _

theorem summarize_alike (f : Nat) {c d : C I} (h : CellRel R c d) :
    Alike R (· = ·) (summarizeP f c) (summarizeP f d) :=
  (summarizeLoop_alike f (.cons h .nil) []).bind fun _ _ e => .ret (by rw [e])

/-- Closets that are the same but for the ids in the root.  Not code: used to state or prove properties. -/
def ClosetRel (R : Nat → Nat → Prop) (x y : ClosetC I F) : Prop :=
  CellRel R x.root y.root ∧ x.itemIndex = y.itemIndex ∧ x.summary = y.summary

theorem new_alike (f : Nat) (ix : List (I × F)) {c d : C I} (h : CellRel R c d) :
    Alike R (ClosetRel R) (newP f ix c) (newP f ix d) :=
  (summarize_alike f h).bind fun _ _ e => .ret ⟨h, rfl, e⟩

/-- Not code: used to state or prove properties. -/
def MapRel (R : Nat → Nat → Prop) (q p : List (I × C I)) : Prop :=
  List.Forall₂ (fun x y => x.1 = y.1 ∧ CellRel R x.2 y.2) q p

theorem insert_rel (k : I) {c d : C I} (h : CellRel R c d) {q p : List (I × C I)} (hq : MapRel R q p) :
    MapRel R (insertKV k c q) (insertKV k d p) := by
  unfold insertKV
  induction hq with
  | nil => exact .cons ⟨rfl, h⟩ .nil
  | @cons x y xs ys hx hxs ih =>
    obtain ⟨a, b⟩ := x
    obtain ⟨a', b'⟩ := y
    obtain ⟨rfl, hb⟩ : a = a' ∧ CellRel R b b' := hx
    simp only [upsert]
    split_ifs
    · exact .cons ⟨rfl, h⟩ (.cons ⟨rfl, hb⟩ hxs)
    · exact .cons ⟨rfl, h⟩ hxs
    · exact .cons ⟨rfl, hb⟩ ih

theorem andAll_alike (hR : Pairing R) (f : Nat) {q p : List (I × C I)} (hq : MapRel R q p) {c d : C I}
    (h : CellRel R c d) : Alike R (CellRel R)
      (foldP (fun newRoot (e : I × C I) => bitandP f newRoot e.2) q c)
      (foldP (fun newRoot (e : I × C I) => bitandP f newRoot e.2) p d) := by
  induction hq generalizing c d with
  | nil => exact .ret h
  | cons hx _ ih => exact (bitand_alike hR f h hx.2).bind fun _ _ h => ih h

theorem sibling_alike (hR : Pairing R) (f : Nat) (items : List I) :
    Alike R (CellRel R) (siblingP f items) (siblingP f items) := by
  unfold siblingP
  refine (Alike.fold (S := MapRel R) (fun e x y h => ?_) items .nil).bind fun q p hq => ?_
  · exact (negative_alike e).bind fun _ _ h' => .ret (insert_rel e h' h)
  · refine Alike.fold (fun e x y h => ?_) items (.leaf _)
    exact (positive_alike e).bind fun _ _ h' => (andAll_alike hR f (insert_rel e h' hq) (.leaf _)).bind fun _ _ h'' =>
      bitor_alike hR f h h''

theorem exclusion_alike (hR : Pairing R) (f : Nat) (a b : I) :
    Alike R (CellRel R) (exclusionP f a b) (exclusionP f a b) :=
  (negative_alike a).bind fun _ _ h => (negative_alike b).bind fun _ _ h' => bitor_alike hR f h h'

theorem inclusion_alike (hR : Pairing R) (f : Nat) (a b : I) :
    Alike R (CellRel R) (inclusionP f a b) (inclusionP f a b) :=
  (negative_alike a).bind fun _ _ h => (positive_alike b).bind fun _ _ h' => bitor_alike hR f h h'

theorem buildRoot_alike (hR : Pairing R) (f : Nat) (b : ClosetBuilder I F) :
    Alike R (CellRel R) (buildRootP f b) (buildRootP f b) := by
  unfold buildRootP
  refine (Alike.fold (S := CellRel R) (fun e x y h => (sibling_alike hR f e.2).bind fun _ _ h' => bitand_alike hR f h h') _
    (.leaf _)).bind fun _ _ h => ?_
  refine (Alike.fold (S := CellRel R) (fun e x y h => (exclusion_alike hR f e.1 e.2).bind fun _ _ h' => bitand_alike hR f h h') _
    h).bind fun _ _ h => ?_
  exact Alike.fold (S := CellRel R) (fun (e : I × I) x y h => (inclusion_alike hR f e.1 e.2).bind fun _ _ h' => bitand_alike hR f h h') _ h

/-- Not code: used to state or prove properties. -/
def ExRel {E : Type w} (R : Nat → Nat → Prop) : Except E (ClosetC I F) → Except E (ClosetC I F) → Prop
  | .error e, .error e' => e = e'
  | .ok c, .ok d => ClosetRel R c d
  | _, _ => False

theorem build_alike (hR : Pairing R) (f : Nat) (b : ClosetBuilder I F) :
    Alike R (ExRel R) (buildP f b) (buildP f b) := by
  unfold buildP
  cases validateCloset b.contents b.itemIndex b.exclusions b.inclusions with
  | error e => exact .ret rfl
  | ok u => exact (buildRoot_alike hR f b).bind fun _ _ h => (new_alike f _ h).bind fun _ _ h => .ret h

theorem selectItem_alike (hR : Pairing R) (f : Nat) (item : I) {x y : ClosetC I F} (h : ClosetRel R x y) :
    Alike R (ExRel R) (selectItemP f x item) (selectItemP f y item) := by
  obtain ⟨h1, h2, h3⟩ := h
  unfold selectItemP
  rw [h2, h3]
  cases lookup item y.itemIndex with
  | none => exact .ret rfl
  | some _ =>
    dsimp only
    cases (y.summary.filter (fun s => s.isExcluded)).find? (fun s => s.is item) with
    | some _ => exact .ret rfl
    | none =>
      exact (restrict_alike hR f item true h1).bind fun _ _ h => (summarize_alike f h).bind fun _ _ e =>
        .ret ⟨h, rfl, by rw [e]⟩

theorem selectAll_alike (hR : Pairing R) (f : Nat) (xs : List I) {x y : ClosetC I F} (h : ClosetRel R x y) :
    Alike R (ExRel R) (selectAllP f x xs) (selectAllP f y xs) := by
  induction xs generalizing x y with
  | nil => exact .ret h
  | cons i xs ih =>
    refine (selectItem_alike hR f i h).bind fun a b hab => ?_
    cases a <;> cases b <;> first | exact hab.elim | skip
    · exact .ret hab
    · exact ih hab

theorem restrictAll_alike (hR : Pairing R) (f : Nat) (xs : List I) {c d : C I} (h : CellRel R c d) :
    Alike R (CellRel R) (restrictAllP f c xs) (restrictAllP f d xs) :=
  Alike.fold (fun e x y h => restrict_alike hR f e true h) xs h

theorem walk_alike (hR : Pairing R) (f : Nat) (o : List I) {c d : C I} (h : CellRel R c d) :
    Alike R (· = ·) (walkP f c o) (walkP f d o) := by
  induction f generalizing c d o with
  | zero => exact .spin
  | succ f ih =>
    cases h with
    | leaf b => exact .ret rfl
    | branch h1 h2 =>
      simp only [walkP]
      exact .load h2 fun _ _ h => .load h1 fun _ _ l => .ite (h.eq_iff hR (.leaf _)) (ih _ l) (ih _ h)

theorem complete_alike (hR : Pairing R) (f : Nat) (xs : List I) {x y : ClosetC I F} (h : ClosetRel R x y) :
    Alike R (· = ·) (completeP f x xs) (completeP f y xs) := by
  obtain ⟨h1, h2, h3⟩ := h
  unfold completeP
  rw [h2, h3]
  cases Closet.findUnknownItems ⟨y.itemIndex, y.summary, .Leaf true⟩ xs with
  | some items => exact .ret rfl
  | none =>
    dsimp only
    cases Closet.findDuplicateItems ⟨y.itemIndex, y.summary, .Leaf true⟩ xs with
    | none => exact .panic
    | some o =>
      cases o with
      | some items => exact .ret rfl
      | none =>
        dsimp only
        refine (restrictAll_alike hR f xs h1).bind fun a b hab => ?_
        have go : Alike R (· = ·)
            ((restrictAllP f x.root xs).bind fun root => (walkP f root xs).bind fun o =>
              (.ret (.ok o) : Prog I Bool (Except (OutfitError I F) (List I))))
            ((restrictAllP f y.root xs).bind fun root => (walkP f root xs).bind fun o =>
              (.ret (.ok o) : Prog I Bool (Except (OutfitError I F) (List I)))) :=
          (restrictAll_alike hR f xs h1).bind fun _ _ h => (walk_alike hR f xs h).bind fun _ _ e => .ret (by rw [e])
        cases hab with
        | leaf b =>
          cases b with
          | false => exact .ret rfl
          | true => exact go
        | branch _ _ => exact go

theorem thread_blind (f : Nat) (s : Session I F) : Blind (threadP f s) := by
  intro R hR
  refine (build_alike hR f _).bind fun a b hab => ?_
  cases a <;> cases b <;> first | exact hab.elim | skip
  · exact .ret trivial
  · refine (selectAll_alike hR f s.picks hab).bind fun a b hab => ?_
    cases a <;> cases b <;> first | exact hab.elim | skip
    · exact .ret trivial
    · exact (complete_alike hR f s.wanted hab).bind fun _ _ _ => .ret trivial

/-- C107, closets: when the same threads have finished and no others have started, the arena holds the same
diagrams, and equally many nodes, whatever the schedule was. -/
theorem memory_same (ss : Nat → Session I F) :
    ∃ K : Nat → Nat, ∀ f : Nat → Nat, (∀ t, K t ≤ f t) → ∀ m m', MRun (boot f ss) m → MRun (boot f ss) m' →
      (∀ t, (m.threads t = (boot f ss).threads t ∧ m'.threads t = (boot f ss).threads t) ∨
        ((∃ x, m.threads t = .run (.ret x)) ∧ ∃ x, m'.threads t = .run (.ret x))) →
      diagrams m.arena = diagrams m'.arena ∧ m.arena.nodes.length = m'.arena.nodes.length := by
  obtain ⟨K, hK⟩ := boot_ok ss
  exact ⟨K, fun f hf m m' h h' hd => by
    have ended := fun m hm t => never_ended (m := m) (by decide) (fun t => answer_stable (ss t)) (hK f hf) hm t
    refine fresh_same (by decide) (fun t => never_stable (answer_stable (ss t)))
      (fun t => wpo_of_wp (hK f hf t) fun _ _ h => h) (fun t => thread_blind (f t) (ss t)) h h' fun t => ?_
    rw [ended m h, ended m' h']
    exact hd t⟩

/-- C107, closets: at no time does the arena hold a diagram it will not hold when the threads that have started
have finished, under any other schedule. -/
theorem memory_within (ss : Nat → Session I F) :
    ∃ K : Nat → Nat, ∀ f : Nat → Nat, (∀ t, K t ≤ f t) → ∀ m m', MRun (boot f ss) m → MRun (boot f ss) m' →
      (∀ t, m.threads t ≠ (boot f ss).threads t → ∃ x, m'.threads t = .run (.ret x)) →
      diagrams m.arena ⊆ diagrams m'.arena ∧ m.arena.nodes.length ≤ m'.arena.nodes.length := by
  obtain ⟨K, hK⟩ := boot_ok ss
  exact ⟨K, fun f hf m m' h h' hd => by
    have ended := fun m hm t => never_ended (m := m) (by decide) (fun t => answer_stable (ss t)) (hK f hf) hm t
    refine fresh_at_most (by decide) (fun t => never_stable (answer_stable (ss t)))
      (fun t => wpo_of_wp (hK f hf t) fun _ _ h => h) (fun t => thread_blind (f t) (ss t)) h h' fun t => ?_
    rw [ended m' h']
    exact hd t⟩

/-- C107, closets: what the arena holds is what the finished threads leave in it when each of them runs alone. -/
theorem memory_adds_up (ss : Nat → Session I F) :
    ∃ K : Nat → Nat, ∀ f : Nat → Nat, (∀ t, K t ≤ f t) → ∀ m, MRun (boot f ss) m →
      (∀ t, m.threads t = (boot f ss).threads t ∨ ∃ x, m.threads t = .run (.ret x)) →
      ∀ alone : Nat → _, (∀ t, MRun (boot f ss) (alone t) ∧ (∃ x, (alone t).threads t = .run (.ret x)) ∧
        ∀ s, s ≠ t → (alone t).threads s = (boot f ss).threads s) →
      diagrams m.arena = {.leaf false, .leaf true} ∪
        ⋃ t ∈ {t | ∃ x, m.threads t = .run (.ret x)}, diagrams (alone t).arena := by
  obtain ⟨K, hK⟩ := boot_ok ss
  exact ⟨K, fun f hf m h hd alone ha => by
    have ended := fun m hm t => never_ended (m := m) (by decide) (fun t => answer_stable (ss t)) (hK f hf) hm t
    have := fresh_adds_up (by decide) (fun t => never_stable (answer_stable (ss t)))
      (fun t => wpo_of_wp (hK f hf t) fun _ _ h => h) (fun t => thread_blind (f t) (ss t)) h
      (fun t => by rw [ended m h]; exact hd t) alone
      (fun t => ⟨(ha t).1, .inr (ha t).2.1, (ha t).2.2⟩)
    simp only [ended m h] at this
    exact this⟩

/-- The hypotheses are met: two threads finish in either order, the others do not start. -/
example : ∃ f m m', MRun (boot f (fun t => if t = 0 then ⟨[.item 1 10, .item 1 11, .item 2 20], [10], []⟩ else ⟨[.item 1 10, .item 2 20], [], [20]⟩ : Nat → Session Nat Nat)) m ∧
    MRun (boot f (fun t => if t = 0 then ⟨[.item 1 10, .item 1 11, .item 2 20], [10], []⟩ else ⟨[.item 1 10, .item 2 20], [], [20]⟩ : Nat → Session Nat Nat)) m' ∧
    (∀ t, (m.threads t = (boot f (fun t => if t = 0 then ⟨[.item 1 10, .item 1 11, .item 2 20], [10], []⟩ else ⟨[.item 1 10, .item 2 20], [], [20]⟩ : Nat → Session Nat Nat)).threads t ∧
        m'.threads t = (boot f (fun t => if t = 0 then ⟨[.item 1 10, .item 1 11, .item 2 20], [10], []⟩ else ⟨[.item 1 10, .item 2 20], [], [20]⟩ : Nat → Session Nat Nat)).threads t) ∨
      ((∃ x, m.threads t = .run (.ret x)) ∧ ∃ x, m'.threads t = .run (.ret x))) ∧
    ((∃ x, m.threads 0 = .run (.ret x)) ∧ ∃ x, m.threads 1 = .run (.ret x)) ∧
    diagrams m.arena = diagrams m'.arena := by
  obtain ⟨F, hF⟩ := boot_ok (fun t => if t = 0 then ⟨[.item 1 10, .item 1 11, .item 2 20], [10], []⟩ else ⟨[.item 1 10, .item 2 20], [], [20]⟩ : Nat → Session Nat Nat)
  obtain ⟨G, hG⟩ := memory_same (fun t => if t = 0 then ⟨[.item 1 10, .item 1 11, .item 2 20], [10], []⟩ else ⟨[.item 1 10, .item 2 20], [], [20]⟩ : Nat → Session Nat Nat)
  let f := fun t => F t + G t
  have fin := fun m hm t => can_finish (m' := m) (fun t => answer_stable ((fun t => if t = 0 then ⟨[.item 1 10, .item 1 11, .item 2 20], [10], []⟩ else ⟨[.item 1 10, .item 2 20], [], [20]⟩ : Nat → Session Nat Nat) t)) hm
    (init_inv (by decide)) (hF f (fun t => Nat.le_add_right _ _)) t
  obtain ⟨m1, r1, k1, d1⟩ := fin _ (.nil _) 0
  obtain ⟨m2, r2, k2, d2⟩ := fin _ r1 1
  obtain ⟨n1, s1, l1, e1⟩ := fin _ (.nil _) 1
  obtain ⟨n2, s2, l2, e2⟩ := fin _ s1 0
  have h0 : ∃ x, m2.threads 0 = .run (.ret x) := by rw [k2 0 (by decide)]; exact d1
  have h1 : ∃ x, n2.threads 1 = .run (.ret x) := by rw [l2 1 (by decide)]; exact e1
  have all : ∀ t, (m2.threads t = (boot f (fun t => if t = 0 then ⟨[.item 1 10, .item 1 11, .item 2 20], [10], []⟩ else ⟨[.item 1 10, .item 2 20], [], [20]⟩ : Nat → Session Nat Nat)).threads t ∧
        n2.threads t = (boot f (fun t => if t = 0 then ⟨[.item 1 10, .item 1 11, .item 2 20], [10], []⟩ else ⟨[.item 1 10, .item 2 20], [], [20]⟩ : Nat → Session Nat Nat)).threads t) ∨
      ((∃ x, m2.threads t = .run (.ret x)) ∧ ∃ x, n2.threads t = .run (.ret x)) := by
    intro t
    by_cases t0 : t = 0
    · subst t0; exact .inr ⟨h0, e2⟩
    · by_cases t1 : t = 1
      · subst t1; exact .inr ⟨d2, h1⟩
      · exact .inl ⟨(k2 t t1).trans (k1 t t0), (l2 t t0).trans (l1 t t1)⟩
  exact ⟨f, m2, n2, r1.trans r2, s1.trans s2, all, ⟨h0, d2⟩,
    (hG f (fun t => Nat.le_add_left _ _) m2 n2 (r1.trans r2) (s1.trans s2) all).1⟩

/-- Every thread can run alone, so `memory_adds_up` speaks of something. -/
example : ∃ f, ∃ alone : Nat → _, ∀ t, MRun (boot f (fun t => if t = 0 then ⟨[.item 1 10, .item 1 11, .item 2 20], [10], []⟩ else ⟨[.item 1 10, .item 2 20], [], [20]⟩ : Nat → Session Nat Nat)) (alone t) ∧
    (∃ x, (alone t).threads t = .run (.ret x)) ∧
    ∀ s, s ≠ t → (alone t).threads s = (boot f (fun t => if t = 0 then ⟨[.item 1 10, .item 1 11, .item 2 20], [10], []⟩ else ⟨[.item 1 10, .item 2 20], [], [20]⟩ : Nat → Session Nat Nat)).threads s := by
  obtain ⟨F, hF⟩ := boot_ok (fun t => if t = 0 then ⟨[.item 1 10, .item 1 11, .item 2 20], [10], []⟩ else ⟨[.item 1 10, .item 2 20], [], [20]⟩ : Nat → Session Nat Nat)
  choose alone h1 h2 h3 using fun t => can_finish (fun t => answer_stable ((fun t => if t = 0 then ⟨[.item 1 10, .item 1 11, .item 2 20], [10], []⟩ else ⟨[.item 1 10, .item 2 20], [], [20]⟩ : Nat → Session Nat Nat) t)) (.nil _)
    (init_inv (by decide)) (hF F (fun t => le_rfl)) t
  exact ⟨F, alone, fun t => ⟨h1 t, h3 t, h2 t⟩⟩

end Verif.ArenaBdd
