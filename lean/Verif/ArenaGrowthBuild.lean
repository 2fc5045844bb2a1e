import Verif.ArenaGrowthForest
import Verif.Bdd.Cost

/-!
# How many nodes building a closet can add to the shared node store (C123)

Every call of `&` and `|` converts at most two nodes to ids, the branches of a single item convert the two leaves, and
the number of calls is bounded (C90).
-/

set_option linter.unusedSimpArgs false
set_option linter.unusedVariables false
set_option linter.unusedSectionVars false

namespace Verif.ArenaBdd
open Verif Verif.Arena Verif.Bdd Verif.Bdd.Spec

universe u v w v' w'
variable {I : Type u} [LinearOrder I]

/-- The node stands for the diagram.  Not code: used to state or prove properties. -/
def Stands (b : Arena I Bool) (c : C I) (x : Node I) : Prop := CellDen b c (tr x)

/-- The two leaves.  Not code: used to state or prove properties. -/
def leaves : Finset (C I) := {.leaf false, .leaf true}

/-- In the arena, the program goes along with the counted computation: its result stands for the value, and it converts at
most two different nodes besides the leaves for every call.  Not code: used to state or prove properties. -/
def Follows {α : Type v} {β : Type w} (b : Arena I Bool) (D : α → β → Prop) (t : Ticked β)
    (p : Prog I Bool α) : Prop := ∀ X, leaves ⊆ X → Pays b (fun r => D r t.val) p X (2 * t.calls)

section
variable {α : Type v} {α' : Type v'} {β : Type w} {β' : Type w'} {b : Arena I Bool} {D : α → β → Prop} {D' : α' → β' → Prop}

theorem Follows.bind {t : Ticked β} {k : β → Ticked β'} {p : Prog I Bool α} {g : α → Prog I Bool α'}
    (h : Follows b D t p) (hg : ∀ r, D r t.val → Follows b D' (k t.val) (g r)) :
    Follows b D' (t.bind k) (p.bind g) := by
  intro X hX
  have := (h X hX).bind (m := 2 * (k t.val).calls) fun x hx => hg x hx X hX
  exact this.mono subset_rfl (by rw [Ticked.bind_calls]; omega)

theorem Follows.map {t : Ticked β} {k : β → β'} {p : Prog I Bool α} {g : α → α'}
    (h : Follows b D t p) (hg : ∀ r, D r t.val → D' (g r) (k t.val)) :
    Follows b D' (t.map k) (p.bind fun r => .ret (g r)) := by
  intro X hX
  have := (h X hX).bind (m := 0) (R := fun r => D' r (t.map k).val) (g := fun r => .ret (g r)) fun x hx => hg x hx
  exact this.mono subset_rfl (by rw [Ticked.map_calls]; omega)

theorem Follows.ret {r : α} {x : β} (h : D r x) : Follows b D (Ticked.ret x) (.ret r) := fun _ _ => h

theorem Follows.call {t : Ticked β} {p : Prog I Bool α} (h : Follows b D t p) : Follows b D t.call p :=
  fun X hX => (h X hX).mono subset_rfl (by rw [Ticked.call_calls]; omega)

theorem Follows.load {t : Ticked β} {i : Nat} {x : Node I} {k : C I → Prog I Bool α} (hu : Unfolds b i (tr x))
    (h : ∀ c, Stands b c x → Follows b D t (k c)) : Follows b D t (.load i k) := by
  intro X hX c hc
  obtain ⟨c', h1, h2⟩ := unfolds_iff.1 hu
  rw [hc] at h1
  cases h1
  exact h c h2 X hX

/-- A step without a counted call before a counted computation. -/
theorem Follows.first {γ : Type v} {t : Ticked β} {p : Prog I Bool γ} {g : γ → Prog I Bool α} {Q : γ → Prop}
    (h : ∀ X, leaves ⊆ X → Pays b Q p X 0) (hg : ∀ r, Q r → Follows b D t (g r)) : Follows b D t (p.bind g) := by
  intro X hX
  have := (h X hX).bind (m := 2 * t.calls) fun x hx => hg x hx X hX
  exact this.mono subset_rfl (by omega)

end

variable {b : Arena I Bool}

theorem branch_pays (hI : b.Inv) (id : I) {c d : C I} {l h : Node I} (hc : Stands b c l) (hd : Stands b d h)
    (X : Finset (C I)) : Pays b (fun r => Stands b r (.Branch id l h)) (branchP id (.node c) (.node d)) X 2 := by
  refine .inr ⟨1, rfl, fun i hi => .inr ⟨0, rfl, fun j hj => ?_⟩⟩
  exact .branch (unfolds_iff.2 ⟨c, (hI.index _ _).1 hi, hc⟩) (unfolds_iff.2 ⟨d, (hI.index _ _).1 hj, hd⟩)

theorem mk_pays (hI : b.Inv) (id : I) {c d : C I} {l h : Node I} (hc : Stands b c l) (hd : Stands b d h)
    (X : Finset (C I)) : Pays b (fun r => Stands b r (Node.mk id l h))
      (if c = d then .ret c else branchP id (.node c) (.node d)) X 2 := by
  have := cell_eq_iff hI hc hd
  rw [tr_inj] at this
  rw [Node.mk]
  by_cases e : c = d
  · rw [if_pos e, if_pos (this.1 e)]; exact hc
  · rw [if_neg e, if_neg (fun h => e (this.2 h))]; exact branch_pays hI id hc hd X

theorem leaf_pays (hI : b.Inv) (id : I) (v w : Bool) (X : Finset (C I)) (hX : leaves ⊆ X) :
    Pays b (fun r => Stands b r (.Branch id (.Leaf v) (.Leaf w))) (branchP id (.node (.leaf v)) (.node (.leaf w))) X 0 := by
  have m : ∀ v, Cell.leaf v ∈ X := fun v => hX (by cases v <;> simp [leaves])
  refine .inl ⟨m v, fun i hi => .inl ⟨m w, fun j hj => ?_⟩⟩
  exact .branch (unfolds_iff.2 ⟨_, (hI.index _ _).1 hi, rfl⟩) (unfolds_iff.2 ⟨_, (hI.index _ _).1 hj, rfl⟩)

theorem split_pays {n : Node I} {c : C I} (hc : Stands b c n) (id : I) (X : Finset (C I)) :
    Pays b (fun r => Stands b r.1 (n.splitBranch id).1 ∧ Stands b r.2 (n.splitBranch id).2) (splitP c id) X 0 := by
  cases n with
  | Leaf v =>
    obtain rfl := CellDen.leaf_inv hc
    exact ⟨hc, hc⟩
  | Branch i l h =>
    obtain ⟨lo, hi, rfl, ul, uh⟩ := CellDen.branch_inv hc
    simp only [splitP, Node.splitBranch]
    split_ifs
    · intro c1 h1 c2 h2
      obtain ⟨c1', g1, g2⟩ := unfolds_iff.1 ul
      obtain ⟨c2', k1, k2⟩ := unfolds_iff.1 uh
      rw [h1] at g1; cases g1
      rw [h2] at k1; cases k1
      exact ⟨g2, k2⟩
    · exact ⟨hc, hc⟩

theorem tail_follows (hI : b.Inv) {rec : C I → C I → P I} {n m : Node I} {tl th : Ticked (Node I)} {id : I} {c d : C I}
    (hl : ∀ c d, Stands b c (n.splitBranch id).1 → Stands b d (m.splitBranch id).1 → Follows b (Stands b) tl (rec c d))
    (hh : ∀ c d, Stands b c (n.splitBranch id).2 → Stands b d (m.splitBranch id).2 → Follows b (Stands b) th (rec c d))
    (hc : Stands b c n) (hd : Stands b d m) :
    Follows b (Stands b) (Ticked.call (tl.bind fun low => th.map fun high => Node.mk id low high)) (bitTail rec id c d) := by
  intro X hX
  have : Pays b (fun r => Stands b r (Node.mk id tl.val th.val)) (bitTail rec id c d) X
      (0 + (0 + (2 * tl.calls + (2 * th.calls + 2)))) :=
    (split_pays hc id X).bind fun s1 q1 => (split_pays hd id X).bind fun s2 q2 =>
      (hl _ _ q1.1 q2.1 X hX).bind fun r1 p1 => (hh _ _ q1.2 q2.2 X hX).bind fun r2 p2 => mk_pays hI id p1 p2 X
  refine this.mono subset_rfl ?_
  simp only [Ticked.call_calls, Ticked.bind_calls, Ticked.map_calls]
  omega

theorem bitor_follows (hI : b.Inv) (n m : Node I) (f : Nat) {c d : C I} (hc : Stands b c n) (hd : Stands b d m) :
    Follows b (Stands b) (Node.bitorT n m) (bitorP f c d) := by
  induction n, m using Node.bitor.induct generalizing f c d with
  | case1 n =>
    cases f with
    | zero => exact fun _ _ => trivial
    | succ f =>
      obtain rfl := CellDen.leaf_inv hd
      rw [bitorP, bitorBody, Node.bitorT.eq_def]
      exact .call (.ret hc)
  | case2 m h =>
    cases f with
    | zero => exact fun _ _ => trivial
    | succ f =>
      obtain rfl := CellDen.leaf_inv hc
      rw [bitorP, Node.bitorT.eq_def]
      cases m with
      | Leaf v => obtain rfl := CellDen.leaf_inv hd; cases v <;> exact .call (.ret hd)
      | Branch i l h => obtain ⟨lo, hi, rfl, _, _⟩ := CellDen.branch_inv hd; exact .call (.ret hd)
  | case3 v1 v2 h1 h2 =>
    cases f with
    | zero => exact fun _ _ => trivial
    | succ f =>
      obtain rfl := CellDen.leaf_inv hc
      obtain rfl := CellDen.leaf_inv hd
      rw [bitorP, Node.bitorT.eq_def]
      cases v1 <;> cases v2 <;> exact .call (.ret rfl)
  | case4 id l h v hv ih1 ih2 =>
    cases f with
    | zero => exact fun _ _ => trivial
    | succ f =>
      obtain ⟨lo, hi, rfl, ul, uh⟩ := CellDen.branch_inv hc
      obtain rfl := CellDen.leaf_inv hd
      cases v with
      | false => exact absurd rfl hv
      | true =>
        rw [bitorP, Node.bitorT.eq_def]
        refine tail_follows hI (n := .Branch id l h) (m := .Leaf true) (fun c d hc hd => ?_) (fun c d hc hd => ?_) hc hd
        · rw [Node.splitBranch, if_pos rfl] at hc
          exact ih1 f hc hd
        · rw [Node.splitBranch, if_pos rfl] at hc
          exact ih2 f hc hd
  | case5 v id l h hv ih1 ih2 =>
    cases f with
    | zero => exact fun _ _ => trivial
    | succ f =>
      obtain ⟨lo, hi, rfl, ul, uh⟩ := CellDen.branch_inv hd
      obtain rfl := CellDen.leaf_inv hc
      cases v with
      | false => exact absurd rfl hv
      | true =>
        rw [bitorP, Node.bitorT.eq_def]
        refine tail_follows hI (n := .Leaf true) (m := .Branch id l h) (fun c d hc hd => ?_) (fun c d hc hd => ?_) hc hd
        · rw [Node.splitBranch, if_pos rfl] at hd
          exact ih1 f hc hd
        · rw [Node.splitBranch, if_pos rfl] at hd
          exact ih2 f hc hd
  | case6 id1 l1 h1 id2 l2 h2 firstId s1 s2 =>
    rename_i ih1 ih2
    cases f with
    | zero => exact fun _ _ => trivial
    | succ f =>
      obtain ⟨lo, hi, rfl, ul, uh⟩ := CellDen.branch_inv hc
      obtain ⟨lo', hi', rfl, ul', uh'⟩ := CellDen.branch_inv hd
      rw [bitorP, bitorBody, Node.bitorT.eq_def]
      exact tail_follows hI (n := .Branch id1 l1 h1) (m := .Branch id2 l2 h2)
        (fun c d hc hd => ih1 f hc hd) (fun c d hc hd => ih2 f hc hd) hc hd

theorem bitand_follows (hI : b.Inv) (n m : Node I) (f : Nat) {c d : C I} (hc : Stands b c n) (hd : Stands b d m) :
    Follows b (Stands b) (Node.bitandT n m) (bitandP f c d) := by
  induction n, m using Node.bitand.induct generalizing f c d with
  | case1 n =>
    cases f with
    | zero => exact fun _ _ => trivial
    | succ f =>
      obtain rfl := CellDen.leaf_inv hd
      rw [bitandP, bitandBody, Node.bitandT.eq_def]
      exact .call (.ret hc)
  | case2 m h =>
    cases f with
    | zero => exact fun _ _ => trivial
    | succ f =>
      obtain rfl := CellDen.leaf_inv hc
      rw [bitandP, Node.bitandT.eq_def]
      cases m with
      | Leaf v => obtain rfl := CellDen.leaf_inv hd; cases v <;> exact .call (.ret hd)
      | Branch i l h => obtain ⟨lo, hi, rfl, _, _⟩ := CellDen.branch_inv hd; exact .call (.ret hd)
  | case3 v1 v2 h1 h2 =>
    cases f with
    | zero => exact fun _ _ => trivial
    | succ f =>
      obtain rfl := CellDen.leaf_inv hc
      obtain rfl := CellDen.leaf_inv hd
      rw [bitandP, Node.bitandT.eq_def]
      cases v1 <;> cases v2 <;> exact .call (.ret rfl)
  | case4 id l h v hv ih1 ih2 =>
    cases f with
    | zero => exact fun _ _ => trivial
    | succ f =>
      obtain ⟨lo, hi, rfl, ul, uh⟩ := CellDen.branch_inv hc
      obtain rfl := CellDen.leaf_inv hd
      cases v with
      | true => exact absurd rfl hv
      | false =>
        rw [bitandP, Node.bitandT.eq_def]
        refine tail_follows hI (n := .Branch id l h) (m := .Leaf false) (fun c d hc hd => ?_) (fun c d hc hd => ?_) hc hd
        · rw [Node.splitBranch, if_pos rfl] at hc
          exact ih1 f hc hd
        · rw [Node.splitBranch, if_pos rfl] at hc
          exact ih2 f hc hd
  | case5 v id l h hv ih1 ih2 =>
    cases f with
    | zero => exact fun _ _ => trivial
    | succ f =>
      obtain ⟨lo, hi, rfl, ul, uh⟩ := CellDen.branch_inv hd
      obtain rfl := CellDen.leaf_inv hc
      cases v with
      | true => exact absurd rfl hv
      | false =>
        rw [bitandP, Node.bitandT.eq_def]
        refine tail_follows hI (n := .Leaf false) (m := .Branch id l h) (fun c d hc hd => ?_) (fun c d hc hd => ?_) hc hd
        · rw [Node.splitBranch, if_pos rfl] at hd
          exact ih1 f hc hd
        · rw [Node.splitBranch, if_pos rfl] at hd
          exact ih2 f hc hd
  | case6 id1 l1 h1 id2 l2 h2 firstId s1 s2 =>
    rename_i ih1 ih2
    cases f with
    | zero => exact fun _ _ => trivial
    | succ f =>
      obtain ⟨lo, hi, rfl, ul, uh⟩ := CellDen.branch_inv hc
      obtain ⟨lo', hi', rfl, ul', uh'⟩ := CellDen.branch_inv hd
      rw [bitandP, bitandBody, Node.bitandT.eq_def]
      exact tail_follows hI (n := .Branch id1 l1 h1) (m := .Branch id2 l2 h2)
        (fun c d hc hd => ih1 f hc hd) (fun c d hc hd => ih2 f hc hd) hc hd


theorem fold_follows {γ : Type v} {δ : Type w} {β : Type v'} {D : γ → δ → Prop} {step : γ → β → Prog I Bool γ}
    {sT : δ → β → Ticked δ} (es : List β) (h : ∀ c x, ∀ e ∈ es, D c x → Follows b D (sT x e) (step c e)) {c : γ} {x : δ}
    (hc : D c x) : Follows b D (Ticked.fold sT x es) (foldP step es c) := by
  induction es generalizing c x with
  | nil => exact .ret hc
  | cons e es ih =>
    exact (h c x e (by simp) hc).bind fun r hr => ih (fun c x e he => h c x e (by simp [he])) hr

theorem map_pays (hI : b.Inv) (items : List I) {q : List (I × C I)} {p : List (I × Node I)} (h : MapDen b q p)
    (X : Finset (C I)) (hX : leaves ⊆ X) :
    Pays b (fun r => MapDen b r (items.foldl (fun m item => insertKV item (Node.negativeBranch item) m) p))
      (foldP (fun (m : List (I × C I)) item => (negativeBranchP item).bind fun n => .ret (insertKV item n m)) items q) X 0 := by
  induction items generalizing q p with
  | nil => exact h
  | cons item items ih =>
    have h1 : Pays b (fun r => MapDen b r (insertKV item (Node.negativeBranch item) p))
        ((negativeBranchP item).bind fun n => .ret (insertKV item n q)) X (0 + 0) :=
      (leaf_pays hI item true false X hX).bind fun r hr => h.insert item hr
    exact h1.bind (m := 0) fun r hr => ih hr

theorem conj_follows (hI : b.Inv) (f : Nat) {q : List (I × C I)} {p : List (I × Node I)} (h : MapDen b q p) {c : C I}
    {x : Node I} (hc : Stands b c x) :
    Follows b (Stands b) (Ticked.fold (fun newRoot e => Node.bitandT newRoot e.2) x p)
      (foldP (fun newRoot (e : I × C I) => bitandP f newRoot e.2) q c) := by
  induction h generalizing c x with
  | nil => exact .ret hc
  | cons hx _ ih => exact (bitand_follows hI _ _ f hc hx.2).bind fun r hr => ih hr

theorem sibling_follows (hI : b.Inv) (f : Nat) (items : List I) :
    Follows b (Stands b) (ClosetBuilder.siblingRelationshipT items) (siblingP f items) := by
  refine Follows.first (fun X hX => map_pays hI items .nil X hX) fun m hm => ?_
  refine fold_follows items (fun c x item _ hc => ?_) rfl
  refine Follows.first (fun X hX => leaf_pays hI item false true X hX) fun n hn => ?_
  exact (conj_follows hI f (hm.insert item hn) (c := .leaf true) (x := .Leaf true) rfl).bind fun r hr => bitor_follows hI _ _ f hc hr

theorem rule_follows (hI : b.Inv) (f : Nat) (v w : Bool) (s e : I) :
    Follows b (Stands b) (Node.bitorT (.Branch s (.Leaf true) (.Leaf false)) (.Branch e (.Leaf v) (.Leaf w)))
      ((negativeBranchP s).bind fun a => (branchP e (.node (.leaf v)) (.node (.leaf w))).bind fun b => bitorP f a b) :=
  Follows.first (fun X hX => leaf_pays hI s true false X hX) fun n hn =>
    Follows.first (fun X hX => leaf_pays hI e v w X hX) fun m hm => bitor_follows hI _ _ f hn hm

variable {F : Type v} [LinearOrder F]

theorem buildRoot_follows (hI : b.Inv) (f : Nat) (cb : ClosetBuilder I F) :
    Follows b (Stands b) cb.buildRootT (buildRootP f cb) := by
  refine (fold_follows (D := Stands b) (c := .leaf true) (x := .Leaf true) _ (fun c x e _ hc => ?_) rfl).bind fun r hr =>
    (fold_follows (D := Stands b) _ (fun c x p _ hc => ?_) hr).bind fun r hr => fold_follows (D := Stands b) _ (fun c x p _ hc => ?_) hr
  · exact (sibling_follows hI f e.2).bind fun r hr => bitand_follows hI _ _ f hc hr
  · exact (rule_follows hI f true false p.1 p.2).bind fun r hr => bitand_follows hI _ _ f hc hr
  · exact (rule_follows hI f false true p.1 p.2).bind fun r hr => bitand_follows hI _ _ f hc hr

theorem summarizeLoop_pays (f : Nat) (q : List (C I)) (nodes : List (I × List (Status I))) (X : Finset (C I)) :
    Pays b (fun _ => True) (summarizeLoopP f q nodes) X 0 := by
  induction f generalizing q nodes with
  | zero => trivial
  | succ f ih =>
    match q with
    | [] => trivial
    | .leaf _ :: q => exact ih q nodes
    | .branch item low high :: q => exact fun c _ d _ => ih _ _

theorem summarize_pays (f : Nat) (c : C I) (X : Finset (C I)) : Pays b (fun _ => True) (summarizeP f c) X 0 :=
  Pays.bind (n := 0) (m := 0) (summarizeLoop_pays f [c] [] X) fun _ _ => trivial

theorem build_pays (hI : b.Inv) (f : Nat) (cb : ClosetBuilder I F) (X : Finset (C I)) (hX : leaves ⊆ X) :
    Pays b (fun r => ∀ c, r = .ok c → (∃ d, cb.build = .ok d) ∧ Stands b c.root cb.buildRoot) (buildP f cb) X
      (2 * cb.buildT.calls) := by
  rw [buildP, ClosetBuilder.buildT, ClosetBuilder.build]
  cases validateCloset cb.contents cb.itemIndex cb.exclusions cb.inclusions with
  | error e => exact fun c h => nomatch h
  | ok _ =>
    have h1 := buildRoot_follows hI f cb X hX
    have := h1.bind (m := 0 + 0) (R := fun r => ∀ c, r = .ok c → (∃ d, Except.ok (ε := BuilderError I F)
        (Closet.new cb.itemIndex cb.buildRoot) = .ok d) ∧ Stands b c.root cb.buildRoot)
      (g := fun root => (newP f cb.itemIndex root).bind fun c => .ret (Except.ok (ε := BuilderError I F) c)) fun root hr =>
        Pays.bind (Q := fun c => Stands b c.root cb.buildRoot) (Pays.bind (Q := fun _ => True) (n := 0) (m := 0)
          (summarize_pays f root X) fun _ _ => by rw [ClosetBuilder.buildRootT_val] at hr; exact hr) fun c hc c' e => by
            cases e; exact ⟨⟨_, rfl⟩, hc⟩
    exact this.mono subset_rfl (by simp only [Ticked.bind_calls, Ticked.map_calls]; omega)

/-! ### from nodes to diagrams -/

theorem Safe.pays {α : Type w} {S : C I → Prop} {Q : α → Prop} {p : Prog I Bool α} (h : Safe b S Q p) {X : Finset (C I)}
    (hX : ∀ c, S c → c ∈ X) : Pays b Q p X 0 := by
  induction p with
  | ret x => exact h
  | load i k ih => exact fun c hc => ih c (h c hc)
  | intern c k ih => exact .inl ⟨hX c h.1, fun i hi => ih i (h.2 i hi)⟩
  | panic => trivial
  | spin => trivial

open scoped Classical in
/-- The nodes of the arena that stand for one of the diagrams.  Not code: used to state or prove properties. -/
noncomputable def standing (b : Arena I Bool) (X : Finset (Node I)) : Finset (C I) :=
  X.image fun z => if h : ∃ c, CellDen b c (tr z) then h.choose else .leaf false

theorem standing_card (X : Finset (Node I)) : (standing b X).card ≤ X.card := Finset.card_image_le

theorem mem_standing (hI : b.Inv) {X : Finset (Node I)} {c : C I} {z : Node I} (hz : z ∈ X) (hc : CellDen b c (tr z)) :
    c ∈ standing b X := by
  refine Finset.mem_image.2 ⟨z, hz, ?_⟩
  have h : ∃ c, CellDen b c (tr z) := ⟨c, hc⟩
  simp only [dif_pos h]
  exact (cell_eq_iff hI h.choose_spec hc).2 rfl

theorem Pays.dropAll {α : Type w} {Q : α → Prop} {p : Prog I Bool α} {n : Nat} (X : Finset (C I)) :
    Pays b Q p X n → Pays b Q p ∅ (n + X.card) := by
  classical
  induction X using Finset.induction_on generalizing n with
  | empty => exact fun h => h
  | insert c X hc ih =>
    intro h
    have := ih (Pays.drop h)
    rw [Finset.card_insert_of_notMem hc]
    exact this.mono subset_rfl (by omega)

theorem within_selects_root (hI : b.Inv) {X : Finset (Node I)} (f : Nat) {x : Node I} {c : ClosetC I F}
    (is : List I) (hX : restricts x is ⊆ X) (hc : CellDen b c.root (tr x)) :
    Within b X (fun r => ∀ c', r = .ok c' → CellDen b c'.root (tr (is.foldl (fun x i => x.restrict i true) x)))
      (selectAllP f c is) := by
  induction is generalizing x c with
  | nil => rintro c' ⟨⟩; exact hc
  | cons i is ih =>
    rw [restricts] at hX
    refine Safe.bind (within_select hI f i (Finset.subset_union_left.trans hX) hc) fun r q => ?_
    cases r with
    | error e => exact fun c' h => nomatch h
    | ok c' => exact ih (Finset.subset_union_right.trans hX) (q c' rfl)

theorem restricts_append (x : Node I) (is js : List I) :
    restricts x (is ++ js) = restricts x is ∪ restricts (is.foldl (fun x i => x.restrict i true) x) js := by
  induction is generalizing x with
  | nil => simp [restricts]
  | cons i is ih => simp only [List.cons_append, restricts, List.foldl_cons, ih, Finset.union_assoc]

theorem subs_le (n : Node I) : n.subs.card ≤ n.nodeCount := by
  induction n with
  | Leaf v => simp [Node.subs, Node.nodeCount]
  | Branch i l h ihl ihh =>
    rw [Node.subs, Node.nodeCount]
    have h1 := Finset.card_insert_le (Node.Branch i l h) (l.subs ∪ h.subs)
    have h2 := Finset.card_union_le l.subs h.subs
    omega

/-! ### sessions -/

/-- A session with a configurator: build the closet (bowtie-core/src/bdd/closet_builder/mod.rs:73-92), pick items one by one
(bowtie-core/src/bdd/closet/select.rs:10-41), and ask for a complete outfit with some selections
(bowtie-core/src/bdd/closet/complete_outfit.rs:13-104); it ends early with the first error of building or picking. -/
def sessionP (f : Nat) (cb : ClosetBuilder I F) (picks selections : List I) :
    Prog I Bool (Option (Except (OutfitError I F) (List I))) :=
  (buildP f cb).bind fun
    | .error _ => .ret none
    | .ok c => (selectAllP f c picks).bind fun
      | .error _ => .ret none
      | .ok c => (completeP f c selections).bind fun r => .ret (some r)

theorem session_pays (hI : b.Inv) (f : Nat) (cb : ClosetBuilder I F) (picks sel : List I) (M : Nat)
    (hM : ∀ d, cb.build = .ok d → (restricts cb.buildRoot (picks ++ sel)).card ≤ M) :
    Pays b (fun _ => True) (sessionP f cb picks sel) ∅ (2 * cb.buildT.calls + 2 + M) := by
  classical
  by_cases hb : ∃ d, cb.build = .ok d
  · obtain ⟨d, hd⟩ := hb
    have hM := hM d hd
    have sub : standing b (restricts cb.buildRoot (picks ++ sel)) ⊆ leaves ∪ standing b (restricts cb.buildRoot (picks ++ sel)) :=
      Finset.subset_union_right
    have key : Pays b (fun _ => True) (sessionP f cb picks sel)
        (leaves ∪ standing b (restricts cb.buildRoot (picks ++ sel))) (2 * cb.buildT.calls + 0) := by
      refine (build_pays hI f cb _ Finset.subset_union_left).bind fun r hr => ?_
      cases r with
      | error e => trivial
      | ok c =>
        obtain ⟨_, hc⟩ := hr c rfl
        refine Safe.pays (S := fun c => ∃ z ∈ restricts cb.buildRoot (picks ++ sel), CellDen b c (tr z)) ?_
          (fun c ⟨z, h1, h2⟩ => sub (mem_standing hI h1 h2))
        have e := restricts_append cb.buildRoot picks sel
        refine Safe.bind (within_selects_root hI f picks (X := restricts cb.buildRoot (picks ++ sel))
          (by rw [e]; exact Finset.subset_union_left) hc) fun r hr => ?_
        cases r with
        | error e => trivial
        | ok c' =>
          exact Safe.bind (within_complete hI f sel (X := restricts cb.buildRoot (picks ++ sel))
            (by rw [e]; exact Finset.subset_union_right) (hr c' rfl)) fun _ _ => trivial
    refine (Pays.dropAll _ key).mono subset_rfl ?_
    have h1 := Finset.card_union_le (leaves : Finset (C I)) (standing b (restricts cb.buildRoot (picks ++ sel)))
    have h2 := standing_card (b := b) (restricts cb.buildRoot (picks ++ sel))
    have h3 : (leaves : Finset (C I)).card ≤ 2 := Finset.card_le_two
    omega
  · have key : Pays b (fun _ => True) (sessionP f cb picks sel) leaves (2 * cb.buildT.calls + 0) := by
      refine (build_pays hI f cb _ subset_rfl).bind fun r hr => ?_
      cases r with
      | error e => trivial
      | ok c => exact absurd (hr c rfl).1 hb
    refine (Pays.dropAll _ key).mono subset_rfl ?_
    have h3 : (leaves : Finset (C I)).card ≤ 2 := Finset.card_le_two
    omega

end Verif.ArenaBdd

namespace Verif.ArenaBdd
open Verif Verif.Arena Verif.Bdd Verif.Bdd.Spec

universe u
variable {I F : Type u} [LinearOrder I] [LinearOrder F]

/-- How many nodes a session with `n` builder calls over `N` items, whose families alone allow `W` outfits and which has `K`
outfits, may add to the store, with `k` picks and selections.  Not code: used to state or prove properties. -/
def sessionBound (n N W K k : Nat) : Nat := 36 * (n + 1) * (N + 1) ^ 3 * (W + 1) + 2 + k * (2 * (N * K) + 1)

/-- The numbers of a history of builder calls: how many items it knows, how many outfits its families alone allow, how many
outfits it has.  Not code: used to state or prove properties. -/
def Numbers (cs : List (Call I F)) (N W K : Nat) : Prop :=
  (∃ S : Finset I, (∀ i, i ∈ S ↔ Known cs i) ∧ S.card = N) ∧
  (∃ (fams : Finset F) (items : F → Finset I), (∀ f, f ∈ fams ↔ ∃ i, Call.item f i ∈ cs) ∧
    (∀ f i, i ∈ items f ↔ Call.item f i ∈ cs) ∧ ∏ f ∈ fams, (items f).card = W) ∧
  ∃ L : Finset (Finset I), (∀ w, w ∈ L ↔ Outfit cs w) ∧ L.card = K

/-- A program that builds a closet, or runs a whole session, and the number of nodes it may add to the store; the fuel `f`
is arbitrary.  Not code: used to state or prove properties. -/
inductive Building : (α : Type u) → Prog I Bool α → Nat → Prop where
  /-- bowtie-core/src/bdd/closet_builder/mod.rs:73-92 -/
  | build (f : Nat) (cs : List (Call I F)) {N W K : Nat} : Numbers cs N W K →
      Building (Except (BuilderError I F) (ClosetC I F)) (buildP f (ClosetBuilder.run cs)) (sessionBound cs.length N W K 0)
  /-- Building, picking and completing. -/
  | session (f : Nat) (cs : List (Call I F)) (picks selections : List I) {N W K : Nat} : Numbers cs N W K →
      Building (Option (Except (OutfitError I F) (List I))) (sessionP f (ClosetBuilder.run cs) picks selections)
        (sessionBound cs.length N W K (picks.length + selections.length))

theorem Building.pays {b : Arena I Bool} (hI : b.Inv) {α : Type u} {p : Prog I Bool α} {n : Nat}
    (h : Building (F := F) α p n) : Pays b (fun _ => True) p ∅ n := by
  cases h with
  | build f cs h =>
    obtain ⟨⟨S, h1, rfl⟩, ⟨fams, items, h2, h3, rfl⟩, _⟩ := h
    have := (build_calls cs S h1 fams h2 items h3).2.1
    refine ((Pays.dropAll _ (build_pays hI f (ClosetBuilder.run cs) _ subset_rfl)).imp fun _ _ => trivial).mono subset_rfl ?_
    have h3 : (leaves : Finset (C I)).card ≤ 2 := Finset.card_le_two
    have e : 36 * (cs.length + 1) * (S.card + 1) ^ 3 * (∏ f ∈ fams, (items f).card + 1) =
      2 * (18 * (cs.length + 1) * (S.card + 1) ^ 3 * (∏ f ∈ fams, (items f).card + 1)) := by ring
    rw [sessionBound, e]
    omega
  | session f cs picks sel h =>
    obtain ⟨⟨S, h1, rfl⟩, ⟨fams, items, h2, h3, rfl⟩, ⟨L, hL, rfl⟩⟩ := h
    have := (build_calls cs S h1 fams h2 items h3).2.1
    refine (session_pays hI f (ClosetBuilder.run cs) picks sel ((picks ++ sel).length * (2 * (S.card * L.card) + 1))
      fun d hd => ?_).mono subset_rfl ?_
    · obtain ⟨hl, e⟩ := build_eq hd
      have hg := good_buildRoot hl
      have h4 := restricts_card (x := (ClosetBuilder.run cs).buildRoot) hg.1 hg.2 (picks ++ sel)
      have h5 := (closet_size cs [] d ⟨d, hd, rfl⟩ S (fun i => by simp [h1]) L (fun w => by simp [hL])).2
      rw [e] at h5
      have h6 := subs_le (ClosetBuilder.run cs).buildRoot
      exact h4.trans (Nat.mul_le_mul_left _ (h6.trans h5))
    · have e : 36 * (cs.length + 1) * (S.card + 1) ^ 3 * (∏ f ∈ fams, (items f).card + 1) =
        2 * (18 * (cs.length + 1) * (S.card + 1) ^ 3 * (∏ f ∈ fams, (items f).card + 1)) := by ring
      rw [sessionBound, e, List.length_append]
      omega

/-- C123: threads building closets or running whole sessions on a shared store, in any interleaving and stopped anywhere, add
at most the sum of their bounds to it. -/
theorem sessions_growth {α : Nat → Type u} {m m' : Machine I Bool α} (h : MRun m m') (hI : m.arena.Inv) (S : Finset Nat)
    (n : Nat → Nat) (idle : ∀ t, t ∉ S → m'.threads t = m.threads t)
    (busy : ∀ t ∈ S, ∃ p, m.threads t = .run p ∧ Building (F := F) (α t) p (n t)) :
    m'.arena.nodes.length ≤ m.arena.nodes.length + ∑ t ∈ S, n t := by
  refine pays_growth h hI S n idle fun t ht => ?_
  obtain ⟨p, h1, h2⟩ := busy t ht
  exact ⟨p, h1, h2.pays (mrun_ext h hI).right⟩

/-- The numbers of the history "family 0 has the items 0 and 1": two items, two outfits. -/
theorem demo_numbers : Numbers [Call.item 0 0, Call.item 0 1] 2 2 2 := by
  have hmem : ∀ f i : Nat, Call.item f i ∈ [Call.item 0 0, Call.item 0 1] ↔ f = 0 ∧ (i = 0 ∨ i = 1) := by
    intro f i
    simp only [List.mem_cons, Call.item.injEq, List.not_mem_nil, or_false]
    tauto
  have hknown : ∀ i : Nat, Known [Call.item 0 0, Call.item 0 1] i ↔ i = 0 ∨ i = 1 := by
    intro i
    simp [Known, hmem]
  refine ⟨⟨{0, 1}, fun i => by simp [hknown], rfl⟩,
    ⟨{0}, fun f => if f = 0 then {0, 1} else ∅, fun f => ?_, fun f i => ?_, by simp⟩, {{0}, {1}}, fun w => ?_, by decide⟩
  · simp only [Finset.mem_singleton, hmem]
    exact ⟨fun h => ⟨0, h, Or.inl rfl⟩, fun ⟨_, h, _⟩ => h⟩
  · rw [hmem]
    by_cases h : f = 0 <;> simp [h]
  · simp only [Finset.mem_insert, Finset.mem_singleton]
    constructor
    · rintro (rfl | rfl)
      · refine ⟨?_, fun f i h => ⟨0, by simp [((hmem f i).mp h).1], fun j hj => by simpa using hj.2⟩, ?_, ?_⟩ <;>
          simp [hknown]
      · refine ⟨?_, fun f i h => ⟨1, by simp [((hmem f i).mp h).1], fun j hj => by simpa using hj.2⟩, ?_, ?_⟩ <;>
          simp [hknown]
    · intro h
      obtain ⟨a, ⟨ha, haw⟩, hu⟩ := h.2.1 0 0 (by simp)
      have key : ∀ j, j ∈ w → j = a := fun j hj => hu j ⟨(hmem 0 j).mpr ⟨rfl, (hknown j).mp (h.known j hj)⟩, hj⟩
      have e : w = {a} := by
        ext j
        rw [Finset.mem_singleton]
        exact ⟨key j, fun e => e ▸ haw⟩
      rcases ((hmem 0 a).mp ha).2 with rfl | rfl
      · exact Or.inl e
      · exact Or.inr e

/-- The hypotheses of `sessions_growth` are met, and the store does grow: a thread in the middle of a session has added a
node. -/
example : ∃ m m' : Machine Nat Bool (fun _ => Option (Except (OutfitError Nat Nat) (List Nat))), MRun m m' ∧ m.arena.Inv ∧
    (∀ t, t ∉ ({0} : Finset Nat) → m'.threads t = m.threads t) ∧
    (∀ t ∈ ({0} : Finset Nat), ∃ p, m.threads t = .run p ∧ Building (F := Nat) _ p (sessionBound 2 2 2 2 2)) ∧
    m.arena.nodes.length = 2 ∧ m'.arena.nodes.length = 3 := by
  have hI : (Arena.init false true : Arena Nat Bool).Inv := init_inv (by decide)
  let m : Machine Nat Bool (fun _ => Option (Except (OutfitError Nat Nat) (List Nat))) :=
    ⟨Arena.init false true, fun _ => .run (sessionP 5 (ClosetBuilder.run [Call.item 0 0, Call.item 0 1]) [0] [0])⟩
  refine ⟨m, _, .cons (.step 0 (.hit rfl)) (.cons (.step 0 (.hit rfl)) (.cons (.step 0 (.hit rfl)) (.cons (.step 0 (.hit rfl))
    (.cons (.step 0 (.hit rfl)) (.cons (.step 0 (.hit rfl)) (.cons (.step 0 (.load rfl)) (.cons (.step 0 (.load rfl))
    (.cons (.step 0 (.load rfl)) (.cons (.step 0 (.load rfl)) (.cons (.step 0 (.hit rfl)) (.cons (.step 0 .addDirect)
    (.nil _)))))))))))), hI, ?_, ?_, rfl, rfl⟩
  · intro t ht
    have : t ≠ 0 := by simpa using ht
    simp only [Function.update_of_ne this]
  · exact fun t _ => ⟨_, rfl, Building.session 5 [Call.item 0 0, Call.item 0 1] [0] [0] demo_numbers⟩

example : Building (F := Nat) _ (buildP (I := Nat) 5 (ClosetBuilder.run [Call.item 0 0, Call.item 0 1]))
    (sessionBound 2 2 2 2 0) :=
  Building.build 5 [Call.item 0 0, Call.item 0 1] demo_numbers

end Verif.ArenaBdd
