import Verif.ArenaMemoryText
import Verif.ArenaMemoryCloset
import Verif.ArenaClient

/-!
# What clients of the whole node and closet API leave in the arena (C108)

Also for clients that panic: a call that panics alone panics next to other threads (C98 left this out).
-/

set_option linter.unusedSectionVars false
set_option linter.unusedVariables false
set_option linter.checkUnivs false

namespace Verif.ArenaBdd
open Verif Verif.Arena Verif.Bdd Verif.Bdd.Spec Verif.Debug

universe u v w w' x
variable {I : Type u} [LinearOrder I] {F : Type v} [LinearOrder F] {H : Type x} {O : Type w} {α : Type w} {β : Type w'}
  {R : Nat → Nat → Prop}

/-! ## The remaining operations do not look at the numbers of ids -/

theorem not_alike {n n' : C I} (hn : CellRel R n n') : Alike R (CellRel R) (bitnotP n) (bitnotP n') := by
  cases hn with
  | leaf b => cases b <;> exact .ret (.leaf _)
  | branch h1 h2 => exact branch_alike _ (.id h2) (.id h1)

theorem xor_alike (hR : Pairing R) (f : Nat) {n m n' m' : C I} (hn : CellRel R n n') (hm : CellRel R m m') :
    Alike R (CellRel R) (bitxorP f n m) (bitxorP f n' m') :=
  (not_alike hm).bind fun _ _ h1 => (bitand_alike hR f hn h1).bind fun _ _ h2 => (not_alike hn).bind fun _ _ h3 =>
    (bitand_alike hR f h3 hm).bind fun _ _ h4 => bitor_alike hR f h2 h4

theorem reduce_alike (hR : Pairing R) (f : Nat) {n n' : C I} (hn : CellRel R n n') :
    Alike R (CellRel R) (reduceP f n) (reduceP f n') := by
  induction f generalizing n n' with
  | zero => exact .spin
  | succ f ih =>
    cases hn with
    | leaf b => exact .ret (.leaf _)
    | branch h1 h2 =>
      exact .load h1 fun _ _ h1 => .load h2 fun _ _ h2 => (ih h1).bind fun _ _ h1 => (ih h2).bind fun _ _ h2 =>
        join_alike hR _ h1 h2

theorem both_alike {S : β → β → Prop} {rec : C I → Prog I Bool α}
    (ih : ∀ {n n' : C I}, CellRel R n n' → Alike R (· = ·) (rec n) (rec n')) {l h l' h' : Nat} (hl : R l l') (hh : R h h')
    {k : α → α → Prog I Bool β} (hk : ∀ x y, Alike R S (k x y) (k x y)) :
    Alike R S (bothP rec l h k) (bothP rec l' h' k) := by
  refine .load hl fun _ _ h1 => .load hh fun _ _ h2 => (ih h1).bind fun _ _ e => ?_
  subst e
  refine (ih h2).bind fun _ _ e => ?_
  subst e
  exact hk _ _

theorem nodeCount_alike (f : Nat) {n n' : C I} (hn : CellRel R n n') :
    Alike R (· = ·) (nodeCountP f n) (nodeCountP f n') := by
  induction f generalizing n n' with
  | zero => exact .spin
  | succ f ih =>
    cases hn with
    | leaf b => exact .ret rfl
    | branch h1 h2 => exact both_alike ih h1 h2 fun _ _ => .ret rfl

theorem leafCount_alike (f : Nat) {n n' : C I} (hn : CellRel R n n') :
    Alike R (· = ·) (leafCountP f n) (leafCountP f n') := by
  induction f generalizing n n' with
  | zero => exact .spin
  | succ f ih =>
    cases hn with
    | leaf b => exact .ret rfl
    | branch h1 h2 => exact both_alike ih h1 h2 fun _ _ => .ret rfl

theorem outfitCount_alike (f : Nat) {n n' : C I} (hn : CellRel R n n') :
    Alike R (· = ·) (outfitCountP f n) (outfitCountP f n') := by
  induction f generalizing n n' with
  | zero => exact .spin
  | succ f ih =>
    cases hn with
    | leaf b => exact .ret rfl
    | branch h1 h2 => exact both_alike ih h1 h2 fun _ _ => .ret rfl

theorem depth_alike (f : Nat) {n n' : C I} (hn : CellRel R n n') :
    Alike R (· = ·) (depthP f n) (depthP f n') := by
  induction f generalizing n n' with
  | zero => exact .spin
  | succ f ih =>
    cases hn with
    | leaf b => exact .ret rfl
    | branch h1 h2 => exact both_alike ih h1 h2 fun _ _ => .ret rfl

theorem hash_alike (leaf : Bool → H) (pair : H → H → H) (f : Nat) {n n' : C I} (hn : CellRel R n n') :
    Alike R (· = ·) (hashStructureP leaf pair f n) (hashStructureP leaf pair f n') := by
  induction f generalizing n n' with
  | zero => exact .spin
  | succ f ih =>
    cases hn with
    | leaf b => exact .ret rfl
    | branch h1 h2 => exact both_alike ih h1 h2 fun _ _ => .ret rfl

theorem fmtInner_alike (dbg : I → List Char) (f d : Nat) {n n' : C I} (h : CellRel R n n') :
    Alike R (· = ·) (fmtInnerP dbg f d n) (fmtInnerP dbg f d n') := by
  induction f generalizing d n n' with
  | zero => exact .spin
  | succ f ih =>
    cases h with
    | leaf l => exact .ret rfl
    | branch h1 h2 =>
      refine .load h1 fun _ _ h => (ih _ h).bind fun _ _ e => ?_
      subst e
      refine .load h2 fun _ _ h => (ih _ h).bind fun _ _ e => ?_
      subst e
      exact .ret rfl

theorem toStructure_alike (f d : Nat) {n n' : C I} (h : CellRel R n n') :
    Alike R (· = ·) (toStructureP f n d) (toStructureP f n' d) := by
  induction f generalizing d n n' with
  | zero => exact .spin
  | succ f ih =>
    cases h with
    | leaf l => exact .ret rfl
    | branch h1 h2 =>
      refine .load h1 fun _ _ h => (ih _ h).bind fun _ _ e => ?_
      subst e
      refine .load h2 fun _ _ h => (ih _ h).bind fun _ _ e => ?_
      subst e
      exact .ret rfl

theorem toContent_alike (f : Nat) (t : List (Nat × I)) (d : Nat) {n n' : C I} (h : CellRel R n n') :
    Alike R (· = ·) (toContentP f n t d) (toContentP f n' t d) := by
  induction f generalizing t d n n' with
  | zero => exact .spin
  | succ f ih =>
    cases h with
    | leaf l => exact .ret rfl
    | branch h1 h2 =>
      refine .load h1 fun _ _ h => (ih _ _ h).bind fun _ _ e => ?_
      subst e
      exact .load h2 fun _ _ h => ih _ _ h

theorem serializeNode_alike (f : Nat) {n n' : C I} (h : CellRel R n n') :
    Alike R (· = ·) (serializeNodeP f n) (serializeNodeP f n') := by
  refine (toStructure_alike f 0 h).bind fun _ _ e => ?_
  subst e
  exact (toContent_alike f [] 0 h).bind fun _ _ e => .ret (by rw [e])

theorem toNode_alike (s : Structure) (t : List (Nat × I)) : Alike R (CellRel R) (toNodeP s t) (toNodeP s t) := by
  induction s with
  | Outcome v => cases v <;> exact .ret (.leaf _)
  | Required d hi ih =>
    rw [toNodeP]
    cases lookup d t with
    | none => exact .panic
    | some item => exact ih.bind fun _ _ h => branch_alike item (.node (.leaf _)) (.node h)
  | Excluded d lo ih =>
    rw [toNodeP]
    cases lookup d t with
    | none => exact .panic
    | some item => exact ih.bind fun _ _ h => branch_alike item (.node h) (.node (.leaf _))
  | Available d lo hi ihl ihh =>
    rw [toNodeP]
    cases lookup d t with
    | none => exact .panic
    | some item => exact ihl.bind fun _ _ h => ihh.bind fun _ _ h' => branch_alike item (.node h) (.node h')

theorem fetch_alike {S : β → β → Prop} {x y : Arg I Bool} (h : ArgRel R x y) {k k' : C I → Prog I Bool β}
    (hk : ∀ c d, CellRel R c d → Alike R S (k c) (k' d)) : Alike R S (fetch x k) (fetch y k') := by
  cases h with
  | id h => exact .load h hk
  | node h => exact hk _ _ h

theorem same_alike (hR : Pairing R) {S : β → β → Prop} {x y x' y' : Arg I Bool} (h : ArgRel R x x') (h' : ArgRel R y y')
    {k k' : Bool → Prog I Bool β} (hk : ∀ b, Alike R S (k b) (k' b)) : Alike R S (sameP x y k) (sameP x' y' k') := by
  have cells : ∀ {c d c' d' : C I}, CellRel R c c' → CellRel R d d' → Alike R S (k (decide (c = d))) (k' (decide (c' = d'))) :=
    fun h h' => by rw [decide_eq_decide.2 (h.eq_iff hR h')]; exact hk _
  cases h with
  | id h =>
    cases h' with
    | id h' =>
      simp only [sameP]
      rw [decide_eq_decide.2 (⟨fun e => by subst e; exact hR.fwd _ _ _ h h', fun e => by subst e; exact hR.bwd _ _ _ h h'⟩)]
      exact hk _
    | node h' => exact .load h fun _ _ h => cells h h'
  | node h =>
    cases h' with
    | id h' => exact .load h' fun _ _ h' => cells h h'
    | node h' => exact cells h h'

/-- Stores that are the same but for the ids.  Not code: used to state or prove properties. -/
def StoreRel (R : Nat → Nat → Prop) (s s' : StoreC I F) : Prop :=
  List.Forall₂ (ArgRel R) s.nodes s'.nodes ∧ List.Forall₂ (ClosetRel R) s.closets s'.closets

theorem StoreRel.node {s s' : StoreC I F} (h : StoreRel R s s') {x y : Arg I Bool} (hx : ArgRel R x y) :
    StoreRel R (s.node x) (s'.node y) := ⟨snoc_rel h.1 hx, h.2⟩

theorem StoreRel.closet {s s' : StoreC I F} (h : StoreRel R s s') {x y : ClosetC I F} (hx : ClosetRel R x y) :
    StoreRel R (s.closet x) (s'.closet y) := ⟨h.1, snoc_rel h.2 hx⟩

theorem need_alike {γ : Type w} {V : γ → γ → Prop} {S : β → β → Prop} {s s' : List γ} (h : List.Forall₂ V s s') (i : Nat)
    {k k' : γ → Prog I Bool β} (hk : ∀ x y, V x y → Alike R S (k x) (k' y)) :
    Alike R S (need s[i]? k) (need s'[i]? k') := by
  induction h generalizing i with
  | nil => simp only [List.getElem?_nil]; exact .panic
  | cons hx _ ih =>
    cases i with
    | zero => simpa [need] using hk _ _ hx
    | succ i => simpa using ih i

/-- No call of the node and closet API looks at the numbers of the ids. -/
theorem op_alike (hR : Pairing R) (e : Env I H) (f : Nat) (op : Op I F) {s s' : StoreC I F} (hs : StoreRel R s s') :
    Alike R (fun x y => StoreRel R x.1 y.1 ∧ x.2 = y.2) (opP e f s op) (opP e f s' op) := by
  have mk : ∀ {p q : P I}, Alike R (CellRel R) p q → Alike R (fun x y => StoreRel R x.1 y.1 ∧ x.2 = y.2)
      (p.bind fun c => .ret (s.node (.node c), (.done : Reply I F H))) (q.bind fun c => .ret (s'.node (.node c), .done)) :=
    fun h => h.bind fun _ _ h => .ret ⟨hs.node (.node h), rfl⟩
  cases op with
  | leaf b => exact .ret ⟨hs.node (.node (.leaf _)), rfl⟩
  | branch i l h => exact need_alike hs.1 l fun _ _ h1 => need_alike hs.1 h fun _ _ h2 => mk (branch_alike i h1 h2)
  | positive i => exact mk (positive_alike i)
  | negative i => exact mk (negative_alike i)
  | or m n =>
    exact need_alike hs.1 m fun _ _ h1 => need_alike hs.1 n fun _ _ h2 => fetch_alike h1 fun _ _ h1 =>
      fetch_alike h2 fun _ _ h2 => mk (bitor_alike hR f h1 h2)
  | and m n =>
    exact need_alike hs.1 m fun _ _ h1 => need_alike hs.1 n fun _ _ h2 => fetch_alike h1 fun _ _ h1 =>
      fetch_alike h2 fun _ _ h2 => mk (bitand_alike hR f h1 h2)
  | xor m n =>
    exact need_alike hs.1 m fun _ _ h1 => need_alike hs.1 n fun _ _ h2 => fetch_alike h1 fun _ _ h1 =>
      fetch_alike h2 fun _ _ h2 => mk (xor_alike hR f h1 h2)
  | not n => exact need_alike hs.1 n fun _ _ h => fetch_alike h fun _ _ h => mk (not_alike h)
  | reduce n => exact need_alike hs.1 n fun _ _ h => fetch_alike h fun _ _ h => mk (reduce_alike hR f h)
  | restrict n i b => exact need_alike hs.1 n fun _ _ h => fetch_alike h fun _ _ h => mk (restrict_alike hR f i b h)
  | toId n => exact need_alike hs.1 n fun _ _ h => .into h fun _ _ h => .ret ⟨hs.node (.id h), rfl⟩
  | fromId n => exact need_alike hs.1 n fun _ _ h => fetch_alike h fun _ _ h => .ret ⟨hs.node (.node h), rfl⟩
  | inspect n =>
    refine need_alike hs.1 n fun _ _ h => fetch_alike h fun _ _ h => ?_
    cases h with
    | leaf b => exact .ret ⟨hs, rfl⟩
    | branch h1 h2 => exact .ret ⟨(hs.node (.id h1)).node (.id h2), rfl⟩
  | sameNode m n =>
    exact need_alike hs.1 m fun _ _ h1 => need_alike hs.1 n fun _ _ h2 => same_alike hR h1 h2 fun b => .ret ⟨hs, rfl⟩
  | summarize n =>
    exact need_alike hs.1 n fun _ _ h => fetch_alike h fun _ _ h => (summarize_alike f h).bind fun _ _ e =>
      .ret ⟨hs, by rw [e]⟩
  | hashStructure n =>
    exact need_alike hs.1 n fun _ _ h => fetch_alike h fun _ _ h => (hash_alike _ _ f h).bind fun _ _ e =>
      .ret ⟨hs, by rw [e]⟩
  | debug n =>
    exact need_alike hs.1 n fun _ _ h => fetch_alike h fun _ _ h => (fmtInner_alike _ f 1 h).bind fun _ _ e =>
      .ret ⟨hs, by rw [e]⟩
  | saveNode n =>
    exact need_alike hs.1 n fun _ _ h => fetch_alike h fun _ _ h => (serializeNode_alike f h).bind fun _ _ e =>
      .ret ⟨hs, by rw [e]⟩
  | loadNode d => exact mk (toNode_alike d.1 d.2)
  | build calls =>
    refine (build_alike hR f _).bind fun a b hab => ?_
    cases a <;> cases b <;> first | exact hab.elim | skip
    · exact .ret ⟨hs, congrArg Reply.buildFailed hab⟩
    · exact .ret ⟨hs.closet hab, rfl⟩
  | newCloset index n =>
    exact need_alike hs.1 n fun _ _ h => fetch_alike h fun _ _ h => (new_alike f index h).bind fun _ _ h =>
      .ret ⟨hs.closet h, rfl⟩
  | root c => exact need_alike hs.2 c fun _ _ h => .ret ⟨hs.node (.node h.1), rfl⟩
  | look c => exact need_alike hs.2 c fun _ _ h => .ret ⟨hs, by rw [h.2.1, h.2.2]⟩
  | select c i =>
    refine need_alike hs.2 c fun _ _ h => (selectItem_alike hR f i h).bind fun a b hab => ?_
    cases a <;> cases b <;> first | exact hab.elim | skip
    · exact .ret ⟨hs, congrArg Reply.selectFailed hab⟩
    · exact .ret ⟨hs.closet hab, rfl⟩
  | complete c sel =>
    exact need_alike hs.2 c fun _ _ h => (complete_alike hR f sel h).bind fun _ _ e => .ret ⟨hs, by rw [e]⟩
  | counts c =>
    refine need_alike hs.2 c fun _ _ h => (nodeCount_alike f h.1).bind fun _ _ e1 => (leafCount_alike f h.1).bind
      fun _ _ e2 => (outfitCount_alike f h.1).bind fun _ _ e3 => (depth_alike f h.1).bind fun _ _ e4 => ?_
    exact .ret ⟨hs, by rw [e1, e2, e3, e4]⟩
  | sameCloset c d =>
    refine need_alike hs.2 c fun _ _ h => need_alike hs.2 d fun _ _ h' => .ret ⟨hs, ?_⟩
    rw [h.2.1, h.2.2, h'.2.1, h'.2.2, decide_eq_decide.2 (h.1.eq_iff hR h'.1)]
  | saveCloset c =>
    exact need_alike hs.2 c fun _ _ h => (serializeNode_alike f h.1).bind fun _ _ e =>
      .ret ⟨hs, by rw [e, h.2.1, h.2.2]⟩
  | loadCloset d => exact (toNode_alike d.root.1 d.root.2).bind fun _ _ h => .ret ⟨hs.closet ⟨h, rfl, rfl⟩, rfl⟩

theorem client_alike (hR : Pairing R) (e : Env I H) (f : Nat) (cl : Client I F H O) {s s' : StoreC I F}
    (hs : StoreRel R s s') : Alike R (fun _ _ => True) (clientP e f cl s) (clientP e f cl s') := by
  induction cl generalizing s s' with
  | ends o => exact .ret trivial
  | call op k ih =>
    refine (op_alike hR e f op hs).bind fun x y hx => ?_
    rw [hx.2]
    exact ih y.2 hx.1

/-! ## Calls that panic alone panic next to other threads -/

theorem toNode_fails (s : Structure) (t : List (Nat × I)) (h : toNode s t = none) (a : Arena I Bool) (hI : a.Inv) :
    Fails (toNodeP s t) a := by
  induction s generalizing a with
  | Outcome v => cases v <;> cases h
  | Required d hi ih =>
    rw [toNode] at h
    rw [toNodeP]
    cases e : lookup d t with
    | none => exact rfl
    | some item =>
      rw [e] at h
      simp only [Option.map_eq_none_iff] at h
      exact (ih h a hI).bind _
  | Excluded d lo ih =>
    rw [toNode] at h
    rw [toNodeP]
    cases e : lookup d t with
    | none => exact rfl
    | some item =>
      rw [e] at h
      simp only [Option.map_eq_none_iff] at h
      exact (ih h a hI).bind _
  | Available d lo hi ihl ihh =>
    rw [toNode] at h
    rw [toNodeP]
    cases e : lookup d t with
    | none => exact rfl
    | some item =>
      rw [e] at h
      cases el : toNode lo t with
      | none => exact (ihl el a hI).bind _
      | some n =>
        have eh : toNode hi t = none := by
          rw [el] at h
          cases eh : toNode hi t with
          | none => rfl
          | some m => rw [eh] at h; cases h
        exact fails_bind (toNode_ok lo t n el a hI) fun b c he _ => (ihh eh b he.right).bind _

theorem need_fails1 {γ : Type w} {s : List γ} {i : Nat} (hi : s.length ≤ i) (k : γ → Prog I Bool β) (a : Arena I Bool) :
    Fails (need s[i]? k) a := by
  rw [List.getElem?_eq_none hi]; rfl

theorem need_fails2 {γ : Type w} {s : List γ} {i j : Nat} (h : s.length ≤ i ∨ s.length ≤ j)
    (k : γ → γ → Prog I Bool β) (a : Arena I Bool) :
    Fails (need s[i]? fun x => need s[j]? fun y => k x y) a := by
  by_cases hi : s.length ≤ i
  · exact need_fails1 hi _ a
  · rw [List.getElem?_eq_getElem (by omega)]
    exact need_fails1 (h.resolve_left hi) _ a

/-- C98: a call that panics in a process of its own panics next to any other threads. -/
theorem op_fails (e : Env I H) (op : Op I F) (g : Store (Node I) (Closet I F)) (h : op.alone e g = none) (f : Nat)
    (a : Arena I Bool) (s : StoreC I F) (hI : a.Inv) (hs : StoreDen g a s) : Fails (opP e f s op) a := by
  have hm := (op_panics_iff e g op).1 h
  have hn := hs.1.length_eq
  have hc := hs.2.length_eq
  cases op with
  | leaf => exact hm.elim
  | positive => exact hm.elim
  | negative => exact hm.elim
  | build => exact hm.elim
  | loadNode d =>
    have h : toNode d.1 d.2 = none := by
      simp only [Op.alone, deserializeNode] at h
      cases e : toNode d.1 d.2 with
      | none => rfl
      | some n => rw [e] at h; cases h
    exact (toNode_fails _ _ h a hI).bind _
  | loadCloset d =>
    have h : toNode d.root.1 d.root.2 = none := by
      simp only [Op.alone, deserializeCloset, deserializeNode] at h
      cases e : toNode d.root.1 d.root.2 with
      | none => rfl
      | some n => rw [e] at h; cases h
    exact (toNode_fails _ _ h a hI).bind _
  | _ =>
    simp only [Op.Mistaken, ← hn, ← hc] at hm
    first
    | exact need_fails1 hm _ a
    | exact need_fails2 hm _ a

/-- How a client's thread may end, given how it ends alone.  Not code: used to state or prove properties. -/
def Post (out : Option (Store (Node I) (Closet I F) × O)) (a : Arena I Bool) (r : Option (StoreC I F × O)) : Prop :=
  match out, r with
  | none, none => True
  | some (g, o), some (s, o') => StoreDen g a s ∧ o' = o
  | _, _ => False

theorem post_stable (out : Option (Store (Node I) (Closet I F) × O)) :
    StableO (Post out : Arena I Bool → Option (StoreC I F × O) → Prop) := by
  rintro a b (_ | ⟨s, o'⟩) e h
  · cases out <;> exact h
  · cases out with
    | none => exact h
    | some p => exact ⟨h.1.mono e, h.2⟩

theorem client_outcome (e : Env I H) (cl : Client I F H O) (g : Store (Node I) (Closet I F)) :
    ∃ K, ∀ f ≥ K, ∀ (a : Arena I Bool) s, a.Inv → StoreDen g a s → wpo (clientP e f cl s) a (Post (cl.alone e g)) := by
  induction cl generalizing g with
  | ends o => exact ⟨0, fun f hf a s hI hs => ⟨hs, rfl⟩⟩
  | call op k ih =>
    cases h1 : op.alone e g with
    | none =>
      refine ⟨0, fun f hf a s hI hs => ?_⟩
      simp only [Client.alone, h1, Option.bind_none, clientP]
      exact wpo_imp ((op_fails e op g h1 f a s hI hs).bind _) fun b r hr => by rw [hr]; trivial
    | some p =>
      obtain ⟨g1, r⟩ := p
      obtain ⟨F1, hF1⟩ := op_ok e op g g1 r h1
      obtain ⟨F2, hF2⟩ := ih r g1
      refine ⟨F1 + F2, fun f hf a s hI hs => ?_⟩
      simp only [Client.alone, h1, Option.bind_some, clientP]
      refine wpo_bind (Q := fun b q => ∃ x, q = some x ∧ Ext a b ∧ StoreDen g1 b x.1 ∧ x.2 = r)
        (wpo_of_wp (hF1 f (by omega) a s hI hs) fun b x hx => ⟨x, rfl, hx⟩) (fun _ ⟨_, e, _⟩ => by cases e) ?_
      rintro b x ⟨_, e, he, h3, h4⟩
      cases e
      rw [h4]
      exact hF2 f (by omega) b x.1 he.right h3

/-! ## Processes -/

/-- Whether a client was handed an id or a node.  Not code: used to state or prove properties. -/
def isId : Arg I Bool → Bool
  | .id _ => true
  | .node _ => false

/-- What a client was started for: the client, the nodes and closets it was handed, and which of the nodes it was
handed as ids.  Not code: used to state or prove properties. -/
structure Job (I : Type u) [LinearOrder I] (F : Type v) [LinearOrder F] (H : Type x) (O : Type w) where
  client : Client I F H O
  values : Store (Node I) (Closet I F)
  ids : List Bool

/-- What the client of thread `t` holds when it has ended alone.  Not code: used to state or prove properties. -/
def keptBy (e : Env I H) (log : Nat → Option (Job I F H O)) (t : Nat) : Option (Store (Node I) (Closet I F)) :=
  (log t).bind fun q => (q.client.alone e q.values).map Prod.fst

/-- A process in which clients of the library are started at any time, with any nodes and closets finished clients
hold; `log` says what each thread was started for.  `fuel` bounds the depth of recursions.
Not code: used to state or prove properties. -/
inductive Process (e : Env I H) (fuel : Client I F H O → Store (Node I) (Closet I F) → Nat) :
    Machine I Bool (fun _ => StoreC I F × O) → (Nat → Option (Job I F H O)) → Prop where
  | boot : Process e fuel ⟨Arena.init false true, fun _ => .panicked⟩ (fun _ => none)
  | step {m m' log} : Process e fuel m log → MStep m m' → Process e fuel m' log
  | client {m log} (t : Nat) (cl : Client I F H O) (ns cs : List (Nat × Nat)) (s g) :
    Process e fuel m log → log t = none → pick (held m) ns cs = some s → pick (keptBy e log) ns cs = some g →
    Process e fuel ⟨m.arena, Function.update m.threads t (.run (clientP e (fuel cl g) cl s))⟩
      (Function.update log t (some ⟨cl, g, s.nodes.map isId⟩))

/-- Not code: used to state or prove properties. -/
def jobStarts (e : Env I H) (fuel : Client I F H O → Store (Node I) (Closet I F) → Nat) (q : Job I F H O)
    (a : Arena I Bool) (p : Prog I Bool (StoreC I F × O)) : Prop :=
  ∃ s, StoreDen q.values a s ∧ s.nodes.map isId = q.ids ∧ p = clientP e (fuel q.client q.values) q.client s

theorem den_rel {a b : Arena I Bool} {c d : C I} {t : Tr I Bool} (h : CellDen a c t) (h' : CellDen b d t) :
    CellRel (Same a b) c d := by
  cases t with
  | leaf l => obtain rfl := h.leaf_inv; obtain rfl := h'.leaf_inv; exact .leaf _
  | branch k t1 t2 =>
    obtain ⟨l1, l2, rfl, u1, u2⟩ := h.branch_inv
    obtain ⟨l3, l4, rfl, u3, u4⟩ := h'.branch_inv
    exact .branch ⟨_, u1, u3⟩ ⟨_, u2, u4⟩

theorem args_rel {a b : Arena I Bool} {xs ys : List (Arg I Bool)} {g : List (Node I)}
    (hx : List.Forall₂ (fun x n => ArgDen a x (tr n)) xs g) (hy : List.Forall₂ (fun x n => ArgDen b x (tr n)) ys g)
    (h : xs.map isId = ys.map isId) : List.Forall₂ (ArgRel (Same a b)) xs ys := by
  induction hx generalizing ys with
  | nil => cases hy; exact .nil
  | @cons x n xs g h1 _ ih =>
    cases hy with
    | @cons y _ ys _ h2 hy =>
      simp only [List.map_cons, List.cons.injEq] at h
      refine .cons ?_ (ih hy h.2)
      cases x with
      | id i =>
        cases y with
        | id j => exact .id ⟨_, h1, h2⟩
        | node d => exact absurd h.1 (by simp [isId])
      | node c =>
        cases y with
        | id j => exact absurd h.1 (by simp [isId])
        | node d => exact .node (den_rel h1 h2)

theorem job_starting (e : Env I H) : ∃ need : Client I F H O → Store (Node I) (Closet I F) → Nat,
    ∀ fuel : Client I F H O → Store (Node I) (Closet I F) → Nat, (∀ cl g, need cl g ≤ fuel cl g) →
      Starting (jobStarts e fuel) (fun q => Post (q.client.alone e q.values)) false true := by
  choose need hn using client_outcome (I := I) (F := F) (O := O) e
  refine ⟨need, fun fuel hf => ⟨?_, ?_, fun q => post_stable _, ?_⟩⟩
  · rintro q a b p ⟨s, h, hi, rfl⟩ e
    exact ⟨s, h.mono e, hi, rfl⟩
  · rintro q a p ⟨s, h, hi, rfl⟩ hI _
    exact hn _ _ _ (hf _ _) a s hI h
  · rintro q a b p p' ⟨s, h, hi, rfl⟩ ⟨s', h', hi', rfl⟩ ea eb
    refine client_alike (same_pairing ea eb (by decide)) e _ _ ⟨args_rel h.1 h'.1 (hi.trans hi'.symm), ?_⟩
    have h2 := h.2
    have h2' := h'.2
    generalize q.values.closets = g at h2 h2'
    generalize s.closets = cs at h2 ⊢
    generalize s'.closets = cs' at h2' ⊢
    induction h2 generalizing cs' with
    | nil => cases h2'; exact .nil
    | cons hx _ ih =>
      cases h2' with
      | cons hy h' => exact .cons ⟨den_rel hx.2.2 hy.2.2, hx.1.trans hy.1.symm, hx.2.1.trans hy.2.1.symm⟩ (ih _ h')

theorem process_made (e : Env I H) : ∃ need : Client I F H O → Store (Node I) (Closet I F) → Nat,
    ∀ fuel : Client I F H O → Store (Node I) (Closet I F) → Nat, (∀ cl g, need cl g ≤ fuel cl g) → ∀ m log,
      Process e fuel m log → Made false true (jobStarts e fuel) m log := by
  obtain ⟨need, hn⟩ := world_ok (I := I) (F := F) (O := O) e
  refine ⟨need, fun fuel hf m log h => ?_⟩
  suffices hs : Made false true (jobStarts e fuel) m log ∧
      World.Run e need ⟨m, fun t => (log t).bind fun q => q.client.alone e q.values⟩ from hs.1
  induction h with
  | boot => exact ⟨.boot, .boot _⟩
  | step _ hs ih => exact ⟨ih.1.step hs, ih.2.step hs⟩
  | @client m log t cl ns cs s g _ hlog hs hg ih =>
    have hk : (fun t => ((log t).bind fun q => q.client.alone e q.values).map Prod.fst) = keptBy e log := by
      funext t
      simp only [keptBy]
      cases log t <;> rfl
    have hg' : pick (fun t => ((log t).bind fun q => q.client.alone e q.values).map Prod.fst) ns cs = some g := by
      rw [hk]; exact hg
    have hh := pick_den (hn _ ih.2) hs hg'
    refine ⟨.start t ⟨cl, g, s.nodes.map isId⟩ _ ih.1 hlog ⟨s, hh, rfl, rfl⟩, ?_⟩
    have upd : (fun t' => (Function.update log t (some (⟨cl, g, s.nodes.map isId⟩ : Job I F H O)) t').bind
          fun q => q.client.alone e q.values) =
        Function.update (fun t => (log t).bind fun q => q.client.alone e q.values) t (cl.alone e g) := by
      funext t'
      by_cases ht : t' = t
      · subst ht; simp
      · simp [Function.update_of_ne ht]
    rw [upd]
    cases hr : cl.alone e g with
    | none => exact ih.2.other t _
    | some r => exact ih.2.client t cl ns cs s g r (fuel cl g) hs hg' hr (hf cl g)

/-- C98, for clients that may panic: under every schedule a client's thread panics only if the client panics in a
process of its own; one that finishes does so only if the client finishes alone, with the same output, holding as
much; and at every moment it can come to its end, the same as alone, while all others stand still. -/
theorem clients_exact (e : Env I H) : ∃ need : Client I F H O → Store (Node I) (Closet I F) → Nat,
    ∀ fuel : Client I F H O → Store (Node I) (Closet I F) → Nat, (∀ cl g, need cl g ≤ fuel cl g) →
    ∀ m log, Process e fuel m log → ∀ t q, log t = some q →
      (m.threads t = .panicked → q.client.alone e q.values = none) ∧
      (∀ s o, m.threads t = .run (.ret (s, o)) → ∃ g, q.client.alone e q.values = some (g, o) ∧
        s.nodes.length = g.nodes.length ∧ s.closets.length = g.closets.length) ∧
      ∃ m', Process e fuel m' log ∧ MRun m m' ∧ (∀ s, s ≠ t → m'.threads s = m.threads s) ∧
        (q.client.alone e q.values = none → m'.threads t = .panicked) ∧
        ∀ g o, q.client.alone e q.values = some (g, o) → ∃ s, m'.threads t = .run (.ret (s, o)) := by
  obtain ⟨n1, h1⟩ := job_starting (I := I) (F := F) (O := O) e
  obtain ⟨n2, h2⟩ := process_made (I := I) (F := F) (O := O) e
  refine ⟨fun cl g => n1 cl g + n2 cl g, fun fuel hf m log hp t q ht => ?_⟩
  have hS := h1 fuel fun cl g => le_trans (Nat.le_add_right _ _) (hf cl g)
  have hk := made_known hS (by decide) (h2 fuel (fun cl g => le_trans (Nat.le_add_left _ _) (hf cl g)) m log hp)
  have hw := (hk.runs t q ht).1
  refine ⟨fun ep => ?_, fun s o er => ?_, ?_⟩
  · rw [ep] at hw
    cases ho : q.client.alone e q.values with
    | none => rfl
    | some p => rw [ho] at hw; exact hw.elim
  · rw [er] at hw
    cases ho : q.client.alone e q.values with
    | none => rw [ho] at hw; exact hw.elim
    | some p =>
      rw [ho] at hw
      obtain ⟨g, o'⟩ := p
      have h3 : o = o' := hw.2
      exact ⟨g, by rw [h3], hw.1.1.length_eq, hw.1.2.length_eq⟩
  · obtain ⟨m', r, hs, hx⟩ := outcome_finish (t := t) (hS.stable q) hk.sound.toInv hw
    have hp' : Process e fuel m' log := by
      clear hx hs hw hk ht
      induction r with
      | nil => exact hp
      | cons h1 _ ih => exact ih (hp.step h1)
    refine ⟨m', hp', r, hs, fun eo => ?_, fun g o eo => ?_⟩
    · rcases hx with hx | ⟨x, _, hx⟩
      · exact hx.1
      · rw [eo] at hx; exact hx.elim
    · rcases hx with hx | ⟨⟨s, o'⟩, h3, hx⟩
      · have := hx.2; rw [eo] at this; exact this.elim
      · rw [eo] at hx
        exact ⟨s, by rw [h3, show o' = o from hx.2]⟩

/-- C108, nodes and closets: every client, handed given nodes and closets, has a set of diagrams it leaves in the
arena.  At every moment of every process, whichever clients were started when and handed what, the arena holds all
that the ended clients leave, and besides the two leaves nothing that the started clients do not. -/
theorem clients_leave (e : Env I H) : ∃ need : Client I F H O → Store (Node I) (Closet I F) → Nat,
    ∀ fuel : Client I F H O → Store (Node I) (Closet I F) → Nat, (∀ cl g, need cl g ≤ fuel cl g) →
    ∃ leaves : Job I F H O → Set (Tr I Bool), ∀ m log, Process e fuel m log →
      (∀ t q, log t = some q → Ended (m.threads t) → leaves q ⊆ diagrams m.arena) ∧
      diagrams m.arena ⊆ {.leaf false, .leaf true} ∪ {d | ∃ t q, log t = some q ∧ d ∈ leaves q} := by
  obtain ⟨n1, h1⟩ := job_starting (I := I) (F := F) (O := O) e
  obtain ⟨n2, h2⟩ := process_made (I := I) (F := F) (O := O) e
  refine ⟨fun cl g => n1 cl g + n2 cl g, fun fuel hf => ⟨footprint (jobStarts e fuel) false true, fun m log hp => ?_⟩⟩
  have hS := h1 fuel fun cl g => le_trans (Nat.le_add_right _ _) (hf cl g)
  exact made_memory hS (by decide) (h2 fuel (fun cl g => le_trans (Nat.le_add_left _ _) (hf cl g)) m log hp)

/-- C108, nodes and closets: a process in which every client of another one was started with the same nodes and
closets, in whichever order and on whichever thread, and has ended, holds every diagram the other one holds, and no
fewer nodes. -/
theorem clients_within (e : Env I H) : ∃ need : Client I F H O → Store (Node I) (Closet I F) → Nat,
    ∀ fuel : Client I F H O → Store (Node I) (Closet I F) → Nat, (∀ cl g, need cl g ≤ fuel cl g) →
    ∀ m log m' log', Process e fuel m log → Process e fuel m' log' →
      (∀ t q, log t = some q → ∃ t', log' t' = some q ∧ Ended (m'.threads t')) →
      diagrams m.arena ⊆ diagrams m'.arena ∧ m.arena.nodes.length ≤ m'.arena.nodes.length := by
  obtain ⟨n1, h1⟩ := job_starting (I := I) (F := F) (O := O) e
  obtain ⟨n2, h2⟩ := process_made (I := I) (F := F) (O := O) e
  refine ⟨fun cl g => n1 cl g + n2 cl g, fun fuel hf m log m' log' hp hp' hd => ?_⟩
  have hS := h1 fuel fun cl g => le_trans (Nat.le_add_right _ _) (hf cl g)
  exact made_same hS (by decide) (h2 fuel (fun cl g => le_trans (Nat.le_add_left _ _) (hf cl g)) m log hp)
    (h2 fuel (fun cl g => le_trans (Nat.le_add_left _ _) (hf cl g)) m' log' hp') hd

/-- C108, nodes and closets: what the arena holds when all clients have ended depends only on which clients were
started with which nodes and closets. -/
theorem clients_same (e : Env I H) : ∃ need : Client I F H O → Store (Node I) (Closet I F) → Nat,
    ∀ fuel : Client I F H O → Store (Node I) (Closet I F) → Nat, (∀ cl g, need cl g ≤ fuel cl g) →
    ∀ m log m' log', Process e fuel m log → Process e fuel m' log' →
      {q | ∃ t, log t = some q} = {q | ∃ t, log' t = some q} →
      (∀ t, Ended (m.threads t)) → (∀ t, Ended (m'.threads t)) →
      diagrams m.arena = diagrams m'.arena ∧ m.arena.nodes.length = m'.arena.nodes.length := by
  obtain ⟨need, h⟩ := clients_within (I := I) (F := F) (O := O) e
  refine ⟨need, fun fuel hf m log m' log' hp hp' hq he he' => ?_⟩
  have a := h fuel hf m log m' log' hp hp' fun t q ht => by
    have : q ∈ {q | ∃ t, log' t = some q} := hq ▸ ⟨t, ht⟩
    obtain ⟨t', ht'⟩ := this
    exact ⟨t', ht', he' t'⟩
  have b := h fuel hf m' log' m log hp' hp fun t q ht => by
    have : q ∈ {q | ∃ t, log t = some q} := hq ▸ ⟨t, ht⟩
    obtain ⟨t', ht'⟩ := this
    exact ⟨t', ht', he t'⟩
  exact ⟨a.1.antisymm b.1, le_antisymm a.2 b.2⟩

/-- A client that reads a node whose only depth stands for no item.
Not code: used to state or prove properties. -/
def misreader : Client Nat Nat Nat (Reply Nat Nat Nat) :=
  .call (.loadNode (.Available 3 (.Outcome true) (.Outcome false), [])) fun r => .ends r

/-- Not vacuous: a process in which thread 0 builds a closet, thread 1 gets it, writes it and reads it back, and thread
2 panics on data in which a depth stands for no item, and one in which thread 7 panics first, thread 5 builds the closet
and thread 3 copies it.  Both hold the same diagrams in the end. -/
example (e : Env Nat Nat) : ∃ fuel m log m' log', ∃ c : Closet Nat Nat,
    Process (O := Reply Nat Nat Nat) e fuel m log ∧ Process e fuel m' log' ∧
      (ClosetBuilder.run demo).build = .ok c ∧ log 1 = some ⟨checker, ⟨[], [c]⟩, []⟩ ∧ log' 1 = none ∧
      log' 3 = some ⟨checker, ⟨[], [c]⟩, []⟩ ∧ m.threads 2 = .panicked ∧ log 2 = some ⟨misreader, ⟨[], []⟩, []⟩ ∧
      (∃ s, m'.threads 3 = .run (.ret (s, .same true))) ∧
      {q | ∃ t, log t = some q} = {q | ∃ t, log' t = some q} ∧
      (∀ t, Ended (m.threads t)) ∧ (∀ t, Ended (m'.threads t)) ∧
      diagrams m.arena = diagrams m'.arena ∧ m.arena.nodes.length = m'.arena.nodes.length := by
  obtain ⟨n1, h1⟩ := clients_exact (I := Nat) (F := Nat) (O := Reply Nat Nat Nat) e
  obtain ⟨n2, h2⟩ := clients_same (I := Nat) (F := Nat) (O := Reply Nat Nat Nat) e
  let fuel := fun cl g => n1 cl g + n2 cl g
  have f1 : ∀ cl g, n1 cl g ≤ fuel cl g := fun _ _ => Nat.le_add_right _ _
  have f2 : ∀ cl g, n2 cl g ≤ fuel cl g := fun _ _ => Nat.le_add_left _ _
  obtain ⟨c, hc⟩ := (build_validates demo).1.1 demo_legal
  have a0 : builder.alone e ⟨[], []⟩ = some (⟨[], [c]⟩, .done) := by
    simp [builder, Client.alone, Op.alone, hc, Store.closet]
  have a1 : checker.alone e ⟨[], [c]⟩ = some (⟨[], [c, c]⟩, .same true) := by
    have := closet_roundtrip demo [] c ⟨c, hc, rfl⟩
    simp [checker, Client.alone, Op.alone, this, Store.closet]
  have a2 : misreader.alone e ⟨[], []⟩ = none := rfl
  have spawn : ∀ m log, Process (O := Reply Nat Nat Nat) e fuel m log → ∀ t cl ns cs s g, log t = none →
      pick (held m) ns cs = some s → pick (keptBy e log) ns cs = some g → ∃ m',
        Process e fuel m' (Function.update log t (some ⟨cl, g, s.nodes.map isId⟩)) ∧
        (∀ u, u ≠ t → m'.threads u = m.threads u) ∧ (cl.alone e g = none → m'.threads t = .panicked) ∧
        ∀ g' o, cl.alone e g = some (g', o) → ∃ s', m'.threads t = .run (.ret (s', o)) ∧
          s'.closets.length = g'.closets.length := by
    intro m log hp t cl ns cs s g ht hs hg
    have hp1 := Process.client t cl ns cs s g hp ht hs hg
    have hlog : Function.update log t (some (⟨cl, g, s.nodes.map isId⟩ : Job Nat Nat Nat (Reply Nat Nat Nat))) t =
      some ⟨cl, g, s.nodes.map isId⟩ := by simp
    obtain ⟨m', p', _, k', pa, fi⟩ := (h1 fuel f1 _ _ hp1 t _ hlog).2.2
    refine ⟨m', p', fun u hu => ?_, pa, fun g' o eo => ?_⟩
    · rw [k' u hu]; exact Function.update_of_ne hu _ _
    · obtain ⟨s', es⟩ := fi g' o eo
      obtain ⟨g2, e2, _, e3⟩ := (h1 fuel f1 _ _ p' t _ hlog).2.1 s' o es
      cases e2.symm.trans eo
      exact ⟨s', es, e3⟩
  have boot := Process.boot (I := Nat) (F := Nat) (O := Reply Nat Nat Nat) (e := e) (fuel := fuel)
  obtain ⟨m1, p1, k1, -, e1⟩ := spawn _ _ boot 0 builder [] [] ⟨[], []⟩ ⟨[], []⟩ rfl rfl rfl
  obtain ⟨⟨ns1, cs1⟩, e1, l1⟩ := e1 _ _ a0
  obtain ⟨x, rfl⟩ := List.length_eq_one_iff.1 l1
  obtain ⟨m2, p2, k2, -, e2⟩ := spawn _ _ p1 1 checker [] [(0, 0)] ⟨[], [x]⟩ ⟨[], [c]⟩ rfl
    (by simp only [pick, held, List.mapM_cons, List.mapM_nil, e1]; rfl) (by simp [pick, keptBy, a0])
  obtain ⟨s2, e2, -⟩ := e2 _ _ a1
  obtain ⟨m3, p3, k3, e3, -⟩ := spawn _ _ p2 2 misreader [] [] ⟨[], []⟩ ⟨[], []⟩ rfl rfl rfl
  obtain ⟨m4, p4, k4, e4, -⟩ := spawn _ _ boot 7 misreader [] [] ⟨[], []⟩ ⟨[], []⟩ rfl rfl rfl
  obtain ⟨m5, p5, k5, -, e5⟩ := spawn _ _ p4 5 builder [] [] ⟨[], []⟩ ⟨[], []⟩ rfl rfl rfl
  obtain ⟨⟨ns5, cs5⟩, e5, l5⟩ := e5 _ _ a0
  obtain ⟨y, rfl⟩ := List.length_eq_one_iff.1 l5
  obtain ⟨m6, p6, k6, -, e6⟩ := spawn _ _ p5 3 checker [] [(5, 0)] ⟨[], [y]⟩ ⟨[], [c]⟩ rfl
    (by simp only [pick, held, List.mapM_cons, List.mapM_nil, e5]; rfl) (by simp [pick, keptBy, a0])
  obtain ⟨s6, e6, -⟩ := e6 _ _ a1
  have he : ∀ t, Ended (m3.threads t) := by
    intro t
    by_cases t2 : t = 2
    · rw [t2]; exact .inl (e3 a2)
    rw [k3 t t2]
    by_cases t1 : t = 1
    · rw [t1]; exact .inr ⟨_, e2⟩
    rw [k2 t t1]
    by_cases t0 : t = 0
    · rw [t0]; exact .inr ⟨_, e1⟩
    rw [k1 t t0]
    exact .inl rfl
  have he' : ∀ t, Ended (m6.threads t) := by
    intro t
    by_cases t2 : t = 3
    · rw [t2]; exact .inr ⟨_, e6⟩
    rw [k6 t t2]
    by_cases t1 : t = 5
    · rw [t1]; exact .inr ⟨_, e5⟩
    rw [k5 t t1]
    by_cases t0 : t = 7
    · rw [t0]; exact .inl (e4 a2)
    rw [k4 t t0]
    exact .inl rfl
  have hq := started_eq (q := (⟨builder, ⟨[], []⟩, []⟩ : Job Nat Nat Nat (Reply Nat Nat Nat)))
    (r := ⟨checker, ⟨[], [c]⟩, []⟩) (s := ⟨misreader, ⟨[], []⟩, []⟩)
  exact ⟨fuel, m3, _, m6, _, c, p3, p6, hc, rfl, rfl, rfl, e3 a2, rfl, ⟨s6, e6⟩, hq, he, he',
    h2 fuel f2 _ _ _ _ p3 p6 hq he he'⟩

end Verif.ArenaBdd
