import Verif.ArenaRogue
import Verif.Debug
import Verif.Bdd.Handmade
import Verif.Bdd.NodeSerde

/-!
# Clients of the whole node and closet API next to other threads (C98)

A client here decides each next call from the answers it got so far, keeps any number of nodes and closets, and may
use every public operation of bowtie-core/src/bdd: making and combining nodes by hand, building, selecting,
completing, counting, hashing, printing, comparing, serializing and reading back.
Order and `Hash` of nodes are left out: they do depend on the other threads (C78).
-/

set_option linter.unusedSimpArgs false
set_option linter.unusedSectionVars false
set_option linter.unusedVariables false

namespace Verif.ArenaBdd
open Verif Verif.Arena Verif.Bdd Verif.Bdd.Spec Verif.Debug

universe u v w w' x
variable {I : Type u} [LinearOrder I] {α : Type w} {β : Type w'}

/-! ## The remaining operations as programs over the arena -/

/-- The common part of the recursions of bowtie-core/src/bdd/closet/node_count.rs:13-18, 29-34, 45-50, 61-65 and
bowtie-core/src/bdd/node/hash_structure.rs:14-21: load both children, then recurse on the low and on the
high one. -/
def bothP (rec : C I → Prog I Bool α) (low high : Nat) (k : α → α → Prog I Bool β) : Prog I Bool β :=
  .load low fun low => .load high fun high =>
  (rec low).bind fun x => (rec high).bind fun y => k x y

/-- bowtie-core/src/bdd/closet/node_count.rs:10-20 -/
def nodeCountP : Nat → C I → Prog I Bool Nat
  | 0, _ => .spin
  | _ + 1, .leaf _ => .ret 1
  | f + 1, .branch _ low high => bothP (nodeCountP f) low high fun x y => .ret (1 + x + y)

/-- bowtie-core/src/bdd/closet/node_count.rs:26-36 -/
def leafCountP : Nat → C I → Prog I Bool Nat
  | 0, _ => .spin
  | _ + 1, .leaf _ => .ret 1
  | f + 1, .branch _ low high => bothP (leafCountP f) low high fun x y => .ret (x + y)

/-- bowtie-core/src/bdd/closet/node_count.rs:42-52 (`u64` arithmetic modelled by `Nat`) -/
def outfitCountP : Nat → C I → Prog I Bool Nat
  | 0, _ => .spin
  | _ + 1, .leaf val => .ret (if val then 1 else 0)
  | f + 1, .branch _ low high => bothP (outfitCountP f) low high fun x y => .ret (x + y)

/-- bowtie-core/src/bdd/closet/node_count.rs:58-74 -/
def depthP : Nat → C I → Prog I Bool Nat
  | 0, _ => .spin
  | _ + 1, .leaf _ => .ret 1
  | f + 1, .branch _ low high => bothP (depthP f) low high fun x y => .ret (if x < y then 1 + y else 1 + x)

/-- bowtie-core/src/bdd/node/hash_structure.rs:6-26; the hasher is a parameter as in `Bdd.hashStructure`. -/
def hashStructureP {H : Type x} (leaf : Bool → H) (pair : H → H → H) : Nat → C I → Prog I Bool H
  | 0, _ => .spin
  | _ + 1, .leaf b => .ret (leaf b)
  | f + 1, .branch _ low high => bothP (hashStructureP leaf pair f) low high fun x y => .ret (pair x y)

/-- `fmt_inner`, bowtie-core/src/bdd/node/mod.rs:28-42 -/
def fmtInnerP (dbg : I → List Char) : Nat → Nat → C I → Prog I Bool (List Char)
  | 0, _, _ => .spin
  | _ + 1, _, .leaf val => .ret (['|', ' '] ++ boolText val)
  | f + 1, indent, .branch id low high =>
    .load low fun low => (fmtInnerP dbg f (indent + 1) low).bind fun low =>
    .load high fun high => (fmtInnerP dbg f (indent + 1) high).bind fun high =>
    .ret (['|', ' '] ++ dbg id ++ [':', '\n'] ++ bars indent ++ low ++ ['\n'] ++ bars indent ++ high)

/-- `to_structure`, bowtie-core/src/bdd/node/structure.rs:46-66 -/
def toStructureP : Nat → C I → Nat → Prog I Bool Structure
  | 0, _, _ => .spin
  | _ + 1, .leaf val, _ => .ret (.Outcome val)
  | f + 1, .branch _ low high, depth =>
    .load low fun low => (toStructureP f low (depth + 1)).bind fun low =>
    .load high fun high => (toStructureP f high (depth + 1)).bind fun high =>
    .ret (if .Outcome false = low then .Required depth high
      else if .Outcome false = high then .Excluded depth low
      else .Available depth low high)

/-- `to_content`, bowtie-core/src/bdd/node/structure.rs:84-94 -/
def toContentP : Nat → C I → List (Nat × I) → Nat → Prog I Bool (List (Nat × I))
  | 0, _, _, _ => .spin
  | _ + 1, .leaf _, content, _ => .ret content
  | f + 1, .branch id low high, content, depth =>
    .load low fun low => (toContentP f low (insertKV depth id content) (depth + 1)).bind fun content =>
    .load high fun high => toContentP f high content (depth + 1)

/-- `to_node`, bowtie-core/src/bdd/node/structure.rs:102-128; a missing depth is the panic of `expect`. -/
def toNodeP : Structure → List (Nat × I) → P I
  | .Outcome true, _ => .ret (.leaf true)
  | .Outcome false, _ => .ret (.leaf false)
  | .Required depth high, content =>
    match lookup depth content with
    | none => .panic
    | some item => (toNodeP high content).bind fun high => branchP item (.node (.leaf false)) (.node high)
  | .Excluded depth low, content =>
    match lookup depth content with
    | none => .panic
    | some item => (toNodeP low content).bind fun low => branchP item (.node low) (.node (.leaf false))
  | .Available depth low high, content =>
    match lookup depth content with
    | none => .panic
    | some item => (toNodeP low content).bind fun low => (toNodeP high content).bind fun high =>
      branchP item (.node low) (.node high)

/-- bowtie-core/src/bdd/node/serialize.rs:8-18 -/
def serializeNodeP (f : Nat) (c : C I) : Prog I Bool (Structure × List (Nat × I)) :=
  (toStructureP f c 0).bind fun s => (toContentP f c [] 0).bind fun t => .ret (s, t)

/-! ## They compute what the sequential model says -/

/-- A query of one node.  Not code: used to state or prove properties. -/
def QOk (op : Nat → C I → Prog I Bool α) (n : Node I) (res : α) : Prop :=
  ∃ K, ∀ f ≥ K, ∀ (a : Arena I Bool) (c : C I), a.Inv → CellDen a c (tr n) → Yields (op f c) a (fun _ r => r = res)

theorem both_ok {op : Nat → C I → Prog I Bool α} {id : I} {l h : Node I} {x y z : α}
    {g : I → α → α → α} (h0 : ∀ f id lo hi, op (f + 1) (.branch id lo hi) = bothP (op f) lo hi fun x y => .ret (g id x y))
    (hl : QOk op l x) (hh : QOk op h y) (hz : g id x y = z) : QOk op (.Branch id l h) z := by
  obtain ⟨F1, h1⟩ := hl
  obtain ⟨F2, h2⟩ := hh
  refine ⟨F1 + F2 + 1, fun f hf a c hI hc => ?_⟩
  obtain ⟨f, rfl⟩ : ∃ g, f = g + 1 := ⟨f - 1, by omega⟩
  obtain ⟨lo, hi, rfl, ul, uh⟩ := hc.branch_inv
  rw [h0]
  refine yields_load ul fun b1 c1 e1 d1 => yields_load (uh.mono e1) fun b2 c2 e2 d2 => ?_
  refine yields_bind (h1 f (by omega) b2 c1 e2.right (d1.mono e2)) fun b3 r1 e3 q1 => ?_
  refine yields_bind (h2 f (by omega) b3 c2 e3.right (d2.mono e3)) fun b4 r2 e4 q2 => ?_
  exact Yields.ret e4.right (by rw [q1, q2]; exact hz)

theorem leaf_ok {op : Nat → C I → Prog I Bool α} {b : Bool} {z : α} (h0 : ∀ f, op (f + 1) (.leaf b) = .ret z) :
    QOk op (.Leaf b) z := by
  refine ⟨1, fun f hf a c hI hc => ?_⟩
  obtain ⟨f, rfl⟩ : ∃ g, f = g + 1 := ⟨f - 1, by omega⟩
  obtain rfl := hc.leaf_inv
  rw [h0]
  exact Yields.ret hI rfl

theorem nodeCount_ok (n : Node I) : QOk nodeCountP n n.nodeCount := by
  induction n with
  | Leaf b => exact leaf_ok fun _ => rfl
  | Branch i l h ihl ihh => exact both_ok (g := fun _ x y => 1 + x + y) (fun _ _ _ _ => rfl) ihl ihh rfl

theorem leafCount_ok (n : Node I) : QOk leafCountP n n.leafCount := by
  induction n with
  | Leaf b => exact leaf_ok fun _ => rfl
  | Branch i l h ihl ihh => exact both_ok (g := fun _ x y => x + y) (fun _ _ _ _ => rfl) ihl ihh rfl

theorem outfitCount_ok (n : Node I) : QOk outfitCountP n n.outfitCount := by
  induction n with
  | Leaf b => exact leaf_ok fun _ => rfl
  | Branch i l h ihl ihh => exact both_ok (g := fun _ x y => x + y) (fun _ _ _ _ => rfl) ihl ihh rfl

theorem depth_ok (n : Node I) : QOk depthP n n.depth := by
  induction n with
  | Leaf b => exact leaf_ok fun _ => rfl
  | Branch i l h ihl ihh =>
    exact both_ok (g := fun _ x y => if x < y then 1 + y else 1 + x) (fun _ _ _ _ => rfl) ihl ihh rfl

theorem hash_ok {H : Type x} (leaf : Bool → H) (pair : H → H → H) (n : Node I) :
    QOk (hashStructureP leaf pair) n (hashStructure leaf pair n) := by
  induction n with
  | Leaf b => exact leaf_ok fun _ => rfl
  | Branch i l h ihl ihh => exact both_ok (g := fun _ x y => pair x y) (fun _ _ _ _ => rfl) ihl ihh rfl

theorem fmtInner_ok (dbg : I → List Char) (n : Node I) (d : Nat) :
    QOk (fun f c => fmtInnerP dbg f d c) n (bddInner dbg d n) := by
  induction n generalizing d with
  | Leaf b => exact leaf_ok fun _ => rfl
  | Branch i l h ihl ihh =>
    obtain ⟨F1, h1⟩ := ihl (d + 1)
    obtain ⟨F2, h2⟩ := ihh (d + 1)
    refine ⟨F1 + F2 + 1, fun f hf a c hI hc => ?_⟩
    obtain ⟨f, rfl⟩ : ∃ g, f = g + 1 := ⟨f - 1, by omega⟩
    obtain ⟨lo, hi, rfl, ul, uh⟩ := hc.branch_inv
    refine yields_load ul fun b1 c1 e1 d1 => ?_
    refine yields_bind (h1 f (by omega) b1 c1 e1.right d1) fun b2 r1 e2 q1 => ?_
    refine yields_load (uh.mono (e1.trans e2)) fun b3 c2 e3 d2 => ?_
    refine yields_bind (h2 f (by omega) b3 c2 e3.right d2) fun b4 r2 e4 q2 => ?_
    exact Yields.ret e4.right (by rw [q1, q2]; rfl)

theorem toStructure_ok (n : Node I) (d : Nat) : QOk (fun f c => toStructureP f c d) n (toStructure n d) := by
  induction n generalizing d with
  | Leaf b => exact leaf_ok fun _ => rfl
  | Branch i l h ihl ihh =>
    obtain ⟨F1, h1⟩ := ihl (d + 1)
    obtain ⟨F2, h2⟩ := ihh (d + 1)
    refine ⟨F1 + F2 + 1, fun f hf a c hI hc => ?_⟩
    obtain ⟨f, rfl⟩ : ∃ g, f = g + 1 := ⟨f - 1, by omega⟩
    obtain ⟨lo, hi, rfl, ul, uh⟩ := hc.branch_inv
    refine yields_load ul fun b1 c1 e1 d1 => ?_
    refine yields_bind (h1 f (by omega) b1 c1 e1.right d1) fun b2 r1 e2 q1 => ?_
    refine yields_load (uh.mono (e1.trans e2)) fun b3 c2 e3 d2 => ?_
    refine yields_bind (h2 f (by omega) b3 c2 e3.right d2) fun b4 r2 e4 q2 => ?_
    exact Yields.ret e4.right (by rw [q1, q2]; rfl)

theorem toContent_ok (n : Node I) (t : List (Nat × I)) (d : Nat) :
    QOk (fun f c => toContentP f c t d) n (toContent n t d) := by
  induction n generalizing t d with
  | Leaf b => exact leaf_ok fun _ => rfl
  | Branch i l h ihl ihh =>
    obtain ⟨F1, h1⟩ := ihl (insertKV d i t) (d + 1)
    obtain ⟨F2, h2⟩ := ihh (toContent l (insertKV d i t) (d + 1)) (d + 1)
    refine ⟨F1 + F2 + 1, fun f hf a c hI hc => ?_⟩
    obtain ⟨f, rfl⟩ : ∃ g, f = g + 1 := ⟨f - 1, by omega⟩
    obtain ⟨lo, hi, rfl, ul, uh⟩ := hc.branch_inv
    refine yields_load ul fun b1 c1 e1 d1 => ?_
    refine yields_bind (h1 f (by omega) b1 c1 e1.right d1) fun b2 r1 e2 q1 => ?_
    refine yields_load (uh.mono (e1.trans e2)) fun b3 c2 e3 d2 => ?_
    rw [q1]
    exact h2 f (by omega) b3 c2 e3.right d2

theorem serializeNode_ok (n : Node I) : QOk serializeNodeP n (serializeNode n) := by
  obtain ⟨F1, h1⟩ := toStructure_ok n 0
  obtain ⟨F2, h2⟩ := toContent_ok n [] 0
  refine ⟨F1 + F2, fun f hf a c hI hc => ?_⟩
  refine yields_bind (h1 f (by omega) a c hI hc) fun b1 s e1 q1 => ?_
  refine yields_bind (h2 f (by omega) b1 c e1.right (hc.mono e1)) fun b2 t e2 q2 => ?_
  exact Yields.ret e2.right (by rw [q1, q2]; rfl)

theorem toNode_ok (s : Structure) (t : List (Nat × I)) (n : Node I) (h : toNode s t = some n) (a : Arena I Bool)
    (hI : a.Inv) : Returns (toNodeP s t) a (tr n) := by
  induction s generalizing n a with
  | Outcome v => cases v <;> cases h <;> exact .ret hI rfl
  | Required d hi ih =>
    rw [toNode] at h
    rw [toNodeP]
    cases e : lookup d t with
    | none => rw [e] at h; cases h
    | some item =>
      rw [e] at h
      simp only [Option.map_eq_some_iff] at h
      obtain ⟨n', h', rfl⟩ := h
      refine returns_call (ih n' h' a hI) fun b1 c1 e1 d1 => ?_
      exact branch_ok (l := .Leaf false) e1.right (show CellDen b1 (.leaf false) (.leaf false) from rfl) d1
  | Excluded d lo ih =>
    rw [toNode] at h
    rw [toNodeP]
    cases e : lookup d t with
    | none => rw [e] at h; cases h
    | some item =>
      rw [e] at h
      simp only [Option.map_eq_some_iff] at h
      obtain ⟨n', h', rfl⟩ := h
      refine returns_call (ih n' h' a hI) fun b1 c1 e1 d1 => ?_
      exact branch_ok (h := .Leaf false) e1.right d1 (show CellDen b1 (.leaf false) (.leaf false) from rfl)
  | Available d lo hi ihl ihh =>
    rw [toNode] at h
    rw [toNodeP]
    cases e : lookup d t with
    | none => rw [e] at h; cases h
    | some item =>
      rw [e] at h
      dsimp only at h
      cases el : toNode lo t with
      | none => rw [el] at h; cases h
      | some l =>
        cases eh : toNode hi t with
        | none => rw [el, eh] at h; cases h
        | some r =>
          rw [el, eh] at h
          cases h
          refine returns_call (ihl l el a hI) fun b1 c1 e1 d1 => ?_
          refine returns_call (ihh r eh b1 e1.right) fun b2 c2 e2 d2 => ?_
          exact branch_ok e2.right (d1.mono e2) d2

/-! ## Clients -/

variable {F : Type v} [LinearOrder F] {H : Type x} {O : Type w}

/-- What the model leaves open: the hasher behind `hash_structure`
(bowtie-core/src/bdd/node/hash_structure.rs:8-12, 15-24) and `{:?}` of an item. -/
structure Env (I : Type u) (H : Type x) where
  leaf : Bool → H
  pair : H → H → H
  dbg : I → List Char

/-- The nodes (or node ids) and closets a client holds, each named by its position.
Not code: used to state or prove properties. -/
structure Store (N : Type w) (C : Type w') where
  nodes : List N
  closets : List C

/-- Not code: used to state or prove properties. -/
def Store.node {N : Type w} {C : Type w'} (s : Store N C) (n : N) : Store N C := ⟨s.nodes ++ [n], s.closets⟩

/-- Not code: used to state or prove properties. -/
def Store.closet {N : Type w} {C : Type w'} (s : Store N C) (c : C) : Store N C := ⟨s.nodes, s.closets ++ [c]⟩

/-- The calls of the public API of bowtie-core/src/bdd (numbers are positions in the client's `Store`):
bowtie-core/src/bdd/node/mod.rs:13-17, 44-91, bowtie-core/src/bdd/node/bit_operations.rs:22-116,
bowtie-core/src/bdd/node/reduce.rs:4, bowtie-core/src/bdd/node/restrict.rs:4, bowtie-core/src/bdd/node/summarize.rs:10,
bowtie-core/src/bdd/node/serialize.rs:8-74, bowtie-core/src/bdd/closet/mod.rs:12-44,
bowtie-core/src/bdd/closet_builder/mod.rs:73, bowtie-core/src/bdd/closet/select.rs:10,
bowtie-core/src/bdd/closet/complete_outfit.rs:13, bowtie-core/src/bdd/closet/node_count.rs:6-56. -/
inductive Op (I : Type u) (F : Type v) where
  | leaf (b : Bool)
  | branch (i : I) (low high : Nat)
  | positive (i : I)
  | negative (i : I)
  | or (m n : Nat)
  | and (m n : Nat)
  | xor (m n : Nat)
  | not (n : Nat)
  | reduce (n : Nat)
  | restrict (n : Nat) (i : I) (selected : Bool)
  | toId (n : Nat)
  | fromId (n : Nat)
  | inspect (n : Nat)
  | sameNode (m n : Nat)
  | summarize (n : Nat)
  | hashStructure (n : Nat)
  | debug (n : Nat)
  | saveNode (n : Nat)
  | loadNode (d : Structure × List (Nat × I))
  | build (calls : List (Call I F))
  | newCloset (index : List (I × F)) (n : Nat)
  | root (c : Nat)
  | look (c : Nat)
  | select (c : Nat) (i : I)
  | complete (c : Nat) (selections : List I)
  | counts (c : Nat)
  | sameCloset (c d : Nat)
  | saveCloset (c : Nat)
  | loadCloset (d : ClosetData I F)

/-- What a call answers; a new node or closet is put at the end of the store and answered by `done`, the fields of
a branch are answered by the item and the two ids put at the end of the store.
Not code: used to state or prove properties. -/
inductive Reply (I : Type u) (F : Type v) (H : Type x) where
  | done
  | leaf (b : Bool)
  | branch (i : I)
  | same (b : Bool)
  | statuses (l : List (Status I))
  | hash (h : H)
  | text (t : List Char)
  | nodeData (d : Structure × List (Nat × I))
  | buildFailed (e : BuilderError I F)
  | selectFailed (e : SelectItemError I)
  | outfit (o : Except (OutfitError I F) (List I))
  | seen (index : List (I × F)) (summary : List (Status I))
  | counts (nodes leaves outfits depth : Nat)
  | closetData (d : ClosetData I F)

/-- A client: it ends with an output, or makes a call and goes on depending on the answer.
Not code: used to state or prove properties. -/
inductive Client (I : Type u) (F : Type v) (H : Type x) (O : Type w) where
  | ends (o : O)
  | call (op : Op I F) (k : Reply I F H → Client I F H O)

/-- One call in a process of its own, over the sequential model; `none` is a panic: of the client (it names nothing
it holds) or of the library. Not code: used to state or prove properties. -/
def Op.alone (e : Env I H) (s : Store (Node I) (Closet I F)) :
    Op I F → Option (Store (Node I) (Closet I F) × Reply I F H)
  | .leaf b => some (s.node (.Leaf b), .done)
  | .branch i l h => s.nodes[l]?.bind fun l => s.nodes[h]?.bind fun h => some (s.node (.Branch i l h), .done)
  | .positive i => some (s.node (.Branch i (.Leaf false) (.Leaf true)), .done)
  | .negative i => some (s.node (.Branch i (.Leaf true) (.Leaf false)), .done)
  | .or m n => s.nodes[m]?.bind fun m => s.nodes[n]?.bind fun n => some (s.node (m.bitor n), .done)
  | .and m n => s.nodes[m]?.bind fun m => s.nodes[n]?.bind fun n => some (s.node (m.bitand n), .done)
  | .xor m n => s.nodes[m]?.bind fun m => s.nodes[n]?.bind fun n => some (s.node (m.bitxor n), .done)
  | .not n => s.nodes[n]?.bind fun n => some (s.node n.bitnot, .done)
  | .reduce n => s.nodes[n]?.bind fun n => some (s.node n.reduce, .done)
  | .restrict n i b => s.nodes[n]?.bind fun n => some (s.node (n.restrict i b), .done)
  | .toId n => s.nodes[n]?.bind fun n => some (s.node n, .done)
  | .fromId n => s.nodes[n]?.bind fun n => some (s.node n, .done)
  | .inspect n => s.nodes[n]?.bind fun
    | .Leaf b => some (s, .leaf b)
    | .Branch i l h => some ((s.node l).node h, .branch i)
  | .sameNode m n => s.nodes[m]?.bind fun m => s.nodes[n]?.bind fun n => some (s, .same (decide (m = n)))
  | .summarize n => s.nodes[n]?.bind fun n => some (s, .statuses (Bdd.summarize n))
  | .hashStructure n => s.nodes[n]?.bind fun n => some (s, .hash (Bdd.hashStructure e.leaf e.pair n))
  | .debug n => s.nodes[n]?.bind fun n => some (s, .text (bddDebug e.dbg n))
  | .saveNode n => s.nodes[n]?.bind fun n => some (s, .nodeData (serializeNode n))
  | .loadNode d => (deserializeNode d).bind fun n => some (s.node n, .done)
  | .build calls => match (ClosetBuilder.run calls).build with
    | .error e => some (s, .buildFailed e)
    | .ok c => some (s.closet c, .done)
  | .newCloset index n => s.nodes[n]?.bind fun n => some (s.closet (Closet.new index n), .done)
  | .root c => s.closets[c]?.bind fun c => some (s.node c.root, .done)
  | .look c => s.closets[c]?.bind fun c => some (s, .seen c.itemIndex c.summary)
  | .select c i => s.closets[c]?.bind fun c => match c.selectItem i with
    | .error e => some (s, .selectFailed e)
    | .ok c => some (s.closet c, .done)
  | .complete c sel => s.closets[c]?.bind fun c => (c.completeOutfit sel).bind fun o => some (s, .outfit o)
  | .counts c => s.closets[c]?.bind fun c =>
    some (s, .counts c.root.nodeCount c.root.leafCount c.root.outfitCount c.root.depth)
  | .sameCloset c d => s.closets[c]?.bind fun c => s.closets[d]?.bind fun d =>
    some (s, .same (decide (c.itemIndex = d.itemIndex) && decide (c.summary = d.summary) && decide (c.root = d.root)))
  | .saveCloset c => s.closets[c]?.bind fun c => some (s, .closetData (serializeCloset c))
  | .loadCloset d => (deserializeCloset d).bind fun c => some (s.closet c, .done)

/-- The client in a process of its own: what it holds at its end and its output; `none` is a panic.
Not code: used to state or prove properties. -/
def Client.alone (e : Env I H) : Client I F H O → Store (Node I) (Closet I F) →
    Option (Store (Node I) (Closet I F) × O)
  | .ends o, s => some (s, o)
  | .call op k, s => (op.alone e s).bind fun r => (k r.2).alone e r.1

/-- A client that names something it does not hold panics.  Not code: used to state or prove properties. -/
def need (o : Option α) (k : α → Prog I Bool β) : Prog I Bool β :=
  match o with
  | none => .panic
  | some x => k x

/-- `Node::from` on an id or a node: bowtie-core/src/bdd/node/mod.rs:74-90. -/
def fetch (x : Arg I Bool) (k : C I → Prog I Bool β) : Prog I Bool β :=
  match x with
  | .id i => .load i k
  | .node c => k c

/-- `==` on two ids or on two nodes: bowtie-core/src/bdd/node/mod.rs:13, 19. -/
def sameP (x y : Arg I Bool) (k : Bool → Prog I Bool β) : Prog I Bool β :=
  match x, y with
  | .id i, .id j => k (decide (i = j))
  | x, y => fetch x fun c => fetch y fun d => k (decide (c = d))

/-- Not code: used to state or prove properties. -/
abbrev StoreC (I : Type u) (F : Type v) := Store (Arg I Bool) (ClosetC I F)

/-- The same call as a program over the shared arena: bowtie-core/src/bdd/node/mod.rs:13-17, 44-91,
bowtie-core/src/bdd/closet/mod.rs:12-44 and the functions cited at the programs used. -/
def opP (e : Env I H) (f : Nat) (s : StoreC I F) : Op I F → Prog I Bool (StoreC I F × Reply I F H)
  | .leaf b => .ret (s.node (.node (.leaf b)), .done)
  | .branch i l h => need s.nodes[l]? fun l => need s.nodes[h]? fun h =>
    (branchP i l h).bind fun c => .ret (s.node (.node c), .done)
  | .positive i => (positiveBranchP i).bind fun c => .ret (s.node (.node c), .done)
  | .negative i => (negativeBranchP i).bind fun c => .ret (s.node (.node c), .done)
  | .or m n => need s.nodes[m]? fun m => need s.nodes[n]? fun n => fetch m fun m => fetch n fun n =>
    (bitorP f m n).bind fun c => .ret (s.node (.node c), .done)
  | .and m n => need s.nodes[m]? fun m => need s.nodes[n]? fun n => fetch m fun m => fetch n fun n =>
    (bitandP f m n).bind fun c => .ret (s.node (.node c), .done)
  | .xor m n => need s.nodes[m]? fun m => need s.nodes[n]? fun n => fetch m fun m => fetch n fun n =>
    (bitxorP f m n).bind fun c => .ret (s.node (.node c), .done)
  | .not n => need s.nodes[n]? fun n => fetch n fun n => (bitnotP n).bind fun c => .ret (s.node (.node c), .done)
  | .reduce n => need s.nodes[n]? fun n => fetch n fun n => (reduceP f n).bind fun c => .ret (s.node (.node c), .done)
  | .restrict n i b => need s.nodes[n]? fun n => fetch n fun n =>
    (restrictP f n i b).bind fun c => .ret (s.node (.node c), .done)
  | .toId n => need s.nodes[n]? fun n => n.into fun i => .ret (s.node (.id i), .done)
  | .fromId n => need s.nodes[n]? fun n => fetch n fun c => .ret (s.node (.node c), .done)
  | .inspect n => need s.nodes[n]? fun n => fetch n fun
    | .leaf b => .ret (s, .leaf b)
    | .branch i l h => .ret ((s.node (.id l)).node (.id h), .branch i)
  | .sameNode m n => need s.nodes[m]? fun m => need s.nodes[n]? fun n => sameP m n fun b => .ret (s, .same b)
  | .summarize n => need s.nodes[n]? fun n => fetch n fun n => (summarizeP f n).bind fun l => .ret (s, .statuses l)
  | .hashStructure n => need s.nodes[n]? fun n => fetch n fun n =>
    (hashStructureP e.leaf e.pair f n).bind fun h => .ret (s, .hash h)
  | .debug n => need s.nodes[n]? fun n => fetch n fun n =>
    (fmtInnerP e.dbg f 1 n).bind fun t => .ret (s, .text ('\n' :: t))
  | .saveNode n => need s.nodes[n]? fun n => fetch n fun n => (serializeNodeP f n).bind fun d => .ret (s, .nodeData d)
  | .loadNode d => (toNodeP d.1 d.2).bind fun c => .ret (s.node (.node c), .done)
  | .build calls => (buildP f (ClosetBuilder.run calls)).bind fun
    | .error e => .ret (s, .buildFailed e)
    | .ok c => .ret (s.closet c, .done)
  | .newCloset index n => need s.nodes[n]? fun n => fetch n fun n =>
    (newP f index n).bind fun c => .ret (s.closet c, .done)
  | .root c => need s.closets[c]? fun c => .ret (s.node (.node c.root), .done)
  | .look c => need s.closets[c]? fun c => .ret (s, .seen c.itemIndex c.summary)
  | .select c i => need s.closets[c]? fun c => (selectItemP f c i).bind fun
    | .error e => .ret (s, .selectFailed e)
    | .ok c => .ret (s.closet c, .done)
  | .complete c sel => need s.closets[c]? fun c => (completeP f c sel).bind fun o => .ret (s, .outfit o)
  | .counts c => need s.closets[c]? fun c => (nodeCountP f c.root).bind fun n => (leafCountP f c.root).bind fun l =>
    (outfitCountP f c.root).bind fun o => (depthP f c.root).bind fun d => .ret (s, .counts n l o d)
  | .sameCloset c d => need s.closets[c]? fun c => need s.closets[d]? fun d =>
    .ret (s, .same (decide (c.itemIndex = d.itemIndex) && decide (c.summary = d.summary) && decide (c.root = d.root)))
  | .saveCloset c => need s.closets[c]? fun c =>
    (serializeNodeP f c.root).bind fun r => .ret (s, .closetData ⟨c.itemIndex, c.summary, r⟩)
  | .loadCloset d => (toNodeP d.root.1 d.root.2).bind fun r => .ret (s.closet ⟨d.itemIndex, d.summary, r⟩, .done)

/-- The client as a thread over the shared arena.  Not code: used to state or prove properties. -/
def clientP (e : Env I H) (f : Nat) : Client I F H O → StoreC I F → Prog I Bool (StoreC I F × O)
  | .ends o, s => .ret (s, o)
  | .call op k, s => (opP e f s op).bind fun r => clientP e f (k r.2) r.1

/-- What a thread holds stands for what the sequential client holds.  Not code: used to state or prove properties. -/
def StoreDen (g : Store (Node I) (Closet I F)) (a : Arena I Bool) (s : StoreC I F) : Prop :=
  List.Forall₂ (fun x n => ArgDen a x (tr n)) s.nodes g.nodes ∧
  List.Forall₂ (fun c d => ClosetDen d a c) s.closets g.closets

theorem StoreDen.mono {g : Store (Node I) (Closet I F)} {a b : Arena I Bool} {s : StoreC I F}
    (h : StoreDen g a s) (e : Ext a b) : StoreDen g b s :=
  ⟨List.Forall₂.imp (fun _ _ hx => ArgDen.mono e hx) h.1, List.Forall₂.imp (fun _ _ hx => ClosetDen.mono hx e) h.2⟩

theorem StoreDen.node {g : Store (Node I) (Closet I F)} {a : Arena I Bool} {s : StoreC I F} {x : Arg I Bool}
    {n : Node I} (h : StoreDen g a s) (hx : ArgDen a x (tr n)) : StoreDen (g.node n) a (s.node x) :=
  ⟨List.rel_append h.1 (.cons hx .nil), h.2⟩

theorem StoreDen.closet {g : Store (Node I) (Closet I F)} {a : Arena I Bool} {s : StoreC I F} {c : ClosetC I F}
    {d : Closet I F} (h : StoreDen g a s) (hx : ClosetDen d a c) : StoreDen (g.closet d) a (s.closet c) :=
  ⟨h.1, List.rel_append h.2 (.cons hx .nil)⟩

theorem rel_get {γ : Type w} {δ : Type w'} {R : γ → δ → Prop} {xs : List γ} {ys : List δ} (h : List.Forall₂ R xs ys)
    {i : Nat} {y : δ} (hy : ys[i]? = some y) : ∃ x, xs[i]? = some x ∧ R x y := by
  induction h generalizing i with
  | nil => simp at hy
  | cons hx _ ih =>
    cases i with
    | zero => simp at hy; subst hy; exact ⟨_, by simp, hx⟩
    | succ i => simp at hy; simpa using ih hy

theorem fetch_ok {x : Arg I Bool} {t : Tr I Bool} {a : Arena I Bool} {k : C I → Prog I Bool β}
    {R : Arena I Bool → β → Prop} (hI : a.Inv) (hx : ArgDen a x t)
    (h : ∀ b c, Ext a b → CellDen b c t → Yields (k c) b R) : Yields (fetch x k) a R := by
  cases x with
  | id i => exact yields_load hx h
  | node c => exact h a c (Ext.refl hI) hx

theorem same_ok {x y : Arg I Bool} {m n : Node I} {a : Arena I Bool} {k : Bool → Prog I Bool β}
    {R : Arena I Bool → β → Prop} (hI : a.Inv) (hx : ArgDen a x (tr m)) (hy : ArgDen a y (tr n))
    (h : ∀ b, Ext a b → Yields (k (decide (m = n))) b R) : Yields (sameP x y k) a R := by
  have gen : Yields (fetch x fun c => fetch y fun d => k (decide (c = d))) a R := by
    refine fetch_ok hI hx fun b c e1 hc => fetch_ok e1.right (hy.mono e1) fun b' d e2 hd => ?_
    have key := (cell_eq_iff e2.right (hc.mono e2) hd).trans tr_inj
    simp only [key]
    exact h b' (e1.trans e2)
  cases x with
  | node c => exact gen
  | id i =>
    cases y with
    | node d => exact gen
    | id j =>
      have : i = j ↔ m = n := by
        rw [← tr_inj]
        exact ⟨fun e => unfolds_fun hx (e ▸ hy), fun e => unfolds_inj hI hx (e ▸ hy)⟩
      simp only [sameP, this]
      exact h a (Ext.refl hI)

theorem made {g : Store (Node I) (Closet I F)} {b : Arena I Bool} {s : StoreC I F} {p : P I} {n : Node I}
    (hp : Returns p b (tr n)) (hs : StoreDen g b s) :
    Yields (p.bind fun c => .ret (s.node (.node c), (.done : Reply I F H))) b
      (fun b x => StoreDen (g.node n) b x.1 ∧ x.2 = .done) :=
  yields_bind hp fun b' c e hc => Yields.ret e.right ⟨(hs.mono e).node hc, rfl⟩

theorem asked {g : Store (Node I) (Closet I F)} {b : Arena I Bool} {s : StoreC I F} {p : Prog I Bool α} {v : α}
    {q : α → Reply I F H} (hp : Yields p b (fun _ r => r = v)) (hs : StoreDen g b s) :
    Yields (p.bind fun c => .ret (s, q c)) b (fun b x => StoreDen g b x.1 ∧ x.2 = q v) :=
  yields_bind hp fun b' c e hc => Yields.ret e.right ⟨hs.mono e, by rw [hc]⟩

theorem op_ok (e : Env I H) (op : Op I F) (g g' : Store (Node I) (Closet I F)) (r : Reply I F H)
    (h : op.alone e g = some (g', r)) :
    ∃ K, ∀ f ≥ K, ∀ (a : Arena I Bool) s, a.Inv → StoreDen g a s →
      Yields (opP e f s op) a (fun b x => StoreDen g' b x.1 ∧ x.2 = r) := by
  cases op with
  | leaf b =>
    cases h
    exact ⟨0, fun f hf a s hI hs => Yields.ret hI ⟨hs.node (show CellDen a (.leaf b) (.leaf b) from rfl), rfl⟩⟩
  | branch i lo hi =>
    simp only [Op.alone, Option.bind_eq_some_iff, Option.some.injEq, Prod.mk.injEq] at h
    obtain ⟨m, hm, n, hn, rfl, rfl⟩ := h
    refine ⟨0, fun f hf a s hI hs => ?_⟩
    obtain ⟨x, ex, hx⟩ := rel_get hs.1 hm
    obtain ⟨y, ey, hy⟩ := rel_get hs.1 hn
    simp only [opP, ex, ey, need]
    exact made (branch_ok hI hx hy) hs
  | positive i => cases h; exact ⟨0, fun f hf a s hI hs => made (positive_ok hI i) hs⟩
  | negative i => cases h; exact ⟨0, fun f hf a s hI hs => made (negative_ok hI i) hs⟩
  | or _ _ =>
    simp only [Op.alone, Option.bind_eq_some_iff, Option.some.injEq, Prod.mk.injEq] at h
    obtain ⟨m, hm, n, hn, rfl, rfl⟩ := h
    obtain ⟨K, hK⟩ := bitor_ok m n
    refine ⟨K, fun f hf a s hI hs => ?_⟩
    obtain ⟨x, ex, hx⟩ := rel_get hs.1 hm
    obtain ⟨y, ey, hy⟩ := rel_get hs.1 hn
    simp only [opP, ex, ey, need]
    refine fetch_ok hI hx fun b c e1 hc => fetch_ok e1.right (hy.mono e1) fun b' d e2 hd => ?_
    exact made (hK f hf b' c d e2.right (hc.mono e2) hd) (hs.mono (e1.trans e2))
  | and _ _ =>
    simp only [Op.alone, Option.bind_eq_some_iff, Option.some.injEq, Prod.mk.injEq] at h
    obtain ⟨m, hm, n, hn, rfl, rfl⟩ := h
    obtain ⟨K, hK⟩ := bitand_ok m n
    refine ⟨K, fun f hf a s hI hs => ?_⟩
    obtain ⟨x, ex, hx⟩ := rel_get hs.1 hm
    obtain ⟨y, ey, hy⟩ := rel_get hs.1 hn
    simp only [opP, ex, ey, need]
    refine fetch_ok hI hx fun b c e1 hc => fetch_ok e1.right (hy.mono e1) fun b' d e2 hd => ?_
    exact made (hK f hf b' c d e2.right (hc.mono e2) hd) (hs.mono (e1.trans e2))
  | xor _ _ =>
    simp only [Op.alone, Option.bind_eq_some_iff, Option.some.injEq, Prod.mk.injEq] at h
    obtain ⟨m, hm, n, hn, rfl, rfl⟩ := h
    obtain ⟨K, hK⟩ := bitxor_ok m n
    refine ⟨K, fun f hf a s hI hs => ?_⟩
    obtain ⟨x, ex, hx⟩ := rel_get hs.1 hm
    obtain ⟨y, ey, hy⟩ := rel_get hs.1 hn
    simp only [opP, ex, ey, need]
    refine fetch_ok hI hx fun b c e1 hc => fetch_ok e1.right (hy.mono e1) fun b' d e2 hd => ?_
    exact made (hK f hf b' c d e2.right (hc.mono e2) hd) (hs.mono (e1.trans e2))
  | not _ =>
    simp only [Op.alone, Option.bind_eq_some_iff, Option.some.injEq, Prod.mk.injEq] at h
    obtain ⟨n, hn, rfl, rfl⟩ := h
    refine ⟨0, fun f hf a s hI hs => ?_⟩
    obtain ⟨x, ex, hx⟩ := rel_get hs.1 hn
    simp only [opP, ex, need]
    exact fetch_ok hI hx fun b c e1 hc => made (bitnot_ok e1.right hc) (hs.mono e1)
  | reduce _ =>
    simp only [Op.alone, Option.bind_eq_some_iff, Option.some.injEq, Prod.mk.injEq] at h
    obtain ⟨n, hn, rfl, rfl⟩ := h
    obtain ⟨K, hK⟩ := reduce_ok n
    refine ⟨K, fun f hf a s hI hs => ?_⟩
    obtain ⟨x, ex, hx⟩ := rel_get hs.1 hn
    simp only [opP, ex, need]
    exact fetch_ok hI hx fun b c e1 hc => made (hK f hf b c e1.right hc) (hs.mono e1)
  | restrict _ i b =>
    simp only [Op.alone, Option.bind_eq_some_iff, Option.some.injEq, Prod.mk.injEq] at h
    obtain ⟨n, hn, rfl, rfl⟩ := h
    obtain ⟨K, hK⟩ := restrict_ok n i b
    refine ⟨K, fun f hf a s hI hs => ?_⟩
    obtain ⟨x, ex, hx⟩ := rel_get hs.1 hn
    simp only [opP, ex, need]
    exact fetch_ok hI hx fun b c e1 hc => made (hK f hf b c e1.right hc) (hs.mono e1)
  | toId _ =>
    simp only [Op.alone, Option.bind_eq_some_iff, Option.some.injEq, Prod.mk.injEq] at h
    obtain ⟨n, hn, rfl, rfl⟩ := h
    refine ⟨0, fun f hf a s hI hs => ?_⟩
    obtain ⟨x, ex, hx⟩ := rel_get hs.1 hn
    simp only [opP, ex, need]
    cases x with
    | id i => exact Yields.ret hI ⟨hs.node hx, rfl⟩
    | node c => exact yields_intern hx fun b i e1 hi => Yields.ret e1.right ⟨(hs.mono e1).node (ArgDen.id hi), rfl⟩
  | fromId _ =>
    simp only [Op.alone, Option.bind_eq_some_iff, Option.some.injEq, Prod.mk.injEq] at h
    obtain ⟨n, hn, rfl, rfl⟩ := h
    refine ⟨0, fun f hf a s hI hs => ?_⟩
    obtain ⟨x, ex, hx⟩ := rel_get hs.1 hn
    simp only [opP, ex, need]
    exact fetch_ok hI hx fun b c e1 hc => Yields.ret e1.right ⟨(hs.mono e1).node (ArgDen.node hc), rfl⟩
  | inspect _ =>
    simp only [Op.alone, Option.bind_eq_some_iff] at h
    obtain ⟨n, hn, h⟩ := h
    refine ⟨0, fun f hf a s hI hs => ?_⟩
    obtain ⟨x, ex, hx⟩ := rel_get hs.1 hn
    simp only [opP, ex, need]
    refine fetch_ok hI hx fun b c e1 hc => ?_
    cases n with
    | Leaf v =>
      cases h
      obtain rfl := hc.leaf_inv
      exact Yields.ret e1.right ⟨hs.mono e1, rfl⟩
    | Branch i l h' =>
      cases h
      obtain ⟨lo, hi, rfl, ul, uh⟩ := hc.branch_inv
      exact Yields.ret e1.right ⟨((hs.mono e1).node (ArgDen.id ul)).node (ArgDen.id uh), rfl⟩
  | sameNode _ _ =>
    simp only [Op.alone, Option.bind_eq_some_iff, Option.some.injEq, Prod.mk.injEq] at h
    obtain ⟨m, hm, n, hn, rfl, rfl⟩ := h
    refine ⟨0, fun f hf a s hI hs => ?_⟩
    obtain ⟨x, ex, hx⟩ := rel_get hs.1 hm
    obtain ⟨y, ey, hy⟩ := rel_get hs.1 hn
    simp only [opP, ex, ey, need]
    exact same_ok hI hx hy fun b e1 => Yields.ret e1.right ⟨hs.mono e1, rfl⟩
  | summarize _ =>
    simp only [Op.alone, Option.bind_eq_some_iff, Option.some.injEq, Prod.mk.injEq] at h
    obtain ⟨n, hn, rfl, rfl⟩ := h
    obtain ⟨K, hK⟩ := summarize_ok n
    refine ⟨K, fun f hf a s hI hs => ?_⟩
    obtain ⟨x, ex, hx⟩ := rel_get hs.1 hn
    simp only [opP, ex, need]
    exact fetch_ok hI hx fun b c e1 hc => asked (q := .statuses) (hK f hf b c e1.right hc) (hs.mono e1)
  | hashStructure _ =>
    simp only [Op.alone, Option.bind_eq_some_iff, Option.some.injEq, Prod.mk.injEq] at h
    obtain ⟨n, hn, rfl, rfl⟩ := h
    obtain ⟨K, hK⟩ := hash_ok e.leaf e.pair n
    refine ⟨K, fun f hf a s hI hs => ?_⟩
    obtain ⟨x, ex, hx⟩ := rel_get hs.1 hn
    simp only [opP, ex, need]
    exact fetch_ok hI hx fun b c e1 hc => asked (q := .hash) (hK f hf b c e1.right hc) (hs.mono e1)
  | debug _ =>
    simp only [Op.alone, Option.bind_eq_some_iff, Option.some.injEq, Prod.mk.injEq] at h
    obtain ⟨n, hn, rfl, rfl⟩ := h
    obtain ⟨K, hK⟩ := fmtInner_ok e.dbg n 1
    refine ⟨K, fun f hf a s hI hs => ?_⟩
    obtain ⟨x, ex, hx⟩ := rel_get hs.1 hn
    simp only [opP, ex, need]
    exact fetch_ok hI hx fun b c e1 hc => asked (q := fun t => .text ('\n' :: t)) (hK f hf b c e1.right hc) (hs.mono e1)
  | saveNode _ =>
    simp only [Op.alone, Option.bind_eq_some_iff, Option.some.injEq, Prod.mk.injEq] at h
    obtain ⟨n, hn, rfl, rfl⟩ := h
    obtain ⟨K, hK⟩ := serializeNode_ok n
    refine ⟨K, fun f hf a s hI hs => ?_⟩
    obtain ⟨x, ex, hx⟩ := rel_get hs.1 hn
    simp only [opP, ex, need]
    exact fetch_ok hI hx fun b c e1 hc => asked (q := .nodeData) (hK f hf b c e1.right hc) (hs.mono e1)
  | loadNode d =>
    simp only [Op.alone, Option.bind_eq_some_iff, Option.some.injEq, Prod.mk.injEq] at h
    obtain ⟨n, hn, rfl, rfl⟩ := h
    exact ⟨0, fun f hf a s hI hs => made (toNode_ok _ _ n hn a hI) hs⟩
  | build calls =>
    obtain ⟨K, hK⟩ := build_ok (ClosetBuilder.run calls)
    refine ⟨K, fun f hf a s hI hs => yields_bind (hK f hf a hI) fun b c e1 hc => ?_⟩
    simp only [Op.alone] at h
    cases hb : (ClosetBuilder.run calls).build with
    | error x =>
      rw [hb] at h hc
      cases h
      cases c with
      | error y => obtain rfl : x = y := hc; exact Yields.ret e1.right ⟨hs.mono e1, rfl⟩
      | ok c => exact hc.elim
    | ok d =>
      rw [hb] at h hc
      cases h
      cases c with
      | error y => exact hc.elim
      | ok c => exact Yields.ret e1.right ⟨(hs.mono e1).closet hc, rfl⟩
  | newCloset index _ =>
    simp only [Op.alone, Option.bind_eq_some_iff, Option.some.injEq, Prod.mk.injEq] at h
    obtain ⟨n, hn, rfl, rfl⟩ := h
    obtain ⟨K, hK⟩ := summarize_ok n
    refine ⟨K, fun f hf a s hI hs => ?_⟩
    obtain ⟨x, ex, hx⟩ := rel_get hs.1 hn
    simp only [opP, ex, need]
    refine fetch_ok hI hx fun b c e1 hc => ?_
    have hnew : Yields (newP f index c) b (ClosetDen (Closet.new index n)) :=
      yields_bind (hK f hf b c e1.right hc) fun b2 s e2 hs => Yields.ret e2.right ⟨rfl, hs, CellDen.mono e2 hc⟩
    exact yields_bind hnew fun b2 c e2 hc => Yields.ret e2.right ⟨(hs.mono (e1.trans e2)).closet hc, rfl⟩
  | root _ =>
    simp only [Op.alone, Option.bind_eq_some_iff, Option.some.injEq, Prod.mk.injEq] at h
    obtain ⟨d, hd, rfl, rfl⟩ := h
    refine ⟨0, fun f hf a s hI hs => ?_⟩
    obtain ⟨c, ec, hc⟩ := rel_get hs.2 hd
    simp only [opP, ec, need]
    exact Yields.ret hI ⟨hs.node (ArgDen.node hc.2.2), rfl⟩
  | look _ =>
    simp only [Op.alone, Option.bind_eq_some_iff, Option.some.injEq, Prod.mk.injEq] at h
    obtain ⟨d, hd, rfl, rfl⟩ := h
    refine ⟨0, fun f hf a s hI hs => ?_⟩
    obtain ⟨c, ec, hc⟩ := rel_get hs.2 hd
    simp only [opP, ec, need]
    exact Yields.ret hI ⟨hs, by rw [hc.1, hc.2.1]⟩
  | select _ i =>
    simp only [Op.alone, Option.bind_eq_some_iff] at h
    obtain ⟨d, hd, h⟩ := h
    obtain ⟨K, hK⟩ := selectItem_ok d i
    refine ⟨K, fun f hf a s hI hs => ?_⟩
    obtain ⟨c, ec, hc⟩ := rel_get hs.2 hd
    simp only [opP, ec, need]
    refine yields_bind (hK f hf a c hI hc) fun b r1 e1 hr => ?_
    cases hb : d.selectItem i with
    | error x =>
      rw [hb] at h hr
      cases h
      cases r1 with
      | error y => obtain rfl : x = y := hr; exact Yields.ret e1.right ⟨hs.mono e1, rfl⟩
      | ok c => exact hr.elim
    | ok d' =>
      rw [hb] at h hr
      cases h
      cases r1 with
      | error y => exact hr.elim
      | ok c => exact Yields.ret e1.right ⟨(hs.mono e1).closet hr, rfl⟩
  | complete _ sel =>
    simp only [Op.alone, Option.bind_eq_some_iff, Option.some.injEq, Prod.mk.injEq] at h
    obtain ⟨d, hd, o, ho, rfl, rfl⟩ := h
    obtain ⟨K, hK⟩ := complete_ok d sel o ho
    refine ⟨K, fun f hf a s hI hs => ?_⟩
    obtain ⟨c, ec, hc⟩ := rel_get hs.2 hd
    simp only [opP, ec, need]
    exact asked (q := .outfit) (hK f hf a c hI hc) hs
  | counts _ =>
    simp only [Op.alone, Option.bind_eq_some_iff, Option.some.injEq, Prod.mk.injEq] at h
    obtain ⟨d, hd, rfl, rfl⟩ := h
    obtain ⟨K1, h1⟩ := nodeCount_ok d.root
    obtain ⟨K2, h2⟩ := leafCount_ok d.root
    obtain ⟨K3, h3⟩ := outfitCount_ok d.root
    obtain ⟨K4, h4⟩ := depth_ok d.root
    refine ⟨K1 + K2 + K3 + K4, fun f hf a s hI hs => ?_⟩
    obtain ⟨c, ec, hc⟩ := rel_get hs.2 hd
    simp only [opP, ec, need]
    have hc := hc.2.2
    refine yields_bind (h1 f (by omega) a _ hI hc) fun b1 x1 e1 q1 => ?_
    refine yields_bind (h2 f (by omega) b1 _ e1.right (hc.mono e1)) fun b2 x2 e2 q2 => ?_
    refine yields_bind (h3 f (by omega) b2 _ e2.right (hc.mono (e1.trans e2))) fun b3 x3 e3 q3 => ?_
    refine yields_bind (h4 f (by omega) b3 _ e3.right (hc.mono ((e1.trans e2).trans e3))) fun b4 x4 e4 q4 => ?_
    exact Yields.ret e4.right ⟨hs.mono (((e1.trans e2).trans e3).trans e4), by rw [q1, q2, q3, q4]⟩
  | sameCloset _ _ =>
    simp only [Op.alone, Option.bind_eq_some_iff, Option.some.injEq, Prod.mk.injEq] at h
    obtain ⟨d, hd, d', hd', rfl, rfl⟩ := h
    refine ⟨0, fun f hf a s hI hs => ?_⟩
    obtain ⟨c, ec, hc⟩ := rel_get hs.2 hd
    obtain ⟨c', ec', hc'⟩ := rel_get hs.2 hd'
    simp only [opP, ec, ec', need]
    refine Yields.ret hI ⟨hs, ?_⟩
    have key := (cell_eq_iff hI hc.2.2 hc'.2.2).trans tr_inj
    simp only [hc.1, hc.2.1, hc'.1, hc'.2.1, key]
  | saveCloset _ =>
    simp only [Op.alone, Option.bind_eq_some_iff, Option.some.injEq, Prod.mk.injEq] at h
    obtain ⟨d, hd, rfl, rfl⟩ := h
    obtain ⟨K, hK⟩ := serializeNode_ok d.root
    refine ⟨K, fun f hf a s hI hs => ?_⟩
    obtain ⟨c, ec, hc⟩ := rel_get hs.2 hd
    simp only [opP, ec, need]
    refine yields_bind (hK f hf a _ hI hc.2.2) fun b r1 e1 hr => Yields.ret e1.right ⟨hs.mono e1, ?_⟩
    rw [hr, hc.1, hc.2.1]; rfl
  | loadCloset d =>
    simp only [Op.alone, deserializeCloset, Option.bind_eq_some_iff, Option.map_eq_some_iff, Option.some.injEq,
      Prod.mk.injEq] at h
    obtain ⟨_, ⟨n, hn, rfl⟩, rfl, rfl⟩ := h
    refine ⟨0, fun f hf a s hI hs => ?_⟩
    exact yields_bind (toNode_ok _ _ n hn a hI) fun b c e1 hc =>
      Yields.ret e1.right ⟨(hs.mono e1).closet ⟨rfl, rfl, hc⟩, rfl⟩

theorem client_ok (e : Env I H) (cl : Client I F H O) (g g' : Store (Node I) (Closet I F)) (o : O)
    (h : cl.alone e g = some (g', o)) :
    ∃ K, ∀ f ≥ K, ∀ (a : Arena I Bool) s, a.Inv → StoreDen g a s →
      Yields (clientP e f cl s) a (fun b x => StoreDen g' b x.1 ∧ x.2 = o) := by
  induction cl generalizing g with
  | ends o' =>
    cases h
    exact ⟨0, fun f hf a s hI hs => Yields.ret hI ⟨hs, rfl⟩⟩
  | call op k ih =>
    simp only [Client.alone, Option.bind_eq_some_iff] at h
    obtain ⟨⟨g1, r⟩, h1, h2⟩ := h
    obtain ⟨K1, hK1⟩ := op_ok e op g g1 r h1
    obtain ⟨K2, hK2⟩ := ih r g1 h2
    refine ⟨K1 + K2, fun f hf a s hI hs => yields_bind (hK1 f (by omega) a s hI hs) fun b x e1 hx => ?_⟩
    rw [hx.2]
    exact hK2 f (by omega) b x.1 e1.right hx.1

/-! ## Threads that start further threads and hand nodes and closets to them -/

/-- The nodes and closets named by (thread, position) pairs among what finished threads hold.
Not code: used to state or prove properties. -/
def pick {N : Type w} {C : Type w'} (st : Nat → Option (Store N C)) (ns cs : List (Nat × Nat)) : Option (Store N C) :=
  (ns.mapM fun p => (st p.1).bind (·.nodes[p.2]?)).bind fun n =>
  (cs.mapM fun p => (st p.1).bind (·.closets[p.2]?)).map fun c => ⟨n, c⟩

/-- What a finished thread holds.  Not code: used to state or prove properties. -/
def held (m : Machine I Bool (fun _ => StoreC I F × O)) (t : Nat) : Option (StoreC I F) :=
  match m.threads t with
  | .run (.ret x) => some x.1
  | _ => none

/-- The process and, for each thread running a client, what the client ends with in a process of its own.
Not code: used to state or prove properties. -/
structure World (I : Type u) (F : Type v) (O : Type w) where
  machine : Machine I Bool (fun _ => StoreC I F × O)
  alone : Nat → Option (Store (Node I) (Closet I F) × O)

/-- How a process goes on: a thread makes a step; or a new thread (or one taking the place of an old one) starts a
client with any of the nodes and closets finished threads hold; or a new thread starts anything at all.
`need` says how much fuel a client is given at least.  Not code: used to state or prove properties. -/
inductive World.Run (e : Env I H) (need : Client I F H O → Store (Node I) (Closet I F) → Nat) :
    World I F O → Prop where
  | boot (ths : Nat → Thread I Bool (StoreC I F × O)) : Run e need ⟨⟨Arena.init false true, ths⟩, fun _ => none⟩
  | step {w : World I F O} {m} : Run e need w → MStep w.machine m → Run e need ⟨m, w.alone⟩
  | client {w : World I F O} (t : Nat) (cl : Client I F H O) (ns cs : List (Nat × Nat)) (s g r) (f : Nat) :
    Run e need w → pick (held w.machine) ns cs = some s → pick (fun t => (w.alone t).map Prod.fst) ns cs = some g →
    cl.alone e g = some r → need cl g ≤ f →
    Run e need ⟨⟨w.machine.arena, Function.update w.machine.threads t (.run (clientP e f cl s))⟩,
      Function.update w.alone t (some r)⟩
  | other {w : World I F O} (t : Nat) (th : Thread I Bool (StoreC I F × O)) : Run e need w →
    Run e need ⟨⟨w.machine.arena, Function.update w.machine.threads t th⟩, Function.update w.alone t none⟩

theorem World.Run.steps {e : Env I H} {need : Client I F H O → Store (Node I) (Closet I F) → Nat} {w : World I F O}
    (h : World.Run e need w) {m : Machine I Bool (fun _ => StoreC I F × O)} (hm : MRun w.machine m) :
    World.Run e need ⟨m, w.alone⟩ := by
  obtain ⟨m0, al⟩ := w
  dsimp only at hm ⊢
  induction hm with
  | nil => exact h
  | cons h1 _ ih => exact ih (World.Run.step h h1)

/-- Not code: used to state or prove properties. -/
def World.Post (r : Store (Node I) (Closet I F) × O) (a : Arena I Bool) (x : StoreC I F × O) : Prop :=
  StoreDen r.1 a x.1 ∧ x.2 = r.2

theorem World.Post.stable (r : Store (Node I) (Closet I F) × O) :
    Stable (World.Post r : Arena I Bool → StoreC I F × O → Prop) := fun _ _ _ e h => ⟨h.1.mono e, h.2⟩

/-- Not code: used to state or prove properties. -/
def World.Ok (w : World I F O) : Prop :=
  w.machine.arena.Inv ∧ ∀ t r, w.alone t = some r → wpT (w.machine.threads t) w.machine.arena (World.Post r)

theorem mapM_rel {γ : Type w} {δ : Type w'} {ι : Type x} {R : γ → δ → Prop} {p : ι → Option γ} {q : ι → Option δ}
    (h : ∀ i x y, p i = some x → q i = some y → R x y) (l : List ι) {xs : List γ} {ys : List δ}
    (hx : l.mapM p = some xs) (hy : l.mapM q = some ys) : List.Forall₂ R xs ys := by
  induction l generalizing xs ys with
  | nil => simp at hx hy; subst hx; subst hy; exact .nil
  | cons i l ih =>
    simp only [List.mapM_cons, Option.bind_eq_bind, Option.bind_eq_some_iff, Option.pure_def, Option.some.injEq] at hx hy
    obtain ⟨x, h1, xs, h2, rfl⟩ := hx
    obtain ⟨y, h3, ys, h4, rfl⟩ := hy
    exact .cons (h i x y h1 h3) (ih h2 h4)

theorem pick_den {w : World I F O} (hw : w.Ok) {ns cs : List (Nat × Nat)} {s : StoreC I F}
    {g : Store (Node I) (Closet I F)} (hs : pick (held w.machine) ns cs = some s)
    (hg : pick (fun t => (w.alone t).map Prod.fst) ns cs = some g) : StoreDen g w.machine.arena s := by
  simp only [pick, Option.bind_eq_some_iff, Option.map_eq_some_iff] at hs hg
  obtain ⟨n, h1, c, h2, rfl⟩ := hs
  obtain ⟨n', h3, c', h4, rfl⟩ := hg
  have key : ∀ t s g, held w.machine t = some s → (w.alone t).map Prod.fst = some g → StoreDen g w.machine.arena s := by
    intro t s g hs hg
    obtain ⟨r, hr, rfl⟩ := Option.map_eq_some_iff.1 hg
    have := hw.2 t r hr
    rw [held] at hs
    cases ht : w.machine.threads t with
    | panicked => rw [ht] at hs; cases hs
    | missed _ _ => rw [ht] at hs; cases hs
    | run p =>
      rw [ht] at hs this
      cases p <;> first | (cases hs; exact this.1) | cases hs
  refine ⟨mapM_rel (fun p x y hx hy => ?_) ns h1 h3, mapM_rel (fun p x y hx hy => ?_) cs h2 h4⟩
  · obtain ⟨s, h5, h6⟩ := Option.bind_eq_some_iff.1 hx
    obtain ⟨g, h7, h8⟩ := Option.bind_eq_some_iff.1 hy
    obtain ⟨x', e1, h9⟩ := rel_get (key p.1 s g h5 h7).1 h8
    rw [h6] at e1; cases e1; exact h9
  · obtain ⟨s, h5, h6⟩ := Option.bind_eq_some_iff.1 hx
    obtain ⟨g, h7, h8⟩ := Option.bind_eq_some_iff.1 hy
    obtain ⟨x', e1, h9⟩ := rel_get (key p.1 s g h5 h7).2 h8
    rw [h6] at e1; cases e1; exact h9

theorem world_ok (e : Env I H) : ∃ need : Client I F H O → Store (Node I) (Closet I F) → Nat,
    ∀ w : World I F O, World.Run e need w → w.Ok := by
  classical
  have hc : ∀ (cl : Client I F H O) g, ∃ K, ∀ r, cl.alone e g = some r → ∀ f ≥ K, ∀ (a : Arena I Bool) s,
      a.Inv → StoreDen g a s → Yields (clientP e f cl s) a (World.Post r) := by
    intro cl g
    cases h : cl.alone e g with
    | none => exact ⟨0, fun r hr => by cases hr⟩
    | some r =>
      obtain ⟨K, hK⟩ := client_ok e cl g r.1 r.2 h
      exact ⟨K, fun r' hr => by cases hr; exact hK⟩
  choose need hn using hc
  refine ⟨need, fun w hw => ?_⟩
  induction hw with
  | boot ths => exact ⟨init_inv (by decide), fun t r h => by cases h⟩
  | @step w m _ hs ih =>
    obtain ⟨he, _⟩ := mstep_among (G := fun _ => False) (Q := fun _ _ _ => True) (fun _ h => h.elim) hs ih.1
      (fun _ h => h.elim)
    refine ⟨he.right, fun t r hr => ?_⟩
    exact (mstep_among (G := fun s => s = t) (Q := fun _ => World.Post r) (fun _ _ => World.Post.stable r) hs ih.1
      (fun s hst => by subst hst; exact ih.2 _ r hr)).2 t rfl
  | @client w t cl ns cs s g r f _ hs hg hr hf ih =>
    refine ⟨ih.1, fun t' r' h => ?_⟩
    by_cases ht : t' = t
    · subst ht
      simp only [Function.update_self, Option.some.injEq] at h ⊢
      subst h
      exact wp_imp (hn cl g r hr f hf _ s ih.1 (pick_den ih hs hg)) fun _ _ hx => hx.2
    · simp only [Function.update_of_ne ht] at h ⊢
      exact ih.2 t' r' h
  | @other w t th _ ih =>
    refine ⟨ih.1, fun t' r' h => ?_⟩
    by_cases ht : t' = t
    · subst ht; simp at h
    · simp only [Function.update_of_ne ht] at h ⊢
      exact ih.2 t' r' h

/-- C98: clients of the whole node and closet API, deciding each call from the answers so far, started at any time
with any nodes and closets that finished threads made, next to threads doing anything at all: under every
schedule no client's thread panics unless the client panics in a process of its own; every finished one has
exactly the output it would have had alone, and holds as much; every unfinished one can go on, and at every moment
can run to its end while all others stand still. -/
theorem worlds_exact (e : Env I H) : ∃ need : Client I F H O → Store (Node I) (Closet I F) → Nat,
    ∀ w : World I F O, World.Run e need w → ∀ t g o, w.alone t = some (g, o) →
      w.machine.threads t ≠ .panicked ∧
      (∀ s o', w.machine.threads t = .run (.ret (s, o')) → o' = o ∧
        s.nodes.length = g.nodes.length ∧ s.closets.length = g.closets.length) ∧
      ((∃ r, w.machine.threads t = .run (.ret r)) ∨
        ∃ a th, TStep w.machine.arena (w.machine.threads t) a th) ∧
      ∃ m, World.Run e need ⟨m, w.alone⟩ ∧ MRun w.machine m ∧ (∀ s, s ≠ t → m.threads s = w.machine.threads s) ∧
        ∃ s, m.threads t = .run (.ret (s, o)) := by
  obtain ⟨need, h⟩ := world_ok (I := I) (F := F) (O := O) e
  refine ⟨need, fun w hw t g o ht => ?_⟩
  have hk := h w hw
  have hwp : ∀ s, s = t → wpT (w.machine.threads s) w.machine.arena (World.Post (g, o)) :=
    fun s hs => by subst hs; exact hk.2 _ _ ht
  obtain ⟨h1, h2, h3⟩ := among_sound (G := fun s => s = t) (Q := fun _ => World.Post (g, o))
    (fun _ _ => World.Post.stable _) (.nil w.machine) hk.1 hwp t rfl
  refine ⟨h1, fun s o' hs => ?_, h3, ?_⟩
  · obtain ⟨h4, h5⟩ := h2 _ hs
    exact ⟨h5, h4.1.length_eq, h4.2.length_eq⟩
  obtain ⟨m, hm, hs, x, hx⟩ := among_finish (G := fun s => s = t) (Q := fun _ => World.Post (g, o))
    (fun _ _ => World.Post.stable _) (.nil w.machine) hk.1 hwp t rfl
  obtain ⟨_, h2⟩ := (among_sound (G := fun s => s = t) (Q := fun _ => World.Post (g, o))
    (fun _ _ => World.Post.stable _) hm hk.1 hwp t rfl).2.1 _ hx
  refine ⟨m, hw.steps hm, hm, hs, x.1, ?_⟩
  rw [hx]
  obtain ⟨s, o'⟩ := x
  have h2 : o' = o := h2
  rw [h2]

/-- C98 with every lock operation and every read and write of the arena interleaved at will, for clients started with
the process. -/
theorem clients_locked (e : Env I H) (G : Nat → Prop) (cl : Nat → Client I F H O)
    (g : Nat → Store (Node I) (Closet I F)) (o : Nat → O) (hcl : ∀ t, G t → (cl t).alone e ⟨[], []⟩ = some (g t, o t)) :
    ∃ K : Nat → Nat, ∀ (f : Nat → Nat) (ths : Nat → Thread I Bool (StoreC I F × O)),
      (∀ t, G t → K t ≤ f t ∧ ths t = .run (clientP e (f t) (cl t) ⟨[], []⟩)) →
      {t | ¬ (FThread.out (ths t)).Finished}.Finite →
      ∀ m, FRun true false true (fstart ths) m →
      (∀ t, G t → m.threads t ≠ .out .panicked ∧ m.threads t ≠ .rdDone .panicked ∧
        m.threads t ≠ .wrDone .panicked) ∧
      (∀ t, G t → ∀ s o', m.threads t = .out (.run (.ret (s, o'))) → o' = o t) ∧
      (∀ A : Policy I Bool (fun _ => StoreC I F × O), A.Live →
        (∃ t, G t ∧ ¬ (m.threads t).Finished) → ∃ t m', PStep A true false true t m m') ∧
      (∀ A : Policy I Bool (fun _ => StoreC I F × O), A.Live →
        ∃ m', PRun A true false true m m' ∧ ∀ t, G t → ∃ s, m'.threads t = .out (.run (.ret s))) ∧
      (∀ σ : Nat → FMachine I Bool (fun _ => StoreC I F × O), σ 0 = m →
        ¬ ∀ k, ∃ t, FStep true false true t (σ k) (σ (k + 1))) := by
  have hK : ∀ t, ∃ K, G t → ∀ f ≥ K, ∀ (a : Arena I Bool) s, a.Inv → StoreDen ⟨[], []⟩ a s →
      Yields (clientP e f (cl t) s) a (World.Post (g t, o t)) := by
    intro t
    by_cases ht : G t
    · obtain ⟨K, hK⟩ := client_ok e (cl t) _ _ _ (hcl t ht)
      exact ⟨K, fun _ => hK⟩
    · exact ⟨0, fun h => absurd h ht⟩
  choose K hK using hK
  refine ⟨K, fun f ths h hfin m hm => ?_⟩
  have hw : ∀ t, G t → wpT (ths t) (Arena.init false true) (World.Post (g t, o t)) := by
    intro t ht
    rw [(h t ht).2]
    exact wp_imp (hK t ht (f t) (h t ht).1 _ ⟨[], []⟩ (init_inv (by decide)) ⟨.nil, .nil⟩) fun _ _ hx => hx.2
  obtain ⟨h1, ⟨b, _, h2⟩, h3, h4, h5⟩ :=
    among_runs (by decide) (fun t _ => World.Post.stable (g t, o t)) hw hfin hm
  exact ⟨h1, fun t ht s o' es => (h2 t ht _ es).2, h3, h4, h5⟩

/-- When a call panics: it names a node or closet the client does not hold, or it reads a document whose structure
uses a depth that has no item.  Not code: used to state or prove properties. -/
def Op.Mistaken (s : Store (Node I) (Closet I F)) : Op I F → Prop
  | .leaf _ | .positive _ | .negative _ | .build _ => False
  | .branch _ m n | .or m n | .and m n | .xor m n | .sameNode m n => s.nodes.length ≤ m ∨ s.nodes.length ≤ n
  | .not n | .reduce n | .restrict n _ _ | .toId n | .fromId n | .inspect n | .summarize n | .hashStructure n
  | .debug n | .saveNode n | .newCloset _ n => s.nodes.length ≤ n
  | .root c | .look c | .select c _ | .complete c _ | .counts c | .saveCloset c => s.closets.length ≤ c
  | .sameCloset c d => s.closets.length ≤ c ∨ s.closets.length ≤ d
  | .loadNode d => ∃ k, d.1.Uses k ∧ lookup k d.2 = none
  | .loadCloset d => ∃ k, d.root.1.Uses k ∧ lookup k d.root.2 = none

theorem load_none (d : ClosetData I F) :
    deserializeCloset d = none ↔ ∃ k, d.root.1.Uses k ∧ lookup k d.root.2 = none := by
  have h := closet_read_iff_partial d
  rw [← not_iff_not]
  push Not
  constructor
  · intro hn k hk
    obtain ⟨c, hc⟩ := Option.ne_none_iff_exists'.1 hn
    obtain ⟨x, hx⟩ := h.1 ⟨c, hc⟩ k hk
    rw [hx]; simp
  · intro hk
    obtain ⟨c, hc⟩ := h.2 (fun k hu => Option.ne_none_iff_exists'.1 (hk k hu))
    rw [hc]; simp

theorem bind_none1 {γ : Type w} {δ : Type w'} (l : List γ) (i : Nat) {k : γ → Option δ} (h : ∀ x, k x ≠ none) :
    l[i]?.bind k = none ↔ l.length ≤ i := by
  by_cases hi : i < l.length
  · rw [List.getElem?_eq_getElem hi, Option.bind_some]
    exact ⟨fun hn => absurd hn (h _), fun hn => by omega⟩
  · simp [List.getElem?_eq_none (show l.length ≤ i by omega)]; omega

theorem bind_none2 {γ : Type w} {δ : Type w'} (l : List γ) (i j : Nat) {k : γ → γ → Option δ} (h : ∀ x y, k x y ≠ none) :
    (l[i]?.bind fun x => l[j]?.bind fun y => k x y) = none ↔ l.length ≤ i ∨ l.length ≤ j := by
  by_cases hi : i < l.length
  · rw [List.getElem?_eq_getElem hi, Option.bind_some, bind_none1 l j (h _)]; omega
  · simp [List.getElem?_eq_none (show l.length ≤ i by omega)]; omega

/-- C98: a call panics in a process of its own exactly if the client names something it does not hold or reads a
document with a missing depth; no other call on any node or closet panics. -/
theorem op_panics_iff (e : Env I H) (s : Store (Node I) (Closet I F)) (op : Op I F) :
    op.alone e s = none ↔ op.Mistaken s := by
  cases op with
  | leaf => simp [Op.alone, Op.Mistaken]
  | positive => simp [Op.alone, Op.Mistaken]
  | negative => simp [Op.alone, Op.Mistaken]
  | build calls =>
    simp only [Op.alone, Op.Mistaken]
    cases (ClosetBuilder.run calls).build <;> simp
  | inspect n =>
    simp only [Op.alone, Op.Mistaken]
    by_cases hn : n < s.nodes.length
    · rw [List.getElem?_eq_getElem hn]
      simp only [Option.bind_some]
      cases s.nodes[n] <;> simp <;> omega
    · simp [List.getElem?_eq_none (show s.nodes.length ≤ n by omega)]; omega
  | select c i =>
    simp only [Op.alone, Op.Mistaken]
    by_cases hn : c < s.closets.length
    · rw [List.getElem?_eq_getElem hn]
      simp only [Option.bind_some]
      cases s.closets[c].selectItem i <;> simp <;> omega
    · simp [List.getElem?_eq_none (show s.closets.length ≤ c by omega)]; omega
  | complete c sel =>
    simp only [Op.alone, Op.Mistaken]
    by_cases hn : c < s.closets.length
    · rw [List.getElem?_eq_getElem hn]
      simp only [Option.bind_some]
      rcases handmade_errors s.closets[c] sel with ⟨_, h⟩ | ⟨_, _, m, h, _⟩ | ⟨_, _, _, h | ⟨o, h⟩⟩ <;>
        rw [h] <;> simp <;> omega
    · simp [List.getElem?_eq_none (show s.closets.length ≤ c by omega)]; omega
  | loadNode d =>
    have h := load_none (⟨[], [], d⟩ : ClosetData I F)
    simp only [deserializeCloset, Option.map_eq_none_iff] at h
    simp only [Op.alone, Op.Mistaken, Option.bind_eq_none_iff, ← h]
    cases deserializeNode d <;> simp
  | loadCloset d =>
    simp only [Op.alone, Op.Mistaken, ← load_none d]
    cases deserializeCloset d <;> simp
  | _ =>
    simp only [Op.alone, Op.Mistaken]
    first
    | exact bind_none1 _ _ fun _ => by simp
    | exact bind_none2 _ _ _ fun _ _ => by simp

/-- A client that builds the demo closet.  Not code: used to state or prove properties. -/
def builder : Client Nat Nat Nat (Reply Nat Nat Nat) := .call (.build demo) fun r => .ends r

/-- A client that writes the closet it was given, reads it back and compares.
Not code: used to state or prove properties. -/
def checker : Client Nat Nat Nat (Reply Nat Nat Nat) := .call (.saveCloset 0) fun
  | .closetData d => .call (.loadCloset d) fun _ => .call (.sameCloset 0 1) fun r => .ends r
  | r => .ends r

/-- Not vacuous: in one process, thread 0 builds a closet, thread 1 then gets it, writes it, reads it back and finds
the copy equal, while thread 2 panics on a node that does not exist. -/
example (e : Env Nat Nat) : ∃ need : Client Nat Nat Nat (Reply Nat Nat Nat) → Store (Node Nat) (Closet Nat Nat) → Nat,
    ∃ w : World Nat Nat (Reply Nat Nat Nat), World.Run e need w ∧ w.machine.threads 2 = .panicked ∧
      (∃ s, w.machine.threads 0 = .run (.ret (s, .done))) ∧
      ∃ s, w.machine.threads 1 = .run (.ret (s, .same true)) := by
  obtain ⟨need, hn⟩ := worlds_exact (I := Nat) (F := Nat) (O := Reply Nat Nat Nat) e
  refine ⟨need, ?_⟩
  obtain ⟨c, hc⟩ := (build_validates demo).1.1 demo_legal
  have a0 : builder.alone e ⟨[], []⟩ = some (⟨[], [c]⟩, .done) := by
    simp [builder, Client.alone, Op.alone, hc, Store.closet]
  have a1 : checker.alone e ⟨[], [c]⟩ = some (⟨[], [c, c]⟩, .same true) := by
    have := closet_roundtrip demo [] c ⟨c, hc, rfl⟩
    simp [checker, Client.alone, Op.alone, this, Store.closet]
  let ths : Nat → Thread Nat Bool (StoreC Nat Nat × Reply Nat Nat Nat) := fun _ => .run (.load 99 fun _ => .panic)
  have r0 : World.Run e need ⟨⟨Arena.init false true, ths⟩, fun _ => none⟩ := .boot ths
  have r1 := World.Run.step r0 (.step 2 (.loadMissing
    (show (Arena.init false true : Arena Nat Bool).getById 99 = none by decide)))
  have spawn : ∀ (w : World Nat Nat (Reply Nat Nat Nat)) t cl ns cs s g r, World.Run e need w →
      pick (held w.machine) ns cs = some s → pick (fun t => (w.alone t).map Prod.fst) ns cs = some g →
      Client.alone e cl g = some r → ∃ m s', World.Run e need ⟨m, Function.update w.alone t (some r)⟩ ∧
        (∀ u, u ≠ t → m.threads u = w.machine.threads u) ∧ m.threads t = .run (.ret (s', r.2)) ∧
        s'.closets.length = r.1.closets.length := by
    intro w t cl ns cs s g r hw h1 h2 h3
    have r2 := World.Run.client t cl ns cs s g r _ hw h1 h2 h3 le_rfl
    obtain ⟨m, r3, _, k3, s', e3⟩ := (hn ⟨_, _⟩ r2 t r.1 r.2 (by simp)).2.2.2
    refine ⟨m, s', r3, fun u hu => ?_, e3, ((hn ⟨m, _⟩ r3 t r.1 r.2 (by simp)).2.1 s' r.2 e3).2.2⟩
    rw [k3 u hu]
    exact Function.update_of_ne hu _ _
  obtain ⟨m, s, r3, k3, e3, l3⟩ := spawn ⟨_, _⟩ 0 builder [] [] ⟨[], []⟩ ⟨[], []⟩ _ r1 rfl rfl a0
  obtain ⟨ns, cs⟩ := s
  obtain ⟨d, rfl⟩ := List.length_eq_one_iff.1 l3
  obtain ⟨m', s', r5, k5, e5, _⟩ := spawn
    ⟨m, Function.update (fun _ => none) 0 (some (⟨[], [c]⟩, .done))⟩ 1 checker [] [(0, 0)] ⟨[], [d]⟩ ⟨[], [c]⟩ _ r3
    (by simp only [pick, held, List.mapM_cons, List.mapM_nil, e3]; rfl) (by simp [pick]) a1
  refine ⟨⟨m', Function.update (Function.update (fun _ => none) 0 (some (⟨[], [c]⟩, .done))) 1
    (some (⟨[], [c, c]⟩, .same true))⟩, r5, ?_, ⟨⟨ns, [d]⟩, ?_⟩, ⟨s', e5⟩⟩
  · show m'.threads 2 = _
    rw [k5 2 (by decide), k3 2 (by decide)]
    simp
  · show m'.threads 0 = _
    rw [k5 0 (by decide)]
    exact e3

end Verif.ArenaBdd
