import Verif.ArenaApi
import Verif.Text

/-!
# Writing and reading node texts over the shared arena

The text format of both zdd versions as programs over the arena: every `Node::from(id)` is a load, every
`Node::branch` of the parser interns its children, also in a text that turns out to be malformed further on.
-/

set_option linter.unusedSimpArgs false
set_option linter.unusedSectionVars false
set_option linter.unusedVariables false

namespace Verif.Arena
open Verif.Text

/-- `build_node_string`: weave/src/zdd2/forest/node/parser.rs:12-23, weave/src/zdd/node/parser.rs:9-20; `t1` and `t0`
are the texts of the two leaves. -/
def buildTextP (t1 t0 : List Char) : Nat → Cell Nat Bool → Prog Nat Bool (List Char)
  | 0, _ => .spin
  | _ + 1, .leaf true => .ret t1
  | _ + 1, .leaf false => .ret t0
  | f + 1, .branch id low high =>
    .load low fun low => (buildTextP t1 t0 f low).bind fun low =>
    .load high fun high => (buildTextP t1 t0 f high).bind fun high =>
    .ret (branchText id low high)

/-- nom's `ws!(p)` around the recursive rule: weave/src/zdd2/forest/node/parser.rs:46-47,
weave/src/zdd/node/parser.rs:43-44. -/
def wsP (p : List Char → Prog Nat Bool (Option (Cell Nat Bool × List Char))) (l : List Char) :
    Prog Nat Bool (Option (Cell Nat Bool × List Char)) :=
  (p (sp l)).bind fun r => .ret (r.map fun r => (r.1, sp r.2))

/-- The rule `node`, weave/src/zdd2/forest/node/parser.rs:39-53, weave/src/zdd/node/parser.rs:36-50; `br` is
`Node::branch`; the third argument bounds the nesting depth as in `Text.node`. -/
def readNodeP (t1 t0 : List Char) (br : Nat → Cell Nat Bool → Cell Nat Bool → Prog Nat Bool (Cell Nat Bool)) :
    Nat → List Char → Prog Nat Bool (Option (Cell Nat Bool × List Char))
  | 0, _ => .ret none
  | k + 1, l =>
    match tag t1 l with
    | some r => .ret (some (.leaf true, r))
    | none =>
      match tag t0 l with
      | some r => .ret (some (.leaf false, r))
      | none =>
        match tag ['('] l with
        | none => .ret none
        | some r =>
          match ws nodeId r with
          | none => .ret none
          | some (id, r) =>
            (wsP (readNodeP t1 t0 br k) r).bind fun
            | none => .ret none
            | some (low, r) =>
              (wsP (readNodeP t1 t0 br k) r).bind fun
              | none => .ret none
              | some (high, r) =>
                match tag [')'] r with
                | none => .ret none
                | some r => (br id low high).bind fun n => .ret (some (n, r))

/-- `parse_node_string`, weave/src/zdd2/forest/node/parser.rs:25-28 (on the trimmed text),
weave/src/zdd/node/parser.rs:22-25. -/
def readTextP (t1 t0 : List Char) (br : Nat → Cell Nat Bool → Cell Nat Bool → Prog Nat Bool (Cell Nat Bool))
    (l : List Char) : Prog Nat Bool (Option (Cell Nat Bool)) :=
  (readNodeP t1 t0 br (l.length + 1) l).bind fun r => .ret (r.map Prod.fst)

/-- What is read over the arena stands for what is read alone.  Not code: used to state or prove properties. -/
def ReadDen {N : Type} (tr : N → Tr Nat Bool) (out : Option (N × List Char)) (a : Arena Nat Bool)
    (r : Option (Cell Nat Bool × List Char)) : Prop :=
  match out, r with
  | none, none => True
  | some (n, l), some (c, l') => CellDen a c (tr n) ∧ l' = l
  | _, _ => False

/-- `Node::branch` as the parser uses it.  Not code: used to state or prove properties. -/
def BrOk {N : Type} (tr : N → Tr Nat Bool) (g : Grammar N)
    (br : Nat → Nat → Cell Nat Bool → Cell Nat Bool → Prog Nat Bool (Cell Nat Bool)) : Prop :=
  ∀ id n m, ∃ F, ∀ f ≥ F, ∀ (a : Arena Nat Bool) (c d : Cell Nat Bool), a.Inv → CellDen a c (tr n) →
    CellDen a d (tr m) → Returns (br f id c d) a (tr (g.branch id n m))

theorem readNode_ok {N : Type} {tr : N → Tr Nat Bool} {g : Grammar N} (h1 : tr g.leaf1 = .leaf true)
    (h0 : tr g.leaf0 = .leaf false)
    {br : Nat → Nat → Cell Nat Bool → Cell Nat Bool → Prog Nat Bool (Cell Nat Bool)} (hb : BrOk tr g br) (k : Nat)
    (l : List Char) : ∃ F, ∀ f ≥ F, ∀ a : Arena Nat Bool, a.Inv →
      Yields (readNodeP g.tag1 g.tag0 (br f) k l) a (ReadDen tr (node g k l)) := by
  induction k generalizing l with
  | zero => exact ⟨0, fun f hf a hI => Yields.ret hI trivial⟩
  | succ k ih =>
    have ihw : ∀ l, ∃ F, ∀ f ≥ F, ∀ a : Arena Nat Bool, a.Inv →
        Yields (wsP (readNodeP g.tag1 g.tag0 (br f) k) l) a (ReadDen tr (ws (node g k) l)) := by
      intro l
      obtain ⟨F, hF⟩ := ih (sp l)
      refine ⟨F, fun f hf a hI => yields_bind (hF f hf a hI) fun b r e hr => Yields.ret e.right ?_⟩
      rw [ws]
      cases hn : node g k (sp l) with
      | none =>
        rw [hn] at hr
        cases r with
        | none => trivial
        | some r => exact hr.elim
      | some p =>
        rw [hn] at hr
        cases r with
        | none => exact hr.elim
        | some r => exact ⟨hr.1, by rw [show r.2 = p.2 from hr.2]⟩
    rw [node]
    simp only [readNodeP]
    cases e1 : tag g.tag1 l with
    | some r => exact ⟨0, fun f hf a hI => Yields.ret hI ⟨h1, rfl⟩⟩
    | none =>
      cases e2 : tag g.tag0 l with
      | some r => exact ⟨0, fun f hf a hI => Yields.ret hI ⟨h0, rfl⟩⟩
      | none =>
        cases e3 : tag ['('] l with
        | none => exact ⟨0, fun f hf a hI => Yields.ret hI trivial⟩
        | some r =>
          dsimp only
          cases e4 : ws nodeId r with
          | none => exact ⟨0, fun f hf a hI => Yields.ret hI trivial⟩
          | some p =>
            obtain ⟨id, r⟩ := p
            dsimp only
            obtain ⟨F1, hF1⟩ := ihw r
            cases e5 : ws (node g k) r with
            | none =>
              refine ⟨F1, fun f hf a hI => yields_bind (hF1 f hf a hI) fun b q e hq => ?_⟩
              rw [e5] at hq
              cases q with
              | none => exact Yields.ret e.right trivial
              | some q => exact hq.elim
            | some p =>
              obtain ⟨low, r⟩ := p
              dsimp only
              obtain ⟨F2, hF2⟩ := ihw r
              cases e6 : ws (node g k) r with
              | none =>
                refine ⟨F1 + F2, fun f hf a hI => yields_bind (hF1 f (by omega) a hI) fun b q e hq => ?_⟩
                rw [e5] at hq
                cases q with
                | none => exact hq.elim
                | some q =>
                  obtain ⟨c, r'⟩ := q
                  obtain ⟨hc, rfl⟩ := hq
                  refine yields_bind (hF2 f (by omega) b e.right) fun b q e hq => ?_
                  rw [e6] at hq
                  cases q with
                  | none => exact Yields.ret e.right trivial
                  | some q => exact hq.elim
              | some p =>
                obtain ⟨high, r⟩ := p
                dsimp only
                obtain ⟨F3, hF3⟩ := hb id low high
                refine ⟨F1 + F2 + F3, fun f hf a hI => yields_bind (hF1 f (by omega) a hI) fun b q e hq => ?_⟩
                rw [e5] at hq
                cases q with
                | none => exact hq.elim
                | some q =>
                  obtain ⟨c, r'⟩ := q
                  obtain ⟨hc, rfl⟩ := hq
                  refine yields_bind (hF2 f (by omega) b e.right) fun b' q e' hq => ?_
                  rw [e6] at hq
                  cases q with
                  | none => exact hq.elim
                  | some q =>
                    obtain ⟨d, r''⟩ := q
                    obtain ⟨hd, rfl⟩ := hq
                    dsimp only
                    cases e7 : tag [')'] r'' with
                    | none => exact Yields.ret e'.right trivial
                    | some r =>
                      exact yields_bind (hF3 f (by omega) b' c d e'.right (hc.mono e') hd) fun b3 n e3 hn =>
                        Yields.ret e3.right ⟨hn, rfl⟩

/-- Reading a text next to any other threads reads what it reads alone. -/
theorem readText_ok {N : Type} {tr : N → Tr Nat Bool} {g : Grammar N} (h1 : tr g.leaf1 = .leaf true)
    (h0 : tr g.leaf0 = .leaf false)
    {br : Nat → Nat → Cell Nat Bool → Cell Nat Bool → Prog Nat Bool (Cell Nat Bool)} (hb : BrOk tr g br)
    (l : List Char) : ∃ F, ∀ f ≥ F, ∀ a : Arena Nat Bool, a.Inv →
      Yields (readTextP g.tag1 g.tag0 (br f) l) a (fun b r =>
        (parseWith g l = none ∧ r = none) ∨ ∃ n c, parseWith g l = some n ∧ r = some c ∧ CellDen b c (tr n)) := by
  obtain ⟨F, hF⟩ := readNode_ok h1 h0 hb (l.length + 1) l
  refine ⟨F, fun f hf a hI => yields_bind (hF f hf a hI) fun b r e hr => Yields.ret e.right ?_⟩
  rw [parseWith]
  cases hn : node g (l.length + 1) l with
  | none =>
    rw [hn] at hr
    cases r with
    | none => exact .inl ⟨rfl, rfl⟩
    | some r => exact hr.elim
  | some p =>
    rw [hn] at hr
    cases r with
    | none => exact hr.elim
    | some r => exact .inr ⟨_, _, rfl, rfl, hr.1⟩

/-- Writing the text of a node next to any other threads writes what is written alone.  `text` is the text of a tree.
-/
theorem buildText_ok {t1 t0 : List Char} {text : Tr Nat Bool → List Char} (h1 : text (.leaf true) = t1)
    (h0 : text (.leaf false) = t0) (hb : ∀ i l h, text (.branch i l h) = branchText i (text l) (text h))
    (t : Tr Nat Bool) : ∃ F, ∀ f ≥ F, ∀ (a : Arena Nat Bool) c, a.Inv → CellDen a c t →
      Yields (buildTextP t1 t0 f c) a (fun _ r => r = text t) := by
  induction t with
  | leaf v =>
    refine ⟨1, fun f hf a c hI hc => ?_⟩
    obtain ⟨f, rfl⟩ : ∃ g, f = g + 1 := ⟨f - 1, by omega⟩
    obtain rfl := hc.leaf_inv
    cases v
    · exact Yields.ret hI h0.symm
    · exact Yields.ret hI h1.symm
  | branch i l h ihl ihh =>
    obtain ⟨F1, k1⟩ := ihl
    obtain ⟨F2, k2⟩ := ihh
    refine ⟨F1 + F2 + 1, fun f hf a c hI hc => ?_⟩
    obtain ⟨f, rfl⟩ : ∃ g, f = g + 1 := ⟨f - 1, by omega⟩
    obtain ⟨lo, hi, rfl, ul, uh⟩ := hc.branch_inv
    refine yields_load ul fun b1 c1 e1 d1 => ?_
    refine yields_bind (k1 f (by omega) b1 c1 e1.right d1) fun b2 r1 e2 q1 => ?_
    refine yields_load (uh.mono (e1.trans e2)) fun b3 c2 e3 d2 => ?_
    refine yields_bind (k2 f (by omega) b3 c2 e3.right d2) fun b4 r2 e4 q2 => ?_
    exact Yields.ret e4.right (by rw [q1, q2, hb])

end Verif.Arena
