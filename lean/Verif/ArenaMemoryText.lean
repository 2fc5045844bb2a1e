import Verif.ArenaMemoryWorld
import Verif.ArenaText

/-!
# Reading and writing node texts does not look at the numbers of ids (C108)
-/

set_option linter.unusedSectionVars false
set_option linter.unusedVariables false

namespace Verif.Arena
open Verif.Text

universe u v w w' w'' x
variable {R : Nat → Nat → Prop}

theorem buildText_alike (t1 t0 : List Char) (f : Nat) {c d : Cell Nat Bool} (h : CellRel R c d) :
    Alike R (· = ·) (buildTextP t1 t0 f c) (buildTextP t1 t0 f d) := by
  induction f generalizing c d with
  | zero => exact .spin
  | succ f ih =>
    cases h with
    | leaf l => cases l <;> exact .ret rfl
    | branch h1 h2 =>
      refine .load h1 fun _ _ h => (ih h).bind fun _ _ e => ?_
      subst e
      refine .load h2 fun _ _ h => (ih h).bind fun _ _ e => ?_
      subst e
      exact .ret rfl

/-- Not code: used to state or prove properties. -/
inductive ReadRel (R : Nat → Nat → Prop) : Option (Cell Nat Bool × List Char) → Option (Cell Nat Bool × List Char) → Prop where
  | none : ReadRel R none none
  | some {c d l} : CellRel R c d → ReadRel R (some (c, l)) (some (d, l))

theorem readNode_alike (t1 t0 : List Char) {br : Nat → Cell Nat Bool → Cell Nat Bool → Prog Nat Bool (Cell Nat Bool)}
    (hbr : ∀ id {x y x' y'}, CellRel R x x' → CellRel R y y' → Alike R (CellRel R) (br id x y) (br id x' y'))
    (k : Nat) (l : List Char) : Alike R (ReadRel R) (readNodeP t1 t0 br k l) (readNodeP t1 t0 br k l) := by
  induction k generalizing l with
  | zero => exact .ret .none
  | succ k ih =>
    have hws : ∀ l, Alike R (ReadRel R) (wsP (readNodeP t1 t0 br k) l) (wsP (readNodeP t1 t0 br k) l) := fun l =>
      (ih (sp l)).bind fun x y h => .ret (by
        cases h with
        | none => exact .none
        | some h => exact .some h)
    rw [readNodeP]
    split
    · exact .ret (.some (.leaf _))
    split
    · exact .ret (.some (.leaf _))
    split
    · exact .ret .none
    split
    · exact .ret .none
    · refine (hws _).bind fun x y h => ?_
      cases h with
      | none => exact .ret .none
      | some h =>
        refine (hws _).bind fun x y h' => ?_
        cases h' with
        | none => exact .ret .none
        | some h' =>
          dsimp only
          split
          · exact .ret .none
          · exact (hbr _ h h').bind fun _ _ h => .ret (.some h)

theorem readText_alike (t1 t0 : List Char) {br : Nat → Cell Nat Bool → Cell Nat Bool → Prog Nat Bool (Cell Nat Bool)}
    (hbr : ∀ id {x y x' y'}, CellRel R x x' → CellRel R y y' → Alike R (CellRel R) (br id x y) (br id x' y'))
    (l : List Char) : Alike R (Option.Rel (CellRel R)) (readTextP t1 t0 br l) (readTextP t1 t0 br l) :=
  (readNode_alike t1 t0 hbr _ l).bind fun x y h => .ret (by
    cases h with
    | none => exact .none
    | some h => exact .some h)

/-! ## Clients name values by position -/

theorem named_alike {K : Type u} {L : Type v} [DecidableEq K] [DecidableEq L] {α β : Type w} {V : α → α → Prop}
    {S : β → β → Prop} {s s' : List α} (h : List.Forall₂ V s s') (i : Nat)
    {k k' : α → Prog K L β} (hk : ∀ x y, V x y → Alike R S (k x) (k' y)) :
    Alike R S (named s[i]? k) (named s'[i]? k') := by
  induction h generalizing i with
  | nil => simp only [List.getElem?_nil]; exact .panic
  | cons hx _ ih =>
    cases i with
    | zero => simpa [named] using hk _ _ hx
    | succ i => simpa using ih i

theorem snoc_rel {α : Type w} {V : α → α → Prop} {s s' : List α} (h : List.Forall₂ V s s') {x y : α} (hx : V x y) :
    List.Forall₂ V (s ++ [x]) (s' ++ [y]) := by
  induction h with
  | nil => exact .cons hx .nil
  | cons h _ ih => exact .cons h ih

end Verif.Arena
