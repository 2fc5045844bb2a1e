import Verif.Spec
import Mathlib.Data.Set.Card
import Mathlib.Order.Defs.LinearOrder

/-!
# Specification vocabulary for the zdd2 forests

Everything is stated about families of finite sets; nothing here mentions nodes or priorities.
-/

namespace Verif.Zdd2.Spec
open Verif.Spec

universe u
variable {T : Type u} [LinearOrder T]

/-- How many members of the family contain `x`.  Not code: used to state or prove properties. -/
noncomputable def count (A : Set (Finset T)) (x : T) : Nat := (having A x).ncard

/-- The frequency order: more frequent items come first, ties go to the smaller item.
Not code: used to state or prove properties. -/
def Before (c : T → Nat) (x y : T) : Prop := c y < c x ∨ (c x = c y ∧ x < y)

/-- The non-empty members: what a zdd2 forest can hold.  Not code: used to state or prove properties. -/
def nonempty (A : Set (Finset T)) : Set (Finset T) := {s | s ∈ A ∧ s.Nonempty}

/-- `A` survives a change of item order from frequency `c` to frequency `c'`: whenever the change
swaps two items `x`, `y` of a member `s` (`x` was before `y`, now `y` is before `x`), every member
that agrees with `s` on the items before `x` contains both or neither.
Not code: used to state or prove properties. -/
def OrderSafe (A : Set (Finset T)) (c c' : T → Nat) : Prop :=
  ∀ s ∈ A, ∀ t ∈ A, ∀ x ∈ s, ∀ y ∈ s, Before c x y → Before c' y x →
    (∀ z, Before c z x → (z ∈ s ↔ z ∈ t)) → (x ∈ t ↔ y ∈ t)

/-- Both families survive the frequency order of their combination.  Not code: used to state or prove properties. -/
def Compatible (A B : Set (Finset T)) : Prop :=
  OrderSafe A (count A) (fun x => count A x + count B x) ∧
  OrderSafe B (count B) (fun x => count A x + count B x)

/-- No member of `A` lies strictly above a member of `B` without being in `B`.
Not code: used to state or prove properties. -/
def NoneAbove (A B : Set (Finset T)) : Prop := ∀ p ∈ A, ∀ q ∈ B, q ⊂ p → p ∈ B

/-- Closed under pairwise union.  Not code: used to state or prove properties. -/
def UnionClosed (A : Set (Finset T)) : Prop := ∀ p ∈ A, ∀ q ∈ A, p ∪ q ∈ A

/-- No item in common.  Not code: used to state or prove properties. -/
def ItemDisjoint (A B : Set (Finset T)) : Prop := ∀ p ∈ A, ∀ q ∈ B, Disjoint p q

/-- `q` is an initial segment of `s`: a subset all of whose items come before the other items of `s`.
Not code: used to state or prove properties. -/
def Initial (lt : T → T → Prop) (q s : Finset T) : Prop :=
  q ⊆ s ∧ ∀ x ∈ q, ∀ y ∈ s, y ∉ q → lt x y

/-- `B` stops inside `s`: it has a member `q` that is an initial segment of `s`, and every longer
member of `B` that continues `q` does so with an item before all the items `s` continues with.
(`s` itself being a member of `B` is the case `q = s`.)
Not code: used to state or prove properties. -/
def Stops (lt : T → T → Prop) (B : Set (Finset T)) (s : Finset T) : Prop :=
  ∃ q ∈ B, Initial lt q s ∧
    ∀ t ∈ B, Initial lt q t → t ≠ q → ∀ y ∈ s, y ∉ q → ∃ z ∈ t, z ∉ q ∧ lt z y

/-- What `intersect` computes: the members of either family in which the other family stops.
Not code: used to state or prove properties. -/
def stopIntersect (lt : T → T → Prop) (A B : Set (Finset T)) : Set (Finset T) :=
  {s | (s ∈ A ∧ Stops lt B s) ∨ (s ∈ B ∧ Stops lt A s)}

/-- How the members of `A` that agree with `p` before `x` continue from `x` on.
Not code: used to state or prove properties. -/
def Cont (lt : T → T → Prop) (A : Set (Finset T)) (p : Finset T) (x : T) : Set (Finset T) :=
  {r | ∃ t ∈ A, (∀ z, lt z x → (z ∈ t ↔ z ∈ p)) ∧ ∀ z, z ∈ r ↔ z ∈ t ∧ ¬ lt z x}

/-- What `product` computes: the unions `p ∪ q`, except those of pairs that differ at an item where
the two families have the same continuations.
Not code: used to state or prove properties. -/
def contProduct (lt : T → T → Prop) (A B : Set (Finset T)) : Set (Finset T) :=
  {s | ∃ p ∈ A, ∃ q ∈ B, s = p ∪ q ∧
    ∀ x, ¬ (x ∈ p ↔ x ∈ q) → Cont lt A p x ≠ Cont lt B q x}

/-- What is left of the members that contain `y`, without `y`.  Not code: used to state or prove properties. -/
def rest (A : Set (Finset T)) (y : T) : Set (Finset T) := {s | y ∉ s ∧ insert y s ∈ A}

/-- Every member with `y` added.  Not code: used to state or prove properties. -/
def add (y : T) (A : Set (Finset T)) : Set (Finset T) := {s | ∃ t ∈ A, s = insert y t}

open scoped Classical in
/-- What is left of `L ∪ add x H` when a diagram testing `x` first, then `L` or `H`, is brought into
an order in which the items `ys` come before `x`.  Items of `ys` are looked at in order.
* `y` does not occur in `H`: the members of `L` with `y` are kept, the rest goes on.
* `y` occurs in `H` and in `L`, and no item before `y` occurred in `L`: split both on `y`.
* otherwise, `y` occurs in `H`: the members of `L` with `y` (if any) are lost, and those without `y`
  are kept; `H` is split on `y` and its two parts take the roles of `L` and `H`: the part without `y`
  wrongly gets `y`, and the part with `y` gets `x` and `y`.
Not code: used to state or prove properties. -/
noncomputable def place (x : T) : List T → Prop → Set (Finset T) → Set (Finset T) → Set (Finset T)
  | [], _, L, H => L ∪ add x H
  | y :: ys, late, L, H =>
    if ∀ s ∈ H, y ∉ s then having L y ∪ place x ys (late ∨ ∃ s ∈ L, y ∈ s) (without L y) H
    else if ¬ late ∧ ∃ s ∈ L, y ∈ s then
      place x ys False (without L y) (without H y) ∪ add y (place x ys False (rest L y) (rest H y))
    else without L y ∪ add y (place x ys False (without H y) (rest H y))

/-- What is left of a family when its diagram in one item order is rebuilt in the order `new`.
The list argument is the old order.  Not code: used to state or prove properties. -/
noncomputable def rerank (new : List T) : List T → Set (Finset T) → Set (Finset T)
  | [], A => A
  | x :: old, A => place x (new.takeWhile (· ≠ x)) False
      (rerank new old (without A x)) (rerank new old (rest A x))

/-- `l` lists the items of `A` (of `A` and `B`), most frequent (by `c`) first.
Not code: used to state or prove properties. -/
def Ranked (c : T → Nat) (A : Set (Finset T)) (l : List T) : Prop :=
  l.Pairwise (Before c) ∧ ∀ x, x ∈ l ↔ ∃ s ∈ A, x ∈ s

/-- `t` agrees with `s` on the items before `x` in the old order and on those before `y` in the new order.
Not code: used to state or prove properties. -/
def Alike (c c' : T → Nat) (s : Finset T) (x y : T) (t : Finset T) : Prop :=
  ∀ z, Before c z x ∨ Before c' z y → (z ∈ t ↔ z ∈ s)

/-- Some member alike `s` contains `x` and `y`.  Not code: used to state or prove properties. -/
def Both (A : Set (Finset T)) (c c' : T → Nat) (s : Finset T) (x y : T) : Prop :=
  ∃ t ∈ A, Alike c c' s x y t ∧ x ∈ t ∧ y ∈ t

/-- Some member alike `s` contains `y` but not `x`.  Not code: used to state or prove properties. -/
def Only (A : Set (Finset T)) (c c' : T → Nat) (s : Finset T) (x y : T) : Prop :=
  ∃ t ∈ A, Alike c c' s x y t ∧ x ∉ t ∧ y ∈ t

/-- The family keeps its members when its diagram, in the order of the frequencies `c`, is rebuilt in the order of the
frequencies `c'`.  For an item `x` of a member `s` and an item `y` that comes after `x` and moves before it, and that
occurs together with `x` in a member alike `s`: either `x` and `y` occur only together in the members alike `s`; or
`y` also occurs without `x`, and every earlier item `y'` that occurs only without `x` is followed, before `y`, by an item
that occurs with `x`.
Not code: used to state or prove properties. -/
def Keeps (A : Set (Finset T)) (c c' : T → Nat) : Prop :=
  ∀ s ∈ A, ∀ x ∈ s, ∀ y, Before c x y → Before c' y x → Both A c c' s x y →
    (∀ t ∈ A, Alike c c' s x y t → (x ∈ t ↔ y ∈ t)) ∨
    (Only A c c' s x y ∧ ∀ y', Before c x y' → Before c' y' y → Only A c c' s x y' → ¬ Both A c c' s x y' →
      ∃ y'', Before c x y'' ∧ Before c' y' y'' ∧ Before c' y'' y ∧ Both A c c' s x y'')

end Verif.Zdd2.Spec
