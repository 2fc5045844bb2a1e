import Mathlib.Data.Finset.Basic
import Mathlib.Data.Set.Basic

/-!
# Specification vocabulary, independent of the models

A forest is observed through `trees()`: a list of lists of items.  What it means is a set of finite
sets of items.
-/

namespace Verif.Spec

universe u
variable {T : Type u} [DecidableEq T]

/-- The family of sets listed by a `Vec<Vec<T>>`.  Not code: used to state or prove properties. -/
def family (ls : List (List T)) : Set (Finset T) := {s | ∃ l ∈ ls, l.toFinset = s}

/-- The product of two families: all unions of a member of each.  Not code: used to state or prove properties. -/
def prod (A B : Set (Finset T)) : Set (Finset T) := {s | ∃ a ∈ A, ∃ b ∈ B, s = a ∪ b}

/-- Members containing `x` / not containing `x` / containing all of `xs` / none of `xs`.
Not code: used to state or prove properties. -/
def having (A : Set (Finset T)) (x : T) : Set (Finset T) := {s | s ∈ A ∧ x ∈ s}
/-- Not code: used to state or prove properties. -/
def without (A : Set (Finset T)) (x : T) : Set (Finset T) := {s | s ∈ A ∧ x ∉ s}
/-- Not code: used to state or prove properties. -/
def havingAll (A : Set (Finset T)) (xs : List T) : Set (Finset T) := {s | s ∈ A ∧ ∀ x ∈ xs, x ∈ s}
/-- Not code: used to state or prove properties. -/
def havingNone (A : Set (Finset T)) (xs : List T) : Set (Finset T) := {s | s ∈ A ∧ ∀ x ∈ xs, x ∉ s}

end Verif.Spec
