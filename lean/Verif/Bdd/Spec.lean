import Mathlib.Data.Finset.Basic

/-!
# Specification of closets, in terms of the calls made on the builder

Nothing here refers to the model: a closet is described by the history of calls, an outfit by the
set of worn items.
-/

namespace Verif.Bdd.Spec

universe u v

/-- A call on `ClosetBuilder`.  The methods of bowtie-core/src/bdd/closet_builder/mod.rs:27-67. -/
inductive Call (I : Type u) (F : Type v) where
  /-- `add_item(family, item)` -/
  | item (f : F) (i : I)
  /-- `add_exclusion_rule(selection, exclusion)` -/
  | exclude (a b : I)
  /-- `add_inclusion_rule(selection, inclusion)` -/
  | incl (a b : I)
deriving DecidableEq

variable {I : Type u} {F : Type v}

/-- The item was added to some family.  Not code: used to state or prove properties. -/
def Known (cs : List (Call I F)) (i : I) : Prop := ∃ f, Call.item f i ∈ cs

/-- No item is in two families; every rule names known items of different families.
Not code: used to state or prove properties. -/
structure Legal (cs : List (Call I F)) : Prop where
  oneFamily : ∀ f g i, Call.item f i ∈ cs → Call.item g i ∈ cs → f = g
  exclusions : ∀ a b, Call.exclude a b ∈ cs →
    ∃ f g, Call.item f a ∈ cs ∧ Call.item g b ∈ cs ∧ f ≠ g
  inclusions : ∀ a b, Call.incl a b ∈ cs →
    ∃ f g, Call.item f a ∈ cs ∧ Call.item g b ∈ cs ∧ f ≠ g

/-- The family under which the item was added first.  Not code: used to state or prove properties. -/
def Home (cs : List (Call I F)) (i : I) (f : F) : Prop :=
  ∃ pre post, cs = pre ++ Call.item f i :: post ∧ ∀ g, Call.item g i ∉ pre

/-- The worn items (any predicate) obey the closet: exactly one item of every family, never both
sides of an exclusion, never the left side of an inclusion without the right side.
Not code: used to state or prove properties. -/
structure Accepts (cs : List (Call I F)) (w : I → Prop) : Prop where
  one : ∀ f i, Call.item f i ∈ cs → ∃! j, Call.item f j ∈ cs ∧ w j
  exclusions : ∀ a b, Call.exclude a b ∈ cs → ¬ (w a ∧ w b)
  inclusions : ∀ a b, Call.incl a b ∈ cs → w a → w b

/-- A valid outfit: a set of known items obeying the closet.  Not code: used to state or prove properties. -/
structure Outfit (cs : List (Call I F)) (w : Finset I) : Prop where
  known : ∀ i ∈ w, Known cs i
  accepts : Accepts cs (fun i => i ∈ w)

end Verif.Bdd.Spec
