import Mathlib.Data.Prod.Lex
import Mathlib.Order.Nat

/-!
# Model of weave/src/status.rs (C50)

`ItemStatus<T>`, its accessors, and the derived order.  Functions passed to `map` / `option_map` are
arbitrary functions.
-/

namespace Verif.Weave

universe u v w
variable {T : Type u} {U : Type v} {V : Type w}

/-- weave/src/status.rs:5-10 -/
inductive ItemStatus (T : Type u) where
  | Required (x : T)
  | Excluded (x : T)
  | Available (x : T)
  | Selected (x : T)
deriving DecidableEq

namespace ItemStatus

/-- weave/src/status.rs:13-20 -/
def item : ItemStatus T → T
  | .Required x => x
  | .Excluded x => x
  | .Available x => x
  | .Selected x => x

/-- weave/src/status.rs:22-29 -/
def isRequired : ItemStatus T → Bool
  | .Required _ => true
  | .Excluded _ => false
  | .Available _ => false
  | .Selected _ => false

/-- weave/src/status.rs:31-38 -/
def isExcluded : ItemStatus T → Bool
  | .Required _ => false
  | .Excluded _ => true
  | .Available _ => false
  | .Selected _ => false

/-- weave/src/status.rs:40-47 -/
def isAvailable : ItemStatus T → Bool
  | .Required _ => false
  | .Excluded _ => false
  | .Available _ => true
  | .Selected _ => false

/-- weave/src/status.rs:49-56 -/
def isSelected : ItemStatus T → Bool
  | .Required _ => false
  | .Excluded _ => false
  | .Available _ => false
  | .Selected _ => true

/-- weave/src/status.rs:58-65 -/
def is [DecidableEq T] (s : ItemStatus T) (other : T) : Bool :=
  match s with
  | .Required inner => inner == other
  | .Excluded inner => inner == other
  | .Available inner => inner == other
  | .Selected inner => inner == other

/-- weave/src/status.rs:67-74 -/
def optionMap (s : ItemStatus T) (f : T → Option U) : Option (ItemStatus U) :=
  match s with
  | .Required x => (f x).map .Required
  | .Excluded x => (f x).map .Excluded
  | .Available x => (f x).map .Available
  | .Selected x => (f x).map .Selected

/-- weave/src/status.rs:76-83 -/
def map (s : ItemStatus T) (f : T → U) : ItemStatus U :=
  match s with
  | .Required x => .Required (f x)
  | .Excluded x => .Excluded (f x)
  | .Available x => .Available (f x)
  | .Selected x => .Selected (f x)

/-- Sort key of the derived `Ord` (weave/src/status.rs:3): variant first, then the item. -/
def key : ItemStatus T → ℕ ×ₗ T
  | .Required i => toLex (0, i)
  | .Excluded i => toLex (1, i)
  | .Available i => toLex (2, i)
  | .Selected i => toLex (3, i)

theorem key_injective : Function.Injective (key : ItemStatus T → ℕ ×ₗ T) := by
  intro a b h
  cases a <;> cases b <;> simp_all [key]

/-- `#[derive(Ord)]` (weave/src/status.rs:3). -/
instance [LinearOrder T] : LinearOrder (ItemStatus T) := LinearOrder.lift' key key_injective

/-! ## C50 -/

/-- The four predicates of a status, as a row.  Not code: used to state or prove properties. -/
def flags (s : ItemStatus T) : Bool × Bool × Bool × Bool :=
  (s.isRequired, s.isExcluded, s.isAvailable, s.isSelected)

/-- C50: a status is exactly one of the four, and the predicates together with the item determine it:
`is_required()` with `item() = x` holds only of `Required(x)`, and so on. -/
theorem predicates_exact (s : ItemStatus T) (x : T) :
    (s = .Required x ↔ s.isRequired = true ∧ s.item = x) ∧
    (s = .Excluded x ↔ s.isExcluded = true ∧ s.item = x) ∧
    (s = .Available x ↔ s.isAvailable = true ∧ s.item = x) ∧
    (s = .Selected x ↔ s.isSelected = true ∧ s.item = x) ∧
    [s.isRequired, s.isExcluded, s.isAvailable, s.isSelected].count true = 1 := by
  cases s <;> simp [isRequired, isExcluded, isAvailable, isSelected, item]

/-- C50: `is` compares the carried item. -/
theorem is_iff [DecidableEq T] (s : ItemStatus T) (x : T) : s.is x = true ↔ s.item = x := by
  cases s <;> simp [is, item]

/-- C50: `map` keeps the variant and applies the function to the item. -/
theorem map_spec (s : ItemStatus T) (f : T → U) :
    (s.map f).item = f s.item ∧ (s.map f).flags = s.flags := by
  cases s <;> exact ⟨rfl, rfl⟩

/-- C50: `option_map` succeeds exactly when the function does on the item, and then keeps the variant. -/
theorem option_map_spec (s : ItemStatus T) (f : T → Option U) :
    (∀ r, s.optionMap f = some r ↔ f s.item = some r.item ∧ r.flags = s.flags) ∧
    (s.optionMap f = none ↔ f s.item = none) := by
  constructor
  · intro r
    cases s with
    | _ x =>
      cases h : f x <;> cases r <;>
        simp [optionMap, h, item, flags, isRequired, isExcluded, isAvailable, isSelected]
  · cases s <;> simp [optionMap, item]

/-- C50: mapping composes, and mapping a total function through `option_map` never fails. -/
theorem map_laws (s : ItemStatus T) (f : T → U) (g : U → V) :
    s.map id = s ∧ (s.map f).map g = s.map (fun x => g (f x)) ∧
    s.optionMap (fun x => some (f x)) = some (s.map f) := by
  cases s <;> exact ⟨rfl, rfl, rfl⟩

/-- The order lists all `Required` first, then `Excluded`, `Available`, `Selected`; inside a variant it
is the order of the items, whatever the items are. -/
theorem order_spec [LinearOrder T] (x y : T) :
    ItemStatus.Required x < .Excluded y ∧ ItemStatus.Excluded x < .Available y ∧
    ItemStatus.Available x < .Selected y ∧
    (ItemStatus.Required x < .Required y ↔ x < y) ∧ (ItemStatus.Excluded x < .Excluded y ↔ x < y) ∧
    (ItemStatus.Available x < .Available y ↔ x < y) ∧ (ItemStatus.Selected x < .Selected y ↔ x < y) := by
  have h : ∀ a b : ItemStatus T, a < b ↔ a.key < b.key := fun _ _ => Iff.rfl
  simp only [h, key, Prod.Lex.toLex_lt_toLex]
  simp

example : (ItemStatus.Available 3).optionMap (fun n : ℕ => if n = 0 then none else some (n * 2)) =
    some (.Available 6) := by decide

end ItemStatus
end Verif.Weave
