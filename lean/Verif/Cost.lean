import Mathlib.Data.Nat.Basic

/-!
# Counting calls

`Ticked` is a result together with the number of calls of recursive functions (and of iterations of
work-list loops) made to obtain it.  The cost files (`Verif/Zdd2/Cost.lean`, `Verif/Bdd/Cost.lean`) repeat
the recursive functions of the code in this form; that the values are those of the plain functions
is part of every theorem.
-/

namespace Verif

universe u v

/-- A result and the number of calls made.  Not code: used to state or prove properties. -/
structure Ticked (α : Type u) where
  val : α
  calls : Nat

namespace Ticked

/-- No call is made.  Not code: used to state or prove properties. -/
def ret {α : Type u} (a : α) : Ticked α := ⟨a, 0⟩

/-- One after the other.  Not code: used to state or prove properties. -/
def bind {α : Type u} {β : Type v} (t : Ticked α) (k : α → Ticked β) : Ticked β :=
  ⟨(k t.val).val, t.calls + (k t.val).calls⟩

/-- The calls made by a function body, and the call of the function itself.
Not code: used to state or prove properties. -/
def call {α : Type u} (t : Ticked α) : Ticked α := ⟨t.val, t.calls + 1⟩

/-- Change the result, without a call.  Not code: used to state or prove properties. -/
def map {α : Type u} {β : Type v} (f : α → β) (t : Ticked α) : Ticked β := ⟨f t.val, t.calls⟩

/-- A loop over a list.  Not code: used to state or prove properties. -/
def fold {α : Type u} {β : Type v} (s : α → β → Ticked α) (a : α) : List β → Ticked α
  | [] => ret a
  | b :: bs => (s a b).bind fun a => fold s a bs

variable {α : Type u} {β : Type v}

@[simp] theorem ret_val (a : α) : (ret a).val = a := rfl
@[simp] theorem ret_calls (a : α) : (ret a).calls = 0 := rfl
@[simp] theorem bind_val (t : Ticked α) (k : α → Ticked β) : (t.bind k).val = (k t.val).val := rfl
@[simp] theorem bind_calls (t : Ticked α) (k : α → Ticked β) :
    (t.bind k).calls = t.calls + (k t.val).calls := rfl
@[simp] theorem call_val (t : Ticked α) : t.call.val = t.val := rfl
@[simp] theorem call_calls (t : Ticked α) : t.call.calls = t.calls + 1 := rfl
@[simp] theorem map_val (f : α → β) (t : Ticked α) : (t.map f).val = f t.val := rfl
@[simp] theorem map_calls (f : α → β) (t : Ticked α) : (t.map f).calls = t.calls := rfl

theorem fold_val {s : α → β → Ticked α} {g : α → β → α} (h : ∀ a b, (s a b).val = g a b) (a : α) (bs : List β) :
    (fold s a bs).val = bs.foldl g a := by
  induction bs generalizing a with
  | nil => rfl
  | cons b bs ih => rw [fold, bind_val, ih, h]; rfl

/-- If every step costs at most `c`, a loop costs at most `c` per element. -/
theorem fold_calls {s : α → β → Ticked α} {g : α → β → α} (h : ∀ a b, (s a b).val = g a b)
    (P : α → Prop) (c : Nat) (a : α) (bs : List β)
    (hs : ∀ a b, P a → b ∈ bs → P (g a b) ∧ (s a b).calls ≤ c) (ha : P a) :
    (fold s a bs).calls ≤ bs.length * c := by
  induction bs generalizing a with
  | nil => simp [fold]
  | cons b bs ih =>
    obtain ⟨h1, h2⟩ := hs a b ha (by simp)
    have h3 := ih (s a b).val (fun a b' hp hb => hs a b' hp (by simp [hb])) (by rw [h]; exact h1)
    rw [fold, bind_calls, List.length_cons, Nat.succ_mul]
    omega

/-- The cost of a loop is the sum of the costs of its steps, each taken in the state the loop is in. -/
theorem fold_calls_sum {s : α → β → Ticked α} {g : α → β → α} (h : ∀ a b, (s a b).val = g a b)
    (c : β → Nat) (a : α) (bs : List β)
    (hs : ∀ pre b post, bs = pre ++ b :: post → (s (pre.foldl g a) b).calls ≤ c b) :
    (fold s a bs).calls ≤ (bs.map c).sum := by
  induction bs generalizing a with
  | nil => simp [fold]
  | cons b bs ih =>
    have h2 := hs [] b bs rfl
    have h3 := ih (s a b).val (fun pre b' post e => by
      rw [h]; exact hs (b :: pre) b' post (by rw [e]; rfl))
    rw [fold, bind_calls, List.map_cons, List.sum_cons]
    rw [List.foldl_nil] at h2
    omega

end Ticked
end Verif
