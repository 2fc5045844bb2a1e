import Verif.ArenaProg
import Mathlib.Order.Lattice
import Mathlib.Order.Defs.LinearOrder
import Mathlib.Order.Nat

/-!
# The derived orders on nodes and node ids (C78)

`Node` and `NodeId` derive `Ord`.  A node holds the ids of its children, so the order compares ids:
it is a total order that agrees with `==` and never changes during a run, but which of two diagrams
comes first depends on which was interned first.
-/

set_option linter.unusedSectionVars false
set_option linter.unusedSimpArgs false

namespace Verif.Arena

universe u v
variable {K : Type u} {L : Type v} [LinearOrder K] [LinearOrder L]

/-- `#[derive(Ord)]` on `NodeId(usize)`: bowtie-core/src/bdd/node/mod.rs:19,
weave/src/zdd2/forest/node/mod.rs:22, weave/src/zdd/node/mod.rs:9. -/
def cmpId (i j : Nat) : Ordering := compare i j

/-- `#[derive(Ord)]` on `enum Node`: the variants in the order of declaration, then the fields in
order.  bowtie-core/src/bdd/node/mod.rs:13-17 (leaves `false < true`; weave/src/zdd/node/mod.rs:20-24
is the same; weave/src/zdd2/forest/node/mod.rs:31-36 declares `Always` before `Never`, another order on `L`). -/
def cmpCell : Cell K L → Cell K L → Ordering
  | .branch k lo hi, .branch k' lo' hi' =>
    (compare k k').then ((cmpId lo lo').then (cmpId hi hi'))
  | .branch _ _ _, .leaf _ => .lt
  | .leaf _, .branch _ _ _ => .gt
  | .leaf l, .leaf l' => compare l l'

theorem swap_compare {α : Type*} [LinearOrder α] (a b : α) : (compare a b).swap = compare b a := by
  rcases lt_trichotomy a b with h | h | h
  · rw [compare_lt_iff_lt.mpr h, compare_gt_iff_gt.mpr h]; rfl
  · subst h; rw [compare_eq_iff_eq.mpr rfl]; rfl
  · rw [compare_gt_iff_gt.mpr h, compare_lt_iff_lt.mpr h]; rfl

/-- C78: the order is total and agrees with equality of nodes. -/
theorem cmpCell_total (c d e : Cell K L) :
    (cmpCell c d = .eq ↔ c = d) ∧ (cmpCell c d).swap = cmpCell d c ∧
    (cmpCell c d = .lt → cmpCell d e = .lt → cmpCell c e = .lt) := by
  refine ⟨?_, ?_, ?_⟩
  · cases c <;> cases d <;> simp [cmpCell, cmpId, Ordering.then_eq_eq, compare_eq_iff_eq]
  · cases c <;> cases d <;> simp [cmpCell, cmpId, Ordering.swap_then, swap_compare]
  · cases c <;> cases d <;> cases e <;>
      simp only [cmpCell, cmpId, Ordering.then_eq_lt, compare_lt_iff_lt, compare_eq_iff_eq, reduceCtorEq,
        false_implies, implies_true, forall_const]
    · rintro (h | ⟨rfl, h | ⟨rfl, h⟩⟩) (h' | ⟨rfl, h' | ⟨rfl, h'⟩⟩)
      · exact Or.inl (h.trans h')
      · exact Or.inl h
      · exact Or.inl h
      · exact Or.inl h'
      · exact Or.inr ⟨rfl, Or.inl (by omega)⟩
      · exact Or.inr ⟨rfl, Or.inl h⟩
      · exact Or.inl h'
      · exact Or.inr ⟨rfl, Or.inl h'⟩
      · exact Or.inr ⟨rfl, Or.inr ⟨rfl, by omega⟩⟩
    · exact fun h h' => h.trans h'

/-- C78: which of two nodes is first: branches are before leaves; branches compare by item, then by the id of
the low child, then by the id of the high child; leaves by their values. -/
theorem cmp_order (k k' : K) (i j i' j' : Nat) (l l' : L) :
    (cmpCell (.branch k i j) (.branch k' i' j' : Cell K L) = .lt ↔
      k < k' ∨ (k = k' ∧ (i < i' ∨ (i = i' ∧ j < j')))) ∧
    cmpCell (.branch k i j) (.leaf l) = .lt ∧ cmpCell (.leaf l) (.branch k i j) = .gt ∧
    (cmpCell (.leaf l) (.leaf l' : Cell K L) = .lt ↔ l < l') := by
  refine ⟨?_, rfl, rfl, ?_⟩
  · simp only [cmpCell, cmpId, Ordering.then_eq_lt, compare_lt_iff_lt, compare_eq_iff_eq]
  · simp only [cmpCell, compare_lt_iff_lt]

/-- C78: at any point of any schedule, two nodes compare as equal exactly if they stand for the same
diagram. -/
theorem cmp_eq_iff {l0 l1 : L} (hl : l0 ≠ l1) {s : Sys K L} (hr : Reach l0 l1 s) {c d : Cell K L}
    {t t' : Tr K L} (hc : CellDen s.arena c t) (hd : CellDen s.arena d t') :
    cmpCell c d = .eq ↔ t = t' := by
  rw [(cmpCell_total c d d).1]
  exact cell_eq_iff (hr.inv hl).arena.toInv hc hd

theorem exec_ext {l0 l1 : L} (hl : l0 ≠ l1) {s s' : Sys K L} (hr : Reach l0 l1 s)
    {es : List (Event K L)} (h : Exec s es s') : Ext s.arena s'.arena :=
  ⟨(hr.inv hl).arena.toInv, (exec_inv h (hr.inv hl)).arena.toInv, fun _ _ hg => resolve_stable h hg⟩

/-- C78: how two diagrams compare never changes during a run: however often and whenever they are
built again, by any thread, the answer is the same. -/
theorem cmp_stable {l0 l1 : L} (hl : l0 ≠ l1) {s s' : Sys K L} (hr : Reach l0 l1 s)
    {es : List (Event K L)} (h : Exec s es s') {c d c' d' : Cell K L} {t t' : Tr K L}
    (hc : CellDen s.arena c t) (hd : CellDen s.arena d t')
    (hc' : CellDen s'.arena c' t) (hd' : CellDen s'.arena d' t') :
    cmpCell c' d' = cmpCell c d := by
  have hi := (exec_inv h (hr.inv hl)).arena.toInv
  have e1 := (cell_eq_iff hi hc' (hc.mono (exec_ext hl hr h))).mpr rfl
  have e2 := (cell_eq_iff hi hd' (hd.mono (exec_ext hl hr h))).mpr rfl
  rw [e1, e2]

/-- `t` is a proper part of `t'`.  Not code: used to state or prove properties. -/
def Part (t : Tr K L) : Tr K L → Prop
  | .branch _ l h => t = l ∨ t = h ∨ Part t l ∨ Part t h
  | .leaf _ => False

/-- C78: at any point of any schedule the id of a proper part of a diagram is before the id of the
diagram. -/
theorem part_before {l0 l1 : L} (hl : l0 ≠ l1) {s : Sys K L} (hr : Reach l0 l1 s) {i j : Nat}
    {t t' : Tr K L} (hi : Unfolds s.arena i t) (hj : Unfolds s.arena j t') (hp : Part t t') :
    cmpId i j = .lt := by
  have inv := (hr.inv hl).arena
  rw [cmpId, compare_lt_iff_lt]
  induction hj with
  | leaf hg => exact hp.elim
  | @branch j k lo hi' tl th hg h1 h2 ih1 ih2 =>
    obtain ⟨b1, b2⟩ := inv.below j k lo hi' hg
    rcases hp with rfl | rfl | hp | hp
    · have := unfolds_inj inv.toInv hi h1; omega
    · have := unfolds_inj inv.toInv hi h2; omega
    · have := ih1 hp; omega
    · have := ih2 hp; omega

/-- C78: which of two diagrams comes first is not a property of the diagrams: it depends on the order
in which parts of them were interned. -/
theorem cmp_depends_on_history : ∃ (s s' : Sys Nat Bool) (c d c' d' : Cell Nat Bool) (t t' : Tr Nat Bool),
    Reach false true s ∧ Reach false true s' ∧
    CellDen s.arena c t ∧ CellDen s.arena d t' ∧ CellDen s'.arena c' t ∧ CellDen s'.arena d' t' ∧
    cmpCell c d = .lt ∧ cmpCell c' d' = .gt := by
  have k : ∀ (x : Nat) (lg : List (Cell Nat Bool × Nat)), (Cell.branch x 0 1 : Cell Nat Bool).known lg :=
    fun x lg => ⟨Or.inl (by decide), Or.inl (by decide)⟩
  refine ⟨_, _, .branch 1 0 2, .branch 1 0 3, .branch 1 0 3, .branch 1 0 2,
    .branch 1 (.leaf false) (.branch 2 (.leaf false) (.leaf true)),
    .branch 1 (.leaf false) (.branch 3 (.leaf false) (.leaf true)),
    ⟨[.addDirect 0 (.branch 2 0 1), .addDirect 0 (.branch 3 0 1)],
      .cons (.addDirect _ 0 _ rfl (k _ _)) (.cons (.addDirect _ 0 _ rfl (k _ _)) (.nil _))⟩,
    ⟨[.addDirect 0 (.branch 3 0 1), .addDirect 0 (.branch 2 0 1)],
      .cons (.addDirect _ 0 _ rfl (k _ _)) (.cons (.addDirect _ 0 _ rfl (k _ _)) (.nil _))⟩,
    ⟨_, _, rfl, .leaf rfl, .branch (lo := 0) (hi := 1) rfl (.leaf rfl) (.leaf rfl)⟩,
    ⟨_, _, rfl, .leaf rfl, .branch (lo := 0) (hi := 1) rfl (.leaf rfl) (.leaf rfl)⟩,
    ⟨_, _, rfl, .leaf rfl, .branch (lo := 0) (hi := 1) rfl (.leaf rfl) (.leaf rfl)⟩,
    ⟨_, _, rfl, .leaf rfl, .branch (lo := 0) (hi := 1) rfl (.leaf rfl) (.leaf rfl)⟩,
    by decide, by decide⟩

/-- A part of a two-level diagram. -/
example : Part (.branch 2 (.leaf false) (.leaf true) : Tr Nat Bool)
    (.branch 1 (.leaf false) (.branch 2 (.leaf false) (.leaf true))) := Or.inr (Or.inl rfl)

end Verif.Arena
