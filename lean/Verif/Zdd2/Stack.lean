import Verif.Zdd2.Props
import Verif.Zdd2.Size

/-!
# How deep the zdd2 operations recurse (C84)

The recursive functions of weave/src/zdd2/forest, with a bound on the number of nested calls: `opF f` is
`op` on a stack with room for `f` frames, and `none` if a call finds no room.  The value computed is
compared with the unbounded function of `Verif.Zdd2.Node` / `Verif.Zdd2.Forest`.
Frames of non-recursive functions (iterator adapters, conversions, arena access, one-line wrappers)
are not counted: there is a fixed number of them per counted frame.
-/

set_option linter.unusedSimpArgs false
set_option linter.unusedSectionVars false
set_option linter.unusedVariables false

namespace Verif.Zdd2

namespace Node

/-- weave/src/zdd2/forest/node/mod.rs:67-96 on a stack of the given depth. -/
def branchF : Nat → Nat → Node → Node → Option Node
  | 0, _, _, _ => none
  | f + 1, id, low, high =>
    match high, low with
    | .Never, low => some low
    | .Branch hId hLow hHigh, .Branch lId lLow lHigh =>
      if hId < id ∧ lId = hId then
        (branchF f id lLow hLow).bind fun low =>
        (branchF f id lHigh hHigh).bind fun high => branchF f hId low high
      else if hId < id then
        (branchF f id hLow hHigh).bind fun high => branchF f hId (.Branch lId lLow lHigh) high
      else if lId < id then
        (branchF f id lLow (.Branch hId hLow hHigh)).bind fun low => branchF f lId low lHigh
      else if hId = id then branchF f id (.Branch lId lLow lHigh) hHigh
      else if lId = id then branchF f id lLow (.Branch hId hLow hHigh)
      else some (.Branch id (.Branch lId lLow lHigh) (.Branch hId hLow hHigh))
    | .Branch hId hLow hHigh, low =>
      if hId < id then (branchF f id hLow hHigh).bind fun high => branchF f hId low high
      else if hId = id then branchF f id low hHigh
      else some (.Branch id low (.Branch hId hLow hHigh))
    | .Always, .Branch lId lLow lHigh =>
      if lId < id then (branchF f id lLow .Always).bind fun low => branchF f lId low lHigh
      else if lId = id then branchF f id lLow .Always
      else some (.Branch id (.Branch lId lLow lHigh) .Always)
    | .Always, low => some (.Branch id low .Always)

/-- weave/src/zdd2/forest/node/union.rs:3-48 on a stack of the given depth. -/
def unionF : Nat → Node → Node → Option Node
  | 0, _, _ => none
  | f + 1, node1, node2 =>
    if node1 = node2 then some node1
    else
      match node1, node2 with
      | node1, .Never => some node1
      | .Never, node2 => some node2
      | .Always, .Always => some .Always
      | .Branch id low high, .Always => (unionF f low .Always).bind fun low => branchF f id low high
      | .Always, .Branch id low high => (unionF f .Always low).bind fun low => branchF f id low high
      | .Branch id1 low1 high1, .Branch id2 low2 high2 =>
        if id1 < id2 then
          (unionF f low1 (.Branch id2 low2 high2)).bind fun low => branchF f id1 low high1
        else if id1 > id2 then
          (unionF f (.Branch id1 low1 high1) low2).bind fun low => branchF f id2 low high2
        else
          (unionF f low1 low2).bind fun low => (unionF f high1 high2).bind fun high =>
          branchF f id1 low high

/-- weave/src/zdd2/forest/node/intersect.rs:3-28 on a stack of the given depth. -/
def intersectF : Nat → Node → Node → Option Node
  | 0, _, _ => none
  | f + 1, node1, node2 =>
    if node1 = node2 then some node1
    else
      match node1, node2 with
      | node1, .Always => some node1
      | .Always, node2 => some node2
      | _, .Never => some .Never
      | .Never, _ => some .Never
      | .Branch id1 low1 high1, .Branch id2 low2 high2 =>
        if id1 < id2 then intersectF f low1 (.Branch id2 low2 high2)
        else if id1 > id2 then intersectF f (.Branch id1 low1 high1) low2
        else
          (intersectF f low1 low2).bind fun low => (intersectF f high1 high2).bind fun high =>
          branchF f id1 low high

/-- weave/src/zdd2/forest/node/product.rs:3-44 on a stack of the given depth. -/
def productF : Nat → Node → Node → Option Node
  | 0, _, _ => none
  | f + 1, node1, node2 =>
    if node1 = node2 then some node1
    else
      match node1, node2 with
      | node1, .Always => some node1
      | .Always, node2 => some node2
      | _, .Never => some .Never
      | .Never, _ => some .Never
      | .Branch id1 low1 high1, .Branch id2 low2 high2 =>
        if id1 < id2 then
          (productF f low1 (.Branch id2 low2 high2)).bind fun low =>
          (productF f high1 (.Branch id2 low2 high2)).bind fun high => branchF f id1 low high
        else if id1 > id2 then
          (productF f (.Branch id1 low1 high1) low2).bind fun low =>
          (productF f (.Branch id1 low1 high1) high2).bind fun high => branchF f id2 low high
        else
          (productF f low1 low2).bind fun low1low2 =>
          (productF f low1 high2).bind fun low1high2 =>
          (productF f high1 low2).bind fun high1low2 =>
          (productF f high1 high2).bind fun high1high2 =>
          (unionF f high1low2 high1high2).bind fun newHigh =>
          (unionF f low1high2 newHigh).bind fun high =>
          branchF f id1 low1low2 high

/-- weave/src/zdd2/forest/node/subset.rs:10-31 on a stack of the given depth. -/
def subsetInnerF : Nat → Node → Nat → Option (Node × Bool)
  | 0, _, _ => none
  | f + 1, root, element =>
    match root with
    | .Branch id low high =>
      if element = id then (branchF f id .Never high).map fun n => (n, true)
      else
        (subsetInnerF f low element).bind fun l => (subsetInnerF f high element).bind fun h =>
        (branchF f id (reduceBranch l).1 (reduceBranch h).1).map fun n =>
          (n, (reduceBranch l).2 || (reduceBranch h).2)
    | .Always => some (.Always, false)
    | .Never => some (.Never, false)

/-- weave/src/zdd2/forest/node/subset.rs:33-46 on a stack of the given depth. -/
def subsetNotF : Nat → Node → Nat → Option Node
  | 0, _, _ => none
  | f + 1, root, element =>
    match root with
    | .Branch id low high =>
      if element = id then some low
      else
        (subsetNotF f low element).bind fun low => (subsetNotF f high element).bind fun high =>
        branchF f id low high
    | .Always => some .Always
    | .Never => some .Never

/-- weave/src/zdd2/forest/node/subset.rs:6-8 and 48-52 on a stack of the given depth. -/
def subsetAllF (f : Nat) (root : Node) (elements : List Nat) : Option Node :=
  elements.foldlM (fun acc e => (subsetInnerF f root e).bind fun s => intersectF f acc s.1) .Always

/-- weave/src/zdd2/forest/node/subset.rs:54-58 on a stack of the given depth. -/
def subsetNoneF (f : Nat) (root : Node) (elements : List Nat) : Option Node :=
  elements.foldlM (fun acc e => (subsetNotF f root e).bind fun s => intersectF f acc s) .Always

/-- weave/src/zdd2/forest/node/mod.rs:173-183 on a stack of the given depth. -/
def fromIterF (f : Nat) (upperZero : Bool) (items : List Nat) : Option Node :=
  if upperZero then some .Never
  else items.foldlM (fun root item => branchF f item .Never root) .Always

/-! ### within how much room each function ends -/

/-- The root id, if any, is at least `x`.  Not code: used to state or prove properties. -/
def Ge (x : Nat) : Node → Prop
  | .Branch i _ _ => x ≤ i
  | _ => True

/-- Every id is below `N`.  Not code: used to state or prove properties. -/
def Lt (N : Nat) : Node → Prop
  | .Branch i l h => i < N ∧ l.Lt N ∧ h.Lt N
  | _ => True

theorem Above.ge {x : Nat} {n : Node} (h : Above x n) : Ge (x + 1) n := by
  cases n <;> simp_all [Above, Ge]

theorem Ge.above {x y : Nat} {n : Node} (h : Ge y n) (hx : x < y) : Above x n := by
  cases n <;> simp_all [Above, Ge]; omega

theorem Ge.mono {x y : Nat} {n : Node} (h : Ge y n) (hx : x ≤ y) : Ge x n := by
  cases n <;> simp_all [Ge]; omega

theorem Ge.le {x : Nat} {n : Node} (h : Ge (x + 1) n) : Ge x n := h.mono (by omega)

theorem ge_zero (n : Node) : Ge 0 n := by cases n <;> simp [Ge]

theorem branchF_plain {f id : Nat} {low high : Node} (hl : Above id low) (hh : Above id high) :
    branchF (f + 1) id low high = some (branch id low high) := by
  rw [branchF.eq_def, branch.eq_def]
  cases high <;> cases low <;> simp_all [Above] <;>
    (repeat rw [if_neg (by omega)])

theorem branchF_lowGe {f id : Nat} {low high : Node} (ol : low.Ordered)
    (hl : Ge id low) (hh : Above id high) : branchF (f + 2) id low high = some (branch id low high) := by
  by_cases hl' : Above id low
  · exact branchF_plain hl' hh
  cases low with
  | Always => exact absurd trivial hl'
  | Never => exact absurd trivial hl'
  | Branch lId lLow lHigh =>
    simp only [Above, Ge] at hl hl'
    obtain rfl : lId = id := by omega
    simp only [Ordered] at ol
    have e := branchF_plain (f := f) ol.1 hh
    rw [branchF.eq_def, branch.eq_def]
    cases high with
    | Never => rfl
    | Always => simp [e]
    | Branch hId hLow hHigh =>
      simp only [Above] at hh
      simp only
      rw [if_neg (by omega), if_neg (by omega), if_neg (by omega), if_neg (by omega), if_pos (by trivial),
        if_neg (by omega), if_neg (by omega), if_neg (by omega), if_neg (by omega), if_pos (by trivial)]
      exact e

theorem branchF_ge {f id : Nat} {low high : Node} (ol : low.Ordered) (oh : high.Ordered)
    (hl : Ge id low) (hh : Ge id high) : branchF (f + 3) id low high = some (branch id low high) := by
  by_cases hh' : Above id high
  · exact branchF_lowGe ol hl hh'
  cases high with
  | Always => exact absurd trivial hh'
  | Never => exact absurd trivial hh'
  | Branch hId hLow hHigh =>
    simp only [Above, Ge] at hh hh'
    obtain rfl : hId = id := by omega
    simp only [Ordered] at oh
    have e := branchF_lowGe (f := f) ol hl oh.2.1
    rw [branchF.eq_def, branch.eq_def]
    cases low with
    | Never => simp [e]
    | Always => simp [e]
    | Branch lId lLow lHigh =>
      simp only [Ge] at hl
      simp only
      rw [if_neg (by omega), if_neg (by omega), if_neg (by omega), if_pos (by trivial),
        if_neg (by omega), if_neg (by omega), if_neg (by omega), if_pos (by trivial)]
      exact e

theorem branchF_eq {f x id : Nat} {low high : Node} (ol : low.Ordered) (oh : high.Ordered)
    (hl : Ge x low) (hh : Ge x high) (hf : id - x + 3 ≤ f) :
    branchF f id low high = some (branch id low high) := by
  induction f generalizing x id low high with
  | zero => omega
  | succ f ih =>
    by_cases hc : Ge id low ∧ Ge id high
    · obtain ⟨g, rfl⟩ : ∃ g, f = g + 2 := ⟨f - 2, by omega⟩
      exact branchF_ge ol oh hc.1 hc.2
    have hx : x < id := by
      by_contra hx
      exact hc ⟨hl.mono (by omega), hh.mono (by omega)⟩
    rw [branchF.eq_def, branch.eq_def]
    cases high with
    | Never => rfl
    | Always =>
      cases low with
      | Never => rfl
      | Always => rfl
      | Branch lId lLow lHigh =>
        simp only [Ge] at hl
        simp only [Ordered] at ol
        simp only
        split_ifs with h1 h2
        · rw [ih (x := lId + 1) (high := .Always) ol.2.2.2.1 trivial ol.1.ge trivial (by omega)]
          exact ih (x := lId) (Ordered.branch (h := .Always) ol.2.2.2.1 trivial) ol.2.2.2.2
            (Above.branch (h := .Always) ol.2.2.2.1 trivial h1 ol.1 trivial).ge.le ol.2.1.ge.le (by omega)
        · exact absurd (by simp only [Ge, and_true]; omega) hc
        · rfl
    | Branch hId hLow hHigh =>
      simp only [Ge] at hh
      have oh' := oh
      simp only [Ordered] at oh
      cases low with
      | Branch lId lLow lHigh =>
        simp only [Ge] at hl
        have ol' := ol
        simp only [Ordered] at ol
        simp only
        split_ifs with h1 h2 h3 h4 h5
        · obtain ⟨h1, rfl⟩ := h1
          rw [ih (x := lId + 1) ol.2.2.2.1 oh.2.2.2.1 ol.1.ge oh.1.ge (by omega),
            ih (x := lId + 1) ol.2.2.2.2 oh.2.2.2.2 ol.2.1.ge oh.2.1.ge (by omega)]
          exact ih (x := lId) (ol.2.2.2.1.branch oh.2.2.2.1) (ol.2.2.2.2.branch oh.2.2.2.2)
            (Above.branch ol.2.2.2.1 oh.2.2.2.1 h1 ol.1 oh.1).ge.le
            (Above.branch ol.2.2.2.2 oh.2.2.2.2 h1 ol.2.1 oh.2.1).ge.le (by omega)
        · rw [ih (x := hId + 1) oh.2.2.2.1 oh.2.2.2.2 oh.1.ge oh.2.1.ge (by omega)]
          exact ih (x := x) ol' (oh.2.2.2.1.branch oh.2.2.2.2) hl
            ((Above.branch oh.2.2.2.1 oh.2.2.2.2 h2 oh.1 oh.2.1).ge.mono (by omega)) (by omega)
        · rw [ih (x := lId + 1) ol.2.2.2.1 oh' ol.1.ge (by simp only [Ge]; omega) (by omega)]
          exact ih (x := lId) (ol.2.2.2.1.branch oh') ol.2.2.2.2
            (Above.branch ol.2.2.2.1 oh' h3 ol.1 (by simp only [Above]; omega)).ge.le ol.2.1.ge.le (by omega)
        · exact absurd (by simp only [Ge, true_and]; omega) hc
        · exact absurd (by simp only [Ge, true_and]; omega) hc
        · rfl
      | Always =>
        simp only
        split_ifs with h1 h2
        · rw [ih (x := hId + 1) oh.2.2.2.1 oh.2.2.2.2 oh.1.ge oh.2.1.ge (by omega)]
          exact ih (x := x) trivial (oh.2.2.2.1.branch oh.2.2.2.2) trivial
            ((Above.branch oh.2.2.2.1 oh.2.2.2.2 h1 oh.1 oh.2.1).ge.mono (by omega)) (by omega)
        · exact absurd (by simp only [Ge, true_and]; omega) hc
        · rfl
      | Never =>
        simp only
        split_ifs with h1 h2
        · rw [ih (x := hId + 1) oh.2.2.2.1 oh.2.2.2.2 oh.1.ge oh.2.1.ge (by omega)]
          exact ih (x := x) trivial (oh.2.2.2.1.branch oh.2.2.2.2) trivial
            ((Above.branch oh.2.2.2.1 oh.2.2.2.2 h1 oh.1 oh.2.1).ge.mono (by omega)) (by omega)
        · exact absurd (by simp only [Ge, true_and]; omega) hc
        · rfl

theorem branchF_above {f id : Nat} {low high : Node} (hl : Above id low) (hh : Above id high)
    (hf : 1 ≤ f) : branchF f id low high = some (branch id low high) := by
  obtain ⟨g, rfl⟩ : ∃ g, f = g + 1 := ⟨f - 1, by omega⟩
  exact branchF_plain hl hh

theorem Ordered.lt {N : Nat} {n : Node} (o : n.Ordered) (h : ∀ s ∈ n.Den, ∀ k ∈ s, k < N) : n.Lt N := by
  induction n with
  | Always => trivial
  | Never => trivial
  | Branch i l hi ihl ihh =>
    simp only [Ordered] at o
    obtain ⟨t, ht⟩ := exists_mem o.2.2.2.2 o.2.2.1
    refine ⟨h _ (Or.inr ⟨t, ht, rfl⟩) i (by simp), ihl o.2.2.2.1 fun s hs => h s (Or.inl hs),
      ihh o.2.2.2.2 fun s hs k hk => h _ (Or.inr ⟨s, hs, rfl⟩) k (by simp [hk])⟩

theorem Lt.mem {N : Nat} {n : Node} (h : n.Lt N) {s : Finset Nat} (hs : s ∈ n.Den) {k : Nat} (hk : k ∈ s) :
    k < N := by
  induction n generalizing s with
  | Always => rw [Den, Set.mem_singleton_iff] at hs; subst hs; simp at hk
  | Never => exact absurd hs (by simp [Den])
  | Branch i l hi ihl ihh =>
    simp only [Lt] at h
    rcases hs with hs | ⟨t, ht, rfl⟩
    · exact ihl h.2.1 hs hk
    · rcases Finset.mem_insert.mp hk with rfl | hk
      · exact h.1
      · exact ihh h.2.2 ht hk

theorem Lt.union {N : Nat} {a b : Node} (oa : a.Ordered) (ob : b.Ordered) (ha : a.Lt N) (hb : b.Lt N) :
    (Node.union a b).Lt N :=
  (oa.union ob).lt fun s hs k hk => by
    rcases (mem_union oa ob).mp hs with h | h
    · exact ha.mem h hk
    · exact hb.mem h hk

theorem Lt.intersect {N : Nat} {a b : Node} (oa : a.Ordered) (ob : b.Ordered) (ha : a.Lt N) (hb : b.Lt N) :
    (Node.intersect a b).Lt N :=
  (oa.intersect ob).lt fun s hs k hk => by
    rcases (intersect_ok a b oa ob).2.2.2 s hs with ⟨h, _⟩ | ⟨h, _⟩
    · exact ha.mem h hk
    · exact hb.mem h hk

theorem Lt.product {N : Nat} {a b : Node} (oa : a.Ordered) (ob : b.Ordered) (ha : a.Lt N) (hb : b.Lt N) :
    (Node.product a b).Lt N :=
  (oa.product ob).lt fun s hs k hk => by
    obtain ⟨p, hp, q, hq, rfl⟩ := (product_ok a b oa ob).2.2.1 s hs
    rcases Finset.mem_union.mp hk with h | h
    · exact ha.mem hp h
    · exact hb.mem hq h

theorem unionF_eq {f x N : Nat} {a b : Node} (oa : a.Ordered) (ob : b.Ordered) (ga : Ge x a) (gb : Ge x b)
    (la : a.Lt N) (lb : b.Lt N) (hf : N - x + 1 ≤ f) : unionF f a b = some (union a b) := by
  induction f generalizing x a b with
  | zero => omega
  | succ f ih =>
    rw [unionF.eq_def, union.eq_def]
    simp only
    by_cases e : a = b
    · rw [if_pos e, if_pos e]
    rw [if_neg e, if_neg e]
    cases a with
    | Never => cases b <;> rfl
    | Always =>
      cases b with
      | Never => rfl
      | Always => rfl
      | Branch i l h =>
        simp only [Ordered] at ob
        simp only [Ge] at gb
        simp only [Lt] at lb
        simp only
        rw [ih (a := .Always) (x := i + 1) trivial ob.2.2.2.1 trivial ob.1.ge trivial lb.2.1 (by omega)]
        exact branchF_above ((union_ok .Always l trivial ob.2.2.2.1).2.1 i trivial ob.1) ob.2.1 (by omega)
    | Branch i l h =>
      have oa' := oa
      have la' := la
      simp only [Ordered] at oa
      simp only [Ge] at ga
      simp only [Lt] at la
      cases b with
      | Never => rfl
      | Always =>
        simp only
        rw [ih (b := .Always) (x := i + 1) oa.2.2.2.1 trivial oa.1.ge trivial la.2.1 trivial (by omega)]
        exact branchF_above ((union_ok l .Always oa.2.2.2.1 trivial).2.1 i oa.1 trivial) oa.2.1 (by omega)
      | Branch j m k =>
        have ob' := ob
        have lb' := lb
        simp only [Ordered] at ob
        simp only [Ge] at gb
        simp only [Lt] at lb
        simp only
        split_ifs with h1 h2
        · rw [ih (x := i + 1) oa.2.2.2.1 ob' oa.1.ge (by simp only [Ge]; omega) la.2.1 lb' (by omega)]
          exact branchF_above ((union_ok _ _ oa.2.2.2.1 ob').2.1 i oa.1 h1) oa.2.1 (by omega)
        · rw [ih (x := j + 1) oa' ob.2.2.2.1 (by simp only [Ge]; omega) ob.1.ge la' lb.2.1 (by omega)]
          exact branchF_above ((union_ok _ _ oa' ob.2.2.2.1).2.1 j h2 ob.1) ob.2.1 (by omega)
        · obtain rfl : i = j := by omega
          rw [ih (x := i + 1) oa.2.2.2.1 ob.2.2.2.1 oa.1.ge ob.1.ge la.2.1 lb.2.1 (by omega),
            ih (x := i + 1) oa.2.2.2.2 ob.2.2.2.2 oa.2.1.ge ob.2.1.ge la.2.2 lb.2.2 (by omega)]
          exact branchF_above ((union_ok _ _ oa.2.2.2.1 ob.2.2.2.1).2.1 i oa.1 ob.1)
            ((union_ok _ _ oa.2.2.2.2 ob.2.2.2.2).2.1 i oa.2.1 ob.2.1) (by omega)

theorem intersectF_eq {f x N : Nat} {a b : Node} (oa : a.Ordered) (ob : b.Ordered) (ga : Ge x a)
    (gb : Ge x b) (la : a.Lt N) (lb : b.Lt N) (hf : N - x + 1 ≤ f) :
    intersectF f a b = some (intersect a b) := by
  induction f generalizing x a b with
  | zero => omega
  | succ f ih =>
    rw [intersectF.eq_def, intersect.eq_def]
    simp only
    by_cases e : a = b
    · rw [if_pos e, if_pos e]
    rw [if_neg e, if_neg e]
    cases a with
    | Never => cases b <;> rfl
    | Always => cases b <;> rfl
    | Branch i l h =>
      have oa' := oa
      have la' := la
      simp only [Ordered] at oa
      simp only [Ge] at ga
      simp only [Lt] at la
      cases b with
      | Never => rfl
      | Always => rfl
      | Branch j m k =>
        have ob' := ob
        have lb' := lb
        simp only [Ordered] at ob
        simp only [Ge] at gb
        simp only [Lt] at lb
        simp only
        split_ifs with h1 h2
        · exact ih (x := i + 1) oa.2.2.2.1 ob' oa.1.ge (by simp only [Ge]; omega) la.2.1 lb' (by omega)
        · exact ih (x := j + 1) oa' ob.2.2.2.1 (by simp only [Ge]; omega) ob.1.ge la' lb.2.1 (by omega)
        · obtain rfl : i = j := by omega
          rw [ih (x := i + 1) oa.2.2.2.1 ob.2.2.2.1 oa.1.ge ob.1.ge la.2.1 lb.2.1 (by omega),
            ih (x := i + 1) oa.2.2.2.2 ob.2.2.2.2 oa.2.1.ge ob.2.1.ge la.2.2 lb.2.2 (by omega)]
          exact branchF_above ((intersect_ok _ _ oa.2.2.2.1 ob.2.2.2.1).2.1 i oa.1 ob.1)
            ((intersect_ok _ _ oa.2.2.2.2 ob.2.2.2.2).2.1 i oa.2.1 ob.2.1) (by omega)

theorem productF_eq {f x N : Nat} {a b : Node} (oa : a.Ordered) (ob : b.Ordered) (ga : Ge x a)
    (gb : Ge x b) (la : a.Lt N) (lb : b.Lt N) (hf : N - x + 1 ≤ f) :
    productF f a b = some (product a b) := by
  induction f generalizing x a b with
  | zero => omega
  | succ f ih =>
    rw [productF.eq_def, product.eq_def]
    simp only
    by_cases e : a = b
    · rw [if_pos e, if_pos e]
    rw [if_neg e, if_neg e]
    cases a with
    | Never => cases b <;> rfl
    | Always => cases b <;> rfl
    | Branch i l h =>
      have oa' := oa
      have la' := la
      simp only [Ordered] at oa
      simp only [Ge] at ga
      simp only [Lt] at la
      cases b with
      | Never => rfl
      | Always => rfl
      | Branch j m k =>
        have ob' := ob
        have lb' := lb
        simp only [Ordered] at ob
        simp only [Ge] at gb
        simp only [Lt] at lb
        simp only
        split_ifs with h1 h2
        · rw [ih (x := i + 1) oa.2.2.2.1 ob' oa.1.ge (by simp only [Ge]; omega) la.2.1 lb' (by omega),
            ih (x := i + 1) oa.2.2.2.2 ob' oa.2.1.ge (by simp only [Ge]; omega) la.2.2 lb' (by omega)]
          exact branchF_above ((product_ok _ _ oa.2.2.2.1 ob').2.1 i oa.1 h1)
            ((product_ok _ _ oa.2.2.2.2 ob').2.1 i oa.2.1 h1) (by omega)
        · rw [ih (x := j + 1) oa' ob.2.2.2.1 (by simp only [Ge]; omega) ob.1.ge la' lb.2.1 (by omega),
            ih (x := j + 1) oa' ob.2.2.2.2 (by simp only [Ge]; omega) ob.2.1.ge la' lb.2.2 (by omega)]
          exact branchF_above ((product_ok _ _ oa' ob.2.2.2.1).2.1 j h2 ob.1)
            ((product_ok _ _ oa' ob.2.2.2.2).2.1 j h2 ob.2.1) (by omega)
        · obtain rfl : i = j := by omega
          have a1 := (product_ok _ _ oa.2.2.2.1 ob.2.2.2.1).2.1 i oa.1 ob.1
          have a2 := (product_ok _ _ oa.2.2.2.1 ob.2.2.2.2).2.1 i oa.1 ob.2.1
          have a3 := (product_ok _ _ oa.2.2.2.2 ob.2.2.2.1).2.1 i oa.2.1 ob.1
          have a4 := (product_ok _ _ oa.2.2.2.2 ob.2.2.2.2).2.1 i oa.2.1 ob.2.1
          have o2 := oa.2.2.2.1.product ob.2.2.2.2
          have o3 := oa.2.2.2.2.product ob.2.2.2.1
          have o4 := oa.2.2.2.2.product ob.2.2.2.2
          have l2 := Lt.product oa.2.2.2.1 ob.2.2.2.2 la.2.1 lb.2.2
          have l3 := Lt.product oa.2.2.2.2 ob.2.2.2.1 la.2.2 lb.2.1
          have l4 := Lt.product oa.2.2.2.2 ob.2.2.2.2 la.2.2 lb.2.2
          have a5 := (union_ok _ _ o3 o4).2.1 i a3 a4
          rw [ih (x := i + 1) oa.2.2.2.1 ob.2.2.2.1 oa.1.ge ob.1.ge la.2.1 lb.2.1 (by omega)]
          rw [ih (x := i + 1) oa.2.2.2.1 ob.2.2.2.2 oa.1.ge ob.2.1.ge la.2.1 lb.2.2 (by omega)]
          rw [ih (x := i + 1) oa.2.2.2.2 ob.2.2.2.1 oa.2.1.ge ob.1.ge la.2.2 lb.2.1 (by omega)]
          rw [ih (x := i + 1) oa.2.2.2.2 ob.2.2.2.2 oa.2.1.ge ob.2.1.ge la.2.2 lb.2.2 (by omega)]
          simp only [Option.bind_some]
          rw [unionF_eq (x := i + 1) (N := N) o3 o4 a3.ge a4.ge l3 l4 (by omega)]
          simp only [Option.bind_some]
          rw [unionF_eq (x := i + 1) (N := N) o2 (o3.union o4) a2.ge a5.ge l2 (Lt.union o3 o4 l3 l4) (by omega)]
          simp only [Option.bind_some]
          exact branchF_above a1 ((union_ok _ _ o2 (o3.union o4)).2.1 i a2 a5) (by omega)

theorem subsetInnerF_eq {f x N e : Nat} {a : Node} (oa : a.Ordered) (ga : Ge x a) (la : a.Lt N)
    (hf : N - x + 1 ≤ f) : subsetInnerF f a e = some (subsetInner a e) := by
  induction f generalizing x a with
  | zero => omega
  | succ f ih =>
    cases a with
    | Never => rfl
    | Always => rfl
    | Branch i l h =>
      simp only [Ordered] at oa
      simp only [Ge] at ga
      simp only [Lt] at la
      rw [subsetInnerF, subsetInner]
      split_ifs with he
      · rw [branchF_above (low := .Never) trivial oa.2.1 (by omega)]; rfl
      · rw [ih (x := i + 1) oa.2.2.2.1 oa.1.ge la.2.1 (by omega),
          ih (x := i + 1) oa.2.2.2.2 oa.2.1.ge la.2.2 (by omega)]
        simp only [Option.bind_some]
        rw [branchF_above ((subsetInner_ok l e oa.2.2.2.1).2.1 i oa.1)
          ((subsetInner_ok h e oa.2.2.2.2).2.1 i oa.2.1) (by omega)]
        rfl

theorem subsetNotF_eq {f x N e : Nat} {a : Node} (oa : a.Ordered) (ga : Ge x a) (la : a.Lt N)
    (hf : N - x + 1 ≤ f) : subsetNotF f a e = some (subsetNot a e) := by
  induction f generalizing x a with
  | zero => omega
  | succ f ih =>
    cases a with
    | Never => rfl
    | Always => rfl
    | Branch i l h =>
      simp only [Ordered] at oa
      simp only [Ge] at ga
      simp only [Lt] at la
      rw [subsetNotF, subsetNot]
      split_ifs with he
      · rfl
      · rw [ih (x := i + 1) oa.2.2.2.1 oa.1.ge la.2.1 (by omega),
          ih (x := i + 1) oa.2.2.2.2 oa.2.1.ge la.2.2 (by omega)]
        exact branchF_above ((subsetNot_ok l e oa.2.2.2.1).2.1 i oa.1)
          ((subsetNot_ok h e oa.2.2.2.2).2.1 i oa.2.1) (by omega)

/-- A fold whose steps all fit on the stack is the fold.  -/
theorem foldlM_eq {α β : Type*} (P : α → Prop) (g : α → β → α) (s : α → β → Option α) (es : List β) (acc : α)
    (h : ∀ a e, P a → e ∈ es → s a e = some (g a e) ∧ P (g a e)) (ha : P acc) :
    es.foldlM s acc = some (es.foldl g acc) := by
  induction es generalizing acc with
  | nil => rfl
  | cons e es ih =>
    obtain ⟨h1, h2⟩ := h acc e ha (by simp)
    rw [List.foldlM_cons, h1, List.foldl_cons]
    exact ih _ (fun a e' hp he => h a e' hp (by simp [he])) h2

theorem subsetAllF_eq {f N : Nat} {a : Node} (oa : a.Ordered) (la : a.Lt N) (hf : N + 1 ≤ f) (es : List Nat) :
    subsetAllF f a es = some (subsetAll a es) := by
  have h2 : ∀ e, (subset a e).Lt N := fun e => (subset_ordered oa e).lt fun s hs k hk => by
    by_cases hn : a = .Always
    · subst hn
      rw [subset, subsetInner, Den, Set.mem_singleton_iff] at hs
      subst hs; simp at hk
    · exact la.mem ((mem_subset oa hn e).mp hs).1 hk
  rw [subsetAll, List.foldl_map, subsetAllF]
  refine foldlM_eq (fun n : Node => n.Ordered ∧ n.Lt N) _ _ es Node.Always ?_ ⟨trivial, trivial⟩
  rintro n e ⟨o, l⟩ _
  rw [subsetInnerF_eq (x := 0) (N := N) oa (ge_zero _) la (by omega)]
  exact ⟨intersectF_eq (x := 0) (N := N) o (subset_ordered oa e) (ge_zero _) (ge_zero _) l (h2 e) (by omega),
    o.intersect (subset_ordered oa e), Lt.intersect o (subset_ordered oa e) l (h2 e)⟩

theorem subsetNoneF_eq {f N : Nat} {a : Node} (oa : a.Ordered) (la : a.Lt N) (hf : N + 1 ≤ f) (es : List Nat) :
    subsetNoneF f a es = some (subsetNone a es) := by
  have h2 : ∀ e, (subsetNot a e).Lt N := fun e => (oa.subsetNot e).lt fun s hs k hk =>
    la.mem ((mem_subsetNot oa e).mp hs).1 hk
  rw [subsetNone, List.foldl_map, subsetNoneF]
  refine foldlM_eq (fun n : Node => n.Ordered ∧ n.Lt N) _ _ es Node.Always ?_ ⟨trivial, trivial⟩
  rintro n e ⟨o, l⟩ _
  rw [subsetNotF_eq (x := 0) (N := N) oa (ge_zero _) la (by omega)]
  exact ⟨intersectF_eq (x := 0) (N := N) o (oa.subsetNot e) (ge_zero _) (ge_zero _) l (h2 e) (by omega),
    o.intersect (oa.subsetNot e), Lt.intersect o (oa.subsetNot e) l (h2 e)⟩

theorem fromIterF_eq {f N : Nat} (up : Bool) {items : List Nat} (hi : ∀ i ∈ items, i < N) (hf : N + 2 ≤ f) :
    fromIterF f up items = some (fromIter up items) := by
  rw [fromIterF, fromIter]
  split_ifs with h
  · rfl
  refine foldlM_eq (fun n : Node => n.Ordered) _ _ items Node.Always ?_ trivial
  intro n i o hm
  have := hi i hm
  exact ⟨branchF_eq (x := 0) (low := .Never) trivial o trivial (ge_zero _) (by omega),
    Ordered.branch (l := .Never) trivial o⟩

end Node

open Verif Verif.Spec Verif.Zdd2.Spec

universe u
variable {T : Type u} [LinearOrder T]

namespace Forest
open Universe

/-- weave/src/zdd2/forest/mod.rs:189-202 on a stack of the given depth; `none` also for a failed `unwrap`. -/
def translateRootF : Nat → Universe T → Universe T → Node → Option Node
  | 0, _, _, _ => none
  | f + 1, oldU, newU, root =>
    match root with
    | .Branch id low high =>
      (translateRootF f oldU newU low).bind fun low =>
      (translateRootF f oldU newU high).bind fun high =>
      (oldU.getItem id).bind fun item =>
      (newU.getPriority item).bind fun id => Node.branchF f id low high
    | .Always => some .Always
    | .Never => some .Never

/-- weave/src/zdd2/forest/universe/mod.rs:75-79 on a stack of the given depth. -/
def getPrioritiesNodeF (f : Nat) (univ : Universe T) (items : List T) : Option Node :=
  Node.fromIterF f (items.length == 0) (items.filterMap univ.getPriority)

/-- weave/src/zdd2/forest/mod.rs:64-69 on a stack of the given depth. -/
def unitF (f : Nat) (items : List T) : Option (Forest T) :=
  (getPrioritiesNodeF f (Universe.fromItems items) items).map fun root => ⟨root, Universe.fromItems items⟩

/-- weave/src/zdd2/forest/mod.rs:71-79 on a stack of the given depth. -/
def manyF (f : Nat) (matrix : List (List T)) : Option (Forest T) :=
  (matrix.foldlM (fun root items =>
    (getPrioritiesNodeF f (Universe.fromMatrix matrix) items).bind fun n => Node.unionF f root n)
    Node.Never).map fun root => ⟨root, Universe.fromMatrix matrix⟩

/-- weave/src/zdd2/forest/mod.rs:81-89 on a stack of the given depth. -/
def uniqueF (f : Nat) (set : List T) : Option (Forest T) :=
  (((Universe.fromItems set).getPriorities set).foldlM
    (fun root item => Node.branchF f item root .Always) Node.Never).map
    fun root => ⟨root, Universe.fromItems set⟩

/-- weave/src/zdd2/forest/mod.rs:91-98 on a stack of the given depth; `trees` is a loop. -/
def canonicalF (f : Nat) (root : Node) (univ : Universe T) : Option (Forest T) :=
  manyF f ((Node.trees root).map (fun set => univ.getItems set))

/-- weave/src/zdd2/forest/mod.rs:123-151 and 180-187 on a stack of the given depth: the shape shared by
`intersect`, `union` and `product`. -/
def binaryF (op : Nat → Node → Node → Option Node) (f : Nat) (self other : Forest T) : Option (Forest T) :=
  (translateRootF f self.univ (Universe.merge self.univ other.univ) self.root).bind fun selfRoot =>
  (translateRootF f other.univ (Universe.merge self.univ other.univ) other.root).bind fun otherRoot =>
  (op f selfRoot otherRoot).bind fun root => canonicalF f root (Universe.merge self.univ other.univ)

/-- weave/src/zdd2/forest/subset.rs:7-16 on a stack of the given depth. -/
def subsetF (f : Nat) (forest : Forest T) (element : T) : Option (Forest T) :=
  match forest.univ.getPriority element with
  | none => some empty
  | some e => (Node.subsetInnerF f forest.root e).bind fun r => canonicalF f r.1 forest.univ

/-- weave/src/zdd2/forest/subset.rs:18-27 on a stack of the given depth. -/
def subsetNotF (f : Nat) (forest : Forest T) (element : T) : Option (Forest T) :=
  match forest.univ.getPriority element with
  | none => some forest
  | some e => (Node.subsetNotF f forest.root e).bind fun r => canonicalF f r forest.univ

/-- weave/src/zdd2/forest/subset.rs:29-49 on a stack of the given depth. -/
def subsetManyF (f : Nat) (forest : Forest T) (elements : List T) (dflt : Forest T → Forest T)
    (func : Nat → Node → List Nat → Option Node) : Option (Forest T) :=
  if elements.isEmpty then some forest
  else
    if elements.length ≠ (forest.univ.getPriorities elements).length then some (dflt forest)
    else (func f forest.root (forest.univ.getPriorities elements)).bind fun r => canonicalF f r forest.univ

end Forest

/-- Running a program over the API (weave/src/zdd2/forest/mod.rs:57-177) on a stack of the given depth. -/
def runF (f : Nat) : Prog T → Option (Forest T)
  | .empty => some Forest.empty
  | .unit s => Forest.unitF f s
  | .many m => Forest.manyF f m
  | .unique s => Forest.uniqueF f s
  | .union a b => (runF f a).bind fun x => (runF f b).bind fun y => Forest.binaryF Node.unionF f x y
  | .intersect a b => (runF f a).bind fun x => (runF f b).bind fun y => Forest.binaryF Node.intersectF f x y
  | .product a b => (runF f a).bind fun x => (runF f b).bind fun y => Forest.binaryF Node.productF f x y
  | .subset a e => (runF f a).bind fun x => Forest.subsetF f x e
  | .subsetNot a e => (runF f a).bind fun x => Forest.subsetNotF f x e
  | .subsetAll a es => (runF f a).bind fun x =>
      Forest.subsetManyF f x es (fun _ => Forest.empty) Node.subsetAllF
  | .subsetNone a es => (runF f a).bind fun x => Forest.subsetManyF f x es (fun x => x) Node.subsetNoneF

/-- The items a program puts into forests.  Not code: used to state or prove properties. -/
def inputs : Prog T → Set T
  | .empty => ∅
  | .unit s => {x | x ∈ s}
  | .many m => {x | ∃ s ∈ m, x ∈ s}
  | .unique s => {x | x ∈ s}
  | .union a b => inputs a ∪ inputs b
  | .intersect a b => inputs a ∪ inputs b
  | .product a b => inputs a ∪ inputs b
  | .subset a _ => inputs a
  | .subsetNot a _ => inputs a
  | .subsetAll a _ => inputs a
  | .subsetNone a _ => inputs a

/-- The items of the members of a family.  Not code: used to state or prove properties. -/
def itemsIn (A : Set (Finset T)) : Set T := {x | ∃ s ∈ A, x ∈ s}

namespace Forest
open Universe

theorem priority_lt_length {u : Universe T} (hu : u.Ok) {x : T} {k : Nat} (h : u.getPriority x = some k) :
    k < u.index.length := by
  rw [getPriority_iff hu, getItem] at h
  exact (List.getElem?_eq_some_iff.mp h).1

theorem priorities_lt {u : Universe T} (hu : u.Ok) {xs : List T} {k : Nat} (h : k ∈ u.getPriorities xs) :
    k < u.index.length := by
  rw [getPriorities, List.mem_filterMap] at h
  obtain ⟨x, _, hx⟩ := h
  exact priority_lt_length hu hx

theorem nodeF_eq {f : Nat} {u : Universe T} (hu : u.Ok) (items : List T) (hf : u.index.length + 2 ≤ f) :
    getPrioritiesNodeF f u items = some (u.getPrioritiesNode items) :=
  Node.fromIterF_eq _ (fun i hi => priorities_lt hu hi) hf

theorem unitF_eq {f : Nat} (items : List T) (hf : (fromItems items).index.length + 2 ≤ f) :
    unitF f items = some (unit items) := by
  rw [unitF, nodeF_eq (ok_fromItems items) _ hf]; rfl

theorem node_lt {u : Universe T} (hu : u.Ok) (items : List T) :
    (u.getPrioritiesNode items).Lt u.index.length := by
  refine (Node.fromIter_ok _ _).1.lt fun s hs k hk => ?_
  rw [(Node.fromIter_ok _ _).2] at hs
  split_ifs at hs with h
  · exact absurd hs (by simp)
  · rw [Set.mem_singleton_iff] at hs
    subst hs
    exact priorities_lt hu (List.mem_toFinset.mp hk)

theorem manyF_eq {f : Nat} (m : List (List T)) (hf : (fromMatrix m).index.length + 2 ≤ f) :
    manyF f m = some (many m) := by
  have hu := ok_fromMatrix m
  have h := Node.foldlM_eq (fun n : Node => n.Ordered ∧ n.Lt (fromMatrix m).index.length)
    (fun root items => Node.union root ((fromMatrix m).getPrioritiesNode items))
    (fun root items => (getPrioritiesNodeF f (fromMatrix m) items).bind fun n => Node.unionF f root n)
    m Node.Never (by
      rintro n items ⟨o, l⟩ _
      have o2 : ((fromMatrix m).getPrioritiesNode items).Ordered := (Node.fromIter_ok _ _).1
      have l2 := node_lt hu items
      rw [nodeF_eq hu items hf]
      exact ⟨Node.unionF_eq (x := 0) o o2 (Node.ge_zero _) (Node.ge_zero _) l l2 (by omega),
        o.union o2, Node.Lt.union o o2 l l2⟩) ⟨trivial, trivial⟩
  rw [manyF, h, many, List.foldl_map]; rfl

theorem uniqueF_eq {f : Nat} (set : List T) (hf : (fromItems set).index.length + 2 ≤ f) :
    uniqueF f set = some (unique set) := by
  have hu := ok_fromItems set
  have h := Node.foldlM_eq (fun n : Node => n.Ordered)
    (fun root item => Node.branch item root .Always)
    (fun root item => Node.branchF f item root .Always)
    ((fromItems set).getPriorities set) Node.Never (by
      intro n i o hi
      have := priorities_lt hu hi
      exact ⟨Node.branchF_eq (x := 0) (high := .Always) o trivial (Node.ge_zero _) trivial (by omega),
        Node.Ordered.branch (h := .Always) o trivial⟩) trivial
  rw [uniqueF, h]; rfl

theorem length_le {u v : Universe T} (hv : v.Ok) (h : ∀ x ∈ v.index, x ∈ u.index) :
    v.index.length ≤ u.index.length :=
  (List.subperm_of_subset (nodup_index hv) h).length_le

theorem canonicalF_eq {f : Nat} (n : Node) (u : Universe T) (hf : u.index.length + 2 ≤ f) :
    canonicalF f n u = some (canonical n u) := by
  refine manyF_eq _ (le_trans (Nat.add_le_add_right (length_le (ok_fromMatrix _) fun x hx => ?_) 2) hf)
  obtain ⟨l, hl, hx⟩ := (mem_index_matrix _ x).mp hx
  obtain ⟨p, _, rfl⟩ := List.mem_map.mp hl
  rw [getItems, mem_sorted, List.mem_filterMap] at hx
  obtain ⟨k, _, hk⟩ := hx
  exact mem_of_getItem hk

theorem translateRootF_eq {f x N : Nat} {u u' : Universe T} (hu : u.Ok) (hu' : u'.Ok)
    (hsub : ∀ x ∈ u.index, x ∈ u'.index) {n : Node} (on : n.Ordered) (hn : u.InU n)
    (gn : Node.Ge x n) (ln : n.Lt N) (hf : N - x + u'.index.length + 3 ≤ f) :
    translateRootF f u u' n = translateRoot u u' n := by
  induction f generalizing x n with
  | zero => omega
  | succ f ih =>
    cases n with
    | Never => rfl
    | Always => rfl
    | Branch i l h =>
      have on' := on
      have hn' := hn
      simp only [Node.Ordered] at on
      simp only [Node.Ge] at gn
      simp only [Node.Lt] at ln
      have hnl : u.InU l := fun s hs => hn s (Or.inl hs)
      have hnh : u.InU h := fun s hs k hk => hn _ (Or.inr ⟨s, hs, rfl⟩) k (by simp [hk])
      obtain ⟨l', el, ol, _⟩ := translate_ok hu hu' hsub l on.2.2.2.1 hnl
      obtain ⟨h', eh, oh, _⟩ := translate_ok hu hu' hsub h on.2.2.2.2 hnh
      rw [translateRootF, translateRoot, ih (x := i + 1) on.2.2.2.1 hnl on.1.ge ln.2.1 (by omega),
        ih (x := i + 1) on.2.2.2.2 hnh on.2.1.ge ln.2.2 (by omega), el, eh]
      simp only [Option.bind_some]
      cases hi : u.getItem i with
      | none => rfl
      | some item =>
        simp only [Option.bind_some]
        cases hp : u'.getPriority item with
        | none => rfl
        | some id =>
          have := priority_lt_length hu' hp
          exact Node.branchF_eq (x := 0) ol oh (Node.ge_zero _) (Node.ge_zero _) (by omega)

theorem Canon.lt {f : Forest T} (h : f.Canon) : f.root.Lt f.univ.index.length :=
  h.ordered.lt h.inU

theorem translateF_canon {f : Nat} {a : Forest T} (ha : a.Canon) {v : Universe T} (hv : v.Ok)
    (hs : ∀ x ∈ a.univ.index, x ∈ v.index) (hf : 2 * v.index.length + 3 ≤ f) :
    translateRootF f a.univ v a.root = translateRoot a.univ v a.root := by
  have := length_le ha.ok hs
  exact translateRootF_eq (x := 0) ha.ok hv hs ha.ordered ha.inU (Node.ge_zero _) ha.lt (by omega)

theorem binaryF_eq {f : Nat} {a b : Forest T} (ha : a.Canon) (hb : b.Canon)
    (hf : 2 * (merge a.univ b.univ).index.length + 3 ≤ f) :
    binaryF Node.unionF f a b = a.union b ∧ binaryF Node.intersectF f a b = a.intersect b ∧
      binaryF Node.productF f a b = a.product b := by
  have hm := ok_merge (v := b.univ) ha.ok
  obtain ⟨n, m, e, on, om, inn, im, en, em, _⟩ := translateRoots_ok ha hb
  have t1 := translateF_canon (f := f) ha hm (fun x hx => (mem_index_merge ha.ok hb.ok x).mpr (Or.inl hx)) hf
  have t2 := translateF_canon (f := f) hb hm (fun x hx => (mem_index_merge ha.ok hb.ok x).mpr (Or.inr hx)) hf
  have ln := on.lt inn
  have lm := om.lt im
  simp only [binaryF, t1, t2, en, em, Option.bind_some, union, intersect, product, e, Option.map_some]
  rw [Node.unionF_eq (x := 0) on om (Node.ge_zero _) (Node.ge_zero _) ln lm (by omega),
    Node.intersectF_eq (x := 0) on om (Node.ge_zero _) (Node.ge_zero _) ln lm (by omega),
    Node.productF_eq (x := 0) on om (Node.ge_zero _) (Node.ge_zero _) ln lm (by omega)]
  simp only [Option.bind_some]
  exact ⟨canonicalF_eq _ _ (by omega), canonicalF_eq _ _ (by omega), canonicalF_eq _ _ (by omega)⟩

theorem subsetF_eq {f : Nat} {a : Forest T} (ha : a.Canon) (hf : a.univ.index.length + 2 ≤ f) :
    (∀ e, subsetF f a e = some (a.subset e)) ∧ (∀ e, subsetNotF f a e = some (a.subsetNot e)) ∧
    (∀ es, subsetManyF f a es (fun _ => empty) Node.subsetAllF = some (a.subsetAll es)) ∧
    (∀ es, subsetManyF f a es (fun x => x) Node.subsetNoneF = some (a.subsetNone es)) := by
  refine ⟨fun e => ?_, fun e => ?_, fun es => ?_, fun es => ?_⟩
  · rw [subsetF, subset]
    cases a.univ.getPriority e with
    | none => rfl
    | some k =>
      simp only
      rw [Node.subsetInnerF_eq (x := 0) ha.ordered (Node.ge_zero _) ha.lt (by omega)]
      exact canonicalF_eq _ _ hf
  · rw [subsetNotF, subsetNot]
    cases a.univ.getPriority e with
    | none => rfl
    | some k =>
      simp only
      rw [Node.subsetNotF_eq (x := 0) ha.ordered (Node.ge_zero _) ha.lt (by omega)]
      exact canonicalF_eq _ _ hf
  · rw [subsetManyF, subsetAll, subsetMany]
    simp only
    split_ifs
    · rfl
    · rfl
    · rw [Node.subsetAllF_eq ha.ordered ha.lt (by omega)]
      exact canonicalF_eq _ _ hf
  · rw [subsetManyF, subsetNone, subsetMany]
    simp only
    split_ifs
    · rfl
    · rfl
    · rw [Node.subsetNoneF_eq ha.ordered ha.lt (by omega)]
      exact canonicalF_eq _ _ hf

theorem canonical_index {n : Node} {u : Universe T} {x : T} (hx : x ∈ (canonical n u).univ.index) :
    x ∈ u.index := by
  obtain ⟨l, hl, hx⟩ := (mem_index_matrix _ x).mp hx
  obtain ⟨p, _, rfl⟩ := List.mem_map.mp hl
  rw [getItems, mem_sorted, List.mem_filterMap] at hx
  obtain ⟨k, _, hk⟩ := hx
  exact mem_of_getItem hk

end Forest

open Forest Universe

theorem inputs_finite (p : Prog T) : (inputs p).Finite := by
  induction p with
  | empty => exact Set.finite_empty
  | unit s => exact List.finite_toSet s
  | many m =>
    refine (List.finite_toSet m.flatten).subset ?_
    rintro x ⟨l, hl, hx⟩
    exact List.mem_flatten.mpr ⟨l, hl, hx⟩
  | unique s => exact List.finite_toSet s
  | union a b iha ihb => exact iha.union ihb
  | intersect a b iha ihb => exact iha.union ihb
  | product a b iha ihb => exact iha.union ihb
  | subset a _ ih => exact ih
  | subsetNot a _ ih => exact ih
  | subsetAll a _ ih => exact ih
  | subsetNone a _ ih => exact ih

theorem length_le_ncard {u : Universe T} (hu : u.Ok) {A : Set T} (hA : A.Finite) (h : ∀ x ∈ u.index, x ∈ A) :
    u.index.length ≤ A.ncard := by
  rw [← List.toFinset_card_of_nodup (nodup_index hu), ← Set.ncard_coe_finset]
  exact Set.ncard_le_ncard (fun x hx => h x (by simpa using hx)) hA

theorem items_eq {f : Forest T} (hf : f.Canon) : itemsIn (family f.trees) = {x | x ∈ f.univ.index} := by
  ext x
  exact (hf.mem_index x).symm

/-- What a program returns holds only items the program put in. -/
theorem run_items (p : Prog T) : ∃ f, run p = some f ∧ f.Canon ∧ ∀ x ∈ f.univ.index, x ∈ inputs p := by
  have bin : ∀ (a b : Prog T) (op : Forest T → Forest T → Option (Forest T)),
      (∃ f, run a = some f ∧ f.Canon ∧ ∀ x ∈ f.univ.index, x ∈ inputs a) →
      (∃ f, run b = some f ∧ f.Canon ∧ ∀ x ∈ f.univ.index, x ∈ inputs b) →
      (∀ f g : Forest T, f.Canon → g.Canon → ∃ n, op f g = some (canonical n (merge f.univ g.univ))) →
      ∃ f, ((run a).bind fun f => (run b).bind fun g => op f g) = some f ∧ f.Canon ∧
        ∀ x ∈ f.univ.index, x ∈ inputs a ∪ inputs b := by
    rintro a b op ⟨f, ef, cf, hf⟩ ⟨g, eg, cg, hg⟩ h
    obtain ⟨n, e⟩ := h f g cf cg
    refine ⟨_, by rw [ef, eg]; exact e, canon_canonical _ _, fun x hx => ?_⟩
    rcases (mem_index_merge cf.ok cg.ok x).mp (canonical_index hx) with h | h
    · exact Or.inl (hf x h)
    · exact Or.inr (hg x h)
  have sub : ∀ (a : Prog T) (op : Forest T → Forest T),
      (∃ f, run a = some f ∧ f.Canon ∧ ∀ x ∈ f.univ.index, x ∈ inputs a) →
      (∀ f : Forest T, f.Canon → (op f).Canon ∧ ∀ x ∈ (op f).univ.index, x ∈ f.univ.index) →
      ∃ f, (run a).map op = some f ∧ f.Canon ∧ ∀ x ∈ f.univ.index, x ∈ inputs a := by
    rintro a op ⟨f, ef, cf, hf⟩ h
    exact ⟨op f, by rw [ef]; rfl, (h f cf).1, fun x hx => hf x ((h f cf).2 x hx)⟩
  induction p with
  | empty => exact ⟨_, rfl, canon_empty, fun x hx => by cases hx⟩
  | unit s =>
    refine ⟨_, rfl, canon_unit s, fun x hx => ?_⟩
    rw [unit_eq] at hx
    obtain ⟨l, hl, hx⟩ := (mem_index_matrix _ x).mp hx
    rw [List.mem_singleton] at hl; subst hl; assumption
  | many m =>
    exact ⟨_, rfl, canon_many m, fun x hx => (mem_index_matrix _ x).mp hx⟩
  | unique s =>
    refine ⟨_, rfl, canon_unique s, fun x hx => ?_⟩
    rw [unique_eq] at hx
    obtain ⟨l, hl, hx⟩ := (mem_index_matrix _ x).mp hx
    obtain ⟨y, hy, rfl⟩ := List.mem_map.mp hl
    rw [List.mem_singleton] at hx; subst hx; exact hy
  | union a b iha ihb =>
    exact bin a b Forest.union iha ihb fun f g cf cg => by
      obtain ⟨n, m, e, _⟩ := translateRoots_ok cf cg
      exact ⟨_, by simp only [Forest.union, e]; rfl⟩
  | intersect a b iha ihb =>
    exact bin a b Forest.intersect iha ihb fun f g cf cg => by
      obtain ⟨n, m, e, _⟩ := translateRoots_ok cf cg
      exact ⟨_, by simp only [Forest.intersect, e]; rfl⟩
  | product a b iha ihb =>
    exact bin a b Forest.product iha ihb fun f g cf cg => by
      obtain ⟨n, m, e, _⟩ := translateRoots_ok cf cg
      exact ⟨_, by simp only [Forest.product, e]; rfl⟩
  | subset a e ih =>
    refine sub a (fun f => f.subset e) ih fun f cf => ⟨canon_subset e, fun x hx => ?_⟩
    simp only [Forest.subset] at hx
    cases he : f.univ.getPriority e with
    | none => rw [he] at hx; cases hx
    | some k => rw [he] at hx; exact canonical_index hx
  | subsetNot a e ih =>
    refine sub a (fun f => f.subsetNot e) ih fun f cf => ⟨canon_subsetNot cf e, fun x hx => ?_⟩
    simp only [Forest.subsetNot] at hx
    cases he : f.univ.getPriority e with
    | none => rw [he] at hx; exact hx
    | some k => rw [he] at hx; exact canonical_index hx
  | subsetAll a es ih =>
    refine sub a (fun f => f.subsetAll es) ih fun f cf => ⟨canon_subsetAll cf es, fun x hx => ?_⟩
    simp only [Forest.subsetAll, Forest.subsetMany] at hx
    split_ifs at hx
    · exact hx
    · cases hx
    · exact canonical_index hx
  | subsetNone a es ih =>
    refine sub a (fun f => f.subsetNone es) ih fun f cf => ⟨canon_subsetNone cf es, fun x hx => ?_⟩
    simp only [Forest.subsetNone, Forest.subsetMany] at hx
    split_ifs at hx
    · exact hx
    · exact hx
    · exact canonical_index hx

/-! ## C84 -/

/-- C84: every program over the API ends on a stack with room for `2·n + 3` nested calls, where `n` is
the number of different items it puts into forests - however many members the forests have, and
however long the program is. -/
theorem run_stack {room : Nat} (p : Prog T) (h : 2 * (inputs p).ncard + 3 ≤ room) : runF room p = run p := by
  have bin : ∀ (a b : Prog T), 2 * (inputs a ∪ inputs b).ncard + 3 ≤ room →
      (2 * (inputs a).ncard + 3 ≤ room → runF room a = run a) →
      (2 * (inputs b).ncard + 3 ≤ room → runF room b = run b) →
      ∃ f g, runF room a = some f ∧ run a = some f ∧ runF room b = some g ∧ run b = some g ∧ f.Canon ∧ g.Canon ∧
        2 * (merge f.univ g.univ).index.length + 3 ≤ room := by
    intro a b hr iha ihb
    have l1 := Set.ncard_le_ncard (Set.subset_union_left (s := inputs a) (t := inputs b))
      ((inputs_finite a).union (inputs_finite b))
    have l2 := Set.ncard_le_ncard (Set.subset_union_right (s := inputs a) (t := inputs b))
      ((inputs_finite a).union (inputs_finite b))
    obtain ⟨f, ef, cf, hf⟩ := run_items a
    obtain ⟨g, eg, cg, hg⟩ := run_items b
    refine ⟨f, g, (iha (by omega)).trans ef, ef, (ihb (by omega)).trans eg, eg, cf, cg, ?_⟩
    have := length_le_ncard (ok_merge (v := g.univ) cf.ok) ((inputs_finite a).union (inputs_finite b))
      (fun x hx => ((mem_index_merge cf.ok cg.ok x).mp hx).imp (hf x) (hg x))
    omega
  have sub : ∀ (a : Prog T), 2 * (inputs a).ncard + 3 ≤ room → runF room a = run a →
      ∃ f, runF room a = some f ∧ run a = some f ∧ f.Canon ∧ f.univ.index.length + 2 ≤ room := by
    intro a hr ih
    obtain ⟨f, ef, cf, hf⟩ := run_items a
    have := length_le_ncard cf.ok (inputs_finite a) hf
    exact ⟨f, ih.trans ef, ef, cf, by omega⟩
  induction p with
  | empty => rfl
  | unit s =>
    obtain ⟨f, ef, cf, hf⟩ := run_items (Matrix.Prog.unit s)
    have := length_le_ncard cf.ok (inputs_finite _) hf
    cases ef
    exact unitF_eq s (by change (fromItems s).index.length ≤ _ at this; omega)
  | many m =>
    obtain ⟨f, ef, cf, hf⟩ := run_items (Matrix.Prog.many m)
    have := length_le_ncard cf.ok (inputs_finite _) hf
    cases ef
    exact manyF_eq m (by change (fromMatrix m).index.length ≤ _ at this; omega)
  | unique s =>
    obtain ⟨f, ef, cf, hf⟩ := run_items (Matrix.Prog.unique s)
    have := length_le_ncard cf.ok (inputs_finite _) hf
    cases ef
    exact uniqueF_eq s (by change (fromItems s).index.length ≤ _ at this; omega)
  | union a b iha ihb =>
    obtain ⟨f, g, e1, e2, e3, e4, cf, cg, hl⟩ := bin a b h iha ihb
    simp only [runF, run, e1, e2, e3, e4, Option.bind_some]
    exact (binaryF_eq cf cg hl).1
  | intersect a b iha ihb =>
    obtain ⟨f, g, e1, e2, e3, e4, cf, cg, hl⟩ := bin a b h iha ihb
    simp only [runF, run, e1, e2, e3, e4, Option.bind_some]
    exact (binaryF_eq cf cg hl).2.1
  | product a b iha ihb =>
    obtain ⟨f, g, e1, e2, e3, e4, cf, cg, hl⟩ := bin a b h iha ihb
    simp only [runF, run, e1, e2, e3, e4, Option.bind_some]
    exact (binaryF_eq cf cg hl).2.2
  | subset a e ih =>
    obtain ⟨f, e1, e2, cf, hl⟩ := sub a h (ih h)
    simp only [runF, run, e1, e2, Option.bind_some, Option.map_some]
    exact (subsetF_eq cf hl).1 e
  | subsetNot a e ih =>
    obtain ⟨f, e1, e2, cf, hl⟩ := sub a h (ih h)
    simp only [runF, run, e1, e2, Option.bind_some, Option.map_some]
    exact (subsetF_eq cf hl).2.1 e
  | subsetAll a es ih =>
    obtain ⟨f, e1, e2, cf, hl⟩ := sub a h (ih h)
    simp only [runF, run, e1, e2, Option.bind_some, Option.map_some]
    exact (subsetF_eq cf hl).2.2.1 es
  | subsetNone a es ih =>
    obtain ⟨f, e1, e2, cf, hl⟩ := sub a h (ih h)
    simp only [runF, run, e1, e2, Option.bind_some, Option.map_some]
    exact (subsetF_eq cf hl).2.2.2 es

/-- C84, one operation at a time: an operation on API-made forests needs at most `2·n + 3` nested calls,
where `n` is the number of different items in the members of its operands. -/
theorem ops_stack {room : Nat} {f g : Forest T} (hf : Reach f) (hg : Reach g)
    (h : 2 * (itemsIn (family f.trees) ∪ itemsIn (family g.trees)).ncard + 3 ≤ room) :
    binaryF Node.unionF room f g = f.union g ∧ binaryF Node.intersectF room f g = f.intersect g ∧
      binaryF Node.productF room f g = f.product g ∧
      (∀ e, subsetF room f e = some (f.subset e)) ∧ (∀ e, subsetNotF room f e = some (f.subsetNot e)) ∧
      (∀ es, subsetManyF room f es (fun _ => empty) Node.subsetAllF = some (f.subsetAll es)) ∧
      (∀ es, subsetManyF room f es (fun x => x) Node.subsetNoneF = some (f.subsetNone es)) := by
  have cf := hf.canon
  have cg := hg.canon
  rw [items_eq cf, items_eq cg] at h
  have fin : ({x | x ∈ f.univ.index} ∪ {x | x ∈ g.univ.index} : Set T).Finite :=
    (List.finite_toSet _).union (List.finite_toSet _)
  have l1 := length_le_ncard (ok_merge (v := g.univ) cf.ok) fin
    (fun x hx => (mem_index_merge cf.ok cg.ok x).mp hx)
  have l2 := length_le_ncard cf.ok fin (fun x hx => Or.inl hx)
  obtain ⟨b1, b2, b3⟩ := binaryF_eq (f := room) cf cg (by omega)
  exact ⟨b1, b2, b3, subsetF_eq cf (by omega)⟩

theorem translateF_needs {room : Nat} {u v : Universe T} {n r : Node} (h : translateRootF room u v n = some r)
    {s : Finset Nat} (hs : s ∈ n.Den) : s.card < room := by
  induction room generalizing n r s with
  | zero => cases h
  | succ room ih =>
    cases n with
    | Never => exact absurd hs (by simp [Node.Den])
    | Always => rw [Node.Den, Set.mem_singleton_iff] at hs; subst hs; simp
    | Branch i lo hi =>
      rw [translateRootF, Option.bind_eq_some_iff] at h
      obtain ⟨a, ha, h⟩ := h
      rw [Option.bind_eq_some_iff] at h
      obtain ⟨b, hb, h⟩ := h
      rcases hs with hs | ⟨t, ht, rfl⟩
      · have := ih ha hs; omega
      · have := ih hb ht
        have := Finset.card_insert_le i t
        omega

/-- C84: the number of nested calls does grow with the items: a binary operation that ends on a stack of
depth `room` has operands all of whose members have fewer than `room` items. -/
theorem stack_needed {room : Nat} {f g r : Forest T} (hf : Reach f) (hg : Reach g)
    {op : Nat → Node → Node → Option Node} (h : binaryF op room f g = some r) :
    ∀ s ∈ family f.trees ∪ family g.trees, s.card < room := by
  rw [binaryF, Option.bind_eq_some_iff] at h
  obtain ⟨a, ha, h⟩ := h
  rw [Option.bind_eq_some_iff] at h
  obtain ⟨b, hb, _⟩ := h
  rintro s (hs | hs)
  · have hs' : s ∈ f.univ.Fam f.root := by rw [hf.canon.fam]; exact hs
    have := translateF_needs ha hs'.2
    rwa [card_image_prio hf.canon.ok hs'.1] at this
  · have hs' : s ∈ g.univ.Fam g.root := by rw [hg.canon.fam]; exact hs
    have := translateF_needs hb hs'.2
    rwa [card_image_prio hg.canon.ok hs'.1] at this

/-- With room for nine calls the union of these two forests is computed: the hypothesis is met. -/
example : ∃ r, binaryF Node.unionF 9 (Forest.unit [1, 2]) (Forest.unit [3]) = some r ∧
    ∀ s ∈ family (Forest.unit [1, 2]).trees ∪ family (Forest.unit [3]).trees, s.card < 9 := by
  obtain ⟨⟨r, hr, _⟩, _⟩ := binary_total (reach_unit [1, 2]) (reach_unit [3] : Reach (T := ℕ) _)
  have hr := ((binaryF_eq (f := 9) (reach_unit [1, 2]).canon (reach_unit [3] : Reach (T := ℕ) _).canon
    (by decide +kernel)).1).trans hr
  exact ⟨r, hr, stack_needed (reach_unit _) (reach_unit _) hr⟩

/-- C84: so no fixed stack is enough: whatever its depth, some union of two API-made forests overflows
it (although the union exists). -/
theorem no_fixed_stack (room : Nat) : ∃ f g r : Forest ℕ, Reach f ∧ Reach g ∧ f.union g = some r ∧
    binaryF Node.unionF room f g = none := by
  have hf := reach_unit (List.range (room + 1))
  have hg := reach_empty (T := ℕ)
  obtain ⟨⟨r, hr, _⟩, _⟩ := binary_total hf hg
  refine ⟨_, _, r, hf, hg, hr, ?_⟩
  cases e : binaryF Node.unionF room (Forest.unit (List.range (room + 1))) Forest.empty with
  | none => rfl
  | some x =>
    have := stack_needed hf hg e (List.range (room + 1)).toFinset (Or.inl (by
      rw [unit_family]
      simp))
    rw [List.toFinset_card_of_nodup List.nodup_range, List.length_range] at this
    omega

example : ∃ (p : Prog ℕ) (f : Forest ℕ), (inputs p).ncard = 3 ∧ run p = some f ∧ runF 9 p = some f ∧ f.len = 2 := by
  have hi : inputs (.subset (.many [[1, 2], [2, 3], [3]]) 2 : Prog ℕ) = {1, 2, 3} := by
    ext x; simp [inputs]; omega
  have hn : (inputs (.subset (.many [[1, 2], [2, 3], [3]]) 2 : Prog ℕ)).ncard = 3 := by rw [hi]; simp
  refine ⟨_, _, hn, rfl, (run_stack _ (by rw [hn])).trans rfl, ?_⟩
  have h : Reach ((Forest.many [[1, 2], [2, 3], [3]] : Forest ℕ).subset 2) := ⟨.subset (.many _) 2, rfl⟩
  rw [len_exact h, subset_family (reach_many _), many_family]
  have : having {s | s ∈ family [[1, 2], [2, 3], [3]] ∧ s ≠ ∅} 2 = ({{1, 2}, {2, 3}} : Set (Finset ℕ)) := by
    ext s
    simp only [having, family, Set.mem_ofPred_eq, List.mem_cons, List.not_mem_nil, or_false,
      exists_eq_or_imp, exists_eq_left, Set.mem_insert_iff, Set.mem_singleton_iff]
    constructor
    · rintro ⟨⟨rfl | rfl | rfl, _⟩, h2⟩ <;> simp at h2 ⊢
    · rintro (rfl | rfl) <;> simp
  rw [this, Set.ncard_pair (by decide)]

end Verif.Zdd2
