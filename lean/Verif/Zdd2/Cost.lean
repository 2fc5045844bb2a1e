import Verif.Cost
import Verif.Zdd2.Stack
import Mathlib.Tactic.Ring
import Mathlib.Tactic.GCongr

/-!
# How many calls the zdd2 operations make (C89)

The recursive functions of weave/src/zdd2/forest with a counter of calls: one for every call of a
recursive function (`branch`, `union`, `intersect`, `product`, `subset_inner`, `subset_not`,
`translate_root`) and one for every iteration of the work-list loop of `trees`.  None of these functions
caches results.  Work inside the universe (hash maps, sorting) is not counted.
-/

set_option linter.unusedSimpArgs false
set_option linter.unusedSectionVars false
set_option linter.unusedVariables false

namespace Verif.Zdd2
open Verif

namespace Node
open Ticked

/-- weave/src/zdd2/forest/node/mod.rs:67-96, counting calls. -/
def branchT (id : Nat) (low high : Node) : Ticked Node :=
  call <| match high, low with
    | .Never, low => ret low
    | .Branch hId hLow hHigh, .Branch lId lLow lHigh =>
      if hId < id ∧ lId = hId then
        (branchT id lLow hLow).bind fun low => (branchT id lHigh hHigh).bind fun high => branchT hId low high
      else if hId < id then
        (branchT id hLow hHigh).bind fun high => branchT hId (.Branch lId lLow lHigh) high
      else if lId < id then
        (branchT id lLow (.Branch hId hLow hHigh)).bind fun low => branchT lId low lHigh
      else if hId = id then branchT id (.Branch lId lLow lHigh) hHigh
      else if lId = id then branchT id lLow (.Branch hId hLow hHigh)
      else ret (.Branch id (.Branch lId lLow lHigh) (.Branch hId hLow hHigh))
    | .Branch hId hLow hHigh, low =>
      if hId < id then (branchT id hLow hHigh).bind fun high => branchT hId low high
      else if hId = id then branchT id low hHigh
      else ret (.Branch id low (.Branch hId hLow hHigh))
    | .Always, .Branch lId lLow lHigh =>
      if lId < id then (branchT id lLow .Always).bind fun low => branchT lId low lHigh
      else if lId = id then branchT id lLow .Always
      else ret (.Branch id (.Branch lId lLow lHigh) .Always)
    | .Always, low => ret (.Branch id low .Always)
termination_by (id, low.size + high.size)
decreasing_by
  all_goals first
    | (apply Prod.Lex.right; simp only [size]; omega)
    | (apply Prod.Lex.left; omega)

/-- weave/src/zdd2/forest/node/union.rs:3-48, counting calls. -/
def unionT (node1 node2 : Node) : Ticked Node :=
  call <| if node1 = node2 then ret node1
    else
      match node1, node2 with
      | node1, .Never => ret node1
      | .Never, node2 => ret node2
      | .Always, .Always => ret .Always
      | .Branch id low high, .Always => (unionT low .Always).bind fun low => branchT id low high
      | .Always, .Branch id low high => (unionT .Always low).bind fun low => branchT id low high
      | .Branch id1 low1 high1, .Branch id2 low2 high2 =>
        if id1 < id2 then (unionT low1 (.Branch id2 low2 high2)).bind fun low => branchT id1 low high1
        else if id1 > id2 then (unionT (.Branch id1 low1 high1) low2).bind fun low => branchT id2 low high2
        else (unionT low1 low2).bind fun low => (unionT high1 high2).bind fun high => branchT id1 low high
termination_by node1.size + node2.size
decreasing_by all_goals simp only [size]; omega

/-- weave/src/zdd2/forest/node/intersect.rs:3-28, counting calls. -/
def intersectT (node1 node2 : Node) : Ticked Node :=
  call <| if node1 = node2 then ret node1
    else
      match node1, node2 with
      | node1, .Always => ret node1
      | .Always, node2 => ret node2
      | _, .Never => ret .Never
      | .Never, _ => ret .Never
      | .Branch id1 low1 high1, .Branch id2 low2 high2 =>
        if id1 < id2 then intersectT low1 (.Branch id2 low2 high2)
        else if id1 > id2 then intersectT (.Branch id1 low1 high1) low2
        else (intersectT low1 low2).bind fun low => (intersectT high1 high2).bind fun high =>
          branchT id1 low high
termination_by node1.size + node2.size
decreasing_by all_goals simp only [size]; omega

/-- weave/src/zdd2/forest/node/product.rs:3-44, counting calls. -/
def productT (node1 node2 : Node) : Ticked Node :=
  call <| if node1 = node2 then ret node1
    else
      match node1, node2 with
      | node1, .Always => ret node1
      | .Always, node2 => ret node2
      | _, .Never => ret .Never
      | .Never, _ => ret .Never
      | .Branch id1 low1 high1, .Branch id2 low2 high2 =>
        if id1 < id2 then
          (productT low1 (.Branch id2 low2 high2)).bind fun low =>
          (productT high1 (.Branch id2 low2 high2)).bind fun high => branchT id1 low high
        else if id1 > id2 then
          (productT (.Branch id1 low1 high1) low2).bind fun low =>
          (productT (.Branch id1 low1 high1) high2).bind fun high => branchT id2 low high
        else
          (productT low1 low2).bind fun low1low2 => (productT low1 high2).bind fun low1high2 =>
          (productT high1 low2).bind fun high1low2 => (productT high1 high2).bind fun high1high2 =>
          (unionT high1low2 high1high2).bind fun newHigh =>
          (unionT low1high2 newHigh).bind fun high => branchT id1 low1low2 high
termination_by node1.size + node2.size
decreasing_by all_goals simp only [size]; omega

/-- weave/src/zdd2/forest/node/subset.rs:10-31, counting calls. -/
def subsetInnerT (root : Node) (element : Nat) : Ticked (Node × Bool) :=
  call <| match root with
    | .Branch id low high =>
      if element = id then (branchT id .Never high).map fun n => (n, true)
      else
        (subsetInnerT low element).bind fun l => (subsetInnerT high element).bind fun h =>
        (branchT id (reduceBranch l).1 (reduceBranch h).1).map fun n =>
          (n, (reduceBranch l).2 || (reduceBranch h).2)
    | .Always => ret (.Always, false)
    | .Never => ret (.Never, false)

/-- weave/src/zdd2/forest/node/subset.rs:33-46, counting calls. -/
def subsetNotT (root : Node) (element : Nat) : Ticked Node :=
  call <| match root with
    | .Branch id low high =>
      if element = id then ret low
      else
        (subsetNotT low element).bind fun low => (subsetNotT high element).bind fun high =>
        branchT id low high
    | .Always => ret .Always
    | .Never => ret .Never

/-- weave/src/zdd2/forest/node/subset.rs:6-8 and 48-52, counting calls. -/
def subsetAllT (root : Node) (elements : List Nat) : Ticked Node :=
  fold (fun acc e => (subsetInnerT root e).bind fun s => intersectT acc s.1) .Always elements

/-- weave/src/zdd2/forest/node/subset.rs:54-58, counting calls. -/
def subsetNoneT (root : Node) (elements : List Nat) : Ticked Node :=
  fold (fun acc e => (subsetNotT root e).bind fun s => intersectT acc s) .Always elements

/-- weave/src/zdd2/forest/node/mod.rs:173-183, counting calls. -/
def fromIterT (upperZero : Bool) (items : List Nat) : Ticked Node :=
  if upperZero then ret .Never else fold (fun root item => branchT item .Never root) .Always items

/-- weave/src/zdd2/forest/trees.rs:9-27, counting iterations. -/
def treesLoopT (queue : List (Node × List Nat)) (trees : List (List Nat)) : Ticked (List (List Nat)) :=
  match queue with
  | [] => ret trees
  | (.Branch id low high, path) :: q => call (treesLoopT ((high, path ++ [id]) :: (low, path) :: q) trees)
  | (.Always, path) :: q => call (treesLoopT q (trees ++ [path]))
  | (.Never, _) :: q => call (treesLoopT q trees)
termination_by queueSize queue
decreasing_by all_goals simp [queueSize, size]; try omega

/-- weave/src/zdd2/forest/trees.rs:5-31, counting iterations. -/
def treesT (root : Node) : Ticked (List (List Nat)) := treesLoopT [(root, [])] []

/-! ### the values are those of the plain functions -/

theorem branchT_val (id : Nat) (low high : Node) : (branchT id low high).val = branch id low high := by
  fun_induction branch id low high <;> rw [branchT.eq_def] <;>
    first | (simp_all; done) | (simp_all; split_ifs <;> first | omega | simp_all)

theorem unionT_val (a b : Node) : (unionT a b).val = union a b := by
  fun_induction union a b <;> rw [unionT.eq_def] <;> simp only [call_val] <;> split_ifs <;>
    first | omega | simp_all [branchT_val]

theorem intersectT_val (a b : Node) : (intersectT a b).val = intersect a b := by
  fun_induction intersect a b <;> rw [intersectT.eq_def] <;> simp only [call_val] <;> split_ifs <;>
    first | omega | simp_all [branchT_val]

theorem productT_val (a b : Node) : (productT a b).val = product a b := by
  fun_induction product a b <;> rw [productT.eq_def] <;> simp only [call_val] <;> split_ifs <;>
    first | omega | simp_all [branchT_val, unionT_val]

theorem subsetInnerT_val (a : Node) (e : Nat) : (subsetInnerT a e).val = subsetInner a e := by
  induction a with
  | Always => rfl
  | Never => rfl
  | Branch i l h ihl ihh =>
    rw [subsetInnerT, subsetInner]
    split_ifs <;> simp [branchT_val, ihl, ihh]

theorem subsetNotT_val (a : Node) (e : Nat) : (subsetNotT a e).val = subsetNot a e := by
  induction a with
  | Always => rfl
  | Never => rfl
  | Branch i l h ihl ihh =>
    rw [subsetNotT, subsetNot]
    split_ifs <;> simp [branchT_val, ihl, ihh]

theorem subsetAllT_val (a : Node) (es : List Nat) : (subsetAllT a es).val = subsetAll a es := by
  rw [subsetAllT, fold_val (g := fun acc e => intersect acc (subset a e)), subsetAll, List.foldl_map]
  intro n e; simp [subsetInnerT_val, intersectT_val, subset]

theorem subsetNoneT_val (a : Node) (es : List Nat) : (subsetNoneT a es).val = subsetNone a es := by
  rw [subsetNoneT, fold_val (g := fun acc e => intersect acc (subsetNot a e)), subsetNone, List.foldl_map]
  intro n e; simp [subsetNotT_val, intersectT_val]

theorem fromIterT_val (up : Bool) (items : List Nat) : (fromIterT up items).val = fromIter up items := by
  rw [fromIterT, fromIter]
  split_ifs
  · rfl
  · exact fold_val (fun a b => branchT_val _ _ _) _ _

theorem treesLoopT_eq (q : List (Node × List Nat)) (acc : List (List Nat)) :
    (treesLoopT q acc).val = treesLoop q acc ∧ (treesLoopT q acc).calls = queueSize q := by
  fun_induction treesLoop q acc <;> rw [treesLoopT.eq_def] <;> simp_all [queueSize, size] <;> omega

theorem treesT_val (a : Node) : (treesT a).val = trees a := (treesLoopT_eq _ _).1

theorem treesT_calls (a : Node) : (treesT a).calls = a.size := by
  rw [treesT, (treesLoopT_eq _ _).2]; simp [queueSize]

/-! ### how large a diagram is -/

/-- Number of members.  Not code: used to state or prove properties. -/
def count (n : Node) : Nat := n.cnt fun _ => true

@[simp] theorem count_branch (i : Nat) (l h : Node) : (Node.Branch i l h).count = l.count + h.count := rfl
@[simp] theorem count_always : Node.Always.count = 1 := rfl
@[simp] theorem count_never : Node.Never.count = 0 := rfl

theorem count_paths (n : Node) : n.count = n.paths.length := by
  induction n with
  | Always => rfl
  | Never => rfl
  | Branch i l h ihl ihh => simp [paths, ihl, ihh]; omega

theorem count_pos {n : Node} (o : n.Ordered) (hn : n ≠ .Never) : 0 < n.count := by
  obtain ⟨s, hs⟩ := exists_mem o hn
  obtain ⟨p, hp, _⟩ := mem_paths_den.mp hs
  rw [count_paths]; exact List.length_pos_of_mem hp

/-- A diagram has at most one branch per occurrence of an item in a member. -/
theorem size_le_occ {n : Node} (o : n.Ordered) : n.size ≤ 2 * (n.paths.map List.length).sum + 1 := by
  induction n with
  | Always => simp [size, paths]
  | Never => simp [size, paths]
  | Branch i l h ihl ihh =>
    simp only [Ordered] at o
    have h1 := ihl o.2.2.2.1
    have h2 := ihh o.2.2.2.2
    have h3 := count_pos o.2.2.2.2 o.2.2.1
    rw [count_paths] at h3
    have e : (h.paths.map (List.length ∘ (i :: ·))).sum = (h.paths.map List.length).sum + h.paths.length := by
      induction h.paths with
      | nil => rfl
      | cons p ps ih => simp [ih]; omega
    simp only [size, paths, List.map_append, List.map_map, List.sum_append, e]
    omega

theorem path_length {n : Node} {x N : Nat} (o : n.Ordered) (hl : n.Lt N) (hg : Ge x n) {p : List Nat}
    (hp : p ∈ n.paths) : p.length ≤ N - x := by
  induction n generalizing x p with
  | Always => simp [paths] at hp; subst hp; simp
  | Never => simp [paths] at hp
  | Branch i l h ihl ihh =>
    simp only [Ordered] at o
    simp only [Lt] at hl
    simp only [Ge] at hg
    simp only [paths, List.mem_append, List.mem_map] at hp
    rcases hp with ⟨q, hq, rfl⟩ | hp
    · have := ihh (x := i + 1) o.2.2.2.2 hl.2.2 o.2.1.ge hq
      rw [List.length_cons]; omega
    · have := ihl (x := i + 1) o.2.2.2.1 hl.2.1 o.1.ge hp
      omega

theorem sum_le_mul (l : List Nat) (N : Nat) (h : ∀ k ∈ l, k ≤ N) : l.sum ≤ l.length * N := by
  induction l with
  | nil => simp
  | cons a l ih =>
    have h1 := h a (by simp)
    have h2 := ih fun k hk => h k (by simp [hk])
    rw [List.sum_cons, List.length_cons, Nat.succ_mul]; omega

theorem size_le {n : Node} {N : Nat} (o : n.Ordered) (hl : n.Lt N) : n.size ≤ 2 * (N * n.count) + 1 := by
  refine (size_le_occ o).trans ?_
  have : (n.paths.map List.length).sum ≤ n.paths.length * N := by
    rw [← List.length_map List.length (as := n.paths)]
    exact sum_le_mul _ N (by
      intro k hk
      rw [List.mem_map] at hk
      obtain ⟨p, hp, rfl⟩ := hk
      simpa using path_length (x := 0) o hl (ge_zero _) hp)
  rw [count_paths, Nat.mul_comm N]
  omega

theorem Lt.mono {n : Node} {N M : Nat} (h : n.Lt N) (hM : N ≤ M) : n.Lt M := by
  induction n with
  | Branch i l r ihl ihr => exact ⟨h.1.trans_le hM, ihl h.2.1, ihr h.2.2⟩
  | _ => trivial

theorem size_pos (n : Node) : 0 < n.size := by cases n <;> simp [size]

theorem count_le_size (n : Node) : n.count ≤ n.size := by
  induction n with
  | Always => simp [size]
  | Never => simp [size]
  | Branch i l h ihl ihh => simp [size]; omega

/-! ### calls of the smart constructor -/

theorem branchT_plain {id : Nat} {low high : Node} (hl : Above id low) (hh : Above id high) :
    (branchT id low high).calls = 1 := by
  rw [branchT.eq_def]
  cases high <;> cases low <;> simp_all [Above] <;>
    (repeat rw [if_neg (by omega)]) <;> rfl

theorem branchT_high {id : Nat} {low high : Node} (ol : low.Ordered) (hh : Above id high) (oh : high.Ordered) :
    (branchT id low high).calls ≤ low.size := by
  induction low with
  | Always => rw [branchT_plain (low := .Always) trivial hh]; simp [size]
  | Never => rw [branchT_plain (low := .Never) trivial hh]; simp [size]
  | Branch lId lLow lHigh ih _ =>
    simp only [Ordered] at ol
    have ih := ih ol.2.2.2.1
    have sp := size_pos lHigh
    have sq := size_pos lLow
    have := branchT_plain (id := lId) (low := branch id lLow high) (high := lHigh)
    rw [branchT.eq_def]
    cases high with
    | Never => simp [size]; omega
    | Always =>
      simp only [size]
      split_ifs with h1 h2
      · have := this (Above.branch ol.2.2.2.1 oh h1 ol.1 trivial) ol.2.1
        simp only [call_calls, bind_calls, branchT_val]; omega
      · simp only [call_calls]; omega
      · simp only [call_calls, ret_calls]; omega
    | Branch hId hLow hHigh =>
      simp only [Above] at hh
      simp only [size]
      rw [if_neg (by omega), if_neg (by omega), if_neg (by omega : ¬ hId = id)]
      split_ifs with h1 h2
      · have := this (Above.branch ol.2.2.2.1 oh h1 ol.1 (by simp only [Above]; omega)) ol.2.1
        simp only [call_calls, bind_calls, branchT_val]; omega
      · simp only [call_calls]; omega
      · simp only [call_calls, ret_calls]; omega

theorem branchT_calls {id : Nat} {low high : Node} (ol : low.Ordered) (oh : high.Ordered) :
    (branchT id low high).calls ≤ low.size + high.size := by
  obtain ⟨k, hk⟩ : ∃ k, low.size + high.size ≤ k := ⟨_, le_rfl⟩
  induction k generalizing low high with
  | zero => have := size_pos low; omega
  | succ k ih =>
    by_cases hh : Above id high
    · have := branchT_high ol hh oh; omega
    cases high with
    | Never => exact absurd trivial hh
    | Always => exact absurd trivial hh
    | Branch hId hLow hHigh =>
      have oh' := oh
      simp only [Ordered] at oh
      simp only [Above, not_lt] at hh
      have s1 := size_pos hLow
      have s2 := size_pos hHigh
      have s3 := size_pos low
      have hb : hId < id → Above hId (branch id hLow hHigh) := fun h =>
        Above.branch oh.2.2.2.1 oh.2.2.2.2 h oh.1 oh.2.1
      have c1 : hId < id → (branchT hId low (branch id hLow hHigh)).calls ≤ low.size := fun h =>
        branchT_high ol (hb h) (oh.2.2.2.1.branch oh.2.2.2.2)
      have c2 : hId = id → (branchT id low hHigh).calls ≤ low.size := by
        rintro rfl; exact branchT_high ol oh.2.1 oh.2.2.2.2
      simp only [size] at hk
      have c3 := ih (low := hLow) (high := hHigh) oh.2.2.2.1 oh.2.2.2.2 (by omega)
      rw [branchT.eq_def]
      cases low with
      | Always =>
        simp only [size] at *
        split_ifs with h1 h2
        · have := c1 h1
          simp only [call_calls, bind_calls, branchT_val]; omega
        · have := c2 h2
          simp only [call_calls]; omega
        · simp only [call_calls, ret_calls]; omega
      | Never =>
        simp only [size] at *
        split_ifs with h1 h2
        · have := c1 h1
          simp only [call_calls, bind_calls, branchT_val]; omega
        · have := c2 h2
          simp only [call_calls]; omega
        · simp only [call_calls, ret_calls]; omega
      | Branch lId lLow lHigh =>
        simp only [Ordered] at ol
        have t1 := size_pos lLow
        have t2 := size_pos lHigh
        simp only [size] at *
        have c4 := ih (low := lLow) (high := hLow) ol.2.2.2.1 oh.2.2.2.1 (by omega)
        have c5 := ih (low := lHigh) (high := hHigh) ol.2.2.2.2 oh.2.2.2.2 (by omega)
        have c6 := ih (low := lLow) (high := .Branch hId hLow hHigh) ol.2.2.2.1 oh' (by simp only [size]; omega)
        simp only [size] at c6
        split_ifs with h1 h2 h3 h4 h5
        · obtain ⟨h1, rfl⟩ := h1
          have c7 := branchT_plain (Above.branch ol.2.2.2.1 oh.2.2.2.1 h1 ol.1 oh.1)
            (Above.branch ol.2.2.2.2 oh.2.2.2.2 h1 ol.2.1 oh.2.1)
          simp only [call_calls, bind_calls, branchT_val]; omega
        · have := c1 h2
          simp only [call_calls, bind_calls, branchT_val]; omega
        · have c7 := branchT_plain (Above.branch ol.2.2.2.1 oh' h3 ol.1 (by simp only [Above]; omega)) ol.2.1
          simp only [call_calls, bind_calls, branchT_val]; omega
        · have := c2 h4
          simp only [call_calls]; omega
        · omega
        · omega

/-! ### calls of the operations -/

theorem unionT_calls {a b : Node} (oa : a.Ordered) (ob : b.Ordered) :
    (unionT a b).calls ≤ a.size + b.size := by
  have base : ∀ n : Node, 1 ≤ n.size := size_pos
  fun_induction union a b with
  | case1 a => have := base a; rw [unionT.eq_def]; simp; omega
  | case2 a ne => have := base a; rw [unionT.eq_def]; simp only [if_neg ne]; simp; omega
  | case3 b ne _ => have := base b; rw [unionT.eq_def]; simp only [if_neg ne]; cases b <;> simp_all [size] <;> omega
  | case4 ne => exact absurd rfl ne
  | case5 i l h ne ih =>
    simp only [Ordered] at oa
    have ih := ih oa.2.2.2.1 trivial
    have := base h
    have c := branchT_plain ((union_ok l .Always oa.2.2.2.1 trivial).2.1 i oa.1 trivial) oa.2.1
    rw [unionT.eq_def]; simp only [size] at *
    split_ifs <;> simp only [ret_calls, call_calls, bind_calls, unionT_val] <;> omega
  | case6 i l h ne ih =>
    simp only [Ordered] at ob
    have ih := ih trivial ob.2.2.2.1
    have := base h
    have c := branchT_plain ((union_ok .Always l trivial ob.2.2.2.1).2.1 i trivial ob.1) ob.2.1
    rw [unionT.eq_def]; simp only [size] at *
    split_ifs <;> simp only [ret_calls, call_calls, bind_calls, unionT_val] <;> omega
  | case7 i l h j m k h1 ne ih =>
    have ob' := ob
    simp only [Ordered] at oa
    have ih := ih oa.2.2.2.1 ob
    have := base h
    have c := branchT_plain ((union_ok _ _ oa.2.2.2.1 ob').2.1 i oa.1 h1) oa.2.1
    rw [unionT.eq_def]; simp only [size] at *
    split_ifs <;> simp only [ret_calls, call_calls, bind_calls, unionT_val] <;> omega
  | case8 i l h j m k h1 h2 ne ih =>
    have oa' := oa
    simp only [Ordered] at ob
    have ih := ih oa ob.2.2.2.1
    have := base k
    have c := branchT_plain ((union_ok _ _ oa' ob.2.2.2.1).2.1 j h2 ob.1) ob.2.1
    rw [unionT.eq_def]; simp only [size] at *
    split_ifs <;> simp only [ret_calls, call_calls, bind_calls, unionT_val] <;> omega
  | case9 i l h j m k h1 h2 ne ih2 ih1 =>
    obtain rfl : i = j := by omega
    simp only [Ordered] at oa ob
    have ih1 := ih1 oa.2.2.2.2 ob.2.2.2.2
    have ih2 := ih2 oa.2.2.2.1 ob.2.2.2.1
    have c := branchT_plain ((union_ok _ _ oa.2.2.2.1 ob.2.2.2.1).2.1 i oa.1 ob.1)
      ((union_ok _ _ oa.2.2.2.2 ob.2.2.2.2).2.1 i oa.2.1 ob.2.1)
    rw [unionT.eq_def]; simp only [size] at *
    split_ifs <;> simp only [ret_calls, call_calls, bind_calls, unionT_val] <;> omega

theorem intersectT_calls {a b : Node} (oa : a.Ordered) (ob : b.Ordered) :
    (intersectT a b).calls ≤ a.size + b.size := by
  have base : ∀ n : Node, 1 ≤ n.size := size_pos
  fun_induction intersect a b with
  | case1 a => have := base a; rw [intersectT.eq_def]; simp; omega
  | case2 a ne => have := base a; rw [intersectT.eq_def]; simp only [if_neg ne]; simp; omega
  | case3 b ne _ => have := base b; rw [intersectT.eq_def]; simp only [if_neg ne]; cases b <;> simp_all [size] <;> omega
  | case4 a ne _ => have := base a; rw [intersectT.eq_def]; simp only [if_neg ne]; cases a <;> simp_all [size] <;> omega
  | case5 b ne _ _ => have := base b; rw [intersectT.eq_def]; simp only [if_neg ne]; cases b <;> simp_all [size] <;> omega
  | case6 i l h j m k h1 ne ih =>
    have ob' := ob
    simp only [Ordered] at oa
    have ih := ih oa.2.2.2.1 ob
    rw [intersectT.eq_def]; simp only [size] at *
    split_ifs <;> simp only [ret_calls, call_calls] <;> omega
  | case7 i l h j m k h1 h2 ne ih =>
    have oa' := oa
    simp only [Ordered] at ob
    have ih := ih oa ob.2.2.2.1
    rw [intersectT.eq_def]; simp only [size] at *
    split_ifs <;> simp only [ret_calls, call_calls] <;> omega
  | case8 i l h j m k h1 h2 ne ih2 ih1 =>
    obtain rfl : i = j := by omega
    simp only [Ordered] at oa ob
    have ih1 := ih1 oa.2.2.2.2 ob.2.2.2.2
    have ih2 := ih2 oa.2.2.2.1 ob.2.2.2.1
    have c := branchT_plain ((intersect_ok _ _ oa.2.2.2.1 ob.2.2.2.1).2.1 i oa.1 ob.1)
      ((intersect_ok _ _ oa.2.2.2.2 ob.2.2.2.2).2.1 i oa.2.1 ob.2.1)
    rw [intersectT.eq_def]; simp only [size] at *
    split_ifs <;> simp only [ret_calls, call_calls, bind_calls, intersectT_val] <;> omega

theorem subsetInnerT_calls {a : Node} (oa : a.Ordered) (e : Nat) : (subsetInnerT a e).calls ≤ 2 * a.size := by
  induction a with
  | Always => simp [subsetInnerT, size]
  | Never => simp [subsetInnerT, size]
  | Branch i l h ihl ihh =>
    simp only [Ordered] at oa
    have ihl := ihl oa.2.2.2.1
    have ihh := ihh oa.2.2.2.2
    have h1 := size_pos l
    have h2 := size_pos h
    have c1 := branchT_plain (low := .Never) (high := h) (id := i) trivial oa.2.1
    have c2 := branchT_plain ((subsetInner_ok l e oa.2.2.2.1).2.1 i oa.1)
      ((subsetInner_ok h e oa.2.2.2.2).2.1 i oa.2.1)
    rw [subsetInnerT]
    simp only [size]
    split_ifs <;> simp only [call_calls, map_calls, bind_calls, subsetInnerT_val] <;> omega

theorem subsetNotT_calls {a : Node} (oa : a.Ordered) (e : Nat) : (subsetNotT a e).calls ≤ 2 * a.size := by
  induction a with
  | Always => simp [subsetNotT, size]
  | Never => simp [subsetNotT, size]
  | Branch i l h ihl ihh =>
    simp only [Ordered] at oa
    have ihl := ihl oa.2.2.2.1
    have ihh := ihh oa.2.2.2.2
    have h1 := size_pos l
    have h2 := size_pos h
    have c2 := branchT_plain ((subsetNot_ok l e oa.2.2.2.1).2.1 i oa.1)
      ((subsetNot_ok h e oa.2.2.2.2).2.1 i oa.2.1)
    rw [subsetNotT]
    simp only [size]
    split_ifs <;> simp only [call_calls, ret_calls, bind_calls, subsetNotT_val] <;> omega

/-! ### how many members the results have -/

theorem count_den {n : Node} (o : n.Ordered) : n.Den.Finite ∧ n.count = n.Den.ncard := by
  have := cnt_eq o fun _ => true
  simpa [count] using this

theorem count_le_add {n a b : Node} (o : n.Ordered) (oa : a.Ordered) (ob : b.Ordered)
    (h : ∀ s ∈ n.Den, s ∈ a.Den ∨ s ∈ b.Den) : n.count ≤ a.count + b.count := by
  rw [(count_den o).2, (count_den oa).2, (count_den ob).2]
  exact (Set.ncard_le_ncard (fun s hs => h s hs) ((count_den oa).1.union (count_den ob).1)).trans
    (Set.ncard_union_le _ _)

theorem count_union {a b : Node} (oa : a.Ordered) (ob : b.Ordered) :
    (union a b).count ≤ a.count + b.count :=
  count_le_add (oa.union ob) oa ob fun s hs => (mem_union oa ob).mp hs

theorem count_intersect {a b : Node} (oa : a.Ordered) (ob : b.Ordered) :
    (intersect a b).count ≤ a.count + b.count :=
  count_le_add (oa.intersect ob) oa ob fun s hs =>
    ((intersect_ok a b oa ob).2.2.2 s hs).imp (fun h => h.1) (fun h => h.1)

theorem count_product {a b : Node} (oa : a.Ordered) (ob : b.Ordered) :
    (product a b).count ≤ a.count * b.count := by
  rw [(count_den (oa.product ob)).2, (count_den oa).2, (count_den ob).2, ← Set.ncard_prod]
  have hf := (count_den oa).1.prod (count_den ob).1
  refine (Set.ncard_le_ncard (t := (fun p : Finset Nat × Finset Nat => p.1 ∪ p.2) '' (a.Den ×ˢ b.Den)) ?_
    (hf.image _)).trans (Set.ncard_image_le hf)
  intro s hs
  obtain ⟨p, hp, q, hq, rfl⟩ := (product_ok a b oa ob).2.2.1 s hs
  exact ⟨(p, q), ⟨hp, hq⟩, rfl⟩

theorem count_sub {n a : Node} (o : n.Ordered) (oa : a.Ordered) (h : ∀ s ∈ n.Den, s ∈ a.Den) :
    n.count ≤ a.count := by
  rw [(count_den o).2, (count_den oa).2]
  exact Set.ncard_le_ncard (fun s hs => h s hs) (count_den oa).1

theorem arith_lt {sl sh t K p q : Nat} (hp : p ≤ sl * t * K) (hq : q ≤ sh * t * K) (ht : 1 ≤ t) (hK : 2 ≤ K) :
    p + (q + 1) + 1 ≤ (1 + sl + sh) * t * K := by
  have : 2 ≤ t * K := le_trans hK (Nat.le_mul_of_pos_left K ht)
  have e : (1 + sl + sh) * t * K = t * K + sl * t * K + sh * t * K := by ring
  omega

theorem arith_eq {sl sh tl th K p1 p2 p3 p4 u : Nat} (h1 : p1 ≤ sl * tl * K) (h2 : p2 ≤ sl * th * K)
    (h3 : p3 ≤ sh * tl * K) (h4 : p4 ≤ sh * th * K) (hu : u ≤ K) :
    p1 + p2 + p3 + p4 + u ≤ (1 + sl + sh) * (1 + tl + th) * K := by
  have e : (1 + sl + sh) * (1 + tl + th) * K =
    K + sl * tl * K + sl * th * K + sh * tl * K + sh * th * K + (sl + sh + tl + th) * K := by ring
  have : 0 ≤ (sl + sh + tl + th) * K := Nat.zero_le _
  omega

theorem productT_calls {N : Nat} {a b : Node} (oa : a.Ordered) (ob : b.Ordered) (la : a.Lt N) (lb : b.Lt N) :
    (productT a b).calls ≤ a.size * b.size * (4 * (N * (a.count * b.count)) + 6) := by
  have base : ∀ n : Node, 1 ≤ n.size := size_pos
  obtain ⟨K, hK⟩ : ∃ K, 4 * (N * (a.count * b.count)) + 6 = K := ⟨_, rfl⟩
  have K6 : 6 ≤ K := by omega
  have leaf : ∀ a b : Node, 1 ≤ a.size * b.size * K := fun a b =>
    Nat.mul_pos (Nat.mul_pos (size_pos a) (size_pos b)) (by omega)
  have key : 4 * (N * (a.count * b.count)) + 6 ≤ K := by omega
  rw [hK]
  clear hK
  fun_induction product a b with
  | case1 a => have := leaf a a; rw [productT.eq_def]; simp; omega
  | case2 a ne => have := leaf a .Always; rw [productT.eq_def]; simp only [if_neg ne]; simp; omega
  | case3 b ne _ =>
    have := leaf .Always b
    rw [productT.eq_def]; simp only [if_neg ne]; cases b <;> simp only [call_calls] <;> split_ifs <;> simp only [ret_calls] <;> omega
  | case4 a ne _ =>
    have := leaf a .Never
    rw [productT.eq_def]; simp only [if_neg ne]; cases a <;> simp only [call_calls] <;> split_ifs <;> simp only [ret_calls] <;> omega
  | case5 b ne _ _ =>
    have := leaf .Never b
    rw [productT.eq_def]; simp only [if_neg ne]; cases b <;> simp only [call_calls] <;> split_ifs <;> simp only [ret_calls] <;> omega
  | case6 i l h j m k h1 ne ih2 ih1 =>
    have ob' := ob
    simp only [Ordered] at oa
    simp only [Lt] at la
    have mono : ∀ x : Nat, x ≤ l.count + h.count →
        4 * (N * (x * (Node.Branch j m k).count)) + 6 ≤ K := fun x hx =>
      le_trans (by rw [count_branch i l h]; gcongr) key
    have e2 := ih2 oa.2.2.2.1 ob la.2.1 lb (mono _ (by omega))
    have e1 := ih1 oa.2.2.2.2 ob la.2.2 lb (mono _ (by omega))
    have c := branchT_plain ((product_ok _ _ oa.2.2.2.1 ob').2.1 i oa.1 h1)
      ((product_ok _ _ oa.2.2.2.2 ob').2.1 i oa.2.1 h1)
    have fin := arith_lt e2 e1 (base _) (by omega)
    rw [productT.eq_def]; rw [show (Node.Branch i l h).size = 1 + l.size + h.size from rfl]
    simp only
    split_ifs <;> simp only [ret_calls, call_calls, bind_calls, productT_val] <;> omega
  | case7 i l h j m k h1 h2 ne ih2 ih1 =>
    have oa' := oa
    simp only [Ordered] at ob
    simp only [Lt] at lb
    have mono : ∀ x : Nat, x ≤ m.count + k.count →
        4 * (N * ((Node.Branch i l h).count * x)) + 6 ≤ K := fun x hx =>
      le_trans (by rw [count_branch j m k]; gcongr) key
    have e2 := ih2 oa ob.2.2.2.1 la lb.2.1 (mono _ (by omega))
    have e1 := ih1 oa ob.2.2.2.2 la lb.2.2 (mono _ (by omega))
    have c := branchT_plain ((product_ok _ _ oa' ob.2.2.2.1).2.1 j h2 ob.1)
      ((product_ok _ _ oa' ob.2.2.2.2).2.1 j h2 ob.2.1)
    rw [Nat.mul_comm (Node.size _)] at e2 e1
    have fin := arith_lt e2 e1 (base _) (by omega)
    rw [productT.eq_def]; rw [show (Node.Branch j m k).size = 1 + m.size + k.size from rfl,
      Nat.mul_comm (Node.size _)]
    simp only
    split_ifs <;> simp only [ret_calls, call_calls, bind_calls, productT_val] <;> omega
  | case8 i l h j m k h1 h2 ne ih4 ih3 ih2 ih1 =>
    obtain rfl : i = j := by omega
    simp only [Ordered] at oa ob
    simp only [Lt] at la lb
    rw [count_branch, count_branch] at key
    have mono : ∀ x y : Nat, x ≤ l.count + h.count → y ≤ m.count + k.count →
        4 * (N * (x * y)) + 6 ≤ K := fun x y hx hy => le_trans (by gcongr) key
    have e4 := ih4 oa.2.2.2.1 ob.2.2.2.1 la.2.1 lb.2.1 (mono _ _ (by omega) (by omega))
    have e3 := ih3 oa.2.2.2.1 ob.2.2.2.2 la.2.1 lb.2.2 (mono _ _ (by omega) (by omega))
    have e2 := ih2 oa.2.2.2.2 ob.2.2.2.1 la.2.2 lb.2.1 (mono _ _ (by omega) (by omega))
    have e1 := ih1 oa.2.2.2.2 ob.2.2.2.2 la.2.2 lb.2.2 (mono _ _ (by omega) (by omega))
    have a1 := (product_ok _ _ oa.2.2.2.1 ob.2.2.2.1).2.1 i oa.1 ob.1
    have a2 := (product_ok _ _ oa.2.2.2.1 ob.2.2.2.2).2.1 i oa.1 ob.2.1
    have a3 := (product_ok _ _ oa.2.2.2.2 ob.2.2.2.1).2.1 i oa.2.1 ob.1
    have a4 := (product_ok _ _ oa.2.2.2.2 ob.2.2.2.2).2.1 i oa.2.1 ob.2.1
    have o2 := oa.2.2.2.1.product ob.2.2.2.2
    have o3 := oa.2.2.2.2.product ob.2.2.2.1
    have o4 := oa.2.2.2.2.product ob.2.2.2.2
    have l2 := Lt.product oa.2.2.2.1 ob.2.2.2.2 la.2.1 lb.2.2
    have l3 := Lt.product oa.2.2.2.2 ob.2.2.2.1 la.2.2 lb.2.1
    have l4 := Lt.product oa.2.2.2.2 ob.2.2.2.2 la.2.2 lb.2.2
    have a5 := (union_ok _ _ o3 o4).2.1 i a3 a4
    have c := branchT_plain a1 ((union_ok _ _ o2 (o3.union o4)).2.1 i a2 a5)
    have u1 := unionT_calls o3 o4
    have u2 := unionT_calls o2 (o3.union o4)
    have s2 := size_le o2 l2
    have s3 := size_le o3 l3
    have s4 := size_le o4 l4
    have s5 := size_le (o3.union o4) (Lt.union o3 o4 l3 l4)
    have n2 := Nat.mul_le_mul_left N (count_product oa.2.2.2.1 ob.2.2.2.2)
    have n3 := Nat.mul_le_mul_left N (count_product oa.2.2.2.2 ob.2.2.2.1)
    have n4 := Nat.mul_le_mul_left N (count_product oa.2.2.2.2 ob.2.2.2.2)
    have n5 := Nat.mul_le_mul_left N (count_union o3 o4)
    rw [Nat.mul_add] at n5
    have ex : N * ((l.count + h.count) * (m.count + k.count)) =
      N * (l.count * m.count) + N * (l.count * k.count) + N * (h.count * m.count) + N * (h.count * k.count) := by
      ring
    have fin := arith_eq (u := (unionT (h.product m) (h.product k)).calls +
      (unionT (l.product k) ((h.product m).union (h.product k))).calls + 2) e4 e3 e2 e1 (by omega)
    rw [productT.eq_def, show (Node.Branch i l h).size = 1 + l.size + h.size from rfl,
      show (Node.Branch i m k).size = 1 + m.size + k.size from rfl]
    simp only
    split_ifs <;> simp only [ret_calls, call_calls, bind_calls, productT_val, unionT_val] <;> omega

theorem subsetAllT_calls {N : Nat} {a : Node} (oa : a.Ordered) (la : a.Lt N) (es : List Nat) :
    (subsetAllT a es).calls ≤ es.length * (8 * (N * a.count) + 2 * N + 4) := by
  refine fold_calls (g := fun acc e => intersect acc (subset a e))
    (fun n e => by simp [subsetInnerT_val, intersectT_val, subset])
    (fun n => n.Ordered ∧ n.Lt N ∧ ∀ s ∈ n.Den, s ∈ a.Den ∨ s ∈ Node.Always.Den) _ _ _ ?_
    ⟨trivial, trivial, fun s hs => Or.inr hs⟩
  rintro n e ⟨o, l, h⟩ _
  have os := subset_ordered oa e
  have hs : ∀ s ∈ (subset a e).Den, s ∈ a.Den := by
    intro s hs
    by_cases hn : a = .Always
    · subst hn; exact hs
    · exact ((mem_subset oa hn e).mp hs).1
  have ls : (subset a e).Lt N := os.lt fun s h k hk => la.mem (hs s h) hk
  refine ⟨⟨o.intersect os, Lt.intersect o os l ls, fun s hm => ?_⟩, ?_⟩
  · rcases (intersect_ok n _ o os).2.2.2 s hm with h1 | h1
    · exact h s h1.1
    · exact Or.inl (hs s h1.1)
  · have c1 := subsetInnerT_calls oa e
    have c2 := intersectT_calls o os
    have s1 := size_le oa la
    have s2 := size_le o l
    have s3 := size_le os ls
    have n1 := Nat.mul_le_mul_left N (count_le_add (b := .Always) o oa trivial h)
    have n2 := Nat.mul_le_mul_left N (count_sub os oa hs)
    rw [count_always, Nat.mul_add, Nat.mul_one] at n1
    simp only [bind_calls, subsetInnerT_val]
    change _ + (intersectT n (subset a e)).calls ≤ _
    omega

theorem subsetNoneT_calls {N : Nat} {a : Node} (oa : a.Ordered) (la : a.Lt N) (es : List Nat) :
    (subsetNoneT a es).calls ≤ es.length * (8 * (N * a.count) + 2 * N + 4) := by
  refine fold_calls (g := fun acc e => intersect acc (subsetNot a e))
    (fun n e => by simp [subsetNotT_val, intersectT_val])
    (fun n => n.Ordered ∧ n.Lt N ∧ ∀ s ∈ n.Den, s ∈ a.Den ∨ s ∈ Node.Always.Den) _ _ _ ?_
    ⟨trivial, trivial, fun s hs => Or.inr hs⟩
  rintro n e ⟨o, l, h⟩ _
  have os := oa.subsetNot e
  have hs : ∀ s ∈ (subsetNot a e).Den, s ∈ a.Den := fun s hs => ((mem_subsetNot oa e).mp hs).1
  have ls : (subsetNot a e).Lt N := os.lt fun s h k hk => la.mem (hs s h) hk
  refine ⟨⟨o.intersect os, Lt.intersect o os l ls, fun s hm => ?_⟩, ?_⟩
  · rcases (intersect_ok n _ o os).2.2.2 s hm with h1 | h1
    · exact h s h1.1
    · exact Or.inl (hs s h1.1)
  · have c1 := subsetNotT_calls oa e
    have c2 := intersectT_calls o os
    have s1 := size_le oa la
    have s2 := size_le o l
    have s3 := size_le os ls
    have n1 := Nat.mul_le_mul_left N (count_le_add (b := .Always) o oa trivial h)
    have n2 := Nat.mul_le_mul_left N (count_sub os oa hs)
    rw [count_always, Nat.mul_add, Nat.mul_one] at n1
    simp only [bind_calls, subsetNotT_val]
    omega

theorem subset_sub {a : Node} (oa : a.Ordered) (e : Nat) : ∀ s ∈ (subset a e).Den, s ∈ a.Den := by
  intro s hs
  by_cases hn : a = .Always
  · subst hn; exact hs
  · exact ((mem_subset oa hn e).mp hs).1

theorem fold_sub {a : Node} (oa : a.Ordered) {g : Nat → Node} (hg : ∀ e, (g e).Ordered)
    (hs : ∀ e, ∀ s ∈ (g e).Den, s ∈ a.Den) {es : List Nat} (ne : es ≠ []) :
    (es.foldl (fun acc e => intersect acc (g e)) .Always).Ordered ∧
    ∀ s ∈ (es.foldl (fun acc e => intersect acc (g e)) .Always).Den, s ∈ a.Den := by
  have key : ∀ (l : List Nat) (n : Node), n.Ordered → (∀ s ∈ n.Den, s ∈ a.Den) →
      (l.foldl (fun acc e => intersect acc (g e)) n).Ordered ∧
      ∀ s ∈ (l.foldl (fun acc e => intersect acc (g e)) n).Den, s ∈ a.Den := by
    intro l
    induction l with
    | nil => exact fun n o h => ⟨o, h⟩
    | cons e l ih =>
      intro n o h
      refine ih _ (o.intersect (hg e)) fun s hm => ?_
      rcases (intersect_ok n _ o (hg e)).2.2.2 s hm with h1 | h1
      · exact h s h1.1
      · exact hs e s h1.1
  cases es with
  | nil => exact absurd rfl ne
  | cons e l =>
    have h1 : intersect .Always (g e) = g e := by
      rw [intersect.eq_def]; split_ifs with h
      · exact h
      · cases g e <;> rfl
    rw [List.foldl_cons, h1]
    exact key l _ (hg e) (hs e)

theorem single_count {n : Node} {s : Finset Nat} (o : n.Ordered) (h : n.Den = {s}) : n.count = 1 := by
  rw [(count_den o).2, h, Set.ncard_singleton]

theorem fromIterT_calls {N : Nat} (up : Bool) {items : List Nat} (hi : ∀ i ∈ items, i < N) :
    (fromIterT up items).calls ≤ items.length * (2 * N + 2) := by
  rw [fromIterT]
  split_ifs
  · simp
  refine fold_calls (fun a b => branchT_val _ _ _)
    (fun n => n.Ordered ∧ ∃ s : Finset Nat, n.Den = {s} ∧ ∀ k ∈ s, k < N) _ _ _ ?_ ⟨trivial, ∅, rfl, by simp⟩
  rintro n i ⟨o, s, hs, hk⟩ hm
  refine ⟨⟨Ordered.branch (l := .Never) trivial o, insert i s, branch_single i n s o hs, ?_⟩, ?_⟩
  · intro k h
    rcases Finset.mem_insert.mp h with rfl | h
    · exact hi _ hm
    · exact hk k h
  · have c := branchT_calls (id := i) (low := .Never) trivial o
    have l : n.Lt N := o.lt fun t ht k hk' => by
      rw [hs, Set.mem_singleton_iff] at ht; subst ht; exact hk k hk'
    have := size_le o l
    rw [single_count o hs] at this
    simp only [size] at c
    omega

end Node

open Verif.Spec Verif.Zdd2.Spec

universe u
variable {T : Type u} [LinearOrder T]

namespace Forest
open Universe Ticked

/-- weave/src/zdd2/forest/mod.rs:189-202, counting calls; `none` is a failed `unwrap`. -/
def translateRootT (oldU newU : Universe T) (root : Node) : Ticked (Option Node) :=
  call <| match root with
    | .Branch id low high =>
      (translateRootT oldU newU low).bind fun low => (translateRootT oldU newU high).bind fun high =>
      match low, high, oldU.getItem id with
      | some low, some high, some item =>
        match newU.getPriority item with
        | some id => (Node.branchT id low high).map some
        | none => ret none
      | _, _, _ => ret none
    | .Always => ret (some .Always)
    | .Never => ret (some .Never)

/-- weave/src/zdd2/forest/universe/mod.rs:75-79, counting calls. -/
def getPrioritiesNodeT (univ : Universe T) (items : List T) : Ticked Node :=
  Node.fromIterT (items.length == 0) (items.filterMap univ.getPriority)

/-- weave/src/zdd2/forest/mod.rs:64-69, counting calls. -/
def unitT (items : List T) : Ticked (Forest T) :=
  (getPrioritiesNodeT (Universe.fromItems items) items).map fun root => ⟨root, Universe.fromItems items⟩

/-- weave/src/zdd2/forest/mod.rs:71-79, counting calls. -/
def manyT (matrix : List (List T)) : Ticked (Forest T) :=
  (fold (fun root items =>
    (getPrioritiesNodeT (Universe.fromMatrix matrix) items).bind fun n => Node.unionT root n)
    Node.Never matrix).map fun root => ⟨root, Universe.fromMatrix matrix⟩

/-- weave/src/zdd2/forest/mod.rs:91-98, counting calls. -/
def canonicalT (root : Node) (univ : Universe T) : Ticked (Forest T) :=
  (Node.treesT root).bind fun ts => manyT (ts.map (fun set => univ.getItems set))

/-- weave/src/zdd2/forest/mod.rs:108-113, counting iterations; `len` and `is_empty` (:100-106) run the
same loop. -/
def treesT (f : Forest T) : Ticked (List (List T)) :=
  (Node.treesT f.root).map fun ts => ts.map (fun set => f.univ.getItems set)

/-- weave/src/zdd2/forest/mod.rs:123-151 and 180-187, counting calls: the shape shared by `intersect`,
`union` and `product`. -/
def binaryT (op : Node → Node → Ticked Node) (self other : Forest T) : Ticked (Option (Forest T)) :=
  (translateRootT self.univ (Universe.merge self.univ other.univ) self.root).bind fun selfRoot =>
  (translateRootT other.univ (Universe.merge self.univ other.univ) other.root).bind fun otherRoot =>
  match selfRoot, otherRoot with
  | some selfRoot, some otherRoot =>
    ((op selfRoot otherRoot).bind fun root =>
      canonicalT root (Universe.merge self.univ other.univ)).map some
  | _, _ => ret none

/-- weave/src/zdd2/forest/subset.rs:7-16, counting calls. -/
def subsetT (f : Forest T) (element : T) : Ticked (Forest T) :=
  match f.univ.getPriority element with
  | none => ret empty
  | some e => (Node.subsetInnerT f.root e).bind fun r => canonicalT r.1 f.univ

/-- weave/src/zdd2/forest/subset.rs:18-27, counting calls. -/
def subsetNotT (f : Forest T) (element : T) : Ticked (Forest T) :=
  match f.univ.getPriority element with
  | none => ret f
  | some e => (Node.subsetNotT f.root e).bind fun r => canonicalT r f.univ

/-- weave/src/zdd2/forest/subset.rs:29-49, counting calls. -/
def subsetManyT (f : Forest T) (elements : List T) (dflt : Forest T → Forest T)
    (func : Node → List Nat → Ticked Node) : Ticked (Forest T) :=
  if elements.isEmpty then ret f
  else
    if elements.length ≠ (f.univ.getPriorities elements).length then ret (dflt f)
    else (func f.root (f.univ.getPriorities elements)).bind fun r => canonicalT r f.univ

/-! ### values -/

theorem translateRootT_val (u u' : Universe T) (n : Node) :
    (translateRootT u u' n).val = translateRoot u u' n := by
  induction n with
  | Always => rfl
  | Never => rfl
  | Branch i l h ihl ihh =>
    rw [translateRootT, translateRoot]
    simp only [call_val, bind_val, ihl, ihh]
    cases translateRoot u u' l <;> cases translateRoot u u' h <;> cases u.getItem i <;> simp
    rename_i item
    cases u'.getPriority item <;> simp [Node.branchT_val]

theorem nodeT_val (u : Universe T) (items : List T) :
    (getPrioritiesNodeT u items).val = u.getPrioritiesNode items := Node.fromIterT_val _ _

theorem unitT_val (items : List T) : (unitT items).val = unit items := by
  rw [unitT, map_val, nodeT_val]; rfl

theorem manyT_val (m : List (List T)) : (manyT m).val = many m := by
  rw [manyT, map_val, fold_val (g := fun root items =>
    Node.union root ((fromMatrix m).getPrioritiesNode items)), many, List.foldl_map]
  intro a b; simp [nodeT_val, Node.unionT_val]

theorem canonicalT_val (n : Node) (u : Universe T) : (canonicalT n u).val = canonical n u := by
  rw [canonicalT, bind_val, manyT_val, Node.treesT_val]; rfl

theorem treesT_val (f : Forest T) : f.treesT.val = f.trees := by
  rw [treesT, map_val, Node.treesT_val]; rfl

theorem binaryT_val (f g : Forest T) : (binaryT Node.unionT f g).val = f.union g ∧
    (binaryT Node.intersectT f g).val = f.intersect g ∧ (binaryT Node.productT f g).val = f.product g := by
  simp only [binaryT, union, intersect, product, translateRoots, bind_val, translateRootT_val]
  cases translateRoot f.univ (f.univ.merge g.univ) f.root <;>
    cases translateRoot g.univ (f.univ.merge g.univ) g.root <;>
    simp [canonicalT_val, Node.unionT_val, Node.intersectT_val, Node.productT_val]

theorem subsetT_val (f : Forest T) (e : T) : (f.subsetT e).val = f.subset e := by
  rw [subsetT, subset]
  cases f.univ.getPriority e <;> simp [canonicalT_val, Node.subsetInnerT_val, Node.subset]

theorem subsetNotT_val (f : Forest T) (e : T) : (f.subsetNotT e).val = f.subsetNot e := by
  rw [subsetNotT, subsetNot]
  cases f.univ.getPriority e <;> simp [canonicalT_val, Node.subsetNotT_val]

theorem subsetManyT_val (f : Forest T) (es : List T) :
    (f.subsetManyT es (fun _ => empty) Node.subsetAllT).val = f.subsetAll es ∧
    (f.subsetManyT es (fun x => x) Node.subsetNoneT).val = f.subsetNone es := by
  rw [subsetManyT, subsetManyT, subsetAll, subsetNone, subsetMany, subsetMany]
  simp only
  split_ifs <;> simp [canonicalT_val, Node.subsetAllT_val, Node.subsetNoneT_val]

/-! ### calls -/

theorem nodeT_calls {u : Universe T} (hu : u.Ok) (items : List T) :
    (getPrioritiesNodeT u items).calls ≤ items.length * (2 * u.index.length + 2) := by
  refine (Node.fromIterT_calls _ (fun i hi => priorities_lt hu hi)).trans ?_
  exact Nat.mul_le_mul_right _ (List.length_filterMap_le _ _)

theorem conv_lt {u u' : Universe T} (hu' : u'.Ok) (hsub : ∀ x ∈ u.index, x ∈ u'.index) {j : Nat}
    (hj : j < u.index.length) : conv u u' j < u'.index.length := by
  have gj : u.getItem j = some u.index[j] := List.getElem?_eq_getElem hj
  have := getPriority_prio hu' (hsub _ (List.getElem_mem hj))
  simpa [conv, gj] using priority_lt_length hu' this

theorem translateRootT_calls {u u' : Universe T} (hu : u.Ok) (hu' : u'.Ok)
    (hsub : ∀ x ∈ u.index, x ∈ u'.index) {n : Node} (on : n.Ordered) (hn : u.InU n) :
    (translateRootT u u' n).calls ≤ n.size * (2 * (u'.index.length * n.count) + 3) := by
  obtain ⟨K, hK⟩ : ∃ K, n.count ≤ K := ⟨_, le_rfl⟩
  obtain ⟨C, hC⟩ : ∃ C, n.count = C := ⟨_, rfl⟩
  have main : ∀ n : Node, n.Ordered → u.InU n → n.count ≤ C →
      (translateRootT u u' n).calls ≤ n.size * (2 * (u'.index.length * C) + 3) := by
    clear hC hK on hn n
    intro n on hn hC
    induction n with
    | Always => simp [translateRootT, Node.size]
    | Never => simp [translateRootT, Node.size]
    | Branch i l h ihl ihh =>
      simp only [Node.Ordered] at on
      rw [Node.count_branch] at hC
      have hnl : u.InU l := fun s hs => hn s (Or.inl hs)
      have hnh : u.InU h := fun s hs k hk => hn (insert i s) (Or.inr ⟨s, hs, rfl⟩) k (by simp [hk])
      have ihl := ihl on.2.2.2.1 hnl (by omega)
      have ihh := ihh on.2.2.2.2 hnh (by omega)
      obtain ⟨l', el, ol, sl, nl, dl⟩ := translate_ok hu hu' hsub l on.2.2.2.1 hnl
      obtain ⟨h', eh, oh, sh, nh, dh⟩ := translate_ok hu hu' hsub h on.2.2.2.2 hnh
      have cl : l'.count ≤ l.count := (translate_cnt hu hu' hsub l on.2.2.2.1 hnl el).1 _
      have ch : h'.count ≤ h.count := (translate_cnt hu hu' hsub h on.2.2.2.2 hnh eh).1 _
      have supp : ∀ {a b : Node}, (∀ y, b.Supp y → ∃ k, a.Supp k ∧ y = conv u u' k) → u.InU a → b.Ordered →
          b.Lt u'.index.length := by
        intro a b hs ha ob
        refine ob.lt fun s hm k hk => ?_
        obtain ⟨j, ⟨t, ht, hj⟩, rfl⟩ := hs k ⟨s, hm, hk⟩
        exact conv_lt hu' hsub (ha t ht j hj)
      have bl := Node.size_le ol (supp sl hnl ol)
      have bh := Node.size_le oh (supp sh hnh oh)
      have m1 := Nat.mul_le_mul_left u'.index.length cl
      have m2 := Nat.mul_le_mul_left u'.index.length ch
      have m3 := Nat.mul_le_mul_left u'.index.length hC
      rw [Nat.mul_add] at m3
      rw [translateRootT]
      simp only [call_calls, bind_calls, translateRootT_val, el, eh, Node.size, Nat.add_mul, Nat.one_mul] at *
      cases u.getItem i with
      | none => simp only [ret_calls]; omega
      | some item =>
        simp only
        cases u'.getPriority item with
        | none => simp only [ret_calls]; omega
        | some id =>
          have := Node.branchT_calls (id := id) ol oh
          simp only [map_calls]; omega
  rw [hC]
  exact main n on hn hC.le

theorem manyT_calls (m : List (List T)) {L : Nat} (hL : ∀ l ∈ m, l.length ≤ L) :
    (manyT m).calls ≤ m.length * (L * (2 * (fromMatrix m).index.length + 2) +
      (2 * ((fromMatrix m).index.length * (m.length + 1)) + 2)) := by
  have hu := ok_fromMatrix m
  have hcount : ∀ n : Node, n.Ordered →
      (∀ s ∈ n.Den, s ∈ (fun l : List T => (l.filterMap (fromMatrix m).getPriority).toFinset) '' {l | l ∈ m}) →
      n.count ≤ m.length := by
    intro n o h
    rw [(Node.count_den o).2]
    have hf : Set.Finite {l | l ∈ m} := List.finite_toSet m
    refine (Set.ncard_le_ncard h (hf.image _)).trans ((Set.ncard_image_le hf).trans ?_)
    have : {l | l ∈ m} = (m.toFinset : Set (List T)) := by ext; simp
    rw [this, Set.ncard_coe_finset]
    exact List.toFinset_card_le m
  rw [manyT, map_calls]
  refine fold_calls (g := fun root items => Node.union root ((fromMatrix m).getPrioritiesNode items))
    (fun a b => by simp [nodeT_val, Node.unionT_val])
    (fun n => n.Ordered ∧ n.Lt (fromMatrix m).index.length ∧
      ∀ s ∈ n.Den, s ∈ (fun l : List T => (l.filterMap (fromMatrix m).getPriority).toFinset) '' {l | l ∈ m})
    _ _ _ ?_ ⟨trivial, trivial, fun s hs => absurd hs (by simp [Node.Den])⟩
  rintro n items ⟨o, l, h⟩ hm
  obtain ⟨o2, d2⟩ := Node.fromIter_ok (items.filterMap (fromMatrix m).getPriority) (items.length == 0)
  change ((fromMatrix m).getPrioritiesNode items).Ordered at o2
  change ((fromMatrix m).getPrioritiesNode items).Den = _ at d2
  have l2 := node_lt hu items
  have hs : ∀ s ∈ ((fromMatrix m).getPrioritiesNode items).Den,
      s = (items.filterMap (fromMatrix m).getPriority).toFinset := by
    intro s hs
    rw [d2] at hs
    split_ifs at hs
    · exact absurd hs (by simp)
    · exact hs
  refine ⟨⟨o.union o2, Node.Lt.union o o2 l l2, fun s hs' => ?_⟩, ?_⟩
  · rcases (Node.mem_union o o2).mp hs' with h1 | h1
    · exact h s h1
    · exact ⟨items, hm, (hs s h1).symm⟩
  · have c1 := nodeT_calls hu items
    have c2 := Node.unionT_calls o o2
    have s1 := Node.size_le o l
    have s2 := Node.size_le o2 l2
    have k1 := hcount n o h
    have k2 : ((fromMatrix m).getPrioritiesNode items).count ≤ 1 := by
      rw [(Node.count_den o2).2]
      have : ((fromMatrix m).getPrioritiesNode items).Den ⊆ {(items.filterMap (fromMatrix m).getPriority).toFinset} :=
        fun s h => hs s h
      exact (Set.ncard_le_ncard this (Set.finite_singleton _)).trans (by simp)
    have m1 := Nat.mul_le_mul_left (fromMatrix m).index.length k1
    have m2 := Nat.mul_le_mul_left (fromMatrix m).index.length k2
    have m3 := Nat.mul_le_mul_right (2 * (fromMatrix m).index.length + 2) (hL items hm)
    rw [Nat.mul_one] at m2
    simp only [bind_calls, nodeT_val, Nat.mul_add, Nat.mul_one] at *
    omega

theorem canonicalT_calls {n : Node} {u : Universe T} (hu : u.Ok) (on : n.Ordered) (hn : u.InU n) {N k : Nat}
    (hN : u.index.length ≤ N) (hk : n.count ≤ k) :
    (canonicalT n u).calls ≤ 2 * (N * k) + 1 + k * (N * (2 * N + 2) + (2 * (N * (k + 1)) + 2)) ∧
    (canonical n u).len ≤ (canonicalT n u).calls := by
  have ln := on.lt hn
  rw [canonicalT, bind_calls, Node.treesT_val, Node.treesT_calls]
  have hc := manyT_calls ((Node.trees n).map (fun set => u.getItems set)) (L := N) (by
    intro l hl
    obtain ⟨p, hp, rfl⟩ := List.mem_map.mp hl
    rw [Node.trees_eq] at hp
    have h1 := Node.path_length (x := 0) on ln (Node.ge_zero _) hp
    have h2 := List.length_filterMap_le u.getItem p
    rw [getItems, length_sorted]; omega)
  have hidx : (fromMatrix ((Node.trees n).map (fun set => u.getItems set))).index.length ≤ N :=
    le_trans (length_le (ok_fromMatrix _) fun x hx => by
      obtain ⟨l, hl, hx⟩ := (mem_index_matrix _ x).mp hx
      obtain ⟨p, _, rfl⟩ := List.mem_map.mp hl
      rw [getItems, mem_sorted, List.mem_filterMap] at hx
      obtain ⟨k, _, hk⟩ := hx
      exact mem_of_getItem hk) hN
  have hlen : ((Node.trees n).map (fun set => u.getItems set)).length = n.count := by
    rw [List.length_map, Node.trees_eq, Node.count_paths]
  rw [hlen] at hc
  have hs := Node.size_le on ln
  constructor
  · refine Nat.add_le_add (hs.trans ?_) (hc.trans ?_)
    · gcongr
    · gcongr
  · have h1 := Node.count_le_size n
    have h2 : (canonical n u).len ≤ n.count := by
      rw [← hlen, len, Node.trees_eq, ← Node.count_paths]
      have o := (many_root ((Node.trees n).map (fun set => u.getItems set))).1
      change (many ((Node.trees n).map (fun set => u.getItems set))).root.count ≤ _
      rw [(Node.count_den o).2]
      set m := (Node.trees n).map (fun set => u.getItems set) with hm
      have hf : Set.Finite {l | l ∈ m} := List.finite_toSet m
      have hsub : (many m).root.Den ⊆ (fun l : List T => l.toFinset.image (fromMatrix m).prio) '' {l | l ∈ m} := by
        intro s hs
        obtain ⟨l, hl, _, rfl⟩ := ((many_root m).2 s).mp hs
        exact ⟨l, hl, rfl⟩
      refine (Set.ncard_le_ncard hsub (hf.image _)).trans ((Set.ncard_image_le hf).trans ?_)
      have : {l | l ∈ m} = (m.toFinset : Set (List T)) := by ext; simp
      rw [this, Set.ncard_coe_finset]
      exact List.toFinset_card_le m
    omega

theorem len_count (f : Forest T) : f.len = f.root.count := by
  rw [len, Node.trees_eq, Node.count_paths]

theorem binaryT_calls {f g : Forest T} (hf : f.Canon) (hg : g.Canon) {N : Nat}
    (hN : (merge f.univ g.univ).index.length ≤ N) :
    ∃ a b, a.Ordered ∧ b.Ordered ∧ (merge f.univ g.univ).InU a ∧ (merge f.univ g.univ).InU b ∧
      a.count ≤ f.len ∧ b.count ≤ g.len ∧
      ∀ (op : Node → Node → Ticked Node) (k c : Nat), (op a b).val.Ordered →
        (merge f.univ g.univ).InU (op a b).val → (op a b).val.count ≤ k → (op a b).calls ≤ c →
        (binaryT op f g).calls ≤ (2 * (N * f.len) + 3) ^ 2 + (2 * (N * g.len) + 3) ^ 2 + c +
          (2 * (N * k) + 1 + k * (N * (2 * N + 2) + (2 * (N * (k + 1)) + 2))) ∧
        ∃ r, (binaryT op f g).val = some r ∧ r.len ≤ (binaryT op f g).calls := by
  obtain ⟨a, b, hm, oa, ob, ia, ib, ea, eb, _⟩ := ops_raw hf hg
  have sf : ∀ x ∈ f.univ.index, x ∈ (merge f.univ g.univ).index := fun x hx =>
    (mem_index_merge hf.ok hg.ok x).mpr (Or.inl hx)
  have sg : ∀ x ∈ g.univ.index, x ∈ (merge f.univ g.univ).index := fun x hx =>
    (mem_index_merge hf.ok hg.ok x).mpr (Or.inr hx)
  have ca : a.count ≤ f.len := by
    rw [len_count]; exact (translate_cnt hf.ok hm sf f.root hf.ordered hf.inU ea).1 _
  have cb : b.count ≤ g.len := by
    rw [len_count]; exact (translate_cnt hg.ok hm sg g.root hg.ordered hg.inU eb).1 _
  refine ⟨a, b, oa, ob, ia, ib, ca, cb, fun op k c ho hi hk hc => ?_⟩
  have t : ∀ h : Forest T, h.Canon → (∀ x ∈ h.univ.index, x ∈ (merge f.univ g.univ).index) →
      (translateRootT h.univ (merge f.univ g.univ) h.root).calls ≤ (2 * (N * h.len) + 3) ^ 2 := by
    intro h hh hs
    refine (translateRootT_calls hh.ok hm hs hh.ordered hh.inU).trans ?_
    have s1 := Node.size_le hh.ordered hh.lt
    have l1 := (length_le hh.ok hs).trans hN
    rw [len_count, Nat.pow_two]
    refine Nat.mul_le_mul (s1.trans ?_) ?_
    · have := Nat.mul_le_mul_right h.root.count l1; omega
    · have := Nat.mul_le_mul_right h.root.count hN; omega
  have tf := t f hf sf
  have tg := t g hg sg
  obtain ⟨cc, cl⟩ := canonicalT_calls hm ho hi hN hk
  have e : (binaryT op f g) = ⟨some (canonical (op a b).val (merge f.univ g.univ)),
      (translateRootT f.univ (merge f.univ g.univ) f.root).calls +
      ((translateRootT g.univ (merge f.univ g.univ) g.root).calls +
        ((op a b).calls + (canonicalT (op a b).val (merge f.univ g.univ)).calls))⟩ := by
    rw [binaryT, Ticked.bind, translateRootT_val, ea, Ticked.bind, translateRootT_val, eb]
    simp [canonicalT_val]
  rw [e]
  exact ⟨by simp only; omega, _, rfl, by simp only; omega⟩

theorem arith_sum (N m n : Nat) : (2 * (N * m) + 3) ^ 2 + (2 * (N * n) + 3) ^ 2 +
    (2 * (N * (m + n)) + 2) + (2 * (N * (m + n)) + 1 + (m + n) * (N * (2 * N + 2) +
      (2 * (N * ((m + n) + 1)) + 2))) ≤ 21 * ((N + 1) * (m + n + 1)) ^ 2 := by
  ring_nf
  omega

theorem arith_prod (N m n : Nat) : (2 * (N * m) + 3) ^ 2 + (2 * (N * n) + 3) ^ 2 +
    (2 * (N * m) + 1) * (2 * (N * n) + 1) * (4 * (N * (m * n)) + 6) +
      (2 * (N * (m * n)) + 1 + (m * n) * (N * (2 * N + 2) +
      (2 * (N * ((m * n) + 1)) + 2))) ≤ 25 * (N + 1) ^ 3 * ((m + 1) * (n + 1)) ^ 2 := by
  ring_nf
  omega

theorem arith_sub (N m L : Nat) : L * (8 * (N * m) + 2 * N + 4) +
    (2 * (N * m) + 1 + m * (N * (2 * N + 2) + (2 * (N * (m + 1)) + 2))) ≤
    8 * (L + 1) * ((N + 1) * (m + 1)) ^ 2 := by
  ring_nf
  omega

end Forest

open Forest Universe Ticked

/-! ## C89 -/

/-- C89: `union` and `intersect` of two forests with `m` and `n` members over `N` different items make at
most `21 · ((N+1) · (m+n+1))²` calls, `product` at most `25 · (N+1)³ · ((m+1) · (n+1))²`. -/
theorem forest_calls {f g : Forest T} (hf : Reach f) (hg : Reach g) (S : Finset T)
    (hS : ∀ x, x ∈ S ↔ ∃ s ∈ family f.trees ∪ family g.trees, x ∈ s) :
    ((binaryT Node.unionT f g).val = f.union g ∧
      (binaryT Node.unionT f g).calls ≤ 21 * ((S.card + 1) * (f.len + g.len + 1)) ^ 2) ∧
    ((binaryT Node.intersectT f g).val = f.intersect g ∧
      (binaryT Node.intersectT f g).calls ≤ 21 * ((S.card + 1) * (f.len + g.len + 1)) ^ 2) ∧
    ((binaryT Node.productT f g).val = f.product g ∧
      (binaryT Node.productT f g).calls ≤ 25 * (S.card + 1) ^ 3 * ((f.len + 1) * (g.len + 1)) ^ 2) := by
  have cf := hf.canon
  have cg := hg.canon
  have hm := ok_merge (v := g.univ) cf.ok
  have hN : (merge f.univ g.univ).index.length ≤ S.card := by
    rw [← Set.ncard_coe_finset]
    refine length_le_ncard hm (Finset.finite_toSet S) fun x hx => ?_
    rw [Finset.mem_coe, hS]
    rcases (mem_index_merge cf.ok cg.ok x).mp hx with h | h
    · have : x ∈ itemsIn (family f.trees) := by rw [items_eq cf]; exact h
      obtain ⟨s, hs, hx⟩ := this
      exact ⟨s, Or.inl hs, hx⟩
    · have : x ∈ itemsIn (family g.trees) := by rw [items_eq cg]; exact h
      obtain ⟨s, hs, hx⟩ := this
      exact ⟨s, Or.inr hs, hx⟩
  obtain ⟨v1, v2, v3⟩ := binaryT_val f g
  obtain ⟨a, b, oa, ob, ia, ib, ca, cb, key⟩ := binaryT_calls cf cg hN
  have la : a.Lt S.card := (oa.lt ia).mono hN
  have lb : b.Lt S.card := (ob.lt ib).mono hN
  have s1 : a.size ≤ 2 * (S.card * f.len) + 1 := (Node.size_le oa la).trans (by gcongr)
  have s2 : b.size ≤ 2 * (S.card * g.len) + 1 := (Node.size_le ob lb).trans (by gcongr)
  refine ⟨⟨v1, ?_⟩, ⟨v2, ?_⟩, ⟨v3, ?_⟩⟩
  · refine ((key Node.unionT (f.len + g.len) (2 * (S.card * (f.len + g.len)) + 2) ?_ ?_ ?_ ?_).1).trans
      (arith_sum _ _ _)
    · rw [Node.unionT_val]; exact oa.union ob
    · rw [Node.unionT_val]; exact inU_union oa ob ia ib
    · rw [Node.unionT_val]; have := Node.count_union oa ob; omega
    · have := Node.unionT_calls oa ob; rw [Nat.mul_add]; omega
  · refine ((key Node.intersectT (f.len + g.len) (2 * (S.card * (f.len + g.len)) + 2) ?_ ?_ ?_ ?_).1).trans
      (arith_sum _ _ _)
    · rw [Node.intersectT_val]; exact oa.intersect ob
    · rw [Node.intersectT_val]; exact inU_intersect oa ob ia ib
    · rw [Node.intersectT_val]; have := Node.count_intersect oa ob; omega
    · have := Node.intersectT_calls oa ob; rw [Nat.mul_add]; omega
  · refine ((key Node.productT (f.len * g.len) ((2 * (S.card * f.len) + 1) * (2 * (S.card * g.len) + 1) *
      (4 * (S.card * (f.len * g.len)) + 6)) ?_ ?_ ?_ ?_).1).trans (arith_prod _ _ _)
    · rw [Node.productT_val]; exact oa.product ob
    · rw [Node.productT_val]; exact inU_product oa ob ia ib
    · rw [Node.productT_val]; exact (Node.count_product oa ob).trans (Nat.mul_le_mul ca cb)
    · refine (Node.productT_calls oa ob la lb).trans ?_
      gcongr

/-- C89: the filters make at most `8 · (L+1) · ((N+1) · (m+1))²` calls on a forest of `m` members over `N`
items, where `L` is the number of elements asked for. -/
theorem filter_calls {f : Forest T} (hf : Reach f) (S : Finset T)
    (hS : ∀ x, x ∈ S ↔ ∃ s ∈ family f.trees, x ∈ s) :
    (∀ e, (f.subsetT e).val = f.subset e ∧ (f.subsetT e).calls ≤ 16 * ((S.card + 1) * (f.len + 1)) ^ 2) ∧
    (∀ e, (f.subsetNotT e).val = f.subsetNot e ∧
      (f.subsetNotT e).calls ≤ 16 * ((S.card + 1) * (f.len + 1)) ^ 2) ∧
    (∀ es, (f.subsetManyT es (fun _ => Forest.empty) Node.subsetAllT).val = f.subsetAll es ∧
      (f.subsetManyT es (fun _ => Forest.empty) Node.subsetAllT).calls ≤
        8 * (es.length + 1) * ((S.card + 1) * (f.len + 1)) ^ 2) ∧
    (∀ es, (f.subsetManyT es (fun x => x) Node.subsetNoneT).val = f.subsetNone es ∧
      (f.subsetManyT es (fun x => x) Node.subsetNoneT).calls ≤
        8 * (es.length + 1) * ((S.card + 1) * (f.len + 1)) ^ 2) := by
  have cf := hf.canon
  have hN : f.univ.index.length ≤ S.card := by
    rw [← Set.ncard_coe_finset]
    refine length_le_ncard cf.ok (Finset.finite_toSet S) fun x hx => ?_
    rw [Finset.mem_coe, hS]
    have : x ∈ itemsIn (family f.trees) := by rw [items_eq cf]; exact hx
    exact this
  have lf := cf.lt.mono hN
  have hc := len_count f
  have sz := Node.size_le cf.ordered lf
  rw [← hc] at sz
  have fin : ∀ (c : Ticked Node) (L : Nat), c.val.Ordered → (∀ s ∈ c.val.Den, s ∈ f.root.Den ∨ s ∈ Node.Always.Den) →
      c.val.count ≤ f.len → c.calls ≤ L * (8 * (S.card * f.len) + 2 * S.card + 4) →
      c.calls + (canonicalT c.val f.univ).calls ≤ 8 * (L + 1) * ((S.card + 1) * (f.len + 1)) ^ 2 := by
    intro c L o h hk hl
    have hi : f.univ.InU c.val := fun s hs k hk => by
      rcases h s hs with h1 | h1
      · exact cf.inU s h1 k hk
      · rw [Node.Den, Set.mem_singleton_iff] at h1; subst h1; simp at hk
    exact (Nat.add_le_add hl (canonicalT_calls cf.ok o hi hN hk).1).trans (arith_sub _ _ _)
  have hsub : ∀ e, ∀ s ∈ (Node.subset f.root e).Den, s ∈ f.root.Den := fun e => Node.subset_sub cf.ordered e
  have hnot : ∀ e, ∀ s ∈ (Node.subsetNot f.root e).Den, s ∈ f.root.Den := fun e s hs =>
    ((Node.mem_subsetNot cf.ordered e).mp hs).1
  have one : ∀ es : List T, f.univ.getPriorities es ≠ [] → 1 ≤ es.length := fun es h => by
    cases es with
    | nil => exact absurd rfl h
    | cons => simp
  refine ⟨fun e => ⟨subsetT_val f e, ?_⟩, fun e => ⟨subsetNotT_val f e, ?_⟩,
    fun es => ⟨(subsetManyT_val f es).1, ?_⟩, fun es => ⟨(subsetManyT_val f es).2, ?_⟩⟩
  · rw [subsetT]
    cases he : f.univ.getPriority e with
    | none => simp
    | some k =>
      have o := Node.subset_ordered cf.ordered k
      have c := Node.subsetInnerT_calls cf.ordered k
      have h := fin ((Node.subsetInnerT f.root k).map Prod.fst) 1
        (by rw [map_val, Node.subsetInnerT_val]; exact o)
        (by rw [map_val, Node.subsetInnerT_val]; exact fun s hs => Or.inl (hsub k s hs))
        (by rw [map_val, Node.subsetInnerT_val, hc]; exact Node.count_sub o cf.ordered (hsub k))
        (by rw [map_calls]; omega)
      simp only [bind_calls, map_calls, map_val] at h ⊢
      exact h
  · rw [subsetNotT]
    cases he : f.univ.getPriority e with
    | none => simp
    | some k =>
      have o := cf.ordered.subsetNot k
      have c := Node.subsetNotT_calls cf.ordered k
      have h := fin (Node.subsetNotT f.root k) 1
        (by rw [Node.subsetNotT_val]; exact o)
        (by rw [Node.subsetNotT_val]; exact fun s hs => Or.inl (hnot k s hs))
        (by rw [Node.subsetNotT_val, hc]; exact Node.count_sub o cf.ordered (hnot k))
        (by omega)
      simp only [bind_calls] at h ⊢
      exact h
  · rw [subsetManyT]
    split_ifs with h1 h2
    · simp
    · simp
    · have hl : (f.univ.getPriorities es).length = es.length := by push Not at h2; exact h2.symm
      have ne : f.univ.getPriorities es ≠ [] := fun h => h1 (by
        rw [h] at hl; simpa using hl.symm)
      obtain ⟨o, hd⟩ := Node.fold_sub cf.ordered (fun e => Node.subset_ordered cf.ordered e) hsub ne
      rw [← List.foldl_map (f := fun e => Node.subset f.root e) (g := Node.intersect)] at o hd
      have h := fin (Node.subsetAllT f.root (f.univ.getPriorities es)) es.length
        (by rw [Node.subsetAllT_val]; exact o)
        (by rw [Node.subsetAllT_val]; exact fun s hs => Or.inl (hd s hs))
        (by rw [Node.subsetAllT_val, hc]; exact Node.count_sub o cf.ordered hd)
        (by rw [← hl, hc]; exact Node.subsetAllT_calls cf.ordered lf _)
      simp only [bind_calls] at h ⊢
      exact h
  · rw [subsetManyT]
    split_ifs with h1 h2
    · simp
    · simp
    · have hl : (f.univ.getPriorities es).length = es.length := by push Not at h2; exact h2.symm
      have ne : f.univ.getPriorities es ≠ [] := fun h => h1 (by
        rw [h] at hl; simpa using hl.symm)
      obtain ⟨o, hd⟩ := Node.fold_sub cf.ordered (fun e => cf.ordered.subsetNot e) hnot ne
      rw [← List.foldl_map (f := fun e => Node.subsetNot f.root e) (g := Node.intersect)] at o hd
      have h := fin (Node.subsetNoneT f.root (f.univ.getPriorities es)) es.length
        (by rw [Node.subsetNoneT_val]; exact o)
        (by rw [Node.subsetNoneT_val]; exact fun s hs => Or.inl (hd s hs))
        (by rw [Node.subsetNoneT_val, hc]; exact Node.count_sub o cf.ordered hd)
        (by rw [← hl, hc]; exact Node.subsetNoneT_calls cf.ordered lf _)
      simp only [bind_calls] at h ⊢
      exact h

/-- The hypotheses are met. -/
example := filter_calls (f := Forest.many [[1, 2], [1, 3]]) (reach_many _) {1, 2, 3} (by
  intro x
  rw [many_family]
  simp only [family, List.mem_cons, List.not_mem_nil, or_false, Set.mem_ofPred_eq, exists_eq_or_imp,
    exists_eq_left]
  constructor
  · intro h
    simp only [Finset.mem_insert, Finset.mem_singleton] at h
    rcases h with rfl | rfl | rfl
    · exact ⟨_, ⟨Or.inl rfl, by decide⟩, by decide⟩
    · exact ⟨_, ⟨Or.inl rfl, by decide⟩, by decide⟩
    · exact ⟨_, ⟨Or.inr rfl, by decide⟩, by decide⟩
  · rintro ⟨s, ⟨rfl | rfl, -⟩, h⟩ <;> revert h <;> simp <;> omega)

/-- C89: the diagram gives no saving over the list of members: every binary operation makes at least as
many calls as its result has members. -/
theorem forest_calls_lower {f g r : Forest T} (hf : Reach f) (hg : Reach g) :
    (f.union g = some r → r.len ≤ (binaryT Node.unionT f g).calls) ∧
    (f.intersect g = some r → r.len ≤ (binaryT Node.intersectT f g).calls) ∧
    (f.product g = some r → r.len ≤ (binaryT Node.productT f g).calls) := by
  have cf := hf.canon
  have cg := hg.canon
  obtain ⟨v1, v2, v3⟩ := binaryT_val f g
  obtain ⟨a, b, oa, ob, ia, ib, ca, cb, key⟩ := binaryT_calls cf cg (le_refl (merge f.univ g.univ).index.length)
  have go : ∀ (op : Node → Node → Ticked Node) (o : Option (Forest T)), (op a b).val.Ordered →
      (merge f.univ g.univ).InU (op a b).val → (binaryT op f g).val = o → o = some r →
      r.len ≤ (binaryT op f g).calls := by
    intro op o h1 h2 h3 h4
    obtain ⟨_, r', hr, hl⟩ := key op _ _ h1 h2 (le_refl _) (le_refl _)
    rw [h3, h4] at hr
    cases hr
    exact hl
  refine ⟨go _ _ ?_ ?_ v1, go _ _ ?_ ?_ v2, go _ _ ?_ ?_ v3⟩
  · rw [Node.unionT_val]; exact oa.union ob
  · rw [Node.unionT_val]; exact inU_union oa ob ia ib
  · rw [Node.intersectT_val]; exact oa.intersect ob
  · rw [Node.intersectT_val]; exact inU_intersect oa ob ia ib
  · rw [Node.productT_val]; exact oa.product ob
  · rw [Node.productT_val]; exact inU_product oa ob ia ib

/-- C89: listing a forest (and `len`, `is_empty`, which list it too) takes at least one iteration per member
and at most twice the total length of the listing, plus one. -/
theorem listing_calls {f : Forest T} (hf : Reach f) :
    f.treesT.val = f.trees ∧ f.len ≤ f.treesT.calls ∧
    f.treesT.calls ≤ 2 * (f.trees.map List.length).sum + 1 := by
  have cf := hf.canon
  refine ⟨treesT_val f, ?_, ?_⟩
  · rw [treesT, map_calls, Node.treesT_calls, len_count]; exact Node.count_le_size _
  · rw [treesT, map_calls, Node.treesT_calls]
    have h := Node.size_le_occ cf.ordered
    have e : f.trees.map List.length = f.root.paths.map List.length := by
      rw [trees, Node.trees_eq, List.map_map]
      refine List.map_congr_left fun p hp => ?_
      rw [Function.comp_apply, getItems, length_sorted]
      have hin : ∀ k ∈ p, k < f.univ.index.length := by
        intro k hk
        exact cf.inU p.toFinset (Node.mem_paths_den.mpr ⟨p, hp, rfl⟩) k (by simpa using hk)
      clear hp
      induction p with
      | nil => rfl
      | cons k p ih =>
        have hk : f.univ.getItem k = some (f.univ.index[k]'(hin k (by simp))) :=
          List.getElem?_eq_getElem _
        rw [List.filterMap_cons_some hk, List.length_cons, List.length_cons,
          ih fun j hj => hin j (by simp [hj])]
    rw [e]; exact h

example := listing_calls (reach_many [[1, 2], [1, 3]])

/-- C89: building a forest from `k` lists of at most `L` items, over at most `N` different items. -/
theorem many_calls (m : List (List T)) (S : Finset T) (hS : ∀ x, x ∈ S ↔ ∃ l ∈ m, x ∈ l) (L : Nat)
    (hL : ∀ l ∈ m, l.length ≤ L) :
    (manyT m).val = many m ∧ (many m).len ≤ m.length ∧
    (manyT m).calls ≤ 2 * m.length * (S.card + 1) * (L + m.length + 2) := by
  have hN : (fromMatrix m).index.length ≤ S.card := by
    rw [← Set.ncard_coe_finset]
    refine length_le_ncard (ok_fromMatrix m) (Finset.finite_toSet S) fun x hx => ?_
    rw [Finset.mem_coe, hS]
    exact (mem_index_matrix m x).mp hx
  refine ⟨manyT_val m, ?_, (manyT_calls m hL).trans ?_⟩
  · have h := len_exact (reach_many m)
    rw [h, many_family]
    have hfam : {s | s ∈ family m ∧ s ≠ ∅} ⊆ ((m.map List.toFinset).toFinset : Set (Finset T)) := by
      rintro s ⟨⟨l, hl, rfl⟩, _⟩
      simp only [Finset.mem_coe, List.mem_toFinset, List.mem_map]
      exact ⟨l, hl, rfl⟩
    refine (Set.ncard_le_ncard hfam (Finset.finite_toSet _)).trans ?_
    rw [Set.ncard_coe_finset]
    exact (List.toFinset_card_le _).trans (by rw [List.length_map])
  · calc m.length * (L * (2 * (fromMatrix m).index.length + 2) +
        (2 * ((fromMatrix m).index.length * (m.length + 1)) + 2))
        ≤ m.length * (L * (2 * S.card + 2) + (2 * (S.card * (m.length + 1)) + 2)) := by gcongr
      _ ≤ _ := by ring_nf; omega

example := many_calls [[1, 2], [1, 3]] {1, 2, 3} (by simp; omega) 2 (by decide)

/-! ### the hypotheses are met -/

/-- Two forests with 2 and 1 members over three items: `union` makes at most 5376 calls, and at least one
per member of the result. -/
example : ∃ r, (Forest.many [[1, 2], [3]]).union (Forest.many [[2]]) = some r ∧
    r.len ≤ (binaryT Node.unionT (Forest.many [[1, 2], [3]]) (Forest.many [[2]])).calls ∧
    (binaryT Node.unionT (Forest.many [[1, 2], [3]]) (Forest.many [[2]])).calls ≤ 5376 := by
  have e1 : family (Forest.many [[1, 2], [3]]).trees = ({{1, 2}, {3}} : Set (Finset ℕ)) := by
    rw [many_family]; ext s; simp [family]
    constructor
    · rintro ⟨rfl | rfl, _⟩ <;> simp
    · rintro (rfl | rfl) <;> simp
  have e2 : family (Forest.many [[2]]).trees = ({{2}} : Set (Finset ℕ)) := by
    rw [many_family]; ext s; simp [family]
    rintro rfl; simp
  have l1 : (Forest.many [[1, 2], [3]]).len = 2 := by
    rw [len_exact (reach_many _), e1, Set.ncard_pair (by decide)]
  have l2 : (Forest.many [[2]]).len = 1 := by
    rw [len_exact (reach_many _), e2, Set.ncard_singleton]
  obtain ⟨⟨r, hr, _⟩, _⟩ := binary_total (reach_many [[1, 2], [3]]) (reach_many [[2]])
  refine ⟨r, hr, (forest_calls_lower (reach_many _) (reach_many _)).1 hr, ?_⟩
  have h := (forest_calls (reach_many [[1, 2], [3]]) (reach_many [[2]]) {1, 2, 3} (by
    intro x; rw [e1, e2]; simp; tauto)).1.2
  rw [l1, l2] at h
  simpa using h

end Verif.Zdd2
