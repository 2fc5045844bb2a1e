import Verif.Text
import Verif.Zdd1.Stack
import Verif.Zdd1.Serialize
import Verif.Zdd2.Stack
import Verif.Zdd2.Serialize

/-!
# How deep reading and writing node texts recurses (C87)

The rule `node` of the two parsers and the two `build_node_string`, with a bound on the number of nested
calls: the outer `none` says that a call found no room.  As in `Verif.Zdd2.Stack`, the frames of
non-recursive functions (here the code the nom macros expand to inside `node`, `node_id`, `format!`)
are not counted: there is a fixed number of them per counted frame.
-/

set_option linter.unusedSimpArgs false
set_option linter.unusedVariables false
set_option linter.unusedSectionVars false

namespace Verif.Text

/-- nom's `ws!(p)` around a parser that may run out of stack.  weave/src/zdd2/forest/node/parser.rs:45-47. -/
def wsF {α : Type} (p : List Char → Option (Option (α × List Char))) (l : List Char) :
    Option (Option (α × List Char)) :=
  (p (sp l)).map (Option.map (fun r => (r.1, sp r.2)))

/-- The rule `node`, weave/src/zdd/node/parser.rs:36-50 and weave/src/zdd2/forest/node/parser.rs:39-53, on a
stack of the given depth; `bf` is `Node::branch` on the stack that is left. -/
def nodeF {N : Type} (g : Grammar N) (bf : Nat → Nat → N → N → Option N) :
    Nat → List Char → Option (Option (N × List Char))
  | 0, _ => none
  | k + 1, l =>
    match tag g.tag1 l with
    | some r => some (some (g.leaf1, r))
    | none =>
      match tag g.tag0 l with
      | some r => some (some (g.leaf0, r))
      | none =>
        match tag ['('] l with
        | none => some none
        | some r =>
          match ws nodeId r with
          | none => some none
          | some (id, r) =>
            match wsF (nodeF g bf k) r with
            | none => none
            | some none => some none
            | some (some (low, r)) =>
              match wsF (nodeF g bf k) r with
              | none => none
              | some none => some none
              | some (some (high, r)) =>
                match tag [')'] r with
                | none => some none
                | some r => (bf k id low high).map fun n => some (n, r)

theorem sp_count (l : List Char) : (sp l).count '(' = l.count '(' := by
  obtain ⟨w, hw, h⟩ := sp_split l
  conv_rhs => rw [h]
  rw [List.count_append]
  have : w.count '(' = 0 := by
    rw [List.count_eq_zero]
    intro hc; exact absurd (hw _ hc) (by decide)
  omega

theorem nodeId_count {l r : List Char} {n : Nat} (h : nodeId l = some (n, r)) :
    r.count '(' = l.count '(' := by
  obtain ⟨ds, _, hd, _, _, rfl⟩ := nodeId_split h
  rw [List.count_append]
  have : ds.count '(' = 0 := by
    rw [List.count_eq_zero]
    intro hc; exact absurd (hd _ hc) (by decide)
  omega

theorem ws_some {α : Type} {p : List Char → Option (α × List Char)} {l r : List Char} {a : α}
    (h : ws p l = some (a, r)) : ∃ r', p (sp l) = some (a, r') ∧ r = sp r' := by
  unfold ws at h
  cases e : p (sp l) with
  | none => simp [e] at h
  | some x =>
    simp only [e, Option.map_some, Option.some.injEq, Prod.mk.injEq] at h
    exact ⟨x.2, by rw [← h.1], h.2.symm⟩

/-- What is read from a text is made of at most as many pieces as the text has opening parentheses. -/
theorem node_weight {N : Type} {g : Grammar N} {c1 c0 : Char} (hg : g.Ok c1 c0) (W : Nat → N → Prop)
    (w1 : W 1 g.leaf1) (w0 : W 1 g.leaf0)
    (wb : ∀ id low high a b, W a low → W b high → W (a + b + 1) (g.branch id low high)) (k : Nat) :
    ∀ l n r, node g k l = some (n, r) → ∃ c, W c n ∧ c + r.count '(' ≤ l.count '(' := by
  induction k with
  | zero => simp [node]
  | succ k ih =>
    intro l n r h
    rw [node] at h
    split at h
    · rename_i r' e
      simp only [Option.some.injEq, Prod.mk.injEq] at h
      rw [← h.1, ← h.2]
      refine ⟨1, w1, ?_⟩
      rw [tag_eq_some.mp e, List.count_append, hg.t1, List.count_cons]; simp
    split at h
    · rename_i r' e
      simp only [Option.some.injEq, Prod.mk.injEq] at h
      rw [← h.1, ← h.2]
      refine ⟨1, w0, ?_⟩
      rw [tag_eq_some.mp e, List.count_append, hg.t0, List.count_cons]; simp
    split at h
    · simp at h
    rename_i r1 e1
    split at h
    · simp at h
    rename_i id r2 e2
    split at h
    · simp at h
    rename_i low r3 e3
    split at h
    · simp at h
    rename_i high r4 e4
    split at h
    · simp at h
    rename_i r5 e5
    simp only [Option.some.injEq, Prod.mk.injEq] at h
    obtain ⟨x2, f2, rfl⟩ := ws_some e2
    obtain ⟨x3, f3, rfl⟩ := ws_some e3
    obtain ⟨x4, f4, rfl⟩ := ws_some e4
    obtain ⟨a, wa, ha⟩ := ih _ _ _ f3
    obtain ⟨b, wb', hb⟩ := ih _ _ _ f4
    refine ⟨a + b + 1, by rw [← h.1]; exact wb _ _ _ _ _ wa wb', ?_⟩
    have k2 := nodeId_count f2
    have k1 : l.count '(' = r1.count '(' + 1 := by rw [tag_eq_some.mp e1]; simp
    have k5 : (sp x4).count '(' = r5.count '(' := by rw [tag_eq_some.mp e5]; simp
    rw [sp_count] at *
    rw [sp_count] at *
    rw [← h.2]
    omega

theorem wsF_eq {α : Type} {p : List Char → Option (Option (α × List Char))}
    {q : List Char → Option (α × List Char)} {l : List Char} (h : p (sp l) = some (q (sp l))) :
    wsF p l = some (ws q l) := by
  unfold wsF ws; rw [h]; rfl

/-- Room for as many calls as the text has opening parentheses, and a little more, is enough. -/
theorem nodeF_eq {N : Type} {g : Grammar N} {c1 c0 : Char} (hg : g.Ok c1 c0)
    {bf : Nat → Nat → N → N → Option N} {s : Nat} (W : Nat → N → Prop)
    (w1 : W 1 g.leaf1) (w0 : W 1 g.leaf0)
    (wb : ∀ id low high a b, W a low → W b high → W (a + b + 1) (g.branch id low high))
    (hb : ∀ id low high a b k, W a low → W b high → a + b + 1 + s ≤ k →
      bf k id low high = some (g.branch id low high)) (k : Nat) :
    ∀ l j, l.count '(' + s + 1 ≤ k → l.length < j → nodeF g bf k l = some (node g j l) := by
  induction k with
  | zero => intro l j h; omega
  | succ k ih =>
    intro l j hk hj
    cases j with
    | zero => omega
    | succ j =>
      rw [nodeF, node]
      cases e1 : tag g.tag1 l with
      | some r => rfl
      | none =>
        cases e0 : tag g.tag0 l with
        | some r => rfl
        | none =>
          cases e2 : tag ['('] l with
          | none => rfl
          | some r1 =>
            have l1 := tag_length e2
            simp only [List.length_singleton] at l1
            have k1 : l.count '(' = r1.count '(' + 1 := by rw [tag_eq_some.mp e2]; simp
            simp only
            cases e3 : ws nodeId r1 with
            | none => rfl
            | some p2 =>
              obtain ⟨id, r2⟩ := p2
              obtain ⟨x2, f2, rfl⟩ := ws_some e3
              have l2 := ws_length (fun l a r => nodeId_length) e3
              have k2 := nodeId_count f2
              have s2 := sp_length (sp x2)
              have n2 := sp_count (sp x2)
              have n3 := sp_count x2
              have n4 := sp_count r1
              simp only
              rw [wsF_eq (q := node g j) (ih (sp (sp x2)) j (by omega) (by omega))]
              cases e4 : ws (node g j) (sp x2) with
              | none => rfl
              | some p3 =>
                obtain ⟨low, r3⟩ := p3
                obtain ⟨x3, f3, rfl⟩ := ws_some e4
                obtain ⟨a, wa, ca⟩ := node_weight hg W w1 w0 wb _ _ _ _ f3
                have l3 := ws_length (node_length g j) e4
                have s3 := sp_length (sp x3)
                have m1 := sp_count (sp x3)
                have m2 := sp_count x3
                simp only
                rw [wsF_eq (q := node g j) (ih (sp (sp x3)) j (by omega) (by omega))]
                cases e5 : ws (node g j) (sp x3) with
                | none => rfl
                | some p4 =>
                  obtain ⟨high, r4⟩ := p4
                  obtain ⟨x4, f4, rfl⟩ := ws_some e5
                  obtain ⟨b, wb', cb⟩ := node_weight hg W w1 w0 wb _ _ _ _ f4
                  simp only
                  cases e6 : tag [')'] (sp x4) with
                  | none => rfl
                  | some r5 =>
                    simp only
                    rw [hb id low high a b k wa wb' (by omega)]
                    rfl

/-- `n` times `(0`, then one more `(`: no text of a node begins like this and stops here.
Not code: used to state or prove properties. -/
def opens : Nat → List Char
  | 0 => ['(']
  | n + 1 => '(' :: '0' :: opens n

theorem opens_open (n : Nat) : ∃ t, opens n = '(' :: t := by cases n <;> exact ⟨_, rfl⟩

theorem opens_length (n : Nat) : (opens n).length = 2 * n + 1 := by
  induction n with
  | zero => rfl
  | succ n ih => simp only [opens, List.length_cons, ih]; omega

theorem ws_nodeId_opens (n : Nat) : ws nodeId ('0' :: opens n) = some (0, opens n) := by
  obtain ⟨t, h⟩ := opens_open n
  rw [h]
  have h1 : sp ('0' :: '(' :: t) = '0' :: '(' :: t := by simp [sp, isSp]
  have h2 : sp ('(' :: t) = '(' :: t := by simp [sp, isSp]
  have h3 : nodeId ('0' :: '(' :: t) = some (0, '(' :: t) := by
    have := nodeId_dec (n := 0) (by decide) (c := '(') (by decide) t
    have e : dec 0 = ['0'] := by unfold dec; decide
    rwa [e] at this
  unfold ws; rw [h1, h3]; simp [h2]

theorem tag_opens {c : Char} (hc : isDigit c = false) (n : Nat) :
    tag ['(', c, ')'] (opens (n + 1)) = none := by
  have : c ≠ '0' := by rintro rfl; exact absurd hc (by decide)
  simp [opens, tag, this]

theorem nodeF_opens {N : Type} {g : Grammar N} {c1 c0 : Char} (hg : g.Ok c1 c0)
    (bf : Nat → Nat → N → N → Option N) (k : Nat) : ∀ n, k ≤ n → nodeF g bf k (opens n) = none := by
  induction k with
  | zero => intro n _; rfl
  | succ k ih =>
    intro n hn
    obtain ⟨n, rfl⟩ : ∃ m, n = m + 1 := ⟨n - 1, by omega⟩
    rw [nodeF, hg.t1, hg.t0, tag_opens hg.d1, tag_opens hg.d0]
    have h1 : tag ['('] (opens (n + 1)) = some ('0' :: opens n) := by simp [opens, tag]
    have h2 : sp (opens n) = opens n := by
      obtain ⟨t, h⟩ := opens_open n; rw [h]; simp [sp, isSp]
    simp only [h1, ws_nodeId_opens]
    have h3 : wsF (nodeF g bf k) (opens n) = none := by
      unfold wsF; rw [h2, ih n (by omega)]; rfl
    rw [h3]

theorem node_opens {N : Type} {g : Grammar N} {c1 c0 : Char} (hg : g.Ok c1 c0) (k : Nat) :
    ∀ n, node g k (opens n) = none := by
  induction k with
  | zero => intro n; rfl
  | succ k ih =>
    intro n
    cases n with
    | zero => rw [node, hg.t1, hg.t0]; simp [opens, tag, ws, sp, nodeId]
    | succ n =>
      rw [node, hg.t1, hg.t0, tag_opens hg.d1, tag_opens hg.d0]
      have h1 : tag ['('] (opens (n + 1)) = some ('0' :: opens n) := by simp [opens, tag]
      have h2 : sp (opens n) = opens n := by
        obtain ⟨t, h⟩ := opens_open n; rw [h]; simp [sp, isSp]
      simp only [h1, ws_nodeId_opens]
      have h3 : ws (node g k) (opens n) = none := by
        unfold ws; rw [h2, ih n]; rfl
      rw [h3]

/-- One step of reading back a branch. -/
theorem nodeF_branchText {N : Type} (g : Grammar N) (bf : Nat → Nat → N → N → Option N) (k id : Nat)
    (hid : id < usizeBound) {a b : List Char} {low high : Option N} (rest : List Char)
    (h1 : ∀ r, tag g.tag1 (branchText id a b ++ r) = none)
    (h0 : ∀ r, tag g.tag0 (branchText id a b ++ r) = none)
    (ha : ∃ t, a = '(' :: t) (hb : ∃ t, b = '(' :: t)
    (pa : ∀ r, nodeF g bf k (a ++ r) = low.map fun n => some (n, r))
    (pb : ∀ r, nodeF g bf k (b ++ r) = high.map fun n => some (n, r)) :
    nodeF g bf (k + 1) (branchText id a b ++ rest) =
      (low.bind fun low => high.bind fun high => bf k id low high).map fun n => some (n, rest) := by
  rw [nodeF, h1 rest, h0 rest]
  obtain ⟨ta, rfl⟩ := ha
  obtain ⟨tb, rfl⟩ := hb
  have e : branchText id ('(' :: ta) ('(' :: tb) ++ rest =
      ['('] ++ (dec id ++ ' ' :: (('(' :: ta) ++ ' ' :: (('(' :: tb) ++ ')' :: rest))) := by
    simp [branchText]
  rw [e, tag_append]
  simp only
  have spd : ∀ r, sp (dec id ++ r) = dec id ++ r := by
    intro r
    have hd := dec_digits id
    cases hl : dec id with
    | nil => exact absurd hl (dec_ne_nil id)
    | cons c cs =>
      have hc := hd c (by simp [hl])
      have : isSp c = false := by
        simp only [isDigit, Bool.and_eq_true, decide_eq_true_eq] at hc
        simp only [isSp, Bool.or_eq_false_iff, beq_eq_false_iff_ne, ne_eq]
        refine ⟨⟨⟨?_, ?_⟩, ?_⟩, ?_⟩ <;> (rintro rfl; exact absurd hc (by decide))
      simp [sp, this]
  have w1 : ∀ r, ws nodeId (dec id ++ ' ' :: '(' :: r) = some (id, '(' :: r) := by
    intro r
    unfold ws
    rw [spd, nodeId_dec hid (by decide)]
    simp [sp, isSp]
  have w2 : ∀ r, wsF (nodeF g bf k) ('(' :: (ta ++ ' ' :: '(' :: r)) = low.map fun n => some (n, '(' :: r) := by
    intro r
    unfold wsF
    have : sp ('(' :: (ta ++ ' ' :: '(' :: r)) = ('(' :: ta) ++ ' ' :: '(' :: r := by
      simp [sp, isSp]
    rw [this, pa]
    cases low <;> simp [sp, isSp]
  have w3 : ∀ r, wsF (nodeF g bf k) ('(' :: (tb ++ ')' :: r)) = high.map fun n => some (n, ')' :: r) := by
    intro r
    unfold wsF
    have : sp ('(' :: (tb ++ ')' :: r)) = ('(' :: tb) ++ ')' :: r := by
      simp [sp, isSp]
    rw [this, pb]
    cases high <;> simp [sp, isSp]
  simp only [List.cons_append, w1, w2, w3]
  cases low with
  | none => rfl
  | some low =>
    cases high with
    | none => simp [w3]
    | some high => simp [w3, tag]

theorem trim_sublist (l : List Char) : (trim l).Sublist l := by
  unfold trim
  rw [← List.reverse_sublist, List.reverse_reverse]
  exact (List.dropWhile_sublist _).trans (by
    rw [List.reverse_sublist]; exact List.dropWhile_sublist _)

end Verif.Text

namespace Verif.Zdd2
open Verif Verif.Spec Verif.Zdd2.Spec Verif.Text

universe u
variable {T : Type u} [LinearOrder T]

namespace Node

/-- weave/src/zdd2/forest/node/parser.rs:12-23 on a stack of the given depth. -/
def buildNodeStringF : Nat → Node → Option (List Char)
  | 0, _ => none
  | f + 1, n =>
    match n with
    | .Always => some ['(', 'A', ')']
    | .Never => some ['(', 'N', ')']
    | .Branch id low high =>
      (buildNodeStringF f low).bind fun low => (buildNodeStringF f high).map fun high => branchText id low high

/-- weave/src/zdd2/forest/node/parser.rs:25-28 on a stack of the given depth: the outer `none` is an
overflow, the inner one a text that is rejected. -/
def parseNodeStringF (f : Nat) (text : List Char) : Option (Option Node) :=
  (nodeF grammar branchF f (trim text)).map (Option.map Prod.fst)

/-- Every id is in `S`.  Not code: used to state or prove properties. -/
def IdsIn (S : Finset Nat) : Node → Prop
  | .Branch i l h => i ∈ S ∧ l.IdsIn S ∧ h.IdsIn S
  | _ => True

theorem IdsIn.mono {S S' : Finset Nat} (hs : S ⊆ S') {n : Node} (h : n.IdsIn S) : n.IdsIn S' := by
  induction n with
  | Always => trivial
  | Never => trivial
  | Branch i l hi ihl ihh => exact ⟨hs h.1, ihl h.2.1, ihh h.2.2⟩

theorem IdsIn.branch {S : Finset Nat} {id : Nat} {low high : Node} (hi : id ∈ S) (hl : low.IdsIn S)
    (hh : high.IdsIn S) : (Node.branch id low high).IdsIn S := by
  have : id ∈ S → low.IdsIn S → high.IdsIn S → (Node.branch id low high).IdsIn S := by
    apply branch_ind (P := fun i l h r => i ∈ S → l.IdsIn S → h.IdsIn S → r.IdsIn S)
    all_goals (intros; simp_all [IdsIn])
  exact this hi hl hh

/-- The ids of `S` from `x` up to, not including, `y`.  Not code: used to state or prove properties. -/
def between (S : Finset Nat) (x y : Nat) : Nat := (S.filter fun j => x ≤ j ∧ j < y).card

theorem between_up {S : Finset Nat} {x h y : Nat} (hS : h ∈ S) (h1 : x ≤ h) (h2 : h < y) :
    between S (h + 1) y + 1 ≤ between S x y := by
  unfold between
  rw [← Finset.card_insert_of_notMem (a := h) (by simp)]
  refine Finset.card_le_card fun j hj => ?_
  simp only [Finset.mem_insert, Finset.mem_filter] at hj ⊢
  rcases hj with rfl | hj
  · exact ⟨hS, h1, h2⟩
  · exact ⟨hj.1, by omega, hj.2.2⟩

theorem between_down {S : Finset Nat} {x h y : Nat} (hS : h ∈ S) (h1 : x ≤ h) (h2 : h < y) :
    between S x h + 1 ≤ between S x y := by
  unfold between
  rw [← Finset.card_insert_of_notMem (a := h) (by simp)]
  refine Finset.card_le_card fun j hj => ?_
  simp only [Finset.mem_insert, Finset.mem_filter] at hj ⊢
  rcases hj with rfl | hj
  · exact ⟨hS, h1, h2⟩
  · exact ⟨hj.1, by omega, by omega⟩

theorem between_self (S : Finset Nat) (x : Nat) : between S x x = 0 := by
  unfold between
  rw [Finset.card_eq_zero, Finset.filter_eq_empty_iff]
  intro j _; omega

/-- `Node::branch` nests at most as many calls as there are different ids below its own, plus three. -/
theorem branchF_rank {f x id : Nat} {S : Finset Nat} {low high : Node} (ol : low.Ordered) (oh : high.Ordered)
    (sl : low.IdsIn S) (sh : high.IdsIn S) (si : id ∈ S)
    (hl : Ge x low) (hh : Ge x high) (hf : between S x id + 3 ≤ f) :
    branchF f id low high = some (branch id low high) := by
  induction f generalizing x id low high with
  | zero => omega
  | succ f ih =>
    by_cases hc : Ge id low ∧ Ge id high
    · obtain ⟨g, rfl⟩ : ∃ g, f = g + 2 := ⟨f - 2, by omega⟩
      exact branchF_ge ol oh hc.1 hc.2
    rw [branchF.eq_def, branch.eq_def]
    cases high with
    | Never => rfl
    | Always =>
      cases low with
      | Never => rfl
      | Always => rfl
      | Branch lId lLow lHigh =>
        simp only [Ge] at hl
        simp only [Ordered] at ol
        obtain ⟨s1, s2, s3⟩ := sl
        simp only
        split_ifs with h1 h2
        · have u := between_up s1 hl h1
          rw [ih (x := lId + 1) (high := .Always) ol.2.2.2.1 trivial s2 trivial si ol.1.ge trivial (by omega)]
          have z := between_self S lId
          exact ih (x := lId) (Ordered.branch (h := .Always) ol.2.2.2.1 trivial) ol.2.2.2.2
            (IdsIn.branch (high := .Always) si s2 trivial) s3 s1
            (Above.branch (h := .Always) ol.2.2.2.1 trivial h1 ol.1 trivial).ge.le ol.2.1.ge.le (by omega)
        · exact absurd (by simp only [Ge, and_true]; omega) hc
        · rfl
    | Branch hId hLow hHigh =>
      simp only [Ge] at hh
      have oh' := oh
      have sh' := sh
      simp only [Ordered] at oh
      obtain ⟨t1, t2, t3⟩ := sh
      cases low with
      | Branch lId lLow lHigh =>
        simp only [Ge] at hl
        have ol' := ol
        have sl' := sl
        simp only [Ordered] at ol
        obtain ⟨s1, s2, s3⟩ := sl
        simp only
        split_ifs with h1 h2 h3 h4 h5
        · obtain ⟨h1, rfl⟩ := h1
          have u := between_up s1 hl h1
          have z := between_self S lId
          rw [ih (x := lId + 1) ol.2.2.2.1 oh.2.2.2.1 s2 t2 si ol.1.ge oh.1.ge (by omega),
            ih (x := lId + 1) ol.2.2.2.2 oh.2.2.2.2 s3 t3 si ol.2.1.ge oh.2.1.ge (by omega)]
          exact ih (x := lId) (ol.2.2.2.1.branch oh.2.2.2.1) (ol.2.2.2.2.branch oh.2.2.2.2)
            (IdsIn.branch si s2 t2) (IdsIn.branch si s3 t3) s1
            (Above.branch ol.2.2.2.1 oh.2.2.2.1 h1 ol.1 oh.1).ge.le
            (Above.branch ol.2.2.2.2 oh.2.2.2.2 h1 ol.2.1 oh.2.1).ge.le (by omega)
        · have u := between_up t1 hh h2
          have d := between_down t1 hh h2
          rw [ih (x := hId + 1) oh.2.2.2.1 oh.2.2.2.2 t2 t3 si oh.1.ge oh.2.1.ge (by omega)]
          exact ih (x := x) ol' (oh.2.2.2.1.branch oh.2.2.2.2) sl' (IdsIn.branch si t2 t3) t1 hl
            ((Above.branch oh.2.2.2.1 oh.2.2.2.2 h2 oh.1 oh.2.1).ge.mono (by omega)) (by omega)
        · have u := between_up s1 hl h3
          have z := between_self S lId
          rw [ih (x := lId + 1) ol.2.2.2.1 oh' s2 sh' si ol.1.ge (by simp only [Ge]; omega) (by omega)]
          exact ih (x := lId) (ol.2.2.2.1.branch oh') ol.2.2.2.2 (IdsIn.branch si s2 sh') s3 s1
            (Above.branch ol.2.2.2.1 oh' h3 ol.1 (by simp only [Above]; omega)).ge.le ol.2.1.ge.le (by omega)
        · exact absurd (by simp only [Ge, true_and]; omega) hc
        · exact absurd (by simp only [Ge, true_and]; omega) hc
        · rfl
      | Always =>
        simp only
        split_ifs with h1 h2
        · have u := between_up t1 hh h1
          have d := between_down t1 hh h1
          rw [ih (x := hId + 1) oh.2.2.2.1 oh.2.2.2.2 t2 t3 si oh.1.ge oh.2.1.ge (by omega)]
          exact ih (x := x) trivial (oh.2.2.2.1.branch oh.2.2.2.2) trivial (IdsIn.branch si t2 t3) t1 trivial
            ((Above.branch oh.2.2.2.1 oh.2.2.2.2 h1 oh.1 oh.2.1).ge.mono (by omega)) (by omega)
        · exact absurd (by simp only [Ge, true_and]; omega) hc
        · rfl
      | Never =>
        simp only
        split_ifs with h1 h2
        · have u := between_up t1 hh h1
          have d := between_down t1 hh h1
          rw [ih (x := hId + 1) oh.2.2.2.1 oh.2.2.2.2 t2 t3 si oh.1.ge oh.2.1.ge (by omega)]
          exact ih (x := x) trivial (oh.2.2.2.1.branch oh.2.2.2.2) trivial (IdsIn.branch si t2 t3) t1 trivial
            ((Above.branch oh.2.2.2.1 oh.2.2.2.2 h1 oh.1 oh.2.1).ge.mono (by omega)) (by omega)
        · exact absurd (by simp only [Ge, true_and]; omega) hc
        · rfl

/-- An ordered node with at most `c` different ids.  Not code: used to state or prove properties. -/
def Small (c : Nat) (n : Node) : Prop := n.Ordered ∧ ∃ S : Finset Nat, S.card ≤ c ∧ n.IdsIn S

theorem Small.branch (id : Nat) (low high : Node) (a b : Nat) (hl : Small a low) (hh : Small b high) :
    Small (a + b + 1) (Node.branch id low high) := by
  obtain ⟨ol, S, cS, iS⟩ := hl
  obtain ⟨oh, R, cR, iR⟩ := hh
  refine ⟨ol.branch oh, insert id (S ∪ R), ?_, ?_⟩
  · have := Finset.card_insert_le id (S ∪ R)
    have := Finset.card_union_le S R
    omega
  · exact IdsIn.branch (by simp) (iS.mono fun _ h => by simp [h]) (iR.mono fun _ h => by simp [h])

theorem branchF_small (id : Nat) (low high : Node) (a b k : Nat) (hl : Small a low) (hh : Small b high)
    (hk : a + b + 1 + 2 ≤ k) : branchF k id low high = some (Node.branch id low high) := by
  obtain ⟨ol, S, cS, iS⟩ := hl
  obtain ⟨oh, R, cR, iR⟩ := hh
  refine branchF_rank (x := 0) (S := insert id (S ∪ R)) ol oh (iS.mono fun _ h => by simp [h])
    (iR.mono fun _ h => by simp [h]) (by simp) (ge_zero _) (ge_zero _) ?_
  have : between (insert id (S ∪ R)) 0 id ≤ (S ∪ R).card := by
    unfold between
    refine Finset.card_le_card fun j hj => ?_
    simp only [Finset.mem_insert, Finset.mem_filter] at hj
    rcases hj.1 with rfl | h
    · omega
    · exact h
  have := Finset.card_union_le S R
  omega

theorem grammar_ok : grammar.Ok 'A' 'N' :=
  ⟨rfl, rfl, by decide, by decide, by decide, by decide, by decide⟩

theorem nodeF_build (n : Node) (o : n.Ordered) (hf : n.Fits) : ∀ k r,
    nodeF grammar branchF k (buildNodeString n ++ r) =
      (if n.height ≤ k then some n else none).map fun n => some (n, r) := by
  induction n with
  | Always =>
    intro k r
    cases k with
    | zero => rfl
    | succ k => simp [nodeF, buildNodeString, grammar, tag, height]
  | Never =>
    intro k r
    cases k with
    | zero => rfl
    | succ k => simp [nodeF, buildNodeString, grammar, tag, height]
  | Branch i l h ihl ihh =>
    intro k r
    cases k with
    | zero => simp [nodeF, height]
    | succ k =>
      rw [buildNodeString, nodeF_branchText grammar branchF k i hf.1 r
        (tag_branch 'A' (by decide) i _ _) (tag_branch 'N' (by decide) i _ _)
        (build_open l) (build_open h) (ihl o.2.2.2.1 hf.2.1 k) (ihh o.2.2.2.2 hf.2.2 k)]
      have hh1 : 1 ≤ l.height := by cases l <;> simp [height]
      have e : height (Branch i l h) ≤ k + 1 ↔ l.height ≤ k ∧ h.height ≤ k := by simp only [height]; omega
      by_cases c1 : l.height ≤ k
      · by_cases c2 : h.height ≤ k
        · rw [if_pos c1, if_pos c2, if_pos (e.mpr ⟨c1, c2⟩)]
          simp only [Option.bind_some]
          rw [branchF_above o.1 o.2.1 (by omega), branch_plain o.1 o.2.1 o.2.2.1]
        · rw [if_neg c2, if_neg (fun h => c2 (e.mp h).2)]; simp
      · rw [if_neg c1, if_neg (fun h => c1 (e.mp h).1)]; simp

theorem buildNodeStringF_eq (n : Node) : ∀ k,
    buildNodeStringF k n = if n.height ≤ k then some (buildNodeString n) else none := by
  induction n with
  | Always => intro k; cases k <;> simp [buildNodeStringF, buildNodeString, height]
  | Never => intro k; cases k <;> simp [buildNodeStringF, buildNodeString, height]
  | Branch i l h ihl ihh =>
    intro k
    cases k with
    | zero => simp [buildNodeStringF, height]
    | succ k =>
      have e : height (Branch i l h) ≤ k + 1 ↔ l.height ≤ k ∧ h.height ≤ k := by simp only [height]; omega
      simp only [buildNodeStringF, ihl k, ihh k, buildNodeString]
      by_cases c1 : l.height ≤ k
      · by_cases c2 : h.height ≤ k
        · rw [if_pos c1, if_pos c2, if_pos (e.mpr ⟨c1, c2⟩)]; rfl
        · rw [if_neg c2, if_neg (fun h => c2 (e.mp h).2)]; simp
      · rw [if_neg c1, if_neg (fun h => c1 (e.mp h).1)]; simp

theorem height_lt {N : Nat} (n : Node) (o : n.Ordered) (h : n.Lt N) : ∀ x, x ≤ N → Ge x n →
    n.height + x ≤ N + 1 := by
  induction n with
  | Always => intro x hx _; simp only [height]; omega
  | Never => intro x hx _; simp only [height]; omega
  | Branch i l hi ihl ihh =>
    intro x hx g
    simp only [Ordered] at o
    simp only [Lt] at h
    simp only [Ge] at g
    have h1 := ihl o.2.2.2.1 h.2.1 (i + 1) (by omega) o.1.ge
    have h2 := ihh o.2.2.2.2 h.2.2 (i + 1) (by omega) o.2.1.ge
    simp only [height]; omega

end Node

open Node

/-- `Serialize for Forest` on a stack of the given depth.
weave/src/zdd2/forest/mod.rs:25-29, weave/src/zdd2/forest/node/serialize.rs, universe/serialize.rs:12-17. -/
def serializeForestF (room : Nat) (e : List (T × Nat)) (f : Forest T) : Option (ForestData T) :=
  (buildNodeStringF room f.root).map fun s => ⟨s, serializeUniverse e⟩

/-- `Deserialize for Forest` on a stack of the given depth: the outer `none` is an overflow, the inner
one a deserialization error.
weave/src/zdd2/forest/mod.rs:25-29, weave/src/zdd2/forest/node/serialize.rs, universe/serialize.rs:23-39. -/
def deserializeForestF (room : Nat) (d : ForestData T) : Option (Option (Forest T)) :=
  (parseNodeStringF room d.root).map (Option.map fun r => ⟨r, deserializeUniverse d.univ⟩)

/-- C87: reading any document, well-formed or not, nests at most three calls more than the node text has
opening parentheses. -/
theorem read_stack {room : Nat} (d : ForestData T) (h : d.root.count '(' + 3 ≤ room) :
    deserializeForestF room d = some (deserializeForest d) := by
  have hc := (trim_sublist d.root).count_le '('
  have := nodeF_eq grammar_ok (bf := branchF) (s := 2) Small ⟨trivial, ∅, by simp, trivial⟩
    ⟨trivial, ∅, by simp, trivial⟩ Small.branch branchF_small room (trim d.root) ((trim d.root).length + 1)
    (by omega) (by omega)
  unfold deserializeForestF deserializeForest parseNodeStringF parseNodeString parseWith
  rw [this]
  cases node grammar ((trim d.root).length + 1) (trim d.root) <;> rfl

theorem trim_opens (n : Nat) : trim (opens n) = opens n := by
  have h : ∃ t, opens n = t ++ ['('] := by
    induction n with
    | zero => exact ⟨[], rfl⟩
    | succ n ih => obtain ⟨t, h⟩ := ih; exact ⟨'(' :: '0' :: t, by simp [opens, h]⟩
  obtain ⟨t, h⟩ := h
  obtain ⟨t', h'⟩ := opens_open n
  have w : isWhite '(' = false := by decide
  have e1 : (opens n).dropWhile isWhite = opens n := by rw [h']; simp [w]
  unfold trim
  rw [e1, h]
  simp [w]

/-- C87: no stack is large enough: for every size there is a document, only twice as long and not the text
of any node, on which reading runs out of stack instead of reporting an error. -/
theorem read_overflows (room : Nat) (u : List (T × Nat)) : ∃ text : List Char, text.length = 2 * room + 1 ∧
    deserializeForest ⟨text, u⟩ = none ∧ deserializeForestF room ⟨text, u⟩ = none := by
  refine ⟨opens room, opens_length room, ?_, ?_⟩
  · unfold deserializeForest parseNodeString parseWith
    rw [trim_opens, node_opens grammar_ok]; rfl
  · unfold deserializeForestF parseNodeStringF
    rw [trim_opens, nodeF_opens grammar_ok branchF room room (Nat.le_refl _)]; rfl

/-- C87: writing a well-formed node and reading the text back nest as many calls as the diagram is high,
no more and no less. -/
theorem write_read_exact {n : Node} (o : n.Ordered) (hf : n.Fits) (room : Nat) :
    buildNodeStringF room n = (if n.height ≤ room then some (buildNodeString n) else none) ∧
    parseNodeStringF room (buildNodeString n) = if n.height ≤ room then some (some n) else none := by
  refine ⟨buildNodeStringF_eq n room, ?_⟩
  obtain ⟨t, ht⟩ := build_paren n
  have : trim (buildNodeString n) = buildNodeString n := by rw [ht]; exact trim_paren t
  have h := nodeF_build n o hf room []
  rw [List.append_nil] at h
  unfold parseNodeStringF
  rw [this, h]
  split_ifs <;> rfl

/-- C87: for a forest made by the API with `k` different items in its members, a stack with room for
`k + 1` calls is enough to write it and to read back what was written. -/
theorem forest_text_stack {f : Forest T} (hf : Reach f) {e : List (T × Nat)}
    (he : e.Perm f.univ.occurrences) (hb : f.occurrences.length ≤ 2 ^ 64) {room : Nat}
    (hr : (itemsIn (family f.trees)).ncard + 1 ≤ room) :
    ∃ d, serializeForestF room e f = some d ∧ deserializeForestF room d = some (some f) := by
  have hlen : f.univ.index.length ≤ usizeBound := by
    have h1 : f.univ.index.length = f.univ.occurrences.length := by
      simpa using (Universe.index_perm hf.canon.ok).length_eq
    have h2 : f.occurrences = f.univ.occurrences :=
      sortByKey_of_perm hf.canon.ok.1 (List.Perm.refl _)
    rw [h1, ← h2]; exact hb
  have hc := hf.canon
  have hh := height_lt f.root hc.ordered hc.lt 0 (by omega) (ge_zero _)
  have hi : f.univ.index.length ≤ (itemsIn (family f.trees)).ncard := by
    rw [items_eq hc]
    exact length_le_ncard hc.ok (List.finite_toSet _) fun x hx => hx
  obtain ⟨h1, h2⟩ := write_read_exact hc.ordered (fits_of_inU hc.ordered hc.inU hlen) room
  rw [if_pos (by omega)] at h1 h2
  refine ⟨⟨buildNodeString f.root, serializeUniverse e⟩, by simp [serializeForestF, h1], ?_⟩
  simp only [deserializeForestF, h2, Option.map_some, universe_roundtrip hf.built he]

example : ("(5 (N) (A))".toList).count '(' + 3 ≤ 6 := by decide

example : ∃ f : Forest ℕ, Reach f ∧ f.occurrences.length ≤ 2 ^ 64 ∧ family f.trees = {{1}, {1, 2}} := by
  refine ⟨.many [[1], [1, 2]], reach_many _, by decide, ?_⟩
  rw [many_family]
  ext s
  simp only [family, Set.mem_ofPred_eq, List.mem_cons, List.not_mem_nil, or_false,
    exists_eq_or_imp, exists_eq_left, Set.mem_insert_iff, Set.mem_singleton_iff]
  constructor
  · rintro ⟨rfl | rfl, _⟩ <;> simp
  · rintro (rfl | rfl) <;> simp

theorem Node.card_lt_height {n : Node} {s : Finset Nat} (hs : s ∈ n.Den) : s.card < n.height := by
  induction n generalizing s with
  | Never => exact absurd hs (by simp [Node.Den])
  | Always => rw [Node.Den, Set.mem_singleton_iff] at hs; subst hs; simp [height]
  | Branch i lo hi ihl ihh =>
    simp only [height]
    rcases hs with hs | ⟨t, ht, rfl⟩
    · have := ihl hs; omega
    · have := ihh ht
      have := Finset.card_insert_le i t
      omega

/-- C87: the calls do nest that deep: a forest that is written on a stack of depth `room` has only members
of fewer than `room` items. -/
theorem forest_text_needs {f : Forest T} (hf : Reach f) {e : List (T × Nat)} {room : Nat} {d : ForestData T}
    (h : serializeForestF room e f = some d) : ∀ s ∈ family f.trees, s.card < room := by
  intro s hs
  rw [serializeForestF, Option.map_eq_some_iff] at h
  obtain ⟨x, hx, _⟩ := h
  rw [buildNodeStringF_eq] at hx
  split_ifs at hx with hh
  have hs' : s ∈ f.univ.Fam f.root := by rw [hf.canon.fam]; exact hs
  have := Node.card_lt_height hs'.2
  rw [Forest.card_image_prio hf.canon.ok hs'.1] at this
  omega

example : ∃ d, serializeForestF 4 (Forest.many [[1, 2], [3]] : Forest ℕ).univ.occurrences (Forest.many [[1, 2], [3]]) = some d ∧
    (∀ s ∈ family (Forest.many [[1, 2], [3]] : Forest ℕ).trees, s.card < 4) := by
  have hn : (itemsIn (family (Forest.many [[1, 2], [3]] : Forest ℕ).trees)).ncard + 1 ≤ 4 := by
    have : itemsIn (family (Forest.many [[1, 2], [3]] : Forest ℕ).trees) ⊆ ↑({1, 2, 3} : Finset ℕ) := by
      rw [many_family]
      rintro x ⟨s, ⟨⟨l, hl, rfl⟩, -⟩, hx⟩
      simp only [List.mem_cons, List.not_mem_nil, or_false] at hl
      rcases hl with rfl | rfl <;> simp at hx ⊢ <;> omega
    have := Set.ncard_le_ncard this (Finset.finite_toSet _)
    rw [Set.ncard_coe_finset] at this
    exact Nat.succ_le_succ (this.trans (by decide))
  obtain ⟨d, hd, -⟩ := forest_text_stack (reach_many [[1, 2], [3]]) (List.Perm.refl _) (by decide +kernel) hn
  exact ⟨d, hd, forest_text_needs (reach_many _) hd⟩

end Verif.Zdd2

namespace Verif.Zdd1
open Verif Verif.Spec Verif.Text

universe u
variable {T : Type u} [LinearOrder T]

namespace Node

/-- weave/src/zdd/node/parser.rs:9-20 on a stack of the given depth. -/
def buildNodeStringF : Nat → Node → Option (List Char)
  | 0, _ => none
  | f + 1, n =>
    match n with
    | .Leaf true => some ['(', 'T', ')']
    | .Leaf false => some ['(', 'F', ')']
    | .Branch id low high =>
      (buildNodeStringF f low).bind fun low => (buildNodeStringF f high).map fun high => branchText id low high

/-- weave/src/zdd/node/parser.rs:22-25 on a stack of the given depth: the outer `none` is an overflow, the
inner one a text that is rejected.  `Node::branch` (weave/src/zdd/node/mod.rs) does not call itself. -/
def parseNodeStringF (f : Nat) (text : List Char) : Option (Option Node) :=
  (nodeF grammar (fun _ id low high => some (branch id low high)) f text).map (Option.map Prod.fst)

/-- Not code: used to state or prove properties. -/
def height : Node → Nat
  | .Branch _ l h => 1 + max l.height h.height
  | _ => 1

theorem build_open (n : Node) : ∃ t, buildNodeString n = '(' :: t := by
  cases n with
  | Leaf b => cases b <;> exact ⟨_, rfl⟩
  | Branch i l h => exact ⟨_, rfl⟩

theorem nodeF_build (n : Node) (hf : n.Fits) : ∀ k r,
    nodeF grammar (fun _ id low high => some (branch id low high)) k (buildNodeString n ++ r) =
      (if n.height ≤ k then some n else none).map fun n => some (n, r) := by
  induction n with
  | Leaf b =>
    intro k r
    cases k with
    | zero => rfl
    | succ k => cases b <;> simp [nodeF, buildNodeString, grammar, tag, height]
  | Branch i l h ihl ihh =>
    intro k r
    cases k with
    | zero => simp [nodeF, height]
    | succ k =>
      rw [buildNodeString, nodeF_branchText grammar _ k i hf.1 r
        (Zdd2.Node.tag_branch 'T' (by decide) i _ _) (Zdd2.Node.tag_branch 'F' (by decide) i _ _)
        (build_open l) (build_open h) (ihl hf.2.1 k) (ihh hf.2.2 k)]
      have e : height (Branch i l h) ≤ k + 1 ↔ l.height ≤ k ∧ h.height ≤ k := by simp only [height]; omega
      by_cases c1 : l.height ≤ k
      · by_cases c2 : h.height ≤ k
        · rw [if_pos c1, if_pos c2, if_pos (e.mpr ⟨c1, c2⟩)]
          rfl
        · rw [if_neg c2, if_neg (fun h => c2 (e.mp h).2)]; simp
      · rw [if_neg c1, if_neg (fun h => c1 (e.mp h).1)]; simp

theorem buildNodeStringF_eq (n : Node) : ∀ k,
    buildNodeStringF k n = if n.height ≤ k then some (buildNodeString n) else none := by
  induction n with
  | Leaf b => intro k; cases k <;> cases b <;> simp [buildNodeStringF, buildNodeString, height]
  | Branch i l h ihl ihh =>
    intro k
    cases k with
    | zero => simp [buildNodeStringF, height]
    | succ k =>
      have e : height (Branch i l h) ≤ k + 1 ↔ l.height ≤ k ∧ h.height ≤ k := by simp only [height]; omega
      simp only [buildNodeStringF, ihl k, ihh k, buildNodeString]
      by_cases c1 : l.height ≤ k
      · by_cases c2 : h.height ≤ k
        · rw [if_pos c1, if_pos c2, if_pos (e.mpr ⟨c1, c2⟩)]; rfl
        · rw [if_neg c2, if_neg (fun h => c2 (e.mp h).2)]; simp
      · rw [if_neg c1, if_neg (fun h => c1 (e.mp h).1)]; simp

theorem height_lt {N : Nat} (n : Node) (o : n.Ordered) (h : n.Lt N) : ∀ x, x ≤ N → From x n →
    n.height + x ≤ N + 1 := by
  induction n with
  | Leaf b => intro x hx _; simp only [height]; omega
  | Branch i l hi ihl ihh =>
    intro x hx g
    simp only [Ordered] at o
    simp only [Node.Lt, Ids] at h
    simp only [From] at g
    have h1 := ihl o.2.2.2.1 h.2.1 (i + 1) (by omega) (From.of_above o.1)
    have h2 := ihh o.2.2.2.2 h.2.2 (i + 1) (by omega) (From.of_above o.2.1)
    simp only [height]; omega

theorem path_lt_height {n : Node} : ∀ p ∈ n.paths, p.length < n.height := by
  induction n with
  | Leaf b => cases b <;> simp [paths, height]
  | Branch i lo hi ihl ihh =>
    intro p hp
    simp only [paths, List.mem_append, List.mem_map] at hp
    simp only [height]
    rcases hp with ⟨q, hq, rfl⟩ | hp
    · have := ihh q hq; simp only [List.length_cons]; omega
    · have := ihl p hp; omega

end Node

open Node

/-- The derived `Serialize` for `Tree` on a stack of the given depth.
weave/src/zdd/tree/mod.rs:26-30, weave/src/zdd/tree/universe.rs:18-21. -/
def serializeTreeF (room : Nat) (t : Tree T) (e : List (T × Nat)) : Option (TreeData T) :=
  (buildNodeStringF room t.root).map fun s =>
    ⟨s, t.univ.items, e.foldl (fun m p => insertKV p.1 p.2 m) []⟩

/-- The derived `Deserialize` for `Tree` on a stack of the given depth: the outer `none` is an overflow,
the inner one a deserialization error.
weave/src/zdd/tree/mod.rs:26-30, weave/src/zdd/node/serialize.rs, weave/src/zdd/tree/universe.rs:10-21. -/
def deserializeTreeF (room : Nat) (d : TreeData T) : Option (Option (Tree T)) :=
  (parseNodeStringF room d.root).map (Option.map
    (fun r => ⟨r, ⟨d.items, d.itemIndex.foldl (fun m p => insertKV p.1 p.2 m) []⟩⟩))

/-- C87: reading any document, well-formed or not, nests at most one call more than the node text has
opening parentheses. -/
theorem read_stack {room : Nat} (d : TreeData T) (h : d.root.count '(' + 1 ≤ room) :
    deserializeTreeF room d = some (deserializeTree d) := by
  have := nodeF_eq grammar_ok (bf := fun _ id low high => some (branch id low high)) (s := 0)
    (fun _ _ => True) trivial trivial (fun _ _ _ _ _ _ _ => trivial) (fun _ _ _ _ _ _ _ _ _ => rfl) room d.root
    (d.root.length + 1) (by omega) (by omega)
  unfold deserializeTreeF deserializeTree parseNodeStringF parseNodeString parseWith
  rw [this]
  cases node grammar (d.root.length + 1) d.root <;> rfl

/-- C87: no stack is large enough: for every size there is a document, only twice as long and not the text
of any node, on which reading runs out of stack instead of reporting an error. -/
theorem read_overflows (room : Nat) (items : List T) (index : List (T × Nat)) :
    ∃ text : List Char, text.length = 2 * room + 1 ∧
      deserializeTree ⟨text, items, index⟩ = none ∧ deserializeTreeF room ⟨text, items, index⟩ = none := by
  refine ⟨opens room, opens_length room, ?_, ?_⟩
  · unfold deserializeTree parseNodeString parseWith
    rw [node_opens grammar_ok]; rfl
  · unfold deserializeTreeF parseNodeStringF
    rw [nodeF_opens grammar_ok _ room room (Nat.le_refl _)]; rfl

/-- C87: writing any node and reading the text back nest as many calls as the diagram is high, no more and
no less. -/
theorem write_read_exact {n : Node} (hf : n.Fits) (room : Nat) :
    buildNodeStringF room n = (if n.height ≤ room then some (buildNodeString n) else none) ∧
    parseNodeStringF room (buildNodeString n) = if n.height ≤ room then some (some n) else none := by
  refine ⟨buildNodeStringF_eq n room, ?_⟩
  have h := nodeF_build n hf room []
  rw [List.append_nil] at h
  unfold parseNodeStringF
  rw [h]
  split_ifs <;> rfl

/-- C87: for a tree over a universe made from `n` items and built from combinations without repeated items,
a stack with room for `n + 1` calls is enough to write it and to read back what was written. -/
theorem tree_text_stack {items : List T} (hlen : items.length ≤ 2 ^ 64) {t : Tree T}
    (ht : Built List.Nodup items t) {e : List (T × Nat)} (he : e.Perm t.univ.itemIndex) {room : Nat}
    (hr : items.length + 1 ≤ room) :
    ∃ d, serializeTreeF room t e = some d ∧ deserializeTreeF room d = some (some t) := by
  have hf : t.root.Fits := ht.ids.mono fun i hi => by
    obtain ⟨x, hx, _⟩ := Universe.known_get hi
    obtain ⟨h, _⟩ := List.getElem?_eq_some_iff.mp hx
    show i < 2 ^ 64
    omega
  have hk : KeysLt t.univ.itemIndex := by rw [ht.univ_eq]; exact Universe.keysLt_index items
  have hh := height_lt t.root ht.ordered ht.lt 0 (by omega) (From.zero _)
  obtain ⟨h1, h2⟩ := write_read_exact hf room
  rw [if_pos (by omega)] at h1 h2
  refine ⟨⟨buildNodeString t.root, t.univ.items, e.foldl (fun m p => insertKV p.1 p.2 m) []⟩,
    by simp [serializeTreeF, h1], ?_⟩
  simp only [deserializeTreeF, h2, Option.map_some, collect_perm hk he, collect_perm hk (List.Perm.refl _)]

/-- C87: the calls do nest that deep: a tree that is written on a stack of depth `room` has only
combinations of fewer than `room` items. -/
theorem tree_text_needs {t : Tree T} {e : List (T × Nat)} {room : Nat} {d : TreeData T}
    (h : serializeTreeF room t e = some d) : ∀ A ∈ family t.combinations, A.card < room := by
  rw [serializeTreeF, Option.map_eq_some_iff] at h
  obtain ⟨x, hx, _⟩ := h
  rw [buildNodeStringF_eq] at hx
  split_ifs at hx with hh
  exact card_le_path fun p hp => lt_of_lt_of_le (path_lt_height p hp) hh

example : ("(5 (F) (T".toList).count '(' + 1 ≤ 4 := by decide

example : Built List.Nodup [1, 2, 3] ((Universe.fromVec [1, 2, 3]).tree [1, 3]) := Built.tree (by decide)

end Verif.Zdd1
