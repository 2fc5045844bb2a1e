import Verif.Text
import Verif.Bdd.Node
import Verif.Zdd1.Ops
import Verif.Zdd2.Laws
import Verif.Zdd2.UniverseProps

/-!
# Debug texts (C81)

`{:?}` of nodes, v1 trees and forests.  Texts are lists of characters.  `dbg` is `{:?}` of an item; for
`String` (and for `Item`, which derives `Debug`) it is injective and, because it escapes control
characters, contains no line break.
-/

set_option linter.unusedSimpArgs false
set_option linter.unusedVariables false

namespace Verif.Debug
open Verif Verif.Text Verif.Spec

universe u

/-- `"| ".repeat(indent)`, bowtie-core/src/bdd/node/mod.rs:36, weave/src/zdd/node/mod.rs:40,
weave/src/zdd2/forest/node/mod.rs:51, weave/src/zdd2/forest/mod.rs:45. -/
def bars : Nat → List Char
  | 0 => []
  | n + 1 => '|' :: ' ' :: bars n

/-- `{}` of a `bool`, bowtie-core/src/bdd/node/mod.rs:31, weave/src/zdd/node/mod.rs:35. -/
def boolText (b : Bool) : List Char := if b then ['t', 'r', 'u', 'e'] else ['f', 'a', 'l', 's', 'e']

/-- `{:?}` of a zdd2 `Priority`, which derives `Debug`: weave/src/zdd2/forest/node/mod.rs:20-21. -/
def prioText (n : Nat) : List Char := ['P', 'r', 'i', 'o', 'r', 'i', 't', 'y', '('] ++ dec n ++ [')']

/-- `fmt_inner`, bowtie-core/src/bdd/node/mod.rs:28-42. -/
def bddInner {I : Type u} (dbg : I → List Char) (indent : Nat) : Bdd.Node I → List Char
  | .Leaf val => ['|', ' '] ++ boolText val
  | .Branch id low high =>
    ['|', ' '] ++ dbg id ++ [':', '\n'] ++ bars indent ++ bddInner dbg (indent + 1) low ++ ['\n'] ++
      bars indent ++ bddInner dbg (indent + 1) high

/-- `{:?}` of a BDD node, bowtie-core/src/bdd/node/mod.rs:22-26. -/
def bddDebug {I : Type u} (dbg : I → List Char) (n : Bdd.Node I) : List Char := '\n' :: bddInner dbg 1 n

/-- `fmt_inner`, weave/src/zdd/node/mod.rs:32-47. -/
def zdd1Inner (indent : Nat) : Zdd1.Node → List Char
  | .Leaf val => boolText val
  | .Branch id low high =>
    dec id ++ [':', '\n'] ++ bars indent ++ zdd1Inner (indent + 1) low ++ ['\n'] ++
      bars indent ++ zdd1Inner (indent + 1) high

/-- `{:?}` of a v1 node, weave/src/zdd/node/mod.rs:26-30 (and of its id, 12-16). -/
def zdd1Debug (n : Zdd1.Node) : List Char := '\n' :: zdd1Inner 1 n

/-- `{:?}` of a v1 tree, weave/src/zdd/tree/mod.rs:32-36: the node only. -/
def treeDebug {T : Type u} [LinearOrder T] (t : Zdd1.Tree T) : List Char := zdd1Debug t.root

/-- `fmt_inner`, weave/src/zdd2/forest/node/mod.rs:44-60. -/
def zdd2Inner (indent : Nat) : Zdd2.Node → List Char
  | .Branch id low high =>
    prioText id ++ [':', '\n'] ++ bars indent ++ zdd2Inner (indent + 1) low ++ ['\n'] ++
      bars indent ++ zdd2Inner (indent + 1) high
  | .Always => ['A', 'l', 'w', 'a', 'y', 's']
  | .Never => ['N', 'e', 'v', 'e', 'r']

/-- `{:?}` of a zdd2 node, weave/src/zdd2/forest/node/mod.rs:38-42 (and of its id, 25-29). -/
def zdd2Debug (n : Zdd2.Node) : List Char := '\n' :: zdd2Inner 1 n

/-- `fmt_inner`, weave/src/zdd2/forest/mod.rs:37-55; `none` is the failed `unwrap`. -/
def forestInner {T : Type u} [LinearOrder T] (dbg : T → List Char) (univ : Zdd2.Universe T) (indent : Nat) :
    Zdd2.Node → Option (List Char)
  | .Branch id low high =>
    match univ.getItem id, forestInner dbg univ (indent + 1) low, forestInner dbg univ (indent + 1) high with
    | some item, some low, some high =>
      some (prioText id ++ [':', ' '] ++ dbg item ++ ['\n'] ++ bars indent ++ low ++ ['\n'] ++ bars indent ++ high)
    | _, _, _ => none
  | .Always => some ['A', 'l', 'w', 'a', 'y', 's']
  | .Never => some ['N', 'e', 'v', 'e', 'r']

/-- `{:?}` of a forest, weave/src/zdd2/forest/mod.rs:31-35. -/
def forestDebug {T : Type u} [LinearOrder T] (dbg : T → List Char) (f : Zdd2.Forest T) : Option (List Char) :=
  (forestInner dbg f.univ 1 f.root).map ('\n' :: ·)

/-! ### a common form -/

/-- A tree of lines.  Not code: used to state or prove properties. -/
inductive Lines where
  | leaf (s : List Char)
  | branch (s : List Char) (low high : Lines)

/-- How the lines are put together.  Not code: used to state or prove properties. -/
def Lines.render (d : Nat) : Lines → List Char
  | .leaf s => s
  | .branch s low high =>
    s ++ ('\n' :: (bars d ++ (low.render (d + 1) ++ ('\n' :: (bars d ++ high.render (d + 1))))))

/-- Lines without line breaks whose first lines tell leaves from branches (`p` holds of branches).
Not code: used to state or prove properties. -/
def Lines.Good (p : List Char → Prop) : Lines → Prop
  | .leaf s => '\n' ∉ s ∧ ¬ p s
  | .branch s low high => '\n' ∉ s ∧ p s ∧ low.Good p ∧ high.Good p

/-- What can follow a text: nothing or another line.  Not code: used to state or prove properties. -/
def Ends (r : List Char) : Prop := r = [] ∨ ∃ r', r = '\n' :: r'

theorem line_cut {s s' r r' : List Char} (hs : '\n' ∉ s) (hs' : '\n' ∉ s') (hr : Ends r) (hr' : Ends r')
    (h : s ++ r = s' ++ r') : s = s' ∧ r = r' := by
  induction s generalizing s' with
  | nil =>
    cases s' with
    | nil => exact ⟨rfl, h⟩
    | cons c s' =>
      rcases hr with rfl | ⟨r0, rfl⟩
      · simp at h
      · simp only [List.nil_append, List.cons_append, List.cons.injEq] at h
        exact absurd (by rw [h.1]; simp) hs'
  | cons c s ih =>
    cases s' with
    | nil =>
      rcases hr' with rfl | ⟨r0, rfl⟩
      · simp at h
      · simp only [List.nil_append, List.cons_append, List.cons.injEq] at h
        exact absurd (by rw [h.1]; simp) hs
    | cons c' s' =>
      simp only [List.cons_append, List.cons.injEq] at h
      obtain ⟨h1, h2⟩ := ih (by simp at hs; exact hs.2) (by simp at hs'; exact hs'.2) h.2
      exact ⟨by rw [h.1, h1], h2⟩

theorem render_inj {p : List Char → Prop} {t t' : Lines} (g : t.Good p) (g' : t'.Good p) {d : Nat}
    {r r' : List Char} (hr : Ends r) (hr' : Ends r') (h : t.render d ++ r = t'.render d ++ r') :
    t = t' ∧ r = r' := by
  induction t generalizing t' d r r' with
  | leaf s =>
    cases t' with
    | leaf s' =>
      obtain ⟨h1, h2⟩ := line_cut g.1 g'.1 hr hr' h
      exact ⟨by rw [h1], h2⟩
    | branch s' l' k' =>
      simp only [Lines.render, List.append_assoc, List.cons_append] at h
      have := (line_cut g.1 g'.1 hr (Or.inr ⟨_, rfl⟩) h).1
      subst this
      exact absurd g'.2.1 g.2
  | branch s l k ihl ihk =>
    cases t' with
    | leaf s' =>
      simp only [Lines.render, List.append_assoc, List.cons_append] at h
      have := (line_cut g.1 g'.1 (Or.inr ⟨_, rfl⟩) hr' h).1
      subst this
      exact absurd g.2.1 g'.2
    | branch s' l' k' =>
      simp only [Lines.render, List.append_assoc, List.cons_append] at h
      obtain ⟨rfl, h2⟩ := line_cut g.1 g'.1 (Or.inr ⟨_, rfl⟩) (Or.inr ⟨_, rfl⟩) h
      rw [List.cons.injEq] at h2
      have h3 := List.append_cancel_left h2.2
      obtain ⟨rfl, h4⟩ := ihl g.2.2.1 g'.2.2.1 (Or.inr ⟨_, rfl⟩) (Or.inr ⟨_, rfl⟩) h3
      rw [List.cons.injEq] at h4
      have h5 := List.append_cancel_left h4.2
      obtain ⟨rfl, h6⟩ := ihk g.2.2.2 g'.2.2.2 hr hr' h5
      exact ⟨rfl, h6⟩

theorem render_eq {p : List Char → Prop} {t t' : Lines} (g : t.Good p) (g' : t'.Good p) {d : Nat}
    (h : t.render d = t'.render d) : t = t' :=
  (render_inj g g' (r := []) (r' := []) (Or.inl rfl) (Or.inl rfl) (by simpa using h)).1

theorem dec_inj {m n : Nat} (h : dec m = dec n) : m = n := by
  rw [← dec_value m, ← dec_value n, h]

theorem dec_not {c : Char} (hc : isDigit c = false) (n : Nat) : c ∉ dec n := by
  intro h
  rw [dec_digits n c h] at hc
  exact absurd hc (by simp)

theorem prioText_nl (n : Nat) : '\n' ∉ prioText n := by
  have := dec_not (c := '\n') (by decide) n
  simp [prioText, this]

/-! ### BDD nodes -/

/-- The lines of a BDD node.  Not code: used to state or prove properties. -/
def bddLines {I : Type u} (dbg : I → List Char) : Bdd.Node I → Lines
  | .Leaf val => .leaf (['|', ' '] ++ boolText val)
  | .Branch id low high => .branch (['|', ' '] ++ dbg id ++ [':']) (bddLines dbg low) (bddLines dbg high)

theorem bdd_render {I : Type u} (dbg : I → List Char) (n : Bdd.Node I) (d : Nat) :
    bddInner dbg d n = (bddLines dbg n).render d := by
  induction n generalizing d with
  | Leaf b => rfl
  | Branch i l h ihl ihh => simp [bddInner, bddLines, Lines.render, ihl, ihh]

theorem bdd_good {I : Type u} {dbg : I → List Char} (hn : ∀ i, '\n' ∉ dbg i) (n : Bdd.Node I) :
    (bddLines dbg n).Good (fun s => s.getLast? = some ':') := by
  induction n with
  | Leaf b => cases b <;> simp [bddLines, Lines.Good, boolText]
  | Branch i l h ihl ihh => exact ⟨by simp [hn i], List.getLast?_concat, ihl, ihh⟩

theorem bddLines_inj {I : Type u} {dbg : I → List Char} (hi : Function.Injective dbg) {n n' : Bdd.Node I}
    (h : bddLines dbg n = bddLines dbg n') : n = n' := by
  induction n generalizing n' with
  | Leaf b =>
    cases n' with
    | Leaf b' => cases b <;> cases b' <;> simp [bddLines, boolText] at h ⊢
    | Branch => simp [bddLines] at h
  | Branch i l k ihl ihk =>
    cases n' with
    | Leaf b' => simp [bddLines] at h
    | Branch i' l' k' =>
      simp only [bddLines, Lines.branch.injEq, List.append_cancel_right_eq, List.append_cancel_left_eq] at h
      rw [hi h.1, ihl h.2.1, ihk h.2.2]

/-- C81: the debug text of a BDD node tells which diagram it is. -/
theorem bdd_debug_iff {I : Type u} {dbg : I → List Char} (hi : Function.Injective dbg)
    (hn : ∀ i, '\n' ∉ dbg i) (n n' : Bdd.Node I) : bddDebug dbg n = bddDebug dbg n' ↔ n = n' := by
  constructor
  · intro h
    rw [bddDebug, bddDebug, List.cons.injEq, bdd_render, bdd_render] at h
    exact bddLines_inj hi (render_eq (bdd_good hn n) (bdd_good hn n') h.2)
  · rintro rfl; rfl

/-- The hypotheses are met. -/
example := bdd_debug_iff (fun _ _ h => dec_inj h) (dec_not (by decide)) (.Branch 3 (.Leaf true) (.Leaf false))
  (.Branch 4 (.Leaf true) (.Leaf false))

/-! ### v1 nodes and trees -/

/-- The lines of a v1 node.  Not code: used to state or prove properties. -/
def zdd1Lines : Zdd1.Node → Lines
  | .Leaf val => .leaf (boolText val)
  | .Branch id low high => .branch (dec id ++ [':']) (zdd1Lines low) (zdd1Lines high)

theorem zdd1_render (n : Zdd1.Node) (d : Nat) : zdd1Inner d n = (zdd1Lines n).render d := by
  induction n generalizing d with
  | Leaf b => rfl
  | Branch i l h ihl ihh => simp [zdd1Inner, zdd1Lines, Lines.render, ihl, ihh]

theorem zdd1_good (n : Zdd1.Node) : (zdd1Lines n).Good (fun s => s.getLast? = some ':') := by
  induction n with
  | Leaf b => cases b <;> simp [zdd1Lines, Lines.Good, boolText]
  | Branch i l h ihl ihh => exact ⟨by simp [dec_not (c := '\n') (by decide) i], by simp, ihl, ihh⟩

theorem zdd1Lines_inj {n n' : Zdd1.Node} (h : zdd1Lines n = zdd1Lines n') : n = n' := by
  induction n generalizing n' with
  | Leaf b =>
    cases n' with
    | Leaf b' => cases b <;> cases b' <;> simp [zdd1Lines, boolText] at h ⊢
    | Branch => simp [zdd1Lines] at h
  | Branch i l k ihl ihk =>
    cases n' with
    | Leaf b' => simp [zdd1Lines] at h
    | Branch i' l' k' =>
      simp only [zdd1Lines, Lines.branch.injEq, List.append_cancel_right_eq] at h
      rw [dec_inj h.1, ihl h.2.1, ihk h.2.2]

/-- C81: the debug text of a v1 node tells which diagram it is. -/
theorem zdd1_debug_iff (n n' : Zdd1.Node) : zdd1Debug n = zdd1Debug n' ↔ n = n' := by
  constructor
  · intro h
    rw [zdd1Debug, zdd1Debug, List.cons.injEq, zdd1_render, zdd1_render] at h
    exact zdd1Lines_inj (render_eq (zdd1_good n) (zdd1_good n') h.2)
  · rintro rfl; rfl

/-- C81: trees over one universe have the same debug text iff they are equal. -/
theorem tree_debug_iff {T : Type u} [LinearOrder T] {P : List T → Prop} {items : List T} {a b : Zdd1.Tree T}
    (ha : Zdd1.Built P items a) (hb : Zdd1.Built P items b) : treeDebug a = treeDebug b ↔ a = b := by
  rw [treeDebug, treeDebug, zdd1_debug_iff]
  constructor
  · intro h
    have hu := ha.univ_eq.trans hb.univ_eq.symm
    obtain ⟨r, v⟩ := a
    obtain ⟨r', v'⟩ := b
    simp only at h hu
    rw [h, hu]
  · rintro rfl; rfl

/-- The hypotheses are met. -/
example := tree_debug_iff (P := List.Nodup) (items := [1, 2, 3]) (a := (Zdd1.Universe.fromVec [1, 2, 3]).tree [1, 3])
  (b := (Zdd1.Universe.fromVec [1, 2, 3]).tree [2]) (.tree (by decide)) (.tree (by decide))

/-- C81: over different universes the text of a tree does not tell its combinations. -/
theorem tree_debug_blind : ∃ a b : Zdd1.Tree ℕ, Zdd1.Built List.Nodup [1] a ∧ Zdd1.Built List.Nodup [2] b ∧
    treeDebug a = treeDebug b ∧ a.combinations ≠ b.combinations := by
  refine ⟨(Zdd1.Universe.fromVec [1]).tree [1], (Zdd1.Universe.fromVec [2]).tree [2],
    .tree (by simp), .tree (by simp), ?_, ?_⟩
  · have h : ∀ n : ℕ, ((Zdd1.Universe.fromVec [n]).tree [n]).root = .Branch 0 (.Leaf false) (.Leaf true) := by
      intro n
      have : Zdd1.Universe.fromVec [n] = ⟨[n], [(n, 0)]⟩ := rfl
      simp [Zdd1.Universe.tree, this, lookup, sorted, Zdd1.Node.requiredBranch, Zdd1.Node.branch]
    rw [treeDebug, treeDebug, h, h]
  · intro e
    have h1 := Zdd1.tree_exact [1] [1]
    have h2 := Zdd1.tree_exact [2] [2]
    rw [e, h2] at h1
    simp at h1

/-! ### zdd2 nodes and forests -/

theorem prioText_cut {m n : Nat} {r s : List Char} (h : prioText m ++ r = prioText n ++ s) : m = n ∧ r = s := by
  simp only [prioText, List.append_assoc, List.append_cancel_left_eq] at h
  have cut : ∀ {x y : List Char}, ')' ∉ x → ')' ∉ y → x ++ ([')'] ++ r) = y ++ ([')'] ++ s) → x = y ∧ r = s := by
    intro x
    induction x with
    | nil =>
      intro y _ hy h
      cases y with
      | nil => simpa using h
      | cons c y => simp at h; exact absurd (by rw [h.1]; simp) hy
    | cons c x ih =>
      intro y hx hy h
      cases y with
      | nil => simp at h; exact absurd (by rw [h.1]; simp) hx
      | cons c' y =>
        simp only [List.cons_append, List.cons.injEq] at h
        obtain ⟨h1, h2⟩ := ih (by simp at hx; exact hx.2) (by simp at hy; exact hy.2) h.2
        exact ⟨by rw [h.1, h1], h2⟩
  obtain ⟨h1, h2⟩ := cut (dec_not (by decide) m) (dec_not (by decide) n) h
  exact ⟨dec_inj h1, h2⟩

/-- The lines of a zdd2 node; `label id` is what follows the priority.
Not code: used to state or prove properties. -/
def zdd2Lines (label : Nat → List Char) : Zdd2.Node → Lines
  | .Branch id low high => .branch (prioText id ++ label id) (zdd2Lines label low) (zdd2Lines label high)
  | .Always => .leaf ['A', 'l', 'w', 'a', 'y', 's']
  | .Never => .leaf ['N', 'e', 'v', 'e', 'r']

theorem zdd2_render (n : Zdd2.Node) (d : Nat) :
    zdd2Inner d n = (zdd2Lines (fun _ => [':']) n).render d := by
  induction n generalizing d with
  | Always | Never => rfl
  | Branch i l h ihl ihh => simp [zdd2Inner, zdd2Lines, Lines.render, ihl, ihh]

theorem zdd2_good {label : Nat → List Char} (hl : ∀ i, '\n' ∉ label i) (n : Zdd2.Node) :
    (zdd2Lines label n).Good (fun s => s.head? = some 'P') := by
  induction n with
  | Always | Never => simp [zdd2Lines, Lines.Good]
  | Branch i l h ihl ihh =>
    refine ⟨?_, by simp [prioText], ihl, ihh⟩
    rw [List.mem_append]
    rintro (h | h)
    · exact prioText_nl i h
    · exact hl i h

/-- An id in a diagram.  Not code: used to state or prove properties. -/
def Occurs (i : Nat) : Zdd2.Node → Prop
  | .Branch id low high => i = id ∨ Occurs i low ∨ Occurs i high
  | _ => False

theorem zdd2Lines_inj {label label' : Nat → List Char} {n n' : Zdd2.Node}
    (h : zdd2Lines label n = zdd2Lines label' n') : n = n' ∧ ∀ i, Occurs i n → label i = label' i := by
  induction n generalizing n' with
  | Always => cases n' <;> simp [zdd2Lines, Occurs] at h ⊢
  | Never => cases n' <;> simp [zdd2Lines, Occurs] at h ⊢
  | Branch i l k ihl ihk =>
    cases n' with
    | Always => simp [zdd2Lines] at h
    | Never => simp [zdd2Lines] at h
    | Branch i' l' k' =>
      simp only [zdd2Lines, Lines.branch.injEq] at h
      obtain ⟨rfl, h1⟩ := prioText_cut h.1
      obtain ⟨rfl, h2⟩ := ihl h.2.1
      obtain ⟨rfl, h3⟩ := ihk h.2.2
      refine ⟨rfl, ?_⟩
      rintro j (rfl | hj | hj)
      · exact h1
      · exact h2 j hj
      · exact h3 j hj

/-- C81: the debug text of a zdd2 node tells which diagram it is. -/
theorem zdd2_debug_iff (n n' : Zdd2.Node) : zdd2Debug n = zdd2Debug n' ↔ n = n' := by
  constructor
  · intro h
    rw [zdd2Debug, zdd2Debug, List.cons.injEq, zdd2_render, zdd2_render] at h
    exact (zdd2Lines_inj (render_eq (zdd2_good (by simp) n) (zdd2_good (by simp) n') h.2)).1
  · rintro rfl; rfl

variable {T : Type u} [LinearOrder T]

/-- What follows the priority in the text of a forest.  Not code: used to state or prove properties. -/
def itemLabel (dbg : T → List Char) (univ : Zdd2.Universe T) (i : Nat) : List Char :=
  match univ.getItem i with
  | some x => [':', ' '] ++ dbg x
  | none => []

theorem forest_render {dbg : T → List Char} {univ : Zdd2.Universe T} {n : Zdd2.Node} {d : Nat} {t : List Char}
    (h : forestInner dbg univ d n = some t) :
    t = (zdd2Lines (itemLabel dbg univ) n).render d ∧ ∀ i, Occurs i n → ∃ x, univ.getItem i = some x := by
  induction n generalizing d t with
  | Always => simp [forestInner] at h; subst h; exact ⟨rfl, fun i hi => hi.elim⟩
  | Never => simp [forestInner] at h; subst h; exact ⟨rfl, fun i hi => hi.elim⟩
  | Branch i l k ihl ihk =>
    rw [forestInner] at h
    cases hx : univ.getItem i with
    | none => rw [hx] at h; simp at h
    | some x =>
      cases hl : forestInner dbg univ (d + 1) l with
      | none => rw [hx, hl] at h; simp at h
      | some tl =>
        cases hk : forestInner dbg univ (d + 1) k with
        | none => rw [hx, hl, hk] at h; simp at h
        | some tk =>
          rw [hx, hl, hk] at h
          simp only [Option.some.injEq] at h
          subst h
          obtain ⟨rfl, h1⟩ := ihl hl
          obtain ⟨rfl, h2⟩ := ihk hk
          refine ⟨?_, ?_⟩
          · simp [zdd2Lines, Lines.render, itemLabel, hx]
          · rintro j (rfl | hj | hj)
            · exact ⟨x, hx⟩
            · exact h1 j hj
            · exact h2 j hj

theorem forest_total {dbg : T → List Char} {univ : Zdd2.Universe T} {n : Zdd2.Node} (d : Nat)
    (h : ∀ i, Occurs i n → ∃ x, univ.getItem i = some x) : ∃ t, forestInner dbg univ d n = some t := by
  induction n generalizing d with
  | Always => exact ⟨_, rfl⟩
  | Never => exact ⟨_, rfl⟩
  | Branch i l k ihl ihk =>
    obtain ⟨x, hx⟩ := h i (Or.inl rfl)
    obtain ⟨tl, hl⟩ := ihl (d + 1) (fun j hj => h j (Or.inr (Or.inl hj)))
    obtain ⟨tk, hk⟩ := ihk (d + 1) (fun j hj => h j (Or.inr (Or.inr hj)))
    exact ⟨_, by rw [forestInner, hx, hl, hk]⟩

theorem occurs_mem {n : Zdd2.Node} (o : n.Ordered) {i : Nat} (h : Occurs i n) : ∃ s ∈ n.Den, i ∈ s := by
  induction n with
  | Always => exact h.elim
  | Never => exact h.elim
  | Branch j l k ihl ihk =>
    simp only [Zdd2.Node.Ordered] at o
    rcases h with rfl | h | h
    · obtain ⟨s, hs⟩ := Zdd2.Node.exists_mem o.2.2.2.2 o.2.2.1
      exact ⟨insert i s, Or.inr ⟨s, hs, rfl⟩, by simp⟩
    · obtain ⟨s, hs, hi⟩ := ihl o.2.2.2.1 h
      exact ⟨s, Or.inl hs, hi⟩
    · obtain ⟨s, hs, hi⟩ := ihk o.2.2.2.2 h
      exact ⟨insert j s, Or.inr ⟨s, hs, rfl⟩, by simp [hi]⟩

theorem treesLoop_ids {p : Nat → Prop} (q : List (Zdd2.Node × List Nat)) (acc : List (List Nat))
    (hq : ∀ e ∈ q, (∀ i, Occurs i e.1 → p i) ∧ ∀ i ∈ e.2, p i) (ha : ∀ l ∈ acc, ∀ i ∈ l, p i) :
    ∀ l ∈ Zdd2.Node.treesLoop q acc, ∀ i ∈ l, p i := by
  fun_induction Zdd2.Node.treesLoop q acc with
  | case1 acc => exact ha
  | case2 acc id low high path q ih =>
    refine ih ?_ ha
    have h0 := hq (Zdd2.Node.Branch id low high, path) (by simp)
    intro e he
    simp only [List.mem_cons] at he
    rcases he with rfl | rfl | he
    · refine ⟨fun i hi => h0.1 i (Or.inr (Or.inr hi)), fun i hi => ?_⟩
      rcases List.mem_append.mp hi with hi | hi
      · exact h0.2 i hi
      · rw [List.mem_singleton] at hi; subst hi; exact h0.1 _ (Or.inl rfl)
    · exact ⟨fun i hi => h0.1 i (Or.inr (Or.inl hi)), h0.2⟩
    · exact hq e (by simp [he])
  | case3 acc path q ih =>
    refine ih (fun e he => hq e (by simp [he])) ?_
    intro l hl i hi
    rcases List.mem_append.mp hl with hl | hl
    · exact ha l hl i hi
    · rw [List.mem_singleton] at hl; subst hl; exact (hq (Zdd2.Node.Always, _) (by simp)).2 i hi
  | case4 acc path q ih => exact ih (fun e he => hq e (by simp [he])) ha

theorem trees_ids (n : Zdd2.Node) : ∀ l ∈ Zdd2.Node.trees n, ∀ i ∈ l, Occurs i n :=
  treesLoop_ids _ _ (fun e he => by
    rw [List.mem_singleton] at he; subst he; exact ⟨fun i h => h, by simp⟩) (by simp)

/-- C81: printing a forest never panics. -/
theorem forest_debug_total (dbg : T → List Char) {f : Zdd2.Forest T} (hf : Zdd2.Reach f) :
    ∃ t, forestDebug dbg f = some t := by
  have hc := hf.canon
  have : ∀ i, Occurs i f.root → ∃ x, f.univ.getItem i = some x := by
    intro i hi
    obtain ⟨s, hs, his⟩ := occurs_mem hc.ordered hi
    exact ⟨_, List.getElem?_eq_getElem (hc.inU s hs i his)⟩
  obtain ⟨t, ht⟩ := forest_total (dbg := dbg) 1 this
  exact ⟨_, by rw [forestDebug, ht]; rfl⟩

/-- The hypothesis is met. -/
example := forest_debug_total dec (f := Zdd2.Forest.many [[1, 2], [3]]) (Zdd2.reach_many _)

/-- C81: two forests print alike iff they are equal, that is, iff they have the same members. -/
theorem forest_debug_iff {dbg : T → List Char} (hi : Function.Injective dbg) (hn : ∀ x, '\n' ∉ dbg x)
    {f g : Zdd2.Forest T} (hf : Zdd2.Reach f) (hg : Zdd2.Reach g) :
    (forestDebug dbg f = forestDebug dbg g ↔ f = g) ∧
    (forestDebug dbg f = forestDebug dbg g ↔ family f.trees = family g.trees) := by
  have key : forestDebug dbg f = forestDebug dbg g → family f.trees = family g.trees := by
    intro h
    obtain ⟨t, ht⟩ := forest_debug_total dbg hf
    rw [ht] at h
    rw [forestDebug] at ht h
    cases h1 : forestInner dbg f.univ 1 f.root with
    | none => rw [h1] at ht; simp at ht
    | some t1 =>
      cases h2 : forestInner dbg g.univ 1 g.root with
      | none => rw [h2] at h; simp at h
      | some t2 =>
        rw [h1] at ht; rw [h2] at h
        simp only [Option.map_some, Option.some.injEq] at ht h
        have e : t1 = t2 := by
          rw [← ht] at h
          simpa using h
        obtain ⟨r1, k1⟩ := forest_render h1
        obtain ⟨r2, k2⟩ := forest_render h2
        have nl : ∀ (u : Zdd2.Universe T) i, '\n' ∉ itemLabel dbg u i := by
          intro u i
          unfold itemLabel
          cases u.getItem i with
          | none => simp
          | some x => simp [hn x]
        rw [r1, r2] at e
        obtain ⟨hroot, hlab⟩ := zdd2Lines_inj (render_eq (zdd2_good (nl _) _) (zdd2_good (nl _) _) e)
        have hitem : ∀ i, Occurs i f.root → f.univ.getItem i = g.univ.getItem i := by
          intro i hi'
          have := hlab i hi'
          obtain ⟨x, hx⟩ := k1 i hi'
          obtain ⟨y, hy⟩ := k2 i (hroot ▸ hi')
          rw [itemLabel, itemLabel, hx, hy] at this
          simp only [List.append_cancel_left_eq] at this
          rw [hx, hy, hi this]
        have : f.trees = g.trees := by
          rw [Zdd2.Forest.trees, Zdd2.Forest.trees, ← hroot]
          refine List.map_congr_left (fun l hl => ?_)
          rw [Zdd2.Universe.getItems, Zdd2.Universe.getItems]
          congr 1
          refine List.filterMap_congr (fun i hi' => ?_)
          exact hitem i (trees_ids _ l hl i hi')
        rw [this]
  have back : family f.trees = family g.trees → f = g := fun h => Zdd2.eq_of_family hg hf.canon h
  exact ⟨⟨fun h => back (key h), fun h => by rw [h]⟩, ⟨key, fun h => by rw [back h]⟩⟩

/-! ### the layout -/

/-- A text of lines, each with the number of bars before it.  Not code: used to state or prove properties. -/
def page (ls : List (Nat × List Char)) : List Char :=
  ls.flatMap fun l => ['\n'] ++ (List.replicate l.1 ['|', ' ']).flatten ++ l.2

/-- The nodes of a BDD from top to bottom, with their depth.  Not code: used to state or prove properties. -/
def bddRows {I : Type u} (dbg : I → List Char) : Nat → Bdd.Node I → List (Nat × List Char)
  | d, .Leaf true => [(d, "true".toList)]
  | d, .Leaf false => [(d, "false".toList)]
  | d, .Branch i low high => (d, dbg i ++ ":".toList) :: (bddRows dbg (d + 1) low ++ bddRows dbg (d + 1) high)

/-- The nodes of a v1 diagram from top to bottom, with their depth.  Not code: used to state or prove properties. -/
def zdd1Rows : Nat → Zdd1.Node → List (Nat × List Char)
  | d, .Leaf true => [(d, "true".toList)]
  | d, .Leaf false => [(d, "false".toList)]
  | d, .Branch i low high => (d, dec i ++ ":".toList) :: (zdd1Rows (d + 1) low ++ zdd1Rows (d + 1) high)

/-- The nodes of a zdd2 diagram from top to bottom, with their depth; `label` is what follows the priority.
Not code: used to state or prove properties. -/
def zdd2Rows (label : Nat → List Char) : Nat → Zdd2.Node → List (Nat × List Char)
  | d, .Always => [(d, "Always".toList)]
  | d, .Never => [(d, "Never".toList)]
  | d, .Branch i low high => (d, "Priority(".toList ++ dec i ++ ")".toList ++ label i) ::
      (zdd2Rows label (d + 1) low ++ zdd2Rows label (d + 1) high)

theorem bars_eq (d : Nat) : (List.replicate d ['|', ' ']).flatten = bars d := by
  induction d with
  | zero => rfl
  | succ d ih => rw [List.replicate_succ, List.flatten_cons, ih]; rfl

theorem bars_succ (d : Nat) : bars (d + 1) = bars d ++ ['|', ' '] := by
  induction d with
  | zero => rfl
  | succ d ih =>
    have : bars (d + 1 + 1) = '|' :: ' ' :: bars (d + 1) := rfl
    rw [this, ih]
    have : bars (d + 1) = '|' :: ' ' :: bars d := rfl
    rw [← List.cons_append, ← List.cons_append, ← this, ih]

theorem page_cons (d : Nat) (s : List Char) (ls : List (Nat × List Char)) :
    page ((d, s) :: ls) = '\n' :: (bars d ++ (s ++ page ls)) := by
  simp [page, bars_eq]

theorem page_append (a b : List (Nat × List Char)) : page (a ++ b) = page a ++ page b := by
  simp [page]

/-- C81: the text of a BDD node has one line per node, from top to bottom and low before high, each after one
bar more than its depth: the item and a colon, `true` or `false`. -/
theorem bdd_layout {I : Type u} (dbg : I → List Char) (n : Bdd.Node I) : bddDebug dbg n = page (bddRows dbg 1 n) := by
  have key : ∀ (n : Bdd.Node I) (d : Nat), '\n' :: (bars d ++ bddInner dbg (d + 1) n) = page (bddRows dbg (d + 1) n) := by
    intro n
    induction n with
    | Leaf b => intro d; cases b <;> simp [bddInner, bddRows, page, bars_eq, bars_succ, boolText]
    | Branch i l h ihl ihh =>
      intro d
      rw [bddRows, page_cons, page_append, ← ihl (d + 1), ← ihh (d + 1), bddInner, bars_succ]
      simp
  exact key n 0

/-- C81: the text of a v1 node (and tree) has one line per node, from top to bottom and low before high, each
after as many bars as its depth: the id and a colon, `true` or `false`. -/
theorem zdd1_layout (n : Zdd1.Node) : zdd1Debug n = page (zdd1Rows 0 n) := by
  have key : ∀ (n : Zdd1.Node) (d : Nat), '\n' :: (bars d ++ zdd1Inner (d + 1) n) = page (zdd1Rows d n) := by
    intro n
    induction n with
    | Leaf b => intro d; cases b <;> simp [zdd1Inner, zdd1Rows, page, bars_eq, boolText]
    | Branch i l h ihl ihh =>
      intro d
      rw [zdd1Rows, page_cons, page_append, ← ihl (d + 1), ← ihh (d + 1), zdd1Inner]
      simp
  exact key n 0

/-- C81: the text of a zdd2 node, likewise; a branch is its priority and a colon. -/
theorem zdd2_layout (n : Zdd2.Node) : zdd2Debug n = page (zdd2Rows (fun _ => ":".toList) 0 n) := by
  have key : ∀ (n : Zdd2.Node) (d : Nat),
      '\n' :: (bars d ++ zdd2Inner (d + 1) n) = page (zdd2Rows (fun _ => ":".toList) d n) := by
    intro n
    induction n with
    | Always | Never => intro d; simp [zdd2Inner, zdd2Rows, page, bars_eq]
    | Branch i l h ihl ihh =>
      intro d
      rw [zdd2Rows, page_cons, page_append, ← ihl (d + 1), ← ihh (d + 1), zdd2Inner, prioText]
      simp
  exact key n 0

/-- C81: the text of a forest, likewise; a branch is its priority, a colon and the item of that priority. -/
theorem forest_layout (dbg : T → List Char) {f : Zdd2.Forest T} (hf : Zdd2.Reach f) :
    forestDebug dbg f = some (page (zdd2Rows (fun i => match f.univ.index[i]? with
      | some x => ": ".toList ++ dbg x
      | none => []) 0 f.root)) := by
  have key : ∀ (n : Zdd2.Node) (d : Nat) (t : List Char), forestInner dbg f.univ (d + 1) n = some t →
      '\n' :: (bars d ++ t) = page (zdd2Rows (fun i => match f.univ.index[i]? with
        | some x => ": ".toList ++ dbg x
        | none => []) d n) := by
    intro n
    induction n with
    | Always | Never =>
      intro d t h
      simp only [forestInner, Option.some.injEq] at h
      subst h
      simp [zdd2Rows, page, bars_eq]
    | Branch i l h ihl ihh =>
      intro d t ht
      rw [forestInner] at ht
      split at ht
      · rename_i x tl th hx hl hh
        cases ht
        rw [zdd2Rows, page_cons, page_append, ← ihl (d + 1) tl hl, ← ihh (d + 1) th hh, prioText]
        rw [Zdd2.Universe.getItem] at hx
        rw [hx]
        simp
      · cases ht
  obtain ⟨t, ht⟩ := forest_debug_total dbg hf
  rw [ht]
  rw [forestDebug] at ht
  cases h : forestInner dbg f.univ 1 f.root with
  | none => rw [h] at ht; cases ht
  | some s =>
    rw [h] at ht
    cases ht
    exact congrArg some (key f.root 0 s h)

/-- The hypothesis is met. -/
example := forest_layout dec (f := Zdd2.Forest.many [[1, 2], [3]]) (Zdd2.reach_many _)

/-! ### the hypotheses are met -/

/-- Numbers print without line breaks, and different numbers differently. -/
example : Function.Injective dec ∧ ∀ n, '\n' ∉ dec n := ⟨fun _ _ h => dec_inj h, dec_not (by decide)⟩

/-- Two forests with different texts. -/
example : forestDebug dec (Zdd2.Forest.many [[1, 2], [3]]) ≠ forestDebug dec (Zdd2.Forest.many [[1, 2]]) := by
  intro h
  have := ((forest_debug_iff (fun _ _ h => dec_inj h) (dec_not (by decide))
    (Zdd2.reach_many _) (Zdd2.reach_many _)).2).mp h
  have h3 : ({3} : Finset ℕ) ∈ family (Zdd2.Forest.many [[1, 2], [3]]).trees := by
    rw [Zdd2.many_family]
    simp [family]
  rw [this, Zdd2.many_family] at h3
  simp [family] at h3
  exact absurd (congrArg Finset.card h3) (by decide)

end Verif.Debug
