import Verif.Zdd1.Ops
import Mathlib.Data.String.Basic

/-!
# Model of weave-visualizer (C80)

The page is modelled as the tree of elements that the `html!` macro describes: tag, class and children.
What yew does with it (diffing, the DOM) is not modelled.
-/

set_option linter.unusedSimpArgs false
set_option linter.unusedVariables false

namespace Verif.Viewer
open Verif Verif.Weave Verif.Spec Verif.Zdd1

/-- What `html!` describes (weave-visualizer/src/visualizer.rs:77-95): an element with its class, or a text. -/
inductive Html where
  | elem (tag : String) (cls : Option String) (children : List Html)
  | text (s : String)

/-- weave-visualizer/src/visualizer.rs:16-18 -/
structure Model where
  tree : Tree String

/-- weave-visualizer/src/visualizer.rs:20-22 -/
inductive Msg where
  | Nope

/-- The items of the page, weave-visualizer/src/visualizer.rs:29-48. -/
def items : List String :=
  ["red shirt", "blue shirt", "black jeans", "blue jeans", "purple jeans", "blue shoes", "flip flops"]

/-- The combinations given to `hyper_tree`, weave-visualizer/src/visualizer.rs:49-62. -/
def combos : List (List String) :=
  [["red shirt", "black jeans", "blue shoes"],
   ["blue shirt", "black jeans", "blue shoes"],
   ["red shirt", "blue jeans", "blue shoes"],
   ["blue shirt", "blue jeans", "blue shoes"],
   ["red shirt", "purple jeans", "blue shoes"],
   ["blue shirt", "purple jeans", "blue shoes"],
   ["red shirt", "black jeans", "flip flops"],
   ["blue shirt", "black jeans", "flip flops"],
   ["red shirt", "blue jeans", "flip flops"],
   ["blue shirt", "blue jeans", "flip flops"],
   ["red shirt", "purple jeans", "flip flops"],
   ["blue shirt", "purple jeans", "flip flops"]]

/-- weave-visualizer/src/visualizer.rs:28-65 -/
def create : Model := ⟨(Universe.fromVec items).hyperTree combos⟩

/-- weave-visualizer/src/visualizer.rs:67-73: the new state and whether to draw again. -/
def update (m : Model) : Msg → Model × Bool
  | .Nope => (m, true)

/-- weave-visualizer/src/visualizer.rs:122-128 -/
def viewLeaf (_depth : Nat) (value : Bool) : Html :=
  .elem "div" (some "tree-leaf") [.elem "label" none [.text (if value then "true" else "false")]]

/-- weave-visualizer/src/visualizer.rs:103-120 (`view_node` and `view_branch`, which call each other). -/
def viewNode (depth : Nat) : TreeNode String → Html
  | .Branch value low high =>
    .elem "div" (some "tree-branch")
      [.elem "label" (some "tree-branch-label") [.text value],
       .elem "div" (some "tree-branch-children") [viewNode (depth + 1) low, viewNode (depth + 1) high]]
  | .Leaf value => viewLeaf (depth + 1) value

/-- weave-visualizer/src/visualizer.rs:99-101; `none` is a panic of `traverse`. -/
def viewTree (m : Model) : Option Html := (m.tree.traverse).map (viewNode 0)

/-- The closure `render_combo`, weave-visualizer/src/visualizer.rs:133-141. -/
def renderCombo (combo : List String) : Html :=
  .elem "li" none [.elem "div" (some "view") [.elem "label" none [.text (String.intercalate ", " combo)]]]

/-- weave-visualizer/src/visualizer.rs:132-148 -/
def viewCombinations (m : Model) : Html :=
  .elem "ul" (some "combo-list") (m.tree.combinations.map renderCombo)

/-- weave-visualizer/src/visualizer.rs:77-95 -/
def view (m : Model) : Option Html :=
  (viewTree m).map fun tree =>
    .elem "div" (some "weave-viz-wrapper")
      [.elem "section" (some "weaveviz-app")
        [.elem "header" (some "header") [.elem "h1" none [.text "Weave Viz"]],
         .elem "section" (some "main")
          [.elem "div" (some "combo-wrapper") [viewCombinations m],
           .elem "div" (some "tree-wrapper") [tree]]]]

/-! ### specification: what a reader of a page sees -/

mutual
/-- The texts below the `li` elements of a page, from top to bottom, one per `li`.
Not code: used to state or prove properties. -/
def Html.bullets : Html → List String
  | .elem tag _ children => if tag = "li" then [String.join (Html.textsAll children)] else Html.bulletsAll children
  | .text _ => []
/-- The texts below the `li` elements of a list of elements.  Not code: used to state or prove properties. -/
def Html.bulletsAll : List Html → List String
  | [] => []
  | h :: hs => h.bullets ++ Html.bulletsAll hs
/-- The texts of an element.  Not code: used to state or prove properties. -/
def Html.texts : Html → List String
  | .elem _ _ children => Html.textsAll children
  | .text s => [s]
/-- The texts of a list of elements.  Not code: used to state or prove properties. -/
def Html.textsAll : List Html → List String
  | [] => []
  | h :: hs => h.texts ++ Html.textsAll hs
end

/-- How a tree reads from top to bottom.  Not code: used to state or prove properties. -/
def reading : TreeNode String → List String
  | .Branch value low high => value :: (reading low ++ reading high)
  | .Leaf true => ["true"]
  | .Leaf false => ["false"]

/-- The state after a list of messages.  Not code: used to state or prove properties. -/
def after (m : Model) : List Msg → Model
  | [] => m
  | x :: xs => after (update m x).1 xs

/-! ### proofs -/

theorem bullets_node (d : Nat) (n : TreeNode String) : (viewNode d n).bullets = [] := by
  induction n generalizing d with
  | Branch v l h ihl ihh => simp [viewNode, Html.bullets, Html.bulletsAll, ihl, ihh]
  | Leaf b => simp [viewNode, viewLeaf, Html.bullets, Html.bulletsAll]

theorem bullets_combos (l : List (List String)) :
    Html.bulletsAll (l.map renderCombo) = l.map (String.intercalate ", ") := by
  induction l with
  | nil => rfl
  | cons c l ih =>
    simp [Html.bulletsAll, ih, renderCombo, Html.bullets, Html.textsAll, Html.texts]

/-- C80: the page lists exactly the combinations of the tree, in their order, each as its items in
alphabetical order separated by ", ". -/
theorem page_lists {m : Model} {page : Html} (h : view m = some page) :
    page.bullets = m.tree.combinations.map (String.intercalate ", ") := by
  unfold view viewTree at h
  cases ht : m.tree.traverse with
  | none => rw [ht] at h; simp at h
  | some n =>
    rw [ht] at h
    simp only [Option.map_some, Option.some.injEq] at h
    subst h
    simp [Html.bullets, Html.bulletsAll, viewCombinations, bullets_combos, bullets_node]

/-- C80: the page is drawn unless `traverse` panics. -/
theorem page_total (m : Model) : view m = none ↔ m.tree.traverse = none := by
  unfold view viewTree
  cases m.tree.traverse <;> simp

theorem text_bool {a b : Bool} (h : (if a then "true" else "false") = if b then "true" else "false") : a = b := by
  cases a <;> cases b <;> simp at h ⊢

/-- C80: different trees are drawn differently, whatever the names of the items are. -/
theorem viewNode_inj {d d' : Nat} {n n' : TreeNode String} (h : viewNode d n = viewNode d' n') : n = n' := by
  induction n generalizing d d' n' with
  | Branch v l r ihl ihr =>
    cases n' with
    | Branch v' l' r' =>
      simp only [viewNode, Html.elem.injEq, List.cons.injEq, Html.text.injEq, and_true, true_and] at h
      obtain ⟨rfl, h1, h2⟩ := h
      rw [ihl h1, ihr h2]
    | Leaf b => simp [viewNode, viewLeaf] at h
  | Leaf b =>
    cases n' with
    | Branch v' l' r' => simp [viewNode, viewLeaf] at h
    | Leaf b' =>
      simp only [viewNode, viewLeaf, Html.elem.injEq, List.cons.injEq, Html.text.injEq, and_true, true_and] at h
      rw [text_bool h]

/-- C80: trees that are drawn alike have the same combinations. -/
theorem drawing_determines {m m' : Model} {h : Html} (h1 : viewTree m = some h) (h2 : viewTree m' = some h) :
    m.tree.combinations = m'.tree.combinations := by
  unfold viewTree at h1 h2
  cases ht : m.tree.traverse with
  | none => rw [ht] at h1; simp at h1
  | some n =>
    cases ht' : m'.tree.traverse with
    | none => rw [ht'] at h2; simp at h2
    | some n' =>
      rw [ht] at h1; rw [ht'] at h2
      simp only [Option.map_some, Option.some.injEq] at h1 h2
      have := viewNode_inj (h1.trans h2.symm)
      subst this
      have e : family m.tree.combinations = family m'.tree.combinations := by
        rw [← traverse_exact ht, ← traverse_exact ht']
      have mem : ∀ {t t' : Tree String}, family t.combinations = family t'.combinations →
          ∀ c, c ∈ t.combinations → c ∈ t'.combinations := by
        intro t t' e c hc
        have : c.toFinset ∈ family t.combinations := ⟨c, hc, rfl⟩
        rw [e] at this
        obtain ⟨c', hc', e'⟩ := this
        have l1 := Tree.combinations_mem_lt t c hc
        have l2 := Tree.combinations_mem_lt t' c' hc'
        have : c = c' := lt_ext l1 l2 (fun x => by
          rw [← List.mem_toFinset, ← e', List.mem_toFinset])
        rw [this]; exact hc'
      exact lt_ext (Tree.combinations_lt _) (Tree.combinations_lt _)
        (fun c => ⟨mem e c, mem e.symm c⟩)

/-- C80: the drawn tree reads as the tree does. -/
theorem drawing_reads (d : Nat) (n : TreeNode String) : (viewNode d n).texts = reading n := by
  induction n generalizing d with
  | Branch v l h ihl ihh => simp [viewNode, Html.texts, Html.textsAll, reading, ihl, ihh]
  | Leaf b => cases b <;> simp [viewNode, viewLeaf, Html.texts, Html.textsAll, reading]

theorem intercalate_inj : ∀ {a b : List (List Char)}, (∀ x ∈ a, ',' ∉ x ∧ x ≠ []) → (∀ x ∈ b, ',' ∉ x ∧ x ≠ []) →
    [',', ' '].intercalate a = [',', ' '].intercalate b → a = b := by
  have cut : ∀ {x y r s : List Char}, ',' ∉ x → ',' ∉ y → x ++ ',' :: r = y ++ ',' :: s → x = y ∧ r = s := by
    intro x
    induction x with
    | nil =>
      intro y r s _ hy h
      cases y with
      | nil => simp at h; exact ⟨rfl, h⟩
      | cons c y => simp at h; exact absurd (by rw [h.1]; simp) hy
    | cons c x ih =>
      intro y r s hx hy h
      cases y with
      | nil => simp at h; exact absurd (by rw [h.1]; simp) hx
      | cons c' y =>
        simp only [List.cons_append, List.cons.injEq] at h
        obtain ⟨h1, h2⟩ := ih (by simp at hx; exact hx.2) (by simp at hy; exact hy.2) h.2
        exact ⟨by rw [h.1, h1], h2⟩
  intro a
  induction a with
  | nil =>
    intro b _ hb h
    cases b with
    | nil => rfl
    | cons y b =>
      have := (hb y (by simp)).2
      cases b with
      | nil => simp [List.intercalate_singleton] at h; exact absurd h this
      | cons z b => simp [List.intercalate_cons_cons] at h
  | cons x a ih =>
    intro b ha hb h
    have hx := ha x (by simp)
    cases b with
    | nil =>
      cases a with
      | nil => simp [List.intercalate_singleton] at h; exact absurd h hx.2
      | cons z a => simp [List.intercalate_cons_cons] at h
    | cons y b =>
      have hy := hb y (by simp)
      cases a with
      | nil =>
        cases b with
        | nil => simpa [List.intercalate_singleton] using h
        | cons z b =>
          rw [List.intercalate_singleton, List.intercalate_cons_cons] at h
          exact absurd (by rw [h]; simp) hx.1
      | cons z a =>
        cases b with
        | nil =>
          rw [List.intercalate_singleton, List.intercalate_cons_cons] at h
          exact absurd (by rw [← h]; simp) hy.1
        | cons w b =>
          rw [List.intercalate_cons_cons, List.intercalate_cons_cons] at h
          simp only [List.append_assoc, List.cons_append, List.nil_append] at h
          obtain ⟨h1, h2⟩ := cut hx.1 hy.1 h
          simp only [List.cons.injEq, true_and] at h2
          rw [h1, ih (fun x hx => ha x (by simp [hx])) (fun x hx => hb x (by simp [hx])) h2]

/-- C80: if item names are not empty and have no comma, the line of a combination tells which it is. -/
theorem line_determines {a b : List String} (ha : ∀ x ∈ a, ',' ∉ x.toList ∧ x ≠ "")
    (hb : ∀ x ∈ b, ',' ∉ x.toList ∧ x ≠ "") (h : String.intercalate ", " a = String.intercalate ", " b) :
    a = b := by
  have h' := congrArg String.toList h
  rw [String.toList_intercalate, String.toList_intercalate] at h'
  have e : (", " : String).toList = [',', ' '] := by decide
  rw [e] at h'
  have key : ∀ {a : List String}, (∀ x ∈ a, ',' ∉ x.toList ∧ x ≠ "") →
      ∀ x ∈ a.map String.toList, ',' ∉ x ∧ x ≠ [] := by
    intro a ha x hx
    obtain ⟨y, hy, rfl⟩ := List.mem_map.mp hx
    refine ⟨(ha y hy).1, fun h => (ha y hy).2 ?_⟩
    exact String.toList_eq_nil_iff.mp h
  have := intercalate_inj (key ha) (key hb) h'
  exact List.map_injective_iff.mpr (fun _ _ h => String.toList_injective h) this

theorem after_create (ms : List Msg) (m : Model) : after m ms = m := by
  induction ms with
  | nil => rfl
  | cons x xs ih => cases x; exact ih

/-- C80: whatever messages arrive, the page keeps showing the twelve outfits of a shirt, jeans and
shoes, and nothing else. -/
theorem page_shows (ms : List Msg) : ∃ page, view (after create ms) = some page ∧
    page.bullets = (after create ms).tree.combinations.map (String.intercalate ", ") ∧
    family (after create ms).tree.combinations =
      {s | ∃ shirt ∈ ["red shirt", "blue shirt"], ∃ jeans ∈ ["black jeans", "blue jeans", "purple jeans"],
        ∃ shoes ∈ ["blue shoes", "flip flops"], s = {shirt, jeans, shoes}} ∧
    page.bullets.length = 12 ∧ ∀ x, update (after create ms) x = (create, true) := by
  rw [after_create]
  have hb : Built (fun _ => True) items create.tree := .hyper (fun _ _ => trivial)
  obtain ⟨n, hn⟩ := traverse_total_partial hb
  have hv : ∃ page, view create = some page := by
    cases h : view create with
    | none => rw [(page_total _).mp h] at hn; simp at hn
    | some p => exact ⟨p, rfl⟩
  obtain ⟨page, hp⟩ := hv
  have hfil : ∀ c ∈ combos, c.filter (fun x => x ∈ items) = c := by decide
  have hfam : family create.tree.combinations = {A | ∃ c ∈ combos, A = c.toFinset} := by
    have := hyper_tree_exact items combos
    rw [show create.tree = (Universe.fromVec items).hyperTree combos from rfl, this]
    ext A
    constructor
    · rintro ⟨c, hc, rfl⟩; exact ⟨c, hc, by rw [hfil c hc]⟩
    · rintro ⟨c, hc, rfl⟩; exact ⟨c, hc, by rw [hfil c hc]⟩
  refine ⟨page, hp, page_lists hp, ?_, ?_⟩
  · rw [hfam]
    ext A
    constructor
    · rintro ⟨c, hc, rfl⟩
      simp only [combos, List.mem_cons, List.not_mem_nil, or_false] at hc
      have t3 : ∀ a b c : String, [a, b, c].toFinset = {a, b, c} := fun a b c => by simp [List.toFinset_cons]
      rcases hc with rfl | rfl | rfl | rfl | rfl | rfl | rfl | rfl | rfl | rfl | rfl | rfl <;>
        exact ⟨_, (by decide), _, (by decide), _, (by decide), t3 _ _ _⟩
    · rintro ⟨a, ha, b, hb, c, hc, rfl⟩
      refine ⟨[a, b, c], ?_, by simp [List.toFinset_cons]⟩
      simp only [List.mem_cons, List.not_mem_nil, or_false] at ha hb hc
      rcases ha with rfl | rfl <;> rcases hb with rfl | rfl | rfl <;> rcases hc with rfl | rfl <;>
        simp [combos]
  · rw [page_lists hp, List.length_map]
    have nd : create.tree.combinations.Nodup :=
      (Tree.combinations_lt _).imp (fun h => ne_of_lt h)
    have inj : Set.InjOn List.toFinset {c | c ∈ create.tree.combinations} := by
      intro c hc c' hc' e
      exact lt_ext (Tree.combinations_mem_lt _ c hc) (Tree.combinations_mem_lt _ c' hc')
        (fun x => by rw [← List.mem_toFinset, e, List.mem_toFinset])
    have e : (create.tree.combinations.map List.toFinset).toFinset = (combos.map List.toFinset).toFinset := by
      ext A
      rw [List.mem_toFinset, List.mem_toFinset, List.mem_map, List.mem_map]
      have : A ∈ family create.tree.combinations ↔ A ∈ {A | ∃ c ∈ combos, A = c.toFinset} := by rw [hfam]
      constructor
      · rintro ⟨c, hc, rfl⟩
        obtain ⟨d, hd, e⟩ := this.mp ⟨c, hc, rfl⟩
        exact ⟨d, hd, e.symm⟩
      · rintro ⟨c, hc, rfl⟩
        obtain ⟨d, hd, e⟩ := this.mpr ⟨c, hc, rfl⟩
        exact ⟨d, hd, e⟩
    have n1 : (create.tree.combinations.map List.toFinset).Nodup := (List.nodup_map_iff_inj_on nd).mpr inj
    have n2 : (combos.map List.toFinset).Nodup := by decide
    have := congrArg Finset.card e
    rw [List.toFinset_card_of_nodup n1, List.toFinset_card_of_nodup n2] at this
    rw [List.length_map] at this
    exact ⟨by rw [this]; rfl, fun x => by cases x; rfl⟩

/-! ### the hypotheses are met -/

/-- The page exists, and the names of its items are not empty and have no comma. -/
example : (∃ page, view create = some page) ∧ ∀ c ∈ combos, ∀ x ∈ c, ',' ∉ x.toList ∧ x ≠ "" := by
  refine ⟨?_, by decide⟩
  obtain ⟨p, hp, _⟩ := page_shows []
  exact ⟨p, hp⟩

end Verif.Viewer
