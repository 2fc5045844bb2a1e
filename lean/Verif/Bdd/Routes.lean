import Verif.Bdd.Handmade
import Mathlib.Data.Set.Card

/-!
# What any diagram shows (C111)

Closets made by hand from any diagram whatever (`Closet::new`, `Node::branch`), read through its routes.
-/

set_option linter.unusedSimpArgs false
set_option linter.unusedSectionVars false
set_option linter.unusedVariables false

namespace Verif.Bdd
open Verif Verif.Bdd.Spec

universe u v
variable {I : Type u} {F : Type v} [LinearOrder I] [LinearOrder F]

/-- A route through a diagram, from its root to a leaf: the decisions on the way (an item, worn or not) and the
answer at the end.  Not code: used to state or prove properties. -/
inductive Route : Node I → List (I × Bool) → Bool → Prop
  | leaf (b : Bool) : Route (.Leaf b) [] b
  | low {i : I} {l h : Node I} {r : List (I × Bool)} {b : Bool} (H : Route l r b) :
      Route (.Branch i l h) ((i, false) :: r) b
  | high {i : I} {l h : Node I} {r : List (I × Bool)} {b : Bool} (H : Route h r b) :
      Route (.Branch i l h) ((i, true) :: r) b

/-- The items worn on a route.  Not code: used to state or prove properties. -/
def wornOn (r : List (I × Bool)) : List I := (r.filter (fun d => d.2)).map Prod.fst

theorem route_leaf {v : Bool} {r : List (I × Bool)} {b : Bool} :
    Route (.Leaf v) r b ↔ r = [] ∧ v = b := by
  constructor
  · intro h; cases h; exact ⟨rfl, rfl⟩
  · rintro ⟨rfl, rfl⟩; exact .leaf _

theorem route_branch {i : I} {l h : Node I} {r : List (I × Bool)} {b : Bool} :
    Route (.Branch i l h) r b ↔
      (∃ q, r = (i, false) :: q ∧ Route l q b) ∨ ∃ q, r = (i, true) :: q ∧ Route h q b := by
  constructor
  · intro H
    cases H with
    | low H => exact Or.inl ⟨_, rfl, H⟩
    | high H => exact Or.inr ⟨_, rfl, H⟩
  · rintro (⟨q, rfl, H⟩ | ⟨q, rfl, H⟩)
    · exact .low H
    · exact .high H

theorem route_nil {n : Node I} {b : Bool} : Route n [] b ↔ n = .Leaf b := by
  cases n with
  | Leaf v => rw [route_leaf]; simp
  | Branch i l h => rw [route_branch]; simp

theorem route_exists (n : Node I) : ∃ r b, Route n r b := by
  induction n with
  | Leaf v => exact ⟨_, _, .leaf v⟩
  | Branch i l h ihl ihh => obtain ⟨r, b, H⟩ := ihl; exact ⟨_, _, .low H⟩

theorem route_fun {n : Node I} {r : List (I × Bool)} {b b' : Bool} (h : Route n r b) (h' : Route n r b') :
    b = b' := by
  induction h with
  | leaf b => rw [route_leaf] at h'; exact h'.2
  | low H ih => cases h' with | low H' => exact ih H'
  | high H ih => cases h' with | high H' => exact ih H'

/-- Every complete assignment follows exactly one route. -/
theorem eval_route (n : Node I) (σ : I → Bool) (v : Bool) :
    n.eval σ = v ↔ ∃ r, Route n r v ∧ ∀ d ∈ r, σ d.1 = d.2 := by
  induction n with
  | Leaf b => simp [Node.eval, route_leaf]
  | Branch i l h ihl ihh =>
    simp only [Node.eval, route_branch]
    constructor
    · intro e
      by_cases hs : σ i = true
      · rw [if_pos hs, ihh] at e
        obtain ⟨r, h1, h2⟩ := e
        exact ⟨_, Or.inr ⟨r, rfl, h1⟩, by simpa [hs] using h2⟩
      · rw [if_neg hs, ihl] at e
        obtain ⟨r, h1, h2⟩ := e
        exact ⟨_, Or.inl ⟨r, rfl, h1⟩, by simpa [hs] using h2⟩
    · rintro ⟨r, (⟨q, rfl, H⟩ | ⟨q, rfl, H⟩), hd⟩
      · have := hd _ List.mem_cons_self
        rw [if_neg (by simp [this]), ihl]
        exact ⟨q, H, fun d hd' => hd d (List.mem_cons_of_mem _ hd')⟩
      · have := hd _ List.mem_cons_self
        rw [if_pos (by simpa using this), ihh]
        exact ⟨q, H, fun d hd' => hd d (List.mem_cons_of_mem _ hd')⟩

/-! ## Counting -/

/-- All routes, listed.  Not code: used to state or prove properties. -/
def routes : Node I → List (List (I × Bool) × Bool)
  | .Leaf b => [([], b)]
  | .Branch i l h => (routes l).map (fun e => ((i, false) :: e.1, e.2)) ++ (routes h).map (fun e => ((i, true) :: e.1, e.2))

theorem mem_routes {n : Node I} {r : List (I × Bool)} {b : Bool} : (r, b) ∈ routes n ↔ Route n r b := by
  induction n generalizing r b with
  | Leaf v => simp [routes, route_leaf, eq_comm]
  | Branch i l h ihl ihh =>
    simp only [routes, List.mem_append, List.mem_map, Prod.exists, Prod.mk.injEq, route_branch, ihl, ihh]
    constructor
    · rintro (⟨q, b', H, e, rfl⟩ | ⟨q, b', H, e, rfl⟩)
      · exact Or.inl ⟨q, e.symm, H⟩
      · exact Or.inr ⟨q, e.symm, H⟩
    · rintro (⟨q, rfl, H⟩ | ⟨q, rfl, H⟩)
      · exact Or.inl ⟨q, b, H, rfl, rfl⟩
      · exact Or.inr ⟨q, b, H, rfl, rfl⟩

theorem routes_nodup (n : Node I) : (routes n).Nodup := by
  induction n with
  | Leaf v => simp [routes]
  | Branch i l h ihl ihh =>
    refine List.nodup_append.2 ⟨ihl.map ?_, ihh.map ?_, ?_⟩
    · rintro ⟨a, x⟩ ⟨b, y⟩ e; simp at e; simp [e]
    · rintro ⟨a, x⟩ ⟨b, y⟩ e; simp at e; simp [e]
    · intro a ha b hb e
      subst e
      simp only [List.mem_map] at ha hb
      obtain ⟨_, _, e1⟩ := ha
      obtain ⟨_, _, e2⟩ := hb
      rw [← e2] at e1
      simp at e1

theorem routes_true (n : Node I) : ((routes n).filter (fun e => e.2)).length = n.outfitCount := by
  induction n with
  | Leaf v => cases v <;> simp [routes, Node.outfitCount]
  | Branch i l h ihl ihh =>
    simp only [routes, List.filter_append, List.length_append, List.filter_map, List.length_map, Node.outfitCount]
    rw [← ihl, ← ihh]; rfl

theorem routes_length (n : Node I) : (routes n).length = n.leafCount := by
  induction n with
  | Leaf v => simp [routes, Node.leafCount]
  | Branch i l h ihl ihh => simp [routes, Node.leafCount, ihl, ihh]

theorem ncard_routes (n : Node I) (p : Bool → Bool) :
    {r | ∃ b, Route n r b ∧ p b = true}.ncard = ((routes n).filter (fun e => p e.2)).length := by
  have hmem : ∀ r, r ∈ (((routes n).filter (fun e => p e.2)).map Prod.fst).toFinset ↔
      ∃ b, Route n r b ∧ p b = true := by
    intro r
    simp only [List.mem_toFinset, List.mem_map, List.mem_filter, Prod.exists, exists_and_right, exists_eq_right,
      mem_routes]
  have : {r | ∃ b, Route n r b ∧ p b = true} =
      ((((routes n).filter (fun e => p e.2)).map Prod.fst).toFinset : Set (List (I × Bool))) := by
    ext r; simp only [Set.mem_ofPred_eq, Finset.mem_coe, hmem]
  rw [this, Set.ncard_coe_finset, List.toFinset_card_of_nodup, List.length_map]
  refine List.Nodup.map_on ?_ ((routes_nodup n).filter _)
  rintro ⟨r, b⟩ hr ⟨r', b'⟩ hr' e
  simp only [List.mem_filter, mem_routes] at hr hr'
  dsimp only at e
  subst e
  rw [route_fun hr.1 hr'.1]

/-- C111: on any diagram `outfit_count` is the number of routes that end in true, `leaf_count` the number of all
routes, `node_count` twice that less one, and `depth` the longest route with its leaf. -/
theorem count_routes (n : Node I) :
    n.outfitCount = {r | Route n r true}.ncard ∧ n.leafCount = {r | ∃ b, Route n r b}.ncard ∧
    n.nodeCount + 1 = 2 * {r | ∃ b, Route n r b}.ncard ∧
    (∃ r b, Route n r b ∧ n.depth = r.length + 1) ∧ ∀ r b, Route n r b → r.length + 1 ≤ n.depth := by
  have h1 := ncard_routes n id
  have h2 := ncard_routes n (fun _ => true)
  simp only [id, List.filter_true, and_true, routes_length] at h1 h2
  rw [routes_true] at h1
  have h1' : {r | Route n r true} = {r | ∃ b, Route n r b ∧ b = true} := by ext r; simp
  rw [h1', h1, h2]
  refine ⟨rfl, rfl, ?_, ?_, ?_⟩
  · clear h1 h2 h1'
    induction n with
    | Leaf v => simp [Node.nodeCount, Node.leafCount]
    | Branch i l h ihl ihh => simp only [Node.nodeCount, Node.leafCount]; omega
  · clear h1 h2 h1'
    induction n with
    | Leaf v => exact ⟨[], v, .leaf v, rfl⟩
    | Branch i l h ihl ihh =>
      obtain ⟨rl, bl, Hl, el⟩ := ihl
      obtain ⟨rh, bh, Hh, eh⟩ := ihh
      simp only [Node.depth]
      split_ifs with hlt
      · exact ⟨_, _, .high Hh, by simp [eh]; omega⟩
      · exact ⟨_, _, .low Hl, by simp [el]; omega⟩
  · clear h1 h2 h1'
    induction n with
    | Leaf v => intro r b H; rw [route_leaf] at H; simp [H.1, Node.depth]
    | Branch i l h ihl ihh =>
      intro r b H
      simp only [Node.depth]
      rcases route_branch.1 H with ⟨q, rfl, H'⟩ | ⟨q, rfl, H'⟩
      · have := ihl q b H'; simp only [List.length_cons]; split_ifs <;> omega
      · have := ihh q b H'; simp only [List.length_cons]; split_ifs <;> omega

/-! ## Statuses -/

theorem occ_available {n : Node I} {i : I} : Status.Available i ∈ n.occ ↔
    ∃ p q b, Route n (p ++ (i, true) :: q) b ∧ (q ≠ [] ∨ b = true) := by
  induction n with
  | Leaf v => simp [Node.occ, route_leaf]
  | Branch j l h ihl ihh =>
    rw [Node.occ, List.mem_cons, List.mem_append, ihl, ihh, Node.branchStatus_eq]
    constructor
    · rintro (e | ⟨p, q, b, H, hq⟩ | ⟨p, q, b, H, hq⟩)
      · split_ifs at e with hh
        cases e
        obtain ⟨r, b, H⟩ := route_exists h
        refine ⟨[], r, b, .high H, ?_⟩
        rcases b with _ | _
        · left; rintro rfl; exact hh (route_nil.1 H)
        · exact Or.inr rfl
      · exact ⟨(j, true) :: p, q, b, .high H, hq⟩
      · exact ⟨(j, false) :: p, q, b, .low H, hq⟩
    · rintro ⟨p, q, b, H, hq⟩
      rcases p with _ | ⟨d, p⟩
      · rcases route_branch.1 H with ⟨q', e, H⟩ | ⟨q', e, H⟩
        · simp at e
        · simp only [List.nil_append, List.cons.injEq, Prod.mk.injEq, and_true] at e
          obtain ⟨rfl, rfl⟩ := e
          left
          rw [if_neg]
          rintro rfl
          rw [route_leaf] at H
          rcases hq with hq | hq
          · exact hq H.1
          · rw [hq] at H; cases H.2
      · rcases route_branch.1 H with ⟨q', e, H⟩ | ⟨q', e, H⟩
        · simp only [List.cons_append, List.cons.injEq] at e
          obtain ⟨_, rfl⟩ := e
          exact Or.inr (Or.inr ⟨p, q, b, H, hq⟩)
        · simp only [List.cons_append, List.cons.injEq] at e
          obtain ⟨_, rfl⟩ := e
          exact Or.inr (Or.inl ⟨p, q, b, H, hq⟩)

theorem mentions_route {n : Node I} {i : I} : n.Mentions i ↔ ∃ r b v, Route n r b ∧ (i, v) ∈ r := by
  induction n with
  | Leaf v => simp [Node.Mentions, route_leaf]
  | Branch j l h ihl ihh =>
    rw [Node.Mentions, ihl, ihh]
    constructor
    · rintro (rfl | ⟨r, b, v, H, hm⟩ | ⟨r, b, v, H, hm⟩)
      · obtain ⟨r, b, H⟩ := route_exists l; exact ⟨_, b, false, .low H, by simp⟩
      · exact ⟨_, b, v, .low H, List.mem_cons_of_mem _ hm⟩
      · exact ⟨_, b, v, .high H, List.mem_cons_of_mem _ hm⟩
    · rintro ⟨r, b, v, H, hm⟩
      rcases route_branch.1 H with ⟨q, rfl, H'⟩ | ⟨q, rfl, H'⟩ <;> rcases List.mem_cons.1 hm with e | hm'
      · cases e; exact Or.inl rfl
      · exact Or.inr (Or.inl ⟨q, b, v, H', hm'⟩)
      · cases e; exact Or.inl rfl
      · exact Or.inr (Or.inr ⟨q, b, v, H', hm'⟩)

/-- C111: the statuses of a closet made from any diagram: an item is listed, once, exactly if some route decides it;
as Available if some route wears it and does not end in false right there, else as Excluded. -/
theorem status_routes (index : List (I × F)) (n : Node I) (i : I) :
    (Status.Available i ∈ (Closet.new index n).summary ↔
      ∃ p q b, Route n (p ++ (i, true) :: q) b ∧ (q ≠ [] ∨ b = true)) ∧
    (Status.Excluded i ∈ (Closet.new index n).summary ↔ (∃ r b v, Route n r b ∧ (i, v) ∈ r) ∧
      ∀ p q b, Route n (p ++ (i, true) :: q) b → q = [] ∧ b = false) ∧
    Status.Selected i ∉ (Closet.new index n).summary ∧ (Closet.new index n).summary.Pairwise (· < ·) := by
  have hav : Status.Available i ∈ (Closet.new index n).summary ↔ Status.Available i ∈ n.occ := by
    rw [Closet.new, mem_summarize]
    exact ⟨fun h => h.1, fun h => ⟨h, fun e => by cases e⟩⟩
  have neg : (∀ p q b, Route n (p ++ (i, true) :: q) b → q = [] ∧ b = false) ↔ Status.Available i ∉ n.occ := by
    rw [occ_available]
    constructor
    · rintro h ⟨p, q, b, H, hq⟩
      obtain ⟨h1, h2⟩ := h p q b H
      rcases hq with hq | hq
      · exact hq h1
      · rw [h2] at hq; cases hq
    · intro h p q b H
      by_contra hc
      refine h ⟨p, q, b, H, ?_⟩
      by_cases hq : q = []
      · right; by_contra hb; exact hc ⟨hq, by simpa using hb⟩
      · exact Or.inl hq
  refine ⟨hav.trans occ_available, ?_, selected_not_mem_summarize n i, summarize_lt n⟩
  rw [neg, ← mentions_route, Node.occ_mentions, Closet.new, mem_summarize]
  constructor
  · rintro ⟨h1, h2⟩; exact ⟨⟨_, h1, rfl⟩, h2 rfl⟩
  · rintro ⟨⟨s, hs, rfl⟩, h2⟩
    rcases Node.occ_cases hs with e | e
    · exact ⟨e ▸ hs, fun _ => h2⟩
    · exact absurd (e ▸ hs) h2

/-! ## Restricting and selecting -/

/-- The route is followed under `σ`, with the first decision about `x` (if any) taken as `b`.
Not code: used to state or prove properties. -/
def FollowsFixing (x : I) (b : Bool) (σ : I → Bool) (r : List (I × Bool)) : Prop :=
  (x ∉ r.map Prod.fst ∧ ∀ d ∈ r, σ d.1 = d.2) ∨
  ∃ p q, r = p ++ (x, b) :: q ∧ x ∉ p.map Prod.fst ∧ (∀ d ∈ p, σ d.1 = d.2) ∧ ∀ d ∈ q, σ d.1 = d.2

theorem follows_here {x : I} {b : Bool} {σ : I → Bool} {v : Bool} {r : List (I × Bool)} :
    FollowsFixing x b σ ((x, v) :: r) ↔ v = b ∧ ∀ d ∈ r, σ d.1 = d.2 := by
  constructor
  · rintro (⟨h, _⟩ | ⟨p, q, e, h1, h2, h3⟩)
    · simp at h
    · rcases p with _ | ⟨d, p⟩
      · simp only [List.nil_append, List.cons.injEq, Prod.mk.injEq, true_and] at e
        obtain ⟨rfl, rfl⟩ := e; exact ⟨rfl, h3⟩
      · simp only [List.cons_append, List.cons.injEq] at e
        obtain ⟨rfl, _⟩ := e; simp at h1
  · rintro ⟨rfl, h⟩; exact Or.inr ⟨[], r, rfl, by simp, by simp, h⟩

theorem follows_other {x i : I} (hne : i ≠ x) {b : Bool} {σ : I → Bool} {v : Bool} {r : List (I × Bool)} :
    FollowsFixing x b σ ((i, v) :: r) ↔ σ i = v ∧ FollowsFixing x b σ r := by
  constructor
  · rintro (⟨h1, h2⟩ | ⟨p, q, e, h1, h2, h3⟩)
    · exact ⟨h2 _ List.mem_cons_self, Or.inl ⟨by simp at h1 ⊢; exact h1.2, fun d hd => h2 d (List.mem_cons_of_mem _ hd)⟩⟩
    · rcases p with _ | ⟨d, p⟩
      · simp only [List.nil_append, List.cons.injEq, Prod.mk.injEq] at e
        exact absurd e.1.1 hne
      · simp only [List.cons_append, List.cons.injEq] at e
        obtain ⟨rfl, rfl⟩ := e
        refine ⟨h2 _ List.mem_cons_self, Or.inr ⟨p, q, rfl, ?_, fun d hd => h2 d (List.mem_cons_of_mem _ hd), h3⟩⟩
        simp at h1 ⊢; exact h1.2
  · rintro ⟨hv, (⟨h1, h2⟩ | ⟨p, q, rfl, h1, h2, h3⟩)⟩
    · refine Or.inl ⟨?_, ?_⟩
      · simp only [List.map_cons, List.mem_cons, not_or]; exact ⟨hne.symm, h1⟩
      · intro d hd
        rcases List.mem_cons.1 hd with rfl | hd
        · exact hv
        · exact h2 d hd
    · refine Or.inr ⟨(i, v) :: p, q, rfl, ?_, ?_, h3⟩
      · simp only [List.map_cons, List.mem_cons, not_or]; exact ⟨hne.symm, h1⟩
      · intro d hd
        rcases List.mem_cons.1 hd with rfl | hd
        · exact hv
        · exact h2 d hd

/-- C111: `Node::restrict` on any diagram fixes the first decision about the item on every route, and only the
first: what the restricted diagram says of a choice is the end of the route that follows it with that decision fixed. -/
theorem restrict_routes (n : Node I) (x : I) (b : Bool) (σ : I → Bool) (v : Bool) :
    (Node.restrict n x b).eval σ = v ↔ ∃ r, Route n r v ∧ FollowsFixing x b σ r := by
  induction n with
  | Leaf w => cases w <;> cases v <;> simp [Node.restrict, Node.TRUE_LEAF, Node.FALSE_LEAF, Node.eval, route_leaf, FollowsFixing]
  | Branch i l h ihl ihh =>
    rw [Node.restrict_branch]
    by_cases hi : i = x
    · subst hi
      rw [if_pos rfl]
      simp only [route_branch]
      constructor
      · intro e
        cases b with
        | true =>
          obtain ⟨r, h1, h2⟩ := (eval_route h σ v).1 e
          exact ⟨_, Or.inr ⟨r, rfl, h1⟩, follows_here.2 ⟨rfl, h2⟩⟩
        | false =>
          obtain ⟨r, h1, h2⟩ := (eval_route l σ v).1 e
          exact ⟨_, Or.inl ⟨r, rfl, h1⟩, follows_here.2 ⟨rfl, h2⟩⟩
      · rintro ⟨r, (⟨q, rfl, H⟩ | ⟨q, rfl, H⟩), hf⟩ <;> obtain ⟨rfl, h2⟩ := follows_here.1 hf
        · exact (eval_route l σ v).2 ⟨q, H, h2⟩
        · exact (eval_route h σ v).2 ⟨q, H, h2⟩
    · rw [if_neg hi, Node.eval_mk]
      simp only [route_branch]
      constructor
      · intro e
        by_cases hs : σ i = true
        · rw [if_pos hs, ihh] at e
          obtain ⟨r, h1, h2⟩ := e
          exact ⟨_, Or.inr ⟨r, rfl, h1⟩, (follows_other hi).2 ⟨hs, h2⟩⟩
        · rw [if_neg hs, ihl] at e
          obtain ⟨r, h1, h2⟩ := e
          exact ⟨_, Or.inl ⟨r, rfl, h1⟩, (follows_other hi).2 ⟨by simpa using hs, h2⟩⟩
      · rintro ⟨r, (⟨q, rfl, H⟩ | ⟨q, rfl, H⟩), hf⟩ <;> obtain ⟨hs, h2⟩ := (follows_other hi).1 hf
        · rw [if_neg (by simp [hs]), ihl]; exact ⟨q, H, h2⟩
        · rw [if_pos hs, ihh]; exact ⟨q, H, h2⟩

/-- C111: `select_item` on any closet: an unknown item, then an Excluded one, is refused; otherwise the new closet
has the restricted diagram, shows what a closet made from that diagram shows, and the items selected so far. -/
theorem select_routes (c : Closet I F) (i : I) :
    (c.getFamily i = none → c.selectItem i = .error (.UnknownItem i)) ∧
    (c.getFamily i ≠ none → Status.Excluded i ∈ c.summary → c.selectItem i = .error (.ExcludedItem i)) ∧
    (c.getFamily i ≠ none → Status.Excluded i ∉ c.summary →
      ∃ d, c.selectItem i = .ok d ∧ d.itemIndex = c.itemIndex ∧ d.root = Node.restrict c.root i true ∧
        d.summary.Pairwise (· < ·) ∧ ∀ s, s ∈ d.summary ↔ (∃ j, s = .Selected j ∧ (j = i ∨ s ∈ c.summary)) ∨
          s ∈ (Closet.new c.itemIndex (Node.restrict c.root i true)).summary) := by
  refine ⟨fun h => ?_, fun h he => ?_, fun h he => ?_⟩
  · rw [selectItem_eq, if_pos (show lookup i c.itemIndex = none from h)]
  · rw [selectItem_eq, if_neg (show ¬ lookup i c.itemIndex = none from h), if_pos he]
  · rw [selectItem_eq, if_neg (show ¬ lookup i c.itemIndex = none from h), if_neg he]
    refine ⟨_, rfl, rfl, rfl, sorted_lt_of_nodup (nodup_uniq _), fun s => ?_⟩
    simp only [mem_sorted, mem_uniq, List.mem_append, List.mem_filter, List.mem_singleton, Closet.new]
    constructor
    · rintro ((⟨h1, h2⟩ | h1) | h1)
      · cases s with
        | Excluded j => cases h2
        | Available j => cases h2
        | Selected j => exact Or.inl ⟨j, rfl, Or.inr h1⟩
      · exact Or.inl ⟨i, h1, Or.inl rfl⟩
      · exact Or.inr h1
    · rintro (⟨j, rfl, (rfl | h1)⟩ | h1)
      · exact Or.inl (Or.inr rfl)
      · exact Or.inl (Or.inl ⟨h1, rfl⟩)
      · exact Or.inr h1

/-! ## Completing -/

/-- The route wears an item wherever that does not end in false at once.
Not code: used to state or prove properties. -/
def Greedy (n : Node I) (r : List (I × Bool)) : Prop :=
  ∀ p i v q, r = p ++ (i, v) :: q → (v = false ↔ Route n (p ++ [(i, true)]) false)

theorem greedy_route (n : Node I) : ∃ r b, Route n r b ∧ Greedy n r ∧
    ∀ acc, Closet.walk n acc = sorted (acc ++ wornOn r) := by
  induction n with
  | Leaf v =>
    refine ⟨[], v, .leaf v, ?_, fun acc => by simp [Closet.walk, wornOn]⟩
    intro p i v q e; simp at e
  | Branch j l h ihl ihh =>
    by_cases hf : h = .Leaf false
    · obtain ⟨r, b, H, G, W⟩ := ihl
      refine ⟨_, b, .low H, ?_, fun acc => ?_⟩
      · intro p i v q e
        rcases p with _ | ⟨d, p⟩
        · simp only [List.nil_append, List.cons.injEq, Prod.mk.injEq] at e
          obtain ⟨⟨rfl, rfl⟩, rfl⟩ := e
          subst hf
          exact ⟨fun _ => .high (.leaf false), fun _ => rfl⟩
        · simp only [List.cons_append, List.cons.injEq] at e
          obtain ⟨rfl, rfl⟩ := e
          rw [G p i v q rfl]
          constructor
          · intro h; exact .low h
          · intro h; cases h with | low h => exact h
      · rw [Closet.walk, if_pos hf, W]; simp [wornOn]
    · obtain ⟨r, b, H, G, W⟩ := ihh
      refine ⟨_, b, .high H, ?_, fun acc => ?_⟩
      · intro p i v q e
        rcases p with _ | ⟨d, p⟩
        · simp only [List.nil_append, List.cons.injEq, Prod.mk.injEq] at e
          obtain ⟨⟨rfl, rfl⟩, rfl⟩ := e
          simp only [Bool.true_eq_false, List.nil_append, false_iff]
          intro h; cases h with | high h => exact hf (route_nil.1 h)
        · simp only [List.cons_append, List.cons.injEq] at e
          obtain ⟨rfl, rfl⟩ := e
          rw [G p i v q rfl]
          constructor
          · intro h; exact .high h
          · intro h; cases h with | high h => exact h
      · rw [Closet.walk, if_neg hf, W]; simp [wornOn]

theorem greedy_unique {n : Node I} {r r' : List (I × Bool)} {b b' : Bool} (h : Route n r b) (g : Greedy n r)
    (h' : Route n r' b') (g' : Greedy n r') : r = r' := by
  induction h generalizing r' with
  | leaf b => rw [route_leaf] at h'; exact h'.1.symm
  | @low i l h q b H ih =>
    have e1 := (g [] i false q rfl).1 rfl
    rcases route_branch.1 h' with ⟨q', rfl, H'⟩ | ⟨q', rfl, H'⟩
    · refine congrArg _ (ih ?_ H' ?_)
      · intro p j v s e
        rw [g ((i, false) :: p) j v s (by rw [e]; rfl)]
        exact ⟨fun h => (by cases h with | low h => exact h), fun h => .low h⟩
      · intro p j v s e
        rw [g' ((i, false) :: p) j v s (by rw [e]; rfl)]
        exact ⟨fun h => (by cases h with | low h => exact h), fun h => .low h⟩
    · have := (g' [] i true q' rfl).2 e1; cases this
  | @high i l h q b H ih =>
    rcases route_branch.1 h' with ⟨q', rfl, H'⟩ | ⟨q', rfl, H'⟩
    · have := (g [] i true q rfl).2 ((g' [] i false q' rfl).1 rfl); cases this
    · refine congrArg _ (ih ?_ H' ?_)
      · intro p j v s e
        rw [g ((i, true) :: p) j v s (by rw [e]; rfl)]
        exact ⟨fun h => (by cases h with | high h => exact h), fun h => .high h⟩
      · intro p j v s e
        rw [g' ((i, true) :: p) j v s (by rw [e]; rfl)]
        exact ⟨fun h => (by cases h with | high h => exact h), fun h => .high h⟩

/-- C111: `complete_outfit` on any closet, for known selections of different families: restrict the diagram by the
selections one after the other.  If it is the false leaf the selections are refused; otherwise the result is the
selections with the items of one route, the one that wears an item wherever that does not end in false at once. -/
theorem complete_routes (c : Closet I F) (sel : List I) (hk : ∀ x ∈ sel, c.getFamily x ≠ none)
    (hc : ¬ ClashIn c sel) (m : Node I) (hm : m = sel.foldl (fun n x => Node.restrict n x true) c.root) :
    (m = .Leaf false → c.completeOutfit sel = some (.error (.IncompatibleSelections (sorted sel)))) ∧
    (m ≠ .Leaf false → ∃ r b, Route m r b ∧ Greedy m r ∧ c.completeOutfit sel = some (.ok (sorted (sel ++ wornOn r)))) := by
  have hm' : Closet.restrictAll c.root sel = m := hm.symm
  rw [handmade_complete_eq hk hc, hm']
  refine ⟨fun h => by rw [if_pos h], fun h => ?_⟩
  obtain ⟨r, b, H, G, W⟩ := greedy_route m
  exact ⟨r, b, H, G, by rw [if_neg h, W]⟩

theorem wornOn_eval {n : Node I} (ho : n.ReadOnce) {r : List (I × Bool)} {b : Bool} (H : Route n r b) :
    n.eval (fun x => decide (x ∈ wornOn r)) = b := by
  have hmen : ∀ {n : Node I} {r : List (I × Bool)} {b : Bool}, Route n r b → ∀ x ∈ wornOn r, n.Mentions x := by
    intro n r b H x hx
    rw [wornOn, List.mem_map] at hx
    obtain ⟨⟨y, v⟩, hd, rfl⟩ := hx
    exact mentions_route.2 ⟨r, b, v, H, (List.mem_filter.1 hd).1⟩
  induction H with
  | leaf b => rfl
  | @low i l h q b H ih =>
    obtain ⟨o1, o2, o3, o4⟩ := ho
    have hn : i ∉ wornOn q := fun hx => o1 (hmen H i hx)
    have e : wornOn ((i, false) :: q) = wornOn q := by simp [wornOn]
    simp only [Node.eval, e, hn, decide_false, Bool.false_eq_true, if_false]
    exact ih o3
  | @high i l h q b H ih =>
    obtain ⟨o1, o2, o3, o4⟩ := ho
    have e : wornOn ((i, true) :: q) = i :: wornOn q := by simp [wornOn]
    simp only [Node.eval, e, List.mem_cons, true_or, decide_true, if_true]
    rw [← ih o4]
    refine Node.eval_congr fun x hx => ?_
    have : x ≠ i := fun e => o2 (e ▸ hx)
    simp [this]

/-- C111: when completing goes wrong, on diagrams in which no route decides an item twice: the completion of no
selections is accepted exactly if that route ends in true; it ends in false only at a node whose two children are
both the false leaf. -/
theorem complete_right_iff (c : Closet I F) (ho : c.root.ReadOnce) (hn : c.root ≠ .Leaf false) :
    ∃ r b o, Route c.root r b ∧ Greedy c.root r ∧ c.completeOutfit [] = some (.ok o) ∧
      (c.root.eval (fun x => decide (x ∈ o)) = true ↔ b = true) ∧
      (b = false → ∃ p i, r = p ++ [(i, false)] ∧ Route c.root (p ++ [(i, true)]) false) := by
  obtain ⟨_, h⟩ := complete_routes c [] (by simp) (by rintro ⟨f, h⟩; simp at h) c.root rfl
  obtain ⟨r, b, H, G, W⟩ := h hn
  refine ⟨r, b, _, H, G, W, ?_, ?_⟩
  · have : (fun x => decide (x ∈ sorted ([] ++ wornOn r))) = fun x => decide (x ∈ wornOn r) := by
      funext x; simp [mem_sorted]
    rw [this, wornOn_eval ho H]
  · rintro rfl
    rcases List.eq_nil_or_concat r with rfl | ⟨p, ⟨i, v⟩, rfl⟩
    · exact absurd (route_nil.1 H) hn
    · have g := G p i v [] (by simp)
      cases v with
      | false => exact ⟨p, i, by simp, g.1 rfl⟩
      | true =>
        have := g.2 (by simpa using H); cases this

/-! ## Concrete diagrams -/

/-- A diagram that decides item 1 twice and has a node with equal children.
Not code: used to state or prove properties. -/
def odd : Node Nat :=
  .Branch 1 (.Branch 2 (.Leaf false) (.Leaf false)) (.Branch 3 (.Leaf true) (.Branch 1 (.Leaf true) (.Leaf false)))

example : odd.outfitCount = 2 ∧ {r | Route odd r true}.ncard = 2 := ⟨rfl, (count_routes odd).1.symm⟩

/-- Item 2 is worn on a route, which ends in false right there. -/
example : Status.Excluded 2 ∈ (Closet.new [(1, 0), (2, 0), (3, 1)] odd).summary := by
  refine ((status_routes [(1, 0), (2, 0), (3, 1)] odd 2).2.1).2 ⟨⟨_, _, false, .low (.low (.leaf _)), by simp⟩, ?_⟩
  intro p q b H
  have := mem_routes.2 H
  simp only [odd, routes, List.map_cons, List.map_nil, List.cons_append, List.nil_append, List.mem_cons,
    Prod.mk.injEq, List.not_mem_nil, or_false] at this
  rcases this with ⟨e, rfl⟩ | ⟨e, rfl⟩ | ⟨e, rfl⟩ | ⟨e, rfl⟩ | ⟨e, rfl⟩
  all_goals rcases p with _ | ⟨d, _ | ⟨d₂, _ | ⟨d₃, _ | ⟨d₄, p⟩⟩⟩⟩ <;> simp at e
  exact ⟨e.2, rfl⟩

/-- Only the first decision about item 1 is fixed: the restricted diagram still decides it. -/
example : (Node.restrict odd 1 true).eval (fun x => decide (x = 3)) = true ∧
    (Node.restrict odd 1 true).eval (fun x => decide (x = 3 ∨ x = 1)) = false := by
  constructor
  · exact (restrict_routes odd 1 true _ true).2 ⟨[(1, true), (3, true), (1, false)],
      .high (.high (.low (.leaf true))), follows_here.2 ⟨rfl, by simp⟩⟩
  · exact (restrict_routes odd 1 true _ false).2 ⟨[(1, true), (3, true), (1, true)],
      .high (.high (.high (.leaf false))), follows_here.2 ⟨rfl, by simp⟩⟩

example : ∃ d, (Closet.new [(1, 0), (2, 0), (3, 1)] odd).selectItem 3 = .ok d ∧ d.root = Node.restrict odd 3 true := by
  obtain ⟨d, h1, _, h2, _⟩ := (select_routes (Closet.new [(1, 0), (2, 0), (3, 1)] odd) 3).2.2
    (by decide) (by
      rw [(status_routes _ odd 3).2.1]
      rintro ⟨_, h⟩
      have := (h [(1, true)] [(1, false)] true (.high (.high (.low (.leaf true))))).1
      simp at this)
  exact ⟨d, h1, h2⟩

/-- The completion follows the route that wears 1 and 3 and then does not wear 1. -/
example : (Closet.new [(1, 0), (2, 0), (3, 1)] odd).completeOutfit [] = some (.ok [1, 3]) := by
  obtain ⟨_, h⟩ := complete_routes (Closet.new [(1, 0), (2, 0), (3, 1)] odd) [] (by simp)
    (by rintro ⟨f, h⟩; simp at h) odd rfl
  obtain ⟨r, b, H, G, W⟩ := h (by simp [odd])
  have g : Greedy odd [(1, true), (3, true), (1, false)] := by
    intro p i v q e
    rcases p with _ | ⟨d, _ | ⟨d₂, _ | ⟨d₃, p⟩⟩⟩ <;> simp at e
    · obtain ⟨⟨rfl, rfl⟩, rfl⟩ := e
      simp [odd, route_branch, route_nil]
    · obtain ⟨rfl, ⟨rfl, rfl⟩, rfl⟩ := e
      simp [odd, route_branch, route_nil]
    · obtain ⟨rfl, rfl, ⟨rfl, rfl⟩, rfl⟩ := e
      simp [odd, route_branch, route_nil]
  rw [W, greedy_unique H G (.high (.high (.low (.leaf true)))) g]
  rfl

/-- One item whose two children are the false leaf: completed with a choice that is not accepted. -/
example : ∃ o, (Closet.new [(1, 0)] (.Branch 1 (.Leaf false) (.Leaf false)) : Closet Nat Nat).completeOutfit [] =
    some (.ok o) := by
  obtain ⟨r, b, o, _, _, h, _⟩ := complete_right_iff
    (Closet.new [(1, 0)] (.Branch 1 (.Leaf false) (.Leaf false)) : Closet Nat Nat)
    ⟨id, id, trivial, trivial⟩ (by simp [Closet.new])
  exact ⟨o, h⟩

end Verif.Bdd
