import Verif.Bdd.Props

/-!
# Serialization of single BDD nodes, and of closets from foreign data (C62, C63)

`Node` is public and `Serialize`/`Deserialize` by itself.  The written form keeps one item per depth,
so the round trip is exact on exactly the nodes that test one item per depth.
-/

set_option linter.unusedSimpArgs false
set_option linter.unusedSectionVars false

namespace Verif.Bdd
open Verif Spec Node

universe u v
variable {I : Type u} {F : Type v} [LinearOrder I] [LinearOrder F]

/-- The node tests item `x` at distance `d` from its root.  Not code: used to state or prove properties. -/
def Node.TestsAt : Node I → Nat → I → Prop
  | .Leaf _, _, _ => False
  | .Branch i _ _, 0, x => x = i
  | .Branch _ l h, d + 1, x => l.TestsAt d x ∨ h.TestsAt d x

/-- All branches at the same distance from the root test the same item.
Not code: used to state or prove properties. -/
def Node.OneItemPerDepth (n : Node I) : Prop :=
  ∀ d x y, n.TestsAt d x → n.TestsAt d y → x = y

/-- The node with the item at each depth looked up.  Not code: used to state or prove properties. -/
def Node.relabel (g : Nat → I) : Node I → Nat → Node I
  | .Leaf b, _ => .Leaf b
  | .Branch _ l h, d => .Branch (g d) (l.relabel g (d + 1)) (h.relabel g (d + 1))

theorem content_lookup (n : Node I) (c : List (Nat × I)) (d : Nat) (hk : KeysLt c) :
    KeysLt (toContent n c d) ∧
    (∀ k, (∃ x, d ≤ k ∧ n.TestsAt (k - d) x ∧ lookup k (toContent n c d) = some x) ∨
      ((d ≤ k → ∀ x, ¬ n.TestsAt (k - d) x) ∧ lookup k (toContent n c d) = lookup k c)) := by
  induction n generalizing c d with
  | Leaf b => exact ⟨hk, fun k => Or.inr ⟨fun _ x h => h, rfl⟩⟩
  | Branch i l h ihl ihh =>
    have hk0 : KeysLt (insertKV d i c) := keysLt_upsert hk
    obtain ⟨k1, a1⟩ := ihl (insertKV d i c) (d + 1) hk0
    obtain ⟨k2, a2⟩ := ihh (toContent l (insertKV d i c) (d + 1)) (d + 1) k1
    refine ⟨k2, fun k => ?_⟩
    simp only [toContent]
    have hd : ∀ k, d + 1 ≤ k → k - d = (k - (d + 1)) + 1 := by intro k hk; omega
    rcases a2 k with ⟨x, h1, h2, h3⟩ | ⟨h1, h2⟩
    · exact Or.inl ⟨x, by omega, by rw [hd k h1]; exact Or.inr h2, h3⟩
    · rw [h2]
      rcases a1 k with ⟨x, h3, h4, h5⟩ | ⟨h3, h4⟩
      · exact Or.inl ⟨x, by omega, by rw [hd k h3]; exact Or.inl h4, h5⟩
      · rw [h4, insertKV, lookup_upsert hk]
        by_cases e : k = d
        · subst e
          exact Or.inl ⟨i, le_refl _, by simp [TestsAt], by simp⟩
        · right
          refine ⟨fun hle x ht => ?_, by simp [e]⟩
          rw [hd k (by omega)] at ht
          rcases ht with ht | ht
          · exact h3 (by omega) x ht
          · exact h1 (by omega) x ht

theorem toNode_relabel {n : Node I} {d : Nat} {c : List (Nat × I)} {g : Nat → I}
    (h : ∀ e x, n.TestsAt e x → lookup (d + e) c = some (g (d + e))) :
    toNode (toStructure n d) c = some (n.relabel g d) := by
  induction n generalizing d with
  | Leaf b => cases b <;> rfl
  | Branch i l hh ihl ihh =>
    have e0 : lookup d c = some (g d) := h 0 i rfl
    have e1 := ihl (d := d + 1) (fun e x ht => by
      have := h (e + 1) x (Or.inl ht); rwa [show d + (e + 1) = d + 1 + e by omega] at this)
    have e2 := ihh (d := d + 1) (fun e x ht => by
      have := h (e + 1) x (Or.inr ht); rwa [show d + (e + 1) = d + 1 + e by omega] at this)
    simp only [toStructure]
    split_ifs with hf hf'
    · obtain rfl := toStructure_false.1 hf; simp [toNode, e0, e2, relabel, FALSE_LEAF]
    · obtain rfl := toStructure_false.1 hf'; simp [toNode, e0, e1, relabel, FALSE_LEAF]
    · simp [toNode, e0, e1, e2, relabel]

theorem relabel_shape (g : Nat → I) (n : Node I) (d : Nat) :
    (n.relabel g d).rename (fun _ => ()) = n.rename (fun _ => ()) := by
  induction n generalizing d with
  | Leaf b => rfl
  | Branch i l h ihl ihh => simp only [relabel, rename, ihl, ihh]

theorem relabel_testsAt (g : Nat → I) (n : Node I) (d e : Nat) (x : I) :
    (n.relabel g d).TestsAt e x ↔ x = g (d + e) ∧ ∃ y, n.TestsAt e y := by
  induction n generalizing d e with
  | Leaf b => simp [relabel, TestsAt]
  | Branch i l h ihl ihh =>
    cases e with
    | zero => simp [relabel, TestsAt]
    | succ e =>
      simp only [relabel, TestsAt, ihl, ihh, show d + 1 + e = d + (e + 1) by omega]
      constructor
      · rintro (⟨rfl, y, hy⟩ | ⟨rfl, y, hy⟩)
        · exact ⟨rfl, y, Or.inl hy⟩
        · exact ⟨rfl, y, Or.inr hy⟩
      · rintro ⟨rfl, y, hy | hy⟩
        · exact Or.inl ⟨rfl, y, hy⟩
        · exact Or.inr ⟨rfl, y, hy⟩

theorem relabel_eq {g : Nat → I} {n : Node I} {d : Nat} (h : ∀ e x, n.TestsAt e x → x = g (d + e)) :
    n.relabel g d = n := by
  induction n generalizing d with
  | Leaf b => rfl
  | Branch i l hh ihl ihh =>
    have h0 : i = g d := h 0 i rfl
    simp only [relabel, ← h0]
    rw [ihl (fun e x ht => by
        have := h (e + 1) x (Or.inl ht); rwa [show d + (e + 1) = d + 1 + e by omega] at this),
      ihh (fun e x ht => by
        have := h (e + 1) x (Or.inr ht); rwa [show d + (e + 1) = d + 1 + e by omega] at this)]

/-- C62: writing and reading back a node never panics.  The result has the same shape and at each depth
tests one of the items the original tested there; it is the original node exactly if that tested one
item per depth.  (The full claim, without that condition, is refuted by `node_roundtrip_wrong`.) -/
theorem node_roundtrip_partial (n : Node I) :
    ∃ m, deserializeNode (serializeNode n) = some m ∧
      m.rename (fun _ => ()) = n.rename (fun _ => ()) ∧
      m.OneItemPerDepth ∧ (∀ d x, m.TestsAt d x → n.TestsAt d x) ∧
      (m = n ↔ n.OneItemPerDepth) := by
  obtain ⟨_, hc⟩ := content_lookup n [] 0 (by simp [KeysLt])
  have hex : ∀ k, ∃ v : Option I, ∀ x, lookup k (toContent n [] 0) = some x → v = some x :=
    fun k => ⟨lookup k (toContent n [] 0), fun x hx => hx⟩
  cases n with
  | Leaf b =>
    refine ⟨.Leaf b, by cases b <;> rfl, rfl, fun d x y h => h.elim, fun d x h => h.elim, ?_⟩
    exact ⟨fun _ d x y h => h.elim, fun _ => rfl⟩
  | Branch i l h =>
    generalize hn : Node.Branch i l h = n at hc ⊢
    let g : Nat → I := fun k => (lookup k (toContent n [] 0)).getD i
    have hg : ∀ e x, n.TestsAt e x → n.TestsAt e (g e) ∧ lookup e (toContent n [] 0) = some (g e) := by
      intro e x ht
      rcases hc e with ⟨y, _, h2, h3⟩ | ⟨h1, _⟩
      · have : g e = y := by simp [g, h3]
        rw [this]; exact ⟨by simpa using h2, h3⟩
      · exact absurd (by simpa using ht) (h1 (Nat.zero_le _) x)
    have hr := toNode_relabel (n := n) (d := 0) (c := toContent n [] 0) (g := g)
      (fun e x ht => by simpa using (hg e x ht).2)
    refine ⟨_, hr, relabel_shape _ _ _, ?_, ?_, ?_⟩
    · intro d x y hx hy
      rw [relabel_testsAt] at hx hy
      rw [hx.1, hy.1]
    · intro d x hx
      rw [relabel_testsAt] at hx
      obtain ⟨rfl, y, hy⟩ := hx
      simpa using (hg d y hy).1
    · constructor
      · intro e
        rw [← e]
        intro d x y hx hy
        rw [relabel_testsAt] at hx hy
        rw [hx.1, hy.1]
      · intro ho
        exact relabel_eq (fun e x ht => by simpa using ho e x _ ht (hg e x ht).1)

/-- The condition is met by `1 ∧ 2` and fails for the multiplexer `if 1 then 3 else 2`. -/
example : andNode.OneItemPerDepth ∧
    ¬ (Node.Branch 1 (.Branch 2 (.Leaf false) (.Leaf true)) (.Branch 3 (.Leaf false) (.Leaf true)) :
      Node Nat).OneItemPerDepth := by
  constructor
  · intro d x y hx hy
    match d with
    | 0 => simp [andNode, TestsAt] at hx hy; omega
    | 1 => simp [andNode, TestsAt] at hx hy; omega
    | d + 2 => simp [andNode, TestsAt] at hx
  · intro h
    have := h 1 2 3 (by simp [TestsAt]) (by simp [TestsAt])
    omega

/-- C63: reading never panics exactly if every depth used by the structure has an item; nothing checks
this, so foreign data can panic during reading. -/
theorem foreign_closet_panics : ∃ d : ClosetData Nat Nat, deserializeCloset d = none :=
  ⟨⟨[], [], (.Required 0 (.Outcome true), [])⟩, rfl⟩

/-- The depths a written structure refers to.  Not code: used to state or prove properties. -/
def Structure.Uses : Structure → Nat → Prop
  | .Outcome _, _ => False
  | .Required d h, k => k = d ∨ h.Uses k
  | .Excluded d l, k => k = d ∨ l.Uses k
  | .Available d l h, k => k = d ∨ l.Uses k ∨ h.Uses k

/-- C63 (proved part): reading a closet succeeds exactly if each depth its structure uses has an item in
the written content.  Missing for the full property: nothing rejects other data, it panics. -/
theorem closet_read_iff_partial (d : ClosetData I F) :
    (∃ c, deserializeCloset d = some c) ↔
      ∀ k, d.root.1.Uses k → ∃ x, lookup k d.root.2 = some x := by
  have key : ∀ (s : Structure) (c : List (Nat × I)),
      (∃ n, toNode s c = some n) ↔ ∀ k, s.Uses k → ∃ x, lookup k c = some x := by
    intro s c
    induction s with
    | Outcome b => cases b <;> simp [toNode, Structure.Uses]
    | Required d h ih =>
      simp only [toNode, Structure.Uses]
      cases hl : lookup d c with
      | none => simp only [reduceCtorEq, exists_false, false_iff]; intro hh; have := hh d (Or.inl rfl); simp [hl] at this
      | some x =>
        constructor
        · rintro ⟨n, hn⟩ k (rfl | hk)
          · exact ⟨x, hl⟩
          · refine ih.1 ?_ k hk
            cases ht : toNode h c with
            | none => simp [ht] at hn
            | some m => exact ⟨m, rfl⟩
        · intro hh
          obtain ⟨m, hm⟩ := ih.2 (fun k hk => hh k (Or.inr hk))
          exact ⟨_, by simp [hm]; rfl⟩
    | Excluded d h ih =>
      simp only [toNode, Structure.Uses]
      cases hl : lookup d c with
      | none => simp only [reduceCtorEq, exists_false, false_iff]; intro hh; have := hh d (Or.inl rfl); simp [hl] at this
      | some x =>
        constructor
        · rintro ⟨n, hn⟩ k (rfl | hk)
          · exact ⟨x, hl⟩
          · refine ih.1 ?_ k hk
            cases ht : toNode h c with
            | none => simp [ht] at hn
            | some m => exact ⟨m, rfl⟩
        · intro hh
          obtain ⟨m, hm⟩ := ih.2 (fun k hk => hh k (Or.inr hk))
          exact ⟨_, by simp [hm]; rfl⟩
    | Available d l h ihl ihh =>
      simp only [toNode, Structure.Uses]
      cases hl : lookup d c with
      | none => simp only [reduceCtorEq, exists_false, false_iff]; intro hh; have := hh d (Or.inl rfl); simp [hl] at this
      | some x =>
        constructor
        · rintro ⟨n, hn⟩ k (rfl | hk | hk)
          · exact ⟨x, hl⟩
          · refine ihl.1 ?_ k hk
            cases ht : toNode l c with
            | none => simp [ht] at hn
            | some m => exact ⟨m, rfl⟩
          · refine ihh.1 ?_ k hk
            cases ht : toNode h c with
            | none => cases h2 : toNode l c <;> simp [ht, h2] at hn
            | some m => exact ⟨m, rfl⟩
        · intro hh
          obtain ⟨m, hm⟩ := ihl.2 (fun k hk => hh k (Or.inr (Or.inl hk)))
          obtain ⟨m', hm'⟩ := ihh.2 (fun k hk => hh k (Or.inr (Or.inr hk)))
          exact ⟨_, by simp [hm, hm']; rfl⟩
  rw [← key d.root.1 d.root.2]
  simp only [deserializeCloset, deserializeNode, Option.map_eq_some_iff]
  constructor
  · rintro ⟨c, n, hn, _⟩; exact ⟨n, hn⟩
  · rintro ⟨n, hn⟩; exact ⟨_, n, hn, rfl⟩

end Verif.Bdd
