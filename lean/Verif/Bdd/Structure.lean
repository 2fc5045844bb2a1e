import Verif.Bdd.Selecting

/-!
# Model of node serialization (bowtie-core/src/bdd/node/structure.rs, serialize.rs) and
`hash_structure`
-/

set_option linter.unusedSimpArgs false
set_option linter.unusedSectionVars false

namespace Verif.Bdd
open Verif Spec Node

universe u v
variable {I : Type u} {F : Type v}

/-- bowtie-core/src/bdd/node/structure.rs:5-11 -/
inductive Structure where
  | Available (depth : Nat) (low high : Structure)
  | Required (depth : Nat) (high : Structure)
  | Excluded (depth : Nat) (low : Structure)
  | Outcome (val : Bool)
deriving DecidableEq

/-- structure.rs:46-65 -/
def toStructure : Node I → Nat → Structure
  | .Leaf val, _ => .Outcome val
  | .Branch _ low high, depth =>
    let low := toStructure low (depth + 1)
    let high := toStructure high (depth + 1)
    if .Outcome false = low then .Required depth high
    else if .Outcome false = high then .Excluded depth low
    else .Available depth low high

/-- structure.rs:67 `Content = BTreeMap<usize, Item>`; structure.rs:83-93 -/
def toContent : Node I → List (Nat × I) → Nat → List (Nat × I)
  | .Leaf _, content, _ => content
  | .Branch id low high, content, depth =>
    let content := insertKV depth id content
    let content := toContent low content (depth + 1)
    toContent high content (depth + 1)

/-- structure.rs:101-128; `none` is the panic of `.expect("expected")`. -/
def toNode : Structure → List (Nat × I) → Option (Node I)
  | .Outcome true, _ => some TRUE_LEAF
  | .Outcome false, _ => some FALSE_LEAF
  | .Required depth high, content =>
    match lookup depth content with
    | none => none
    | some item => (toNode high content).map (fun high => .Branch item FALSE_LEAF high)
  | .Excluded depth low, content =>
    match lookup depth content with
    | none => none
    | some item => (toNode low content).map (fun low => .Branch item low FALSE_LEAF)
  | .Available depth low high, content =>
    match lookup depth content with
    | none => none
    | some item =>
      match toNode low content, toNode high content with
      | some low, some high => some (.Branch item low high)
      | _, _ => none

/-- serialize.rs:8-18: the two fields written for a node. -/
def serializeNode (n : Node I) : Structure × List (Nat × I) := (toStructure n 0, toContent n [] 0)

/-- serialize.rs:22-74 with structure.rs:95-99: a node is rebuilt from the two fields. -/
def deserializeNode (d : Structure × List (Nat × I)) : Option (Node I) := toNode d.1 d.2

/-- What derived `Serialize` writes for a closet (bdd/closet/mod.rs:12-17): its three fields.  The
concrete data format (JSON, ...) and serde itself are not modelled. -/
structure ClosetData (I : Type u) (F : Type v) where
  itemIndex : List (I × F)
  summary : List (Status I)
  root : Structure × List (Nat × I)

/-- Derived `Serialize` for `Closet`, bdd/closet/mod.rs:12-17. -/
def serializeCloset (c : Closet I F) : ClosetData I F :=
  { itemIndex := c.itemIndex, summary := c.summary, root := serializeNode c.root }

/-- Derived `Deserialize` for `Closet`, bdd/closet/mod.rs:12-17; `none` is a panic. -/
def deserializeCloset (d : ClosetData I F) : Option (Closet I F) :=
  (deserializeNode d.root).map (fun r => { itemIndex := d.itemIndex, summary := d.summary, root := r })

/-- bowtie-core/src/bdd/node/hash_structure.rs:5-27.  The hasher is a parameter: `leaf b` is the hex
digest of a leaf, `pair s t` the hex digest after feeding the two child digests. -/
def hashStructure {H : Type v} (leaf : Bool → H) (pair : H → H → H) : Node I → H
  | .Leaf b => leaf b
  | .Branch _ low high => pair (hashStructure leaf pair low) (hashStructure leaf pair high)

/-! ### Lemmas -/

theorem toStructure_false {n : Node I} {d : Nat} :
    Structure.Outcome false = toStructure n d ↔ n = .Leaf false := by
  cases n with
  | Leaf b => cases b <;> simp [toStructure]
  | Branch i l h =>
    simp only [toStructure]
    split_ifs <;> simp

/-- Every level of the node has an entry.  Not code: used to state or prove properties. -/
def Covers (content : List (Nat × I)) : Node I → Nat → Prop
  | .Leaf _, _ => True
  | .Branch _ l h, d => (lookup d content).isSome ∧ Covers content l (d + 1) ∧
      Covers content h (d + 1)

theorem Covers.mono {c c' : List (Nat × I)} (h : ∀ k, (lookup k c).isSome → (lookup k c').isSome)
    {n : Node I} {d : Nat} (hc : Covers c n d) : Covers c' n d := by
  induction n generalizing d with
  | Leaf b => trivial
  | Branch i l hi ihl ihh => exact ⟨h _ hc.1, ihl hc.2.1, ihh hc.2.2⟩

theorem toContent_spec {S : List I} {n : Node I} {d : Nat} {c : List (Nat × I)}
    (hl : Lvl (S.drop d) n) (hk : KeysLt c) (ha : ∀ k v, lookup k c = some v → S[k]? = some v) :
    KeysLt (toContent n c d) ∧ (∀ k v, lookup k (toContent n c d) = some v → S[k]? = some v) ∧
      (∀ k, (lookup k c).isSome → (lookup k (toContent n c d)).isSome) ∧
      Covers (toContent n c d) n d := by
  induction n generalizing d c with
  | Leaf b => exact ⟨hk, ha, fun _ h => h, trivial⟩
  | Branch i l h ihl ihh =>
    cases hS : S.drop d with
    | nil => rw [hS] at hl; exact hl.elim
    | cons x s =>
      rw [hS] at hl
      obtain ⟨rfl, h1, h2⟩ := hl
      have hs : s = S.drop (d + 1) := by
        rw [← List.tail_drop, hS]; rfl
      have hx : S[d]? = some i := by
        have := List.getElem?_drop (xs := S) (i := d) (j := 0)
        rw [hS] at this; simpa using this.symm
      subst hs
      simp only [toContent]
      have hk0 : KeysLt (insertKV d i c) := keysLt_upsert hk
      have hl0 : ∀ k, lookup k (insertKV d i c) = if k = d then some i else lookup k c := by
        intro k; rw [insertKV, lookup_upsert hk]
      have ha0 : ∀ k v, lookup k (insertKV d i c) = some v → S[k]? = some v := by
        intro k v hv
        rw [hl0] at hv
        split_ifs at hv with e
        · subst e; rw [hx]; exact hv
        · exact ha k v hv
      obtain ⟨k1, a1, m1, c1⟩ := ihl (d := d + 1) h1 hk0 ha0
      obtain ⟨k2, a2, m2, c2⟩ := ihh (d := d + 1) h2 k1 a1
      refine ⟨k2, a2, ?_, ?_, c1.mono m2, c2⟩
      · intro k hkk
        apply m2; apply m1; rw [hl0]; split_ifs
        · rfl
        · exact hkk
      · apply m2; apply m1; rw [hl0]; simp

theorem toNode_spec {S : List I} {n : Node I} {d : Nat} {c : List (Nat × I)}
    (hl : Lvl (S.drop d) n) (ha : ∀ k v, lookup k c = some v → S[k]? = some v)
    (hc : Covers c n d) : toNode (toStructure n d) c = some n := by
  induction n generalizing d with
  | Leaf b => cases b <;> rfl
  | Branch i l h ihl ihh =>
    cases hS : S.drop d with
    | nil => rw [hS] at hl; exact hl.elim
    | cons x s =>
      rw [hS] at hl
      obtain ⟨rfl, h1, h2⟩ := hl
      have hs : s = S.drop (d + 1) := by
        rw [← List.tail_drop, hS]; rfl
      have hx : S[d]? = some i := by
        have := List.getElem?_drop (xs := S) (i := d) (j := 0)
        rw [hS] at this; simpa using this.symm
      subst hs
      have hd : lookup d c = some i := by
        obtain ⟨v, hv⟩ := Option.isSome_iff_exists.1 hc.1
        rw [hv]
        have := ha d v hv
        rw [hx] at this; exact this.symm
      have e1 := ihl h1 hc.2.1
      have e2 := ihh h2 hc.2.2
      simp only [toStructure]
      split_ifs with hf hf'
      · obtain rfl := toStructure_false.1 hf; simp [toNode, hd, e2]
      · obtain rfl := toStructure_false.1 hf'; simp [toNode, hd, e1]
      · simp [toNode, hd, e1, e2]

theorem roundtrip_of_lvl {S : List I} {n : Node I} (hl : Lvl S n) :
    deserializeNode (serializeNode n) = some n := by
  obtain ⟨_, h2, _, h4⟩ := toContent_spec (S := S) (n := n) (d := 0) (c := [])
    (by simpa using hl) List.Pairwise.nil (by simp [lookup])
  exact toNode_spec (S := S) (by simpa using hl) h2 h4

end Verif.Bdd
