import Verif.Text
import Verif.Zdd1.Ops

/-!
# Model of v1 node text and tree serialization, and properties C35, C61
-/

set_option linter.unusedSimpArgs false
set_option linter.unusedVariables false
set_option linter.unusedSectionVars false

namespace Verif.Zdd1
open Verif Verif.Spec Verif.Text

universe u
variable {T : Type u} [LinearOrder T]

namespace Node

/-- weave/src/zdd/node/parser.rs:9-20 (constants: 6-7) -/
def buildNodeString : Node → List Char
  | .Leaf true => ['(', 'T', ')']
  | .Leaf false => ['(', 'F', ')']
  | .Branch id low high => branchText id (buildNodeString low) (buildNodeString high)

/-- The grammar of weave/src/zdd/node/parser.rs:36-50; `Node::branch` does not normalise. -/
def grammar : Grammar Node := ⟨['(', 'T', ')'], .Leaf true, ['(', 'F', ')'], .Leaf false, branch⟩

/-- weave/src/zdd/node/parser.rs:22-25; the text is not trimmed. -/
def parseNodeString (text : List Char) : Option Node := parseWith grammar text

theorem grammar_ok : grammar.Ok 'T' 'F' :=
  ⟨rfl, rfl, by decide, by decide, by decide, by decide, by decide⟩

/-- Every id fits a `usize` (true of every node a program can hold).  Not code: used to state or prove properties. -/
def Fits (n : Node) : Prop := n.Ids (fun i => i < usizeBound)

theorem reads_build (n : Node) (hf : n.Fits) : Reads grammar (buildNodeString n) n := by
  induction n with
  | Leaf b => cases b; exacts [.leaf0, .leaf1]
  | Branch i l h ihl ihh =>
    have sp1 : ∀ c ∈ [' '], isSp c = true := by decide
    have R := Reads.branch (g := grammar) (w1 := []) (ds := dec i) (w2 := [' ']) (w3 := [' ']) (w4 := [])
      (by simp) sp1 sp1 (by simp) (dec_ne_nil i) (dec_digits i)
      (by rw [value, dec_value]; exact hf.1) (ihl hf.2.1) (ihh hf.2.2)
    rw [value, dec_value] at R
    have e : grammar.branch i l h = Branch i l h := rfl
    rw [e] at R
    simpa [buildNodeString, branchText] using R

end Node

open Node

/-! ## C35 -/

/-- C35: reading back the text written for any node gives that node, ordered or not. -/
theorem node_text_roundtrip {n : Node} (hf : n.Fits) : parseNodeString (buildNodeString n) = some n :=
  (parseWith_iff grammar_ok).mpr ⟨_, [], (List.append_nil _).symm, reads_build n hf⟩

/-- C35: different nodes are written differently. -/
theorem node_text_injective {n m : Node} (hn : n.Fits) (hm : m.Fits)
    (h : buildNodeString n = buildNodeString m) : n = m := by
  have h1 := node_text_roundtrip hn
  rw [h, node_text_roundtrip hm] at h1
  exact (Option.some.inj h1).symm

/-- C35: reading succeeds exactly on the texts that begin with a text of a node as described by
`Verif.Text.Reads`, and returns the node described. -/
theorem parse_iff {text : List Char} {n : Node} :
    parseNodeString text = some n ↔ ∃ t r, text = t ++ r ∧ Reads grammar t n :=
  parseWith_iff grammar_ok

example : (Node.Branch 3 (.Leaf true) (.Branch 1 (.Leaf false) (.Leaf false))).Fits := by
  refine ⟨?_, trivial, ?_, trivial, trivial⟩ <;> decide

example : Reads grammar "(  0 (T)   \n             (F) \t )".toList (.Branch 0 (.Leaf true) (.Leaf false)) :=
  .branch (w1 := [' ', ' ']) (ds := ['0']) (w2 := [' ']) (a := ['(', 'T', ')'])
    (w3 := "   \n             ".toList) (b := ['(', 'F', ')']) (w4 := [' ', '\t', ' '])
    (by decide) (by decide) (by decide) (by decide) (by decide) (by decide) (by decide) .leaf1 .leaf0

/-! ## C61 tree serialization -/

/-- What the derived `Serialize` for `Tree` writes (weave/src/zdd/tree/mod.rs:26-30, universe.rs:11-16):
the node text, the items, and the item index as an ordered map. -/
structure TreeData (T : Type u) where
  root : List Char
  items : List T
  itemIndex : List (T × Nat)

/-- weave/src/zdd/tree/universe.rs:18-21 (`ordered_map`) and the derived serialization; `e` is the order
in which the hash map is visited. -/
def serializeTree (t : Tree T) (e : List (T × Nat)) : TreeData T :=
  ⟨buildNodeString t.root, t.univ.items, e.foldl (fun m p => insertKV p.1 p.2 m) []⟩

/-- The derived `Deserialize`: the map entries are inserted one after the other into a hash map.
weave/src/zdd/tree/mod.rs:26-30, weave/src/zdd/node/serialize.rs, weave/src/zdd/tree/universe.rs:10-21. -/
def deserializeTree (d : TreeData T) : Option (Tree T) :=
  (parseNodeString d.root).map
    (fun r => ⟨r, ⟨d.items, d.itemIndex.foldl (fun m p => insertKV p.1 p.2 m) []⟩⟩)

theorem collect_perm {e m : List (T × Nat)} (hm : KeysLt m) (he : e.Perm m) :
    e.foldl (fun m p => insertKV p.1 p.2 m) [] = m := by
  refine smap_ext (keysLt_collect _ _ List.Pairwise.nil) hm fun x => ?_
  by_cases hx : x ∈ e.map Prod.fst
  · obtain ⟨v, hv, e'⟩ := lookup_collect_of_mem e [] List.Pairwise.nil hx
    rw [e', eq_comm, lookup_eq_some hm]
    exact he.mem_iff.mp hv
  · rw [lookup_collect_of_notMem e [] List.Pairwise.nil hx, eq_comm]
    simp only [lookup]
    rw [lookup_eq_none]
    intro h; exact hx ((he.map _).mem_iff.mpr h)

/-- C61: a tree over a universe built from a list is read back equal (`==`, same root and same
universe), whatever order its hash map is visited in. -/
theorem tree_roundtrip {items : List T} (hlen : items.length ≤ 2 ^ 64) {t : Tree T}
    (ht : Built (fun _ => True) items t) {e : List (T × Nat)} (he : e.Perm t.univ.itemIndex) :
    deserializeTree (serializeTree t e) = some t := by
  have hf : t.root.Fits := ht.ids.mono fun i hi => by
    obtain ⟨x, hx, _⟩ := Universe.known_get hi
    have := List.getElem?_eq_some_iff.mp hx
    obtain ⟨h, _⟩ := this
    show i < 2 ^ 64
    omega
  have hk : KeysLt t.univ.itemIndex := by rw [ht.univ_eq]; exact Universe.keysLt_index items
  rw [deserializeTree, serializeTree]
  simp only [node_text_roundtrip hf, Option.map_some, collect_perm hk he, collect_perm hk (List.Perm.refl _)]

/-- C61: the written data does not depend on the hash order. -/
theorem serialize_deterministic {items : List T} {t : Tree T} (ht : Built (fun _ => True) items t)
    {e e' : List (T × Nat)} (he : e.Perm t.univ.itemIndex) (he' : e'.Perm t.univ.itemIndex) :
    serializeTree t e = serializeTree t e' := by
  have hk : KeysLt t.univ.itemIndex := by rw [ht.univ_eq]; exact Universe.keysLt_index items
  rw [serializeTree, serializeTree, collect_perm hk he, collect_perm hk he']

/-- C61: the same holds for a tree whose operands came from different universes, as long as its ids fit
a `usize` (they always do) and its own universe was built from a list. -/
theorem tree_roundtrip_any {items : List T} {t : Tree T} (hu : t.univ = Universe.fromVec items)
    (hf : t.root.Fits) {e : List (T × Nat)} (he : e.Perm t.univ.itemIndex) :
    deserializeTree (serializeTree t e) = some t := by
  have hk : KeysLt t.univ.itemIndex := by rw [hu]; exact Universe.keysLt_index items
  rw [deserializeTree, serializeTree]
  simp only [node_text_roundtrip hf, Option.map_some, collect_perm hk he, collect_perm hk (List.Perm.refl _)]

example := tree_roundtrip_any (items := [1, 2, 1]) (t := (Universe.fromVec [1, 2, 1]).tree [2, 1]) rfl
  (by rw [show ((Universe.fromVec [1, 2, 1]).tree [2, 1]).root = .Branch 1 (.Leaf false) (.Branch 2 (.Leaf false) (.Leaf true))
        by decide +kernel]
      simp [Node.Fits, Node.Ids, usizeBound]) (List.reverse_perm _)

end Verif.Zdd1
