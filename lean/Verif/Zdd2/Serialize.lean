import Verif.Text
import Verif.Zdd2.UniverseProps

/-!
# Model of zdd2 serialization and `Debug`, and properties C26, C27, C47 (Debug), C58
-/

set_option linter.unusedSimpArgs false
set_option linter.unusedVariables false
set_option linter.unusedSectionVars false

namespace Verif.Zdd2
open Verif Verif.Spec Verif.Zdd2.Spec Verif.Text

universe u
variable {T : Type u} [LinearOrder T]

namespace Node

/-- weave/src/zdd2/forest/node/parser.rs:12-23 (constants: 9-10) -/
def buildNodeString : Node → List Char
  | .Always => ['(', 'A', ')']
  | .Never => ['(', 'N', ')']
  | .Branch id low high => branchText id (buildNodeString low) (buildNodeString high)

/-- The grammar of weave/src/zdd2/forest/node/parser.rs:39-53; nodes are built by `Node::branch`. -/
def grammar : Grammar Node := ⟨['(', 'A', ')'], .Always, ['(', 'N', ')'], .Never, branch⟩

/-- weave/src/zdd2/forest/node/parser.rs:25-28 -/
def parseNodeString (text : List Char) : Option Node := parseWith grammar (trim text)

/-- Every id fits a `usize`.  Not code: used to state or prove properties. -/
def Fits : Node → Prop
  | .Branch i l h => i < usizeBound ∧ l.Fits ∧ h.Fits
  | _ => True

/-- Not code: used to state or prove properties. -/
def height : Node → Nat
  | .Branch _ l h => 1 + max l.height h.height
  | _ => 1

theorem build_paren (n : Node) : ∃ t, buildNodeString n = '(' :: (t ++ [')']) := by
  cases n with
  | Always => exact ⟨['A'], rfl⟩
  | Never => exact ⟨['N'], rfl⟩
  | Branch i l h =>
    exact ⟨dec i ++ ' ' :: (buildNodeString l ++ ' ' :: buildNodeString h), by
      simp [buildNodeString, branchText]⟩

theorem build_open (n : Node) : ∃ t, buildNodeString n = '(' :: t := by
  obtain ⟨t, h⟩ := build_paren n; exact ⟨_, h⟩

theorem height_le (n : Node) : n.height ≤ (buildNodeString n).length := by
  induction n with
  | Always => simp [height, buildNodeString]
  | Never => simp [height, buildNodeString]
  | Branch i l h ihl ihh =>
    simp only [height, buildNodeString, branchText, List.length_cons, List.length_append]
    omega

theorem tag_branch (c : Char) (hc : isDigit c = false) (i : Nat) (a b r : List Char) :
    tag ['(', c, ')'] (branchText i a b ++ r) = none := by
  have hd := dec_digits i
  cases hl : dec i with
  | nil => exact absurd hl (dec_ne_nil i)
  | cons d ds =>
    have h1 := hd d (by simp [hl])
    have : c ≠ d := by rintro rfl; rw [h1] at hc; simp at hc
    simp [branchText, hl, tag, this]

theorem node_build (n : Node) (o : n.Ordered) (hf : n.Fits) :
    ∀ k, n.height ≤ k → ∀ r, node grammar k (buildNodeString n ++ r) = some (n, r) := by
  induction n with
  | Always =>
    intro k hk r
    cases k with
    | zero => simp [height] at hk
    | succ k => simp [node, buildNodeString, grammar, tag]
  | Never =>
    intro k hk r
    cases k with
    | zero => simp [height] at hk
    | succ k => simp [node, buildNodeString, grammar, tag]
  | Branch i l h ihl ihh =>
    intro k hk r
    cases k with
    | zero => simp [height] at hk
    | succ k =>
      simp only [height] at hk
      have := node_branchText grammar k i hf.1 (a := buildNodeString l) (b := buildNodeString h)
        (low := l) (high := h) r (tag_branch 'A' (by decide) i _ _) (tag_branch 'N' (by decide) i _ _)
        (build_open l) (build_open h) (ihl o.2.2.2.1 hf.2.1 k (by omega))
        (ihh o.2.2.2.2 hf.2.2 k (by omega))
      rw [buildNodeString, this]
      simp [grammar, branch_plain o.1 o.2.1 o.2.2.1]

theorem node_ordered (k : Nat) : ∀ l n r, node grammar k l = some (n, r) → n.Ordered := by
  induction k with
  | zero => simp [node]
  | succ k ih =>
    intro l n r h
    rw [node] at h
    split at h
    · simp [grammar] at h; rw [← h.1]; trivial
    split at h
    · simp [grammar] at h; rw [← h.1]; trivial
    split at h
    · simp at h
    rename_i r1 e1
    split at h
    · simp at h
    rename_i id r2 e2
    split at h
    · simp at h
    rename_i low r3 e3
    split at h
    · simp at h
    rename_i high r4 e4
    split at h
    · simp at h
    simp only [Option.some.injEq, Prod.mk.injEq] at h
    have w : ∀ {l' : List Char} {m : Node} {r' : List Char},
        ws (node grammar k) l' = some (m, r') → m.Ordered := by
      intro l' m r' h'
      unfold ws at h'
      cases e : node grammar k (sp l') with
      | none => simp [e] at h'
      | some x =>
        simp only [e, Option.map_some, Option.some.injEq, Prod.mk.injEq] at h'
        rw [← h'.1]; exact ih _ x.1 x.2 e
    rw [← h.1]
    exact (branch_ok id low high (w e3) (w e4)).1

end Node

open Node

/-! ## C26 node text -/

/-- C26: reading back the text written for a well-formed node gives that node. -/
theorem node_text_roundtrip {n : Node} (o : n.Ordered) (hf : n.Fits) :
    parseNodeString (buildNodeString n) = some n := by
  obtain ⟨t, ht⟩ := build_paren n
  have : trim (buildNodeString n) = buildNodeString n := by rw [ht]; exact trim_paren t
  unfold parseNodeString parseWith
  rw [this]
  have h := node_build n o hf ((buildNodeString n).length + 1) (by have := height_le n; omega) []
  rw [List.append_nil] at h
  rw [h]; rfl

example := node_text_roundtrip (n := .Branch 0 (.Branch 2 .Never .Always) .Always)
  (by simp [Node.Ordered, Node.Above]) (by simp [Node.Fits, usizeBound])

/-- C26: different well-formed nodes are written differently. -/
theorem node_text_injective {n m : Node} (on : n.Ordered) (om : m.Ordered) (hn : n.Fits) (hm : m.Fits)
    (h : buildNodeString n = buildNodeString m) : n = m := by
  have h1 := node_text_roundtrip on hn
  rw [h, node_text_roundtrip om hm] at h1
  exact (Option.some.inj h1).symm

example := node_text_injective (n := .Branch 0 (.Branch 2 .Never .Always) .Always)
  (m := .Branch 0 (.Branch 3 .Never .Always) .Always)
  (by simp [Node.Ordered, Node.Above]) (by simp [Node.Ordered, Node.Above])
  (by simp [Node.Fits, usizeBound]) (by simp [Node.Fits, usizeBound])

/-- C26: whatever the text, a node that is read is ordered and zero-suppressed. -/
theorem parsed_ordered {text : List Char} {n : Node} (h : parseNodeString text = some n) :
    n.Ordered := by
  unfold parseNodeString parseWith at h
  cases e : node grammar ((trim text).length + 1) (trim text) with
  | none => simp [e] at h
  | some x =>
    simp only [e, Option.map_some, Option.some.injEq] at h
    rw [← h]; exact node_ordered _ _ x.1 x.2 e

example := parsed_ordered (text := "(1 (0 (N) (A)) (A))".toList) (n := _) rfl

/-- C26: reading succeeds exactly on the texts that, once trimmed, begin with a text of a node as
described by `Verif.Text.Reads`, and returns the node described. -/
theorem parse_iff {text : List Char} {n : Node} :
    parseNodeString text = some n ↔ ∃ t r, trim text = t ++ r ∧ Reads grammar t n :=
  parseWith_iff (c1 := 'A') (c0 := 'N') ⟨rfl, rfl, by decide, by decide, by decide, by decide, by decide⟩

/-- C26: white space around a text is ignored when reading. -/
theorem parse_white (a b text : List Char) (ha : ∀ c ∈ a, c ∈ whiteSpace) (hb : ∀ c ∈ b, c ∈ whiteSpace) :
    parseNodeString (a ++ text ++ b) = parseNodeString text := by
  have drop : ∀ a l : List Char, (∀ c ∈ a, isWhite c = true) → (a ++ l).dropWhile isWhite = l.dropWhile isWhite := by
    intro a l h
    induction a with
    | nil => rfl
    | cons c a ih =>
      rw [List.cons_append, List.dropWhile_cons, if_pos (h c (by simp)), ih fun c hc => h c (by simp [hc])]
  have ha' : ∀ c ∈ a, isWhite c = true := fun c hc => (isWhite_iff c).mpr (ha c hc)
  have hb' : ∀ c ∈ b, isWhite c = true := fun c hc => (isWhite_iff c).mpr (hb c hc)
  have key : trim (a ++ text ++ b) = trim text := by
    rw [trim, trim, List.append_assoc, drop a _ ha']
    congr 1
    by_cases hw : ∀ c ∈ text, isWhite c = true
    · have h1 := drop text [] hw
      have h2 := drop text b hw
      have h3 := drop b [] hb'
      simp only [List.append_nil, List.dropWhile_nil] at h1 h3
      rw [h1, h2, h3]
    · have h1 : (text ++ b).dropWhile isWhite = text.dropWhile isWhite ++ b := by
        clear ha ha' drop
        induction text with
        | nil => simp at hw
        | cons c t ih =>
          rw [List.cons_append, List.dropWhile_cons, List.dropWhile_cons]
          by_cases hc : isWhite c = true
          · rw [if_pos hc, if_pos hc]
            refine ih fun h => hw ?_
            intro d hd
            rcases List.mem_cons.mp hd with rfl | hd
            · exact hc
            · exact h d hd
          · rw [if_neg hc, if_neg hc]; rfl
      rw [h1, List.reverse_append, drop _ _ fun c hc => hb' c (by simpa using hc)]
  rw [parseNodeString, parseNodeString, key]

example := parse_white " \t".toList "\n".toList "(A)".toList (by decide) (by decide)

/-- C26: in front of the text of a node nothing but white space is accepted. -/
theorem parse_first {n : Node} (o : n.Ordered) (hf : n.Fits) (c : Char) :
    parseNodeString (c :: buildNodeString n) = if c ∈ whiteSpace then some n else none := by
  by_cases hc : c ∈ whiteSpace
  · rw [if_pos hc, ← node_text_roundtrip o hf]
    have := parse_white [c] [] (buildNodeString n) (by simpa using hc) (by simp)
    simpa using this
  · rw [if_neg hc]
    obtain ⟨t, ht⟩ := build_paren n
    have hw : isWhite c = false := by rw [Bool.eq_false_iff, Ne, isWhite_iff]; exact hc
    have h2 : isWhite ')' = false := by decide
    have htr : trim (c :: buildNodeString n) = c :: buildNodeString n := by
      rw [ht]; simp [trim, hw, h2]
    cases hp : parseNodeString (c :: buildNodeString n) with
    | none => rfl
    | some m =>
      rw [parse_iff, htr, ht] at hp
      obtain ⟨s, r, e, hr⟩ := hp
      cases hr with
      | leaf1 => simp [grammar] at e
      | leaf0 => simp [grammar] at e
      | @branch w1 ds w2 a w3 b w4 low high h1 _ _ _ hd hds _ _ _ =>
        simp only [List.cons_append, List.cons.injEq] at e
        have e := e.2
        cases w1 with
        | cons x w1 =>
          simp only [List.cons_append, List.cons.injEq] at e
          have := h1 x (by simp)
          rw [← e.1] at this
          exact absurd this (by decide)
        | nil =>
          cases ds with
          | nil => exact absurd rfl hd
          | cons x ds =>
            simp only [List.nil_append, List.cons_append, List.cons.injEq] at e
            have := hds x (by simp)
            rw [← e.1] at this
            exact absurd this (by decide)

example := parse_first (n := .Branch 0 (.Branch 2 .Never .Always) .Always)
  (by simp [Node.Ordered, Node.Above]) (by simp [Node.Fits, usizeBound]) '\t'

/-- Text after a complete node is silently accepted. -/
theorem parse_ignores_rest : parseNodeString "(A) (0 garbage".toList = some .Always := by decide

/-- Reading is not injective and accepts unreduced text; it normalises. -/
example : parseNodeString " (  0 (N)   \n             (A) \t )".toList = some (.Branch 0 .Never .Always) := by
  have : parseNodeString " (  0 (N)   \n             (A) \t )".toList = some (branch 0 .Never .Always) := by rfl
  rw [this]; simp [branch]

/-! ## C27 forest serialization -/

/-- What is written for a forest: the fields `root` (a string) and `universe` (a map), in the serde
data model.  Derived for the struct (forest/mod.rs:25-29), node/serialize.rs:10-22,
universe/serialize.rs:12-17. -/
structure ForestData (T : Type u) where
  root : List Char
  univ : List (T × Nat)

/-- universe/serialize.rs:12-17: the occurrences, visited in the order `e`, are collected into a
`BTreeMap` (kept sorted by key). -/
def serializeUniverse (e : List (T × Nat)) : List (T × Nat) :=
  e.foldl (fun m p => insertKV p.1 p.2 m) []

/-- universe/serialize.rs:30-32: the entries are collected into a `HashMap` (a later entry for the
same key wins), then `from_occurrences`. -/
def deserializeUniverse (d : List (T × Nat)) : Universe T :=
  Universe.fromOccurrences (d.foldl (fun m p => insertKV p.1 p.2 m) [])

/-- `Serialize for Forest`; `e` is the order in which the occurrences map is visited.
weave/src/zdd2/forest/mod.rs:25-29, weave/src/zdd2/forest/node/serialize.rs, universe/serialize.rs:12-17. -/
def serializeForest (e : List (T × Nat)) (f : Forest T) : ForestData T :=
  ⟨buildNodeString f.root, serializeUniverse e⟩

/-- `Deserialize for Forest`; `none` is a deserialization error.
weave/src/zdd2/forest/mod.rs:25-29, weave/src/zdd2/forest/node/serialize.rs, universe/serialize.rs:23-39. -/
def deserializeForest (d : ForestData T) : Option (Forest T) :=
  (parseNodeString d.root).map (fun r => ⟨r, deserializeUniverse d.univ⟩)

theorem insertFold_lookup_perm {V : Type} {e m : List (T × V)} (hm : KeysLt m) (he : e.Perm m) :
    e.foldl (fun m p => insertKV p.1 p.2 m) [] = m := by
  have hk := Universe.keysLt_insertFold e [] List.Pairwise.nil
  refine smap_ext hk hm fun x => ?_
  have key : ∀ (l acc : List (T × V)), KeysLt acc → (l.map Prod.fst).Nodup → ∀ x,
      lookup x (l.foldl (fun m p => insertKV p.1 p.2 m) acc) =
        (match l.find? (fun p => p.1 = x) with | some p => some p.2 | none => lookup x acc) := by
    intro l
    induction l with
    | nil => intro acc _ _ x; simp
    | cons b l ih =>
      intro acc hacc hn x
      simp only [List.map_cons, List.nodup_cons] at hn
      rw [List.foldl_cons, ih (insertKV b.1 b.2 acc) (keysLt_upsert hacc) hn.2 x]
      by_cases hx : b.1 = x
      · have : l.find? (fun p => p.1 = x) = none := by
          rw [List.find?_eq_none]
          intro p hp e
          simp only [decide_eq_true_eq] at e
          exact hn.1 (hx ▸ e ▸ List.mem_map_of_mem hp)
        rw [this, List.find?_cons]
        simp only [hx, decide_true]
        rw [insertKV, lookup_upsert hacc]
        simp [hx]
      · rw [List.find?_cons]
        simp only [hx, decide_false]
        cases l.find? (fun p => p.1 = x) with
        | some p => rfl
        | none =>
          simp only
          rw [insertKV, lookup_upsert hacc]
          simp [Ne.symm hx]
  have hnd : (e.map Prod.fst).Nodup := by
    rw [(he.map _).nodup_iff]
    exact nodup_of_lt hm.keys
  rw [key e [] List.Pairwise.nil hnd x]
  cases hfind : e.find? (fun p => p.1 = x) with
  | none =>
    rw [List.find?_eq_none] at hfind
    simp only [lookup]
    symm
    rw [lookup_eq_none]
    intro hx
    obtain ⟨p, hp, rfl⟩ := List.mem_map.mp hx
    exact hfind p (he.mem_iff.mpr hp) (by simp)
  | some p =>
    have h1 := List.mem_of_find?_eq_some hfind
    have h2 := List.find?_some hfind
    simp only [decide_eq_true_eq] at h2
    simp only
    symm
    rw [lookup_eq_some hm, ← h2]
    exact he.mem_iff.mp h1

theorem fits_of_inU {u : Universe T} {n : Node} (o : n.Ordered) (hn : u.InU n)
    (hb : u.index.length ≤ usizeBound) : n.Fits := by
  induction n with
  | Always => trivial
  | Never => trivial
  | Branch i l h ihl ihh =>
    have hl : ∀ s ∈ l.Den, s ∈ (Node.Branch i l h).Den := fun s hs => Or.inl hs
    have hh : ∀ s ∈ h.Den, insert i s ∈ (Node.Branch i l h).Den := fun s hs => Or.inr ⟨s, hs, rfl⟩
    refine ⟨?_, ihl o.2.2.2.1 (fun s hs => hn s (hl s hs)), ihh o.2.2.2.2 (fun s hs k hk =>
      hn _ (hh s hs) k (Finset.mem_insert_of_mem hk))⟩
    obtain ⟨s, hs⟩ := Node.exists_mem o.2.2.2.2 o.2.2.1
    have := hn _ (hh s hs) i (Finset.mem_insert_self _ _)
    omega

/-- C27: a universe is read back equal, whatever order its map is written in. -/
theorem universe_roundtrip {u : Universe T} (hu : Built u) {e : List (T × Nat)}
    (he : e.Perm u.occurrences) : deserializeUniverse (serializeUniverse e) = u := by
  have hk := hu.ok.1
  rw [serializeUniverse, insertFold_lookup_perm hk he, deserializeUniverse,
    insertFold_lookup_perm hk (List.Perm.refl _)]
  exact hu.ok.2.symm

example := universe_roundtrip (.matrix [[1, 3], [1]]) (e := [(3, 1), (1, 2)]) (by decide)

/-- C27: a reachable forest is read back equal (all counts and ids being `usize`, it has at most
2^64 items). -/
theorem forest_roundtrip {f : Forest T} (hf : Reach f) {e : List (T × Nat)}
    (he : e.Perm f.univ.occurrences) (hb : f.occurrences.length ≤ 2 ^ 64) :
    deserializeForest (serializeForest e f) = some f := by
  have hlen : f.univ.index.length ≤ usizeBound := by
    have h1 : f.univ.index.length = f.univ.occurrences.length := by
      simpa using (Universe.index_perm hf.canon.ok).length_eq
    have h2 : f.occurrences = f.univ.occurrences :=
      sortByKey_of_perm hf.canon.ok.1 (List.Perm.refl _)
    rw [h1, ← h2]; exact hb
  have hr := node_text_roundtrip hf.canon.ordered (fits_of_inU hf.canon.ordered hf.canon.inU hlen)
  simp only [deserializeForest, serializeForest, hr, Option.map_some, universe_roundtrip hf.built he]

/-- C27: the written data does not depend on the order the map is visited in. -/
theorem serialize_deterministic {f : Forest T} (hf : Reach f) {e e' : List (T × Nat)}
    (he : e.Perm f.univ.occurrences) (he' : e'.Perm f.univ.occurrences) :
    serializeForest e f = serializeForest e' f := by
  have hk := hf.canon.ok.1
  simp only [serializeForest, serializeUniverse, insertFold_lookup_perm hk he,
    insertFold_lookup_perm hk he']

example := serialize_deterministic (reach_many [[1, 3], [1]]) (e := [(3, 1), (1, 2)]) (e' := [(1, 2), (3, 1)])
  (by decide +kernel) (by decide +kernel)

/-! ## C47 `Debug` -/

/-- `Debug for Forest`, weave/src/zdd2/forest/mod.rs:31-54; `dbg` is `{:?}` of an item and `none` is a
failed `unwrap`. -/
def fmtInner (dbg : T → String) (u : Universe T) : Node → Nat → Option String
  | .Branch id low high, indent =>
    match u.getItem id, fmtInner dbg u low (indent + 1), fmtInner dbg u high (indent + 1) with
    | some item, some l, some h =>
      some ("Priority(" ++ String.ofList (dec id) ++ "): " ++ dbg item ++ "\n" ++
        String.join (List.replicate indent "| ") ++ l ++ "\n" ++
        String.join (List.replicate indent "| ") ++ h)
    | _, _, _ => none
  | .Always, _ => some "Always"
  | .Never, _ => some "Never"

/-- C47: printing a reachable forest with `{:?}` never panics. -/
theorem fmt_total {f : Forest T} (hf : Reach f) (dbg : T → String) (indent : Nat) :
    ∃ s, fmtInner dbg f.univ f.root indent = some s := by
  have : ∀ n : Node, n.Ordered → f.univ.InU n → ∀ i, ∃ s, fmtInner dbg f.univ n i = some s := by
    intro n
    induction n with
    | Always => exact fun _ _ _ => ⟨_, rfl⟩
    | Never => exact fun _ _ _ => ⟨_, rfl⟩
    | Branch id l h ihl ihh =>
      intro o hn i
      have hh : ∀ s ∈ h.Den, insert id s ∈ (Node.Branch id l h).Den := fun s hs => Or.inr ⟨s, hs, rfl⟩
      obtain ⟨a, ha⟩ := ihl o.2.2.2.1 (fun s hs => hn s (Or.inl hs)) (i + 1)
      obtain ⟨b, hb⟩ := ihh o.2.2.2.2 (fun s hs k hk => hn _ (hh s hs) k (Finset.mem_insert_of_mem hk)) (i + 1)
      obtain ⟨s, hs⟩ := Node.exists_mem o.2.2.2.2 o.2.2.1
      have hid := hn _ (hh s hs) id (Finset.mem_insert_self _ _)
      have hg : f.univ.getItem id = some f.univ.index[id] := by
        simp [Universe.getItem, List.getElem?_eq_getElem hid]
      exact ⟨_, by rw [fmtInner, hg, ha, hb]⟩
  exact this f.root hf.canon.ordered hf.canon.inU indent

example := fmt_total (reach_many [[1, 3], [1]]) toString 1

/-! ## C58 reading foreign data -/

/-- C58, the full statement, is false of the code: reading checks nothing about the ids, so a forest
can be read successfully and panic in the next operation. -/
theorem foreign_data_panics : ∃ (d : ForestData ℕ) (f : Forest ℕ), deserializeForest d = some f ∧
    f.union Forest.empty = none ∧ f.intersect Forest.empty = none ∧ f.product Forest.empty = none ∧
    fmtInner (fun n => toString n) f.univ f.root 1 = none := by
  refine ⟨⟨"(5 (N) (A))".toList, []⟩, ⟨.Branch 5 .Never .Always, Universe.default⟩, ?_, ?_, ?_, ?_, ?_⟩
  · have : parseNodeString "(5 (N) (A))".toList = some (.Branch 5 .Never .Always) := by
      have : parseNodeString "(5 (N) (A))".toList = some (branch 5 .Never .Always) := by rfl
      rw [this]; simp [branch]
    simp only [deserializeForest, this, Option.map_some]
    rfl
  all_goals rfl

/-- C58 (proved part): data written by the library is safe — what is read back is the written forest,
and so can be used without panics. -/
theorem own_data_safe_partial {f g : Forest T} (hf : Reach f) {e : List (T × Nat)}
    (he : e.Perm f.univ.occurrences) (hb : f.occurrences.length ≤ 2 ^ 64)
    (hg : deserializeForest (serializeForest e f) = some g) : Reach g := by
  rw [forest_roundtrip hf he hb] at hg
  cases hg; exact hf

example : ∃ g : Forest ℕ, deserializeForest (serializeForest [(3, 1), (1, 2)] (Forest.many [[1, 3], [1]])) = some g ∧
    Reach g :=
  ⟨_, forest_roundtrip (reach_many _) (by decide +kernel) (by decide +kernel),
    own_data_safe_partial (f := Forest.many [[1, 3], [1]]) (reach_many _) (e := [(3, 1), (1, 2)]) (by decide +kernel)
      (by decide +kernel) (forest_roundtrip (reach_many _) (by decide +kernel) (by decide +kernel))⟩

example : (Forest.many [[1, 2], [1, 3]] : Forest ℕ).occurrences.length ≤ 2 ^ 64 := by decide

end Verif.Zdd2
