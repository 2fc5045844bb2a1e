import Mathlib.Data.List.Basic
import Mathlib.Data.Nat.Notation
import Mathlib.Tactic.Ring
import Mathlib.Tactic.SplitIfs

/-!
# Model of the node text format

weave/src/zdd/node/parser.rs and weave/src/zdd2/forest/node/parser.rs use the same grammar with other
leaf names.  The nom 4 combinators they use are modelled on lists of characters; a parser returns
`none` for `Err::Error` and for `Err::Incomplete` alike (both make `parse_node_string` fail, and in
this grammar no alternative can succeed after an `Incomplete`).  Bytes are modelled as the characters
they encode: the grammar only accepts ASCII, so a multi-byte character is rejected either way.
-/

namespace Verif.Text

set_option linter.unusedSimpArgs false

/-- The largest `usize` plus one (64-bit target).
`parse::<usize>` in weave/src/zdd2/forest/node/parser.rs:34, weave/src/zdd/node/parser.rs:31. -/
def usizeBound : Nat := 2 ^ 64

/-- Decimal digits of a number: what `{:?}` prints for a `usize`.
weave/src/zdd2/forest/node/parser.rs:17-18, weave/src/zdd/node/parser.rs:14-15. -/
def dec (n : Nat) : List Char :=
  if n < 10 then [Nat.digitChar n] else dec (n / 10) ++ [Nat.digitChar (n % 10)]

/-- nom's `is_dec_digit`.  weave/src/zdd2/forest/node/parser.rs:33. -/
def isDigit (c : Char) : Bool := '0' ≤ c && c ≤ '9'

/-- The value of a digit.  weave/src/zdd2/forest/node/parser.rs:34. -/
def digitVal (c : Char) : Nat := c.toNat - '0'.toNat

/-- `str::parse::<usize>` on a text of digits; fails on overflow.  weave/src/zdd2/forest/node/parser.rs:34. -/
def parseUsize (ds : List Char) : Option Nat :=
  let v := ds.foldl (fun a c => a * 10 + digitVal c) 0
  if ds ≠ [] ∧ v < usizeBound then some v else none

/-- The separators skipped by nom's `ws!`.  weave/src/zdd2/forest/node/parser.rs:45-47. -/
def isSp (c : Char) : Bool := c == ' ' || c == '\t' || c == '\r' || c == '\n'

/-- nom's `sp`.  weave/src/zdd2/forest/node/parser.rs:45-47. -/
def sp (l : List Char) : List Char := l.dropWhile isSp

/-- nom's `ws!(p)`: separators are skipped before and after.  weave/src/zdd2/forest/node/parser.rs:45-47. -/
def ws {α : Type} (p : List Char → Option (α × List Char)) (l : List Char) : Option (α × List Char) :=
  (p (sp l)).map (fun r => (r.1, sp r.2))

/-- nom's `tag!`.
weave/src/zdd2/forest/node/parser.rs:41-48.  The code works on UTF-8 bytes, the model on characters; every byte the rules test is ASCII, so a longer character never matches in either. -/
def tag : List Char → List Char → Option (List Char)
  | [], l => some l
  | _ :: _, [] => none
  | t :: ts, c :: cs => if t = c then tag ts cs else none

/-- `node_id`, zdd/node/parser.rs:27-34 and zdd2/forest/node/parser.rs:30-37: one or more digits that
do not run to the end of the input (nom's streaming `digit` asks for more input there and `complete!`
turns that into an error), read as a `usize`. -/
def nodeId (l : List Char) : Option (Nat × List Char) :=
  match l.dropWhile isDigit with
  | [] => none
  | c :: cs => (parseUsize (l.takeWhile isDigit)).map (fun n => (n, c :: cs))

/-- The two leaf names and the constructors of a node type.
Shared by weave/src/zdd2/forest/node/parser.rs:9-10,39-53 and weave/src/zdd/node/parser.rs:6-7,36-50. -/
structure Grammar (N : Type) where
  tag1 : List Char
  leaf1 : N
  tag0 : List Char
  leaf0 : N
  branch : Nat → N → N → N

/-- The rule `node`, zdd/node/parser.rs:36-50 and zdd2/forest/node/parser.rs:39-53.  The first argument bounds the
nesting depth; `node_fuel` shows that the length of the input is always enough. -/
def node {N : Type} (g : Grammar N) : Nat → List Char → Option (N × List Char)
  | 0, _ => none
  | k + 1, l =>
    match tag g.tag1 l with
    | some r => some (g.leaf1, r)
    | none =>
      match tag g.tag0 l with
      | some r => some (g.leaf0, r)
      | none =>
        match tag ['('] l with
        | none => none
        | some r =>
          match ws nodeId r with
          | none => none
          | some (id, r) =>
            match ws (node g k) r with
            | none => none
            | some (low, r) =>
              match ws (node g k) r with
              | none => none
              | some (high, r) =>
                match tag [')'] r with
                | none => none
                | some r => some (g.branch id low high, r)

/-- Rust's `char::is_whitespace` (Unicode White_Space).  weave/src/zdd2/forest/node/parser.rs:26. -/
def isWhite (c : Char) : Bool :=
  let n := c.toNat
  (9 ≤ n && n ≤ 13) || n == 0x20 || n == 0x85 || n == 0xA0 || n == 0x1680 ||
    (0x2000 ≤ n && n ≤ 0x200A) || n == 0x2028 || n == 0x2029 || n == 0x202F || n == 0x205F || n == 0x3000

/-- Rust's `str::trim`.  weave/src/zdd2/forest/node/parser.rs:26. -/
def trim (l : List Char) : List Char := ((l.dropWhile isWhite).reverse.dropWhile isWhite).reverse

/-- Running the rule `node` on a whole text; the rest of the input is dropped
(zdd/node/parser.rs:22-25, zdd2/forest/node/parser.rs:25-28). -/
def parseWith {N : Type} (g : Grammar N) (l : List Char) : Option N :=
  (node g (l.length + 1) l).map Prod.fst

/-- The text of a branch, `format!("({:?} {} {})", …)`.
weave/src/zdd2/forest/node/parser.rs:16-21, weave/src/zdd/node/parser.rs:13-18. -/
def branchText (id : Nat) (low high : List Char) : List Char :=
  '(' :: (dec id ++ ' ' :: (low ++ ' ' :: (high ++ [')'])))

/-! ### helper lemmas -/

theorem digitChar_ok : ∀ d, d < 10 → isDigit (Nat.digitChar d) = true ∧ digitVal (Nat.digitChar d) = d := by
  decide

theorem dec_ne_nil (n : Nat) : dec n ≠ [] := by
  unfold dec; split_ifs <;> simp

theorem dec_digits (n : Nat) : ∀ c ∈ dec n, isDigit c = true := by
  induction n using Nat.strongRecOn with
  | _ n ih =>
    unfold dec
    split_ifs with h
    · intro c hc; simp at hc; subst hc; exact (digitChar_ok n h).1
    · intro c hc
      simp only [List.mem_append, List.mem_singleton] at hc
      rcases hc with hc | rfl
      · exact ih (n / 10) (by omega) c hc
      · exact (digitChar_ok (n % 10) (by omega)).1

theorem dec_value (n : Nat) : (dec n).foldl (fun a c => a * 10 + digitVal c) 0 = n := by
  induction n using Nat.strongRecOn with
  | _ n ih =>
    unfold dec
    split_ifs with h
    · simp [(digitChar_ok n h).2]
    · rw [List.foldl_append, ih (n / 10) (by omega)]
      simp only [List.foldl_cons, List.foldl_nil, (digitChar_ok (n % 10) (by omega)).2]
      omega

theorem takeWhile_append_stop {p : Char → Bool} {l : List Char} (h : ∀ c ∈ l, p c = true) {c : Char}
    (hc : p c = false) (r : List Char) :
    (l ++ c :: r).takeWhile p = l ∧ (l ++ c :: r).dropWhile p = c :: r := by
  induction l with
  | nil => simp [hc]
  | cons a l ih =>
    have ha := h a (by simp)
    obtain ⟨h1, h2⟩ := ih (fun c hc => h c (by simp [hc]))
    simp [ha, h1, h2]

theorem nodeId_dec {n : Nat} (hn : n < usizeBound) {c : Char} (hc : isDigit c = false) (r : List Char) :
    nodeId (dec n ++ c :: r) = some (n, c :: r) := by
  obtain ⟨h1, h2⟩ := takeWhile_append_stop (dec_digits n) hc r
  simp [nodeId, h1, h2, parseUsize, dec_ne_nil, dec_value, hn]

theorem tag_append (t r : List Char) : tag t (t ++ r) = some r := by
  induction t with
  | nil => simp [tag]
  | cons a t ih => simp [tag, ih]

theorem tag_length {t l r : List Char} (h : tag t l = some r) : l.length = t.length + r.length := by
  induction t generalizing l with
  | nil => simp [tag] at h; simp [h]
  | cons a t ih =>
    cases l with
    | nil => simp [tag] at h
    | cons c l =>
      simp only [tag] at h
      split_ifs at h
      have := ih h
      simp; omega

theorem sp_length (l : List Char) : (sp l).length ≤ l.length := by
  unfold sp
  exact (List.dropWhile_sublist _).length_le

theorem nodeId_length {l r : List Char} {n : Nat} (h : nodeId l = some (n, r)) : r.length ≤ l.length := by
  unfold nodeId at h
  have hl : (l.dropWhile isDigit).length ≤ l.length := (List.dropWhile_sublist _).length_le
  split at h
  · simp at h
  · rename_i c cs e
    rw [e] at hl
    cases hp : parseUsize (l.takeWhile isDigit) with
    | none => simp [hp] at h
    | some v => simp only [hp, Option.map_some, Option.some.injEq, Prod.mk.injEq] at h; rw [← h.2]; exact hl

theorem ws_length {α : Type} {p : List Char → Option (α × List Char)}
    (hp : ∀ l a r, p l = some (a, r) → r.length ≤ l.length) {l r : List Char} {a : α}
    (h : ws p l = some (a, r)) : r.length ≤ l.length := by
  unfold ws at h
  cases e : p (sp l) with
  | none => simp [e] at h
  | some x =>
    simp only [e, Option.map_some, Option.some.injEq, Prod.mk.injEq] at h
    have h1 := hp _ x.1 x.2 e
    have h2 := sp_length x.2
    have h3 := sp_length l
    rw [← h.2]; omega

theorem node_length {N : Type} (g : Grammar N) (k : Nat) : ∀ l n r,
    node g k l = some (n, r) → r.length ≤ l.length := by
  induction k with
  | zero => simp [node]
  | succ k ih =>
    intro l n r h
    rw [node] at h
    split at h
    · rename_i r' e; have := tag_length e; simp at h; rw [← h.2]; omega
    split at h
    · rename_i r' e; have := tag_length e; simp at h; rw [← h.2]; omega
    split at h
    · simp at h
    rename_i r1 e1
    split at h
    · simp at h
    rename_i id r2 e2
    split at h
    · simp at h
    rename_i low r3 e3
    split at h
    · simp at h
    rename_i high r4 e4
    split at h
    · simp at h
    rename_i r5 e5
    simp only [Option.some.injEq, Prod.mk.injEq] at h
    have := tag_length e1
    have := ws_length (fun l a r => nodeId_length) e2
    have := ws_length ih e3
    have := ws_length ih e4
    have := tag_length e5
    rw [← h.2]; simp_all; omega

/-- Any depth bound that is at least the length of the input gives the same result. -/
theorem node_fuel {N : Type} (g : Grammar N) (k : Nat) : ∀ (j : Nat) (l : List Char),
    l.length < k → l.length < j → node g k l = node g j l := by
  induction k with
  | zero => intro j l h; omega
  | succ k ih =>
    intro j l hk hj
    cases j with
    | zero => omega
    | succ j =>
      rw [node, node]
      cases tag g.tag1 l with
      | some r => rfl
      | none =>
        cases tag g.tag0 l with
        | some r => rfl
        | none =>
          cases e1 : tag ['('] l with
          | none => rfl
          | some r1 =>
            have l1 := tag_length e1
            simp only [List.length_singleton] at l1
            simp only
            cases e2 : ws nodeId r1 with
            | none => rfl
            | some p2 =>
              obtain ⟨id, r2⟩ := p2
              have l2 := ws_length (fun l a r => nodeId_length) e2
              have s2 := sp_length r2
              have w2 : ws (node g k) r2 = ws (node g j) r2 := by
                unfold ws; rw [ih j (sp r2) (by omega) (by omega)]
              simp only [w2]
              cases e3 : ws (node g j) r2 with
              | none => rfl
              | some p3 =>
                obtain ⟨low, r3⟩ := p3
                have l3 := ws_length (node_length g j) e3
                have s3 := sp_length r3
                have w3 : ws (node g k) r3 = ws (node g j) r3 := by
                  unfold ws; rw [ih j (sp r3) (by omega) (by omega)]
                simp only [w3]

/-- One step of reading back a branch. -/
theorem node_branchText {N : Type} (g : Grammar N) (k id : Nat) (hid : id < usizeBound)
    {a b : List Char} {low high : N} (rest : List Char)
    (h1 : ∀ r, tag g.tag1 (branchText id a b ++ r) = none)
    (h0 : ∀ r, tag g.tag0 (branchText id a b ++ r) = none)
    (ha : ∃ t, a = '(' :: t) (hb : ∃ t, b = '(' :: t)
    (pa : ∀ r, node g k (a ++ r) = some (low, r)) (pb : ∀ r, node g k (b ++ r) = some (high, r)) :
    node g (k + 1) (branchText id a b ++ rest) = some (g.branch id low high, rest) := by
  rw [node, h1 rest, h0 rest]
  obtain ⟨ta, rfl⟩ := ha
  obtain ⟨tb, rfl⟩ := hb
  have e : branchText id ('(' :: ta) ('(' :: tb) ++ rest =
      ['('] ++ (dec id ++ ' ' :: (('(' :: ta) ++ ' ' :: (('(' :: tb) ++ ')' :: rest))) := by
    simp [branchText]
  rw [e, tag_append]
  simp only
  have spd : ∀ r, sp (dec id ++ r) = dec id ++ r := by
    intro r
    have hd := dec_digits id
    cases hl : dec id with
    | nil => exact absurd hl (dec_ne_nil id)
    | cons c cs =>
      have hc := hd c (by simp [hl])
      have : isSp c = false := by
        simp only [isDigit, Bool.and_eq_true, decide_eq_true_eq] at hc
        simp only [isSp, Bool.or_eq_false_iff, beq_eq_false_iff_ne, ne_eq]
        refine ⟨⟨⟨?_, ?_⟩, ?_⟩, ?_⟩ <;> (rintro rfl; exact absurd hc (by decide))
      simp [sp, this]
  have w1 : ∀ r, ws nodeId (dec id ++ ' ' :: '(' :: r) = some (id, '(' :: r) := by
    intro r
    unfold ws
    rw [spd, nodeId_dec hid (by decide)]
    simp [sp, isSp]
  have w2 : ∀ r, ws (node g k) ('(' :: (ta ++ ' ' :: '(' :: r)) = some (low, '(' :: r) := by
    intro r
    unfold ws
    have : sp ('(' :: (ta ++ ' ' :: '(' :: r)) = ('(' :: ta) ++ ' ' :: '(' :: r := by
      simp [sp, isSp]
    rw [this, pa]
    simp [sp, isSp]
  have w3 : ∀ r, ws (node g k) ('(' :: (tb ++ ')' :: r)) = some (high, ')' :: r) := by
    intro r
    unfold ws
    have : sp ('(' :: (tb ++ ')' :: r)) = ('(' :: tb) ++ ')' :: r := by
      simp [sp, isSp]
    rw [this, pb]
    simp [sp, isSp]
  simp only [List.cons_append, w1, w2, w3]
  simp [tag]

theorem trim_paren (t : List Char) : trim ('(' :: (t ++ [')'])) = '(' :: (t ++ [')']) := by
  have h1 : isWhite '(' = false := by decide
  have h2 : isWhite ')' = false := by decide
  simp [trim, h1, h2]

/-- The 25 characters of the Unicode property White_Space.  Not code: used to state or prove properties. -/
def whiteSpace : List Char :=
  ['\u0009', '\u000A', '\u000B', '\u000C', '\u000D', '\u0020', '\u0085', '\u00A0', '\u1680', '\u2000', '\u2001',
   '\u2002', '\u2003', '\u2004', '\u2005', '\u2006', '\u2007', '\u2008', '\u2009', '\u200A', '\u2028', '\u2029',
   '\u202F', '\u205F', '\u3000']

theorem isWhite_iff (c : Char) : isWhite c = true ↔ c ∈ whiteSpace := by
  have h : c ∈ whiteSpace ↔ c.toNat ∈ whiteSpace.map Char.toNat := by
    rw [List.mem_map]
    constructor
    · intro h; exact ⟨c, h, rfl⟩
    · rintro ⟨d, hd, e⟩
      have : d = c := Char.ext (UInt32.toNat_inj.mp e)
      exact this ▸ hd
  have e : whiteSpace.map Char.toNat = [9, 10, 11, 12, 13, 32, 133, 160, 5760, 8192, 8193, 8194, 8195, 8196, 8197, 8198,
    8199, 8200, 8201, 8202, 8232, 8233, 8239, 8287, 12288] := by decide
  rw [h, e, isWhite]
  simp only [Bool.or_eq_true, Bool.and_eq_true, decide_eq_true_eq, beq_iff_eq, List.mem_cons, List.not_mem_nil, or_false]
  omega

/-- Trimming takes away exactly the longest white beginning and the longest white end. -/
theorem trim_spec (l : List Char) : ∃ a b, l = a ++ trim l ++ b ∧ (∀ c ∈ a ++ b, c ∈ whiteSpace) ∧
    (∀ c, (trim l).head? = some c ∨ (trim l).getLast? = some c → c ∉ whiteSpace) := by
  refine ⟨l.takeWhile isWhite, ((l.dropWhile isWhite).reverse.takeWhile isWhite).reverse, ?_, ?_, ?_⟩
  · rw [trim, List.append_assoc, ← List.reverse_append, List.takeWhile_append_dropWhile, List.reverse_reverse,
      List.takeWhile_append_dropWhile]
  · intro c hc
    rw [← isWhite_iff]
    have first : ∀ m : List Char, ∀ c ∈ m.takeWhile isWhite, isWhite c = true := by
      intro m c h
      induction m with
      | nil => simp at h
      | cons a m ih =>
        rw [List.takeWhile_cons] at h
        split at h
        · rename_i ha
          rcases List.mem_cons.mp h with rfl | h
          · exact ha
          · exact ih h
        · simp at h
    rw [List.mem_append, List.mem_reverse] at hc
    rcases hc with h | h
    · exact first _ c h
    · exact first _ c h
  · intro c hc
    rw [← isWhite_iff, Bool.not_eq_true]
    have last : ∀ m : List Char, ∀ c, (m.dropWhile isWhite).head? = some c → isWhite c = false := by
      intro m c h
      induction m with
      | nil => simp at h
      | cons a m ih =>
        rw [List.dropWhile_cons] at h
        split at h
        · exact ih h
        · rename_i ha
          simp only [List.head?_cons, Option.some.injEq] at h
          subst h
          simpa using ha
    rcases hc with h | h
    · have hne : (l.dropWhile isWhite).reverse.dropWhile isWhite ≠ [] := by
        intro e; rw [trim, e] at h; simp at h
      apply last l c
      rw [trim, List.head?_reverse] at h
      have hs : (l.dropWhile isWhite).reverse.dropWhile isWhite <:+ (l.dropWhile isWhite).reverse :=
        List.dropWhile_suffix _
      obtain ⟨p, hp⟩ := hs
      rw [← List.getLast?_reverse, ← hp, List.getLast?_append, h]
      rfl
    · rw [trim, List.getLast?_reverse] at h
      exact last _ c h

/-! ### what the grammar accepts, stated without the parser -/

/-- The number a text of digits stands for.  Not code: used to state or prove properties. -/
def value (ds : List Char) : Nat := ds.foldl (fun a c => a * 10 + digitVal c) 0

/-- `Reads g t n`: `t` is a text of the node `n`.  A leaf is its name; a branch is an opening
parenthesis, a number that fits a `usize`, a text of each child, and a closing parenthesis, with any
separators before and after the number and the children.  Not code: used to state or prove properties. -/
inductive Reads {N : Type} (g : Grammar N) : List Char → N → Prop
  | leaf1 : Reads g g.tag1 g.leaf1
  | leaf0 : Reads g g.tag0 g.leaf0
  | branch {w1 ds w2 a w3 b w4 : List Char} {low high : N} :
      (∀ c ∈ w1, isSp c = true) → (∀ c ∈ w2, isSp c = true) → (∀ c ∈ w3, isSp c = true) →
      (∀ c ∈ w4, isSp c = true) → ds ≠ [] → (∀ c ∈ ds, isDigit c = true) → value ds < usizeBound →
      Reads g a low → Reads g b high →
      Reads g ('(' :: (w1 ++ (ds ++ (w2 ++ (a ++ (w3 ++ (b ++ (w4 ++ [')'])))))))) (g.branch (value ds) low high)

/-- The leaf names are one letter in parentheses.  Not code: used to state or prove properties. -/
structure Grammar.Ok {N : Type} (g : Grammar N) (c1 c0 : Char) : Prop where
  t1 : g.tag1 = ['(', c1, ')']
  t0 : g.tag0 = ['(', c0, ')']
  ne : c1 ≠ c0
  d1 : isDigit c1 = false
  d0 : isDigit c0 = false
  s1 : isSp c1 = false
  s0 : isSp c0 = false

theorem tag_eq_some {t l r : List Char} : tag t l = some r ↔ l = t ++ r := by
  induction t generalizing l with
  | nil => simp [tag]
  | cons a t ih =>
    cases l with
    | nil => simp [tag]
    | cons c l =>
      simp only [tag]
      split_ifs with h
      · rw [ih]; simp [h]
      · simp [Ne.symm h]

theorem sp_split (l : List Char) : ∃ w, (∀ c ∈ w, isSp c = true) ∧ l = w ++ sp l :=
  ⟨l.takeWhile isSp, fun c hc => by
    have := List.all_takeWhile (l := l) (p := isSp)
    rw [List.all_eq_true] at this; exact this c hc, (List.takeWhile_append_dropWhile).symm⟩

theorem sp_skip {w l : List Char} (hw : ∀ c ∈ w, isSp c = true) {c : Char} (hc : isSp c = false) :
    sp (w ++ c :: l) = c :: l := (takeWhile_append_stop hw hc l).2

theorem ws_split {α : Type} {p : List Char → Option (α × List Char)} {l r : List Char} {a : α}
    (h : ws p l = some (a, r)) : ∃ w w' r', (∀ c ∈ w, isSp c = true) ∧ (∀ c ∈ w', isSp c = true) ∧
      l = w ++ sp l ∧ p (sp l) = some (a, r') ∧ r' = w' ++ r := by
  unfold ws at h
  cases e : p (sp l) with
  | none => simp [e] at h
  | some x =>
    simp only [e, Option.map_some, Option.some.injEq, Prod.mk.injEq] at h
    obtain ⟨w, hw, hl⟩ := sp_split l
    obtain ⟨w', hw', hl'⟩ := sp_split x.2
    refine ⟨w, w', x.2, hw, hw', hl, ?_, ?_⟩
    · rw [← h.1]
    · rw [← h.2]; exact hl'

theorem nodeId_split {l r : List Char} {n : Nat} (h : nodeId l = some (n, r)) :
    ∃ ds, ds ≠ [] ∧ (∀ c ∈ ds, isDigit c = true) ∧ value ds < usizeBound ∧ n = value ds ∧ l = ds ++ r := by
  unfold nodeId at h
  split at h
  · simp at h
  rename_i c cs e
  cases hp : parseUsize (l.takeWhile isDigit) with
  | none => simp [hp] at h
  | some v =>
    simp only [hp, Option.map_some, Option.some.injEq, Prod.mk.injEq] at h
    unfold parseUsize at hp
    simp only at hp
    split_ifs at hp with hc
    simp only [Option.some.injEq] at hp
    refine ⟨l.takeWhile isDigit, hc.1, ?_, hc.2, ?_, ?_⟩
    · intro c hc
      have := List.all_takeWhile (l := l) (p := isDigit)
      rw [List.all_eq_true] at this; exact this c hc
    · rw [← h.1, ← hp]; rfl
    · rw [← h.2, ← e]; exact List.takeWhile_append_dropWhile.symm

theorem node_sound {N : Type} (g : Grammar N) (k : Nat) : ∀ l n r, node g k l = some (n, r) →
    ∃ t, l = t ++ r ∧ Reads g t n := by
  induction k with
  | zero => simp [node]
  | succ k ih =>
    intro l n r h
    rw [node] at h
    split at h
    · rename_i r' e; simp at h; rw [← h.1, ← h.2]; exact ⟨_, tag_eq_some.mp e, .leaf1⟩
    split at h
    · rename_i r' e; simp at h; rw [← h.1, ← h.2]; exact ⟨_, tag_eq_some.mp e, .leaf0⟩
    split at h
    · simp at h
    rename_i r1 e1
    split at h
    · simp at h
    rename_i id r2 e2
    split at h
    · simp at h
    rename_i low r3 e3
    split at h
    · simp at h
    rename_i high r4 e4
    split at h
    · simp at h
    rename_i r5 e5
    simp only [Option.some.injEq, Prod.mk.injEq] at h
    have f1 := tag_eq_some.mp e1
    have f5 := tag_eq_some.mp e5
    obtain ⟨w1, w2, x2, a1, a2, a3, a4, a5⟩ := ws_split e2
    obtain ⟨ds, d1, d2, d3, d4, d5⟩ := nodeId_split a4
    obtain ⟨v1, w3, x3, b1, b2, b3, b4, b5⟩ := ws_split e3
    obtain ⟨ta, ta1, ta2⟩ := ih _ _ _ b4
    obtain ⟨v2, w4, x4, c1, c2, c3, c4, c5⟩ := ws_split e4
    obtain ⟨tb, tb1, tb2⟩ := ih _ _ _ c4
    have R := Reads.branch a1 (w2 := w2 ++ v1) (w3 := w3 ++ v2) (w4 := w4)
        (by intro c hc; rcases List.mem_append.mp hc with hc | hc; exact a2 c hc; exact b1 c hc)
        (by intro c hc; rcases List.mem_append.mp hc with hc | hc; exact b2 c hc; exact c1 c hc)
        c2 d1 d2 d3 ta2 tb2
    rw [← d4, h.1] at R
    refine ⟨_, ?_, R⟩
    · rw [← h.2, f1, a3, d5, a5, b3, ta1, b5, c3, tb1, c5, f5]
      simp

theorem Reads.open {N : Type} {g : Grammar N} {c1 c0 : Char} (hg : g.Ok c1 c0) {t : List Char} {n : N}
    (h : Reads g t n) : ∃ t', t = '(' :: t' := by
  cases h with
  | leaf1 => exact ⟨_, hg.t1⟩
  | leaf0 => exact ⟨_, hg.t0⟩
  | branch => exact ⟨_, rfl⟩

theorem node_complete {N : Type} {g : Grammar N} {c1 c0 : Char} (hg : g.Ok c1 c0) {t : List Char} {n : N}
    (h : Reads g t n) : ∀ k r, t.length ≤ k → node g k (t ++ r) = some (n, r) := by
  induction h with
  | leaf1 =>
    intro k r hk
    cases k with
    | zero => rw [hg.t1] at hk; simp at hk
    | succ k => rw [node, tag_append]
  | leaf0 =>
    intro k r hk
    cases k with
    | zero => rw [hg.t0] at hk; simp at hk
    | succ k =>
      rw [node, tag_append]
      have : tag g.tag1 (g.tag0 ++ r) = none := by
        rw [hg.t1, hg.t0]; simp [tag, hg.ne]
      rw [this]
  | @branch w1 ds w2 a w3 b w4 low high h1 h2 h3 h4 hne hd hv ha hb iha ihb =>
    intro k r hk
    cases k with
    | zero => simp at hk
    | succ k =>
      simp only [List.length_cons, List.length_append, List.length_nil] at hk
      obtain ⟨d, ds', rfl⟩ := List.exists_cons_of_ne_nil hne
      have hdd := hd d (by simp)
      have dsp : isSp d = false := by
        simp only [isDigit, Bool.and_eq_true, decide_eq_true_eq] at hdd
        simp only [isSp, Bool.or_eq_false_iff, beq_eq_false_iff_ne, ne_eq]
        refine ⟨⟨⟨?_, ?_⟩, ?_⟩, ?_⟩ <;> (rintro rfl; exact absurd hdd (by decide))
      have tn : ∀ c, isDigit c = false → isSp c = false → ∀ x, tag ['(', c, ')'] ('(' :: (w1 ++ (d :: x))) = none := by
        intro c hcd hcs x
        simp only [tag, if_true]
        cases w1 with
        | nil =>
          have : c ≠ d := by rintro rfl; rw [hcd] at hdd; simp at hdd
          simp [tag, this]
        | cons e w1 =>
          have : c ≠ e := by rintro rfl; rw [h1 c (by simp)] at hcs; simp at hcs
          simp [tag, this]
      obtain ⟨ta, rfl⟩ := ha.open hg
      obtain ⟨tb, rfl⟩ := hb.open hg
      have e : '(' :: (w1 ++ (d :: ds' ++ (w2 ++ ('(' :: ta ++ (w3 ++ ('(' :: tb ++ (w4 ++ [')']))))))) ++ r =
        '(' :: (w1 ++ (d :: (ds' ++ (w2 ++ ('(' :: (ta ++ (w3 ++ ('(' :: (tb ++ (w4 ++ (')' :: r))))))))))) := by
        simp
      rw [e, node, hg.t1, tn c1 hg.d1 hg.s1, hg.t0, tn c0 hg.d0 hg.s0]
      simp only [tag, if_true]
      have pd : isDigit '(' = false := by decide
      have ps : isSp '(' = false := by decide
      have ps' : isSp ')' = false := by decide
      have spd : ∀ c, isSp c = true → isDigit c = false := by
        intro c hc
        simp only [isSp, Bool.or_eq_true, beq_iff_eq] at hc
        rcases hc with ((rfl | rfl) | rfl) | rfl <;> decide
      -- the number
      have stop : ∀ x, nodeId (d :: (ds' ++ (w2 ++ '(' :: x))) = some (value (d :: ds'), w2 ++ '(' :: x) := by
        intro x
        have : ∃ c y, w2 ++ '(' :: x = c :: y ∧ isDigit c = false := by
          cases w2 with
          | nil => exact ⟨_, _, rfl, pd⟩
          | cons c w2 => exact ⟨_, _, rfl, spd c (h2 c (by simp))⟩
        obtain ⟨c, y, ey, hc⟩ := this
        rw [ey, ← List.cons_append]
        obtain ⟨q1, q2⟩ := takeWhile_append_stop hd hc y
        unfold nodeId
        rw [q2]
        simp only
        rw [q1, parseUsize]
        rw [if_pos ⟨by simp, hv⟩]
        rfl
      have W1 : ∀ x, ws nodeId (w1 ++ d :: (ds' ++ (w2 ++ '(' :: x))) = some (value (d :: ds'), '(' :: x) := by
        intro x
        unfold ws
        rw [sp_skip h1 dsp, stop]
        simp [sp_skip h2 ps]
      have W2 : ∀ x, ws (node g k) ('(' :: (ta ++ (w3 ++ '(' :: x))) = some (low, '(' :: x) := by
        intro x
        unfold ws
        have : sp ('(' :: (ta ++ (w3 ++ '(' :: x))) = ('(' :: ta) ++ (w3 ++ '(' :: x) := by
          simp [sp, ps]
        rw [this, iha k _ (by simp only [List.length_cons] at hk ⊢; omega)]
        simp [sp_skip h3 ps]
      have W3 : ∀ x, ws (node g k) ('(' :: (tb ++ (w4 ++ ')' :: x))) = some (high, ')' :: x) := by
        intro x
        unfold ws
        have : sp ('(' :: (tb ++ (w4 ++ ')' :: x))) = ('(' :: tb) ++ (w4 ++ ')' :: x) := by
          simp [sp, ps]
        rw [this, ihb k _ (by simp only [List.length_cons] at hk ⊢; omega)]
        simp [sp_skip h4 ps']
      rw [W1]
      simp only
      rw [W2]
      simp only
      rw [W3]
      simp [tag]

/-- The parser accepts exactly the texts that begin with a text of a node, and returns that node. -/
theorem parseWith_iff {N : Type} {g : Grammar N} {c1 c0 : Char} (hg : g.Ok c1 c0) {l : List Char} {n : N} :
    parseWith g l = some n ↔ ∃ t r, l = t ++ r ∧ Reads g t n := by
  unfold parseWith
  constructor
  · intro h
    cases e : node g (l.length + 1) l with
    | none => simp [e] at h
    | some x =>
      simp only [e, Option.map_some, Option.some.injEq] at h
      obtain ⟨t, ht, hr⟩ := node_sound g _ _ x.1 x.2 e
      exact ⟨t, x.2, ht, h ▸ hr⟩
  · rintro ⟨t, r, rfl, hr⟩
    rw [node_complete hg hr _ r (by simp only [List.length_append]; omega)]
    rfl

end Verif.Text
