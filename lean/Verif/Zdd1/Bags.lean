import Verif.Zdd1.Foreign
import Verif.Zdd1.Meet
import Mathlib.Data.Multiset.Fintype
import Mathlib.Data.Prod.Lex

/-!
# v1 trees from combinations given with repeated items (C106)

A repeated item stands twice on a path.  Numbering the copies of each item along a path turns such a
diagram into an ordinary one, over copies of items; all operations respect the numbering.
-/

set_option linter.unusedSimpArgs false
set_option linter.unusedVariables false
set_option linter.unusedSectionVars false

namespace Verif.Zdd1
open Verif Verif.Weave Verif.Spec

universe u

namespace Node

/-- The root id (if any) is `x` or after.  Not code: used to state or prove properties. -/
def AtLeast (x : Nat) : Node → Prop
  | .Branch i _ _ => x ≤ i
  | _ => True

/-- Ids ascend along every path, strictly so on the low side, and no high child is `Leaf(false)`.
Not code: used to state or prove properties. -/
def Weak : Node → Prop
  | .Branch i l h => Above i l ∧ AtLeast i h ∧ h ≠ .Leaf false ∧ l.Weak ∧ h.Weak
  | _ => True

theorem atLeast_iff {x : Nat} {n : Node} : AtLeast x n ↔ ∀ y, y < x → Above y n := by
  cases n with
  | Leaf => simp [AtLeast, Above]
  | Branch i l h =>
    simp only [AtLeast, Above]
    constructor
    · intro h y hy; omega
    · intro h
      by_contra hc
      have := h i (by omega)
      omega

theorem Above.atLeast {x y : Nat} {n : Node} (h : Above x n) (hy : y ≤ x) : AtLeast y n := by
  cases n <;> simp_all [Above, AtLeast]; omega

theorem AtLeast.above {x y : Nat} {n : Node} (h : AtLeast x n) (hy : y < x) : Above y n := by
  cases n <;> simp_all [Above, AtLeast]; omega

theorem Ordered.weak {n : Node} (o : n.Ordered) : n.Weak := by
  induction n with
  | Leaf => trivial
  | Branch i l h ihl ihh =>
    simp only [Ordered] at o
    exact ⟨o.1, o.2.1.atLeast le_rfl, o.2.2.1, ihl o.2.2.2.1, ihh o.2.2.2.2⟩

theorem finish_weak {i : Nat} {l h : Node} (ol : l.Weak) (oh : h.Weak) (al : Above i l)
    (ah : AtLeast i h) : (finish i l h).Weak ∧ ∀ x, x < i → Above x (finish i l h) := by
  unfold finish
  split_ifs with e
  · exact ⟨ol, fun x hx => al.mono (by omega)⟩
  · exact ⟨⟨al, ah, e, ol, oh⟩, fun x hx => hx⟩

/-- What the operations keep.  Not code: used to state or prove properties. -/
def Keeps (a b r : Node) : Prop := r.Weak ∧ ∀ x, Above x a → Above x b → Above x r

theorem Keeps.atLeast {a b r : Node} (h : Keeps a b r) {x : Nat} (ha : AtLeast x a) (hb : AtLeast x b) :
    AtLeast x r :=
  atLeast_iff.2 fun y hy => h.2 y (ha.above hy) (hb.above hy)

theorem union_weak (a b : Node) (oa : a.Weak) (ob : b.Weak) : Keeps a b (union a b) := by
  fun_induction union a b with
  | case1 a => exact ⟨oa, fun _ h _ => h⟩
  | case2 a _ => exact ⟨oa, fun _ h _ => h⟩
  | case3 b _ _ => exact ⟨ob, fun _ _ h => h⟩
  | case4 h => exact absurd rfl h
  | case5 i l h _ ih =>
    simp only [Weak] at oa
    obtain ⟨o, ab⟩ := ih oa.2.2.2.1 trivial
    obtain ⟨f1, f2⟩ := finish_weak o oa.2.2.2.2 (ab i oa.1 trivial) oa.2.1
    exact ⟨f1, fun x h1 _ => f2 x h1⟩
  | case6 i l h _ ih =>
    simp only [Weak] at ob
    obtain ⟨o, ab⟩ := ih trivial ob.2.2.2.1
    obtain ⟨f1, f2⟩ := finish_weak o ob.2.2.2.2 (ab i trivial ob.1) ob.2.1
    exact ⟨f1, fun x _ h1 => f2 x h1⟩
  | case7 i l h j l' h' hlt _ ih =>
    simp only [Weak] at oa
    obtain ⟨o, ab⟩ := ih oa.2.2.2.1 ob
    obtain ⟨f1, f2⟩ := finish_weak o oa.2.2.2.2 (ab i oa.1 hlt) oa.2.1
    exact ⟨f1, fun x h1 _ => f2 x h1⟩
  | case8 i l h j l' h' _ hlt _ ih =>
    simp only [Weak] at ob
    obtain ⟨o, ab⟩ := ih oa ob.2.2.2.1
    obtain ⟨f1, f2⟩ := finish_weak o ob.2.2.2.2 (ab j hlt ob.1) ob.2.1
    exact ⟨f1, fun x _ h1 => f2 x h1⟩
  | case9 i l h j l' h' h1 h2 _ ih1 ih2 =>
    obtain rfl : i = j := by omega
    simp only [Weak] at oa ob
    obtain ⟨o1, ab1⟩ := ih1 oa.2.2.2.1 ob.2.2.2.1
    have k2 := ih2 oa.2.2.2.2 ob.2.2.2.2
    obtain ⟨f1, f2⟩ := finish_weak o1 k2.1 (ab1 i oa.1 ob.1) (k2.atLeast oa.2.1 ob.2.1)
    exact ⟨f1, fun x h1 _ => f2 x h1⟩

theorem intersect_weak (a b : Node) (oa : a.Weak) (ob : b.Weak) : Keeps a b (intersect a b) := by
  fun_induction intersect a b with
  | case1 a => exact ⟨oa, fun _ h _ => h⟩
  | case2 a _ => exact ⟨oa, fun _ h _ => h⟩
  | case3 b _ _ => exact ⟨ob, fun _ _ h => h⟩
  | case4 => exact ⟨trivial, fun _ _ _ => trivial⟩
  | case5 => exact ⟨trivial, fun _ _ _ => trivial⟩
  | case6 i l h j l' h' hlt _ ih =>
    simp only [Weak] at oa
    have k := ih oa.2.2.2.2 ob
    obtain ⟨f1, f2⟩ := finish_weak oa.2.2.2.1 k.1 oa.1 (k.atLeast oa.2.1 (Nat.le_of_lt hlt))
    exact ⟨f1, fun x h1 _ => f2 x h1⟩
  | case7 i l h j l' h' _ hlt _ ih =>
    simp only [Weak] at ob
    have k := ih oa ob.2.2.2.2
    obtain ⟨f1, f2⟩ := finish_weak ob.2.2.2.1 k.1 ob.1 (k.atLeast (Nat.le_of_lt hlt) ob.2.1)
    exact ⟨f1, fun x _ h1 => f2 x h1⟩
  | case8 i l h j l' h' h1 h2 _ ih1 ih2 =>
    obtain rfl : i = j := by omega
    simp only [Weak] at oa ob
    obtain ⟨o1, ab1⟩ := ih1 oa.2.2.2.1 ob.2.2.2.1
    have k2 := ih2 oa.2.2.2.2 ob.2.2.2.2
    obtain ⟨f1, f2⟩ := finish_weak o1 k2.1 (ab1 i oa.1 ob.1) (k2.atLeast oa.2.1 ob.2.1)
    exact ⟨f1, fun x h1 _ => f2 x h1⟩

theorem product_weak (a b : Node) (oa : a.Weak) (ob : b.Weak) : Keeps a b (product a b) := by
  fun_induction product a b with
  | case1 a => exact ⟨oa, fun _ h _ => h⟩
  | case2 a _ => exact ⟨oa, fun _ h _ => h⟩
  | case3 b _ _ => exact ⟨ob, fun _ _ h => h⟩
  | case4 => exact ⟨trivial, fun _ _ _ => trivial⟩
  | case5 => exact ⟨trivial, fun _ _ _ => trivial⟩
  | case6 i l h j l' h' hlt _ ih1 ih2 =>
    simp only [Weak] at oa
    obtain ⟨o1, ab1⟩ := ih1 oa.2.2.2.1 ob
    have k2 := ih2 oa.2.2.2.2 ob
    obtain ⟨f1, f2⟩ := finish_weak o1 k2.1 (ab1 i oa.1 hlt) (k2.atLeast oa.2.1 (Nat.le_of_lt hlt))
    exact ⟨f1, fun x h1 _ => f2 x h1⟩
  | case7 i l h j l' h' _ hlt _ ih1 ih2 =>
    simp only [Weak] at ob
    obtain ⟨o1, ab1⟩ := ih1 oa ob.2.2.2.1
    have k2 := ih2 oa ob.2.2.2.2
    obtain ⟨f1, f2⟩ := finish_weak o1 k2.1 (ab1 j hlt ob.1) (k2.atLeast (Nat.le_of_lt hlt) ob.2.1)
    exact ⟨f1, fun x _ h1 => f2 x h1⟩
  | case8 i l h j l' h' h1 h2 _ ih1 ih2 =>
    obtain rfl : i = j := by omega
    simp only [Weak] at oa ob
    obtain ⟨o1, ab1⟩ := ih1 oa.2.2.2.1 ob.2.2.2.1
    have k2 := ih2 oa.2.2.2.2 ob.2.2.2.2
    obtain ⟨f1, f2⟩ := finish_weak o1 k2.1 (ab1 i oa.1 ob.1) (k2.atLeast oa.2.1 ob.2.1)
    exact ⟨f1, fun x h1 _ => f2 x h1⟩

theorem weak_required (l : List Nat) (hl : l.Pairwise (fun a b => b ≤ a)) (n : Node) (hn : n.Weak)
    (hne : n ≠ .Leaf false) (hab : ∀ i ∈ l, AtLeast i n) :
    (l.foldl (fun next id => Node.requiredBranch id next) n).Weak := by
  induction l generalizing n with
  | nil => exact hn
  | cons i l ih =>
    rw [List.foldl_cons]
    refine ih hl.of_cons _ ⟨trivial, hab i (by simp), hne, trivial, hn⟩ (by simp [requiredBranch, branch]) ?_
    intro j hj
    exact (List.pairwise_cons.mp hl).1 j hj

/-! ### numbering the copies -/

/-- The number of the next copy of `i`, when the last item was copy `c - 1` of `last`.
Not code: used to state or prove properties. -/
def copyNo (last c i : Nat) : Nat := if i = last then c else 0

/-- The diagram over numbered copies: copy `k` of id `i` has the id `i * K + k`.
Not code: used to state or prove properties. -/
def spread (K : Nat) : Nat → Nat → Node → Node
  | last, c, .Branch i l h =>
    .Branch (i * K + copyNo last c i) (spread K last c l) (spread K i (copyNo last c i + 1) h)
  | _, _, .Leaf b => .Leaf b

/-- `K` numbers are enough.  Not code: used to state or prove properties. -/
def CopyFits (K : Nat) : Nat → Nat → Node → Prop
  | last, c, .Branch i l h =>
    copyNo last c i < K ∧ CopyFits K last c l ∧ CopyFits K i (copyNo last c i + 1) h
  | _, _, .Leaf _ => True

/-- The largest number of items on a path.  Not code: used to state or prove properties. -/
def depth : Node → Nat
  | .Branch _ l h => max l.depth (h.depth + 1)
  | .Leaf _ => 0

theorem copyNo_le (last c i : Nat) : copyNo last c i ≤ c := by unfold copyNo; split_ifs <;> omega

theorem fits_of_depth {K : Nat} (n : Node) (last c : Nat) (h : c + n.depth ≤ K) : CopyFits K last c n := by
  induction n generalizing last c with
  | Leaf => trivial
  | Branch i l hh ihl ihh =>
    have := copyNo_le last c i
    simp only [depth] at h
    exact ⟨by omega, ihl _ _ (by omega), ihh _ _ (by omega)⟩

theorem copyNo_above {last c i : Nat} (h : last < i) : copyNo last c i = 0 := by
  unfold copyNo; rw [if_neg (by omega)]

theorem spread_above (K : Nat) {n : Node} (w : n.Weak) {x y : Nat} (hx : Above x n) (hy : Above y n) (c d : Nat) :
    spread K x c n = spread K y d n ∧ (CopyFits K x c n ↔ CopyFits K y d n) := by
  induction n with
  | Leaf => exact ⟨rfl, Iff.rfl⟩
  | Branch i l h ihl ihh =>
    simp only [Weak] at w
    simp only [Above] at hx hy
    obtain ⟨e1, e2⟩ := ihl w.2.2.2.1 (w.1.mono (by omega)) (w.1.mono (by omega))
    simp only [spread, CopyFits]
    rw [copyNo_above hx, copyNo_above hy, e1, e2]
    exact ⟨rfl, Iff.rfl⟩

theorem spread_false {K last c : Nat} {n : Node} : spread K last c n = .Leaf false ↔ n = .Leaf false := by
  cases n <;> simp [spread]

theorem mul_lt_copy {K i j k m : Nat} (h : i < j) (hk : k < K) : i * K + k < j * K + m := by
  have : (i + 1) * K ≤ j * K := Nat.mul_le_mul_right _ h
  rw [Nat.add_mul] at this
  omega

theorem copy_inj {K i j k m : Nat} (hk : k < K) (hm : m < K) (h : i * K + k = j * K + m) : i = j ∧ k = m := by
  rcases Nat.lt_trichotomy i j with h' | h' | h'
  · have := mul_lt_copy (m := m) h' hk; omega
  · subst h'; exact ⟨rfl, by omega⟩
  · have := mul_lt_copy (m := k) h' hm; omega

theorem spread_ordered {K : Nat} {n : Node} (w : n.Weak) {last c : Nat} (ha : AtLeast last n) (hc : c ≤ K)
    (hf : CopyFits K last c n) :
    (spread K last c n).Ordered ∧ AtLeast (last * K + c) (spread K last c n) := by
  induction n generalizing last c with
  | Leaf => exact ⟨trivial, trivial⟩
  | Branch i l h ihl ihh =>
    simp only [Weak] at w
    simp only [CopyFits] at hf
    simp only [AtLeast] at ha
    simp only [spread]
    have hk : copyNo last c i + 1 ≤ K := hf.1
    have el := spread_above K w.2.2.2.1 (x := last) (y := i) (w.1.mono ha) w.1 c (copyNo last c i + 1)
    obtain ⟨o1, a1⟩ := ihl w.2.2.2.1 (w.1.atLeast le_rfl) hk (el.2.1 hf.2.1)
    obtain ⟨o2, a2⟩ := ihh w.2.2.2.2 w.2.1 hk hf.2.2
    rw [el.1]
    refine ⟨⟨a1.above (by omega), a2.above (by omega), fun e => w.2.2.1 (spread_false.1 e), o1, o2⟩, ?_⟩
    simp only [AtLeast]
    rcases Nat.lt_or_eq_of_le ha with h' | h'
    · have : (last + 1) * K ≤ i * K := Nat.mul_le_mul_right _ h'
      rw [Nat.add_mul] at this
      omega
    · subst h'; simp [copyNo]

theorem spread_inj {K : Nat} {a b : Node} {last c : Nat} (fa : CopyFits K last c a) (fb : CopyFits K last c b)
    (h : spread K last c a = spread K last c b) : a = b := by
  induction a generalizing b last c with
  | Leaf => cases b <;> simp_all [spread]
  | Branch i l h ihl ihh =>
    cases b with
    | Leaf => simp [spread] at h
    | Branch j l' h' =>
      simp only [spread, Node.Branch.injEq] at h
      simp only [CopyFits] at fa fb
      obtain ⟨rfl, _⟩ := copy_inj fa.1 fb.1 h.1
      rw [ihl fa.2.1 fb.2.1 h.2.1, ihh fa.2.2 fb.2.2 h.2.2]

theorem spread_finish (K last c i : Nat) (l h : Node) : spread K last c (finish i l h) =
    finish (i * K + copyNo last c i) (spread K last c l) (spread K i (copyNo last c i + 1) h) := by
  unfold finish
  by_cases e : h = .Leaf false
  · subst e; simp [spread]
  · rw [if_neg e, if_neg (fun e' => e (spread_false.1 e'))]; rfl

theorem spread_union {K : Nat} (a b : Node) (wa : a.Weak) (wb : b.Weak) {last c : Nat}
    (la : AtLeast last a) (lb : AtLeast last b) (fa : CopyFits K last c a) (fb : CopyFits K last c b) :
    spread K last c (union a b) = union (spread K last c a) (spread K last c b) := by
  have key : ∀ {a b : Node}, CopyFits K last c a → CopyFits K last c b → ¬ a = b →
      ¬ spread K last c a = spread K last c b := fun fa fb h e => h (spread_inj fa fb e)
  fun_induction union a b generalizing last c with
  | case1 a => rw [union.eq_def (spread K last c a), if_pos rfl]
  | case2 a h =>
    rw [union.eq_def (spread K last c a), if_neg (key fa fb h)]
    cases a with
    | Leaf b => cases b <;> rfl
    | Branch => rfl
  | case3 b h1 h2 =>
    rw [union.eq_def, if_neg (key fa fb h2)]
    cases b with
    | Leaf b => cases b <;> simp_all [spread]
    | Branch => rfl
  | case4 h => exact absurd rfl h
  | case5 i l h hne ih =>
    rw [union.eq_def (spread K last c (.Branch i l h)), if_neg (key fa fb hne), spread_finish]
    simp only [Weak] at wa
    simp only [CopyFits] at fa
    simp only [AtLeast] at la
    rw [ih wa.2.2.2.1 trivial (wa.1.atLeast la) trivial fa.2.1 trivial (fun fa fb h e => h (spread_inj fa fb e))]
    rfl
  | case6 i l h hne ih =>
    rw [union.eq_def (spread K last c (.Leaf true)), if_neg (key fa fb hne), spread_finish]
    simp only [Weak] at wb
    simp only [CopyFits] at fb
    simp only [AtLeast] at lb
    rw [ih trivial wb.2.2.2.1 trivial (wb.1.atLeast lb) trivial fb.2.1 (fun fa fb h e => h (spread_inj fa fb e))]
    rfl
  | case7 i l h j l' h' hne hlt ih =>
    rw [union.eq_def (spread K last c (.Branch i l h)), if_neg (key fa fb hlt), spread_finish]
    simp only [Weak] at wa
    simp only [CopyFits] at fa
    simp only [AtLeast] at la
    rw [ih wa.2.2.2.1 wb (wa.1.atLeast la) lb fa.2.1 fb (fun fa fb h e => h (spread_inj fa fb e))]
    simp only [spread]
    rw [if_pos (mul_lt_copy hne fa.1)]
  | case8 i l h j l' h' hne hlt hne' ih =>
    rw [union.eq_def (spread K last c (.Branch i l h)), if_neg (key fa fb hne'), spread_finish]
    simp only [Weak] at wb
    simp only [CopyFits] at fb
    simp only [AtLeast] at lb
    rw [ih wa wb.2.2.2.1 la (wb.1.atLeast lb) fa fb.2.1 (fun fa fb h e => h (spread_inj fa fb e))]
    simp only [spread]
    have := mul_lt_copy (m := copyNo last c i) hlt fb.1
    rw [if_neg (by omega), if_pos this]
  | case9 i l h j l' h' h1 h2 hne ih1 ih2 =>
    obtain rfl : i = j := by omega
    rw [union.eq_def (spread K last c (.Branch i l h)), if_neg (key fa fb hne), spread_finish]
    simp only [Weak] at wa wb
    simp only [CopyFits] at fa fb
    simp only [AtLeast] at la
    rw [ih1 wa.2.2.2.1 wb.2.2.2.1 (wa.1.atLeast la) (wb.1.atLeast la) fa.2.1 fb.2.1
      (fun fa fb h e => h (spread_inj fa fb e)),
      ih2 wa.2.2.2.2 wb.2.2.2.2 wa.2.1 wb.2.1 fa.2.2 fb.2.2 (fun fa fb h e => h (spread_inj fa fb e))]
    simp only [spread]
    rw [if_neg (by omega), if_neg (by omega)]

theorem spread_intersect {K : Nat} (a b : Node) (wa : a.Weak) (wb : b.Weak) {last c : Nat}
    (la : AtLeast last a) (lb : AtLeast last b) (fa : CopyFits K last c a) (fb : CopyFits K last c b) :
    spread K last c (intersect a b) = intersect (spread K last c a) (spread K last c b) := by
  have key : ∀ {a b : Node}, CopyFits K last c a → CopyFits K last c b → ¬ a = b →
      ¬ spread K last c a = spread K last c b := fun fa fb h e => h (spread_inj fa fb e)
  fun_induction intersect a b generalizing last c with
  | case1 a => rw [intersect.eq_def (spread K last c a), if_pos rfl]
  | case2 a h =>
    rw [intersect.eq_def (spread K last c a), if_neg (key fa fb h)]
    cases a with
    | Leaf b => cases b <;> rfl
    | Branch => rfl
  | case3 b h1 h2 =>
    rw [intersect.eq_def, if_neg (key fa fb h2)]
    cases b with
    | Leaf b => cases b <;> simp_all [spread]
    | Branch => rfl
  | case4 a h1 h2 =>
    rw [intersect.eq_def, if_neg (key fa fb (by assumption))]
    cases a with
    | Leaf b => cases b <;> simp_all [spread]
    | Branch => rfl
  | case5 b h1 h2 =>
    rw [intersect.eq_def, if_neg (key fa fb (by assumption))]
    cases b with
    | Leaf b => cases b <;> simp_all [spread]
    | Branch => rfl
  | case6 i l h j l' h' hlt hne ih =>
    rw [intersect.eq_def (spread K last c (.Branch i l h)), if_neg (key fa fb hne), spread_finish]
    simp only [Weak] at wa
    have fa' := fa
    simp only [CopyFits] at fa
    simp only [AtLeast] at la
    have eb := spread_above K wb (x := last) (y := i) (show last < j by omega) hlt c (copyNo last c i + 1)
    rw [ih wa.2.2.2.2 wb wa.2.1 (Nat.le_of_lt hlt) fa.2.2 (eb.2.1 fb) (fun fa fb h e => h (spread_inj fa fb e)),
      ← eb.1]
    simp only [spread]
    rw [if_pos (mul_lt_copy hlt fa.1)]
  | case7 i l h j l' h' hne hlt hne' ih =>
    rw [intersect.eq_def (spread K last c (.Branch i l h)), if_neg (key fa fb hne'), spread_finish]
    simp only [Weak] at wb
    simp only [CopyFits] at fb
    simp only [AtLeast] at lb
    have ea := spread_above K wa (x := last) (y := j) (show last < i by omega) hlt c (copyNo last c j + 1)
    rw [ih wa wb.2.2.2.2 (Nat.le_of_lt hlt) wb.2.1 (ea.2.1 fa) fb.2.2 (fun fa fb h e => h (spread_inj fa fb e)),
      ← ea.1]
    simp only [spread]
    have := mul_lt_copy (m := copyNo last c i) hlt fb.1
    rw [if_neg (by omega), if_pos this]
  | case8 i l h j l' h' h1 h2 hne ih1 ih2 =>
    obtain rfl : i = j := by omega
    rw [intersect.eq_def (spread K last c (.Branch i l h)), if_neg (key fa fb hne), spread_finish]
    simp only [Weak] at wa wb
    simp only [CopyFits] at fa fb
    simp only [AtLeast] at la
    rw [ih1 wa.2.2.2.1 wb.2.2.2.1 (wa.1.atLeast la) (wb.1.atLeast la) fa.2.1 fb.2.1
      (fun fa fb h e => h (spread_inj fa fb e)),
      ih2 wa.2.2.2.2 wb.2.2.2.2 wa.2.1 wb.2.1 fa.2.2 fb.2.2 (fun fa fb h e => h (spread_inj fa fb e))]
    simp only [spread]
    rw [if_neg (by omega), if_neg (by omega)]

theorem spread_product {K : Nat} (a b : Node) (wa : a.Weak) (wb : b.Weak) {last c : Nat}
    (la : AtLeast last a) (lb : AtLeast last b) (fa : CopyFits K last c a) (fb : CopyFits K last c b) :
    spread K last c (product a b) = product (spread K last c a) (spread K last c b) := by
  have key : ∀ {a b : Node}, CopyFits K last c a → CopyFits K last c b → ¬ a = b →
      ¬ spread K last c a = spread K last c b := fun fa fb h e => h (spread_inj fa fb e)
  fun_induction product a b generalizing last c with
  | case1 a => rw [product.eq_def (spread K last c a), if_pos rfl]
  | case2 a h =>
    rw [product.eq_def (spread K last c a), if_neg (key fa fb h)]
    cases a with
    | Leaf b => cases b <;> rfl
    | Branch => rfl
  | case3 b h1 h2 =>
    rw [product.eq_def, if_neg (key fa fb h2)]
    cases b with
    | Leaf b => cases b <;> simp_all [spread]
    | Branch => rfl
  | case4 a h1 h2 =>
    rw [product.eq_def, if_neg (key fa fb (by assumption))]
    cases a with
    | Leaf b => cases b <;> simp_all [spread]
    | Branch => rfl
  | case5 b h1 h2 =>
    rw [product.eq_def, if_neg (key fa fb (by assumption))]
    cases b with
    | Leaf b => cases b <;> simp_all [spread]
    | Branch => rfl
  | case6 i l h j l' h' hlt hne ih1 ih2 =>
    rw [product.eq_def (spread K last c (.Branch i l h)), if_neg (key fa fb hne), spread_finish]
    simp only [Weak] at wa
    simp only [CopyFits] at fa
    simp only [AtLeast] at la
    have eb := spread_above K wb (x := last) (y := i) (show last < j by omega) hlt c (copyNo last c i + 1)
    rw [ih1 wa.2.2.2.1 wb (wa.1.atLeast la) lb fa.2.1 fb (fun fa fb h e => h (spread_inj fa fb e)),
      ih2 wa.2.2.2.2 wb wa.2.1 (Nat.le_of_lt hlt) fa.2.2 (eb.2.1 fb) (fun fa fb h e => h (spread_inj fa fb e)),
      ← eb.1]
    simp only [spread]
    rw [if_pos (mul_lt_copy hlt fa.1)]
  | case7 i l h j l' h' hne hlt hne' ih1 ih2 =>
    rw [product.eq_def (spread K last c (.Branch i l h)), if_neg (key fa fb hne'), spread_finish]
    simp only [Weak] at wb
    simp only [CopyFits] at fb
    simp only [AtLeast] at lb
    have ea := spread_above K wa (x := last) (y := j) (show last < i by omega) hlt c (copyNo last c j + 1)
    rw [ih1 wa wb.2.2.2.1 la (wb.1.atLeast lb) fa fb.2.1 (fun fa fb h e => h (spread_inj fa fb e)),
      ih2 wa wb.2.2.2.2 (Nat.le_of_lt hlt) wb.2.1 (ea.2.1 fa) fb.2.2 (fun fa fb h e => h (spread_inj fa fb e)),
      ← ea.1]
    simp only [spread]
    have := mul_lt_copy (m := copyNo last c i) hlt fb.1
    rw [if_neg (by omega), if_pos this]
  | case8 i l h j l' h' h1 h2 hne ih1 ih2 =>
    obtain rfl : i = j := by omega
    rw [product.eq_def (spread K last c (.Branch i l h)), if_neg (key fa fb hne), spread_finish]
    simp only [Weak] at wa wb
    simp only [CopyFits] at fa fb
    simp only [AtLeast] at la
    rw [ih1 wa.2.2.2.1 wb.2.2.2.1 (wa.1.atLeast la) (wb.1.atLeast la) fa.2.1 fb.2.1
      (fun fa fb h e => h (spread_inj fa fb e)),
      ih2 wa.2.2.2.2 wb.2.2.2.2 wa.2.1 wb.2.1 fa.2.2 fb.2.2 (fun fa fb h e => h (spread_inj fa fb e))]
    simp only [spread]
    rw [if_neg (by omega), if_neg (by omega)]

/-! ### paths -/

/-- The numbered copies of a path.  Not code: used to state or prove properties. -/
def mark (K : Nat) : Nat → Nat → List Nat → List Nat
  | _, _, [] => []
  | last, c, i :: w => (i * K + copyNo last c i) :: mark K i (copyNo last c i + 1) w

theorem paths_spread (K : Nat) (n : Node) (last c : Nat) :
    (spread K last c n).paths = n.paths.map (mark K last c) := by
  induction n generalizing last c with
  | Leaf b => cases b <;> rfl
  | Branch i l h ihl ihh =>
    simp only [spread, paths, ihl, ihh, List.map_append, List.map_map]
    congr 1

theorem paths_weak {n : Node} (w : n.Weak) {x : Nat} (hx : AtLeast x n) :
    ∀ p ∈ n.paths, p.Pairwise (· ≤ ·) ∧ ∀ i ∈ p, x ≤ i := by
  induction n generalizing x with
  | Leaf b => cases b <;> simp [paths]
  | Branch i l h ihl ihh =>
    simp only [Weak] at w
    simp only [AtLeast] at hx
    intro p hp
    simp only [paths, List.mem_append, List.mem_map] at hp
    rcases hp with ⟨q, hq, rfl⟩ | hp
    · obtain ⟨h1, h2⟩ := ihh w.2.2.2.2 w.2.1 q hq
      refine ⟨List.pairwise_cons.2 ⟨h2, h1⟩, fun j hj => ?_⟩
      rcases List.mem_cons.1 hj with rfl | hj
      · exact hx
      · exact le_trans hx (h2 j hj)
    · exact ihl w.2.2.2.1 (w.1.atLeast hx) p hp

theorem paths_depth (n : Node) : ∀ p ∈ n.paths, p.length ≤ n.depth := by
  induction n with
  | Leaf b => cases b <;> simp [paths]
  | Branch i l h ihl ihh =>
    intro p hp
    simp only [paths, List.mem_append, List.mem_map] at hp
    simp only [depth]
    rcases hp with ⟨q, hq, rfl⟩ | hp
    · have := ihh q hq; simp only [List.length_cons]; omega
    · have := ihl p hp; omega

theorem mem_mark (K : Nat) (w : List Nat) (hw : w.Pairwise (· ≤ ·)) (last c : Nat) (hl : ∀ i ∈ w, last ≤ i) (j : Nat) :
    j ∈ mark K last c w ↔ ∃ i k, j = i * K + k ∧ copyNo last c i ≤ k ∧ k < copyNo last c i + w.count i := by
  induction w generalizing last c with
  | nil => simp [mark]
  | cons a w ih =>
    obtain ⟨h1, h2⟩ := List.pairwise_cons.1 hw
    simp only [mark, List.mem_cons]
    rw [ih h2 a _ h1]
    constructor
    · rintro (rfl | ⟨i, k, rfl, h3, h4⟩)
      · exact ⟨a, _, rfl, le_rfl, by simp⟩
      · refine ⟨i, k, rfl, ?_⟩
        by_cases e : i = a
        · subst e
          rw [show copyNo i (copyNo last c i + 1) i = copyNo last c i + 1 by simp [copyNo]] at h3 h4
          rw [List.count_cons_self]
          omega
        · rw [show copyNo a (copyNo last c a + 1) i = 0 by simp [copyNo, e]] at h3 h4
          have hc : List.count i (a :: w) = List.count i w := List.count_cons_of_ne (Ne.symm e)
          rw [hc]
          have hm : i ∈ w := List.count_pos_iff.1 (by omega)
          have hi := h1 i hm
          have ha := hl a (by simp)
          have : copyNo last c i = 0 := copyNo_above (by omega)
          omega
    · rintro ⟨i, k, rfl, h3, h4⟩
      by_cases e : i = a
      · subst e
        rw [List.count_cons_self] at h4
        by_cases ek : k = copyNo last c i
        · exact Or.inl (by rw [ek])
        · refine Or.inr ⟨i, k, rfl, ?_⟩
          rw [show copyNo i (copyNo last c i + 1) i = copyNo last c i + 1 by simp [copyNo]]
          omega
      · have hc : List.count i (a :: w) = List.count i w := List.count_cons_of_ne (Ne.symm e)
        rw [hc] at h4
        have hm : i ∈ w := List.count_pos_iff.1 (by omega)
        have hi := h1 i hm
        have ha := hl a (by simp)
        have : copyNo last c i = 0 := copyNo_above (by omega)
        refine Or.inr ⟨i, k, rfl, ?_⟩
        rw [show copyNo a (copyNo last c a + 1) i = 0 by simp [copyNo, e]]
        omega

/-- The copies on a path of a weakly ordered diagram. -/
theorem mem_mark_zero (K : Nat) {n : Node} (w : n.Weak) {p : List Nat} (hp : p ∈ n.paths) (j : Nat) :
    j ∈ mark K 0 0 p ↔ ∃ i k, j = i * K + k ∧ k < p.count i := by
  obtain ⟨h1, h2⟩ := paths_weak w (x := 0) (by cases n <;> simp [AtLeast]) p hp
  rw [mem_mark K p h1 0 0 (fun i _ => Nat.zero_le i)]
  simp [copyNo]

end Node

variable {T : Type u} [LinearOrder T]

/-! ### every tree made over one universe is weakly ordered -/

theorem tree_weak (items c : List T) : ((Universe.fromVec items).tree c).root.Weak := by
  refine Node.weak_required _ ?_ _ trivial (by simp) (fun _ _ => trivial)
  rw [List.pairwise_reverse]
  exact pairwise_sorted _

theorem foldUnion_weak (ts : List (Tree T)) (t0 : Tree T) (h0 : t0.root.Weak)
    (h : ∀ t ∈ ts, t.root.Weak) : (ts.foldl (fun root next => root.union next) t0).root.Weak := by
  induction ts generalizing t0 with
  | nil => exact h0
  | cons a ts ih =>
    exact ih _ (Node.union_weak _ _ h0 (h a (by simp))).1 (fun t ht => h t (by simp [ht]))

theorem Built.weak {P : List T → Prop} {items : List T} {t : Tree T} (h : Built P items t) : t.root.Weak := by
  induction h with
  | empty | unit => trivial
  | tree hc => exact tree_weak _ _
  | unique xs =>
    refine foldUnion_weak _ _ trivial ?_
    simp only [List.mem_map]; rintro _ ⟨x, _, rfl⟩; exact tree_weak _ _
  | hyper hc =>
    refine foldUnion_weak _ _ trivial ?_
    simp only [List.mem_map]; rintro _ ⟨x, hx, rfl⟩; exact tree_weak _ _
  | union _ _ ih1 ih2 => exact (Node.union_weak _ _ ih1 ih2).1
  | intersect _ _ ih1 ih2 => exact (Node.intersect_weak _ _ ih1 ih2).1
  | product _ _ ih1 ih2 => exact (Node.product_weak _ _ ih1 ih2).1
  | restrict inc exc hb ih =>
    rw [Tree.restrict, hb.univ_eq]
    refine foldUnion_weak _ _ trivial ?_
    simp only [List.mem_map]
    rintro _ ⟨c, hc, rfl⟩
    exact tree_weak _ _

/-! ### the universe of copies -/

/-- `K` copies of each item.  Not code: used to state or prove properties. -/
def copied (K : Nat) (items : List T) : List (T ×ₗ ℕ) :=
  items.flatMap (fun x => (List.range K).map (fun k => toLex (x, k)))

theorem copied_get (K : Nat) (items : List T) (i k : Nat) (hk : k < K) :
    (copied K items)[i * K + k]? = (items[i]?).map (fun x => toLex (x, k)) := by
  induction items generalizing i with
  | nil => simp [copied]
  | cons a items ih =>
    have hc : copied K (a :: items) = (List.range K).map (fun k => toLex (a, k)) ++ copied K items := by
      simp [copied]
    rw [hc]
    cases i with
    | zero =>
      rw [List.getElem?_append_left (by simpa using hk)]
      simp [hk]
    | succ i =>
      rw [List.getElem?_append_right (by simp [Nat.add_mul]; omega)]
      simp only [List.length_map, List.length_range, List.getElem?_cons_succ]
      rw [← ih i]
      congr 1
      rw [Nat.add_mul]; omega

theorem copied_some {K : Nat} {items : List T} {j : Nat} {e : T ×ₗ ℕ} :
    (copied K items)[j]? = some e ↔
      ∃ i, items[i]? = some (ofLex e).1 ∧ (ofLex e).2 < K ∧ j = i * K + (ofLex e).2 := by
  constructor
  · intro h
    have hK : 0 < K := by
      rcases Nat.eq_zero_or_pos K with rfl | h'
      · have : copied 0 items = [] := by simp [copied]
        rw [this] at h; simp at h
      · exact h'
    have hj : j / K * K + j % K = j := Nat.div_add_mod' j K
    have hm := Nat.mod_lt j hK
    have := copied_get K items (j / K) (j % K) hm
    rw [hj, h] at this
    cases hi : items[j / K]? with
    | none => rw [hi] at this; simp at this
    | some x =>
      rw [hi] at this
      simp only [Option.map_some, Option.some.injEq] at this
      subst this
      exact ⟨j / K, hi, hm, hj.symm⟩
  · rintro ⟨i, hi, hk, rfl⟩
    rw [copied_get K items i _ hk, hi]
    rfl

theorem lastAt_copied {K : Nat} {items : List T} {e : T ×ₗ ℕ} {j : Nat} :
    LastAt (copied K items) e j ↔
      ∃ i, LastAt items (ofLex e).1 i ∧ (ofLex e).2 < K ∧ j = i * K + (ofLex e).2 := by
  constructor
  · rintro ⟨h1, h2⟩
    obtain ⟨i, hi, hk, rfl⟩ := copied_some.1 h1
    refine ⟨i, ⟨hi, fun i' hi' e' => ?_⟩, hk, rfl⟩
    exact h2 (i' * K + (ofLex e).2) (Node.mul_lt_copy hi' hk) (copied_some.2 ⟨i', e', hk, rfl⟩)
  · rintro ⟨i, ⟨h1, h2⟩, hk, rfl⟩
    refine ⟨copied_some.2 ⟨i, h1, hk, rfl⟩, fun j hj e' => ?_⟩
    obtain ⟨i', hi', _, rfl⟩ := copied_some.1 e'
    refine h2 i' ?_ hi'
    by_contra hc
    have : i' * K ≤ i * K := Nat.mul_le_mul_right _ (by omega)
    omega

theorem known_copied {K : Nat} {items : List T} {i k : Nat} (hi : (Universe.fromVec items).Known i) (hk : k < K) :
    (Universe.fromVec (copied K items)).Known (i * K + k) := by
  obtain ⟨x, hx⟩ := hi
  exact ⟨toLex (x, k), Universe.index_last.2 (lastAt_copied.2 ⟨i, Universe.index_last.1 hx, hk, rfl⟩)⟩

/-- Copies in the order of the universe: by item, copies of one item by number.
Not code: used to state or prove properties. -/
def CopyBefore (items : List T) (a b : T ×ₗ ℕ) : Prop :=
  ItemBefore items (ofLex a).1 (ofLex b).1 ∨ ((ofLex a).1 = (ofLex b).1 ∧ (ofLex a).2 < (ofLex b).2)

theorem lastAt_unique {items : List T} {x : T} {i j : Nat} (hi : LastAt items x i) (hj : LastAt items x j) :
    i = j := by
  rcases Nat.lt_trichotomy i j with h | h | h
  · exact absurd hj.1 (hi.2 j h)
  · exact h
  · exact absurd hi.1 (hj.2 i h)

theorem before_copied {K : Nat} {items : List T} {a b : T ×ₗ ℕ} (ha : (ofLex a).2 < K) (hb : (ofLex b).2 < K)
    (ia : (ofLex a).1 ∈ items) (ib : (ofLex b).1 ∈ items) :
    ItemBefore (copied K items) a b ↔ CopyBefore items a b := by
  constructor
  · rintro ⟨i, j, hi, hj, hlt⟩
    obtain ⟨i', hi', _, rfl⟩ := lastAt_copied.1 hi
    obtain ⟨j', hj', _, rfl⟩ := lastAt_copied.1 hj
    rcases Nat.lt_trichotomy i' j' with h | h | h
    · exact Or.inl ⟨i', j', hi', hj', h⟩
    · subst h
      refine Or.inr ⟨?_, by omega⟩
      have := hi'.1.symm.trans hj'.1
      simpa using this
    · have := Node.mul_lt_copy (m := (ofLex a).2) h hb
      omega
  · rintro (⟨i, j, hi, hj, hlt⟩ | ⟨e, hlt⟩)
    · exact ⟨_, _, lastAt_copied.2 ⟨i, hi, ha, rfl⟩, lastAt_copied.2 ⟨j, hj, hb, rfl⟩, Node.mul_lt_copy hlt ha⟩
    · obtain ⟨i, hi⟩ := Universe.index_some.2 ia
      have hi := Universe.index_last.1 hi
      exact ⟨_, _, lastAt_copied.2 ⟨i, hi, ha, rfl⟩, lastAt_copied.2 ⟨i, by rw [← e]; exact hi, hb, rfl⟩, by omega⟩

/-- The tree over copies.  Not code: used to state or prove properties. -/
def spreadTree (K : Nat) (items : List T) (t : Tree T) : Tree (T ×ₗ ℕ) :=
  ⟨Node.spread K 0 0 t.root, Universe.fromVec (copied K items)⟩

theorem Node.atLeast_zero (n : Node) : AtLeast 0 n := by cases n <;> simp [AtLeast]

theorem Node.ids_spread {K : Nat} {items : List T} {n : Node} (h : n.Ids (Universe.fromVec items).Known) {last c : Nat}
    (hf : CopyFits K last c n) : (spread K last c n).Ids (Universe.fromVec (copied K items)).Known := by
  induction n generalizing last c with
  | Leaf => trivial
  | Branch i l hh ihl ihh =>
    obtain ⟨h1, h2, h3⟩ := h
    obtain ⟨f1, f2, f3⟩ := hf
    exact ⟨known_copied h1 f1, ihl h2 f2, ihh h3 f3⟩

theorem spread_built {P : List T → Prop} {items : List T} {t : Tree T} (h : Built P items t) {K : Nat}
    (hK : t.root.depth ≤ K) : Built List.Nodup (copied K items) (spreadTree K items t) := by
  have hf := Node.fits_of_depth (K := K) t.root 0 0 (by omega)
  exact built_of_known (Node.spread_ordered h.weak (Node.atLeast_zero _) (by omega) hf).1
    (Node.ids_spread h.ids hf)

/-! ### the bags of a tree -/

/-- The item paths to `true` of a traversed tree.  Not code: used to state or prove properties. -/
def TreeNode.routes : TreeNode T → List (List T)
  | .Branch value low high => high.routes.map (fun r => value :: r) ++ low.routes
  | .Leaf true => [[]]
  | .Leaf false => []

/-- What `traverse` shows: each path to `true`, with how often it passes each item.
Not code: used to state or prove properties. -/
def Tree.bags (t : Tree T) : Set (Multiset T) :=
  {m | ∃ n, t.traverse = some n ∧ ∃ r ∈ n.routes, (r : Multiset T) = m}

/-- The numbered copies of the items of a bag.  Not code: used to state or prove properties. -/
def copies (m : Multiset T) : Finset (T ×ₗ ℕ) := m.toEnumFinset.map toLex.toEmbedding

theorem mem_copies {m : Multiset T} {e : T ×ₗ ℕ} : e ∈ copies m ↔ (ofLex e).2 < m.count (ofLex e).1 := by
  simp only [copies, Finset.mem_map, Multiset.mem_toEnumFinset]
  constructor
  · rintro ⟨a, ha, rfl⟩; exact ha
  · intro h; exact ⟨ofLex e, h, rfl⟩

theorem copies_inj : Function.Injective (copies (T := T)) := by
  intro m n h
  ext x
  have key : ∀ k, k < m.count x ↔ k < n.count x := by
    intro k
    have := Finset.ext_iff.1 h (toLex (x, k))
    rw [mem_copies, mem_copies] at this
    exact this
  have := key (m.count x)
  have := key (n.count x)
  omega

theorem routes_eq {uni : Universe T} (n : Node) (m : TreeNode T) (h : fromNode uni n = some m) :
    m.routes = n.paths.map (fun p => p.filterMap uni.getItem) := by
  induction n generalizing m with
  | Leaf b => simp only [fromNode, Option.some.injEq] at h; subst h; cases b <;> rfl
  | Branch i l hh ihl ihh =>
    rw [fromNode] at h
    split at h
    · exact absurd h (by simp)
    rename_i x hx
    split at h
    · exact absurd h (by simp)
    rename_i a ha
    split at h
    · exact absurd h (by simp)
    rename_i b hb
    simp only [Option.some.injEq] at h
    subst h
    simp only [TreeNode.routes, Node.paths, ihl _ ha, ihh _ hb, List.map_append, List.map_map]
    congr 1
    refine List.map_congr_left fun p _ => ?_
    simp [hx]

theorem mem_bags {P : List T → Prop} {items : List T} {t : Tree T} (h : Built P items t) (m : Multiset T) :
    m ∈ t.bags ↔ ∃ p ∈ t.root.paths, m = ((p.filterMap (fun i => items[i]?) : List T) : Multiset T) := by
  obtain ⟨n, hn⟩ := traverse_total_partial (h.mono (fun _ _ => trivial))
  have hr := routes_eq _ _ hn
  rw [h.univ_eq] at hr
  constructor
  · rintro ⟨n', hn', r, hr', rfl⟩
    rw [hn] at hn'; cases hn'
    rw [hr] at hr'
    obtain ⟨p, hp, rfl⟩ := List.mem_map.1 hr'
    exact ⟨p, hp, rfl⟩
  · rintro ⟨p, hp, rfl⟩
    exact ⟨n, hn, _, by rw [hr]; exact List.mem_map.2 ⟨p, hp, rfl⟩, rfl⟩

theorem paths_known {P : Nat → Prop} {n : Node} (h : n.Ids P) : ∀ p ∈ n.paths, ∀ i ∈ p, P i := by
  intro p hp i hi
  exact h.mem ((Node.mem_paths n _).1 ⟨p, hp, rfl⟩) i (List.mem_toFinset.2 hi)

theorem count_items {items : List T} {x : T} {i : Nat} (hx : lookup x (Universe.fromVec items).itemIndex = some i)
    (p : List Nat) (hp : ∀ j ∈ p, (Universe.fromVec items).Known j) :
    (p.filterMap (fun i => items[i]?)).count x = p.count i := by
  induction p with
  | nil => rfl
  | cons j p ih =>
    obtain ⟨y, hy, ly⟩ := Universe.known_get (hp j (by simp))
    have hy' : items[j]? = some y := hy
    have ih := ih (fun j hj => hp j (by simp [hj]))
    rw [List.filterMap_cons_some hy', List.count_cons, List.count_cons, ih]
    have : (y == x) = (j == i) := by
      by_cases e : y = x
      · subst e; rw [hx] at ly; cases ly; simp
      · have : j ≠ i := by
          rintro rfl
          exact e (Universe.index_inj ly hx)
        simp [e, this]
    rw [this]

theorem family_spread {P : List T → Prop} {items : List T} {t : Tree T} (h : Built P items t) {K : Nat}
    (hK : t.root.depth ≤ K) : family (spreadTree K items t).combinations = copies '' t.bags := by
  have key : ∀ p ∈ t.root.paths, (Universe.fromVec (copied K items)).itemsOf (Node.mark K 0 0 p).toFinset =
      copies ((p.filterMap (fun i => items[i]?) : List T) : Multiset T) := by
    intro p hp
    have hkn := paths_known h.ids p hp
    ext e
    rw [Universe.mem_itemsOf, mem_copies]
    simp only [List.mem_toFinset, Multiset.coe_count]
    constructor
    · rintro ⟨j, hj, he⟩
      obtain ⟨i, k, rfl, hk⟩ := (Node.mem_mark_zero K h.weak hp j).1 hj
      have hkK : k < K := by
        have := Node.paths_depth _ p hp
        have := List.count_le_length (a := i) (l := p)
        omega
      obtain ⟨i', hi', hk', e'⟩ := copied_some.1 (show (copied K items)[_]? = some e from he)
      obtain ⟨rfl, rfl⟩ := Node.copy_inj hkK hk' e'
      have hip : i ∈ p := List.count_pos_iff.1 (by omega)
      obtain ⟨y, hy, ly⟩ := Universe.known_get (hkn i hip)
      have : some y = some (ofLex e).1 := hy.symm.trans hi'
      cases this
      rw [count_items ly p hkn]
      exact hk
    · intro hk
      have hm : (ofLex e).1 ∈ p.filterMap (fun i => items[i]?) := List.count_pos_iff.1 (by omega)
      obtain ⟨i, hip, hi⟩ := List.mem_filterMap.1 hm
      obtain ⟨y, hy, ly⟩ := Universe.known_get (hkn i hip)
      have : some y = some (ofLex e).1 := hy.symm.trans hi
      cases this
      rw [count_items ly p hkn] at hk
      refine ⟨i * K + (ofLex e).2, (Node.mem_mark_zero K h.weak hp _).2 ⟨i, _, rfl, hk⟩, ?_⟩
      have := Node.paths_depth _ p hp
      have := List.count_le_length (a := i) (l := p)
      exact copied_some.2 ⟨i, hi, by omega, rfl⟩
  ext A
  rw [Tree.mem_combinations]
  constructor
  · rintro ⟨s, hs, rfl⟩
    obtain ⟨q, hq, rfl⟩ := (Node.mem_paths _ _).2 hs
    rw [show (spreadTree K items t).root.paths = t.root.paths.map (Node.mark K 0 0) from
      Node.paths_spread _ _ _ _] at hq
    obtain ⟨p, hp, rfl⟩ := List.mem_map.1 hq
    exact ⟨_, (mem_bags h _).2 ⟨p, hp, rfl⟩, (key p hp).symm⟩
  · rintro ⟨m, hm, rfl⟩
    obtain ⟨p, hp, rfl⟩ := (mem_bags h _).1 hm
    refine ⟨(Node.mark K 0 0 p).toFinset, (Node.mem_paths _ _).1 ⟨Node.mark K 0 0 p, ?_, rfl⟩, (key p hp).symm⟩
    rw [show (spreadTree K items t).root.paths = t.root.paths.map (Node.mark K 0 0) from
      Node.paths_spread _ _ _ _]
    exact List.mem_map.2 ⟨p, hp, rfl⟩

/-! ### the bags decide everything -/

/-- C106: the combinations of a tree are the bags `traverse` shows, without the repetitions. -/
theorem combinations_bags {P : List T → Prop} {items : List T} {t : Tree T} (h : Built P items t) :
    family t.combinations = Multiset.toFinset '' t.bags := by
  have key : ∀ p : List Nat, (Universe.fromVec items).itemsOf p.toFinset =
      Multiset.toFinset ((p.filterMap (fun i => items[i]?) : List T) : Multiset T) := by
    intro p
    ext x
    rw [Universe.mem_itemsOf]
    simp only [List.mem_toFinset, Multiset.mem_toFinset, Multiset.mem_coe, List.mem_filterMap]
    rfl
  ext A
  rw [Tree.mem_combinations, h.univ_eq]
  constructor
  · rintro ⟨s, hs, rfl⟩
    obtain ⟨p, hp, rfl⟩ := (Node.mem_paths _ _).2 hs
    exact ⟨_, (mem_bags h _).2 ⟨p, hp, rfl⟩, (key p).symm⟩
  · rintro ⟨m, hm, rfl⟩
    obtain ⟨p, hp, rfl⟩ := (mem_bags h _).1 hm
    exact ⟨_, (Node.mem_paths _ _).1 ⟨p, hp, rfl⟩, (key p).symm⟩

/-- C106, C59 (exactly when it holds, for every two trees made over one universe): they are `==` iff
`traverse` shows the same bags of items. -/
theorem eq_iff_bags {P : List T → Prop} {items : List T} {a b : Tree T} (ha : Built P items a)
    (hb : Built P items b) : a = b ↔ a.bags = b.bags := by
  constructor
  · rintro rfl; rfl
  intro h
  have ka : a.root.depth ≤ max a.root.depth b.root.depth := le_max_left _ _
  have kb : b.root.depth ≤ max a.root.depth b.root.depth := le_max_right _ _
  have := (eq_iff_combinations_partial (spread_built ha ka) (spread_built hb kb)).2
    (by rw [family_spread ha ka, family_spread hb kb, h])
  have hr := Node.spread_inj (Node.fits_of_depth _ 0 0 (by omega)) (Node.fits_of_depth _ 0 0 (by omega))
    (congrArg Tree.root this)
  exact Tree.ext hr (ha.univ_eq.trans hb.univ_eq.symm)

/-- C106: the bags of a union are those of the operands. -/
theorem union_bags {P : List T → Prop} {items : List T} {a b : Tree T} (ha : Built P items a)
    (hb : Built P items b) : (a.union b).bags = a.bags ∪ b.bags := by
  obtain ⟨K, k1, k2, k3⟩ : ∃ K, a.root.depth ≤ K ∧ b.root.depth ≤ K ∧ (a.union b).root.depth ≤ K :=
    ⟨max a.root.depth (max b.root.depth (a.union b).root.depth), by omega, by omega, by omega⟩
  have e : spreadTree K items (a.union b) = (spreadTree K items a).union (spreadTree K items b) :=
    Tree.ext (Node.spread_union _ _ ha.weak hb.weak (Node.atLeast_zero _) (Node.atLeast_zero _)
      (Node.fits_of_depth _ 0 0 (by omega)) (Node.fits_of_depth _ 0 0 (by omega))) rfl
  apply Set.image_injective.2 (copies_inj (T := T))
  rw [← family_spread (ha.union hb) k3, e,
    union_exact (a := spreadTree K items a) (b := spreadTree K items b) rfl, family_spread ha k1, family_spread hb k2,
    Set.image_union]

/-- C106, C59: union of trees over one universe is associative up to `==`, whatever lists they were made
from. -/
theorem union_assoc_any {P : List T → Prop} {items : List T} {a b c : Tree T} (ha : Built P items a)
    (hb : Built P items b) (hc : Built P items c) : (a.union b).union c = a.union (b.union c) := by
  rw [eq_iff_bags ((ha.union hb).union hc) (ha.union (hb.union hc)), union_bags (ha.union hb) hc,
    union_bags ha hb, union_bags ha (hb.union hc), union_bags hb hc, Set.union_assoc]

theorem paths_chain (l : List Nat) (n : Node) (w : List Nat) (hn : n.paths = [w]) :
    (l.foldl (fun next id => Node.requiredBranch id next) n).paths = [l.reverse ++ w] := by
  induction l generalizing n w with
  | nil => simpa using hn
  | cons i l ih =>
    rw [List.foldl_cons, ih _ (i :: w) (by simp [Node.requiredBranch, Node.branch, Node.paths, hn])]
    simp

/-- C106: `tree(c)` has one bag: the known items of `c`, each as often as `c` gives it. -/
theorem tree_bags (items c : List T) :
    ((Universe.fromVec items).tree c).bags = {((c.filter (fun x => x ∈ items) : List T) : Multiset T)} := by
  have hp : ((Universe.fromVec items).tree c).root.paths =
      [sorted (c.filterMap (fun x => lookup x (Universe.fromVec items).itemIndex))] := by
    rw [Universe.tree, paths_chain _ _ [] rfl]
    simp
  have hf : (c.filterMap (fun x => lookup x (Universe.fromVec items).itemIndex)).filterMap (fun i => items[i]?) =
      c.filter (fun x => x ∈ items) := by
    rw [List.filterMap_filterMap]
    induction c with
    | nil => rfl
    | cons x c ih =>
      have ih := ih (paths_chain _ _ [] rfl |>.trans (by simp))
      cases hx : lookup x (Universe.fromVec items).itemIndex with
      | none =>
        have hn : x ∉ items := fun h' => by
          obtain ⟨i, hi⟩ := Universe.index_some.2 h'
          rw [hx] at hi; cases hi
        simp [hx, hn, ih]
      | some i =>
        have hm : x ∈ items := Universe.index_some.1 ⟨i, hx⟩
        have hg : items[i]? = some x := Universe.index_get hx
        simp [hx, hm, hg, ih]
  ext m
  rw [mem_bags (P := fun _ => True) (.tree trivial), hp]
  simp only [List.mem_singleton, exists_eq_left, Set.mem_singleton_iff]
  rw [← hf]
  rw [Multiset.coe_eq_coe.2 ((sorted_perm _).filterMap _)]

theorem foldUnion_bags {items : List T} (ts : List (Tree T)) (t0 : Tree T)
    (h0 : Built (fun _ => True) items t0) (h : ∀ t ∈ ts, Built (fun _ => True) items t) :
    (ts.foldl (fun root next => root.union next) t0).bags = t0.bags ∪ {m | ∃ t ∈ ts, m ∈ t.bags} := by
  induction ts generalizing t0 with
  | nil => ext m; simp
  | cons a ts ih =>
    rw [List.foldl_cons, ih _ (h0.union (h a (by simp))) (fun t ht => h t (by simp [ht])),
      union_bags h0 (h a (by simp))]
    ext m
    simp only [Set.mem_union, Set.mem_ofPred_eq, List.mem_cons, exists_eq_or_imp]
    tauto

/-- C106: `hyper_tree(cs)` has exactly the given combinations as bags, each cut down to the known items. -/
theorem hyper_tree_bags (items : List T) (cs : List (List T)) :
    ((Universe.fromVec items).hyperTree cs).bags =
      {m | ∃ c ∈ cs, m = ((c.filter (fun x => x ∈ items) : List T) : Multiset T)} := by
  rw [Universe.hyperTree, foldUnion_bags _ _ .empty (by
    simp only [List.mem_map]; rintro _ ⟨c, _, rfl⟩; exact .tree trivial)]
  ext m
  have : m ∉ ((Universe.fromVec items).emptyTree).bags := by
    rw [mem_bags (P := fun _ => True) .empty]; simp [Universe.emptyTree, Node.paths]
  simp only [Set.mem_union, this, false_or, Set.mem_ofPred_eq, List.mem_map]
  constructor
  · rintro ⟨_, ⟨c, hc, rfl⟩, hm⟩
    rw [tree_bags] at hm
    exact ⟨c, hc, hm⟩
  · rintro ⟨c, hc, rfl⟩
    exact ⟨_, ⟨c, hc, rfl⟩, by rw [tree_bags]; rfl⟩

/-- C106: `restrict` forgets repetitions: its bags are the combinations left, each item once. -/
theorem restrict_bags {P : List T → Prop} {items : List T} {t : Tree T} (h : Built P items t) (inc exc : List T) :
    (t.restrict inc exc).bags = Finset.val '' (family (t.combinationsWith inc exc)) := by
  rw [Tree.restrict, h.univ_eq, hyper_tree_bags]
  have key : ∀ c ∈ t.combinationsWith inc exc, c.filter (fun x => x ∈ items) = c ∧ c.Nodup := by
    intro c hc
    rw [combinations_with_exact, List.mem_filter] at hc
    refine ⟨?_, nodup_of_lt (t.combinations_mem_lt c hc.1)⟩
    rw [List.filter_eq_self]
    intro x hx
    simpa using combination_known h.univ_eq (A := c.toFinset) ⟨c, hc.1, rfl⟩ (by simpa using hx)
  ext m
  constructor
  · rintro ⟨c, hc, rfl⟩
    refine ⟨c.toFinset, ⟨c, hc, rfl⟩, ?_⟩
    rw [(key c hc).1, List.toFinset_val, (key c hc).2.dedup]
  · rintro ⟨_, ⟨c, hc, rfl⟩, rfl⟩
    exact ⟨c, hc, by rw [(key c hc).1, List.toFinset_val, (key c hc).2.dedup]⟩

/-! ### product and intersect -/

section
variable {S : Type u} {lt lt' : S → S → Prop} {U : Set S}

theorem offers_on (hlt : ∀ x ∈ U, ∀ y ∈ U, (lt x y ↔ lt' x y)) {B : Set (Finset S)} (hB : ∀ s ∈ B, ∀ x ∈ s, x ∈ U)
    {q : Finset S} (hq : ∀ x ∈ q, x ∈ U) (x : S) : Offers lt B q x ↔ Offers lt' B q x := by
  constructor
  all_goals
    rintro ⟨t, ht, hx, hz⟩
    refine ⟨t, ht, hx, fun z hzx => ?_⟩
    by_cases hzU : z ∈ U
    · have := hlt z hzU x (hB t ht x hx)
      exact hz z (by tauto)
    · exact iff_of_false (fun h => hzU (hB t ht z h)) (fun h => hzU (hq z h))

theorem pairProduct_on [DecidableEq S] (hlt : ∀ x ∈ U, ∀ y ∈ U, (lt x y ↔ lt' x y)) {A B : Set (Finset S)}
    (hA : ∀ s ∈ A, ∀ x ∈ s, x ∈ U) (hB : ∀ s ∈ B, ∀ x ∈ s, x ∈ U) : pairProduct lt A B = pairProduct lt' A B := by
  ext s
  simp only [pairProduct, Set.mem_ofPred_eq]
  refine exists_congr fun p => and_congr_right fun hp => exists_congr fun q => and_congr_right fun hq => ?_
  simp only [offers_on hlt hA (hA p hp), offers_on hlt hB (hB q hq)]

theorem sameOffers_on (hlt : ∀ x ∈ U, ∀ y ∈ U, (lt x y ↔ lt' x y)) {A B : Set (Finset S)}
    (hA : ∀ s ∈ A, ∀ x ∈ s, x ∈ U) (hB : ∀ s ∈ B, ∀ x ∈ s, x ∈ U) : SameOffers lt A B ↔ SameOffers lt' A B := by
  unfold SameOffers
  refine forall₂_congr fun p hp => forall₂_congr fun q hq => forall_congr' fun x => ?_
  by_cases hx : x ∈ U
  · rw [offers_on hlt hA (hA p hp), offers_on hlt hB (hB q hq)]
    refine imp_congr_left ?_
    refine forall_congr' fun y => ?_
    by_cases hy : y ∈ U
    · rw [hlt y hy x hx]
    · have : y ∈ p ↔ y ∈ q := iff_of_false (fun h => hy (hA p hp y h)) (fun h => hy (hB q hq y h))
      simp [this]
  · have no : ∀ {lt : S → S → Prop} {C : Set (Finset S)} {r : Finset S}, (∀ s ∈ C, ∀ x ∈ s, x ∈ U) →
        ¬ Offers lt C r x := fun hC ⟨t, ht, hxt, _⟩ => hx (hC t ht x hxt)
    simp [no hA, no hB]

theorem pairMeet_on (hlt : ∀ x ∈ U, ∀ y ∈ U, (lt x y ↔ lt' x y)) {A B : Set (Finset S)}
    (hA : ∀ s ∈ A, ∀ x ∈ s, x ∈ U) (hB : ∀ s ∈ B, ∀ x ∈ s, x ∈ U) : pairMeet lt A B = pairMeet lt' A B := by
  ext s
  simp only [pairMeet, Set.mem_ofPred_eq]
  refine exists_congr fun p => and_congr_right fun hp => exists_congr fun q => and_congr_right fun hq => ?_
  have no : ∀ {lt : S → S → Prop} {C : Set (Finset S)} {r : Finset S} {x : S}, x ∉ U →
      (∀ s ∈ C, ∀ x ∈ s, x ∈ U) → ¬ Offers lt C r x := fun hx hC ⟨t, ht, hxt, _⟩ => hx (hC t ht _ hxt)
  have hP : ∀ x, Passes lt A B p q x ↔ Passes lt' A B p q x := by
    intro x; unfold Passes; rw [offers_on hlt hA (hA p hp), offers_on hlt hB (hB q hq)]
  have hP' : ∀ x, Passes lt B A q p x ↔ Passes lt' B A q p x := by
    intro x; unfold Passes; rw [offers_on hlt hA (hA p hp), offers_on hlt hB (hB q hq)]
  have hT : ∀ x, Together lt A B p q x ↔ Together lt' A B p q x := by
    intro x; unfold Together; rw [offers_on hlt hA (hA p hp), offers_on hlt hB (hB q hq), hP, hP']
  have hT' : ∀ x, x ∉ U → Together lt' A B p q x := by
    intro x hx
    exact ⟨fun h => absurd h (no hx hA), fun h => no hx hA h.2.1, fun h => no hx hB h.2.1⟩
  have hU : ∀ {x : S}, x ∈ U → ((∀ y, lt y x → Together lt' A B p q y) ↔ ∀ y, lt' y x → Together lt' A B p q y) := by
    intro x hx
    refine forall_congr' fun y => ?_
    by_cases hy : y ∈ U
    · rw [hlt y hy x hx]
    · simp [hT' y hy]
  have pU : ∀ {x : S}, Passes lt' A B p q x → x ∈ U := fun h => by
    by_contra hc; exact no hc hA h.2.1
  have pU' : ∀ {x : S}, Passes lt' B A q p x → x ∈ U := fun h => by
    by_contra hc; exact no hc hB h.2.1
  unfold MeetsAt
  simp only [hT, hP, hP']
  refine or_congr_right (exists_congr fun x => ?_)
  by_cases hx : x ∈ U
  · rw [hU hx]
    refine and_congr_right fun _ => or_congr (and_congr_right fun _ => forall_congr' fun z => ?_)
      (and_congr_right fun _ => forall_congr' fun z => ?_)
    · have : z ∈ q ∧ lt z x ↔ z ∈ q ∧ lt' z x := and_congr_right fun hz => hlt z (hB q hq z hz) x hx
      rw [this]
    · have : z ∈ p ∧ lt z x ↔ z ∈ p ∧ lt' z x := and_congr_right fun hz => hlt z (hA p hp z hz) x hx
      rw [this]
  · have h1 : ¬ Passes lt' A B p q x := fun h => hx (pU h)
    have h2 : ¬ Passes lt' B A q p x := fun h => hx (pU' h)
    simp [h1, h2]
end

theorem copies_in {P : List T → Prop} {items : List T} {t : Tree T} (h : Built P items t) {K : Nat}
    (hK : t.root.depth ≤ K) : ∀ s ∈ copies '' t.bags, ∀ e ∈ s, e ∈ {e : T ×ₗ ℕ | (ofLex e).1 ∈ items ∧ (ofLex e).2 < K} := by
  intro s hs e he
  rw [← family_spread h hK] at hs
  have := combination_known (spread_built h hK).univ_eq hs he
  obtain ⟨j, hj⟩ := List.mem_iff_getElem?.1 this
  obtain ⟨i, hi, hk, _⟩ := copied_some.1 hj
  exact ⟨List.mem_of_getElem? hi, hk⟩

/-- C106, C79: what `intersect` computes for every two trees made over one universe, in terms of numbered
copies of the items: the same as for combinations without repeated items. -/
theorem intersect_bags {P : List T → Prop} {items : List T} {a b : Tree T} (ha : Built P items a)
    (hb : Built P items b) : copies '' (a.intersect b).bags =
      pairMeet (CopyBefore items) (copies '' a.bags) (copies '' b.bags) := by
  obtain ⟨K, k1, k2, k3⟩ : ∃ K, a.root.depth ≤ K ∧ b.root.depth ≤ K ∧ (a.intersect b).root.depth ≤ K :=
    ⟨max a.root.depth (max b.root.depth (a.intersect b).root.depth), by omega, by omega, by omega⟩
  have e : spreadTree K items (a.intersect b) = (spreadTree K items a).intersect (spreadTree K items b) :=
    Tree.ext (Node.spread_intersect _ _ ha.weak hb.weak (Node.atLeast_zero _) (Node.atLeast_zero _)
      (Node.fits_of_depth _ 0 0 (by omega)) (Node.fits_of_depth _ 0 0 (by omega))) rfl
  rw [← family_spread (ha.intersect hb) k3, e, intersect_meaning (spread_built ha k1) (spread_built hb k2),
    family_spread ha k1, family_spread hb k2]
  exact pairMeet_on (fun x hx y hy => before_copied hx.2 hy.2 hx.1 hy.1) (copies_in ha k1) (copies_in hb k2)

/-- C106, C31 (when it is right): for every two trees made over one universe, `intersect` has exactly the
common bags iff the trees offer the same next copies wherever they agree. -/
theorem intersect_bags_right_iff {P : List T → Prop} {items : List T} {a b : Tree T} (ha : Built P items a)
    (hb : Built P items b) : (a.intersect b).bags = a.bags ∩ b.bags ↔
      SameOffers (CopyBefore items) (copies '' a.bags) (copies '' b.bags) := by
  obtain ⟨K, k1, k2, k3⟩ : ∃ K, a.root.depth ≤ K ∧ b.root.depth ≤ K ∧ (a.intersect b).root.depth ≤ K :=
    ⟨max a.root.depth (max b.root.depth (a.intersect b).root.depth), by omega, by omega, by omega⟩
  have e : spreadTree K items (a.intersect b) = (spreadTree K items a).intersect (spreadTree K items b) :=
    Tree.ext (Node.spread_intersect _ _ ha.weak hb.weak (Node.atLeast_zero _) (Node.atLeast_zero _)
      (Node.fits_of_depth _ 0 0 (by omega)) (Node.fits_of_depth _ 0 0 (by omega))) rfl
  rw [← sameOffers_on (fun x hx y hy => before_copied hx.2 hy.2 hx.1 hy.1) (copies_in ha k1) (copies_in hb k2),
    ← family_spread ha k1, ← family_spread hb k2,
    ← intersect_right_iff (spread_built ha k1) (spread_built hb k2), ← e, family_spread (ha.intersect hb) k3,
    family_spread ha k1, family_spread hb k2, ← Set.image_inter copies_inj]
  exact (Set.image_injective.2 copies_inj).eq_iff.symm

/-- Some bag of `B` goes on with more of `x` after the same items before `x` as `n`.
Not code: used to state or prove properties. -/
def BagOffers (lt : T → T → Prop) (B : Set (Multiset T)) (n : Multiset T) (x : T) : Prop :=
  ∃ n' ∈ B, n.count x < n'.count x ∧ ∀ z, lt z x → n'.count z = n.count z

/-- What v1 `product` computes on bags: the unions (each item as often as in the bag with more of it) of
pairs in which neither side passes over more of an item that it could have taken and the other side takes.
Not code: used to state or prove properties. -/
def bagProduct (lt : T → T → Prop) (A B : Set (Multiset T)) : Set (Multiset T) :=
  {s | ∃ m ∈ A, ∃ n ∈ B, s = m ∪ n ∧ (∀ x, n.count x < m.count x → ¬ BagOffers lt B n x) ∧
    (∀ x, m.count x < n.count x → ¬ BagOffers lt A m x)}

theorem copies_union (m n : Multiset T) : copies (m ∪ n) = copies m ∪ copies n := by
  ext e
  rw [Finset.mem_union, mem_copies, mem_copies, mem_copies, Multiset.count_union]
  exact lt_max_iff

theorem bag_side (items : List T) (B : Set (Multiset T)) (m n : Multiset T) :
    (∀ e ∈ copies m, e ∉ copies n → ¬ Offers (CopyBefore items) (copies '' B) (copies n) e) ↔
      ∀ x, n.count x < m.count x → ¬ BagOffers (ItemBefore items) B n x := by
  constructor
  · rintro h x hx ⟨n', hn', h1, h2⟩
    refine h (toLex (x, n.count x)) (mem_copies.2 hx) (fun h' => absurd (mem_copies.1 h') (lt_irrefl _))
      ⟨copies n', ⟨n', hn', rfl⟩, mem_copies.2 h1, fun z hz => ?_⟩
    rw [mem_copies, mem_copies]
    rcases hz with hz | ⟨hz, hk⟩
    · rw [h2 _ hz]
    · have hz : (ofLex z).1 = x := hz
      have hk : (ofLex z).2 < n.count x := hk
      rw [hz]
      exact iff_of_true (lt_trans hk h1) hk
  · rintro h e hm hn ⟨_, ⟨n', hn', rfl⟩, h1, h2⟩
    rw [mem_copies] at hm hn h1
    refine h (ofLex e).1 (by omega) ⟨n', hn', by omega, fun z hz => ?_⟩
    have key : ∀ k, k < n'.count z ↔ k < n.count z := by
      intro k
      have := h2 (toLex (z, k)) (Or.inl hz)
      rwa [mem_copies, mem_copies] at this
    have := key (n'.count z)
    have := key (n.count z)
    omega

/-- C106, C32 (exact semantics, for every two trees made over one universe): the bags of `a.product(b)`. -/
theorem product_bags {P : List T → Prop} {items : List T} {a b : Tree T} (ha : Built P items a)
    (hb : Built P items b) : (a.product b).bags = bagProduct (ItemBefore items) a.bags b.bags := by
  obtain ⟨K, k1, k2, k3⟩ : ∃ K, a.root.depth ≤ K ∧ b.root.depth ≤ K ∧ (a.product b).root.depth ≤ K :=
    ⟨max a.root.depth (max b.root.depth (a.product b).root.depth), by omega, by omega, by omega⟩
  have e : spreadTree K items (a.product b) = (spreadTree K items a).product (spreadTree K items b) :=
    Tree.ext (Node.spread_product _ _ ha.weak hb.weak (Node.atLeast_zero _) (Node.atLeast_zero _)
      (Node.fits_of_depth _ 0 0 (by omega)) (Node.fits_of_depth _ 0 0 (by omega))) rfl
  apply Set.image_injective.2 (copies_inj (T := T))
  rw [← family_spread (ha.product hb) k3, e, product_exact_partial (spread_built ha k1) (spread_built hb k2),
    family_spread ha k1, family_spread hb k2,
    pairProduct_on (fun x hx y hy => before_copied hx.2 hy.2 hx.1 hy.1) (copies_in ha k1) (copies_in hb k2)]
  ext s
  constructor
  · rintro ⟨_, ⟨m, hm, rfl⟩, _, ⟨n, hn, rfl⟩, rfl, h1, h2⟩
    exact ⟨m ∪ n, ⟨m, hm, n, hn, rfl, (bag_side items _ m n).1 h1, (bag_side items _ n m).1 h2⟩, copies_union m n⟩
  · rintro ⟨_, ⟨m, hm, n, hn, rfl, h1, h2⟩, rfl⟩
    exact ⟨_, ⟨m, hm, rfl⟩, _, ⟨n, hn, rfl⟩, copies_union m n, (bag_side items _ m n).2 h1,
      (bag_side items _ n m).2 h2⟩

/-- C106, C31: two trees that have combinations always have an intersection with combinations, whatever
lists they were made from. -/
theorem intersect_never_empty_any {P : List T → Prop} {items : List T} {a b : Tree T} (ha : Built P items a)
    (hb : Built P items b) : (a.intersect b).combinations = [] ↔ a.combinations = [] ∨ b.combinations = [] := by
  obtain ⟨K, k1, k2, k3⟩ : ∃ K, a.root.depth ≤ K ∧ b.root.depth ≤ K ∧ (a.intersect b).root.depth ≤ K :=
    ⟨max a.root.depth (max b.root.depth (a.intersect b).root.depth), by omega, by omega, by omega⟩
  have e : spreadTree K items (a.intersect b) = (spreadTree K items a).intersect (spreadTree K items b) :=
    Tree.ext (Node.spread_intersect _ _ ha.weak hb.weak (Node.atLeast_zero _) (Node.atLeast_zero _)
      (Node.fits_of_depth _ 0 0 (by omega)) (Node.fits_of_depth _ 0 0 (by omega))) rfl
  have none_iff : ∀ {S : Type u} [LinearOrder S] (t : Tree S), t.combinations = [] ↔ family t.combinations = ∅ := by
    intro S _ t
    constructor
    · intro h; rw [h]; ext A; simp [family]
    · intro h
      rw [List.eq_nil_iff_forall_not_mem]
      intro c hc
      have : c.toFinset ∈ family t.combinations := ⟨c, hc, rfl⟩
      rw [h] at this; exact this
  have em : ∀ {t : Tree T}, Built P items t → t.root.depth ≤ K →
      (t.combinations = [] ↔ (spreadTree K items t).combinations = []) := by
    intro t ht hk
    rw [none_iff, none_iff, combinations_bags ht, family_spread ht hk, Set.image_eq_empty, Set.image_eq_empty]
  rw [em (ha.intersect hb) k3, em ha k1, em hb k2, e]
  exact intersect_never_empty (spread_built ha k1) (spread_built hb k2)

/-! ### examples: a tree made from combinations with repeated items -/

/-- A tree with a repeated item.  Not code: an example. -/
abbrev doubled : Tree ℕ := (Universe.fromVec [1, 2, 3]).hyperTree [[1, 1, 2], [1, 3]]

theorem doubled_built : Built (fun _ => True) [1, 2, 3] doubled := .hyper (fun _ _ => trivial)

theorem doubled_bags : doubled.bags = {{1, 1, 2}, {1, 3}} := by
  rw [hyper_tree_bags]
  ext m
  simp
  rfl

example := combinations_bags doubled_built
example := eq_iff_bags doubled_built (doubled_built.product doubled_built)
example := union_bags doubled_built (.tree (c := [2, 2]) trivial)
example := union_assoc_any doubled_built (.tree (c := [2, 2]) trivial) (.tree (c := [1, 1, 1]) trivial)
example := tree_bags [1, 2, 3] [1, 1, 7]
example := hyper_tree_bags [1, 2, 3] [[1, 1, 2], [7, 7]]
example := restrict_bags doubled_built [1] [3]
example := intersect_bags doubled_built (.tree (c := [1, 1]) trivial)
example := intersect_bags_right_iff doubled_built (.tree (c := [1, 1]) trivial)
example := intersect_never_empty_any doubled_built (.tree (c := [3, 3]) trivial)
example := product_bags doubled_built (.tree (c := [1, 1]) trivial)

/-- C106: the product goes by how often: with the bags `[1,1,2]` and `[1,3]` on one side and `[1]` on the
other, both pairs give a bag. -/
theorem doubled_product : (doubled.product ((Universe.fromVec [1, 2, 3]).tree [1])).bags = {{1, 1, 2}, {1, 3}} := by
  rw [product_bags doubled_built (.tree trivial), doubled_bags, tree_bags]
  have hf : (List.filter (fun x => decide (x ∈ [1, 2, 3])) [1] : List ℕ) = [1] := by decide
  rw [hf]
  have no : ∀ x, ¬ BagOffers (ItemBefore [1, 2, 3]) {((([1] : List ℕ)) : Multiset ℕ)} (([1] : List ℕ) : Multiset ℕ) x := by
    rintro x ⟨n', hn', h, _⟩
    rw [Set.mem_singleton_iff] at hn'
    subst hn'
    exact absurd h (lt_irrefl _)
  have hle : ∀ m ∈ ({{1, 1, 2}, {1, 3}} : Set (Multiset ℕ)), ((([1] : List ℕ)) : Multiset ℕ) ≤ m := by
    rintro m (rfl | rfl) <;> decide
  ext s
  constructor
  · rintro ⟨m, hm, n, hn, rfl, _, _⟩
    rw [Set.mem_singleton_iff] at hn
    subst hn
    rwa [Multiset.eq_union_left (hle m hm)]
  · intro hs
    refine ⟨s, hs, _, rfl, (Multiset.eq_union_left (hle s hs)).symm, fun x _ => no x, fun x hx => ?_⟩
    have := Multiset.le_iff_count.1 (hle s hs) x
    omega

end Verif.Zdd1
