import Verif.Trait
import Verif.Zdd2.Split

/-!
# Choosing a member of a forest step by step, on either backend (C124)

The client of `weave::Forest` reads `occurrences()` and `len()`, then keeps (`subset`) or drops (`subset_not`) an item.
-/

set_option linter.unusedSimpArgs false
set_option linter.unusedSectionVars false
set_option linter.unusedVariables false

namespace Verif.Trait
open Verif Verif.Spec Verif.Zdd2.Spec

universe u
variable {T : Type u} [LinearOrder T]

/-- One of the two backends of the trait.  Not code: used to state or prove properties. -/
def Backend (B : ForestTrait T) : Prop := B = matrix T ∨ B = zdd2 T

/-- A conversation with a forest, on backend `B`: `Guided B f inc exc g` says that `g` is what is left of `f` after
reading `occurrences()` and `len()` again and again and each time taking an item that is listed (those taken are `inc`), or
leaving out an item that is not in every member (those left out are `exc`).  Not code: specification. -/
inductive Guided (B : ForestTrait T) (f : B.F) : List T → List T → B.F → Prop
  | start : Guided B f [] [] f
  | take {inc exc : List T} {g g' : B.F} {o : List (T × Nat)} {x : T} {n : Nat} (h : Guided B f inc exc g)
      (ho : B.occurrences g o) (hx : (x, n) ∈ o) (hg : B.subset g x g') : Guided B f (inc ++ [x]) exc g'
  | leave {inc exc : List T} {g g' : B.F} {o : List (T × Nat)} {x : T} {k : Nat} (h : Guided B f inc exc g)
      (ho : B.occurrences g o) (hk : B.len g k) (hx : (x, k) ∉ o) (hg : B.subsetNot g x g') :
      Guided B f inc (exc ++ [x]) g'

/-- The items that some but not all members have, read off `occurrences()` and `len()`.  Not code: specification. -/
def undecided (o : List (T × Nat)) (k : Nat) : List T := (o.filter (fun e => e.2 < k)).map Prod.fst

/-- What the observers of the trait show of a forest with the members `A`.  Not code: used to state or prove properties. -/
structure View (B : ForestTrait T) (f : B.F) (A : Set (Finset T)) : Prop where
  fin : A.Finite
  len : ∀ n, B.len f n ↔ n = A.ncard
  isEmpty : ∀ b, B.isEmpty f b ↔ (b = true ↔ A = ∅)
  trees : ∀ l, B.trees f l → (∀ a ∈ l, a.Pairwise (· < ·)) ∧ l.Nodup ∧ family l = A
  hasTrees : ∃ l, B.trees f l
  occ : ∀ o, B.occurrences f o → o.Pairwise (fun a b => a.1 < b.1) ∧
    ∀ x n, (x, n) ∈ o ↔ (∃ s ∈ A, x ∈ s) ∧ n = (having A x).ncard
  hasOcc : ∃ o, B.occurrences f o

theorem view_zdd2 {f : Zdd2.Forest T} (hf : Zdd2.Reach f) : View (zdd2 T) f (family f.trees) where
  fin := by
    have : family f.trees = ((f.trees.map List.toFinset).toFinset : Set (Finset T)) := by ext s; simp [family]
    rw [this]; exact Finset.finite_toSet _
  len n := by rw [← Zdd2.len_exact hf]; rfl
  isEmpty b := by
    rw [← Zdd2.isEmpty_exact hf]
    exact ⟨fun h => by rw [show b = f.isEmpty from h], fun h => Bool.eq_iff_iff.mpr h⟩
  trees := by
    rintro l rfl
    obtain ⟨a, _, b⟩ := Zdd2.trees_exact hf
    exact ⟨a, b, rfl⟩
  hasTrees := ⟨_, rfl⟩
  occ := by
    rintro o ⟨e, he, rfl⟩
    exact Zdd2.occurrences_exact hf e he
  hasOcc := ⟨_, _, List.Perm.refl _, rfl⟩

theorem view_matrix {f : Matrix.Forest T} (hf : Matrix.Reach f) (h0 : HashOrder (List T)) :
    View (matrix T) f (family (f.trees h0)) where
  fin := by
    have : family (f.trees h0) = (((f.trees h0).map List.toFinset).toFinset : Set (Finset T)) := by ext s; simp [family]
    rw [this]; exact Finset.finite_toSet _
  len n := by
    obtain ⟨S, hS, e⟩ := Matrix.len_exact h0 hf
    have : family (f.trees h0) = (S : Set (Finset T)) := by ext s; exact (hS s).symm
    rw [this, Set.ncard_coe_finset, ← e]; rfl
  isEmpty b := by
    rw [← Matrix.isEmpty_exact h0 hf]
    exact ⟨fun h => by rw [show b = f.isEmpty from h], fun h => Bool.eq_iff_iff.mpr h⟩
  trees := by
    rintro l ⟨h, rfl⟩
    obtain ⟨a, _, b⟩ := Matrix.trees_exact h hf
    refine ⟨a, b, ?_⟩
    ext s
    simp only [family, Set.mem_ofPred_eq, Matrix.Forest.mem_trees]
  hasTrees := ⟨_, h0, rfl⟩
  occ := by
    rintro o ⟨h, mo, rfl⟩
    obtain ⟨b1, b2⟩ := Matrix.occurrences_exact h h0 mo hf
    refine ⟨b1, fun x n => ?_⟩
    rw [b2]
    have c1 : (∃ s ∈ family (f.trees h0), x ∈ s) ↔ ∃ l ∈ f.trees h0, x ∈ l := by
      constructor
      · rintro ⟨s, ⟨l, hl, rfl⟩, hx⟩; exact ⟨l, hl, by simpa using hx⟩
      · rintro ⟨l, hl, hx⟩; exact ⟨_, ⟨l, hl, rfl⟩, by simpa using hx⟩
    have c2 : (having (family (f.trees h0)) x).ncard = ((f.trees h0).filter (fun l => decide (x ∈ l))).length := by
      obtain ⟨b1, _, b2⟩ := Matrix.trees_exact h0 hf
      have : having (family (f.trees h0)) x =
          (((f.trees h0).filter (fun l => decide (x ∈ l))).map List.toFinset).toFinset := by
        ext s
        simp only [having, Set.mem_ofPred_eq, family, Finset.mem_coe, List.mem_toFinset,
          List.mem_map, List.mem_filter, decide_eq_true_eq]
        constructor
        · rintro ⟨⟨l, hl, rfl⟩, hx⟩; exact ⟨l, ⟨hl, by simpa using hx⟩, rfl⟩
        · rintro ⟨l, ⟨hl, hx⟩, rfl⟩; exact ⟨⟨l, hl, rfl⟩, by simpa using hx⟩
      rw [this, Set.ncard_coe_finset, List.toFinset_card_of_nodup, List.length_map]
      refine List.Nodup.map_on (fun a ha b hb e => ?_) (b2.filter _)
      exact toFinset_inj_of_lt (b1 a (List.mem_filter.mp ha).1) (b1 b (List.mem_filter.mp hb).1) e
    rw [c1, c2]
  hasOcc := ⟨_, h0, ⟨Finset.toList, Finset.nodup_toList, fun s a => Finset.mem_toList⟩, rfl⟩

/-- Some hash order.  Not code: used to state or prove properties. -/
noncomputable def anOrder : HashOrder (List T) := ⟨Finset.toList, Finset.nodup_toList, fun s a => Finset.mem_toList⟩

variable {B : ForestTrait T} {p : Matrix.Prog T} {f g : B.F} {A : Set (Finset T)}

theorem View.unique (h : View B f A) {A' : Set (Finset T)} (h' : View B f A') : A = A' := by
  obtain ⟨l, hl⟩ := h.hasTrees
  rw [← (h.trees l hl).2.2, (h'.trees l hl).2.2]

theorem exists_view (hB : Backend B) (hf : Eval B p f) : ∃ A, View B f A := by
  rcases hB with rfl | rfl
  · exact ⟨_, view_matrix ⟨p, eval_matrix.mp hf⟩ anOrder⟩
  · exact ⟨_, view_zdd2 ⟨p, eval_zdd2.mp hf⟩⟩

theorem subset_view (hB : Backend B) (hf : Eval B p f) (hv : View B f A) {x : T} (hg : B.subset f x g) :
    View B g (having A x) := by
  rcases hB with rfl | rfl
  · have r : Matrix.Reach f := ⟨p, eval_matrix.mp hf⟩
    have rg : Matrix.Reach g := ⟨_, eval_matrix.mp (.subset hf hg)⟩
    obtain ⟨h, rfl⟩ := hg
    rw [hv.unique (view_matrix r anOrder), ← Matrix.subset_family h anOrder r]
    exact view_matrix rg _
  · have r : Zdd2.Reach f := ⟨p, eval_zdd2.mp hf⟩
    have rg : Zdd2.Reach g := ⟨_, eval_zdd2.mp (.subset hf hg)⟩
    obtain rfl := hg
    rw [hv.unique (view_zdd2 r), ← Zdd2.subset_family r]
    exact view_zdd2 rg

theorem subsetNot_view (hB : Backend B) (hf : Eval B p f) (hv : View B f A) {x : T} (hg : B.subsetNot f x g) :
    View B g (without A x) := by
  rcases hB with rfl | rfl
  · have r : Matrix.Reach f := ⟨p, eval_matrix.mp hf⟩
    have rg : Matrix.Reach g := ⟨_, eval_matrix.mp (.subsetNot hf hg)⟩
    obtain ⟨h, rfl⟩ := hg
    rw [hv.unique (view_matrix r anOrder), ← Matrix.subsetNot_family h anOrder r]
    exact view_matrix rg _
  · have r : Zdd2.Reach f := ⟨p, eval_zdd2.mp hf⟩
    have rg : Zdd2.Reach g := ⟨_, eval_zdd2.mp (.subsetNot hf hg)⟩
    obtain rfl := hg
    rw [hv.unique (view_zdd2 r), ← Zdd2.subsetNot_family r]
    exact view_zdd2 rg

theorem subset_total (hB : Backend B) (f : B.F) (x : T) : (∃ g, B.subset f x g) ∧ ∃ g, B.subsetNot f x g := by
  rcases hB with rfl | rfl
  · exact ⟨⟨_, anOrder, rfl⟩, _, anOrder, rfl⟩
  · exact ⟨⟨_, rfl⟩, _, rfl⟩

/-! ### families -/

/-- The members with every item of `inc` and none of `exc`.  Not code: specification. -/
def remaining (A : Set (Finset T)) (inc exc : List T) : Set (Finset T) :=
  {s | s ∈ A ∧ (∀ y ∈ inc, y ∈ s) ∧ ∀ y ∈ exc, y ∉ s}

theorem remaining_take (A : Set (Finset T)) (inc exc : List T) (x : T) :
    remaining A (inc ++ [x]) exc = having (remaining A inc exc) x := by
  ext s
  simp only [remaining, having, Set.mem_ofPred_eq, List.mem_append, List.mem_singleton, or_imp, forall_and, forall_eq]
  tauto

theorem remaining_leave (A : Set (Finset T)) (inc exc : List T) (x : T) :
    remaining A inc (exc ++ [x]) = without (remaining A inc exc) x := by
  ext s
  simp only [remaining, without, Set.mem_ofPred_eq, List.mem_append, List.mem_singleton, or_imp, forall_and, forall_eq]
  tauto

theorem having_lt (hA : A.Finite) (x : T) : (having A x).ncard < A.ncard ↔ ∃ s ∈ A, x ∉ s := by
  have hs : having A x ⊆ A := fun s h => h.1
  constructor
  · intro h
    by_contra hc
    push Not at hc
    have : having A x = A := subset_antisymm hs fun s h => ⟨h, hc s h⟩
    rw [this] at h
    exact lt_irrefl _ h
  · rintro ⟨s, h1, h2⟩
    exact Set.ncard_lt_ncard ⟨hs, fun h => h2 (h h1).2⟩ hA

theorem having_le (hA : A.Finite) (x : T) : (having A x).ncard ≤ A.ncard := Set.ncard_le_ncard (fun s h => h.1) hA

/-! ### the conversation -/

theorem guided_state (hB : Backend B) (hf : Eval B p f) (hv : View B f A) {inc exc : List T} (h : Guided B f inc exc g) :
    (∃ q, Eval B q g) ∧ View B g (remaining A inc exc) := by
  induction h with
  | start =>
    refine ⟨⟨p, hf⟩, ?_⟩
    have : remaining A [] [] = A := by ext s; simp [remaining]
    rw [this]; exact hv
  | take h ho hx hg ih =>
    obtain ⟨⟨q, hq⟩, hw⟩ := ih
    rw [remaining_take]
    exact ⟨⟨_, .subset hq hg⟩, subset_view hB hq hw hg⟩
  | leave h ho hk hx hg ih =>
    obtain ⟨⟨q, hq⟩, hw⟩ := ih
    rw [remaining_leave]
    exact ⟨⟨_, .subsetNot hq hg⟩, subsetNot_view hB hq hw hg⟩

theorem guided_nonempty (hB : Backend B) (hf : Eval B p f) (hv : View B f A) (hne : A.Nonempty) {inc exc : List T}
    (h : Guided B f inc exc g) : (remaining A inc exc).Nonempty := by
  induction h with
  | start =>
    obtain ⟨s, hs⟩ := hne
    exact ⟨s, by simpa [remaining] using hs⟩
  | @take inc exc g g' o x n h ho hx hg ih =>
    obtain ⟨s, h1, h2⟩ := (((guided_state hB hf hv h).2.occ _ ho).2 x n).mp hx |>.1
    rw [remaining_take]
    exact ⟨s, h1, h2⟩
  | @leave inc exc g g' o x k h ho hk hx hg ih =>
    have hw := (guided_state hB hf hv h).2
    rw [(hw.len k)] at hk
    subst hk
    rw [remaining_leave]
    by_contra hc
    have hall : ∀ s ∈ remaining A inc exc, x ∈ s := by
      intro s hs
      by_contra hxs
      exact hc ⟨s, hs, hxs⟩
    refine hx (((hw.occ _ ho).2 x _).mpr ⟨?_, ?_⟩)
    · obtain ⟨s, hs⟩ := ih
      exact ⟨s, hs, hall s hs⟩
    · congr 1
      exact subset_antisymm (fun s hs => ⟨hs, hall s hs⟩) fun s hs => hs.1

/-- C124: what is left after any conversation are exactly the members with all items taken and none left out, the same
whatever the order of the decisions; and something is left if there was something to begin with. -/
theorem guided_members (hB : Backend B) (hf : Eval B p f) {inc exc : List T} (h : Guided B f inc exc g)
    {l l' : List (List T)} (hl : B.trees f l) (hl' : B.trees g l') :
    (∀ s, s ∈ family l' ↔ s ∈ family l ∧ (∀ y ∈ inc, y ∈ s) ∧ ∀ y ∈ exc, y ∉ s) ∧ (l ≠ [] → l' ≠ []) := by
  obtain ⟨A, hv⟩ := exists_view hB hf
  have hw := (guided_state hB hf hv h).2
  have e := (hw.trees _ hl').2.2
  have e0 := (hv.trees _ hl).2.2
  refine ⟨fun s => by rw [e, e0]; rfl, fun hne => ?_⟩
  obtain ⟨a, ha⟩ := List.exists_mem_of_ne_nil l hne
  obtain ⟨s, hs⟩ := guided_nonempty hB hf hv ⟨a.toFinset, e0 ▸ ⟨a, ha, rfl⟩⟩ h
  rw [← e] at hs
  obtain ⟨c, hc, _⟩ := hs
  exact List.ne_nil_of_mem hc

/-- C124: what `occurrences()` and `len()` say about the next step: both filters answer; keeping an item leaves nothing
exactly if it is not listed, dropping it leaves nothing exactly if it is listed with the full count; and the count listed is
the length after keeping it. -/
theorem guided_next (hB : Backend B) (hf : Eval B p f) {inc exc : List T} (h : Guided B f inc exc g)
    {o : List (T × Nat)} {k : Nat} (ho : B.occurrences g o) (hk : B.len g k) (hpos : k ≠ 0) (x : T) :
    ((∃ g', B.subset g x g') ∧ ∃ g', B.subsetNot g x g') ∧
    (∀ g', B.subset g x g' → (B.isEmpty g' true ↔ ∀ n, (x, n) ∉ o) ∧ ∀ n, (x, n) ∈ o → B.len g' n) ∧
    (∀ g', B.subsetNot g x g' → (B.isEmpty g' true ↔ (x, k) ∈ o)) := by
  obtain ⟨A, hv⟩ := exists_view hB hf
  obtain ⟨⟨q, hq⟩, hw⟩ := guided_state hB hf hv h
  generalize remaining A inc exc = R at hw
  obtain ⟨-, ho⟩ := hw.occ _ ho
  obtain rfl := (hw.len k).mp hk
  refine ⟨subset_total hB g x, fun g' hg => ?_, fun g' hg => ?_⟩
  · have hw' := subset_view hB hq hw hg
    refine ⟨?_, fun n hn => (hw'.len n).mpr ((ho x n).mp hn).2⟩
    rw [hw'.isEmpty]
    simp only [true_iff]
    constructor
    · intro he n hn
      obtain ⟨⟨s, h1, h2⟩, -⟩ := (ho x n).mp hn
      have : s ∈ having R x := ⟨h1, h2⟩
      rw [he] at this
      exact this
    · intro hn
      refine Set.eq_empty_iff_forall_notMem.mpr fun s hs => hn _ ((ho x _).mpr ⟨⟨s, hs.1, hs.2⟩, rfl⟩)
  · have hw' := subsetNot_view hB hq hw hg
    rw [hw'.isEmpty, ho]
    simp only [true_iff]
    constructor
    · intro he
      have hall : ∀ s ∈ R, x ∈ s := by
        intro s hs
        by_contra hx
        have : s ∈ without R x := ⟨hs, hx⟩
        rw [he] at this
        exact this
      obtain ⟨s, hs⟩ : R.Nonempty := by
        rw [Set.nonempty_iff_ne_empty]
        rintro rfl
        simp at hpos
      refine ⟨⟨s, hs, hall s hs⟩, ?_⟩
      congr 1
      exact subset_antisymm (fun s hs => ⟨hs, hall s hs⟩) fun s hs => hs.1
    · rintro ⟨-, e⟩
      refine Set.eq_empty_iff_forall_notMem.mpr fun s hs => ?_
      have := (having_lt hw.fin x).mpr ⟨s, hs.1, hs.2⟩
      omega

theorem mem_undecided (hw : View B g A) {o : List (T × Nat)} (ho : B.occurrences g o) (x : T) :
    x ∈ undecided o A.ncard ↔ (∃ s ∈ A, x ∈ s) ∧ ∃ s ∈ A, x ∉ s := by
  rw [← having_lt hw.fin]
  simp only [undecided, List.mem_map, List.mem_filter, decide_eq_true_eq, Prod.exists, exists_and_right, exists_eq_right,
    (hw.occ _ ho).2]
  constructor
  · rintro ⟨n, ⟨h1, rfl⟩, h2⟩; exact ⟨h1, h2⟩
  · rintro ⟨h1, h2⟩; exact ⟨_, ⟨h1, rfl⟩, h2⟩

theorem nodup_undecided (hw : View B g A) {o : List (T × Nat)} (ho : B.occurrences g o) (k : Nat) :
    (undecided o k).Nodup := by
  have h := ((hw.occ _ ho).1.filter (fun e => decide (e.2 < k)))
  exact (List.pairwise_map.mpr h).imp (fun h => ne_of_lt h)

/-- C124: nothing is left to decide exactly when one member is left, and that member consists of the items still listed. -/
theorem guided_end (hB : Backend B) (hf : Eval B p f) {inc exc : List T} (h : Guided B f inc exc g)
    {o : List (T × Nat)} {k : Nat} (ho : B.occurrences g o) (hk : B.len g k) {l : List (List T)} (hl : B.trees g l)
    (hne : l ≠ []) :
    undecided o k = [] ↔ ∃ c, l = [c] ∧ ∀ x, x ∈ c ↔ ∃ n, (x, n) ∈ o := by
  obtain ⟨A, hv⟩ := exists_view hB hf
  have hw := (guided_state hB hf hv h).2
  generalize remaining A inc exc = R at hw
  obtain rfl := (hw.len k).mp hk
  obtain ⟨hs, hn, e⟩ := hw.trees _ hl
  have hm := mem_undecided hw ho
  have hi : ∀ x, (∃ n, (x, n) ∈ o) ↔ ∃ s ∈ R, x ∈ s := fun x =>
    ⟨fun ⟨n, h⟩ => (((hw.occ _ ho).2 x n).mp h).1, fun h => ⟨_, ((hw.occ _ ho).2 x _).mpr ⟨h, rfl⟩⟩⟩
  rw [List.eq_nil_iff_forall_not_mem]
  simp only [hm, hi]
  subst e
  constructor
  · intro hno
    have hsame : ∀ a ∈ l, ∀ b ∈ l, a = b := by
      intro a ha b hb
      refine toFinset_inj_of_lt (hs a ha) (hs b hb) ?_
      ext x
      by_contra hc
      rcases not_iff.mp hc with hc
      by_cases hx : x ∈ b.toFinset
      · exact hno x ⟨⟨_, ⟨b, hb, rfl⟩, hx⟩, _, ⟨a, ha, rfl⟩, fun h' => (hc.mpr hx) h'⟩
      · have : x ∈ a.toFinset := by
          by_contra h'
          exact hx (hc.mp h')
        exact hno x ⟨⟨_, ⟨a, ha, rfl⟩, this⟩, _, ⟨b, hb, rfl⟩, hx⟩
    obtain ⟨c, hc⟩ := List.exists_mem_of_ne_nil l hne
    have hl1 : l = [c] := by
      cases l with
      | nil => exact absurd rfl hne
      | cons a t =>
        cases t with
        | nil => rw [hsame a (by simp) c hc]
        | cons b t =>
          have := hsame a (by simp) b (by simp)
          subst this
          simp at hn
    refine ⟨c, hl1, fun x => ?_⟩
    subst hl1
    simp [family]
  · rintro ⟨c, rfl, -⟩ x ⟨⟨s, ⟨a, ha, rfl⟩, hx⟩, t, ⟨b, hb, rfl⟩, hy⟩
    rw [List.mem_singleton] at ha hb
    subst ha hb
    exact hy hx

/-- C124: a decision about an undecided item, either way, leaves strictly fewer undecided items, and none that was decided
becomes undecided again. -/
theorem guided_shrinks (hB : Backend B) (hf : Eval B p f) {inc exc : List T} (h : Guided B f inc exc g)
    {o : List (T × Nat)} {k : Nat} (ho : B.occurrences g o) (hk : B.len g k) {x : T} (hx : x ∈ undecided o k)
    {g' : B.F} (hg : B.subset g x g' ∨ B.subsetNot g x g')
    {o' : List (T × Nat)} {k' : Nat} (ho' : B.occurrences g' o') (hk' : B.len g' k') :
    undecided o' k' ⊆ undecided o k ∧ (undecided o' k').length < (undecided o k).length := by
  obtain ⟨A, hv⟩ := exists_view hB hf
  obtain ⟨⟨q, hq⟩, hw⟩ := guided_state hB hf hv h
  generalize remaining A inc exc = R at hw
  obtain rfl := (hw.len k).mp hk
  obtain ⟨R', hw', hs, hc⟩ : ∃ R', View B g' R' ∧ R' ⊆ R ∧ ((∀ s ∈ R', x ∈ s) ∨ ∀ s ∈ R', x ∉ s) := by
    rcases hg with hg | hg
    · exact ⟨_, subset_view hB hq hw hg, fun s h => h.1, Or.inl fun s h => h.2⟩
    · exact ⟨_, subsetNot_view hB hq hw hg, fun s h => h.1, Or.inr fun s h => h.2⟩
  obtain rfl := (hw'.len k').mp hk'
  have h1 : undecided o' R'.ncard ⊆ undecided o R.ncard := by
    intro y hy
    rw [mem_undecided hw' ho'] at hy
    rw [mem_undecided hw ho]
    obtain ⟨⟨s, a, b⟩, t, c, d⟩ := hy
    exact ⟨⟨s, hs a, b⟩, t, hs c, d⟩
  refine ⟨h1, ?_⟩
  have h2 : x ∉ undecided o' R'.ncard := by
    rw [mem_undecided hw' ho']
    rintro ⟨⟨s, a, b⟩, t, c, d⟩
    rcases hc with hc | hc
    · exact d (hc t c)
    · exact hc s a b
  have h3 : (x :: undecided o' R'.ncard).Nodup := List.nodup_cons.mpr ⟨h2, nodup_undecided hw' ho' _⟩
  have h4 := (h3.subperm (List.cons_subset.mpr ⟨hx, h1⟩)).length_le
  simpa using h4

/-- C124: every member can be singled out: its items can be taken in any order, and there are items to leave out so that
afterwards it is the only member left. -/
theorem guided_singles_out (hB : Backend B) (hf : Eval B p f) {l : List (List T)} (hl : B.trees f l) {c : List T}
    (hc : c ∈ l) {xs : List T} (hxs : xs.Perm c) : ∃ exc g, Guided B f xs exc g ∧ B.trees g [c] := by
  obtain ⟨A, hv⟩ := exists_view hB hf
  obtain ⟨hs, hn, e⟩ := hv.trees _ hl
  have hcA : c.toFinset ∈ A := e ▸ ⟨c, hc, rfl⟩
  have h1 : ∀ ys : List T, (∀ y ∈ ys, y ∈ c) → ∃ g, Guided B f ys [] g := by
    intro ys
    induction ys using List.reverseRecOn with
    | nil => exact fun _ => ⟨f, .start⟩
    | append_singleton ys y ih =>
      intro hy
      obtain ⟨g, hg⟩ := ih fun z hz => hy z (List.mem_append_left _ hz)
      have hw := (guided_state hB hf hv hg).2
      obtain ⟨o, ho⟩ := hw.hasOcc
      obtain ⟨⟨g', hg'⟩, -⟩ := subset_total hB g y
      refine ⟨g', hg.take ho (((hw.occ _ ho).2 y _).mpr ⟨⟨c.toFinset, ⟨hcA, fun z hz => ?_, by simp⟩, ?_⟩, rfl⟩) hg'⟩
      · simpa using hy z (List.mem_append_left _ hz)
      · simpa using hy y (by simp)
  have h2 : ∀ zs : List T, (∀ z ∈ zs, z ∉ c) → ∃ g, Guided B f xs zs g := by
    intro zs
    induction zs using List.reverseRecOn with
    | nil => exact fun _ => h1 xs fun y hy => hxs.mem_iff.mp hy
    | append_singleton zs z ih =>
      intro hz
      obtain ⟨g, hg⟩ := ih fun w hw => hz w (List.mem_append_left _ hw)
      have hw := (guided_state hB hf hv hg).2
      obtain ⟨o, ho⟩ := hw.hasOcc
      obtain ⟨-, g', hg'⟩ := subset_total hB g z
      refine ⟨g', hg.leave ho ((hw.len _).mpr rfl) (fun hk => ?_) hg'⟩
      have hlt : (having (remaining A xs zs) z).ncard < (remaining A xs zs).ncard :=
        (having_lt hw.fin z).mpr ⟨c.toFinset, ⟨hcA, fun y hy => by simpa using hxs.mem_iff.mp hy,
          fun y hy => by simpa using hz y (List.mem_append_left _ hy)⟩, by simpa using hz z (by simp)⟩
      have := (((hw.occ _ ho).2 z _).mp hk).2
      omega
  let zs := l.flatten.filter (fun z => z ∉ c)
  have hzs : ∀ z, z ∈ zs ↔ (∃ a ∈ l, z ∈ a) ∧ z ∉ c := by
    intro z
    simp only [zs, List.mem_filter, List.mem_flatten, decide_eq_true_eq]
  obtain ⟨g, hg⟩ := h2 zs fun z hz => ((hzs z).mp hz).2
  have hw := (guided_state hB hf hv hg).2
  obtain ⟨l', hl'⟩ := hw.hasTrees
  obtain ⟨hs', hn', e'⟩ := hw.trees _ hl'
  have hR : remaining A xs zs = {c.toFinset} := by
    ext s
    rw [Set.mem_singleton_iff]
    constructor
    · rintro ⟨h3, h4, h5⟩
      rw [← e] at h3
      obtain ⟨a, ha, rfl⟩ := h3
      ext x
      rw [List.mem_toFinset, List.mem_toFinset]
      constructor
      · intro hx
        by_contra hxc
        exact h5 x ((hzs x).mpr ⟨⟨a, ha, hx⟩, hxc⟩) (by simpa using hx)
      · intro hx
        simpa using h4 x (hxs.mem_iff.mpr hx)
    · rintro rfl
      exact ⟨hcA, fun y hy => by simpa using hxs.mem_iff.mp hy, fun y hy => by simpa using ((hzs y).mp hy).2⟩
  rw [hR] at e'
  have hall : ∀ a ∈ l', a = c := by
    intro a ha
    have : a.toFinset ∈ ({c.toFinset} : Set (Finset T)) := e' ▸ ⟨a, ha, rfl⟩
    exact toFinset_inj_of_lt (hs' a ha) (hs c hc) this
  obtain ⟨b, hb, -⟩ : c.toFinset ∈ family l' := e' ▸ rfl
  have : l' = [c] := by
    cases l' with
    | nil => simp at hb
    | cons a t =>
      cases t with
      | nil => rw [hall a (by simp)]
      | cons a' t =>
        rw [hall a (by simp), hall a' (by simp)] at hn'
        simp at hn'
  exact ⟨zs, g, hg, this ▸ hl'⟩

/-! ### the hypotheses are met -/

/-- Not code: used to state or prove properties. -/
theorem demo_eval : Eval (zdd2 Nat) (.many [[1, 2], [1, 3], [4]]) (Zdd2.Forest.many [[1, 2], [1, 3], [4]]) := .many rfl

theorem demo_evalM : Eval (matrix Nat) (.many [[1, 2], [1, 3], [4]]) (Matrix.Forest.many [[1, 2], [1, 3], [4]]) := .many rfl

theorem demo_member : [1, 3] ∈ (Zdd2.Forest.many [[1, 2], [1, 3], [4]]).trees := by
  have h : ({1, 3} : Finset Nat) ∈ family (Zdd2.Forest.many [[1, 2], [1, 3], [4]]).trees := by
    rw [Zdd2.many_family]
    exact ⟨⟨[1, 3], by simp, by decide⟩, by simp⟩
  obtain ⟨l, hl, e⟩ := h
  have : l = [1, 3] := toFinset_inj_of_lt ((Zdd2.trees_exact (Zdd2.reach_many _)).1 l hl) (by decide) (e.trans (by decide))
  exact this ▸ hl

theorem demo_memberM : [1, 3] ∈ (Matrix.Forest.many [[1, 2], [1, 3], [4]]).trees anOrder := by
  have h : ({1, 3} : Finset Nat) ∈ family ((Matrix.Forest.many [[1, 2], [1, 3], [4]]).trees anOrder) := by
    rw [Matrix.many_family]
    exact ⟨[1, 3], by simp, by decide⟩
  obtain ⟨l, hl, e⟩ := h
  have : l = [1, 3] := toFinset_inj_of_lt ((Matrix.trees_exact anOrder ⟨_, .many _⟩).1 l hl) (by decide) (e.trans (by decide))
  exact this ▸ hl

/-- On both backends the member `[1, 3]` can be singled out, taking 3 first. -/
theorem demo_guided :
    (∃ exc g, Guided (zdd2 Nat) (Zdd2.Forest.many [[1, 2], [1, 3], [4]]) [3, 1] exc g ∧ (zdd2 Nat).trees g [[1, 3]]) ∧
    ∃ exc g, Guided (matrix Nat) (Matrix.Forest.many [[1, 2], [1, 3], [4]]) [3, 1] exc g ∧ (matrix Nat).trees g [[1, 3]] :=
  ⟨guided_singles_out (Or.inr rfl) demo_eval rfl demo_member (by decide),
    guided_singles_out (Or.inl rfl) demo_evalM ⟨anOrder, rfl⟩ demo_memberM (by decide)⟩

/-- At the end of that conversation nothing is undecided and the only member is a member of the forest at the start. -/
example : ∃ exc g, Guided (zdd2 Nat) (Zdd2.Forest.many [[1, 2], [1, 3], [4]]) [3, 1] exc g ∧
    (∃ o k, (zdd2 Nat).occurrences g o ∧ (zdd2 Nat).len g k ∧ undecided o k = []) ∧
    ({1, 3} : Finset Nat) ∈ family (Zdd2.Forest.many [[1, 2], [1, 3], [4]]).trees := by
  obtain ⟨⟨exc, g, h, ht⟩, -⟩ := demo_guided
  have hB : Backend (zdd2 Nat) := Or.inr rfl
  have hm := guided_members hB demo_eval h rfl ht
  refine ⟨exc, g, h, ⟨_, _, ⟨_, .refl _, rfl⟩, rfl, ?_⟩, ?_⟩
  · obtain ⟨A, hv⟩ := exists_view hB demo_eval
    have hw := (guided_state hB demo_eval hv h).2
    refine (guided_end hB demo_eval h ⟨_, .refl _, rfl⟩ rfl ht (by simp)).mpr ⟨[1, 3], rfl, fun x => ?_⟩
    have ho := (hw.occ _ ⟨_, .refl _, rfl⟩).2 x
    have e := (hw.trees _ ht).2.2
    rw [← e] at ho
    constructor
    · intro hx
      exact ⟨_, (ho _).mpr ⟨⟨[1, 3].toFinset, ⟨[1, 3], by simp, rfl⟩, by simpa using hx⟩, rfl⟩⟩
    · rintro ⟨n, hn⟩
      obtain ⟨⟨s, ⟨a, ha, rfl⟩, hx⟩, -⟩ := (ho n).mp hn
      rw [List.mem_singleton] at ha
      subst ha
      simpa using hx
  · exact ((hm.1 {1, 3}).mp ⟨[1, 3], by simp, by decide⟩).1

/-- At the start there are undecided items, so `guided_shrinks` and `guided_next` have a case. -/
example : ∃ o k, (zdd2 Nat).occurrences (Zdd2.Forest.many [[1, 2], [1, 3], [4]]) o ∧
    (zdd2 Nat).len (Zdd2.Forest.many [[1, 2], [1, 3], [4]]) k ∧ k ≠ 0 ∧ 1 ∈ undecided o k := by
  obtain ⟨A, hv⟩ := exists_view (Or.inr rfl) demo_eval
  have e := (hv.trees _ rfl).2.2
  rw [Zdd2.many_family] at e
  refine ⟨_, A.ncard, ⟨_, .refl _, rfl⟩, (hv.len _).mpr rfl, ?_, ?_⟩
  · intro h0
    have h4 : ({4} : Finset Nat) ∈ A := e ▸ ⟨⟨[4], by simp, by decide⟩, by simp⟩
    rw [(Set.ncard_eq_zero hv.fin).mp h0] at h4
    exact h4
  · rw [mem_undecided hv ⟨_, .refl _, rfl⟩]
    exact ⟨⟨{1, 3}, e ▸ ⟨⟨[1, 3], by simp, by decide⟩, by simp⟩, by simp⟩, {4}, e ▸ ⟨⟨[4], by simp, by decide⟩, by simp⟩, by simp⟩

end Verif.Trait
