import Verif.Zdd2.Exact

/-!
# What the zdd2 binary operations compute on every pair of forests

The operations first rebuild both diagrams in the item order of the combined frequencies
(`translate_root`), which is not sound in general.  `Spec.rerank` says what is left of a family;
with it the meaning of `union`, `intersect` and `product` is stated without any hypothesis on the
operands.
-/

set_option linter.unusedSimpArgs false
set_option linter.unusedSectionVars false
set_option linter.unusedVariables false

namespace Verif.Zdd2
open Verif Verif.Spec Verif.Zdd2.Spec

universe u
variable {T : Type u} [LinearOrder T]

/-! ### the vocabulary -/

theorem add_empty (y : T) : add y (∅ : Set (Finset T)) = ∅ := by ext s; simp [add]

theorem having_of_not {A : Set (Finset T)} {y : T} (h : ∀ s ∈ A, y ∉ s) : having A y = ∅ := by
  ext s; simp only [having, Set.mem_ofPred_eq, Set.mem_empty_iff_false, iff_false]; tauto

theorem without_of_not {A : Set (Finset T)} {y : T} (h : ∀ s ∈ A, y ∉ s) : without A y = A := by
  ext s; simp only [without, Set.mem_ofPred_eq]; have := h s; tauto

theorem rest_of_not {A : Set (Finset T)} {y : T} (h : ∀ s ∈ A, y ∉ s) : rest A y = ∅ := by
  ext s
  simp only [rest, Set.mem_ofPred_eq, Set.mem_empty_iff_false, iff_false]
  rintro ⟨_, h2⟩; exact h _ h2 (by simp)

theorem having_union_without (A : Set (Finset T)) (y : T) : having A y ∪ without A y = A := by
  ext s; simp only [having, without, Set.mem_union, Set.mem_ofPred_eq]; tauto

theorem place_empty (x : T) (ys : List T) (late : Prop) (L : Set (Finset T)) :
    place x ys late L ∅ = L := by
  induction ys generalizing late L with
  | nil => simp [place, add_empty]
  | cons y ys ih => rw [place, if_pos (by simp), ih, having_union_without]

theorem place_skip {x y : T} {ys : List T} {late : Prop} {L H : Set (Finset T)}
    (hL : ∀ s ∈ L, y ∉ s) (hH : ∀ s ∈ H, y ∉ s) :
    place x (y :: ys) late L H = place x ys late L H := by
  have : (late ∨ ∃ s ∈ L, y ∈ s) = late := by
    apply propext; constructor
    · rintro (h | ⟨s, h1, h2⟩)
      · exact h
      · exact absurd h2 (hL s h1)
    · exact Or.inl
  rw [place, if_pos hH, having_of_not hL, without_of_not hL, this, Set.empty_union]

/-! ### nodes -/

namespace Node

/-- The root id (if any) is at least `k`.  Not code: used to state or prove properties. -/
def From (k : Nat) : Node → Prop
  | .Branch i _ _ => k ≤ i
  | _ => True

theorem Above.from {k : Nat} {n : Node} (h : Above k n) : From (k + 1) n := by
  cases n <;> simp_all [Above, From]

theorem From.succ {k : Nat} {n : Node} (h : From k n) (hn : ∀ l h, n ≠ .Branch k l h) : From (k + 1) n := by
  cases n with
  | Branch i l h' =>
    simp only [From] at *
    by_contra hc
    have : i = k := by omega
    subst this; exact hn _ _ rfl
  | _ => trivial

theorem From.above {k : Nat} {n : Node} (h : From (k + 1) n) : Above k n := by
  cases n <;> simp_all [Above, From]

theorem not_mem_of_above {k : Nat} {n : Node} (o : n.Ordered) (h : Above k n) : ∀ s ∈ n.Den, k ∉ s := by
  intro s hs hk; have := lt_of_mem o h hs hk; omega

theorem without_branch {k : Nat} {l h : Node} (o : (Node.Branch k l h).Ordered) :
    without (Node.Branch k l h).Den k = l.Den := by
  have o' := o
  simp only [Ordered] at o'
  ext s
  rw [without, Set.mem_ofPred_eq, mem_ordered o]
  constructor
  · rintro ⟨h1 | h1, h2⟩
    · exact h1.2
    · exact absurd h1.1 h2
  · intro h1
    have := not_mem_of_above o'.2.2.2.1 o'.1 s h1
    exact ⟨Or.inl ⟨this, h1⟩, this⟩

theorem rest_branch {k : Nat} {l h : Node} (o : (Node.Branch k l h).Ordered) :
    rest (Node.Branch k l h).Den k = h.Den := by
  have o' := o
  simp only [Ordered] at o'
  ext s
  rw [rest, Set.mem_ofPred_eq, mem_ordered o]
  constructor
  · rintro ⟨h1, h2 | h2⟩
    · exact absurd (Finset.mem_insert_self _ _) h2.1
    · rw [Finset.erase_insert h1] at h2; exact h2.2
  · intro h1
    have := not_mem_of_above o'.2.2.2.2 o'.2.1 s h1
    exact ⟨this, Or.inr ⟨by simp, by rwa [Finset.erase_insert this]⟩⟩

theorem den_branch_eq (k : Nat) (l h : Node) : (Node.Branch k l h).Den = l.Den ∪ add k h.Den := by
  ext s; simp [mem_den_branch, add]

theorem having_branch {k : Nat} {l h : Node} (o : (Node.Branch k l h).Ordered) :
    having (Node.Branch k l h).Den k = add k h.Den := by
  have o' := o
  simp only [Ordered] at o'
  ext s
  simp only [having, add, Set.mem_ofPred_eq, mem_den_branch]
  constructor
  · rintro ⟨h1 | h1, h2⟩
    · exact absurd h2 (not_mem_of_above o'.2.2.2.1 o'.1 s h1)
    · exact h1
  · rintro ⟨t, ht, rfl⟩
    exact ⟨Or.inr ⟨t, ht, rfl⟩, by simp⟩

theorem exists_branch {k : Nat} {l h : Node} (o : (Node.Branch k l h).Ordered) :
    ∃ s ∈ (Node.Branch k l h).Den, k ∈ s := by
  simp only [Ordered] at o
  obtain ⟨t, ht⟩ := exists_mem o.2.2.2.2 o.2.2.1
  exact ⟨_, Or.inr ⟨t, ht, rfl⟩, by simp⟩

/-- What `branch` does once the low side has an item before the high side's first.
Not code: used to state or prove properties. -/
def late (x : Nat) (l h : Node) : Node :=
  match h with
  | .Branch i h0 h1 => if i < x then branch i l (branch x h0 h1) else branch x l h
  | _ => branch x l h

theorem place_den (x : Nat) : ∀ (d k : Nat), k + d = x → ∀ l h : Node, l.Ordered → h.Ordered →
    From k l → From k h → (∀ s ∈ l.Den, x ∉ s) → (∀ s ∈ h.Den, x ∉ s) →
    (branch x l h).Den = place x (List.range' k d) False l.Den h.Den ∧
    (late x l h).Den = place x (List.range' k d) True l.Den h.Den := by
  intro d
  induction d with
  | zero =>
    intro k hk l h ol oh fl fh xl xh
    have hk : k = x := by omega
    subst hk
    have key : ∀ {n : Node}, n.Ordered → From k n → (∀ s ∈ n.Den, k ∉ s) → Above k n := by
      intro n on fn xn
      refine (fn.succ ?_).above
      rintro n0 n1 rfl
      obtain ⟨s, h1, h2⟩ := exists_branch on
      exact xn s h1 h2
    have al := key ol fl xl
    have ah := key oh fh xh
    have hb : (branch k l h).Den = l.Den ∪ add k h.Den := by
      by_cases hn : h = .Never
      · subst hn; rw [branch_never]; simp [Den, add_empty]
      · rw [branch_plain al ah hn, den_branch_eq]
    have hlate : late k l h = branch k l h := by
      cases h with
      | Branch i h0 h1 =>
        simp only [Above] at ah
        simp only [late]; rw [if_neg (by omega)]
      | _ => rfl
    rw [hlate]
    simp only [List.range'_zero, place]
    exact ⟨hb, hb⟩
  | succ d ih =>
    intro k hk l h ol oh fl fh xl xh
    rw [List.range'_succ]
    by_cases hnv : h = .Never
    · subst hnv
      have e : late x l .Never = l := branch_never _ _
      rw [e, branch_never]
      simp only [Den, place_empty]; trivial
    by_cases hh : ∃ h0 h1, h = .Branch k h0 h1
    · obtain ⟨h0, h1, rfl⟩ := hh
      have oh' := oh
      simp only [Ordered] at oh'
      have x0 : ∀ s ∈ h0.Den, x ∉ s := fun s hs => xh s (Or.inl hs)
      have x1 : ∀ s ∈ h1.Den, x ∉ s := fun s hs hx => xh _ (Or.inr ⟨s, hs, rfl⟩) (by simp [hx])
      have hno : ¬ ∀ s ∈ (Node.Branch k h0 h1).Den, k ∉ s := by
        obtain ⟨s, h1, h2⟩ := exists_branch oh
        intro h; exact h s h1 h2
      have ihh := (ih (k + 1) (by omega) h0 h1 oh'.2.2.2.1 oh'.2.2.2.2 oh'.1.from oh'.2.1.from x0 x1).1
      have oK : (branch x h0 h1).Ordered := Ordered.branch oh'.2.2.2.1 oh'.2.2.2.2
      have aK : Above k (branch x h0 h1) := Above.branch oh'.2.2.2.1 oh'.2.2.2.2 (by omega) oh'.1 oh'.2.1
      have nK : branch x h0 h1 ≠ .Never := branch_ne_never oh'.2.2.2.1 oh'.2.2.2.2 oh'.2.2.1
      by_cases hl : ∃ l0 l1, l = .Branch k l0 l1
      · obtain ⟨l0, l1, rfl⟩ := hl
        have ol' := ol
        simp only [Ordered] at ol'
        have y0 : ∀ s ∈ l0.Den, x ∉ s := fun s hs => xl s (Or.inl hs)
        have y1 : ∀ s ∈ l1.Den, x ∉ s := fun s hs hx => xl _ (Or.inr ⟨s, hs, rfl⟩) (by simp [hx])
        constructor
        · have i1 := (ih (k + 1) (by omega) l0 h0 ol'.2.2.2.1 oh'.2.2.2.1 ol'.1.from oh'.1.from y0 x0).1
          have i2 := (ih (k + 1) (by omega) l1 h1 ol'.2.2.2.2 oh'.2.2.2.2 ol'.2.1.from oh'.2.1.from y1 x1).1
          have e : branch x (.Branch k l0 l1) (.Branch k h0 h1) =
              branch k (branch x l0 h0) (branch x l1 h1) := by
            rw [branch.eq_def]; simp only; rw [if_pos ⟨by omega, trivial⟩]
          rw [e, branch_plain (Above.branch ol'.2.2.2.1 oh'.2.2.2.1 (by omega) ol'.1 oh'.1)
            (Above.branch ol'.2.2.2.2 oh'.2.2.2.2 (by omega) ol'.2.1 oh'.2.1)
            (branch_ne_never ol'.2.2.2.2 oh'.2.2.2.2 oh'.2.2.1), den_branch_eq, i1, i2, place,
            if_neg hno, if_pos ⟨not_false, exists_branch ol⟩, without_branch ol, without_branch oh,
            rest_branch ol, rest_branch oh]
        · have e : late x (.Branch k l0 l1) (.Branch k h0 h1) = branch k l0 (branch x h0 h1) := by
            simp only [late]
            rw [if_pos (by omega)]
            generalize branch x h0 h1 = K at aK nK
            cases K with
            | Never => exact absurd rfl nK
            | Always => rw [branch.eq_def]; simp
            | Branch j a b =>
              simp only [Above] at aK
              rw [branch.eq_def]; simp only
              rw [if_neg (by omega), if_neg (by omega), if_neg (by omega), if_neg (by omega), if_pos trivial]
          rw [e, branch_plain ol'.1 aK nK, den_branch_eq, ihh, place, if_neg hno,
            if_neg (by simp), without_branch ol, without_branch oh, rest_branch oh]
      · have fl' : From (k + 1) l := fl.succ (fun a b e => hl ⟨a, b, e⟩)
        have nl := not_mem_of_above ol fl'.above
        have goal : ∀ late : Prop, l.Den ∪ add k (branch x h0 h1).Den =
            place x (k :: List.range' (k + 1) d) late l.Den (Node.Branch k h0 h1).Den := by
          intro late
          rw [place, if_neg hno, if_neg, without_of_not nl, ihh, without_branch oh, rest_branch oh]
          rintro ⟨_, s, h1, h2⟩; exact nl s h1 h2
        constructor
        · have e : branch x l (.Branch k h0 h1) = branch k l (branch x h0 h1) := by
            rw [branch.eq_def]
            cases l with
            | Branch j a b =>
              simp only
              rw [if_neg, if_pos (by omega)]
              rintro ⟨_, rfl⟩; exact hl ⟨_, _, rfl⟩
            | _ => simp only; rw [if_pos (by omega)]
          rw [e, branch_plain fl'.above aK nK, den_branch_eq]; exact goal _
        · have e : late x l (.Branch k h0 h1) = branch k l (branch x h0 h1) := by
            simp only [late]; rw [if_pos (by omega)]
          rw [e, branch_plain fl'.above aK nK, den_branch_eq]; exact goal _
    · have fh' : From (k + 1) h := fh.succ (fun a b e => hh ⟨a, b, e⟩)
      have nh := not_mem_of_above oh fh'.above
      by_cases hl : ∃ l0 l1, l = .Branch k l0 l1
      · obtain ⟨l0, l1, rfl⟩ := hl
        have ol' := ol
        simp only [Ordered] at ol'
        have y0 : ∀ s ∈ l0.Den, x ∉ s := fun s hs => xl s (Or.inl hs)
        have i1 := (ih (k + 1) (by omega) l0 h ol'.2.2.2.1 oh ol'.1.from fh' y0 xh).2
        have goal : ∀ lt : Prop, (Node.Branch k (late x l0 h) l1).Den =
            place x (k :: List.range' (k + 1) d) lt (Node.Branch k l0 l1).Den h.Den := by
          intro lt
          have : (lt ∨ ∃ s ∈ (Node.Branch k l0 l1).Den, k ∈ s) = True :=
            propext ⟨fun _ => trivial, fun _ => Or.inr (exists_branch ol)⟩
          rw [place, if_pos nh, this, without_branch ol, having_branch ol, den_branch_eq, i1,
            Set.union_comm]
        have alate : Above k (late x l0 h) ∧ True := by
          refine ⟨?_, trivial⟩
          cases h with
          | Branch i h0 h1 =>
            simp only [Ordered] at oh
            simp only [From] at fh'
            simp only [late]
            split_ifs with hix
            · exact Above.branch ol'.2.2.2.1 (Ordered.branch oh.2.2.2.1 oh.2.2.2.2) (by omega) ol'.1
                (Above.branch oh.2.2.2.1 oh.2.2.2.2 (by omega) (oh.1.mono (by omega)) (oh.2.1.mono (by omega)))
            · exact Above.branch ol'.2.2.2.1 oh (by omega) ol'.1 (by simp only [Above]; omega)
          | Always => exact Above.branch ol'.2.2.2.1 oh (by omega) ol'.1 trivial
          | Never => exact absurd rfl hnv
        have e : branch x (.Branch k l0 l1) h = .Branch k (late x l0 h) l1 ∧
            late x (.Branch k l0 l1) h = .Branch k (late x l0 h) l1 := by
          rw [← branch_plain alate.1 ol'.2.1 ol'.2.2.1]
          cases h with
          | Never => exact absurd rfl hnv
          | Always =>
            have : branch x (.Branch k l0 l1) .Always = branch k (branch x l0 .Always) l1 := by
              rw [branch.eq_def]; simp only; rw [if_pos (by omega)]
            exact ⟨this, this⟩
          | Branch i h0 h1 =>
            have oh' := oh
            simp only [Ordered] at oh'
            simp only [From] at fh'
            have hix : i ≠ x := by
              rintro rfl
              obtain ⟨s, h1, h2⟩ := exists_branch oh
              exact xh s h1 h2
            by_cases hlt : i < x
            · have aK : Above i (branch x h0 h1) := Above.branch oh'.2.2.2.1 oh'.2.2.2.2 hlt oh'.1 oh'.2.1
              have nK : branch x h0 h1 ≠ .Never := branch_ne_never oh'.2.2.2.1 oh'.2.2.2.2 oh'.2.2.1
              have e1 : branch x (.Branch k l0 l1) (.Branch i h0 h1) =
                  branch i (.Branch k l0 l1) (branch x h0 h1) := by
                rw [branch.eq_def]; simp only; rw [if_neg (by omega), if_pos hlt]
              have e2 : branch i (.Branch k l0 l1) (branch x h0 h1) =
                  branch k (branch i l0 (branch x h0 h1)) l1 := by
                generalize branch x h0 h1 = K at aK nK
                cases K with
                | Never => exact absurd rfl nK
                | Always => rw [branch.eq_def]; simp only; rw [if_pos (by omega)]
                | Branch j a b =>
                  simp only [Above] at aK
                  rw [branch.eq_def]; simp only
                  rw [if_neg (by omega), if_neg (by omega), if_pos (by omega)]
              constructor
              · rw [e1, e2]; simp only [late]; rw [if_pos hlt]
              · simp only [late]; rw [if_pos hlt, if_pos hlt, e2]
            · have : branch x (.Branch k l0 l1) (.Branch i h0 h1) =
                  branch k (branch x l0 (.Branch i h0 h1)) l1 := by
                rw [branch.eq_def]; simp only
                rw [if_neg (by omega), if_neg (by omega), if_pos (by omega)]
              simp only [late]; rw [if_neg hlt, if_neg hlt]
              exact ⟨this, this⟩
        rw [e.1, e.2]
        exact ⟨goal _, goal _⟩
      · have fl' : From (k + 1) l := fl.succ (fun a b e => hl ⟨a, b, e⟩)
        have nl := not_mem_of_above ol fl'.above
        rw [place_skip nl nh, place_skip nl nh]
        exact ih (k + 1) (by omega) l h ol oh fl' fh' xl xh

end Node

/-! ### families of items and families of priorities -/

/-- The family with every item renamed.  Not code: used to state or prove properties. -/
def img (σ : T → Nat) (A : Set (Finset T)) : Set (Finset Nat) := {s | ∃ S ∈ A, s = S.image σ}

/-- All members are within `K`.  Not code: used to state or prove properties. -/
def Within (K : T → Prop) (A : Set (Finset T)) : Prop := ∀ s ∈ A, ∀ x ∈ s, K x

section
variable {K : T → Prop} {σ : T → Nat} (hσ : ∀ x y, K x → K y → σ x = σ y → x = y)
include hσ

theorem mem_image_iff {y : T} (hy : K y) {S : Finset T} (hS : ∀ x ∈ S, K x) :
    σ y ∈ S.image σ ↔ y ∈ S := by
  rw [Finset.mem_image]
  constructor
  · rintro ⟨z, hz, e⟩; rwa [← hσ _ _ (hS z hz) hy e]
  · intro h; exact ⟨y, h, rfl⟩

theorem img_having {y : T} (hy : K y) {A : Set (Finset T)} (hA : Within K A) :
    having (img σ A) (σ y) = img σ (having A y) := by
  ext s
  simp only [having, img, Set.mem_ofPred_eq]
  constructor
  · rintro ⟨⟨S, hS, rfl⟩, h⟩
    exact ⟨S, ⟨hS, (mem_image_iff hσ hy (hA S hS)).mp h⟩, rfl⟩
  · rintro ⟨S, ⟨hS, h⟩, rfl⟩
    exact ⟨⟨S, hS, rfl⟩, (mem_image_iff hσ hy (hA S hS)).mpr h⟩

theorem img_without {y : T} (hy : K y) {A : Set (Finset T)} (hA : Within K A) :
    without (img σ A) (σ y) = img σ (without A y) := by
  ext s
  simp only [without, img, Set.mem_ofPred_eq]
  constructor
  · rintro ⟨⟨S, hS, rfl⟩, h⟩
    exact ⟨S, ⟨hS, fun h' => h ((mem_image_iff hσ hy (hA S hS)).mpr h')⟩, rfl⟩
  · rintro ⟨S, ⟨hS, h⟩, rfl⟩
    exact ⟨⟨S, hS, rfl⟩, fun h' => h ((mem_image_iff hσ hy (hA S hS)).mp h')⟩

theorem img_rest {y : T} (hy : K y) {A : Set (Finset T)} (hA : Within K A) :
    rest (img σ A) (σ y) = img σ (rest A y) := by
  ext s
  simp only [rest, img, Set.mem_ofPred_eq]
  constructor
  · rintro ⟨h, S, hS, e⟩
    have hyS : y ∈ S := by
      rw [← mem_image_iff hσ hy (hA S hS), ← e]; simp
    refine ⟨S.erase y, ⟨by simp, by rwa [Finset.insert_erase hyS]⟩, ?_⟩
    have : insert (σ y) s = insert (σ y) ((S.erase y).image σ) := by
      rw [e, ← Finset.image_insert, Finset.insert_erase hyS]
    have hn : σ y ∉ (S.erase y).image σ := by
      rw [mem_image_iff hσ hy (fun x hx => hA S hS x (Finset.mem_of_mem_erase hx))]; simp
    rw [← Finset.erase_insert h, this, Finset.erase_insert hn]
  · rintro ⟨S, ⟨h1, h2⟩, rfl⟩
    have hS : ∀ x ∈ S, K x := fun x hx => hA _ h2 x (by simp [hx])
    exact ⟨fun h => h1 ((mem_image_iff hσ hy hS).mp h), _, h2, by rw [Finset.image_insert]⟩

theorem img_occurs {y : T} (hy : K y) {A : Set (Finset T)} (hA : Within K A) :
    (∃ s ∈ img σ A, σ y ∈ s) ↔ ∃ s ∈ A, y ∈ s := by
  constructor
  · rintro ⟨_, ⟨S, hS, rfl⟩, h⟩; exact ⟨S, hS, (mem_image_iff hσ hy (hA S hS)).mp h⟩
  · rintro ⟨S, hS, h⟩; exact ⟨_, ⟨S, hS, rfl⟩, (mem_image_iff hσ hy (hA S hS)).mpr h⟩

theorem img_inj {A B : Set (Finset T)} (hA : Within K A) (hB : Within K B) (h : img σ A = img σ B) :
    A = B := by
  have key : ∀ {A B : Set (Finset T)}, Within K A → Within K B → img σ A = img σ B → A ⊆ B := by
    intro A B hA hB h S hS
    have : S.image σ ∈ img σ B := by rw [← h]; exact ⟨S, hS, rfl⟩
    obtain ⟨R, hR, e⟩ := this
    have : S = R := by
      ext x
      constructor
      · intro hx; rw [← mem_image_iff hσ (hA S hS x hx) (hB R hR), ← e]; exact Finset.mem_image_of_mem _ hx
      · intro hx; rw [← mem_image_iff hσ (hB R hR x hx) (hA S hS), e]; exact Finset.mem_image_of_mem _ hx
    rwa [this]
  exact Set.Subset.antisymm (key hA hB h) (key hB hA h.symm)

omit hσ in
theorem img_add (y : T) (A : Set (Finset T)) : add (σ y) (img σ A) = img σ (add y A) := by
  ext s
  simp only [add, img, Set.mem_ofPred_eq]
  constructor
  · rintro ⟨_, ⟨S, hS, rfl⟩, rfl⟩; exact ⟨_, ⟨S, hS, rfl⟩, by rw [Finset.image_insert]⟩
  · rintro ⟨_, ⟨S, hS, rfl⟩, rfl⟩; exact ⟨_, ⟨S, hS, rfl⟩, by rw [Finset.image_insert]⟩

omit hσ in
theorem img_union (A B : Set (Finset T)) : img σ (A ∪ B) = img σ A ∪ img σ B := by
  ext s
  simp only [img, Set.mem_union, Set.mem_ofPred_eq]
  constructor
  · rintro ⟨S, h | h, rfl⟩
    · exact Or.inl ⟨S, h, rfl⟩
    · exact Or.inr ⟨S, h, rfl⟩
  · rintro (⟨S, h, rfl⟩ | ⟨S, h, rfl⟩)
    · exact ⟨S, Or.inl h, rfl⟩
    · exact ⟨S, Or.inr h, rfl⟩

omit hσ in
theorem Within.without {A : Set (Finset T)} (h : Within K A) (y : T) : Within K (without A y) :=
  fun s hs => h s hs.1

omit hσ in
theorem Within.having {A : Set (Finset T)} (h : Within K A) (y : T) : Within K (having A y) :=
  fun s hs => h s hs.1

omit hσ in
theorem Within.rest {A : Set (Finset T)} (h : Within K A) (y : T) : Within K (rest A y) :=
  fun s hs x hx => h _ hs.2 x (by simp [hx])

omit hσ in
theorem Within.union {A B : Set (Finset T)} (h : Within K A) (h' : Within K B) : Within K (A ∪ B) := by
  rintro s (hs | hs)
  · exact h s hs
  · exact h' s hs

omit hσ in
theorem Within.add {A : Set (Finset T)} (h : Within K A) {y : T} (hy : K y) : Within K (add y A) := by
  rintro _ ⟨s, hs, rfl⟩ x hx
  rcases Finset.mem_insert.mp hx with rfl | hx
  · exact hy
  · exact h s hs x hx

omit hσ in
theorem Within.place {x : T} (hx : K x) {ys : List T} (hys : ∀ y ∈ ys, K y) {late : Prop}
    {L H : Set (Finset T)} (hL : Within K L) (hH : Within K H) : Within K (place x ys late L H) := by
  induction ys generalizing late L H with
  | nil => exact hL.union (hH.add hx)
  | cons y ys ih =>
    have hys' := fun z hz => hys z (List.mem_cons_of_mem _ hz)
    have hy := hys y (by simp)
    rw [Spec.place]
    split_ifs
    · exact (hL.having y).union (ih hys' (hL.without y) hH)
    · exact (ih hys' (hL.without y) (hH.without y)).union
        ((ih hys' (hL.rest y) (hH.rest y)).add hy)
    · exact (hL.without y).union ((ih hys' (hH.without y) (hH.rest y)).add hy)

theorem img_place {x : T} (hx : K x) {ys : List T} (hys : ∀ y ∈ ys, K y) {late : Prop}
    {L H : Set (Finset T)} (hL : Within K L) (hH : Within K H) :
    place (σ x) (ys.map σ) late (img σ L) (img σ H) = img σ (place x ys late L H) := by
  induction ys generalizing late L H with
  | nil => simp only [List.map_nil, place, img_union, img_add]
  | cons y ys ih =>
    have hys' := fun z hz => hys z (List.mem_cons_of_mem _ hz)
    have hy := hys y (by simp)
    have c1 : (∀ s ∈ img σ H, σ y ∉ s) ↔ ∀ s ∈ H, y ∉ s := by
      have := not_congr (img_occurs hσ hy hH)
      push Not at this; exact this
    have c2 := img_occurs hσ hy hL
    simp only [List.map_cons, Spec.place]
    by_cases h1 : ∀ s ∈ H, y ∉ s
    · rw [if_pos h1, if_pos (c1.mpr h1), propext c2, img_having hσ hy hL, img_without hσ hy hL,
        img_union, ih hys' (hL.without y) hH]
    · rw [if_neg h1, if_neg (fun h => h1 (c1.mp h))]
      by_cases h2 : ¬ late ∧ ∃ s ∈ L, y ∈ s
      · rw [if_pos h2, if_pos ⟨h2.1, c2.mpr h2.2⟩, img_without hσ hy hL, img_without hσ hy hH,
          img_rest hσ hy hL, img_rest hσ hy hH, img_union, ih hys' (hL.without y) (hH.without y),
          ← img_add, ih hys' (hL.rest y) (hH.rest y)]
      · rw [if_neg h2, if_neg (fun h => h2 ⟨h.1, c2.mp h.2⟩), img_without hσ hy hL,
          img_without hσ hy hH, img_rest hσ hy hH, img_union, ← img_add,
          ih hys' (hH.without y) (hH.rest y)]

end

namespace Forest
open Universe

theorem den_img {u : Universe T} (hu : u.Ok) {n : Node} (hn : u.InU n) : n.Den = img u.prio (u.Fam n) := by
  ext s; exact mem_den_iff hu hn

theorem within_fam (u : Universe T) (n : Node) : Within (· ∈ u.index) (u.Fam n) :=
  fun _ hs => hs.1

theorem prio_injOn {u : Universe T} (hu : u.Ok) :
    ∀ x y, x ∈ u.index → y ∈ u.index → u.prio x = u.prio y → x = y :=
  fun _ _ hx hy => prio_inj hu hx hy

/-- The items before `x`, as priorities. -/
theorem map_takeWhile {u : Universe T} (hu : u.Ok) {x : T} (hx : x ∈ u.index) :
    (u.index.takeWhile (· ≠ x)).map u.prio = List.range' 0 (u.prio x) := by
  have hlen : u.prio x < u.index.length := by
    have := getItem_prio hu hx; rw [getItem] at this
    exact (List.getElem?_eq_some_iff.mp this).1
  have hget : u.index[u.prio x] = x := by
    have := getItem_prio hu hx; rw [getItem] at this
    exact (List.getElem?_eq_some_iff.mp this).2
  have htw : u.index.takeWhile (· ≠ x) = u.index.take (u.prio x) := by
    have e : u.index = u.index.take (u.prio x) ++ x :: u.index.drop (u.prio x + 1) := by
      conv_lhs => rw [← List.take_append_drop (u.prio x) u.index, List.drop_eq_getElem_cons hlen, hget]
    have hnd := nodup_index hu
    rw [e, List.nodup_append] at hnd
    conv_lhs => rw [e]
    rw [List.takeWhile_append_of_pos]
    · simp
    · intro a ha
      have := hnd.2.2 a ha x (by simp)
      simpa using this
  rw [htw]
  apply List.ext_getElem
  · simp; omega
  · intro i h1 h2
    simp only [List.length_map, List.length_take] at h1
    simp only [List.getElem_map, List.getElem_take, List.getElem_range']
    have : u.getItem i = some u.index[i] := by
      rw [getItem, List.getElem?_eq_getElem (by omega)]
    rw [prio_of_getItem hu this]; omega

theorem rerank_empty (new old : List T) : rerank new old (∅ : Set (Finset T)) = ∅ := by
  induction old with
  | nil => rfl
  | cons x old ih =>
    have h : ∀ s ∈ (∅ : Set (Finset T)), x ∉ s := by simp
    rw [rerank, without_of_not h, rest_of_not h, ih, place_empty]

theorem rerank_skip {new old : List T} {x : T} {A : Set (Finset T)} (h : ∀ s ∈ A, x ∉ s) :
    rerank new (x :: old) A = rerank new old A := by
  rw [rerank, without_of_not h, rest_of_not h, rerank_empty, place_empty]

theorem fam_never (u : Universe T) : u.Fam .Never = ∅ := by
  ext S; simp [Fam, Node.Den]

theorem fam_always (u : Universe T) : u.Fam .Always = {∅} := by
  ext S
  simp only [Fam, Node.Den, Set.mem_ofPred_eq, Set.mem_singleton_iff, Finset.image_eq_empty]
  constructor
  · exact fun h => h.2
  · rintro rfl; exact ⟨by simp [Known], rfl⟩

/-- Rebuilding a diagram in the item order of another universe leaves exactly `rerank`. -/
theorem translate_rerank {u u' : Universe T} (hu : u.Ok) (hu' : u'.Ok)
    (hsub : ∀ x ∈ u.index, x ∈ u'.index) : ∀ (d k : Nat), k + d = u.index.length →
    ∀ n n' : Node, n.Ordered → u.InU n → Node.From k n → translateRoot u u' n = some n' →
    u'.Fam n' = rerank u'.index (u.index.drop k) (u.Fam n) := by
  intro d
  induction d with
  | zero =>
    intro k hk n n' on hn fn e
    rw [List.drop_eq_nil_of_le (by omega)]
    cases n with
    | Branch i l h =>
      obtain ⟨s, h1, h2⟩ := Node.exists_branch on
      have := hn s h1 i h2
      simp only [Node.From] at fn; omega
    | Always => simp only [translateRoot, Option.some.injEq] at e; subst e; simp only [rerank, fam_always]
    | Never => simp only [translateRoot, Option.some.injEq] at e; subst e; simp only [rerank, fam_never]
  | succ d ih =>
    intro k hk n n' on hn fn e
    have hkl : k < u.index.length := by omega
    rw [List.drop_eq_getElem_cons hkl]
    have gi : u.getItem k = some u.index[k] := by rw [getItem, List.getElem?_eq_getElem hkl]
    have hmem : u.index[k] ∈ u.index := List.getElem_mem hkl
    have hpr : u.prio u.index[k] = k := prio_of_getItem hu gi
    by_cases hb : ∃ l h, n = .Branch k l h
    · obtain ⟨l, h, rfl⟩ := hb
      have on' := on
      simp only [Node.Ordered] at on'
      have il : u.InU l := fun s hs => hn s (Or.inl hs)
      have ih' : u.InU h := fun s hs j hj => hn _ (Or.inr ⟨s, hs, rfl⟩) j (by simp [hj])
      obtain ⟨l', el, ol, iul, sl, _⟩ := translate_fam hu hu' hsub l on'.2.2.2.1 il
      obtain ⟨h', eh, oh, iuh, sh, nh, _⟩ := translate_fam hu hu' hsub h on'.2.2.2.2 ih'
      have gp : u'.getPriority u.index[k] = some (u'.prio u.index[k]) := getPriority_prio hu' (hsub _ hmem)
      simp only [translateRoot, el, eh, gi, gp, Option.some.injEq] at e
      have w1 : without (u.Fam (.Branch k l h)) u.index[k] = u.Fam l := by
        refine img_inj (prio_injOn hu) ((within_fam _ _).without _) (within_fam _ _) ?_
        rw [← img_without (prio_injOn hu) hmem (within_fam _ _), ← den_img hu hn, hpr,
          Node.without_branch on, den_img hu il]
      have w2 : rest (u.Fam (.Branch k l h)) u.index[k] = u.Fam h := by
        refine img_inj (prio_injOn hu) ((within_fam _ _).rest _) (within_fam _ _) ?_
        rw [← img_rest (prio_injOn hu) hmem (within_fam _ _), ← den_img hu hn, hpr,
          Node.rest_branch on, den_img hu ih']
      have notin : ∀ {m m' : Node}, m.Ordered → Node.Above k m → u'.InU m' →
          (∀ S ∈ u'.Fam m', ∀ x ∈ S, ∃ R ∈ u.Fam m, x ∈ R) →
          ∀ s ∈ m'.Den, u'.prio u.index[k] ∉ s := by
        intro m m' om am im sm s hs hp
        obtain ⟨S, hS, rfl⟩ := (mem_den_iff hu' im).mp hs
        rw [mem_image_prio hu' hS.1 (hsub _ hmem)] at hp
        obtain ⟨R, hR, hx⟩ := sm S hS _ hp
        have := Node.lt_of_mem om am hR.2 (Finset.mem_image_of_mem _ hx)
        rw [hpr] at this; omega
      have from0 : ∀ m : Node, Node.From 0 m := by intro m; cases m <;> simp [Node.From]
      have hd := (Node.place_den (u'.prio u.index[k]) (u'.prio u.index[k]) 0 (by omega) l' h' ol oh
        (from0 _) (from0 _) (notin on'.2.2.2.1 on'.1 iul sl) (notin on'.2.2.2.2 on'.2.1 iuh sh)).1
      rw [e, ← map_takeWhile hu' (hsub _ hmem), den_img hu' iul, den_img hu' iuh] at hd
      have tw : ∀ y ∈ u'.index.takeWhile (· ≠ u.index[k]), y ∈ u'.index :=
        fun y hy => List.takeWhile_subset _ hy
      rw [img_place (prio_injOn hu') (hsub _ hmem) tw (within_fam _ _) (within_fam _ _)] at hd
      have hwith := Within.place (K := (· ∈ u'.index)) (hsub _ hmem) tw (late := False)
        (within_fam u' l') (within_fam u' h')
      have in' : u'.InU n' := by
        intro s hs j hj
        rw [hd] at hs
        obtain ⟨S, hS, rfl⟩ := hs
        obtain ⟨x, hx, rfl⟩ := Finset.mem_image.mp hj
        have := getItem_prio hu' (hwith S hS x hx)
        rw [getItem] at this
        exact (List.getElem?_eq_some_iff.mp this).1
      rw [den_img hu' in'] at hd
      have := img_inj (prio_injOn hu') (within_fam _ _) hwith hd
      rw [this, rerank, w1, w2, ih (k + 1) (by omega) l l' on'.2.2.2.1 il on'.1.from el,
        ih (k + 1) (by omega) h h' on'.2.2.2.2 ih' on'.2.1.from eh]
    · have fn' : Node.From (k + 1) n := fn.succ (fun l h e => hb ⟨l, h, e⟩)
      rw [rerank_skip, ih (k + 1) (by omega) n n' on hn fn' e]
      intro S hS hx
      have := Node.lt_of_mem on fn'.above hS.2 (Finset.mem_image_of_mem _ hx)
      rw [hpr] at this; omega

/-- A list sorted by the frequency order is determined by its items. -/
theorem ranked_index {u : Universe T} (hu : u.Ok) {l : List T} (h1 : l.Pairwise (Before u.count))
    (h2 : ∀ x, x ∈ l ↔ x ∈ u.index) : l = u.index := by
  have h3 : u.index.Pairwise (Before u.count) := by
    rw [List.pairwise_iff_getElem]
    intro i j hi hj hij
    have gi : u.getItem i = some u.index[i] := by rw [getItem, List.getElem?_eq_getElem hi]
    have gj : u.getItem j = some u.index[j] := by rw [getItem, List.getElem?_eq_getElem hj]
    exact (priority_lt hu gi gj).mp hij
  have nd : ∀ {l : List T}, l.Pairwise (Before u.count) → l.Nodup :=
    fun h => h.imp (fun {a b} hab e => by subst e; exact before_irrefl _ _ hab)
  refine List.Perm.eq_of_pairwise (le := Before u.count) ?_ h1 h3
    ((List.perm_ext_iff_of_nodup (nd h1) (nd h3)).mpr h2)
  intro a b _ _ hab hba
  exact absurd hba (before_asymm hab)

theorem ranked_of_index {u : Universe T} (hu : u.Ok) : u.index.Pairwise (Before u.count) := by
  rw [List.pairwise_iff_getElem]
  intro i j hi hj hij
  have gi : u.getItem i = some u.index[i] := by rw [getItem, List.getElem?_eq_getElem hi]
  have gj : u.getItem j = some u.index[j] := by rw [getItem, List.getElem?_eq_getElem hj]
  exact (priority_lt hu gi gj).mp hij

theorem empty_mem_place (x : T) (ys : List T) (late : Prop) (L H : Set (Finset T)) :
    ∅ ∈ place x ys late L H ↔ ∅ ∈ L := by
  have na : ∀ (y : T) (A : Set (Finset T)), ∅ ∉ add y A := by
    rintro y A ⟨t, _, e⟩; exact absurd e.symm (Finset.insert_ne_empty _ _)
  induction ys generalizing late L H with
  | nil => simp [place, na]
  | cons y ys ih =>
    rw [place]
    split_ifs
    · simp [ih, having, without]
    · simp [ih, na, without]
    · simp [na, without]

theorem empty_mem_rerank (new old : List T) (A : Set (Finset T)) : ∅ ∈ rerank new old A ↔ ∅ ∈ A := by
  induction old generalizing A with
  | nil => rfl
  | cons x old ih => rw [rerank, empty_mem_place, ih]; simp [without]

end Forest

open Forest Universe

theorem index_ranked {f : Forest T} (hf : Reach f) {l : List T} :
    Ranked (count (family f.trees)) (family f.trees) l ↔ l = f.univ.index := by
  have hc : count (family f.trees) = f.univ.count := by funext x; exact (hf.canon.count x).symm
  have hm : ∀ x, x ∈ f.univ.index ↔ ∃ s ∈ family f.trees, x ∈ s := fun x => hf.canon.mem_index x
  rw [hc]
  constructor
  · rintro ⟨h1, h2⟩
    exact ranked_index hf.canon.ok h1 (fun x => by rw [h2, hm])
  · rintro rfl
    exact ⟨ranked_of_index hf.canon.ok, hm⟩

theorem merged_ranked {f g : Forest T} (hf : Reach f) (hg : Reach g) {l : List T} :
    Ranked (fun x => count (family f.trees) x + count (family g.trees) x)
      (family f.trees ∪ family g.trees) l ↔ l = (merge f.univ g.univ).index := by
  have hm : ∀ x, x ∈ (merge f.univ g.univ).index ↔ ∃ s ∈ family f.trees ∪ family g.trees, x ∈ s := by
    intro x
    rw [mem_index_merge hf.canon.ok hg.canon.ok, hf.canon.mem_index, hg.canon.mem_index]
    constructor
    · rintro (⟨s, h1, h2⟩ | ⟨s, h1, h2⟩)
      · exact ⟨s, Or.inl h1, h2⟩
      · exact ⟨s, Or.inr h1, h2⟩
    · rintro ⟨s, h1 | h1, h2⟩
      · exact Or.inl ⟨s, h1, h2⟩
      · exact Or.inr ⟨s, h1, h2⟩
  have ok := ok_merge (v := g.univ) hf.canon.ok
  rw [Ranked, ← before_sum hf hg]
  constructor
  · rintro ⟨h1, h2⟩
    exact ranked_index ok h1 (fun x => by rw [h2, hm])
  · rintro rfl
    exact ⟨ranked_of_index ok, hm⟩

/-- C17, C18, C19: the items of a forest, and those of two forests together, have exactly one
frequency ranking (so the hypotheses of the theorems below can always be met, in one way). -/
theorem ranking_unique {f g : Forest T} (hf : Reach f) (hg : Reach g) :
    (∃! old, Ranked (count (family f.trees)) (family f.trees) old) ∧
    ∃! new, Ranked (fun x => count (family f.trees) x + count (family g.trees) x)
      (family f.trees ∪ family g.trees) new := by
  refine ⟨⟨_, (index_ranked hf).mpr rfl, fun l hl => (index_ranked hf).mp hl⟩,
    ⟨_, (merged_ranked hf hg).mpr rfl, fun l hl => (merged_ranked hf hg).mp hl⟩⟩

/-- The members of `f` and of `g` after both diagrams have been brought into the order of the
combined frequencies. -/
theorem rebuilt {f g : Forest T} (hf : Reach f) (hg : Reach g) {oldF oldG new : List T}
    (rf : Ranked (count (family f.trees)) (family f.trees) oldF)
    (rg : Ranked (count (family g.trees)) (family g.trees) oldG)
    (rn : Ranked (fun x => count (family f.trees) x + count (family g.trees) x)
      (family f.trees ∪ family g.trees) new) {a b : Node}
    (ea : translateRoot f.univ (merge f.univ g.univ) f.root = some a)
    (eb : translateRoot g.univ (merge f.univ g.univ) g.root = some b) :
    (merge f.univ g.univ).Fam a = rerank new oldF (family f.trees) ∧
    (merge f.univ g.univ).Fam b = rerank new oldG (family g.trees) := by
  have from0 : ∀ m : Node, Node.From 0 m := by intro m; cases m <;> simp [Node.From]
  have ok := ok_merge (v := g.univ) hf.canon.ok
  rw [(index_ranked hf).mp rf, (index_ranked hg).mp rg, (merged_ranked hf hg).mp rn]
  constructor
  · have := translate_rerank hf.canon.ok ok
      (fun x hx => (mem_index_merge hf.canon.ok hg.canon.ok x).mpr (Or.inl hx))
      f.univ.index.length 0 (by omega) f.root a hf.canon.ordered hf.canon.inU (from0 _) ea
    rw [hf.canon.fam, List.drop_zero] at this
    exact this
  · have := translate_rerank hg.canon.ok ok
      (fun x hx => (mem_index_merge hf.canon.ok hg.canon.ok x).mpr (Or.inr hx))
      g.univ.index.length 0 (by omega) g.root b hg.canon.ordered hg.canon.inU (from0 _) eb
    rw [hg.canon.fam, List.drop_zero] at this
    exact this

/-- C17 (exact semantics, every pair of forests): `union` is the union of what is left of the two
families when their diagrams are rebuilt in the order of the combined frequencies. -/
theorem union_exact {f g r : Forest T} (hf : Reach f) (hg : Reach g) {oldF oldG new : List T}
    (rf : Ranked (count (family f.trees)) (family f.trees) oldF)
    (rg : Ranked (count (family g.trees)) (family g.trees) oldG)
    (rn : Ranked (fun x => count (family f.trees) x + count (family g.trees) x)
      (family f.trees ∪ family g.trees) new) (hr : f.union g = some r) :
    family r.trees = rerank new oldF (family f.trees) ∪ rerank new oldG (family g.trees) := by
  obtain ⟨a, b, hm, oa, ob, ia, ib, ea, eb, eu, _⟩ := ops_raw hf.canon hg.canon
  obtain ⟨ha, hb⟩ := rebuilt hf hg rf rg rn ea eb
  rw [eu] at hr; cases hr
  have hfam := fam_canonical hm (oa.union ob) (inU_union oa ob ia ib)
  rw [fam_union oa ob, ha, hb] at hfam
  change Forest.fam _ = _
  rw [hfam]
  ext s
  simp only [nonempty, Set.mem_ofPred_eq, and_iff_left_iff_imp, Finset.nonempty_iff_ne_empty]
  rintro (hs | hs) rfl
  · rw [empty_mem_rerank] at hs; exact absurd (hf.canon.fam_nonempty hs) (by simp)
  · rw [empty_mem_rerank] at hs; exact absurd (hg.canon.fam_nonempty hs) (by simp)

/-- C18 (exact semantics, every pair of forests): the members of `f.intersect(g)` are the members of
either rebuilt family in which the other rebuilt family stops. -/
theorem intersect_exact {f g r : Forest T} (hf : Reach f) (hg : Reach g) {oldF oldG new : List T}
    (rf : Ranked (count (family f.trees)) (family f.trees) oldF)
    (rg : Ranked (count (family g.trees)) (family g.trees) oldG)
    (rn : Ranked (fun x => count (family f.trees) x + count (family g.trees) x)
      (family f.trees ∪ family g.trees) new) (hr : f.intersect g = some r) :
    family r.trees = stopIntersect
      (Before (fun x => count (family f.trees) x + count (family g.trees) x))
      (rerank new oldF (family f.trees)) (rerank new oldG (family g.trees)) := by
  obtain ⟨a, b, hm, oa, ob, ia, ib, ea, eb, eu, ei, ep, _⟩ := ops_raw hf.canon hg.canon
  obtain ⟨ha, hb⟩ := rebuilt hf hg rf rg rn ea eb
  rw [ei] at hr; cases hr
  have hfam := fam_canonical hm (oa.intersect ob) (inU_intersect oa ob ia ib)
  rw [fam_intersect hm oa ob ia ib, ha, hb, before_sum hf hg] at hfam
  change Forest.fam _ = _
  rw [hfam]
  ext s
  simp only [nonempty, Set.mem_ofPred_eq, and_iff_left_iff_imp, Finset.nonempty_iff_ne_empty]
  rintro (⟨hs, _⟩ | ⟨hs, _⟩) rfl
  · rw [empty_mem_rerank] at hs; exact absurd (hf.canon.fam_nonempty hs) (by simp)
  · rw [empty_mem_rerank] at hs; exact absurd (hg.canon.fam_nonempty hs) (by simp)

/-- C19 (exact semantics, every pair of forests): the members of `f.product(g)` are the unions
`p ∪ q` of members of the rebuilt families, except those of pairs that differ at an item where both
rebuilt families have the same continuations. -/
theorem product_exact {f g r : Forest T} (hf : Reach f) (hg : Reach g) {oldF oldG new : List T}
    (rf : Ranked (count (family f.trees)) (family f.trees) oldF)
    (rg : Ranked (count (family g.trees)) (family g.trees) oldG)
    (rn : Ranked (fun x => count (family f.trees) x + count (family g.trees) x)
      (family f.trees ∪ family g.trees) new) (hr : f.product g = some r) :
    family r.trees = contProduct
      (Before (fun x => count (family f.trees) x + count (family g.trees) x))
      (rerank new oldF (family f.trees)) (rerank new oldG (family g.trees)) := by
  obtain ⟨a, b, hm, oa, ob, ia, ib, ea, eb, eu, ei, ep, _⟩ := ops_raw hf.canon hg.canon
  obtain ⟨ha, hb⟩ := rebuilt hf hg rf rg rn ea eb
  rw [ep] at hr; cases hr
  have hfam := fam_canonical hm (oa.product ob) (inU_product oa ob ia ib)
  rw [fam_product hm oa ob ia ib, ha, hb, before_sum hf hg] at hfam
  change Forest.fam _ = _
  rw [hfam]
  ext s
  simp only [nonempty, Set.mem_ofPred_eq, and_iff_left_iff_imp, Finset.nonempty_iff_ne_empty]
  rintro ⟨p, hp, q, hq, rfl, _⟩ h
  obtain ⟨rfl, rfl⟩ := Finset.union_eq_empty.mp h
  rw [empty_mem_rerank] at hp; exact absurd (hf.canon.fam_nonempty hp) (by simp)

/-- C76: nothing is lost in rebuilding when both families survive the reordering (`Compatible`). -/
theorem rerank_safe {f g : Forest T} (hf : Reach f) (hg : Reach g) {oldF oldG new : List T}
    (rf : Ranked (count (family f.trees)) (family f.trees) oldF)
    (rg : Ranked (count (family g.trees)) (family g.trees) oldG)
    (rn : Ranked (fun x => count (family f.trees) x + count (family g.trees) x)
      (family f.trees ∪ family g.trees) new)
    (h : Compatible (family f.trees) (family g.trees)) :
    rerank new oldF (family f.trees) = family f.trees ∧
    rerank new oldG (family g.trees) = family g.trees := by
  obtain ⟨a, b, hm, oa, ob, ia, ib, ea, eb, eu, ei, ep, _, _, hc⟩ := ops_raw hf.canon hg.canon
  obtain ⟨ha, hb⟩ := rebuilt hf hg rf rg rn ea eb
  obtain ⟨ha', hb'⟩ := hc h
  exact ⟨ha.symm.trans ha', hb.symm.trans hb'⟩

/-- Rankings of forests the library made exist, so the hypotheses above are met. -/
example : ∃ oldF oldG new, ∃ r : Forest ℕ,
    (Forest.many [[1, 2], [1, 3]]).intersect (Forest.many [[4], [5, 6]]) = some r ∧
    (rerank new oldF (family (Forest.many [[1, 2], [1, 3]] : Forest ℕ).trees) = family (Forest.many [[1, 2], [1, 3]]).trees ∧
      rerank new oldG (family (Forest.many [[4], [5, 6]] : Forest ℕ).trees) = family (Forest.many [[4], [5, 6]]).trees) ∧
    family r.trees = stopIntersect
      (Before (fun x => count (family (Forest.many [[1, 2], [1, 3]]).trees) x +
        count (family (Forest.many [[4], [5, 6]]).trees) x))
      (rerank new oldF (family (Forest.many [[1, 2], [1, 3]]).trees))
      (rerank new oldG (family (Forest.many [[4], [5, 6]]).trees)) := by
  obtain ⟨⟨o1, h1, _⟩, ⟨n, hn, _⟩⟩ := ranking_unique (reach_many [[1, 2], [1, 3]]) (reach_many [[4], [5, 6]] : Reach (T := ℕ) _)
  obtain ⟨⟨o2, h2, _⟩, _⟩ := ranking_unique (reach_many [[4], [5, 6]]) (reach_many [[4], [5, 6]] : Reach (T := ℕ) _)
  obtain ⟨r, hr, _⟩ := (binary_total (reach_many [[1, 2], [1, 3]]) (reach_many [[4], [5, 6]] : Reach (T := ℕ) _)).2.1
  exact ⟨o1, o2, n, r, hr, rerank_safe (reach_many _) (reach_many _) h1 h2 hn (compatible_of_disjoint demo_apart),
    intersect_exact (reach_many _) (reach_many _) h1 h2 hn hr⟩

/-- C17: `union` is set union exactly when the two rebuilt families make up the two families. -/
theorem union_right_iff {f g r : Forest T} (hf : Reach f) (hg : Reach g) {oldF oldG new : List T}
    (rf : Ranked (count (family f.trees)) (family f.trees) oldF)
    (rg : Ranked (count (family g.trees)) (family g.trees) oldG)
    (rn : Ranked (fun x => count (family f.trees) x + count (family g.trees) x)
      (family f.trees ∪ family g.trees) new) (hr : f.union g = some r) :
    family r.trees = family f.trees ∪ family g.trees ↔
      rerank new oldF (family f.trees) ∪ rerank new oldG (family g.trees) =
        family f.trees ∪ family g.trees := by
  rw [union_exact hf hg rf rg rn hr]

example : ∃ oldF oldG new, ∃ r s : Forest ℕ,
    let F := family (Forest.many [[1, 2], [1, 3]] : Forest ℕ).trees
    let G := family (Forest.many [[2], [2, 3]] : Forest ℕ).trees
    (Forest.many [[1, 2], [1, 3]]).product (Forest.many [[2], [2, 3]]) = some r ∧
    (Forest.many [[1, 2], [1, 3]]).union (Forest.many [[2], [2, 3]]) = some s ∧
    family r.trees = contProduct (Before (fun x => count F x + count G x)) (rerank new oldF F) (rerank new oldG G) ∧
    (family s.trees = F ∪ G ↔ rerank new oldF F ∪ rerank new oldG G = F ∪ G) := by
  obtain ⟨⟨o1, h1, _⟩, ⟨n, hn, _⟩⟩ := ranking_unique (reach_many [[1, 2], [1, 3]]) (reach_many [[2], [2, 3]] : Reach (T := ℕ) _)
  obtain ⟨⟨o2, h2, _⟩, _⟩ := ranking_unique (reach_many [[2], [2, 3]]) (reach_many [[2], [2, 3]] : Reach (T := ℕ) _)
  obtain ⟨⟨s, hs, _⟩, _, ⟨r, hr, _⟩⟩ := binary_total (reach_many [[1, 2], [1, 3]]) (reach_many [[2], [2, 3]] : Reach (T := ℕ) _)
  exact ⟨o1, o2, n, r, s, hr, hs, product_exact (reach_many _) (reach_many _) h1 h2 hn hr,
    union_right_iff (reach_many _) (reach_many _) h1 h2 hn hs⟩

/-- What is left of `{{1,2},{1,3}}` when `2` moves before `1`: `{1,3}` becomes `{2,3}`. -/
example : rerank [2, 1, 3] [1, 2, 3] {({1, 2} : Finset ℕ), {1, 3}} = {{1, 2}, {2, 3}} := by
  have e1 : without {({1, 2} : Finset ℕ), {1, 3}} 1 = ∅ := by
    ext s; simp only [without, Set.mem_ofPred_eq]; simp; rintro (rfl | rfl) <;> simp
  have r1 : rest {({1, 2} : Finset ℕ), {1, 3}} 1 = {{2}, {3}} := by
    ext s
    simp only [rest, Set.mem_ofPred_eq, Set.mem_insert_iff, Set.mem_singleton_iff]
    constructor
    · rintro ⟨h, e | e⟩
      · left; rw [← Finset.erase_insert h, e]; decide
      · right; rw [← Finset.erase_insert h, e]; decide
    · rintro (rfl | rfl) <;> decide
  have e2 : without {({2} : Finset ℕ), {3}} 2 = {{3}} := by
    ext s
    simp only [without, Set.mem_ofPred_eq, Set.mem_insert_iff, Set.mem_singleton_iff]
    constructor
    · rintro ⟨rfl | rfl, h⟩
      · simp at h
      · rfl
    · rintro rfl; decide
  have r2 : rest {({2} : Finset ℕ), {3}} 2 = {∅} := by
    ext s
    simp only [rest, Set.mem_ofPred_eq, Set.mem_insert_iff, Set.mem_singleton_iff]
    constructor
    · rintro ⟨h, e | e⟩
      · rw [← Finset.erase_insert h, e]; decide
      · have : (2 : ℕ) ∈ ({3} : Finset ℕ) := e ▸ Finset.mem_insert_self _ _
        simp at this
    · rintro rfl; decide
  have e3 : without {({3} : Finset ℕ)} 3 = ∅ := by
    ext s; simp only [without, Set.mem_ofPred_eq]; simp; rintro rfl; simp
  have r3 : rest {({3} : Finset ℕ)} 3 = {∅} := by
    ext s
    simp only [rest, Set.mem_ofPred_eq, Set.mem_singleton_iff]
    constructor
    · rintro ⟨h, e⟩; rw [← Finset.erase_insert h, e]; decide
    · rintro rfl; decide
  have n3 : ∀ s ∈ ({∅} : Set (Finset ℕ)), (3 : ℕ) ∉ s := by rintro s rfl; simp
  have t3 : rerank [2, 1, 3] [3] {({3} : Finset ℕ)} = {{3}} := by
    have tw : ([2, 1, 3] : List ℕ).takeWhile (· ≠ 3) = [2, 1] := by decide
    have n2 : ∀ s ∈ ({∅} : Set (Finset ℕ)), (2 : ℕ) ∉ s := by rintro s rfl; simp
    have n1 : ∀ s ∈ ({∅} : Set (Finset ℕ)), (1 : ℕ) ∉ s := by rintro s rfl; simp
    rw [rerank, e3, r3, tw]
    simp only [rerank]
    rw [place_skip (by simp) n2, place_skip (by simp) n1]
    ext s; simp [place, add]
  have t2 : rerank [2, 1, 3] [2, 3] {({2} : Finset ℕ), {3}} = {{2}, {3}} := by
    rw [rerank, e2, r2, t3, rerank_skip n3]
    ext s; simp [rerank, place, add, or_comm]
  have tw : ([2, 1, 3] : List ℕ).takeWhile (· ≠ 1) = [2] := by decide
  have nh : ¬ ∀ s ∈ ({{2}, {3}} : Set (Finset ℕ)), 2 ∉ s := by
    intro h; exact h {2} (by simp) (by simp)
  have w0 : without (∅ : Set (Finset ℕ)) 2 = ∅ := by ext s; simp [without]
  rw [rerank, e1, r1, rerank_empty, t2, tw, place, if_neg nh, if_neg (by simp), e2, r2, w0]
  ext s
  simp only [place, add, Set.mem_union, Set.mem_ofPred_eq, Set.mem_singleton_iff,
    Set.mem_insert_iff, Set.mem_empty_iff_false, false_or, exists_eq_left]
  constructor
  · rintro ⟨t, rfl | rfl, rfl⟩
    · right; decide
    · left; decide
  · rintro (rfl | rfl)
    · exact ⟨{1}, Or.inr (by decide), by decide⟩
    · exact ⟨{3}, Or.inl rfl, by decide⟩

/-- The rankings of the pair on which `union` loses a member, and what `union` makes of it. -/
example : ∃ oldF oldG new, ∃ r : Forest ℕ,
    let F := family (Forest.many [[1, 2], [1, 3]] : Forest ℕ).trees
    let G := family (Forest.many [[2], [2, 3]] : Forest ℕ).trees
    Ranked (count F) F oldF ∧ Ranked (count G) G oldG ∧
    Ranked (fun x => count F x + count G x) (F ∪ G) new ∧
    (Forest.many [[1, 2], [1, 3]]).union (Forest.many [[2], [2, 3]]) = some r ∧
    rerank new oldF F ∪ rerank new oldG G = family r.trees ∧
    ({1, 3} : Finset ℕ) ∈ F ∧ ({1, 3} : Finset ℕ) ∉ rerank new oldF F ∪ rerank new oldG G := by
  obtain ⟨⟨o1, h1, _⟩, ⟨n, hn, _⟩⟩ := ranking_unique (reach_many [[1, 2], [1, 3]]) (reach_many [[2], [2, 3]] : Reach (T := ℕ) _)
  obtain ⟨⟨o2, h2, _⟩, _⟩ := ranking_unique (reach_many [[2], [2, 3]]) (reach_many [[2], [2, 3]] : Reach (T := ℕ) _)
  have e := union_exact (reach_many _) (reach_many _) h1 h2 hn union_witness
  refine ⟨o1, o2, n, _, h1, h2, hn, union_witness, e.symm, ?_, ?_⟩
  · rw [many_family]; exact ⟨⟨[1, 3], by simp, by decide⟩, by decide⟩
  · rw [← e, many_family]
    rintro ⟨⟨l, hl, e⟩, _⟩
    simp only [List.mem_cons, List.not_mem_nil, or_false] at hl
    rcases hl with rfl | rfl | rfl <;> exact absurd e (by decide)

end Verif.Zdd2
