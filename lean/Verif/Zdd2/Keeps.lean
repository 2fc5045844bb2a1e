import Verif.Zdd2.Rerank
import Mathlib.Algebra.BigOperators.Finprod
import Mathlib.Data.List.TakeWhile

/-!
# Exactly when rebuilding a zdd2 diagram in another item order is right

`Spec.rerank` (C76) says what is left of a family when its diagram is rebuilt in the item order of the combined
frequencies.  Here: a condition on the family alone, `Keeps`, that holds exactly when nothing is lost or changed; and
that the union of two forests without a common member is right exactly when both families satisfy it.
-/

set_option linter.unusedSimpArgs false
set_option linter.unusedSectionVars false
set_option linter.unusedVariables false

namespace Verif.Zdd2
open Verif Verif.Spec Verif.Zdd2.Spec

universe u
variable {T : Type u} [LinearOrder T]

/-! ### weights -/

/-- The weight of a family: the sum of the weights of the items of its members.
Not code: used to state or prove properties. -/
noncomputable def weight (r : T → Nat) (A : Set (Finset T)) : Nat := ∑ᶠ s ∈ A, ∑ i ∈ s, r i

theorem weight_union {r : T → Nat} {A B : Set (Finset T)} (h : Disjoint A B) (hA : A.Finite) (hB : B.Finite) :
    weight r (A ∪ B) = weight r A + weight r B := finsum_mem_union h hA hB

theorem weight_empty (r : T → Nat) : weight r (∅ : Set (Finset T)) = 0 := finsum_mem_empty

theorem add_eq_image (y : T) (A : Set (Finset T)) : add y A = insert y '' A := by
  ext s; simp only [add, Set.mem_ofPred_eq, Set.mem_image]
  constructor
  · rintro ⟨t, h, rfl⟩; exact ⟨t, h, rfl⟩
  · rintro ⟨t, h, rfl⟩; exact ⟨t, h, rfl⟩

theorem insert_injOn {y : T} {A : Set (Finset T)} (h : ∀ s ∈ A, y ∉ s) : Set.InjOn (insert y) A := by
  intro s hs t ht e
  rw [← Finset.erase_insert (h s hs), ← Finset.erase_insert (h t ht), e]

theorem add_finite {y : T} {A : Set (Finset T)} (h : A.Finite) : (add y A).Finite := by
  rw [add_eq_image]; exact h.image _

theorem add_ncard {y : T} {A : Set (Finset T)} (h : ∀ s ∈ A, y ∉ s) : (add y A).ncard = A.ncard := by
  rw [add_eq_image]; exact Set.ncard_image_of_injOn (insert_injOn h)

theorem weight_add {r : T → Nat} {y : T} {A : Set (Finset T)} (hA : A.Finite) (h : ∀ s ∈ A, y ∉ s) :
    weight r (add y A) = weight r A + A.ncard * r y := by
  rw [weight, add_eq_image, finsum_mem_image (insert_injOn h), weight]
  have : ∀ s ∈ A, ∑ i ∈ insert y s, r i = (∑ i ∈ s, r i) + r y := fun s hs => by
    rw [Finset.sum_insert (h s hs), add_comm]
  rw [finsum_mem_congr rfl this, finsum_mem_add_distrib hA, finsum_mem_eq_finite_toFinset_sum (fun _ => r y) hA,
    Finset.sum_const, smul_eq_mul, Set.ncard_eq_toFinset_card _ hA]

theorem add_rest (A : Set (Finset T)) (y : T) : add y (rest A y) = having A y := by
  ext s
  simp only [add, rest, having, Set.mem_ofPred_eq]
  constructor
  · rintro ⟨t, ⟨h1, h2⟩, rfl⟩; exact ⟨h2, by simp⟩
  · rintro ⟨h1, h2⟩
    exact ⟨s.erase y, ⟨by simp, by rwa [Finset.insert_erase h2]⟩, (Finset.insert_erase h2).symm⟩

theorem rest_add {A : Set (Finset T)} {y : T} (h : ∀ s ∈ A, y ∉ s) : rest (add y A) y = A := by
  ext s
  simp only [add, rest, Set.mem_ofPred_eq]
  constructor
  · rintro ⟨h1, t, h2, e⟩
    have : s = t := by rw [← Finset.erase_insert h1, e, Finset.erase_insert (h t h2)]
    rwa [this]
  · intro hs; exact ⟨h s hs, s, hs, rfl⟩

theorem not_mem_rest {A : Set (Finset T)} {y : T} : ∀ s ∈ rest A y, y ∉ s := fun _ h => h.1

theorem not_mem_without {A : Set (Finset T)} {y : T} : ∀ s ∈ without A y, y ∉ s := fun _ h => h.2

theorem without_finite {A : Set (Finset T)} (h : A.Finite) (y : T) : (without A y).Finite := h.subset fun _ h => h.1

theorem having_finite {A : Set (Finset T)} (h : A.Finite) (y : T) : (having A y).Finite := h.subset fun _ h => h.1

theorem rest_finite {A : Set (Finset T)} (h : A.Finite) (y : T) : (rest A y).Finite := by
  have h1 := having_finite h y
  rw [← add_rest, add_eq_image] at h1
  exact h1.of_finite_image (insert_injOn not_mem_rest)

theorem split_disjoint {A B : Set (Finset T)} {y : T} (hA : ∀ s ∈ A, y ∉ s) : Disjoint A (add y B) := by
  rw [Set.disjoint_left]
  rintro s hs ⟨t, _, rfl⟩
  exact hA _ hs (by simp)

theorem split_eq (A : Set (Finset T)) (y : T) : A = without A y ∪ add y (rest A y) := by
  rw [add_rest, Set.union_comm, having_union_without]

theorem weight_split {r : T → Nat} {A : Set (Finset T)} (h : A.Finite) (y : T) :
    weight r A = weight r (without A y) + weight r (rest A y) + (rest A y).ncard * r y := by
  conv_lhs => rw [split_eq A y]
  rw [weight_union (split_disjoint not_mem_without) (without_finite h y) (add_finite (rest_finite h y)),
    weight_add (rest_finite h y) not_mem_rest, add_assoc]

theorem ncard_split {A : Set (Finset T)} (h : A.Finite) (y : T) : A.ncard = (without A y).ncard + (rest A y).ncard := by
  conv_lhs => rw [split_eq A y]
  rw [Set.ncard_union_eq (split_disjoint not_mem_without) (without_finite h y) (add_finite (rest_finite h y)),
    add_ncard not_mem_rest]

theorem without_split {A B : Set (Finset T)} {y : T} (hA : ∀ s ∈ A, y ∉ s) : without (A ∪ add y B) y = A := by
  ext s
  simp only [without, add, Set.mem_union, Set.mem_ofPred_eq]
  constructor
  · rintro ⟨h | ⟨t, _, rfl⟩, h2⟩
    · exact h
    · exact absurd (by simp) h2
  · intro h; exact ⟨.inl h, hA s h⟩

theorem rest_split {A B : Set (Finset T)} {y : T} (hA : ∀ s ∈ A, y ∉ s) (hB : ∀ s ∈ B, y ∉ s) :
    rest (A ∪ add y B) y = B := by
  refine Eq.trans ?_ (rest_add hB)
  ext s
  simp only [rest, Set.mem_union, Set.mem_ofPred_eq, add]
  constructor
  · rintro ⟨h1, h | h⟩
    · exact absurd (by simp) (hA _ h)
    · exact ⟨h1, h⟩
  · rintro ⟨h1, h⟩; exact ⟨h1, .inr h⟩

/-! ### one step -/

open scoped Classical in
/-- `place` changes nothing, item by item.  Not code: used to state or prove properties. -/
def PlaceOk : List T → Prop → Set (Finset T) → Set (Finset T) → Prop
  | [], _, _, _ => True
  | y :: ys, late, L, H =>
    if ∀ s ∈ H, y ∉ s then PlaceOk ys (late ∨ ∃ s ∈ L, y ∈ s) (without L y) H
    else if ¬ late ∧ ∃ s ∈ L, y ∈ s then PlaceOk ys False (without L y) (without H y) ∧ PlaceOk ys False (rest L y) (rest H y)
    else (∀ s ∈ L, y ∉ s) ∧ (∀ s ∈ H, y ∈ s) ∧ PlaceOk ys False (without H y) (rest H y)

theorem place_free {x y : T} {ys : List T} {late : Prop} {L H : Set (Finset T)} (hx : x ≠ y) (hy : y ∉ ys)
    (hL : ∀ s ∈ L, y ∉ s) (hH : ∀ s ∈ H, y ∉ s) : ∀ s ∈ place x ys late L H, y ∉ s := by
  have := Within.place (K := fun z => z ≠ y) (late := late) hx (fun z hz => by rintro rfl; exact hy hz)
    (fun s hs z hz => by rintro rfl; exact hL s hs hz) (fun s hs z hz => by rintro rfl; exact hH s hs hz)
  exact fun s hs hz => this s hs y hz rfl

theorem place_weight (x : T) (r : T → Nat) : ∀ (ys : List T) (late : Prop) (L H : Set (Finset T)), ys.Nodup → x ∉ ys →
    (∀ y ∈ ys, 0 < r y ∧ r y < r x) → L.Finite → H.Finite → (∀ s ∈ L, x ∉ s) → (∀ s ∈ H, x ∉ s) →
    (place x ys late L H).Finite ∧ (place x ys late L H).ncard ≤ L.ncard + H.ncard ∧
    weight r (place x ys late L H) ≤ weight r L + weight r H + H.ncard * r x ∧
    (weight r (place x ys late L H) = weight r L + weight r H + H.ncard * r x → PlaceOk ys late L H) ∧
    (PlaceOk ys late L H → place x ys late L H = L ∪ add x H) := by
  intro ys
  induction ys with
  | nil =>
    intro late L H _ _ _ fL fH hL hH
    rw [place]
    refine ⟨fL.union (add_finite fH), ?_, ?_, fun _ => trivial, fun _ => rfl⟩
    · rw [Set.ncard_union_eq (split_disjoint hL) fL (add_finite fH), add_ncard hH]
    · rw [weight_union (split_disjoint hL) fL (add_finite fH), weight_add fH hH]; omega
  | cons y ys ih =>
    intro late L H nd hx hr fL fH hL hH
    obtain ⟨hy, nd⟩ := List.nodup_cons.1 nd
    have hxy : x ≠ y := fun e => hx (by simp [e])
    have hx' : x ∉ ys := fun h => hx (by simp [h])
    have hr' : ∀ z ∈ ys, 0 < r z ∧ r z < r x := fun z hz => hr z (by simp [hz])
    obtain ⟨ry0, ryx⟩ := hr y (by simp)
    have wL : ∀ s ∈ without L y, x ∉ s := fun s hs => hL s hs.1
    have wH : ∀ s ∈ without H y, x ∉ s := fun s hs => hH s hs.1
    have qL : ∀ s ∈ rest L y, x ∉ s := fun s hs h => hL _ hs.2 (by simp [h])
    have qH : ∀ s ∈ rest H y, x ∉ s := fun s hs h => hH _ hs.2 (by simp [h])
    rw [place, PlaceOk]
    split_ifs with c1 c2
    · obtain ⟨i1, i2, i3, i4, i5⟩ := ih (late ∨ ∃ s ∈ L, y ∈ s) (without L y) H nd hx' hr' (without_finite fL y) fH wL hH
      have free : ∀ s ∈ place x ys (late ∨ ∃ s ∈ L, y ∈ s) (without L y) H, y ∉ s :=
        place_free hxy hy not_mem_without c1
      have dj : Disjoint (having L y) (place x ys (late ∨ ∃ s ∈ L, y ∈ s) (without L y) H) := by
        rw [Set.disjoint_left]; exact fun s h1 h2 => free s h2 h1.2
      have e1 := ncard_split fL y
      have e2 := weight_split (r := r) fL y
      have e3 : (having L y).ncard = (rest L y).ncard := by rw [← add_rest, add_ncard not_mem_rest]
      have e4 : weight r (having L y) = weight r (rest L y) + (rest L y).ncard * r y := by
        rw [← add_rest, weight_add (rest_finite fL y) not_mem_rest]
      have u1 := Set.ncard_union_eq dj (having_finite fL y) i1
      have u2 := weight_union (r := r) dj (having_finite fL y) i1
      refine ⟨(having_finite fL y).union i1, by omega, by omega, fun h => i4 (by omega), fun h => ?_⟩
      rw [i5 h, ← Set.union_assoc, having_union_without]
    · obtain ⟨i1, i2, i3, i4, i5⟩ := ih False (without L y) (without H y) nd hx' hr' (without_finite fL y) (without_finite fH y) wL wH
      obtain ⟨j1, j2, j3, j4, j5⟩ := ih False (rest L y) (rest H y) nd hx' hr' (rest_finite fL y) (rest_finite fH y) qL qH
      have f1 := place_free (late := False) hxy hy (not_mem_without (A := L)) (not_mem_without (A := H))
      have f2 := place_free (late := False) hxy hy (not_mem_rest (A := L)) (not_mem_rest (A := H))
      have dj := split_disjoint (B := place x ys False (rest L y) (rest H y)) f1
      have u1 := Set.ncard_union_eq dj i1 (add_finite j1)
      have u2 := weight_union (r := r) dj i1 (add_finite j1)
      rw [add_ncard f2] at u1
      rw [weight_add j1 f2] at u2
      have e1 := ncard_split fL y
      have e2 := weight_split (r := r) fL y
      have e3 := ncard_split fH y
      have e4 := weight_split (r := r) fH y
      have m1 : (place x ys False (rest L y) (rest H y)).ncard * r y ≤ (rest L y).ncard * r y + (rest H y).ncard * r y := by
        rw [← Nat.add_mul]; exact Nat.mul_le_mul_right _ j2
      have m2 : H.ncard * r x = (without H y).ncard * r x + (rest H y).ncard * r x := by rw [e3, Nat.add_mul]
      refine ⟨i1.union (add_finite j1), by omega, by omega, fun h => ⟨i4 (by omega), j4 (by omega)⟩, fun h => ?_⟩
      rw [i5 h.1, j5 h.2]
      ext s
      simp only [add, without, rest, Set.mem_union, Set.mem_ofPred_eq]
      constructor
      · rintro ((h | ⟨t, h, rfl⟩) | ⟨t, h | ⟨t, h, rfl⟩, rfl⟩)
        · exact .inl h.1
        · exact .inr ⟨t, h.1, rfl⟩
        · exact .inl h.2
        · exact .inr ⟨_, h.2, Finset.insert_comm _ _ _⟩
      · by_cases hys : y ∈ s
        · rintro (h | ⟨t, h, rfl⟩)
          · exact .inr ⟨s.erase y, .inl ⟨by simp, by rwa [Finset.insert_erase hys]⟩, (Finset.insert_erase hys).symm⟩
          · have hyt : y ∈ t := by
              rcases Finset.mem_insert.1 hys with e | h
              · exact absurd e.symm hxy
              · exact h
            refine .inr ⟨insert x (t.erase y), .inr ⟨t.erase y, ⟨by simp, by rwa [Finset.insert_erase hyt]⟩, rfl⟩, ?_⟩
            rw [Finset.insert_comm, Finset.insert_erase hyt]
        · rintro (h | ⟨t, h, rfl⟩)
          · exact .inl (.inl ⟨h, hys⟩)
          · exact .inl (.inr ⟨t, ⟨h, fun h' => hys (by simp [h'])⟩, rfl⟩)
    · obtain ⟨j1, j2, j3, j4, j5⟩ := ih False (without H y) (rest H y) nd hx' hr' (without_finite fH y) (rest_finite fH y) wH qH
      have f2 := place_free (late := False) hxy hy (not_mem_without (A := H)) (not_mem_rest (A := H))
      have dj := split_disjoint (B := place x ys False (without H y) (rest H y)) (not_mem_without (A := L) (y := y))
      have u1 := Set.ncard_union_eq dj (without_finite fL y) (add_finite j1)
      have u2 := weight_union (r := r) dj (without_finite fL y) (add_finite j1)
      rw [add_ncard f2] at u1
      rw [weight_add j1 f2] at u2
      have e1 := ncard_split fL y
      have e2 := weight_split (r := r) fL y
      have e3 := ncard_split fH y
      have e4 := weight_split (r := r) fH y
      have m1 : (place x ys False (without H y) (rest H y)).ncard * r y ≤ (without H y).ncard * r y + (rest H y).ncard * r y := by
        rw [← Nat.add_mul]; exact Nat.mul_le_mul_right _ j2
      have m2 : H.ncard * r x = (without H y).ncard * r x + (rest H y).ncard * r x := by rw [e3, Nat.add_mul]
      have m3 : (without H y).ncard * r y ≤ (without H y).ncard * r x := Nat.mul_le_mul_left _ ryx.le
      refine ⟨(without_finite fL y).union (add_finite j1), by omega, by omega, fun h => ?_, fun ⟨h1, h2, h3⟩ => ?_⟩
      · have m4 : (without H y).ncard * r y = (without H y).ncard * r x := by omega
        have z1 : (without H y).ncard = 0 := by
          rcases Nat.eq_zero_or_pos (without H y).ncard with h | h
          · exact h
          · exact absurd (Nat.eq_of_mul_eq_mul_left h m4) (by omega)
        have z2 : (rest L y).ncard * r y = 0 := by omega
        have z3 : (rest L y).ncard = 0 := by
          rcases Nat.mul_eq_zero.1 z2 with h | h
          · exact h
          · omega
        rw [Set.ncard_eq_zero (without_finite fH y)] at z1
        rw [Set.ncard_eq_zero (rest_finite fL y)] at z3
        refine ⟨fun s hs hys => ?_, fun s hs => ?_, j4 (by omega)⟩
        · have : s ∈ having L y := ⟨hs, hys⟩
          rw [← add_rest, z3, add_empty] at this
          exact this
        · by_contra hys
          have : s ∈ without H y := ⟨hs, hys⟩
          rw [z1] at this
          exact this
      · have z1 : without H y = ∅ := by
          rw [Set.eq_empty_iff_forall_notMem]; exact fun s hs => hs.2 (h2 s hs.1)
        rw [j5 h3, z1, Set.empty_union, without_of_not h1]
        congr 1
        ext s
        simp only [add, rest, Set.mem_ofPred_eq]
        constructor
        · rintro ⟨_, ⟨t, ⟨_, ht⟩, rfl⟩, rfl⟩; exact ⟨_, ht, Finset.insert_comm _ _ _⟩
        · rintro ⟨t, ht, rfl⟩
          refine ⟨insert x (t.erase y), ⟨t.erase y, ⟨by simp, by rwa [Finset.insert_erase (h2 t ht)]⟩, rfl⟩, ?_⟩
          rw [Finset.insert_comm, Finset.insert_erase (h2 t ht)]

/-! ### the whole order -/

/-- `rerank` changes nothing, item by item.  Not code: used to state or prove properties. -/
def RerankOk (new : List T) : List T → Set (Finset T) → Prop
  | [], _ => True
  | x :: old, A => RerankOk new old (without A x) ∧ RerankOk new old (rest A x) ∧
      PlaceOk (new.takeWhile (· ≠ x)) False (without A x) (rest A x)

theorem takeWhile_spec {new : List T} (nd : new.Nodup) {x : T} (hx : x ∈ new) :
    (new.takeWhile (· ≠ x)).Nodup ∧ x ∉ new.takeWhile (· ≠ x) ∧
    ∀ y ∈ new.takeWhile (· ≠ x), 0 < new.idxOf y + 1 ∧ new.idxOf y + 1 < new.idxOf x + 1 := by
  refine ⟨nd.sublist (List.takeWhile_sublist _), fun h => by simpa using List.mem_takeWhile_imp (l := new) h, fun y hy => ⟨by omega, ?_⟩⟩
  induction new with
  | nil => simp at hx
  | cons z new ih =>
    rw [List.takeWhile_cons] at hy
    by_cases hz : z = x
    · simp [hz] at hy
    · simp only [ne_eq, hz, not_false_eq_true, decide_true, if_true, List.mem_cons] at hy
      rw [List.idxOf_cons_ne _ hz]
      rcases hy with rfl | hy
      · rw [List.idxOf_cons_self]; omega
      · have hzy : z ≠ y := by
          rintro rfl
          exact (List.nodup_cons.1 nd).1 ((List.takeWhile_sublist _).subset hy)
        rw [List.idxOf_cons_ne _ hzy]
        have := ih (List.nodup_cons.1 nd).2 (by simpa [Ne.symm hz] using hx) hy
        omega

theorem place_within {K : T → Prop} {x : T} (hx : K x) {ys : List T} {late : Prop} {L H : Set (Finset T)} (hL : Within K L)
    (hH : Within K H) : Within K (place x ys late L H) := by
  induction ys generalizing late L H with
  | nil => exact hL.union (hH.add hx)
  | cons y ys ih =>
    rw [place]
    split_ifs with c1 c2
    · exact (hL.having y).union (ih (hL.without y) hH)
    all_goals
      push Not at c1
      obtain ⟨s, hs, hys⟩ := c1
      have hy := hH s hs y hys
    · exact (ih (hL.without y) (hH.without y)).union ((ih (hL.rest y) (hH.rest y)).add hy)
    · exact (hL.without y).union ((ih (hH.without y) (hH.rest y)).add hy)

theorem rerank_within {K : T → Prop} (new old : List T) {A : Set (Finset T)} (h : Within K A) :
    Within K (rerank new old A) := by
  induction old generalizing A with
  | nil => exact h
  | cons x old ih =>
    by_cases hx : ∀ s ∈ A, x ∉ s
    · rw [Forest.rerank_skip hx]; exact ih h
    · push Not at hx
      obtain ⟨s, hs, hxs⟩ := hx
      exact place_within (h s hs x hxs) (ih (h.without x)) (ih (h.rest x))

/-- Rebuilding never makes a family heavier, and leaves it as it is exactly if it keeps its weight. -/
theorem rerank_weight {new : List T} (nd : new.Nodup) (old : List T) (ho : ∀ x ∈ old, x ∈ new) {A : Set (Finset T)}
    (hA : A.Finite) : (rerank new old A).Finite ∧ (rerank new old A).ncard ≤ A.ncard ∧
    weight (fun i => new.idxOf i + 1) (rerank new old A) ≤ weight (fun i => new.idxOf i + 1) A ∧
    (weight (fun i => new.idxOf i + 1) (rerank new old A) = weight (fun i => new.idxOf i + 1) A → RerankOk new old A) ∧
    (RerankOk new old A → rerank new old A = A) := by
  induction old generalizing A with
  | nil => exact ⟨hA, le_rfl, le_rfl, fun _ => trivial, fun _ => rfl⟩
  | cons x old ih =>
    have ho' : ∀ y ∈ old, y ∈ new := fun y hy => ho y (by simp [hy])
    obtain ⟨i1, i2, i3, i4, i5⟩ := ih ho' (without_finite hA x)
    obtain ⟨j1, j2, j3, j4, j5⟩ := ih ho' (rest_finite hA x)
    obtain ⟨t1, t2, t3⟩ := takeWhile_spec nd (ho x (by simp))
    have fr : ∀ B : Set (Finset T), (∀ s ∈ B, x ∉ s) → ∀ s ∈ rerank new old B, x ∉ s := fun B hB s hs hx =>
      rerank_within (K := fun z => z ≠ x) new old (fun s hs z hz => by rintro rfl; exact hB s hs hz) s hs x hx rfl
    obtain ⟨p1, p2, p3, p4, p5⟩ := place_weight x (fun i => new.idxOf i + 1) (new.takeWhile (· ≠ x)) False _ _ t1 t2 t3 i1 j1
      (fr _ not_mem_without) (fr _ not_mem_rest)
    have e1 := ncard_split hA x
    have e2 := weight_split (r := fun i => new.idxOf i + 1) hA x
    have m := Nat.mul_le_mul_right (new.idxOf x + 1) j2
    rw [rerank, RerankOk]
    refine ⟨p1, by omega, by omega, fun h => ?_, fun ⟨h1, h2, h3⟩ => ?_⟩
    · have a := i4 (by omega)
      have b := j4 (by omega)
      refine ⟨a, b, ?_⟩
      have c := p4 (by omega)
      rwa [i5 a, j5 b] at c
    · rw [i5 h1, j5 h2] at p5 ⊢
      rw [p5 h3, ← split_eq]

/-! ### the same without recursion -/

/-- The sets agree on the listed items.  Not code: used to state or prove properties. -/
def Agree (e : List T) (s t : Finset T) : Prop := ∀ z ∈ e, (z ∈ t ↔ z ∈ s)

/-- Some member agreeing with `s` on the listed items has the property.  Not code: used to state or prove properties. -/
def Ex (A : Set (Finset T)) (e : List T) (s : Finset T) (p : Finset T → Prop) : Prop := ∃ t ∈ A, Agree e s t ∧ p t

/-- The members that agree with `s` on `w`, without `w`.  Not code: used to state or prove properties. -/
def sub (w : T) (s : Finset T) (A : Set (Finset T)) : Set (Finset T) := {t | w ∉ t ∧ (w ∈ s ∧ insert w t ∈ A ∨ w ∉ s ∧ t ∈ A)}

theorem sub_mem {w : T} {s : Finset T} (A : Set (Finset T)) (h : w ∈ s) : sub w s A = rest A w := by
  ext t; simp [sub, rest, h]

theorem sub_not_mem {w : T} {s : Finset T} (A : Set (Finset T)) (h : w ∉ s) : sub w s A = without A w := by
  ext t; simp [sub, without, h, and_comm]

theorem ex_cons {A : Set (Finset T)} {w : T} {e : List T} {s : Finset T} {p : Finset T → Prop} (hw : w ∉ e)
    (hp : ∀ t, p (t.erase w) ↔ p t) : Ex A (w :: e) s p ↔ Ex (sub w s A) e (s.erase w) p := by
  have ag : ∀ t : Finset T, Agree e (s.erase w) (t.erase w) ↔ Agree e s t := by
    intro t
    refine forall₂_congr fun z hz => ?_
    have : z ≠ w := by rintro rfl; exact hw hz
    simp [this]
  constructor
  · rintro ⟨t, ht, h1, h2⟩
    refine ⟨t.erase w, ⟨by simp, ?_⟩, (ag t).2 fun z hz => h1 z (by simp [hz]), (hp t).2 h2⟩
    have h3 := h1 w (by simp)
    by_cases hs : w ∈ s
    · exact .inl ⟨hs, by rwa [Finset.insert_erase (h3.2 hs)]⟩
    · exact .inr ⟨hs, by rwa [Finset.erase_eq_of_notMem (fun h => hs (h3.1 h))]⟩
  · rintro ⟨t, ⟨h0, h⟩, h1, h2⟩
    rcases h with ⟨hs, ht⟩ | ⟨hs, ht⟩
    · have e1 : (insert w t).erase w = t := Finset.erase_insert h0
      refine ⟨insert w t, ht, fun z hz => ?_, ?_⟩
      · rcases List.mem_cons.1 hz with rfl | hz
        · simp [hs]
        · exact (ag (insert w t)).1 (by rwa [e1]) z hz
      · rw [← hp, e1]; exact h2
    · have e1 : t.erase w = t := Finset.erase_eq_of_notMem h0
      refine ⟨t, ht, fun z hz => ?_, h2⟩
      rcases List.mem_cons.1 hz with rfl | hz
      · simp [hs, h0]
      · exact (ag t).1 (by rwa [e1]) z hz

/-- The condition of `Keeps` on a list of items, in terms of what occurs where.
Not code: used to state or prove properties. -/
def Holds (EL EH EN : List T → T → Prop) (ys : List T) (late : Prop) : Prop :=
  ∀ a y c, ys = a ++ y :: c → EH a y →
    (¬ EL a y ∧ ¬ EN a y) ∨
    (EL a y ∧ (late → ∃ b z d, a = b ++ z :: d ∧ EH b z) ∧
      ∀ b z d, a = b ++ z :: d → EL b z → ¬ EH b z → ∃ d1 w d2, d = d1 ++ w :: d2 ∧ EH (b ++ z :: d1) w)

theorem holds_nil (EL EH EN : List T → T → Prop) (late : Prop) : Holds EL EH EN [] late := by
  intro a y c h; simp at h

theorem holds_congr {EL EH EN EL' EH' EN' : List T → T → Prop} {ys : List T} {late : Prop}
    (h : ∀ a y c, ys = a ++ y :: c → (EL a y ↔ EL' a y) ∧ (EH a y ↔ EH' a y) ∧ (EN a y ↔ EN' a y)) :
    Holds EL EH EN ys late ↔ Holds EL' EH' EN' ys late := by
  have key : ∀ {EL EH EN EL' EH' EN' : List T → T → Prop},
      (∀ a y c, ys = a ++ y :: c → (EL a y ↔ EL' a y) ∧ (EH a y ↔ EH' a y) ∧ (EN a y ↔ EN' a y)) →
      Holds EL EH EN ys late → Holds EL' EH' EN' ys late := by
    intro EL EH EN EL' EH' EN' h hh a y c e hy
    obtain ⟨l, h', n⟩ := h a y c e
    have inner : ∀ b z d, a = b ++ z :: d → (EL b z ↔ EL' b z) ∧ (EH b z ↔ EH' b z) := fun b z d e' => by
      have := h b z (d ++ y :: c) (by rw [e, e']; simp)
      exact ⟨this.1, this.2.1⟩
    rcases hh a y c e (h'.2 hy) with ⟨h1, h2⟩ | ⟨h1, h2, h3⟩
    · exact .inl ⟨fun h => h1 (l.2 h), fun h => h2 (n.2 h)⟩
    · refine .inr ⟨l.1 h1, fun hl => ?_, fun b z d e' h4 h5 => ?_⟩
      · obtain ⟨b, z, d, e', h6⟩ := h2 hl
        exact ⟨b, z, d, e', (inner b z d e').2.1 h6⟩
      · obtain ⟨i1, i2⟩ := inner b z d e'
        obtain ⟨d1, w, d2, e'', h6⟩ := h3 b z d e' (i1.2 h4) fun h => h5 (i2.1 h)
        exact ⟨d1, w, d2, e'', (inner (b ++ z :: d1) w d2 (by rw [e', e'']; simp)).2.1 h6⟩
  exact ⟨key h, key fun a y c e => by
    obtain ⟨h1, h2, h3⟩ := h a y c e
    exact ⟨h1.symm, h2.symm, h3.symm⟩⟩

theorem holds_cons {EL EH EN : List T → T → Prop} {y : T} {ys : List T} {late : Prop} :
    Holds EL EH EN (y :: ys) late ↔ (EH [] y → (¬ EL [] y ∧ ¬ EN [] y) ∨ (EL [] y ∧ ¬ late)) ∧
      Holds (fun a => EL (y :: a)) (fun a => EH (y :: a)) (fun a => EN (y :: a)) ys ((late ∨ EL [] y) ∧ ¬ EH [] y) := by
  constructor
  · intro h
    refine ⟨fun hy => ?_, fun a w c e hw => ?_⟩
    · rcases h [] y ys rfl hy with h | ⟨h1, h2, _⟩
      · exact .inl h
      · refine .inr ⟨h1, fun hl => ?_⟩
        obtain ⟨b, z, d, e, _⟩ := h2 hl
        simp at e
    · rcases h (y :: a) w c (by rw [e]; rfl) hw with h | ⟨h1, h2, h3⟩
      · exact .inl h
      · refine .inr ⟨h1, ?_, fun b z d e' h4 h5 => ?_⟩
        · rintro ⟨hl | hl, hn⟩
          · obtain ⟨b, z, d, e', hz⟩ := h2 hl
            cases b with
            | nil => simp only [List.nil_append, List.cons.injEq] at e'; rw [← e'.1] at hz; exact absurd hz hn
            | cons v b =>
              simp only [List.cons_append, List.cons.injEq] at e'
              rw [← e'.1] at hz
              exact ⟨b, z, d, e'.2, hz⟩
          · obtain ⟨d1, w, d2, e', hz⟩ := h3 [] y a rfl hl hn
            exact ⟨d1, w, d2, e', hz⟩
        · obtain ⟨d1, w, d2, e'', h6⟩ := h3 (y :: b) z d (by rw [e']; rfl) h4 h5
          exact ⟨d1, w, d2, e'', h6⟩
  · rintro ⟨h0, h⟩ a w c e hw
    cases a with
    | nil =>
      simp only [List.nil_append, List.cons.injEq] at e
      obtain ⟨rfl, rfl⟩ := e
      rcases h0 hw with h | ⟨h1, h2⟩
      · exact .inl h
      · exact .inr ⟨h1, fun hl => absurd hl h2, fun b z d e' => by simp at e'⟩
    | cons v a =>
      simp only [List.cons_append, List.cons.injEq] at e
      obtain ⟨rfl, rfl⟩ := e
      rcases h a w c rfl hw with h | ⟨h1, h2, h3⟩
      · exact .inl h
      · refine .inr ⟨h1, fun hl => ?_, fun b z d e' h4 h5 => ?_⟩
        · by_cases hn : EH [] y
          · exact ⟨[], y, a, rfl, hn⟩
          · obtain ⟨b, z, d, e', hz⟩ := h2 ⟨.inl hl, hn⟩
            exact ⟨y :: b, z, d, by rw [e']; rfl, hz⟩
        · cases b with
          | nil =>
            simp only [List.nil_append, List.cons.injEq] at e'
            obtain ⟨rfl, rfl⟩ := e'
            obtain ⟨b, z, d, e', hz⟩ := h2 ⟨.inr h4, h5⟩
            exact ⟨b, z, d, e', hz⟩
          | cons v b =>
            simp only [List.cons_append, List.cons.injEq] at e'
            obtain ⟨rfl, e'⟩ := e'
            obtain ⟨d1, w, d2, e'', h6⟩ := h3 b z d e' h4 h5
            exact ⟨d1, w, d2, e'', h6⟩

theorem mem_erase_ne {w y : T} (h : y ≠ w) (t : Finset T) : y ∈ t.erase w ↔ y ∈ t := by simp [h]

theorem placeOk_iff : ∀ (ys : List T) (late : Prop) (L H : Set (Finset T)), ys.Nodup →
    (PlaceOk ys late L H ↔ ∀ s ∈ H, Holds (fun a y => Ex L a s (y ∈ ·)) (fun a y => Ex H a s (y ∈ ·))
      (fun a y => Ex H a s (y ∉ ·)) ys late) := by
  intro ys
  induction ys with
  | nil => intro late L H _; simp [PlaceOk, holds_nil]
  | cons y ys ih =>
    intro late L H nd
    obtain ⟨hy, nd⟩ := List.nodup_cons.1 nd
    have agn : ∀ s t : Finset T, Agree [] s t := fun s t z hz => by simp at hz
    have e0 : ∀ (A : Set (Finset T)) (s : Finset T) (p : Finset T → Prop), Ex A [] s p ↔ ∃ t ∈ A, p t := fun A s p =>
      ⟨fun ⟨t, h1, _, h2⟩ => ⟨t, h1, h2⟩, fun ⟨t, h1, h2⟩ => ⟨t, h1, agn _ _, h2⟩⟩
    have step : ∀ s, Holds (fun a z => Ex L a s (z ∈ ·)) (fun a z => Ex H a s (z ∈ ·)) (fun a z => Ex H a s (z ∉ ·)) (y :: ys) late ↔
        ((∃ t ∈ H, y ∈ t) → (¬ (∃ t ∈ L, y ∈ t) ∧ ¬ ∃ t ∈ H, y ∉ t) ∨ ((∃ t ∈ L, y ∈ t) ∧ ¬ late)) ∧
        Holds (fun a z => Ex (sub y s L) a (s.erase y) (z ∈ ·)) (fun a z => Ex (sub y s H) a (s.erase y) (z ∈ ·))
          (fun a z => Ex (sub y s H) a (s.erase y) (z ∉ ·)) ys ((late ∨ ∃ t ∈ L, y ∈ t) ∧ ¬ ∃ t ∈ H, y ∈ t) := by
      intro s
      rw [holds_cons, e0, e0, e0]
      refine and_congr_right fun _ => holds_congr fun a z c e => ?_
      have hz : z ≠ y := by rintro rfl; exact hy (by rw [e]; simp)
      have ha : y ∉ a := fun h => hy (by rw [e]; simp [h])
      exact ⟨ex_cons ha (mem_erase_ne hz), ex_cons ha (mem_erase_ne hz), ex_cons ha fun t => not_congr (mem_erase_ne hz t)⟩
    simp only [step]
    rw [PlaceOk]
    split_ifs with c1 c2
    · have n1 : ¬ ∃ t ∈ H, y ∈ t := by push Not; exact c1
      have l1 : ((late ∨ ∃ t ∈ L, y ∈ t) ∧ ¬ ∃ t ∈ H, y ∈ t) = (late ∨ ∃ t ∈ L, y ∈ t) := by simp [n1]
      rw [ih _ _ _ nd, l1]
      refine forall₂_congr fun s hs => ?_
      rw [sub_not_mem _ (c1 s hs), sub_not_mem _ (c1 s hs), without_of_not c1, Finset.erase_eq_of_notMem (c1 s hs)]
      simp [n1]
    · have n1 : ∃ t ∈ H, y ∈ t := by push Not at c1; exact c1
      have l1 : ((late ∨ ∃ t ∈ L, y ∈ t) ∧ ¬ ∃ t ∈ H, y ∈ t) = False := by simp [n1]
      rw [ih _ _ _ nd, ih _ _ _ nd, l1]
      have hd : (∃ t ∈ H, y ∈ t) → (¬ (∃ t ∈ L, y ∈ t) ∧ ¬ ∃ t ∈ H, y ∉ t) ∨ ((∃ t ∈ L, y ∈ t) ∧ ¬ late) :=
        fun _ => .inr ⟨c2.2, c2.1⟩
      constructor
      · rintro ⟨h1, h2⟩ s hs
        refine ⟨hd, ?_⟩
        by_cases hys : y ∈ s
        · rw [sub_mem _ hys, sub_mem _ hys]
          exact h2 _ ⟨by simp, by rwa [Finset.insert_erase hys]⟩
        · rw [sub_not_mem _ hys, sub_not_mem _ hys, Finset.erase_eq_of_notMem hys]
          exact h1 s ⟨hs, hys⟩
      · intro h
        refine ⟨fun s hs => ?_, fun s hs => ?_⟩
        · have := (h s hs.1).2
          rwa [sub_not_mem _ hs.2, sub_not_mem _ hs.2, Finset.erase_eq_of_notMem hs.2] at this
        · have := (h _ hs.2).2
          rwa [sub_mem _ (by simp), sub_mem _ (by simp), Finset.erase_insert hs.1] at this
    · have n1 : ∃ t ∈ H, y ∈ t := by push Not at c1; exact c1
      have l1 : ((late ∨ ∃ t ∈ L, y ∈ t) ∧ ¬ ∃ t ∈ H, y ∈ t) = False := by simp [n1]
      rw [ih _ _ _ nd, l1]
      have hd : ((∃ t ∈ H, y ∈ t) → (¬ (∃ t ∈ L, y ∈ t) ∧ ¬ ∃ t ∈ H, y ∉ t) ∨ ((∃ t ∈ L, y ∈ t) ∧ ¬ late)) ↔
          (∀ t ∈ L, y ∉ t) ∧ ∀ t ∈ H, y ∈ t := by
        constructor
        · intro h
          rcases h n1 with ⟨h1, h2⟩ | ⟨h1, h2⟩
          · push Not at h1 h2; exact ⟨h1, h2⟩
          · exact absurd ⟨h2, h1⟩ c2
        · rintro ⟨h1, h2⟩ _
          refine .inl ⟨?_, ?_⟩
          · push Not; exact h1
          · push Not; exact h2
      rw [hd]
      have em : (∀ t ∈ L, y ∉ t) → (∀ t ∈ H, y ∈ t) → rest L y = without H y := by
        intro h1 h2
        rw [rest_of_not h1]
        exact (Set.eq_empty_iff_forall_notMem.2 fun s hs => hs.2 (h2 s hs.1)).symm
      constructor
      · rintro ⟨h1, h2, h3⟩ s hs
        refine ⟨⟨h1, h2⟩, ?_⟩
        rw [sub_mem _ (h2 s hs), sub_mem _ (h2 s hs), em h1 h2]
        exact h3 _ ⟨by simp, by rwa [Finset.insert_erase (h2 s hs)]⟩
      · intro h
        obtain ⟨t, ht, _⟩ := n1
        obtain ⟨h1, h2⟩ := (h t ht).1
        refine ⟨h1, h2, fun s hs => ?_⟩
        have := (h _ hs.2).2
        rwa [sub_mem _ (by simp), sub_mem _ (by simp), Finset.erase_insert hs.1, em h1 h2] at this

theorem placeOk_filter (p : T → Bool) : ∀ (ys : List T) (late : Prop) (L H : Set (Finset T)),
    Within (fun z => p z = true) L → Within (fun z => p z = true) H →
    (PlaceOk (ys.filter p) late L H ↔ PlaceOk ys late L H) := by
  intro ys
  induction ys with
  | nil => intro late L H _ _; rfl
  | cons y ys ih =>
    intro late L H hL hH
    by_cases hy : p y = true
    · rw [List.filter_cons_of_pos hy, PlaceOk, PlaceOk, ih _ _ _ (hL.without y) hH, ih _ _ _ (hL.without y) (hH.without y),
        ih _ _ _ (hL.rest y) (hH.rest y), ih _ _ _ (hH.without y) (hH.rest y)]
    · have nL : ∀ s ∈ L, y ∉ s := fun s hs h => hy (hL s hs y h)
      have nH : ∀ s ∈ H, y ∉ s := fun s hs h => hy (hH s hs y h)
      have l1 : (late ∨ ∃ s ∈ L, y ∈ s) = late := by
        have : ¬ ∃ s ∈ L, y ∈ s := by push Not; exact nL
        simp [this]
      rw [List.filter_cons_of_neg hy, PlaceOk, if_pos nH, without_of_not nL, l1, ih _ _ _ hL hH]

theorem rerankOk_iff {new : List T} (nd : new.Nodup) : ∀ (old : List T) (A : Set (Finset T)), old.Nodup →
    Within (· ∈ old) A →
    (RerankOk new old A ↔ ∀ s ∈ A, ∀ a x c, old = a ++ x :: c → x ∈ s →
      Holds (fun b y => Ex A (a ++ b) s fun t => x ∉ t ∧ y ∈ t) (fun b y => Ex A (a ++ b) s fun t => x ∈ t ∧ y ∈ t)
        (fun b y => Ex A (a ++ b) s fun t => x ∈ t ∧ y ∉ t) ((new.takeWhile (· ≠ x)).filter (· ∈ c)) False) := by
  intro old
  induction old with
  | nil => intro A _ _; simp [RerankOk]
  | cons w old ih =>
    intro A ndo hA
    obtain ⟨hw, ndo⟩ := List.nodup_cons.1 ndo
    have w1 : Within (· ∈ old) (without A w) := fun s hs z hz => by
      rcases List.mem_cons.1 (hA s hs.1 z hz) with rfl | h
      · exact absurd hz hs.2
      · exact h
    have w2 : Within (· ∈ old) (rest A w) := fun s hs z hz => by
      rcases List.mem_cons.1 (hA _ hs.2 z (by simp [hz])) with rfl | h
      · exact absurd hz hs.1
      · exact h
    have tail : (RerankOk new old (without A w) ∧ RerankOk new old (rest A w)) ↔ ∀ s ∈ A, ∀ a x c, old = a ++ x :: c → x ∈ s →
        Holds (fun b y => Ex A (w :: a ++ b) s fun t => x ∉ t ∧ y ∈ t) (fun b y => Ex A (w :: a ++ b) s fun t => x ∈ t ∧ y ∈ t)
          (fun b y => Ex A (w :: a ++ b) s fun t => x ∈ t ∧ y ∉ t) ((new.takeWhile (· ≠ x)).filter (· ∈ c)) False := by
      rw [ih _ ndo w1, ih _ ndo w2]
      have conv : ∀ s a x c, old = a ++ x :: c →
          (Holds (fun b y => Ex A (w :: a ++ b) s fun t => x ∉ t ∧ y ∈ t) (fun b y => Ex A (w :: a ++ b) s fun t => x ∈ t ∧ y ∈ t)
            (fun b y => Ex A (w :: a ++ b) s fun t => x ∈ t ∧ y ∉ t) ((new.takeWhile (· ≠ x)).filter (· ∈ c)) False ↔
          Holds (fun b y => Ex (sub w s A) (a ++ b) (s.erase w) fun t => x ∉ t ∧ y ∈ t)
            (fun b y => Ex (sub w s A) (a ++ b) (s.erase w) fun t => x ∈ t ∧ y ∈ t)
            (fun b y => Ex (sub w s A) (a ++ b) (s.erase w) fun t => x ∈ t ∧ y ∉ t) ((new.takeWhile (· ≠ x)).filter (· ∈ c)) False) := by
        intro s a x c e
        refine holds_congr fun b y d e' => ?_
        have inys : ∀ z ∈ b ++ y :: d, z ∈ c := fun z hz => by
          rw [← e', List.mem_filter] at hz
          simpa using hz.2
        have hx : x ≠ w := by rintro rfl; exact hw (by rw [e]; simp)
        have hc : w ∉ c := fun h => hw (by rw [e]; simp [h])
        have hy : y ≠ w := by rintro rfl; exact hc (inys _ (by simp))
        have hab : w ∉ a ++ b := by
          intro h
          rcases List.mem_append.1 h with h | h
          · exact hw (by rw [e]; simp [h])
          · exact hc (inys _ (by simp [h]))
        refine ⟨ex_cons hab fun t => ?_, ex_cons hab fun t => ?_, ex_cons hab fun t => ?_⟩ <;>
          rw [mem_erase_ne hx, mem_erase_ne hy]
      constructor
      · rintro ⟨h1, h2⟩ s hs a x c e hx
        rw [conv s a x c e]
        have hxw : x ≠ w := by rintro rfl; exact hw (by rw [e]; simp)
        by_cases hws : w ∈ s
        · rw [sub_mem _ hws]
          exact h2 _ ⟨by simp, by rwa [Finset.insert_erase hws]⟩ a x c e ((mem_erase_ne hxw s).2 hx)
        · rw [sub_not_mem _ hws, Finset.erase_eq_of_notMem hws]
          exact h1 s ⟨hs, hws⟩ a x c e hx
      · intro h
        refine ⟨fun s hs a x c e hx => ?_, fun s hs a x c e hx => ?_⟩
        · have := (conv s a x c e).1 (h s hs.1 a x c e hx)
          rwa [sub_not_mem _ hs.2, Finset.erase_eq_of_notMem hs.2] at this
        · have := (conv _ a x c e).1 (h _ hs.2 a x c e (by simp [hx]))
          rwa [sub_mem _ (by simp), Finset.erase_insert hs.1] at this
    have head : PlaceOk (new.takeWhile (· ≠ w)) False (without A w) (rest A w) ↔ ∀ s ∈ A, w ∈ s →
        Holds (fun b y => Ex A ([] ++ b) s fun t => w ∉ t ∧ y ∈ t) (fun b y => Ex A ([] ++ b) s fun t => w ∈ t ∧ y ∈ t)
          (fun b y => Ex A ([] ++ b) s fun t => w ∈ t ∧ y ∉ t) ((new.takeWhile (· ≠ w)).filter (· ∈ old)) False := by
      rw [← placeOk_filter (fun z => decide (z ∈ old)) _ _ _ _ (fun s hs z hz => by simpa using w1 s hs z hz)
        (fun s hs z hz => by simpa using w2 s hs z hz),
        placeOk_iff _ _ _ _ ((nd.sublist (List.takeWhile_sublist _)).filter _)]
      have conv : ∀ s, w ∈ s →
          (Holds (fun b y => Ex A ([] ++ b) s fun t => w ∉ t ∧ y ∈ t) (fun b y => Ex A ([] ++ b) s fun t => w ∈ t ∧ y ∈ t)
            (fun b y => Ex A ([] ++ b) s fun t => w ∈ t ∧ y ∉ t) ((new.takeWhile (· ≠ w)).filter (· ∈ old)) False ↔
          Holds (fun a y => Ex (without A w) a (s.erase w) (y ∈ ·)) (fun a y => Ex (rest A w) a (s.erase w) (y ∈ ·))
            (fun a y => Ex (rest A w) a (s.erase w) (y ∉ ·)) ((new.takeWhile (· ≠ w)).filter (· ∈ old)) False) := by
        intro s hs
        refine holds_congr fun b y d e' => ?_
        have inys : ∀ z ∈ b ++ y :: d, z ∈ old := fun z hz => by
          rw [← e', List.mem_filter] at hz
          simpa using hz.2
        have hy : y ≠ w := by rintro rfl; exact hw (inys _ (by simp))
        have hb : w ∉ b := fun h => hw (inys _ (by simp [h]))
        have agw : ∀ t : Finset T, Agree b (s.erase w) t ↔ Agree b s t := fun t => forall₂_congr fun z hz => by
          have : z ≠ w := by rintro rfl; exact hb hz
          simp [this]
        have agr : ∀ t : Finset T, Agree b s (insert w t) ↔ Agree b s t := fun t => forall₂_congr fun z hz => by
          have : z ≠ w := by rintro rfl; exact hb hz
          simp [this]
        have one : ∀ p : Finset T → Prop, Ex A ([] ++ b) s (fun t => w ∉ t ∧ p t) ↔ Ex (without A w) b (s.erase w) p := by
          intro p
          constructor
          · rintro ⟨t, h1, h2, h3, h4⟩; exact ⟨t, ⟨h1, h3⟩, (agw t).2 h2, h4⟩
          · rintro ⟨t, ⟨h1, h3⟩, h2, h4⟩; exact ⟨t, h1, (agw t).1 h2, h3, h4⟩
        have two : ∀ p : Finset T → Prop, (∀ t, p (insert w t) ↔ p t) →
            (Ex A ([] ++ b) s (fun t => w ∈ t ∧ p t) ↔ Ex (rest A w) b (s.erase w) p) := by
          intro p hp
          constructor
          · rintro ⟨t, h1, h2, h3, h4⟩
            refine ⟨t.erase w, ⟨by simp, by rwa [Finset.insert_erase h3]⟩, (agw _).2 ?_, ?_⟩
            · rw [← agr, Finset.insert_erase h3]; exact h2
            · rw [← hp, Finset.insert_erase h3]; exact h4
          · rintro ⟨t, ⟨h1, h3⟩, h2, h4⟩
            exact ⟨insert w t, h3, (agr t).2 ((agw t).1 h2), by simp, (hp t).2 h4⟩
        exact ⟨one _, two _ fun t => by simp [hy], two _ fun t => by simp [hy]⟩
      constructor
      · intro h s hs hws
        rw [conv s hws]
        exact h _ ⟨by simp, by rwa [Finset.insert_erase hws]⟩
      · intro h s hs
        have := (conv _ (by simp)).1 (h _ hs.2 (by simp))
        rwa [Finset.erase_insert hs.1] at this
    rw [RerankOk, ← and_assoc, tail, head]
    constructor
    · rintro ⟨h1, h2⟩ s hs a x c e hx
      cases a with
      | nil =>
        simp only [List.nil_append, List.cons.injEq] at e
        obtain ⟨rfl, rfl⟩ := e
        exact h2 s hs hx
      | cons v a =>
        simp only [List.cons_append, List.cons.injEq] at e
        obtain ⟨rfl, e⟩ := e
        exact h1 s hs a x c e hx
    · intro h
      exact ⟨fun s hs a x c e hx => h s hs (w :: a) x c (by rw [e]; rfl) hx, fun s hs hx => h s hs [] w old rfl hx⟩

/-! ### in terms of the two orders -/

theorem before_asymm' {c : T → Nat} {x y : T} (h : Before c x y) : ¬ Before c y x := by
  rintro (h' | ⟨h1, h2⟩) <;> rcases h with h | ⟨h3, h4⟩
  · omega
  · omega
  · omega
  · exact lt_asymm h2 h4

theorem before_irrefl' {c : T → Nat} {x : T} : ¬ Before c x x := fun h => before_asymm' h h

theorem before_trans' {c : T → Nat} {x y z : T} (h : Before c x y) (h' : Before c y z) : Before c x z := by
  rcases h with h | ⟨h1, h2⟩ <;> rcases h' with h' | ⟨h3, h4⟩
  · exact .inl (by omega)
  · exact .inl (by omega)
  · exact .inl (by omega)
  · exact .inr ⟨by omega, h2.trans h4⟩

theorem before_total' (c : T → Nat) {x y : T} (h : x ≠ y) : Before c x y ∨ Before c y x := by
  rcases Nat.lt_trichotomy (c x) (c y) with h1 | h1 | h1
  · exact .inr (.inl h1)
  · rcases lt_or_gt_of_ne h with h2 | h2
    · exact .inl (.inr ⟨h1, h2⟩)
    · exact .inr (.inr ⟨h1.symm, h2⟩)
  · exact .inl (.inl h1)

theorem mem_prefix {c : T → Nat} {l a b : List T} {x : T} (h : l.Pairwise (Before c)) (e : l = a ++ x :: b) (z : T) :
    (z ∈ a ↔ z ∈ l ∧ Before c z x) ∧ (z ∈ b ↔ z ∈ l ∧ Before c x z) := by
  subst e
  obtain ⟨_, h2, h3⟩ := List.pairwise_append.1 h
  have h4 := (List.pairwise_cons.1 h2).1
  have ax : ∀ z ∈ a, Before c z x := fun z hz => h3 z hz x (by simp)
  constructor
  · refine ⟨fun hz => ⟨by simp [hz], ax z hz⟩, fun ⟨hz, hb⟩ => ?_⟩
    rcases List.mem_append.1 hz with hz | hz
    · exact hz
    · rcases List.mem_cons.1 hz with rfl | hz
      · exact absurd hb before_irrefl'
      · exact absurd (h4 z hz) (before_asymm' hb)
  · refine ⟨fun hz => ⟨by simp [hz], h4 z hz⟩, fun ⟨hz, hb⟩ => ?_⟩
    rcases List.mem_append.1 hz with hz | hz
    · exact absurd (ax z hz) (before_asymm' hb)
    · rcases List.mem_cons.1 hz with rfl | hz
      · exact absurd hb before_irrefl'
      · exact hz

theorem mem_takeWhile_before {c : T → Nat} {l : List T} {x : T} (h : l.Pairwise (Before c)) (hx : x ∈ l) (z : T) :
    z ∈ l.takeWhile (· ≠ x) ↔ z ∈ l ∧ Before c z x := by
  obtain ⟨a, b, rfl⟩ := List.append_of_mem hx
  have ha : ∀ y ∈ a, y ≠ x := fun y hy => by
    rintro rfl
    exact before_irrefl' (((mem_prefix h rfl y).1.1 hy).2)
  rw [List.takeWhile_append_of_pos (by simpa using ha), List.takeWhile_cons_of_neg (by simp), List.append_nil]
  exact (mem_prefix h rfl z).1

theorem nodup_before {c : T → Nat} {l : List T} (h : l.Pairwise (Before c)) : l.Nodup :=
  h.imp fun h e => by subst e; exact before_irrefl' h

theorem rerankOk_keeps {c c' : T → Nat} {A : Set (Finset T)} {old new : List T} (ro : Ranked c A old)
    (hn : new.Pairwise (Before c')) (hsub : ∀ x ∈ old, x ∈ new) : RerankOk new old A ↔ Keeps A c c' := by
  have inA : ∀ s ∈ A, ∀ z ∈ s, z ∈ old := fun s hs z hz => (ro.2 z).2 ⟨s, hs, hz⟩
  rw [rerankOk_iff (nodup_before hn) old A (nodup_before ro.1) inA]
  have key : ∀ s ∈ A, ∀ a x d, old = a ++ x :: d → x ∈ s →
      (Holds (fun b y => Ex A (a ++ b) s fun t => x ∉ t ∧ y ∈ t) (fun b y => Ex A (a ++ b) s fun t => x ∈ t ∧ y ∈ t)
        (fun b y => Ex A (a ++ b) s fun t => x ∈ t ∧ y ∉ t) ((new.takeWhile (· ≠ x)).filter (· ∈ d)) False ↔
      ∀ y, Before c x y → Before c' y x → Both A c c' s x y →
        (∀ t ∈ A, Alike c c' s x y t → (x ∈ t ↔ y ∈ t)) ∨
        (Only A c c' s x y ∧ ∀ y', Before c x y' → Before c' y' y → Only A c c' s x y' → ¬ Both A c c' s x y' →
          ∃ y'', Before c x y'' ∧ Before c' y' y'' ∧ Before c' y'' y ∧ Both A c c' s x y'')) := by
    intro s hs a x d e hx
    have hxo : x ∈ old := by rw [e]; simp
    generalize hys : (new.takeWhile (· ≠ x)).filter (· ∈ d) = ys
    have mys : ∀ y, y ∈ ys ↔ y ∈ old ∧ Before c x y ∧ Before c' y x := by
      intro y
      rw [← hys, List.mem_filter, mem_takeWhile_before hn (hsub x hxo), decide_eq_true_eq, (mem_prefix ro.1 e y).2]
      constructor
      · rintro ⟨⟨_, h1⟩, h2, h3⟩; exact ⟨h2, h3, h1⟩
      · rintro ⟨h2, h3, h1⟩; exact ⟨⟨hsub y h2, h1⟩, h2, h3⟩
    have pys : ys.Pairwise (Before c') := by
      rw [← hys]; exact (hn.sublist (List.takeWhile_sublist _)).filter _
    have alike : ∀ b y d', ys = b ++ y :: d' → ∀ t ∈ A, (Agree (a ++ b) s t ↔ Alike c c' s x y t) := by
      intro b y d' e' t ht
      have hy := (mys y).1 (by rw [e']; simp)
      constructor
      · intro h z hz
        by_cases hzo : z ∈ old
        · refine h z (List.mem_append.2 ?_)
          rcases hz with hz | hz
          · exact .inl ((mem_prefix ro.1 e z).1.2 ⟨hzo, hz⟩)
          · by_cases hzx : z = x
            · subst hzx; exact absurd hz (before_asymm' hy.2.2)
            · rcases before_total' c hzx with h1 | h1
              · exact .inl ((mem_prefix ro.1 e z).1.2 ⟨hzo, h1⟩)
              · exact .inr ((mem_prefix pys e' z).1.2 ⟨(mys z).2 ⟨hzo, h1, before_trans' hz hy.2.2⟩, hz⟩)
        · exact ⟨fun h => absurd (inA t ht z h) hzo, fun h => absurd (inA s hs z h) hzo⟩
      · intro h z hz
        rcases List.mem_append.1 hz with hz | hz
        · exact h z (.inl ((mem_prefix ro.1 e z).1.1 hz).2)
        · exact h z (.inr ((mem_prefix pys e' z).1.1 hz).2)
    have ex : ∀ b y d', ys = b ++ y :: d' → ∀ p : Finset T → Prop,
        (Ex A (a ++ b) s p ↔ ∃ t ∈ A, Alike c c' s x y t ∧ p t) := fun b y d' e' p =>
      ⟨fun ⟨t, h1, h2, h3⟩ => ⟨t, h1, (alike b y d' e' t h1).1 h2, h3⟩,
        fun ⟨t, h1, h2, h3⟩ => ⟨t, h1, (alike b y d' e' t h1).2 h2, h3⟩⟩
    rw [holds_congr (EL' := fun _ y => Only A c c' s x y) (EH' := fun _ y => Both A c c' s x y)
      (EN' := fun _ y => ∃ t ∈ A, Alike c c' s x y t ∧ x ∈ t ∧ y ∉ t)
      (fun b y d' e' => ⟨ex b y d' e' _, ex b y d' e' _, ex b y d' e' _⟩)]
    have both_old : ∀ {y}, Both A c c' s x y → y ∈ old := fun ⟨t, h1, _, _, h2⟩ => inA t h1 _ h2
    have only_old : ∀ {y}, Only A c c' s x y → y ∈ old := fun ⟨t, h1, _, _, h2⟩ => inA t h1 _ h2
    have first : ∀ y, (¬ Only A c c' s x y ∧ ¬ ∃ t ∈ A, Alike c c' s x y t ∧ x ∈ t ∧ y ∉ t) ↔
        ∀ t ∈ A, Alike c c' s x y t → (x ∈ t ↔ y ∈ t) := by
      intro y
      constructor
      · rintro ⟨h1, h2⟩ t ht ha
        refine ⟨fun h => ?_, fun h => ?_⟩
        · by_contra hy; exact h2 ⟨t, ht, ha, h, hy⟩
        · by_contra hx; exact h1 ⟨t, ht, ha, hx, h⟩
      · intro h
        exact ⟨fun ⟨t, h1, h2, h3, h4⟩ => h3 ((h t h1 h2).2 h4), fun ⟨t, h1, h2, h3, h4⟩ => h4 ((h t h1 h2).1 h3)⟩
    constructor
    · intro h y h1 h2 hb
      obtain ⟨b, d', e'⟩ := List.append_of_mem ((mys y).2 ⟨both_old hb, h1, h2⟩)
      rcases h b y d' e' hb with h3 | ⟨h3, _, h4⟩
      · exact .inl ((first y).1 h3)
      · refine .inr ⟨h3, fun y' h5 h6 h7 h8 => ?_⟩
        obtain ⟨b1, d1, e1⟩ := List.append_of_mem ((mem_prefix pys e' y').1.2
          ⟨(mys y').2 ⟨only_old h7, h5, before_trans' h6 h2⟩, h6⟩)
        obtain ⟨d2, w, d3, e2, h9⟩ := h4 b1 y' d1 e1 h7 h8
        have hw : w ∈ b := by rw [e1, e2]; simp
        have hw' := (mem_prefix pys e' w).1.1 hw
        have pb : b.Pairwise (Before c') := by rw [e'] at pys; exact (List.pairwise_append.1 pys).1
        exact ⟨w, ((mys w).1 hw'.1).2.1, ((mem_prefix pb e1 w).2.1 (by rw [e2]; simp)).2, hw'.2, h9⟩
    · intro h b y d' e' hb
      have hy := (mys y).1 (by rw [e']; simp)
      have pb : b.Pairwise (Before c') := by rw [e'] at pys; exact (List.pairwise_append.1 pys).1
      rcases h y hy.2.1 hy.2.2 hb with h3 | ⟨h3, h4⟩
      · exact .inl ((first y).2 h3)
      · refine .inr ⟨h3, fun h => h.elim, fun b1 z d1 e1 h5 h6 => ?_⟩
        have hz := (mem_prefix pys e' z).1.1 (by rw [e1]; simp)
        obtain ⟨w, g1, g2, g3, g4⟩ := h4 z ((mys z).1 hz.1).2.1 hz.2 h5 h6
        have hw : w ∈ b := (mem_prefix pys e' w).1.2 ⟨(mys w).2 ⟨both_old g4, g1, before_trans' g3 hy.2.2⟩, g3⟩
        obtain ⟨d2, d3, e2⟩ := List.append_of_mem ((mem_prefix pb e1 w).2.2 ⟨hw, g2⟩)
        exact ⟨d2, w, d3, e2, g4⟩
  constructor
  · intro h s hs x hx
    obtain ⟨a, d, e⟩ := List.append_of_mem (inA s hs x hx)
    exact (key s hs a x d e hx).1 (h s hs a x d e hx)
  · intro h s hs a x d e hx
    exact (key s hs a x d e hx).2 (h s hs x hx)

/-- C17, C76: exactly when rebuilding a family in another item order leaves it as it is. -/
theorem rerank_keeps_iff {c c' : T → Nat} {A : Set (Finset T)} (hA : A.Finite) {old new : List T} (ro : Ranked c A old)
    (hn : new.Pairwise (Before c')) (hsub : ∀ x ∈ old, x ∈ new) :
    (rerank new old A = A ↔ Keeps A c c') ∧
    (weight (fun i => new.idxOf i + 1) (rerank new old A) = weight (fun i => new.idxOf i + 1) A ↔ Keeps A c c') := by
  obtain ⟨h1, h2, h3, h4, h5⟩ := rerank_weight (nodup_before hn) old hsub hA
  have hk := rerankOk_keeps ro hn hsub
  exact ⟨⟨fun h => hk.1 (h4 (by rw [h])), fun h => h5 (hk.2 h)⟩, ⟨fun h => hk.1 (h4 h), fun h => by rw [h5 (hk.2 h)]⟩⟩

/-! ### forests -/

open Forest Universe

theorem family_finite (ls : List (List T)) : (family ls).Finite := by
  have : family ls = (fun l : List T => l.toFinset) '' {l | l ∈ ls} := rfl
  rw [this]; exact (List.finite_toSet ls).image _

theorem weight_union_le {r : T → Nat} {A B : Set (Finset T)} (hA : A.Finite) (hB : B.Finite) :
    weight r (A ∪ B) ≤ weight r A + weight r B := by
  have h := finsum_mem_union_inter (f := fun s : Finset T => ∑ i ∈ s, r i) hA hB
  unfold weight; omega

/-- C17, C18, C19, C76: the condition `Keeps` says of the two families of any two forests exactly whether bringing their
diagrams into the order of the combined frequencies leaves them as they are. -/
theorem kept_iff {f g : Forest T} (hf : Reach f) (hg : Reach g) {oldF oldG new : List T}
    (rf : Ranked (count (family f.trees)) (family f.trees) oldF)
    (rg : Ranked (count (family g.trees)) (family g.trees) oldG)
    (rn : Ranked (fun x => count (family f.trees) x + count (family g.trees) x)
      (family f.trees ∪ family g.trees) new) :
    (rerank new oldF (family f.trees) = family f.trees ↔ Keeps (family f.trees) (count (family f.trees))
      (fun x => count (family f.trees) x + count (family g.trees) x)) ∧
    (rerank new oldG (family g.trees) = family g.trees ↔ Keeps (family g.trees) (count (family g.trees))
      (fun x => count (family f.trees) x + count (family g.trees) x)) :=
  ⟨(rerank_keeps_iff (family_finite _) rf rn.1
      (fun x hx => (rn.2 x).2 (by obtain ⟨s, h1, h2⟩ := (rf.2 x).1 hx; exact ⟨s, .inl h1, h2⟩))).1,
    (rerank_keeps_iff (family_finite _) rg rn.1
      (fun x hx => (rn.2 x).2 (by obtain ⟨s, h1, h2⟩ := (rg.2 x).1 hx; exact ⟨s, .inr h1, h2⟩))).1⟩

/-- C17 (proved part): `union` is set union whenever both families keep their members.  `Keeps` is weaker than
`Compatible` (`keeps_of_compatible`). -/
theorem union_keeps_partial {f g r : Forest T} (hf : Reach f) (hg : Reach g)
    (h1 : Keeps (family f.trees) (count (family f.trees)) (fun x => count (family f.trees) x + count (family g.trees) x))
    (h2 : Keeps (family g.trees) (count (family g.trees)) (fun x => count (family f.trees) x + count (family g.trees) x))
    (hr : f.union g = some r) : family r.trees = family f.trees ∪ family g.trees := by
  obtain ⟨⟨oF, rf, _⟩, ⟨n, rn, _⟩⟩ := ranking_unique hf hg
  obtain ⟨⟨oG, rg, _⟩, _⟩ := ranking_unique hg hf
  obtain ⟨k1, k2⟩ := kept_iff hf hg rf rg rn
  rw [union_exact hf hg rf rg rn hr, k1.2 h1, k2.2 h2]

/-- C17 (exact, for forests without a common member): `union` is set union if and only if both families keep their
members. -/
theorem union_disjoint_iff {f g r : Forest T} (hf : Reach f) (hg : Reach g)
    (hd : Disjoint (family f.trees) (family g.trees)) (hr : f.union g = some r) :
    family r.trees = family f.trees ∪ family g.trees ↔
      Keeps (family f.trees) (count (family f.trees)) (fun x => count (family f.trees) x + count (family g.trees) x) ∧
      Keeps (family g.trees) (count (family g.trees)) (fun x => count (family f.trees) x + count (family g.trees) x) := by
  refine ⟨fun h => ?_, fun h => union_keeps_partial hf hg h.1 h.2 hr⟩
  obtain ⟨⟨oF, rf, _⟩, ⟨n, rn, _⟩⟩ := ranking_unique hf hg
  obtain ⟨⟨oG, rg, _⟩, _⟩ := ranking_unique hg hf
  have sF : ∀ x ∈ oF, x ∈ n := fun x hx => (rn.2 x).2 (by obtain ⟨s, h1, h2⟩ := (rf.2 x).1 hx; exact ⟨s, .inl h1, h2⟩)
  have sG : ∀ x ∈ oG, x ∈ n := fun x hx => (rn.2 x).2 (by obtain ⟨s, h1, h2⟩ := (rg.2 x).1 hx; exact ⟨s, .inr h1, h2⟩)
  have fF := family_finite f.trees
  have fG := family_finite g.trees
  rw [union_exact hf hg rf rg rn hr] at h
  obtain ⟨a1, _, a2, _⟩ := rerank_weight (nodup_before rn.1) oF sF fF
  obtain ⟨b1, _, b2, _⟩ := rerank_weight (nodup_before rn.1) oG sG fG
  have w1 := weight_union_le (r := fun i => n.idxOf i + 1) a1 b1
  have w2 := weight_union (r := fun i => n.idxOf i + 1) hd fF fG
  rw [h, w2] at w1
  exact ⟨(rerank_keeps_iff fF rf rn.1 sF).2.1 (by omega), (rerank_keeps_iff fG rg rn.1 sG).2.1 (by omega)⟩

/-- C17 (bound, every pair of forests): `union` never has more members than its operands together. -/
theorem union_members_le {f g r : Forest T} (hf : Reach f) (hg : Reach g) (hr : f.union g = some r) :
    (family r.trees).ncard ≤ (family f.trees).ncard + (family g.trees).ncard := by
  obtain ⟨⟨oF, rf, _⟩, ⟨n, rn, _⟩⟩ := ranking_unique hf hg
  obtain ⟨⟨oG, rg, _⟩, _⟩ := ranking_unique hg hf
  have sF : ∀ x ∈ oF, x ∈ n := fun x hx => (rn.2 x).2 (by obtain ⟨s, h1, h2⟩ := (rf.2 x).1 hx; exact ⟨s, .inl h1, h2⟩)
  have sG : ∀ x ∈ oG, x ∈ n := fun x hx => (rn.2 x).2 (by obtain ⟨s, h1, h2⟩ := (rg.2 x).1 hx; exact ⟨s, .inr h1, h2⟩)
  obtain ⟨_, a1, _⟩ := rerank_weight (nodup_before rn.1) oF sF (family_finite f.trees)
  obtain ⟨_, b1, _⟩ := rerank_weight (nodup_before rn.1) oG sG (family_finite g.trees)
  rw [union_exact hf hg rf rg rn hr]
  exact (Set.ncard_union_le _ _).trans (Nat.add_le_add a1 b1)

/-- C18 (exact, whenever both families keep their members): what `intersect` returns, and when that is the
intersection. -/
theorem intersect_keeps_partial {f g r : Forest T} (hf : Reach f) (hg : Reach g)
    (h1 : Keeps (family f.trees) (count (family f.trees)) (fun x => count (family f.trees) x + count (family g.trees) x))
    (h2 : Keeps (family g.trees) (count (family g.trees)) (fun x => count (family f.trees) x + count (family g.trees) x))
    (hr : f.intersect g = some r) :
    family r.trees = stopIntersect (Before (fun x => count (family f.trees) x + count (family g.trees) x))
      (family f.trees) (family g.trees) ∧
    (family r.trees = family f.trees ∩ family g.trees ↔
      (∀ s ∈ family f.trees, Stops (Before (fun x => count (family f.trees) x +
        count (family g.trees) x)) (family g.trees) s → s ∈ family g.trees) ∧
      (∀ s ∈ family g.trees, Stops (Before (fun x => count (family f.trees) x +
        count (family g.trees) x)) (family f.trees) s → s ∈ family f.trees)) := by
  obtain ⟨⟨oF, rf, _⟩, ⟨n, rn, _⟩⟩ := ranking_unique hf hg
  obtain ⟨⟨oG, rg, _⟩, _⟩ := ranking_unique hg hf
  obtain ⟨k1, k2⟩ := kept_iff hf hg rf rg rn
  have he := intersect_exact hf hg rf rg rn hr
  rw [k1.2 h1, k2.2 h2] at he
  have self : ∀ (lt : T → T → Prop) (A : Set (Finset T)) (s : Finset T), s ∈ A → Stops lt A s :=
    fun lt A s hs => ⟨s, hs, ⟨subset_rfl, fun x _ y hy hn => absurd hy hn⟩,
      fun t _ _ _ y hy hn => absurd hy hn⟩
  refine ⟨he, ?_⟩
  rw [he]
  constructor
  · intro e
    refine ⟨fun s hs hst => ?_, fun s hs hst => ?_⟩
    · have : s ∈ family f.trees ∩ family g.trees := by rw [← e]; exact Or.inl ⟨hs, hst⟩
      exact this.2
    · have : s ∈ family f.trees ∩ family g.trees := by rw [← e]; exact Or.inr ⟨hs, hst⟩
      exact this.1
  · rintro ⟨h1, h2⟩
    ext s
    constructor
    · rintro (⟨a1, a2⟩ | ⟨a1, a2⟩)
      · exact ⟨a1, h1 s a1 a2⟩
      · exact ⟨h2 s a1 a2, a1⟩
    · rintro ⟨a1, a2⟩
      exact Or.inl ⟨a1, self _ _ _ a2⟩

/-- C19 (exact, whenever both families keep their members): what `product` returns. -/
theorem product_keeps_partial {f g r : Forest T} (hf : Reach f) (hg : Reach g)
    (h1 : Keeps (family f.trees) (count (family f.trees)) (fun x => count (family f.trees) x + count (family g.trees) x))
    (h2 : Keeps (family g.trees) (count (family g.trees)) (fun x => count (family f.trees) x + count (family g.trees) x))
    (hr : f.product g = some r) :
    family r.trees = contProduct (Before (fun x => count (family f.trees) x + count (family g.trees) x))
      (family f.trees) (family g.trees) := by
  obtain ⟨⟨oF, rf, _⟩, ⟨n, rn, _⟩⟩ := ranking_unique hf hg
  obtain ⟨⟨oG, rg, _⟩, _⟩ := ranking_unique hg hf
  obtain ⟨k1, k2⟩ := kept_iff hf hg rf rg rn
  rw [product_exact hf hg rf rg rn hr, k1.2 h1, k2.2 h2]

/-- C17, C18, C19: `Compatible` families keep their members. -/
theorem keeps_of_compatible {f g : Forest T} (hf : Reach f) (hg : Reach g)
    (h : Compatible (family f.trees) (family g.trees)) :
    Keeps (family f.trees) (count (family f.trees)) (fun x => count (family f.trees) x + count (family g.trees) x) ∧
    Keeps (family g.trees) (count (family g.trees)) (fun x => count (family f.trees) x + count (family g.trees) x) := by
  obtain ⟨⟨oF, rf, _⟩, ⟨n, rn, _⟩⟩ := ranking_unique hf hg
  obtain ⟨⟨oG, rg, _⟩, _⟩ := ranking_unique hg hf
  obtain ⟨k1, k2⟩ := kept_iff hf hg rf rg rn
  obtain ⟨s1, s2⟩ := rerank_safe hf hg rf rg rn h
  exact ⟨k1.1 s1, k2.1 s2⟩

/-! ### examples -/

/-- `{{0,1},{1},{0}}`: the items `0` and `1` swap when `{{1,2}}` is added. -/
theorem demo_counts : (∀ z, count (family (Forest.many [[0, 1], [1], [0]] : Forest ℕ).trees) z = if z ≤ 1 then 2 else 0) ∧
    (∀ z, count (family (Forest.many [[1, 2]] : Forest ℕ).trees) z = if z = 1 ∨ z = 2 then 1 else 0) := by
  constructor <;> intro z
  · rw [← (reach_many (T := ℕ) [[0, 1], [1], [0]]).canon.count z]
    have u1 : (Forest.many [[0, 1], [1], [0]] : Forest ℕ).univ = Universe.fromMatrix [[0, 1], [1], [0]] := rfl
    have u2 : Universe.fromMatrix [[0, 1], [1], [0]] = (⟨[(0, 2), (1, 2)], [(0, 0), (1, 1)], [0, 1]⟩ : Universe ℕ) := by decide
    rw [u1, u2]
    match z with
    | 0 => rfl
    | 1 => rfl
    | n + 2 => simp [Universe.count, lookup]
  · rw [← (reach_many (T := ℕ) [[1, 2]]).canon.count z]
    have u1 : (Forest.many [[1, 2]] : Forest ℕ).univ = Universe.fromMatrix [[1, 2]] := rfl
    have u2 : Universe.fromMatrix [[1, 2]] = (⟨[(1, 1), (2, 1)], [(1, 0), (2, 1)], [1, 2]⟩ : Universe ℕ) := by decide
    rw [u1, u2]
    match z with
    | 0 => rfl
    | 1 => rfl
    | 2 => rfl
    | n + 3 => simp [Universe.count, lookup]

theorem demo_members : family (Forest.many [[0, 1], [1], [0]] : Forest ℕ).trees = {{0, 1}, {1}, {0}} ∧
    family (Forest.many [[1, 2]] : Forest ℕ).trees = {{1, 2}} := by
  constructor
  · rw [many_family]
    ext s
    simp only [family, Set.mem_ofPred_eq, List.mem_cons, List.not_mem_nil, or_false, exists_eq_or_imp, exists_eq_left,
      Set.mem_insert_iff, Set.mem_singleton_iff]
    constructor
    · rintro ⟨rfl | rfl | rfl, _⟩ <;> decide
    · rintro (rfl | rfl | rfl) <;> decide
  · rw [many_family]
    ext s
    simp only [family, Set.mem_ofPred_eq, List.mem_cons, List.not_mem_nil, or_false, exists_eq_or_imp, exists_eq_left,
      Set.mem_insert_iff, Set.mem_singleton_iff]
    constructor
    · rintro ⟨rfl, _⟩; decide
    · rintro rfl; decide

/-- Both families keep their members, although `1` moves before `0`, which occurs without it. -/
theorem demo_keeps :
    Keeps (family (Forest.many [[0, 1], [1], [0]] : Forest ℕ).trees) (count (family (Forest.many [[0, 1], [1], [0]] : Forest ℕ).trees))
      (fun x => count (family (Forest.many [[0, 1], [1], [0]] : Forest ℕ).trees) x + count (family (Forest.many [[1, 2]] : Forest ℕ).trees) x) ∧
    Keeps (family (Forest.many [[1, 2]] : Forest ℕ).trees) (count (family (Forest.many [[1, 2]] : Forest ℕ).trees))
      (fun x => count (family (Forest.many [[0, 1], [1], [0]] : Forest ℕ).trees) x + count (family (Forest.many [[1, 2]] : Forest ℕ).trees) x) := by
  obtain ⟨c1, c2⟩ := demo_counts
  obtain ⟨m1, m2⟩ := demo_members
  constructor
  · intro s hs x hx y b1 b2 hb
    obtain ⟨t, ht, ha, hxt, hyt⟩ := hb
    simp only [Before, c1, c2] at b1 b2
    rw [m1] at hs ht
    have hx1 : x ≤ 1 := by rcases ht with rfl | rfl | rfl <;> simp at hxt <;> omega
    have hy1 : y ≤ 1 := by rcases ht with rfl | rfl | rfl <;> simp at hyt <;> omega
    have e : x = 0 ∧ y = 1 := by
      simp only [hx1, hy1, if_true] at b1
      omega
    obtain ⟨rfl, rfl⟩ := e
    have none : ∀ z, ¬ (Before (count (family (Forest.many [[0, 1], [1], [0]] : Forest ℕ).trees)) z 0 ∨
        Before (fun x => count (family (Forest.many [[0, 1], [1], [0]] : Forest ℕ).trees) x + count (family (Forest.many [[1, 2]] : Forest ℕ).trees) x) z 1) := by
      intro z
      simp only [Before, c1, c2]
      by_cases h0 : z = 0
      · subst h0; decide
      by_cases h1 : z = 1
      · subst h1; decide
      have h2 : ¬ z ≤ 1 := by omega
      rw [if_neg h2]
      split_ifs <;> simp_all
    refine .inr ⟨⟨{1}, by rw [m1]; simp, fun z hz => absurd hz (none z), by simp, by simp⟩, fun y' _ h => absurd (.inr h) (none y')⟩
  · intro s hs x hx y b1 b2 hb
    obtain ⟨t, ht, ha, hxt, hyt⟩ := hb
    rw [m2] at ht
    obtain rfl : t = {1, 2} := ht
    simp only [Before, c1, c2] at b1 b2
    simp only [Finset.mem_insert, Finset.mem_singleton] at hxt hyt
    rcases hxt with rfl | rfl <;> rcases hyt with rfl | rfl <;> simp at b1 b2

/-- They are not `Compatible`: `Keeps` is strictly weaker. -/
example : ¬ Compatible (family (Forest.many [[0, 1], [1], [0]] : Forest ℕ).trees) (family (Forest.many [[1, 2]] : Forest ℕ).trees) := by
  obtain ⟨c1, c2⟩ := demo_counts
  obtain ⟨m1, m2⟩ := demo_members
  rintro ⟨h, _⟩
  have := h {0, 1} (by rw [m1]; simp) {0} (by rw [m1]; simp) 0 (by simp) 1 (by simp) (by simp [Before, c1]) (by simp [Before, c1, c2])
    (fun z hz => by simp only [Before, c1] at hz; split_ifs at hz <;> omega)
  simp at this

example : ∃ r s t : Forest ℕ, (Forest.many [[0, 1], [1], [0]]).union (Forest.many [[1, 2]]) = some r ∧
    (Forest.many [[0, 1], [1], [0]]).intersect (Forest.many [[1, 2]]) = some s ∧
    (Forest.many [[0, 1], [1], [0]]).product (Forest.many [[1, 2]]) = some t ∧
    family r.trees = {{0, 1}, {1}, {0}, {1, 2}} ∧ (family r.trees).ncard ≤ 4 ∧
    family s.trees = stopIntersect (Before (fun x => count (family (Forest.many [[0, 1], [1], [0]] : Forest ℕ).trees) x +
      count (family (Forest.many [[1, 2]] : Forest ℕ).trees) x)) {{0, 1}, {1}, {0}} {{1, 2}} ∧
    family t.trees = contProduct (Before (fun x => count (family (Forest.many [[0, 1], [1], [0]] : Forest ℕ).trees) x +
      count (family (Forest.many [[1, 2]] : Forest ℕ).trees) x)) {{0, 1}, {1}, {0}} {{1, 2}} := by
  obtain ⟨⟨r, hr, _⟩, ⟨s, hs, _⟩, ⟨t, ht, _⟩⟩ := binary_total (reach_many [[0, 1], [1], [0]]) (reach_many [[1, 2]] : Reach (T := ℕ) _)
  obtain ⟨k1, k2⟩ := demo_keeps
  obtain ⟨m1, m2⟩ := demo_members
  have e := union_keeps_partial (reach_many _) (reach_many _) k1 k2 hr
  have l := union_members_le (reach_many _) (reach_many _) hr
  have i := (intersect_keeps_partial (reach_many _) (reach_many _) k1 k2 hs).1
  have p := product_keeps_partial (reach_many _) (reach_many _) k1 k2 ht
  refine ⟨r, s, t, hr, hs, ht, ?_, ?_, by rw [i, m1, m2], by rw [p, m1, m2]⟩
  · rw [e, m1, m2]; ext s; simp; tauto
  · refine l.trans ?_
    rw [m1, m2]
    have h3 : ({{0, 1}, {1}, {0}} : Set (Finset ℕ)).ncard ≤ 3 :=
      (Set.ncard_insert_le _ _).trans (Nat.succ_le_succ ((Set.ncard_insert_le _ _).trans (by simp)))
    simp only [Set.ncard_singleton]; omega

/-- Where the union loses a member (`union_witness`), the families do not both keep their members. -/
example : ¬ (Keeps (family (Forest.many [[1, 2], [1, 3]] : Forest ℕ).trees) (count (family (Forest.many [[1, 2], [1, 3]] : Forest ℕ).trees))
      (fun x => count (family (Forest.many [[1, 2], [1, 3]] : Forest ℕ).trees) x + count (family (Forest.many [[2], [2, 3]] : Forest ℕ).trees) x) ∧
    Keeps (family (Forest.many [[2], [2, 3]] : Forest ℕ).trees) (count (family (Forest.many [[2], [2, 3]] : Forest ℕ).trees))
      (fun x => count (family (Forest.many [[1, 2], [1, 3]] : Forest ℕ).trees) x + count (family (Forest.many [[2], [2, 3]] : Forest ℕ).trees) x)) := by
  have hd : Disjoint (family (Forest.many [[1, 2], [1, 3]] : Forest ℕ).trees) (family (Forest.many [[2], [2, 3]] : Forest ℕ).trees) := by
    rw [Set.disjoint_left, many_family, many_family]
    rintro s ⟨⟨l, hl, rfl⟩, _⟩ ⟨⟨l', hl', e⟩, _⟩
    simp only [List.mem_cons, List.not_mem_nil, or_false] at hl hl'
    rcases hl with rfl | rfl <;> rcases hl' with rfl | rfl <;> exact absurd e (by decide)
  rw [← union_disjoint_iff (reach_many _) (reach_many _) hd union_witness]
  intro h
  have h13 : ({1, 3} : Finset ℕ) ∈ family (Forest.many [[1, 2], [1, 3]]).trees := by
    rw [many_family]; exact ⟨⟨[1, 3], by simp, by decide⟩, by decide⟩
  have h13' := Set.mem_union_left (family (Forest.many [[2], [2, 3]]).trees) h13
  rw [← h, many_family] at h13'
  obtain ⟨⟨l, hl, e⟩, _⟩ := h13'
  simp only [List.mem_cons, List.not_mem_nil, or_false] at hl
  rcases hl with rfl | rfl | rfl <;> exact absurd e (by decide)

example : ∃ old new, (rerank new old (family (Forest.many [[0, 1], [1], [0]] : Forest ℕ).trees) =
    family (Forest.many [[0, 1], [1], [0]] : Forest ℕ).trees) := by
  obtain ⟨⟨o1, h1, _⟩, ⟨n, hn, _⟩⟩ := ranking_unique (reach_many [[0, 1], [1], [0]]) (reach_many [[1, 2]] : Reach (T := ℕ) _)
  obtain ⟨⟨o2, h2, _⟩, _⟩ := ranking_unique (reach_many [[1, 2]]) (reach_many [[1, 2]] : Reach (T := ℕ) _)
  exact ⟨o1, n, (kept_iff (reach_many _) (reach_many _) h1 h2 hn).1.2 demo_keeps.1⟩

example := keeps_of_compatible (reach_many [[1, 2], [1, 3]]) (reach_many [[4], [5, 6]] : Reach (T := ℕ) _)
  (compatible_of_disjoint demo_apart)

end Verif.Zdd2
