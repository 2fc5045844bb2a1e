import Verif.Zdd2.Laws

/-!
# How many members the binary operations on zdd2 forests can return

`union`, `intersect` and `product` are not exact for every pair of forests (C17, C18, C19); these bounds
hold for every pair.
-/

set_option linter.unusedSimpArgs false
set_option linter.unusedSectionVars false
set_option linter.unusedVariables false

namespace Verif.Zdd2
open Verif Verif.Spec Verif.Zdd2.Spec

universe u
variable {T : Type u} [LinearOrder T]

namespace Node

/-- Number of paths to `Always` whose number of taken branches satisfies `P`.
Not code: used to state or prove properties. -/
def cnt (P : Nat → Bool) : Node → Nat
  | .Branch _ l h => cnt P l + cnt (fun k => P (k + 1)) h
  | .Always => if P 0 then 1 else 0
  | .Never => 0

theorem branch_cnt {i : Nat} {l h : Node} (ol : l.Ordered) (oh : h.Ordered) (hi : ¬ h.Supp i)
    (P : Nat → Bool) : (branch i l h).cnt P ≤ l.cnt P + h.cnt (fun k => P (k + 1)) := by
  have lo : ∀ i l h y, l.Supp y → (Node.Branch i l h).Supp y := by
    rintro i l h y ⟨s, hs, hy⟩; exact ⟨s, Or.inl hs, hy⟩
  have hg : ∀ i l h y, h.Supp y → (Node.Branch i l h).Supp y := by
    rintro i l h y ⟨s, hs, hy⟩; exact ⟨_, Or.inr ⟨s, hs, rfl⟩, by simp [hy]⟩
  have ab : ∀ {x n}, n.Ordered → Above x n → ¬ n.Supp x := by
    rintro x n on hx ⟨s, hs, hy⟩; exact absurd (lt_of_mem on hx hs hy) (lt_irrefl _)
  have main : ∀ i l h, (l.Ordered → h.Ordered → ¬ h.Supp i → ∀ P : Nat → Bool,
      (branch i l h).cnt P ≤ l.cnt P + h.cnt (fun k => P (k + 1))) := by
    intro i l h
    apply branch_ind (P := fun i l h r => l.Ordered → h.Ordered → ¬ h.Supp i → ∀ P : Nat → Bool,
      r.cnt P ≤ l.cnt P + h.cnt (fun k => P (k + 1)))
    · intro i l _ _ _ P; simp [cnt]
    · intro i hId hLow hHigh lLow lHigh a b r hlt ea eb ih1 ih2 ih3 ol oh hi P
      simp only [Ordered] at ol oh
      have o1 : a.Ordered := ea ▸ Ordered.branch ol.2.2.2.1 oh.2.2.2.1
      have o2 : b.Ordered := eb ▸ Ordered.branch ol.2.2.2.2 oh.2.2.2.2
      have hb : ¬ b.Supp hId := by
        intro hs
        rw [eb] at hs
        rcases branch_supp ol.2.2.2.2 oh.2.2.2.2 hs with h | h | h
        · omega
        · exact ab ol.2.2.2.2 ol.2.1 h
        · exact ab oh.2.2.2.2 oh.2.1 h
      have h3 := ih3 o1 o2 hb P
      have h1 := ih1 ol.2.2.2.1 oh.2.2.2.1 (fun h => hi (lo _ _ _ _ h)) P
      have h2 := ih2 ol.2.2.2.2 oh.2.2.2.2 (fun h => hi (hg _ _ _ _ h)) (fun k => P (k + 1))
      simp only [cnt] at *
      omega
    · intro i hId hLow hHigh low a r hlt ea ih1 ih2 ol oh hi P
      simp only [Ordered] at oh
      have o1 : a.Ordered := ea ▸ Ordered.branch oh.2.2.2.1 oh.2.2.2.2
      have hb : ¬ a.Supp hId := by
        intro hs
        rw [ea] at hs
        rcases branch_supp oh.2.2.2.1 oh.2.2.2.2 hs with h | h | h
        · omega
        · exact ab oh.2.2.2.1 oh.1 h
        · exact ab oh.2.2.2.2 oh.2.1 h
      have h2 := ih2 ol o1 hb P
      have h1 := ih1 oh.2.2.2.1 oh.2.2.2.2 (fun h => hi (hg _ _ _ _ h)) (fun k => P (k + 1))
      simp only [cnt] at *
      omega
    · intro i lId lLow lHigh high a r hlt _ _ ea ih1 ih2 ol oh hi P
      simp only [Ordered] at ol
      have o1 : a.Ordered := ea ▸ Ordered.branch ol.2.2.2.1 oh
      have h2 := ih2 o1 ol.2.2.2.2 (ab ol.2.2.2.2 ol.2.1) P
      have h1 := ih1 ol.2.2.2.1 oh hi P
      simp only [cnt] at *
      omega
    · intro i hLow hHigh low r ih ol oh hi P
      simp only [Ordered] at oh
      obtain ⟨t, ht⟩ := exists_mem oh.2.2.2.2 oh.2.2.1
      exact absurd ⟨_, Or.inr ⟨t, ht, rfl⟩, by simp⟩ hi
    · intro i lLow lHigh high r ih ol oh hi P
      simp only [Ordered] at ol
      have h1 := ih ol.2.2.2.1 oh hi P
      simp only [cnt] at *
      omega
    · intro i l h _ _ _ _ _ _ P; simp [cnt]
  exact main i l h ol oh hi P

/-- `cnt` counts the members by size. -/
theorem cnt_eq {n : Node} (on : n.Ordered) (P : Nat → Bool) :
    {s | s ∈ n.Den ∧ P s.card = true}.Finite ∧ n.cnt P = {s | s ∈ n.Den ∧ P s.card = true}.ncard := by
  induction n generalizing P with
  | Always =>
    by_cases h : P 0 = true
    · have : {s : Finset Nat | s ∈ Node.Always.Den ∧ P s.card = true} = {∅} := by
        ext s; simp only [Set.mem_ofPred_eq, Den, Set.mem_singleton_iff]
        constructor
        · exact fun h => h.1
        · rintro rfl; exact ⟨rfl, by simpa using h⟩
      rw [this]; simp [cnt, h]
    · have : {s : Finset Nat | s ∈ Node.Always.Den ∧ P s.card = true} = ∅ := by
        ext s; simp only [Set.mem_ofPred_eq, Den, Set.mem_singleton_iff, Set.mem_empty_iff_false, iff_false]
        rintro ⟨rfl, h'⟩; exact h (by simpa using h')
      rw [this]; simp [cnt, h]
  | Never => simp [cnt, Den]
  | Branch i l h ihl ihh =>
    simp only [Ordered] at on
    obtain ⟨f1, c1⟩ := ihl on.2.2.2.1 P
    obtain ⟨f2, c2⟩ := ihh on.2.2.2.2 (fun k => P (k + 1))
    have hn : ∀ s ∈ h.Den, i ∉ s := fun s hs hi => absurd (lt_of_mem on.2.2.2.2 on.2.1 hs hi) (lt_irrefl _)
    have hn' : ∀ s ∈ l.Den, i ∉ s := fun s hs hi => absurd (lt_of_mem on.2.2.2.1 on.1 hs hi) (lt_irrefl _)
    have e : {s | s ∈ (Node.Branch i l h).Den ∧ P s.card = true} =
        {s | s ∈ l.Den ∧ P s.card = true} ∪ (insert i) '' {s | s ∈ h.Den ∧ P (s.card + 1) = true} := by
      ext s
      simp only [Set.mem_ofPred_eq, Set.mem_union, Set.mem_image, mem_den_branch]
      constructor
      · rintro ⟨hs | ⟨t, ht, rfl⟩, hp⟩
        · exact Or.inl ⟨hs, hp⟩
        · rw [Finset.card_insert_of_notMem (hn t ht)] at hp
          exact Or.inr ⟨t, ⟨ht, hp⟩, rfl⟩
      · rintro (⟨hs, hp⟩ | ⟨t, ⟨ht, hp⟩, rfl⟩)
        · exact ⟨Or.inl hs, hp⟩
        · exact ⟨Or.inr ⟨t, ht, rfl⟩, by rwa [Finset.card_insert_of_notMem (hn t ht)]⟩
    rw [e]
    refine ⟨f1.union (f2.image _), ?_⟩
    rw [Set.ncard_union_eq ?_ f1 (f2.image _), Set.InjOn.ncard_image, cnt, c1, c2]
    · intro s hs t ht hst
      have hs := hn s hs.1
      have ht := hn t ht.1
      have := congrArg (fun w => Finset.erase w i) hst
      simpa [Finset.erase_insert hs, Finset.erase_insert ht] using this
    · rw [Set.disjoint_left]
      rintro s hs ⟨t, ht, rfl⟩
      exact hn' _ hs.1 (by simp)


/-- Not code: used to state or prove properties. -/
def IsBranch : Node → Prop
  | .Branch _ _ _ => True
  | _ => False

theorem branch_isBranch (i : Nat) (l h : Node) : l.Ordered → h.Ordered → h ≠ .Never → (branch i l h).IsBranch := by
  apply branch_ind (P := fun i l h r => l.Ordered → h.Ordered → h ≠ .Never → r.IsBranch)
  · intro i l _ _ h; exact absurd rfl h
  · intro i hId hLow hHigh lLow lHigh a b r _ ea eb ih1 ih2 ih3 ol oh _
    simp only [Ordered] at ol oh
    refine ih3 (ea ▸ Ordered.branch ol.2.2.2.1 oh.2.2.2.1) (eb ▸ Ordered.branch ol.2.2.2.2 oh.2.2.2.2) ?_
    rw [eb]; exact branch_ne_never ol.2.2.2.2 oh.2.2.2.2 oh.2.2.1
  · intro i hId hLow hHigh low a r _ ea ih1 ih2 ol oh _
    simp only [Ordered] at oh
    refine ih2 ol (ea ▸ Ordered.branch oh.2.2.2.1 oh.2.2.2.2) ?_
    rw [ea]; exact branch_ne_never oh.2.2.2.1 oh.2.2.2.2 oh.2.2.1
  · intro i lId lLow lHigh high a r _ _ _ ea ih1 ih2 ol oh _
    simp only [Ordered] at ol
    exact ih2 (ea ▸ Ordered.branch ol.2.2.2.1 oh) ol.2.2.2.2 ol.2.2.1
  · intro i hLow hHigh low r ih ol oh _
    simp only [Ordered] at oh
    exact ih ol oh.2.2.2.2 oh.2.2.1
  · intro i lLow lHigh high r ih ol oh hn
    simp only [Ordered] at ol
    exact ih ol.2.2.2.1 oh hn
  · intro i l h _ _ _ _ _ _; trivial

theorem IsBranch.ne_never {n : Node} (h : n.IsBranch) : n ≠ .Never := by
  rintro rfl; exact h

theorem IsBranch.mem {n : Node} (h : n.IsBranch) (on : n.Ordered) : ∃ s ∈ n.Den, s.Nonempty := by
  cases n with
  | Branch i l r =>
    simp only [Ordered] at on
    obtain ⟨t, ht⟩ := exists_mem on.2.2.2.2 on.2.2.1
    exact ⟨insert i t, Or.inr ⟨t, ht, rfl⟩, by simp⟩
  | Always => exact absurd h (by simp [IsBranch])
  | Never => exact absurd h (by simp [IsBranch])

theorem isBranch_of_mem {n : Node} {s : Finset Nat} (hs : s ∈ n.Den) (hne : s.Nonempty) : n.IsBranch := by
  cases n with
  | Branch i l r => trivial
  | Always => rw [Den, Set.mem_singleton_iff] at hs; subst hs; simp at hne
  | Never => exact absurd hs (by simp [Den])

theorem product_isBranch (a b : Node) (oa : a.Ordered) (ob : b.Ordered) (ha : a ≠ .Never) (hb : b ≠ .Never) :
    product a b ≠ .Never ∧ (a.IsBranch ∨ b.IsBranch → (product a b).IsBranch) := by
  fun_induction product a b with
  | case1 a => exact ⟨ha, fun h => h.elim id id⟩
  | case2 a ne =>
    refine ⟨ha, fun h => h.elim id ?_⟩
    intro h; exact absurd h (by simp [IsBranch])
  | case3 b ne =>
    refine ⟨hb, fun h => h.elim ?_ id⟩
    intro h; exact absurd h (by simp [IsBranch])
  | case4 => exact absurd rfl hb
  | case5 => exact absurd rfl ha
  | case6 id1 l1 h1 id2 l2 h2 ne hlt ih1 ih2 =>
    have oa' := oa
    simp only [Ordered] at oa
    have k := branch_isBranch id1 _ _ (oa.2.2.2.1.product ob) (oa.2.2.2.2.product ob)
      (ih2 oa.2.2.2.2 ob oa.2.2.1 hb).1
    exact ⟨k.ne_never, fun _ => k⟩
  | case7 id1 l1 h1 id2 l2 h2 ne hlt hgt ih1 ih2 =>
    have ob' := ob
    simp only [Ordered] at ob
    have k := branch_isBranch id2 _ _ (oa.product ob.2.2.2.1) (oa.product ob.2.2.2.2)
      (ih2 oa ob.2.2.2.2 ha ob.2.2.1).1
    exact ⟨k.ne_never, fun _ => k⟩
  | case8 id1 l1 h1 id2 l2 h2 ne _ _ ih1 ih2 ih3 ih4 =>
    simp only [Ordered] at oa ob
    have o2 := oa.2.2.2.1.product ob.2.2.2.2
    have o3 := oa.2.2.2.2.product ob.2.2.2.1
    have o4 := oa.2.2.2.2.product ob.2.2.2.2
    have h4 := (ih4 oa.2.2.2.2 ob.2.2.2.2 oa.2.2.1 ob.2.2.1).1
    have k := branch_isBranch id1 _ _ (oa.2.2.2.1.product ob.2.2.2.1) (o2.union (o3.union o4)) (by
      intro e
      obtain ⟨s, hs⟩ := exists_mem o4 h4
      have : s ∈ Den Never := by
        rw [← e, mem_union o2 (o3.union o4), mem_union o3 o4]
        exact Or.inr (Or.inr hs)
      exact absurd this (by simp [Den]))
    exact ⟨k.ne_never, fun _ => k⟩

end Node

namespace Forest
open Universe

/-- Translating a diagram keeps branches branches and does not add members of any size. -/
theorem translate_cnt {u u' : Universe T} (hu : u.Ok) (hu' : u'.Ok)
    (hsub : ∀ x ∈ u.index, x ∈ u'.index) (n : Node) (on : n.Ordered) (hn : u.InU n) {n' : Node}
    (e : translateRoot u u' n = some n') :
    (∀ P, n'.cnt P ≤ n.cnt P) ∧ (n.IsBranch → n'.IsBranch) := by
  induction n generalizing n' with
  | Always => cases e; exact ⟨fun _ => le_rfl, id⟩
  | Never => cases e; exact ⟨fun _ => le_rfl, id⟩
  | Branch i l h ihl ihh =>
    simp only [Node.Ordered] at on
    have hnl : u.InU l := fun s hs => hn s (Or.inl hs)
    have hnh : u.InU h := fun s hs k hk => hn (insert i s) (Or.inr ⟨s, hs, rfl⟩) k (by simp [hk])
    obtain ⟨l', el, ol, sl, nl, dl⟩ := translate_ok hu hu' hsub l on.2.2.2.1 hnl
    obtain ⟨h', eh, oh, sh, nh, dh⟩ := translate_ok hu hu' hsub h on.2.2.2.2 hnh
    obtain ⟨t0, ht0⟩ := Node.exists_mem on.2.2.2.2 on.2.2.1
    have hi : i < u.index.length := hn (insert i t0) (Or.inr ⟨t0, ht0, rfl⟩) i (by simp)
    have gi : u.getItem i = some u.index[i] := List.getElem?_eq_getElem hi
    have hci : conv u u' i = u'.prio u.index[i] := by simp [conv, gi]
    have gp : u'.getPriority u.index[i] = some (conv u u' i) := by
      rw [hci]; exact getPriority_prio hu' (hsub _ (List.getElem_mem hi))
    have e' : translateRoot u u' (.Branch i l h) = some (Node.branch (conv u u' i) l' h') := by
      simp [translateRoot, el, eh, gi, gp]
    rw [e'] at e; cases e
    have hs : ¬ h'.Supp (conv u u' i) := by
      intro hs
      obtain ⟨k, ⟨s, hs, hk⟩, ek⟩ := sh _ hs
      have := conv_inj hu hu' hsub hi (hnh s hs k hk) ek
      have h2 := Node.lt_of_mem on.2.2.2.2 on.2.1 hs hk
      omega
    refine ⟨fun P => ?_, fun _ => Node.branch_isBranch _ _ _ ol oh fun e => on.2.2.1 (nh e)⟩
    have h1 := Node.branch_cnt ol oh hs P
    have h2 := (ihl on.2.2.2.1 hnl el).1 P
    have h3 := (ihh on.2.2.2.2 hnh eh).1 (fun k => P (k + 1))
    simp only [Node.cnt]
    omega

theorem card_image_prio {u : Universe T} (hu : u.Ok) {S : Finset T} (hS : u.Known S) :
    (S.image u.prio).card = S.card :=
  Finset.card_image_of_injOn fun x hx y hy e => prio_inj hu (hS x hx) (hS y hy) e

theorem fam_cnt {u : Universe T} (hu : u.Ok) {n : Node} (on : n.Ordered) (hn : u.InU n) (P : Nat → Bool) :
    {S | S ∈ u.Fam n ∧ P S.card = true}.Finite ∧ {S | S ∈ u.Fam n ∧ P S.card = true}.ncard = n.cnt P := by
  obtain ⟨hfin, hc⟩ := Node.cnt_eq on P
  have inj : Set.InjOn (fun S : Finset T => S.image u.prio) {S | S ∈ u.Fam n ∧ P S.card = true} :=
    fun S hS R hR e => image_prio_inj hu hS.1.1 hR.1.1 e
  have e : (fun S : Finset T => S.image u.prio) '' {S | S ∈ u.Fam n ∧ P S.card = true} =
      {s | s ∈ n.Den ∧ P s.card = true} := by
    ext s
    simp only [Set.mem_image, Set.mem_ofPred_eq]
    constructor
    · rintro ⟨S, ⟨hS, hp⟩, rfl⟩
      exact ⟨hS.2, by rwa [card_image_prio hu hS.1]⟩
    · rintro ⟨hs, hp⟩
      obtain ⟨S, hS, rfl⟩ := (mem_den_iff hu hn).mp hs
      exact ⟨S, ⟨hS, by rwa [card_image_prio hu hS.1] at hp⟩, rfl⟩
  constructor
  · exact Set.Finite.of_finite_image (by rw [e]; exact hfin) inj
  · rw [← inj.ncard_image, e, hc]

end Forest

open Forest Universe

/-- The members whose size satisfies `P`.  Not code: used to state or prove properties. -/
def withSize (A : Set (Finset T)) (P : Nat → Bool) : Set (Finset T) := {s | s ∈ A ∧ P s.card = true}


theorem withSize_finite {f : Forest T} (hf : Reach f) (P : Nat → Bool) :
    (withSize (family f.trees) P).Finite := by
  have := (fam_cnt hf.canon.ok hf.canon.ordered hf.canon.inU P).1
  rw [hf.canon.fam] at this
  exact this

theorem fam_finite {f : Forest T} (hf : Reach f) : (family f.trees).Finite := by
  have := withSize_finite hf (fun _ => true)
  simpa [withSize] using this

/-- C71: for every pair of reachable forests, the union and the intersection have at most as many
members of each size (of every set `P` of sizes) as the two operands together, and the product at most
as many members as pairs of members. -/
theorem size_bounds {f g r : Forest T} (hf : Reach f) (hg : Reach g) :
    (f.union g = some r ∨ f.intersect g = some r → ∀ P : Nat → Bool,
      (withSize (family r.trees) P).ncard ≤
        (withSize (family f.trees) P).ncard + (withSize (family g.trees) P).ncard) ∧
    (f.product g = some r → (family r.trees).ncard ≤ (family f.trees).ncard * (family g.trees).ncard) := by
  obtain ⟨a, b, hm, oa, ob, ia, ib, ea, eb, eu, ei, ep, na, nb, _⟩ := ops_raw hf.canon hg.canon
  have ca := (translate_cnt hf.canon.ok hm (fun x hx => (mem_index_merge hf.canon.ok hg.canon.ok x).mpr
    (Or.inl hx)) f.root hf.canon.ordered hf.canon.inU ea).1
  have cb := (translate_cnt hg.canon.ok hm (fun x hx => (mem_index_merge hf.canon.ok hg.canon.ok x).mpr
    (Or.inr hx)) g.root hg.canon.ordered hg.canon.inU eb).1
  have la : ∀ P, (withSize ((merge f.univ g.univ).Fam a) P).ncard ≤ (withSize (family f.trees) P).ncard := by
    intro P
    have h1 := (fam_cnt hm oa ia P).2
    have h2 := (fam_cnt hf.canon.ok hf.canon.ordered hf.canon.inU P).2
    rw [hf.canon.fam] at h2
    change _ ≤ Set.ncard {S | S ∈ f.fam ∧ P S.card = true}
    rw [h2]
    exact h1.trans_le (ca P)
  have lb : ∀ P, (withSize ((merge f.univ g.univ).Fam b) P).ncard ≤ (withSize (family g.trees) P).ncard := by
    intro P
    have h1 := (fam_cnt hm ob ib P).2
    have h2 := (fam_cnt hg.canon.ok hg.canon.ordered hg.canon.inU P).2
    rw [hg.canon.fam] at h2
    change _ ≤ Set.ncard {S | S ∈ g.fam ∧ P S.card = true}
    rw [h2]
    exact h1.trans_le (cb P)
  have fa := fun P => (fam_cnt hm oa ia P).1
  have fb := fun P => (fam_cnt hm ob ib P).1
  constructor
  · intro hr P
    rw [eu, ei] at hr
    have hsub : withSize (family r.trees) P ⊆
        withSize ((merge f.univ g.univ).Fam a) P ∪ withSize ((merge f.univ g.univ).Fam b) P := by
      rintro s ⟨hs, hp⟩
      rcases hr with hr | hr <;> cases hr <;> change s ∈ Forest.fam _ at hs
      · rw [fam_canonical hm (oa.union ob) (inU_union oa ob ia ib), fam_union oa ob] at hs
        exact hs.1.imp (fun h => ⟨h, hp⟩) (fun h => ⟨h, hp⟩)
      · rw [fam_canonical hm (oa.intersect ob) (inU_intersect oa ob ia ib)] at hs
        exact (fam_intersect_upper hm oa ob ia ib hs.1).imp (fun h => ⟨h.1, hp⟩) (fun h => ⟨h.1, hp⟩)
    refine (Set.ncard_le_ncard hsub ((fa P).union (fb P))).trans ?_
    refine (Set.ncard_union_le _ _).trans ?_
    exact Nat.add_le_add (la P) (lb P)
  · intro hr
    rw [ep] at hr; cases hr
    have tr : ∀ A : Set (Finset T), withSize A (fun _ => true) = A := by intro A; ext s; simp [withSize]
    have la := la fun _ => true
    have lb := lb fun _ => true
    have fa : ((merge f.univ g.univ).Fam a).Finite := by
      have := fa fun _ => true
      rwa [show {S | S ∈ (merge f.univ g.univ).Fam a ∧ (true = true)} = (merge f.univ g.univ).Fam a from tr _] at this
    have fb : ((merge f.univ g.univ).Fam b).Finite := by
      have := fb fun _ => true
      rwa [show {S | S ∈ (merge f.univ g.univ).Fam b ∧ (true = true)} = (merge f.univ g.univ).Fam b from tr _] at this
    simp only [tr] at la lb
    refine le_trans ?_ (Nat.mul_le_mul la lb)
    have e : Forest.fam (canonical (a.product b) (merge f.univ g.univ)) ⊆
        (fun p : Finset T × Finset T => p.1 ∪ p.2) '' ((merge f.univ g.univ).Fam a ×ˢ (merge f.univ g.univ).Fam b) := by
      rw [fam_canonical hm (oa.product ob) (inU_product oa ob ia ib)]
      intro s hs
      obtain ⟨p, hp, q, hq, rfl⟩ := fam_product_upper hm oa ob ia ib hs.1
      exact ⟨(p, q), ⟨hp, hq⟩, rfl⟩
    refine (Set.ncard_le_ncard e ((fa.prod fb).image _)).trans ?_
    refine (Set.ncard_image_le (fa.prod fb)).trans ?_
    rw [Set.ncard_prod]

example := fun r => size_bounds (r := r) (reach_many [[1, 2], [1, 3]]) (reach_many [[1], [2, 3]])

/-- C71, in terms of `len`. -/
theorem len_bounds {f g r : Forest T} (hf : Reach f) (hg : Reach g) :
    (f.union g = some r ∨ f.intersect g = some r → r.len ≤ f.len + g.len) ∧
    (f.product g = some r → r.len ≤ f.len * g.len) := by
  have hr : f.union g = some r ∨ f.intersect g = some r ∨ f.product g = some r → Reach r := by
    obtain ⟨p, hp⟩ := hf
    obtain ⟨q, hq⟩ := hg
    rintro (h | h | h)
    · exact ⟨.union p q, by simp [run, hp, hq, h]⟩
    · exact ⟨.intersect p q, by simp [run, hp, hq, h]⟩
    · exact ⟨.product p q, by simp [run, hp, hq, h]⟩
  constructor
  · intro h
    have := (size_bounds hf hg).1 h fun _ => true
    rw [len_exact hf, len_exact hg, len_exact (hr (h.imp_right Or.inl))]
    simpa [withSize] using this
  · intro h
    rw [len_exact hf, len_exact hg, len_exact (hr (Or.inr (Or.inr h)))]
    exact (size_bounds hf hg).2 h

/-- C71 (emptiness): on every pair of reachable forests, a union is empty exactly when both operands are,
a product exactly when one of them is, and an intersection is empty when one of them is. -/
theorem empty_iff {f g : Forest T} (hf : Reach f) (hg : Reach g) :
    (∀ r, f.union g = some r → (r.isEmpty = true ↔ f.isEmpty = true ∧ g.isEmpty = true)) ∧
    (∀ r, f.product g = some r → (r.isEmpty = true ↔ f.isEmpty = true ∨ g.isEmpty = true)) ∧
    (∀ r, f.intersect g = some r → f.isEmpty = true ∨ g.isEmpty = true → r.isEmpty = true) := by
  have emp : ∀ {f : Forest T}, Reach f → f.isEmpty = true → f = Forest.empty := by
    intro f hf h
    rw [isEmpty_exact hf] at h
    exact eq_of_family reach_empty hf.canon (by rw [h, empty_family])
  have ee : (Forest.empty : Forest T).isEmpty = true := by rw [isEmpty_exact reach_empty, empty_family]
  obtain ⟨a, b, hm, oa, ob, ia, ib, ea, eb, eu, ei, ep, na, nb, _⟩ := ops_raw hf.canon hg.canon
  have ca := (translate_cnt hf.canon.ok hm (fun x hx => (mem_index_merge hf.canon.ok hg.canon.ok x).mpr
    (Or.inl hx)) f.root hf.canon.ordered hf.canon.inU ea).2
  have cb := (translate_cnt hg.canon.ok hm (fun x hx => (mem_index_merge hf.canon.ok hg.canon.ok x).mpr
    (Or.inr hx)) g.root hg.canon.ordered hg.canon.inU eb).2
  have br : ∀ {f : Forest T}, Reach f → ¬ f.isEmpty = true → f.root.IsBranch := by
    intro f hf h
    rw [isEmpty_exact hf, ← ne_eq, ← Set.nonempty_iff_ne_empty] at h
    obtain ⟨s, hs⟩ := h
    have hne : s.Nonempty := by
      obtain ⟨t, ht, rfl⟩ := hs
      exact List.toFinset_nonempty_iff _ |>.mpr (trees_nonempty hf t ht)
    change s ∈ f.fam at hs
    rw [← hf.canon.fam] at hs
    exact Node.isBranch_of_mem hs.2 (by simpa using hne)
  have full : ∀ {n : Node}, n.IsBranch → n.Ordered → (merge f.univ g.univ).InU n →
      Reach (canonical n (merge f.univ g.univ)) → ¬ (canonical n (merge f.univ g.univ)).isEmpty = true := by
    intro n hb on hn hr h
    rw [isEmpty_exact hr] at h
    change Forest.fam _ = ∅ at h
    rw [fam_canonical hm on hn] at h
    obtain ⟨s, hs, hne⟩ := hb.mem on
    obtain ⟨S, hS, rfl⟩ := (mem_den_iff hm hn).mp hs
    have : S ∈ nonempty ((merge f.univ g.univ).Fam n) := ⟨hS, by simpa using hne⟩
    rw [h] at this
    exact this
  have ru : Reach (canonical (a.union b) (merge f.univ g.univ)) := by
    obtain ⟨p, hp⟩ := hf
    obtain ⟨q, hq⟩ := hg
    exact ⟨.union p q, by simp [run, hp, hq, eu]⟩
  have rp : Reach (canonical (a.product b) (merge f.univ g.univ)) := by
    obtain ⟨p, hp⟩ := hf
    obtain ⟨q, hq⟩ := hg
    exact ⟨.product p q, by simp [run, hp, hq, ep]⟩
  have oc := ops_comm hf hg
  refine ⟨fun r hr => ⟨fun h => ?_, ?_⟩, fun r hr => ⟨fun h => ?_, ?_⟩, fun r hr => ?_⟩
  · rw [eu] at hr; cases hr
    by_contra hne
    refine full ?_ (oa.union ob) (inU_union oa ob ia ib) ru h
    have key : ∃ s ∈ (a.union b).Den, s.Nonempty := by
      rw [not_and_or] at hne
      rcases hne with h | h
      · obtain ⟨s, hs, hn⟩ := (ca (br hf h)).mem oa
        exact ⟨s, (Node.mem_union oa ob).mpr (Or.inl hs), hn⟩
      · obtain ⟨s, hs, hn⟩ := (cb (br hg h)).mem ob
        exact ⟨s, (Node.mem_union oa ob).mpr (Or.inr hs), hn⟩
    obtain ⟨s, hs, hn⟩ := key
    exact Node.isBranch_of_mem hs hn
  · rintro ⟨h1, h2⟩
    rw [emp hf h1, emp hg h2, (ops_empty reach_empty).1] at hr
    cases hr; exact ee
  · rw [ep] at hr; cases hr
    by_contra hne
    rw [not_or] at hne
    have h1 := ca (br hf hne.1)
    have h2 := cb (br hg hne.2)
    exact full ((Node.product_isBranch a b oa ob h1.ne_never h2.ne_never).2 (Or.inl h1)) (oa.product ob)
      (inU_product oa ob ia ib) rp h
  · rintro (h | h)
    · rw [oc.2.2, emp hf h, (ops_empty hg).2.2] at hr; cases hr; exact ee
    · rw [emp hg h, (ops_empty hf).2.2] at hr; cases hr; exact ee
  · rintro (h | h)
    · rw [oc.2.1, emp hf h, (ops_empty hg).2.1] at hr; cases hr; exact ee
    · rw [emp hg h, (ops_empty hf).2.1] at hr; cases hr; exact ee

/-- The hypotheses are met by operands whose union is not exact (`union_not_exact`). -/
example : ∃ f g r : Forest ℕ, Reach f ∧ Reach g ∧ f.union g = some r ∧ r.isEmpty = false ∧
    r.len ≤ f.len + g.len := by
  obtain ⟨⟨r, e, _⟩, _⟩ := binary_total (reach_many ([[1, 2], [1, 3]] : List (List ℕ))) (reach_many [[2], [2, 3]])
  refine ⟨_, _, r, reach_many _, reach_many _, e, ?_, (len_bounds (reach_many _) (reach_many _)).1 (Or.inl e)⟩
  rw [Bool.eq_false_iff]
  intro h
  have h1 := (((empty_iff (reach_many _) (reach_many _)).1 r e).mp h).1
  rw [isEmpty_exact (reach_many _), many_family] at h1
  have : ({1, 2} : Finset ℕ) ∈ {s | s ∈ family [[1, 2], [1, 3]] ∧ s ≠ ∅} :=
    ⟨⟨[1, 2], by simp, by decide⟩, by decide⟩
  rw [h1] at this
  exact this

end Verif.Zdd2
