import Verif.Zdd2.NodeOps
import Verif.Base
import Mathlib.Data.Finset.Sort

/-! Helper lemmas about zdd2 node filters, enumeration and construction. -/

set_option linter.unusedSimpArgs false
set_option linter.unusedSectionVars false
set_option linter.unusedVariables false

namespace Verif.Zdd2
namespace Node

theorem subsetInner_ok (n : Node) (e : Nat) (o : n.Ordered) :
    (reduceBranch (subsetInner n e)).1.Ordered ∧
      (∀ x, Above x n → Above x (reduceBranch (subsetInner n e)).1) ∧
      (∀ s, s ∈ (reduceBranch (subsetInner n e)).1.Den ↔ s ∈ n.Den ∧ e ∈ s) ∧
      (∀ i l h, n = .Branch i l h →
        (subsetInner n e).1 = (reduceBranch (subsetInner n e)).1) ∧
      ((subsetInner n e).2 = false → (reduceBranch (subsetInner n e)).1 = .Never) := by
  induction n with
  | Always =>
    refine ⟨trivial, fun _ _ => trivial, fun s => ?_, fun i l h e => (by cases e), fun _ => rfl⟩
    simp only [subsetInner, reduceBranch, Den, Set.mem_singleton_iff]
    constructor
    · intro h; exact absurd h (by simp [Den])
    · rintro ⟨rfl, h⟩; simp at h
  | Never =>
    exact ⟨trivial, fun _ _ => trivial, fun s => by simp [subsetInner, reduceBranch, Den],
      fun i l h e => (by cases e), fun _ => rfl⟩
  | Branch i l h ihl ihh =>
    have o' := o
    simp only [Ordered] at o
    obtain ⟨o1, a1, m1, b1, c1⟩ := ihl o.2.2.2.1
    obtain ⟨o2, a2, m2, b2, c2⟩ := ihh o.2.2.2.2
    by_cases he : e = i
    · subst he
      have e1 : subsetInner (.Branch e l h) e = (branch e .Never h, true) := by simp [subsetInner]
      simp only [e1, reduceBranch, if_true]
      refine ⟨Ordered.branch (l := .Never) trivial o.2.2.2.2, fun x hx => ?_, fun s => ?_, fun _ _ _ _ => trivial,
        fun h => absurd h (by simp)⟩
      · exact Above.branch (l := .Never) trivial o.2.2.2.2 hx trivial (o.2.1.mono (le_of_lt hx))
      · rw [mem_branch (l := .Never) trivial o.2.1 trivial o.2.2.2.2, mem_ordered o']
        simp [Den]; tauto
    · have e1 : (subsetInner (.Branch i l h) e) =
          (branch i (reduceBranch (subsetInner l e)).1 (reduceBranch (subsetInner h e)).1,
            (reduceBranch (subsetInner l e)).2 || (reduceBranch (subsetInner h e)).2) := by
        simp [subsetInner, he]
      have r2 : ∀ m : Node × Bool, (reduceBranch m).2 = m.2 := by
        intro m; unfold reduceBranch; split_ifs <;> rfl
      have never : (subsetInner (.Branch i l h) e).2 = false →
          (subsetInner (.Branch i l h) e).1 = .Never := by
        intro hf
        rw [e1] at hf ⊢
        simp only [r2, Bool.or_eq_false_iff] at hf
        rw [c1 hf.1, c2 hf.2, branch_never]
      have red : (reduceBranch (subsetInner (.Branch i l h) e)).1 = (subsetInner (.Branch i l h) e).1 := by
        cases hb : (subsetInner (.Branch i l h) e).2 with
        | true => simp [reduceBranch, hb]
        | false => rw [never hb]; simp [reduceBranch, hb]
      refine ⟨?_, ?_, ?_, fun _ _ _ _ => red.symm, fun hf => by rw [red]; exact never hf⟩
      · rw [red, e1]; exact o1.branch o2
      · intro x hx
        rw [red, e1]
        exact Above.branch o1 o2 hx (a1 x (o.1.mono (le_of_lt hx))) (a2 x (o.2.1.mono (le_of_lt hx)))
      · intro s
        rw [red, e1]
        simp only
        rw [mem_branch (a1 i o.1) (a2 i o.2.1) o1 o2, mem_ordered o', m1, m2]
        simp only [Finset.mem_erase, ne_eq, he, not_false_eq_true, true_and]
        clear m1 m2 e1 never red a1 a2 b1 b2 c1 c2
        tauto

theorem subset_ordered {n : Node} (o : n.Ordered) (e : Nat) : (subset n e).Ordered := by
  cases n with
  | Branch i l h =>
    obtain ⟨h1, h2, h3, h4, _⟩ := subsetInner_ok (.Branch i l h) e o
    rw [subset, h4 _ _ _ rfl]; exact h1
  | _ => trivial

theorem mem_subset {n : Node} (o : n.Ordered) (hn : n ≠ .Always) (e : Nat) {s : Finset Nat} :
    s ∈ (subset n e).Den ↔ s ∈ n.Den ∧ e ∈ s := by
  cases n with
  | Branch i l h =>
    obtain ⟨h1, h2, h3, h4, _⟩ := subsetInner_ok (.Branch i l h) e o
    rw [subset, h4 _ _ _ rfl]; exact h3 s
  | Always => exact absurd rfl hn
  | Never => simp [subset, subsetInner, Den]

theorem subsetNot_ok (n : Node) (e : Nat) (o : n.Ordered) :
    (subsetNot n e).Ordered ∧ (∀ x, Above x n → Above x (subsetNot n e)) ∧
      ∀ s, s ∈ (subsetNot n e).Den ↔ s ∈ n.Den ∧ e ∉ s := by
  induction n with
  | Always =>
    refine ⟨trivial, fun _ _ => trivial, fun s => ?_⟩
    simp only [subsetNot, Den, Set.mem_singleton_iff]
    constructor
    · rintro rfl; simp
    · exact fun h => h.1
  | Never => exact ⟨trivial, fun _ _ => trivial, fun s => by simp [subsetNot, Den]⟩
  | Branch i l h ihl ihh =>
    have o' := o
    simp only [Ordered] at o
    obtain ⟨o1, a1, m1⟩ := ihl o.2.2.2.1
    obtain ⟨o2, a2, m2⟩ := ihh o.2.2.2.2
    by_cases he : e = i
    · subst he
      simp only [subsetNot, if_true]
      refine ⟨o.2.2.2.1, fun x hx => o.1.mono (le_of_lt hx), fun s => ?_⟩
      rw [mem_ordered o']
      constructor
      · intro hs
        have : e ∉ s := fun hi => by have := lt_of_mem o.2.2.2.1 o.1 hs hi; omega
        exact ⟨Or.inl ⟨this, hs⟩, this⟩
      · tauto
    · simp only [subsetNot, he, if_false]
      refine ⟨o1.branch o2, fun x hx => ?_, fun s => ?_⟩
      · exact Above.branch o1 o2 hx (a1 x (o.1.mono (le_of_lt hx))) (a2 x (o.2.1.mono (le_of_lt hx)))
      · rw [mem_branch (a1 i o.1) (a2 i o.2.1) o1 o2, mem_ordered o', m1, m2]
        simp only [Finset.mem_erase]
        tauto

theorem Ordered.subsetNot {n : Node} (o : n.Ordered) (e : Nat) : (subsetNot n e).Ordered :=
  (subsetNot_ok n e o).1
theorem mem_subsetNot {n : Node} (o : n.Ordered) (e : Nat) {s : Finset Nat} :
    s ∈ (Node.subsetNot n e).Den ↔ s ∈ n.Den ∧ e ∉ s := (subsetNot_ok n e o).2.2 s

theorem intersect_always_left (n : Node) : intersect .Always n = n := by
  unfold intersect
  cases n <;> simp

/-- Folding `intersect` over members of an upward-closed kind of filter. -/
theorem foldl_intersect {n : Node} (g : Nat → Node) (P : Nat → Finset Nat → Prop)
    (og : ∀ e, (g e).Ordered) (mg : ∀ e s, s ∈ (g e).Den ↔ s ∈ n.Den ∧ P e s)
    (elements : List Nat)
    (up : ∀ e ∈ elements, ∀ p ∈ n.Den, ∀ q ∈ n.Den, q ⊂ p → P e q → P e p)
    (acc : Node) (done : List Nat) (oacc : acc.Ordered)
    (upd : ∀ e ∈ done, ∀ p ∈ n.Den, ∀ q ∈ n.Den, q ⊂ p → P e q → P e p)
    (macc : ∀ s, s ∈ acc.Den ↔ s ∈ n.Den ∧ ∀ e ∈ done, P e s) :
    ((elements.map g).foldl intersect acc).Ordered ∧
      ∀ s, s ∈ ((elements.map g).foldl intersect acc).Den ↔
        s ∈ n.Den ∧ (∀ e ∈ done, P e s) ∧ ∀ e ∈ elements, P e s := by
  induction elements generalizing acc done with
  | nil => exact ⟨oacc, fun s => by simpa using macc s⟩
  | cons e es ih =>
    simp only [List.map_cons, List.foldl_cons]
    have hm : ∀ s, s ∈ (intersect acc (g e)).Den ↔ s ∈ n.Den ∧ ∀ e' ∈ done ++ [e], P e' s := by
      intro s
      rw [mem_intersect_of oacc (og e), macc, mg]
      · simp only [List.mem_append, List.mem_singleton]
        constructor
        · rintro ⟨⟨h1, h2⟩, _, h3⟩
          exact ⟨h1, fun e' he' => he'.elim (h2 e') (fun h => h ▸ h3)⟩
        · rintro ⟨h1, h2⟩
          exact ⟨⟨h1, fun e' he' => h2 e' (Or.inl he')⟩, h1, h2 e (Or.inr rfl)⟩
      · intro p hp q hq hqp
        rw [macc] at hp
        rw [mg] at hq ⊢
        exact ⟨hp.1, up e (by simp) p hp.1 q hq.1 hqp hq.2⟩
      · intro p hp q hq hqp
        rw [mg] at hp
        rw [macc] at hq ⊢
        exact ⟨hp.1, fun e' he' => upd e' he' p hp.1 q hq.1 hqp (hq.2 e' he')⟩
    obtain ⟨h1, h2⟩ := ih (fun e' he' => up e' (by simp [he'])) (intersect acc (g e)) (done ++ [e])
      (oacc.intersect (og e))
      (by
        intro e' he'
        rcases List.mem_append.mp he' with h | h
        · exact upd e' h
        · rw [List.mem_singleton] at h; subst h; exact up e' (by simp)) hm
    refine ⟨h1, fun s => ?_⟩
    rw [h2]
    simp only [List.mem_append, List.mem_singleton, List.mem_cons (a := _) (l := es)]
    constructor
    · rintro ⟨a, b, c⟩
      exact ⟨a, fun e' he' => b e' (Or.inl he'), fun e' he' => he'.elim (fun h => b e' (Or.inr h)) (c e')⟩
    · rintro ⟨a, b, c⟩
      exact ⟨a, fun e' he' => he'.elim (b e') (fun h => c e' (Or.inl h)), fun e' he' => c e' (Or.inr he')⟩

theorem foldl_intersect_ne {n : Node} (g : Nat → Node) (P : Nat → Finset Nat → Prop)
    (og : ∀ e, (g e).Ordered) (mg : ∀ e s, s ∈ (g e).Den ↔ s ∈ n.Den ∧ P e s)
    (elements : List Nat) (hne : elements ≠ [])
    (up : ∀ e ∈ elements, ∀ p ∈ n.Den, ∀ q ∈ n.Den, q ⊂ p → P e q → P e p) :
    ((elements.map g).foldl intersect .Always).Ordered ∧
      ∀ s, s ∈ ((elements.map g).foldl intersect .Always).Den ↔
        s ∈ n.Den ∧ ∀ e ∈ elements, P e s := by
  cases elements with
  | nil => exact absurd rfl hne
  | cons e es =>
    simp only [List.map_cons, List.foldl_cons, intersect_always_left]
    obtain ⟨h1, h2⟩ := foldl_intersect g P og mg es (fun e' he' => up e' (by simp [he'])) (g e) [e] (og e)
      (by intro e' he'; rw [List.mem_singleton] at he'; subst he'; exact up e' (by simp))
      (by intro s; rw [mg]; simp)
    refine ⟨h1, fun s => ?_⟩
    rw [h2]; simp

theorem subsetAll_ok {n : Node} (o : n.Ordered) (hn : n ≠ .Always) {elements : List Nat}
    (hne : elements ≠ []) :
    (subsetAll n elements).Ordered ∧
      ∀ s, s ∈ (subsetAll n elements).Den ↔ s ∈ n.Den ∧ ∀ e ∈ elements, e ∈ s :=
  foldl_intersect_ne (subset n) (fun e s => e ∈ s) (subset_ordered o)
    (fun e s => mem_subset o hn e) elements hne (fun e _ p _ q _ hqp he => hqp.subset he)

/-- `subset_none` is exact when no member lies strictly below a member that contains one of the
elements (for instance: one distinct element, or no member inside another). -/
theorem subsetNone_ok {n : Node} (o : n.Ordered) {elements : List Nat} (hne : elements ≠ [])
    (up : ∀ e ∈ elements, ∀ p ∈ n.Den, ∀ q ∈ n.Den, q ⊂ p → e ∉ q → e ∉ p) :
    ∀ s, s ∈ (subsetNone n elements).Den ↔ s ∈ n.Den ∧ ∀ e ∈ elements, e ∉ s :=
  (foldl_intersect_ne (subsetNot n) (fun e s => e ∉ s) (fun e => o.subsetNot e)
    (fun e s => mem_subsetNot o e) elements hne up).2

theorem intersect_self (n : Node) : intersect n n = n := by unfold intersect; simp

theorem subsetNone_const {n : Node} (o : n.Ordered) {elements : List Nat} {e : Nat}
    (hne : elements ≠ []) (hc : ∀ x ∈ elements, x = e) :
    subsetNone n elements = subsetNot n e := by
  have : ∀ es : List Nat, (∀ x ∈ es, x = e) →
      (es.map (subsetNot n)).foldl intersect (subsetNot n e) = subsetNot n e := by
    intro es h
    induction es with
    | nil => rfl
    | cons x xs ih =>
      have hx := h x (by simp); subst hx
      simp only [List.map_cons, List.foldl_cons, intersect_self]
      exact ih (fun y hy => h y (by simp [hy]))
  cases elements with
  | nil => exact absurd rfl hne
  | cons x xs =>
    have hx := hc x (by simp); subst hx
    simp only [subsetNone, List.map_cons, List.foldl_cons, intersect_always_left]
    exact this xs (fun y hy => hc y (by simp [hy]))

/-- Bounds that hold for every input. -/
theorem subsetNone_bounds {n : Node} (o : n.Ordered) {elements : List Nat} (hne : elements ≠ []) :
    (subsetNone n elements).Ordered ∧
    (∀ s, s ∈ n.Den → (∀ e ∈ elements, e ∉ s) → s ∈ (subsetNone n elements).Den) ∧
    (∀ s, s ∈ (subsetNone n elements).Den → s ∈ n.Den ∧ ∃ e ∈ elements, e ∉ s) := by
  have : ∀ es : List Nat, ∀ acc : Node, acc.Ordered →
      ((es.map (subsetNot n)).foldl intersect acc).Ordered ∧
      (∀ s, s ∈ acc.Den → s ∈ n.Den → (∀ e ∈ es, e ∉ s) →
        s ∈ ((es.map (subsetNot n)).foldl intersect acc).Den) ∧
      (∀ s, s ∈ ((es.map (subsetNot n)).foldl intersect acc).Den → s ∈ acc.Den ∨
        (s ∈ n.Den ∧ ∃ e ∈ es, e ∉ s)) := by
    intro es
    induction es with
    | nil => intro acc oacc; exact ⟨oacc, fun s h _ _ => h, fun s h => Or.inl h⟩
    | cons e es ih =>
      intro acc oacc
      simp only [List.map_cons, List.foldl_cons]
      obtain ⟨oi, _, mi, ni⟩ := intersect_ok acc (subsetNot n e) oacc (o.subsetNot e)
      obtain ⟨h1, h2, h3⟩ := ih _ oi
      refine ⟨h1, fun s hs hn hes => ?_, fun s hs => ?_⟩
      · exact h2 s (mi s hs ((mem_subsetNot o e).mpr ⟨hn, hes e (by simp)⟩)) hn
          (fun e' he' => hes e' (by simp [he']))
      · rcases h3 s hs with h | ⟨h, e', he', hx⟩
        · rcases ni s h with ⟨x, _⟩ | ⟨x, _⟩
          · exact Or.inl x
          · rw [mem_subsetNot o] at x
            exact Or.inr ⟨x.1, e, by simp, x.2⟩
        · exact Or.inr ⟨h, e', by simp [he'], hx⟩
  cases elements with
  | nil => exact absurd rfl hne
  | cons e es =>
    simp only [subsetNone, List.map_cons, List.foldl_cons, intersect_always_left]
    obtain ⟨h1, h2, h3⟩ := this es _ (o.subsetNot e)
    refine ⟨h1, fun s hs hes => ?_, fun s hs => ?_⟩
    · exact h2 s ((mem_subsetNot o e).mpr ⟨hs, hes e (by simp)⟩) hs (fun e' he' => hes e' (by simp [he']))
    · rcases h3 s hs with h | ⟨h, e', he', hx⟩
      · rw [mem_subsetNot o] at h; exact ⟨h.1, e, by simp, h.2⟩
      · exact ⟨h, e', by simp [he'], hx⟩

/-! ### enumeration -/

/-- Paths to `Always`, high side first.  Not code: used to state or prove properties. -/
def paths : Node → List (List Nat)
  | .Branch i l h => (h.paths.map (i :: ·)) ++ l.paths
  | .Always => [[]]
  | .Never => []

theorem treesLoop_eq (q : List (Node × List Nat)) (acc : List (List Nat)) :
    treesLoop q acc = acc ++ q.flatMap (fun e => e.1.paths.map (e.2 ++ ·)) := by
  fun_induction treesLoop q acc with
  | case1 acc => simp
  | case2 acc i l h p q ih =>
    rw [ih]; simp [paths, List.map_map, Function.comp_def]
  | case3 acc p q ih => rw [ih]; simp [paths]
  | case4 acc p q ih => rw [ih]; simp [paths]

theorem trees_eq (n : Node) : trees n = n.paths := by
  simp [trees, treesLoop_eq]

theorem mem_paths_den {n : Node} {s : Finset Nat} :
    s ∈ n.Den ↔ ∃ p ∈ n.paths, p.toFinset = s := by
  induction n generalizing s with
  | Branch i l h ihl ihh =>
    rw [mem_den_branch, ihl]
    simp only [paths, List.mem_append, List.mem_map]
    constructor
    · rintro (⟨p, hp, rfl⟩ | ⟨t, ht, rfl⟩)
      · exact ⟨p, Or.inr hp, rfl⟩
      · obtain ⟨p, hp, rfl⟩ := ihh.mp ht
        exact ⟨i :: p, Or.inl ⟨p, hp, rfl⟩, by simp⟩
    · rintro ⟨p, ⟨r, hr, rfl⟩ | hp, rfl⟩
      · exact Or.inr ⟨r.toFinset, ihh.mpr ⟨r, hr, rfl⟩, by simp⟩
      · exact Or.inl ⟨p, hp, rfl⟩
  | Always => simp [Den, paths, eq_comm]
  | Never => simp [Den, paths]

theorem paths_lt {n : Node} (o : n.Ordered) {p : List Nat} (hp : p ∈ n.paths) :
    p.Pairwise (· < ·) := by
  induction n generalizing p with
  | Branch i l h ihl ihh =>
    have o' := o
    simp only [Ordered] at o
    simp only [paths, List.mem_append, List.mem_map] at hp
    rcases hp with ⟨r, hr, rfl⟩ | hp
    · rw [List.pairwise_cons]
      refine ⟨fun y hy => ?_, ihh o.2.2.2.2 hr⟩
      exact lt_of_mem o.2.2.2.2 o.2.1 (mem_paths_den.mpr ⟨r, hr, rfl⟩) (by simpa using hy)
    · exact ihl o.2.2.2.1 hp
  | Always => simp [paths] at hp; subst hp; simp
  | Never => simp [paths] at hp

theorem paths_nodup {n : Node} (o : n.Ordered) : n.paths.Nodup := by
  induction n with
  | Branch i l h ihl ihh =>
    have o' := o
    simp only [Ordered] at o
    simp only [paths]
    rw [List.nodup_append]
    refine ⟨(ihh o.2.2.2.2).map (fun a b e => by simpa using e), ihl o.2.2.2.1, ?_⟩
    rintro p hp q hq rfl
    obtain ⟨r, hr, rfl⟩ := List.mem_map.mp hp
    have := lt_of_mem o.2.2.2.1 o.1 (mem_paths_den.mpr ⟨_, hq, rfl⟩) (y := i) (by simp)
    omega
  | _ => simp [paths]

/-! ### construction -/

/-- `branch` is exact when ids of `high` below `i` are in every member of `high` and in no member of
`low`, and neither child mentions `i`. -/
theorem branch_sep (i : Nat) (l h : Node) : l.Ordered → h.Ordered →
    (∀ s ∈ l.Den, i ∉ s) → (∀ s ∈ h.Den, i ∉ s) →
    (∀ s ∈ h.Den, ∀ y ∈ s, y < i → (∀ t ∈ h.Den, y ∈ t) ∧ (∀ t ∈ l.Den, y ∉ t)) →
    ∀ s, s ∈ (branch i l h).Den ↔ s ∈ l.Den ∨ ∃ t ∈ h.Den, s = insert i t := by
  apply branch_ind (P := fun i l h r => l.Ordered → h.Ordered →
    (∀ s ∈ l.Den, i ∉ s) → (∀ s ∈ h.Den, i ∉ s) →
    (∀ s ∈ h.Den, ∀ y ∈ s, y < i → (∀ t ∈ h.Den, y ∈ t) ∧ (∀ t ∈ l.Den, y ∉ t)) →
    ∀ s, s ∈ r.Den ↔ s ∈ l.Den ∨ ∃ t ∈ h.Den, s = insert i t)
  · intro i l _ _ _ _ _ s; simp [Den]
  · -- both children on the same smaller id: excluded
    intro i hId hLow hHigh lLow lHigh a b r hi _ _ _ _ _ ol oh _ _ hsep s
    exfalso
    simp only [Ordered] at ol oh
    obtain ⟨t, ht⟩ := exists_mem oh.2.2.2.2 oh.2.2.1
    obtain ⟨u, hu⟩ := exists_mem ol.2.2.2.2 ol.2.2.1
    exact (hsep (insert hId t) (Or.inr ⟨t, ht, rfl⟩) hId (by simp) hi).2 (insert hId u)
      (Or.inr ⟨u, hu, rfl⟩) (by simp)
  · intro i hId hLow hHigh low a r hi ea ih1 ih2 ol oh hil hih hsep s
    have oh' := oh
    simp only [Ordered] at oh
    obtain ⟨t0, ht0⟩ := exists_mem oh.2.2.2.2 oh.2.2.1
    have hall := hsep (insert hId t0) (Or.inr ⟨t0, ht0, rfl⟩) hId (by simp) hi
    have hlow : hLow = .Never := by
      refine eq_never oh.2.2.2.1 (fun t ht => ?_)
      have := lt_of_mem oh.2.2.2.1 oh.1 ht (hall.1 t (Or.inl ht))
      omega
    subst hlow
    have hgt : ∀ t ∈ hHigh.Den, ∀ y ∈ t, hId < y := fun t ht y hy => lt_of_mem oh.2.2.2.2 oh.2.1 ht hy
    have ma : ∀ s, s ∈ a.Den ↔ ∃ t ∈ hHigh.Den, s = insert i t := by
      intro s
      rw [ih1 trivial oh.2.2.2.2 (fun s hs => absurd hs (by simp [Den])) ?_ ?_ s]
      · simp [Den]
      · intro t ht hit
        exact hih (insert hId t) (Or.inr ⟨t, ht, rfl⟩) (by simp [hit])
      · intro t ht y hy hyi
        refine ⟨fun u hu => ?_, fun u hu => absurd hu (by simp [Den])⟩
        have := (hsep (insert hId t) (Or.inr ⟨t, ht, rfl⟩) y (by simp [hy]) hyi).1 (insert hId u)
          (Or.inr ⟨u, hu, rfl⟩)
        rcases Finset.mem_insert.mp this with h | h
        · have := hgt t ht y hy; omega
        · exact h
    have oa : a.Ordered := ea ▸ Ordered.branch trivial oh.2.2.2.2
    rw [ih2 ol oa hall.2 ?_ ?_ s]
    · rw [or_congr_right]
      constructor
      · rintro ⟨t, ht, rfl⟩
        obtain ⟨u, hu, rfl⟩ := (ma t).mp ht
        exact ⟨insert hId u, Or.inr ⟨u, hu, rfl⟩, Finset.insert_comm _ _ _⟩
      · rintro ⟨t, ht, rfl⟩
        rcases ht with ht | ⟨u, hu, rfl⟩
        · exact absurd ht (by simp [Den])
        · exact ⟨insert i u, (ma _).mpr ⟨u, hu, rfl⟩, Finset.insert_comm _ _ _⟩
    · intro t ht hx
      obtain ⟨u, hu, rfl⟩ := (ma t).mp ht
      rcases Finset.mem_insert.mp hx with h | h
      · omega
      · have := hgt u hu _ h; omega
    · intro t ht y hy hyh
      obtain ⟨u, hu, rfl⟩ := (ma t).mp ht
      rcases Finset.mem_insert.mp hy with h | h
      · omega
      · have := hgt u hu _ h; omega
  · intro i lId lLow lHigh high a r hi hge hnn ea ih1 ih2 ol oh hil hih hsep s
    have ol' := ol
    simp only [Ordered] at ol
    have hge' : ∀ t ∈ high.Den, ∀ y ∈ t, i ≤ y := by
      intro t ht y hy
      rcases i with _ | i
      · omega
      · have : Above i high := by
          cases high with
          | Branch j x y => have := hge j x y rfl; simp only [Above]; omega
          | _ => trivial
        have := lt_of_mem oh this ht hy; omega
    have ma := ih1 ol.2.2.2.1 oh (fun t ht => hil t (Or.inl ht)) hih (by
      intro t ht y hy hyi; have := hge' t ht y hy; omega)
    have oa : a.Ordered := ea ▸ Ordered.branch ol.2.2.2.1 oh
    have lgt : ∀ t ∈ lHigh.Den, ∀ y ∈ t, lId < y := fun t ht y hy => lt_of_mem ol.2.2.2.2 ol.2.1 ht hy
    have lgt' : ∀ t ∈ lLow.Den, ∀ y ∈ t, lId < y := fun t ht y hy => lt_of_mem ol.2.2.2.1 ol.1 ht hy
    rw [ih2 oa ol.2.2.2.2 ?_ ?_ ?_ s, ma, mem_den_branch]
    · rw [or_right_comm]
    · intro t ht hx
      rcases (ma t).mp ht with h | ⟨u, hu, rfl⟩
      · have := lgt' t h _ hx; omega
      · rcases Finset.mem_insert.mp hx with h | h
        · omega
        · have := hge' u hu _ h; omega
    · intro t ht hx; have := lgt t ht _ hx; omega
    · intro t ht y hy hyl; have := lgt t ht y hy; omega
  · intro i hLow hHigh low r _ ol oh hil hih _ s
    exfalso
    simp only [Ordered] at oh
    obtain ⟨t, ht⟩ := exists_mem oh.2.2.2.2 oh.2.2.1
    exact hih _ (Or.inr ⟨t, ht, rfl⟩) (by simp)
  · intro i lLow lHigh high r _ ol oh hil hih _ s
    exfalso
    simp only [Ordered] at ol
    obtain ⟨t, ht⟩ := exists_mem ol.2.2.2.2 ol.2.2.1
    exact hil _ (Or.inr ⟨t, ht, rfl⟩) (by simp)
  · intro i l h _ _ _ _ _ _ _ _ s; exact Iff.rfl

/-- Adding an item to a one-member diagram. -/
theorem branch_single (i : Nat) (h : Node) (s : Finset Nat) :
    h.Ordered → h.Den = {s} → (branch i .Never h).Den = {insert i s} := by
  have : ∀ (l : Node), l = .Never → h.Ordered → ∀ s, h.Den = {s} →
      (branch i l h).Den = {insert i s} := by
    intro l
    apply branch_ind (P := fun i l h r => l = .Never → h.Ordered → ∀ s : Finset Nat, h.Den = {s} →
      r.Den = {insert i s})
    · intro i l _ _ s hs
      have : s ∈ Node.Never.Den := by rw [hs]; rfl
      exact absurd this (by simp [Den])
    · intro i hId hLow hHigh lLow lHigh a b r hi _ _ _ _ _ hl; cases hl
    · rintro i hId hLow hHigh low a r hi ea ih1 ih2 rfl oh s hs
      have oh' := oh
      simp only [Ordered] at oh
      obtain ⟨t, ht⟩ := exists_mem oh.2.2.2.2 oh.2.2.1
      have e1 : insert hId t = s := by
        have : insert hId t ∈ (Node.Branch hId hLow hHigh).Den := Or.inr ⟨t, ht, rfl⟩
        rwa [hs] at this
      have hlow : hLow = .Never := by
        refine eq_never oh.2.2.2.1 (fun u hu => ?_)
        have : u ∈ (Node.Branch hId hLow hHigh).Den := Or.inl hu
        rw [hs, Set.mem_singleton_iff] at this
        have h2 : hId ∈ u := by rw [this, ← e1]; simp
        have := lt_of_mem oh.2.2.2.1 oh.1 hu h2; omega
      have hden : hHigh.Den = {t} := by
        ext u
        rw [Set.mem_singleton_iff]
        constructor
        · intro hu
          have : insert hId u ∈ (Node.Branch hId hLow hHigh).Den := Or.inr ⟨u, hu, rfl⟩
          rw [hs, Set.mem_singleton_iff, ← e1] at this
          have n1 : hId ∉ u := fun h => by have := lt_of_mem oh.2.2.2.2 oh.2.1 hu h; omega
          have n2 : hId ∉ t := fun h => by have := lt_of_mem oh.2.2.2.2 oh.2.1 ht h; omega
          rw [← Finset.erase_insert n1, this, Finset.erase_insert n2]
        · rintro rfl; exact ht
      have := ih1 hlow oh.2.2.2.2 t hden
      have oa : a.Ordered := ea ▸ Ordered.branch oh.2.2.2.1 oh.2.2.2.2
      rw [ih2 rfl oa _ this, ← e1, Finset.insert_comm]
    · intro i lId lLow lHigh high a r _ _ _ _ _ _ hl; cases hl
    · rintro i hLow hHigh low r ih rfl oh s hs
      simp only [Ordered] at oh
      obtain ⟨t, ht⟩ := exists_mem oh.2.2.2.2 oh.2.2.1
      have e1 : insert i t = s := by
        have : insert i t ∈ (Node.Branch i hLow hHigh).Den := Or.inr ⟨t, ht, rfl⟩
        rwa [hs] at this
      have hden : hHigh.Den = {t} := by
        ext u
        rw [Set.mem_singleton_iff]
        constructor
        · intro hu
          have : insert i u ∈ (Node.Branch i hLow hHigh).Den := Or.inr ⟨u, hu, rfl⟩
          rw [hs, Set.mem_singleton_iff, ← e1] at this
          have n1 : i ∉ u := fun h => by have := lt_of_mem oh.2.2.2.2 oh.2.1 hu h; omega
          have n2 : i ∉ t := fun h => by have := lt_of_mem oh.2.2.2.2 oh.2.1 ht h; omega
          rw [← Finset.erase_insert n1, this, Finset.erase_insert n2]
        · rintro rfl; exact ht
      rw [ih rfl oh.2.2.2.2 t hden, ← e1, Finset.insert_idem]
    · intro i lLow lHigh high r _ hl; cases hl
    · rintro i l h _ _ _ rfl _ s hs
      ext u
      rw [mem_den_branch, hs]; simp [Den]
  exact fun o hs => this .Never rfl o s hs

theorem fromIter_fold (items : List Nat) (acc : Node) (s : Finset Nat) (o : acc.Ordered)
    (hs : acc.Den = {s}) :
    (items.foldl (fun root item => branch item .Never root) acc).Ordered ∧
      (items.foldl (fun root item => branch item .Never root) acc).Den = {items.toFinset ∪ s} := by
  induction items generalizing acc s with
  | nil => exact ⟨o, by simpa using hs⟩
  | cons i is ih =>
    simp only [List.foldl_cons]
    obtain ⟨h1, h2⟩ := ih _ (insert i s) (Ordered.branch (i := i) (l := .Never) trivial o) (branch_single i acc s o hs)
    refine ⟨h1, ?_⟩
    rw [h2, Set.singleton_eq_singleton_iff, List.toFinset_cons, Finset.union_insert, Finset.insert_union]

theorem fromIter_ok (items : List Nat) (up : Bool) :
    (fromIter up items).Ordered ∧
      (fromIter up items).Den = if up then ∅ else {items.toFinset} := by
  unfold fromIter
  cases up with
  | true => simp [Ordered, Den]
  | false =>
    simp only [Bool.false_eq_true, if_false]
    have := fromIter_fold items .Always ∅ trivial rfl
    simpa using this

/-- Adding a singleton to a diagram of singletons (the step of `unique`). -/
theorem branch_comb (i : Nat) (l : Node) (A : Set Nat) : l.Ordered →
    (∀ s, s ∈ l.Den ↔ ∃ a ∈ A, s = {a}) →
    ∀ s, s ∈ (branch i l .Always).Den ↔ ∃ a, (a ∈ A ∨ a = i) ∧ s = {a} := by
  have : ∀ h : Node, h = .Always → l.Ordered → ∀ A : Set Nat, (∀ s, s ∈ l.Den ↔ ∃ a ∈ A, s = {a}) →
    ∀ s, s ∈ (branch i l h).Den ↔ ∃ a, (a ∈ A ∨ a = i) ∧ s = {a} := by
    intro h
    apply branch_ind (P := fun i l h r => h = .Always → l.Ordered → ∀ A : Set Nat,
      (∀ s, s ∈ l.Den ↔ ∃ a ∈ A, s = {a}) →
      ∀ s, s ∈ r.Den ↔ ∃ a, (a ∈ A ∨ a = i) ∧ s = {a})
    · intro i l h; cases h
    · intro i hId hLow hHigh lLow lHigh a b r hi _ _ _ _ _ hl; cases hl
    · intro i hId hLow hHigh low a r hi _ _ _ hl; cases hl
    · rintro i lId lLow lHigh high a r hi _ _ ea ih1 ih2 rfl ol A hA s
      have ol' := ol
      simp only [Ordered] at ol
      have hhigh : lHigh = .Always := by
        apply eq_always ol.2.2.2.2
        ext u
        rw [Set.mem_singleton_iff]
        have key : ∀ u ∈ lHigh.Den, u = ∅ := by
          intro u hu
          have : insert lId u ∈ (Node.Branch lId lLow lHigh).Den := Or.inr ⟨u, hu, rfl⟩
          obtain ⟨b, _, hb⟩ := (hA _).mp this
          have hl : lId ∉ u := fun h => by have := lt_of_mem ol.2.2.2.2 ol.2.1 hu h; omega
          have : lId ∈ ({b} : Finset Nat) := by rw [← hb]; simp
          rw [Finset.mem_singleton] at this; subst this
          rw [← Finset.erase_insert hl, hb]; simp
        constructor
        · exact key u
        · rintro rfl
          obtain ⟨t, ht⟩ := exists_mem ol.2.2.2.2 ol.2.2.1
          have := key t ht; subst this; exact ht
      subst hhigh
      have mlow : ∀ s, s ∈ lLow.Den ↔ ∃ a ∈ {a | a ∈ A ∧ a ≠ lId}, s = {a} := by
        intro s
        have h1 := hA s
        rw [mem_ordered ol'] at h1
        constructor
        · intro hs
          have hn : lId ∉ s := fun h => by have := lt_of_mem ol.2.2.2.1 ol.1 hs h; omega
          obtain ⟨b, hb, rfl⟩ := h1.mp (Or.inl ⟨hn, hs⟩)
          exact ⟨b, ⟨hb, fun h => hn (by simp [h])⟩, rfl⟩
        · rintro ⟨b, ⟨hb, hne⟩, rfl⟩
          rcases h1.mpr ⟨b, hb, rfl⟩ with ⟨_, h⟩ | ⟨h, _⟩
          · exact h
          · simp at h; exact absurd h.symm hne
      have hlA : lId ∈ A := by
        have : insert lId ∅ ∈ (Node.Branch lId lLow .Always).Den := Or.inr ⟨∅, rfl, rfl⟩
        obtain ⟨b, hb, e⟩ := (hA _).mp this
        simp at e; rwa [e]
      have ma := ih1 rfl ol.2.2.2.1 _ mlow
      rw [ih2 rfl (ea ▸ Ordered.branch ol.2.2.2.1 trivial) {a | (a ∈ A ∧ a ≠ lId) ∨ a = i} ma s]
      constructor
      · rintro ⟨b, hb, rfl⟩
        refine ⟨b, ?_, rfl⟩
        rcases hb with (hb | hb) | hb
        · exact Or.inl hb.1
        · exact Or.inr hb
        · subst hb; exact Or.inl hlA
      · rintro ⟨b, hb, rfl⟩
        refine ⟨b, ?_, rfl⟩
        by_cases hbl : b = lId
        · exact Or.inr hbl
        · left; rcases hb with hb | hb
          · exact Or.inl ⟨hb, hbl⟩
          · exact Or.inr hb
    · intro i hLow hHigh low r _ hl; cases hl
    · rintro i lLow lHigh high r ih rfl ol A hA s
      have ol' := ol
      simp only [Ordered] at ol
      have mlow : ∀ s, s ∈ lLow.Den ↔ ∃ a ∈ {a | a ∈ A ∧ a ≠ i}, s = {a} := by
        intro s
        have h1 := hA s
        rw [mem_ordered ol'] at h1
        constructor
        · intro hs
          have hn : i ∉ s := fun h => by have := lt_of_mem ol.2.2.2.1 ol.1 hs h; omega
          obtain ⟨b, hb, rfl⟩ := h1.mp (Or.inl ⟨hn, hs⟩)
          exact ⟨b, ⟨hb, fun h => hn (by simp [h])⟩, rfl⟩
        · rintro ⟨b, ⟨hb, hne⟩, rfl⟩
          rcases h1.mpr ⟨b, hb, rfl⟩ with ⟨_, h⟩ | ⟨h, _⟩
          · exact h
          · simp at h; exact absurd h.symm hne
      rw [ih rfl ol.2.2.2.1 _ mlow s]
      constructor
      · rintro ⟨b, hb, rfl⟩
        exact ⟨b, hb.imp (fun h => h.1) id, rfl⟩
      · rintro ⟨b, hb, rfl⟩
        refine ⟨b, ?_, rfl⟩
        by_cases hbl : b = i
        · exact Or.inr hbl
        · exact Or.inl ⟨hb.resolve_right hbl, hbl⟩
    · rintro i l h al ah _ rfl ol A hA s
      rw [mem_den_branch, hA]
      simp only [Den, Set.mem_singleton_iff, exists_eq_left]
      constructor
      · rintro (⟨b, hb, rfl⟩ | rfl)
        · exact ⟨b, Or.inl hb, rfl⟩
        · exact ⟨i, Or.inr rfl, by simp⟩
      · rintro ⟨b, hb | rfl, rfl⟩
        · exact Or.inl ⟨b, hb, rfl⟩
        · right; simp
  exact fun o hA => this .Always rfl o A hA

theorem unique_fold (items : List Nat) (acc : Node) (A : Set Nat) (o : acc.Ordered)
    (hA : ∀ s, s ∈ acc.Den ↔ ∃ a ∈ A, s = {a}) :
    (items.foldl (fun root item => branch item root .Always) acc).Ordered ∧
      ∀ s, s ∈ (items.foldl (fun root item => branch item root .Always) acc).Den ↔
        ∃ a, (a ∈ A ∨ a ∈ items) ∧ s = {a} := by
  induction items generalizing acc A with
  | nil => exact ⟨o, by simpa using hA⟩
  | cons i is ih =>
    simp only [List.foldl_cons]
    obtain ⟨h1, h2⟩ := ih _ {a | a ∈ A ∨ a = i} (Ordered.branch (i := i) (h := .Always) o trivial)
      (branch_comb i acc A o hA)
    refine ⟨h1, fun s => ?_⟩
    rw [h2]
    simp only [Set.mem_ofPred_eq, List.mem_cons, or_assoc]

/-- Folding `union`, as in `many`. -/
theorem union_fold (ns : List Node) (acc : Node) (o : acc.Ordered) (hn : ∀ n ∈ ns, n.Ordered) :
    (ns.foldl union acc).Ordered ∧
      ∀ s, s ∈ (ns.foldl union acc).Den ↔ s ∈ acc.Den ∨ ∃ n ∈ ns, s ∈ n.Den := by
  induction ns generalizing acc with
  | nil => exact ⟨o, by simp⟩
  | cons n ns ih =>
    simp only [List.foldl_cons]
    have on := hn n (by simp)
    obtain ⟨h1, h2⟩ := ih _ (o.union on) (fun m hm => hn m (by simp [hm]))
    refine ⟨h1, fun s => ?_⟩
    rw [h2, mem_union o on]
    simp only [List.mem_cons, exists_eq_or_imp, or_assoc]

end Node
end Verif.Zdd2
