import Verif.Bdd.NodeLemmas
import Verif.Bdd.Closet
import Mathlib.Data.List.Perm.Basic
import Mathlib.Data.List.Count

/-!
Helper lemmas: the diagrams of closets are *complete* — every path to the true leaf tests every free
item, in order.  `Lvl S n` says so; all observations of a closet follow from it.
-/

set_option linter.unusedSimpArgs false
set_option linter.unusedSectionVars false

namespace Verif.Bdd
open Verif

universe u
variable {I : Type u} [LinearOrder I]

namespace Node

/-- Every path to `true` tests exactly the items of `S`, in that order.
Not code: used to state or prove properties. -/
def Lvl : List I → Node I → Prop
  | _, .Leaf false => True
  | [], .Leaf true => True
  | _ :: _, .Leaf true => False
  | [], .Branch _ _ _ => False
  | x :: s, .Branch i l h => i = x ∧ Lvl s l ∧ Lvl s h

/-- The high-sets of the true paths.  Not code: used to state or prove properties. -/
def sols : Node I → List (List I)
  | .Leaf true => [[]]
  | .Leaf false => []
  | .Branch i l h => l.sols ++ h.sols.map (fun p => i :: p)

/-- Flipping any item of `S` falsifies.  Not code: used to state or prove properties. -/
def Rigid (S : List I) (n : Node I) : Prop :=
  ∀ σ, n.eval σ = true → ∀ x ∈ S, n.eval (Function.update σ x (!σ x)) = false

theorem lvl_of_rigid {S : List I} (hS : S.Pairwise (· < ·)) {n : Node I} (ho : n.Ordered)
    (hr : n.Reduced) (hm : ∀ x, n.Mentions x → x ∈ S) (hrig : Rigid S n) : Lvl S n := by
  induction S generalizing n with
  | nil =>
    cases n with
    | Leaf b => cases b <;> trivial
    | Branch i l h => exact absurd (hm i (Or.inl rfl)) (by simp)
  | cons y s ih =>
    rw [List.pairwise_cons] at hS
    cases n with
    | Leaf b =>
      cases b with
      | false => trivial
      | true => exact absurd (hrig (fun _ => false) rfl y (by simp)) (by simp [eval])
    | Branch i l h =>
      have hl : ¬ l.Mentions i := not_mentions_above ho.2.2.1 ho.1
      have hh : ¬ h.Mentions i := not_mentions_above ho.2.2.2 ho.2.1
      have hiy : i = y := by
        rcases List.mem_cons.1 (hm i (Or.inl rfl)) with e | e
        · exact e
        · exfalso
          have hlt := hS.1 i e
          have hnm : ¬ (Node.Branch i l h).Mentions y :=
            not_mentions_above (n := .Branch i l h) ho hlt
          obtain ⟨σ, hσ⟩ := satisfiable (n := .Branch i l h) ho hr (by simp)
          have := hrig σ hσ y (by simp)
          rw [eval_update_of_not_mentions hnm, hσ] at this
          cases this
      subst hiy
      refine ⟨rfl, ?_, ?_⟩
      · refine ih hS.2 ho.2.2.1 hr.2.1 ?_ ?_
        · intro x hx
          rcases List.mem_cons.1 (hm x (Or.inr (Or.inl hx))) with e | e
          · subst e; exact absurd hx hl
          · exact e
        · intro σ hσ x hx
          have hxi : x ≠ i := fun e => lt_irrefl _ (e ▸ hS.1 x hx)
          have h1 := hrig (Function.update σ i false) (by rw [eval_branch_false hl]; exact hσ) x
            (by simp [hx])
          rw [Function.update_of_ne hxi, Function.update_comm hxi.symm, eval_branch_false hl] at h1
          exact h1
      · refine ih hS.2 ho.2.2.2 hr.2.2 ?_ ?_
        · intro x hx
          rcases List.mem_cons.1 (hm x (Or.inr (Or.inr hx))) with e | e
          · subst e; exact absurd hx hh
          · exact e
        · intro σ hσ x hx
          have hxi : x ≠ i := fun e => lt_irrefl _ (e ▸ hS.1 x hx)
          have h1 := hrig (Function.update σ i true) (by rw [eval_branch_true hh]; exact hσ) x
            (by simp [hx])
          rw [Function.update_of_ne hxi, Function.update_comm hxi.symm, eval_branch_true hh] at h1
          exact h1

theorem Lvl.mentions {S : List I} {n : Node I} (h : Lvl S n) {x : I} (hm : n.Mentions x) :
    x ∈ S := by
  induction n generalizing S with
  | Leaf b => exact hm.elim
  | Branch i l h' ihl ihh =>
    cases S with
    | nil => exact h.elim
    | cons y s =>
      obtain ⟨rfl, h1, h2⟩ := h
      rcases hm with rfl | hm | hm
      · simp
      · exact List.mem_cons_of_mem _ (ihl h1 hm)
      · exact List.mem_cons_of_mem _ (ihh h2 hm)

theorem Lvl.sol_sublist {S : List I} {n : Node I} (h : Lvl S n) {p : List I} (hp : p ∈ n.sols) :
    p.Sublist S := by
  induction n generalizing S p with
  | Leaf b => cases b <;> simp [sols] at hp; subst hp; exact List.nil_sublist _
  | Branch i l h' ihl ihh =>
    cases S with
    | nil => exact h.elim
    | cons y s =>
      obtain ⟨rfl, h1, h2⟩ := h
      rw [sols, List.mem_append, List.mem_map] at hp
      rcases hp with hp | ⟨q, hq, rfl⟩
      · exact (ihl h1 hp).cons _
      · exact (ihh h2 hq).cons_cons _

/-- The assignments making a complete diagram true are exactly its solutions. -/
theorem Lvl.eval_iff {S : List I} (hS : S.Pairwise (· < ·)) {n : Node I} (h : Lvl S n)
    (σ : I → Bool) : n.eval σ = true ↔ S.filter (fun x => σ x) ∈ n.sols := by
  induction n generalizing S with
  | Leaf b =>
    cases b with
    | false => simp [eval, sols]
    | true =>
      cases S with
      | nil => simp [eval, sols]
      | cons y s => exact h.elim
  | Branch i l h' ihl ihh =>
    cases S with
    | nil => exact h.elim
    | cons y s =>
      obtain ⟨rfl, h1, h2⟩ := h
      rw [List.pairwise_cons] at hS
      have hi : i ∉ s := fun hm => lt_irrefl _ (hS.1 i hm)
      simp only [eval, sols, List.mem_append, List.mem_map, List.filter_cons]
      by_cases hσ : σ i
      · simp only [hσ, if_true]
        rw [ihh hS.2 h2]
        constructor
        · intro hm; exact Or.inr ⟨_, hm, rfl⟩
        · rintro (hm | ⟨q, hq, e⟩)
          · exact absurd ((h1.sol_sublist hm).subset (by simp)) hi
          · injection e with _ e; rw [← e]; exact hq
      · simp only [hσ, if_false, Bool.false_eq_true]
        rw [ihl hS.2 h1]
        constructor
        · intro hm; exact Or.inl hm
        · rintro (hm | ⟨q, hq, e⟩)
          · exact hm
          · exfalso
            have : i ∈ s.filter (fun x => σ x) := by rw [← e]; simp
            exact hi (List.mem_of_mem_filter this)

theorem Lvl.sols_nodup {S : List I} (hS : S.Pairwise (· < ·)) {n : Node I} (h : Lvl S n) :
    n.sols.Nodup := by
  induction n generalizing S with
  | Leaf b => cases b <;> simp [sols]
  | Branch i l h' ihl ihh =>
    cases S with
    | nil => exact h.elim
    | cons y s =>
      obtain ⟨rfl, h1, h2⟩ := h
      rw [List.pairwise_cons] at hS
      have hi : i ∉ s := fun hm => lt_irrefl _ (hS.1 i hm)
      rw [sols, List.nodup_append]
      refine ⟨ihl hS.2 h1, (ihh hS.2 h2).map (fun a b e => by injection e), ?_⟩
      intro p hp q hq e
      subst e
      obtain ⟨r, _, rfl⟩ := List.mem_map.1 hq
      exact hi ((h1.sol_sublist hp).subset (by simp))

theorem length_sols (n : Node I) : n.sols.length = n.outfitCount := by
  induction n with
  | Leaf b => cases b <;> rfl
  | Branch i l h ihl ihh => simp [sols, outfitCount, ihl, ihh]

theorem sols_ne_nil {n : Node I} (hr : n.Reduced) (hn : n ≠ .Leaf false) : n.sols ≠ [] := by
  induction n with
  | Leaf b => cases b <;> simp [sols] at *
  | Branch i l h ihl ihh =>
    intro e
    rw [sols, List.append_eq_nil_iff, List.map_eq_nil_iff] at e
    have h1 : l = .Leaf false := by by_contra hne; exact ihl hr.2.1 hne e.1
    have h2 : h = .Leaf false := by by_contra hne; exact ihh hr.2.2 hne e.2
    exact hr.1 (h1.trans h2.symm)

/-- Branch statuses recorded by `summarize`.  Not code: used to state or prove properties. -/
def occ : Node I → List (Status I)
  | .Leaf _ => []
  | .Branch i l h => branchStatus i h :: (h.occ ++ l.occ)

theorem branchStatus_eq (i : I) (h : Node I) :
    branchStatus i h = if h = .Leaf false then .Excluded i else .Available i := by
  cases h with
  | Leaf b => cases b <;> simp [branchStatus]
  | Branch j l h => simp [branchStatus]

theorem occ_cases {n : Node I} {s : Status I} (h : s ∈ n.occ) :
    s = .Excluded s.item ∨ s = .Available s.item := by
  induction n with
  | Leaf b => simp [occ] at h
  | Branch i l h' ihl ihh =>
    rw [occ, List.mem_cons, List.mem_append] at h
    rcases h with rfl | h | h
    · rw [branchStatus_eq]; split_ifs
      · exact Or.inl rfl
      · exact Or.inr rfl
    · exact ihh h
    · exact ihl h

theorem occ_mentions {n : Node I} {x : I} :
    n.Mentions x ↔ ∃ s ∈ n.occ, s.item = x := by
  induction n with
  | Leaf b => simp [occ, Mentions]
  | Branch i l h ihl ihh =>
    have : (branchStatus i h).item = i := by rw [branchStatus_eq]; split_ifs <;> rfl
    simp only [Mentions, ihl, ihh, occ, List.mem_cons, List.mem_append]
    constructor
    · rintro (rfl | ⟨s, hs, e⟩ | ⟨s, hs, e⟩)
      · exact ⟨_, Or.inl rfl, this⟩
      · exact ⟨s, Or.inr (Or.inr hs), e⟩
      · exact ⟨s, Or.inr (Or.inl hs), e⟩
    · rintro ⟨s, rfl | hs | hs, e⟩
      · exact Or.inl (e.symm.trans this)
      · exact Or.inr (Or.inr ⟨s, hs, e⟩)
      · exact Or.inr (Or.inl ⟨s, hs, e⟩)

/-- In a complete reduced diagram an item is recorded as available iff some solution has it. -/
theorem Lvl.available_iff {S : List I} (hS : S.Pairwise (· < ·)) {n : Node I} (h : Lvl S n)
    (hr : n.Reduced) {x : I} : Status.Available x ∈ n.occ ↔ ∃ p ∈ n.sols, x ∈ p := by
  induction n generalizing S with
  | Leaf b => cases b <;> simp [occ, sols]
  | Branch i l h' ihl ihh =>
    cases S with
    | nil => exact h.elim
    | cons y s =>
      obtain ⟨rfl, h1, h2⟩ := h
      rw [List.pairwise_cons] at hS
      rw [occ, List.mem_cons, List.mem_append, ihl hS.2 h1 hr.2.1, ihh hS.2 h2 hr.2.2,
        branchStatus_eq]
      simp only [sols, List.mem_append, List.mem_map]
      constructor
      · rintro (e | ⟨p, hp, hx⟩ | ⟨p, hp, hx⟩)
        · split_ifs at e with hf
          · cases e
            obtain ⟨p, hp⟩ := List.exists_mem_of_ne_nil _ (sols_ne_nil hr.2.2 hf)
            exact ⟨x :: p, Or.inr ⟨p, hp, rfl⟩, by simp⟩
        · exact ⟨_, Or.inr ⟨p, hp, rfl⟩, by simp [hx]⟩
        · exact ⟨p, Or.inl hp, hx⟩
      · rintro ⟨_, hp | ⟨p, hp, rfl⟩, hx⟩
        · exact Or.inr (Or.inr ⟨_, hp, hx⟩)
        · rcases List.mem_cons.1 hx with rfl | hx
          · left
            rw [if_neg]
            rintro rfl; simp [sols] at hp
          · exact Or.inr (Or.inl ⟨p, hp, hx⟩)

/-- A satisfiable complete reduced diagram mentions every free item. -/
theorem Lvl.mentions_all {S : List I} {n : Node I} (h : Lvl S n) (hr : n.Reduced)
    (hn : n ≠ .Leaf false) {x : I} (hx : x ∈ S) : n.Mentions x := by
  induction S generalizing n with
  | nil => simp at hx
  | cons y s ih =>
    cases n with
    | Leaf b => cases b <;> first | exact absurd rfl hn | exact h.elim
    | Branch i l h' =>
      obtain ⟨rfl, h1, h2⟩ := h
      rcases List.mem_cons.1 hx with rfl | hx
      · exact Or.inl rfl
      · by_cases hl : l = .Leaf false
        · have hh : h' ≠ .Leaf false := fun e => hr.1 (hl.trans e.symm)
          exact Or.inr (Or.inr (ih h2 hr.2.2 hh hx))
        · exact Or.inr (Or.inl (ih h1 hr.2.1 hl hx))

end Node

open Node

/-! ### The summarize loop -/

theorem summarizeLoop_spec (q : List (Node I)) (m : List (I × List (Status I))) (hm : KeysLt m) :
    KeysLt (summarizeLoop q m) ∧
    ∀ x s, s ∈ (lookup x (summarizeLoop q m)).getD [] ↔
      s ∈ (lookup x m).getD [] ∨ (∃ n ∈ q, s ∈ n.occ ∧ s.item = x) := by
  fun_induction summarizeLoop q m with
  | case1 m => simp [hm]
  | case2 m b q ih =>
    obtain ⟨h1, h2⟩ := ih hm
    refine ⟨h1, fun x s => ?_⟩
    rw [h2]; simp [occ]
  | case3 m i l h q ih =>
    obtain ⟨h1, h2⟩ := ih (keysLt_upsert hm)
    refine ⟨h1, fun x s => ?_⟩
    have hi : (branchStatus i h).item = i := by rw [branchStatus_eq]; split_ifs <;> rfl
    rw [h2, pushTo, lookup_upsert hm]
    by_cases hx : x = i
    · subst hx
      simp only [if_true, Option.getD_some, List.mem_append, List.mem_cons, List.not_mem_nil,
        or_false, exists_eq_or_imp, occ]
      constructor
      · rintro ((h3 | rfl) | h3 | h3 | h3)
        · exact Or.inl h3
        · exact Or.inr (Or.inl ⟨Or.inl rfl, hi⟩)
        · exact Or.inr (Or.inl ⟨Or.inr (Or.inl h3.1), h3.2⟩)
        · exact Or.inr (Or.inl ⟨Or.inr (Or.inr h3.1), h3.2⟩)
        · exact Or.inr (Or.inr h3)
      · rintro (h3 | ⟨rfl | h3 | h3, h4⟩ | h3)
        · exact Or.inl (Or.inl h3)
        · exact Or.inl (Or.inr rfl)
        · exact Or.inr (Or.inl ⟨h3, h4⟩)
        · exact Or.inr (Or.inr (Or.inl ⟨h3, h4⟩))
        · exact Or.inr (Or.inr (Or.inr h3))
    · simp only [hx, if_false, List.mem_cons, exists_eq_or_imp, occ, List.mem_append]
      constructor
      · rintro (h3 | h3 | h3 | h3)
        · exact Or.inl h3
        · exact Or.inr (Or.inl ⟨Or.inr (Or.inl h3.1), h3.2⟩)
        · exact Or.inr (Or.inl ⟨Or.inr (Or.inr h3.1), h3.2⟩)
        · exact Or.inr (Or.inr h3)
      · rintro (h3 | ⟨rfl | h3 | h3, h4⟩ | h3)
        · exact Or.inl h3
        · exact absurd (h4.symm.trans hi) hx
        · exact Or.inr (Or.inl ⟨h3, h4⟩)
        · exact Or.inr (Or.inr (Or.inl ⟨h3, h4⟩))
        · exact Or.inr (Or.inr (Or.inr h3))

theorem foldl_max_spec {α : Type u} [LinearOrder α] (l : List α) (a : α) :
    l.foldl max a ∈ a :: l ∧ ∀ b ∈ a :: l, b ≤ l.foldl max a := by
  induction l generalizing a with
  | nil => simp
  | cons c l ih =>
    obtain ⟨h1, h2⟩ := ih (max a c)
    simp only [List.foldl_cons]
    refine ⟨?_, ?_⟩
    · rcases List.mem_cons.1 h1 with h1 | h1
      · rw [h1]
        rcases max_choice a c with e | e <;> rw [e] <;> simp
      · simp [h1]
    · intro b hb
      rcases List.mem_cons.1 hb with rfl | hb
      · exact le_trans (le_max_left b c) (h2 _ (by simp))
      · rcases List.mem_cons.1 hb with rfl | hb
        · exact le_trans (le_max_right a b) (h2 _ (by simp))
        · exact h2 b (by simp [hb])

theorem peek_eq_some {α : Type u} [LinearOrder α] {l : List α} {a : α} :
    peek l = some a ↔ a ∈ l ∧ ∀ b ∈ l, b ≤ a := by
  cases l with
  | nil => simp [peek]
  | cons c l =>
    have h := foldl_max_spec l c
    simp only [peek, Option.some.injEq]
    constructor
    · rintro rfl; exact h
    · rintro ⟨h1, h2⟩; exact le_antisymm (h2 _ h.1) (h.2 _ h1)

theorem excluded_lt_available (i j : I) : Status.Excluded i < Status.Available j := by
  change Status.key (Status.Excluded i) < Status.key (Status.Available j)
  simp [Status.key, Prod.Lex.toLex_lt_toLex]

theorem available_lt_selected (i j : I) : Status.Available i < Status.Selected j := by
  change Status.key (Status.Available i) < Status.key (Status.Selected j)
  simp [Status.key, Prod.Lex.toLex_lt_toLex]

/-- The entries left by the loop are non-empty heaps. -/
theorem summarizeLoop_nonempty (q : List (Node I)) (m : List (I × List (Status I)))
    (hm : ∀ e ∈ m, e.2 ≠ []) : ∀ e ∈ summarizeLoop q m, e.2 ≠ [] := by
  have hup : ∀ (i : I) (s : Status I) (m : List (I × List (Status I))), (∀ e ∈ m, e.2 ≠ []) →
      ∀ e ∈ pushTo i s m, e.2 ≠ [] := by
    intro i s m hm
    induction m with
    | nil => intro e he; simp [pushTo, upsert] at he; subst he; simp
    | cons p l ih =>
      obtain ⟨k, w⟩ := p
      intro e he
      unfold pushTo upsert at he
      split_ifs at he
      · rcases List.mem_cons.1 he with rfl | he
        · simp
        · exact hm e he
      · rcases List.mem_cons.1 he with rfl | he
        · simp
        · exact hm e (List.mem_cons_of_mem _ he)
      · rcases List.mem_cons.1 he with rfl | he
        · exact hm (k, w) (by simp)
        · exact ih (fun e he => hm e (List.mem_cons_of_mem _ he)) e he
  fun_induction summarizeLoop q m with
  | case1 m => exact hm
  | case2 m b q ih => exact ih hm
  | case3 m i l h q ih => exact ih (hup _ _ _ hm)

/-- What `summarize` lists, for any node. -/
theorem mem_summarize (n : Node I) (s : Status I) :
    s ∈ summarize n ↔ s ∈ n.occ ∧ (s = .Excluded s.item → .Available s.item ∉ n.occ) := by
  obtain ⟨h1, h2⟩ := summarizeLoop_spec [n] [] List.Pairwise.nil
  have h2' : ∀ x s, s ∈ (lookup x (summarizeLoop [n] [])).getD [] ↔ s ∈ n.occ ∧ s.item = x := by
    intro x s; rw [h2]; simp [lookup]
  rw [summarize, mem_sorted, List.mem_filterMap]
  constructor
  · rintro ⟨⟨x, heap⟩, he, hp⟩
    have hl := (lookup_eq_some h1).2 he
    have hh : ∀ s, s ∈ heap ↔ s ∈ n.occ ∧ s.item = x := by
      intro s; rw [← h2', hl]; rfl
    obtain ⟨ha, hb⟩ := peek_eq_some.1 hp
    have hs := (hh s).1 ha
    refine ⟨hs.1, fun e hav => ?_⟩
    have := hb (.Available s.item) ((hh _).2 ⟨hav, hs.2⟩)
    rw [e] at this
    exact absurd (excluded_lt_available s.item s.item) (not_lt.2 this)
  · rintro ⟨hs, hx⟩
    have hmem := (h2' s.item s).2 ⟨hs, rfl⟩
    cases hl : lookup s.item (summarizeLoop [n] []) with
    | none => rw [hl] at hmem; simp at hmem
    | some heap =>
      rw [hl] at hmem
      refine ⟨(s.item, heap), (lookup_eq_some h1).1 hl, ?_⟩
      have hh : ∀ s', s' ∈ heap ↔ s' ∈ n.occ ∧ s'.item = s.item := by
        intro s'; rw [← h2', hl]; rfl
      rw [peek_eq_some]
      refine ⟨hmem, fun b hb => ?_⟩
      obtain ⟨hb1, hb2⟩ := (hh b).1 hb
      rcases occ_cases hs with e | e <;> rcases occ_cases hb1 with e' | e'
      · rw [e, e', hb2]
      · rw [e', hb2] at hb1; exact absurd hb1 (hx e)
      · rw [e, e', hb2]; exact le_of_lt (excluded_lt_available _ _)
      · rw [e, e', hb2]

/-- `summarize` lists no item twice and is strictly sorted. -/
theorem summarize_lt (n : Node I) : (summarize n).Pairwise (· < ·) := by
  apply sorted_lt_of_nodup
  obtain ⟨h1, h2⟩ := summarizeLoop_spec [n] [] List.Pairwise.nil
  have hitem : ∀ e ∈ summarizeLoop [n] [], ∀ s, peek e.2 = some s → s.item = e.1 := by
    rintro ⟨x, heap⟩ he s hp
    have hl := (lookup_eq_some h1).2 he
    have := ((h2 x s).1 (by rw [hl]; exact (peek_eq_some.1 hp).1))
    rcases this with h' | ⟨n', _, _, h'⟩
    · simp [lookup] at h'
    · exact h'
  have : ∀ l : List (I × List (Status I)), KeysLt l →
      (∀ e ∈ l, ∀ s, peek e.2 = some s → s.item = e.1) →
      (l.filterMap (fun e => peek e.2)).Nodup := by
    intro l
    induction l with
    | nil => simp
    | cons e l ih =>
      intro hk hi
      rw [KeysLt, List.pairwise_cons] at hk
      have ih' := ih hk.2 (fun e he => hi e (List.mem_cons_of_mem _ he))
      rw [List.filterMap_cons]
      split
      · exact ih'
      next s hs =>
        rw [List.nodup_cons]
        refine ⟨?_, ih'⟩
        rw [List.mem_filterMap]
        rintro ⟨e', he', hs'⟩
        have a := hi e (by simp) s hs
        have b := hi e' (List.mem_cons_of_mem _ he') s hs'
        have := hk.1 e' he'
        rw [← a, ← b] at this
        exact lt_irrefl _ this
  exact this _ h1 hitem

/-- `HashMap::values()` may come in any order: the sorted result is the same. -/
theorem summarize_perm (n : Node I) (es : List (I × List (Status I)))
    (hp : es.Perm (summarizeLoop [n] [])) :
    sorted (es.filterMap (fun e => peek e.2)) = summarize n :=
  sorted_congr (hp.filterMap _)

/-! ### The greedy walk -/

theorem walk_spec {n : Node I} (hr : n.Reduced) (hn : n ≠ .Leaf false) (acc : List I) :
    ∃ p ∈ n.sols, Closet.walk n acc = sorted (acc ++ p) := by
  induction n generalizing acc with
  | Leaf b => cases b <;> simp [sols, Closet.walk] at *
  | Branch i l h ihl ihh =>
    simp only [Closet.walk]
    split_ifs with hf
    · have hl : l ≠ .Leaf false := fun e => hr.1 (e.trans hf.symm)
      obtain ⟨p, hp, e⟩ := ihl hr.2.1 hl acc
      exact ⟨p, by simp [sols, hp], e⟩
    · obtain ⟨p, hp, e⟩ := ihh hr.2.2 hf (acc ++ [i])
      exact ⟨i :: p, by simp [sols, hp], by rw [e]; simp⟩

end Verif.Bdd
