import Verif.ArenaGrowth
import Verif.ArenaForest
import Verif.Zdd2.Cost

/-!
# How many nodes a call of the zdd2 forest API can add to the shared node store (C121)

Every call of `Node::branch` converts at most two nodes to ids, and the number of calls is bounded (C89).
-/

set_option linter.unusedSimpArgs false
set_option linter.unusedVariables false
set_option linter.unusedSectionVars false

namespace Verif.Arena

universe u v w w'
variable {K : Type u} {L : Type v} [DecidableEq K] [DecidableEq L]

/-- Walking through the program in the arena, at most `n` different nodes besides those of `X` are converted to ids, and a
result satisfies `Q`.  Not code: used to state or prove properties. -/
def Pays {α : Type w} (b : Arena K L) (Q : α → Prop) : Prog K L α → Finset (Cell K L) → Nat → Prop
  | .ret x, _, _ => Q x
  | .load i k, X, n => ∀ c, b.getById i = some c → Pays b Q (k c) X n
  | .intern c k, X, n =>
    (c ∈ X ∧ ∀ i, b.getByNode c = some i → Pays b Q (k i) X n) ∨
    ∃ m, n = m + 1 ∧ ∀ i, b.getByNode c = some i → Pays b Q (k i) (insert c X) m
  | .panic, _, _ => True
  | .spin, _, _ => True

variable {α : Type w} {β : Type w'} {b : Arena K L} {Q Q' : α → Prop} {R : β → Prop}

theorem Pays.mono {p : Prog K L α} {X Y : Finset (Cell K L)} {n m : Nat} (h : Pays b Q p X n) (hX : X ⊆ Y) (hn : n ≤ m) :
    Pays b Q p Y m := by
  induction p generalizing X Y n m with
  | ret x => exact h
  | load i k ih => exact fun c hc => ih c (h c hc) hX hn
  | intern c k ih =>
    rcases h with ⟨h1, h2⟩ | ⟨n', rfl, h2⟩
    · exact .inl ⟨hX h1, fun i hi => ih i (h2 i hi) hX hn⟩
    · obtain ⟨m', rfl⟩ : ∃ m', m = m' + 1 := ⟨m - 1, by omega⟩
      exact .inr ⟨m', rfl, fun i hi => ih i (h2 i hi) (Finset.insert_subset_insert _ hX) (by omega)⟩
  | panic => trivial
  | spin => trivial

theorem Pays.imp {p : Prog K L α} {X : Finset (Cell K L)} {n : Nat} (h : Pays b Q p X n) (hQ : ∀ x, Q x → Q' x) :
    Pays b Q' p X n := by
  induction p generalizing X n with
  | ret x => exact hQ x h
  | load i k ih => exact fun c hc => ih c (h c hc)
  | intern c k ih =>
    rcases h with ⟨h1, h2⟩ | ⟨n', rfl, h2⟩
    · exact .inl ⟨h1, fun i hi => ih i (h2 i hi)⟩
    · exact .inr ⟨n', rfl, fun i hi => ih i (h2 i hi)⟩
  | panic => trivial
  | spin => trivial

theorem Pays.drop {p : Prog K L α} {X : Finset (Cell K L)} {n : Nat} {c : Cell K L} (h : Pays b Q p (insert c X) n) :
    Pays b Q p X (n + 1) := by
  induction p generalizing X n with
  | ret x => exact h
  | load i k ih => exact fun d hd => ih d (h d hd)
  | intern d k ih =>
    rcases h with ⟨h1, h2⟩ | ⟨n', rfl, h2⟩
    · rcases Finset.mem_insert.1 h1 with rfl | h1
      · exact .inr ⟨n, rfl, h2⟩
      · exact .inl ⟨h1, fun i hi => ih i (h2 i hi)⟩
    · exact .inr ⟨n' + 1, rfl, fun i hi => ih i (by rw [Finset.insert_comm]; exact h2 i hi)⟩
  | panic => trivial
  | spin => trivial

theorem Pays.bind {p : Prog K L α} {g : α → Prog K L β} {X : Finset (Cell K L)} {n m : Nat} (h : Pays b Q p X n)
    (hg : ∀ x, Q x → Pays b R (g x) X m) : Pays b R (p.bind g) X (n + m) := by
  induction p generalizing X n with
  | ret x => exact (hg x h).mono subset_rfl (by omega)
  | load i k ih => exact fun c hc => ih c (h c hc) hg
  | intern c k ih =>
    rcases h with ⟨h1, h2⟩ | ⟨n', rfl, h2⟩
    · exact .inl ⟨h1, fun i hi => ih i (h2 i hi) hg⟩
    · refine .inr ⟨n' + m, by omega, fun i hi => ih i (h2 i hi) fun x hx => (hg x hx).mono (Finset.subset_insert _ _) le_rfl⟩
  | panic => trivial
  | spin => trivial

theorem Pays.visits {p : Prog K L α} {X : Finset (Cell K L)} {n : Nat} (h : Pays b Q p X n) :
    ∃ Y : Finset (Cell K L), Y.card ≤ n ∧ ∀ c, Visits b c p → c ∈ X ∪ Y := by
  induction p generalizing X n with
  | ret x => exact ⟨∅, by simp, fun c hc => by cases hc⟩
  | load i k ih =>
    cases hb : b.getById i with
    | none =>
      refine ⟨∅, by simp, fun c hc => ?_⟩
      cases hc with | load h1 _ => rw [hb] at h1; cases h1
    | some d =>
      obtain ⟨Y, h1, h2⟩ := ih d (h d hb)
      refine ⟨Y, h1, fun c hc => ?_⟩
      cases hc with
      | load h3 h4 => rw [hb] at h3; cases h3; exact h2 c h4
  | intern d k ih =>
    cases hb : b.getByNode d with
    | none =>
      have key : ∀ c, Visits b c (.intern d k) → c = d := by
        intro c hc
        cases hc with
        | here => rfl
        | intern h1 _ => rw [hb] at h1; cases h1
      rcases h with ⟨h1, h2⟩ | ⟨n', rfl, h2⟩
      · exact ⟨∅, by simp, fun c hc => by rw [key c hc]; exact Finset.mem_union_left _ h1⟩
      · exact ⟨{d}, by simp, fun c hc => by rw [key c hc]; simp⟩
    | some i =>
      have key : ∀ c, Visits b c (.intern d k) → c = d ∨ Visits b c (k i) := by
        intro c hc
        cases hc with
        | here => exact .inl rfl
        | intern h1 h3 => rw [hb] at h1; cases h1; exact .inr h3
      rcases h with ⟨h1, h2⟩ | ⟨n', rfl, h2⟩
      · obtain ⟨Y, h3, h4⟩ := ih i (h2 i hb)
        refine ⟨Y, h3, fun c hc => ?_⟩
        rcases key c hc with rfl | hc
        · exact Finset.mem_union_left _ h1
        · exact h4 c hc
      · obtain ⟨Y, h3, h4⟩ := ih i (h2 i hb)
        refine ⟨insert d Y, (Finset.card_insert_le _ _).trans (by omega), fun c hc => ?_⟩
        rcases key c hc with rfl | hc
        · simp
        · have := h4 c hc
          simp only [Finset.mem_union, Finset.mem_insert] at this ⊢
          tauto
  | panic => exact ⟨∅, by simp, fun c hc => by cases hc⟩
  | spin => exact ⟨∅, by simp, fun c hc => by cases hc⟩

/-- If every started thread converts at most `n t` different nodes, the arena grows by at most their sum. -/
theorem pays_growth {α : Nat → Type w} {m m' : Machine K L α} (h : MRun m m') (hI : m.arena.Inv) (S : Finset Nat)
    (n : Nat → Nat) (idle : ∀ t, t ∉ S → m'.threads t = m.threads t)
    (busy : ∀ t ∈ S, ∃ p, m.threads t = .run p ∧ Pays m'.arena (fun _ => True) p ∅ (n t)) :
    m'.arena.nodes.length ≤ m.arena.nodes.length + ∑ t ∈ S, n t := by
  classical
  have he := mrun_ext h hI
  have key : ∀ t, ∃ X : Finset (Cell K L), t ∈ S → X.card ≤ n t ∧ ∀ c, VisitsT m'.arena c (m.threads t) → c ∈ X := by
    intro t
    by_cases ht : t ∈ S
    · obtain ⟨p, hp, hc⟩ := busy t ht
      obtain ⟨Y, h1, h2⟩ := hc.visits
      refine ⟨Y, fun _ => ⟨h1, fun c hv => ?_⟩⟩
      rw [hp] at hv
      simpa using h2 c hv
    · exact ⟨∅, fun h => absurd h ht⟩
  choose X hX using key
  have new : ∀ i c, m'.arena.getById i = some c → m.arena.getById i = some c ∨ c ∈ S.biUnion X := by
    intro i c hc
    rcases mrun_new h hI hc with h0 | ⟨t, ht, hv⟩
    · exact .inl h0
    · have hs : t ∈ S := by by_contra hn; exact ht (idle t hn)
      exact .inr (Finset.mem_biUnion.2 ⟨t, hs, (hX t hs).2 c hv⟩)
  have key : ∀ i, i < m'.arena.nodes.length - m.arena.nodes.length →
      ∃ c ∈ S.biUnion X, m'.arena.getById (m.arena.nodes.length + i) = some c := by
    intro i hi
    have hlt : m.arena.nodes.length + i < m'.arena.nodes.length := by omega
    have hc : m'.arena.getById (m.arena.nodes.length + i) = some (m'.arena.nodes[m.arena.nodes.length + i]) := by
      rw [Arena.getById]; exact List.getElem?_eq_getElem hlt
    rcases new _ _ hc with h0 | h0
    · rw [Arena.getById, List.getElem?_eq_none (by omega)] at h0; cases h0
    · exact ⟨_, h0, hc⟩
  choose g hg1 hg2 using key
  have c1 : (Finset.univ : Finset (Fin (m'.arena.nodes.length - m.arena.nodes.length))).card ≤ (S.biUnion X).card := by
    refine Finset.card_le_card_of_injOn (fun i => g i.1 i.2) (fun i _ => hg1 _ _) ?_
    intro i _ j _ e
    have h1 := hg2 i.1 i.2
    dsimp only at e
    rw [e] at h1
    have h2 := (he.right.index _ _).2 h1
    rw [(he.right.index _ _).2 (hg2 j.1 j.2)] at h2
    have := Option.some.inj h2
    exact Fin.ext (by omega)
  rw [Finset.card_univ, Fintype.card_fin] at c1
  have h2 : (S.biUnion X).card ≤ ∑ t ∈ S, (X t).card := Finset.card_biUnion_le
  have h3 : ∑ t ∈ S, (X t).card ≤ ∑ t ∈ S, n t := Finset.sum_le_sum fun t ht => (hX t ht).1
  omega

end Verif.Arena

namespace Verif.ArenaZdd2
open Verif Verif.Arena Verif.Zdd2 Node

universe u v w v' w'

/-- In the arena, the program goes along with the counted computation: its result stands for the value, and it converts at
most two different nodes for every call, and `e` more.  Not code: used to state or prove properties. -/
def Follows {α : Type v} {β : Type w} (b : Arena Nat Bool) (D : α → β → Prop) (e : Nat) (t : Ticked β)
    (p : Prog Nat Bool α) : Prop := ∀ X, Pays b (fun r => D r t.val) p X (2 * t.calls + e)

/-- The node stands for the diagram.  Not code: used to state or prove properties. -/
def Stands (b : Arena Nat Bool) (c : C) (x : Node) : Prop := CellDen b c (tr x)

section
variable {α : Type v} {α' : Type v'} {β : Type w} {β' : Type w'} {b : Arena Nat Bool} {D : α → β → Prop} {D' : α' → β' → Prop}

theorem Follows.bind {e e' : Nat} {t : Ticked β} {k : β → Ticked β'} {p : Prog Nat Bool α} {g : α → Prog Nat Bool α'}
    (h : Follows b D e t p) (hg : ∀ r, D r t.val → Follows b D' e' (k t.val) (g r)) :
    Follows b D' (e + e') (t.bind k) (p.bind g) := by
  intro X
  have := (h X).bind (m := 2 * (k t.val).calls + e') fun x hx => hg x hx X
  exact this.mono subset_rfl (by rw [Ticked.bind_calls]; omega)

theorem Follows.map {e : Nat} {t : Ticked β} {k : β → β'} {p : Prog Nat Bool α} {g : α → α'}
    (h : Follows b D e t p) (hg : ∀ r, D r t.val → D' (g r) (k t.val)) :
    Follows b D' e (t.map k) (p.bind fun r => .ret (g r)) := by
  intro X
  have := (h X).bind (m := 0) (R := fun r => D' r (t.map k).val) (g := fun r => .ret (g r)) fun x hx => hg x hx
  exact this.mono subset_rfl (by rw [Ticked.map_calls]; omega)

theorem Follows.ret {e : Nat} {r : α} {x : β} (h : D r x) : Follows b D e (Ticked.ret x) (.ret r) := fun _ => h

theorem Follows.call {e : Nat} {t : Ticked β} {p : Prog Nat Bool α} (h : Follows b D e t p) : Follows b D e t.call p :=
  fun X => (h X).mono subset_rfl (by rw [Ticked.call_calls]; omega)

theorem Follows.weaken {e e' : Nat} {t : Ticked β} {p : Prog Nat Bool α} (h : Follows b D e t p) (he : e ≤ e') :
    Follows b D e' t p := fun X => (h X).mono subset_rfl (by omega)

theorem Follows.load {e : Nat} {t : Ticked β} {i : Nat} {x : Node} {k : C → Prog Nat Bool α} (hu : Unfolds b i (tr x))
    (h : ∀ c, Stands b c x → Follows b D e t (k c)) : Follows b D e t (.load i k) := by
  intro X c hc
  obtain ⟨c', h1, h2⟩ := unfolds_iff.1 hu
  rw [hc] at h1
  cases h1
  exact h c h2 X

theorem Follows.intern (hI : b.Inv) {e : Nat} {t : Ticked β} {c : C} {x : Node} {k : Nat → Prog Nat Bool α}
    (hc : Stands b c x) (h : ∀ i, Unfolds b i (tr x) → Follows b D e t (k i)) : Follows b D (e + 1) t (.intern c k) := by
  intro X
  refine .inr ⟨2 * t.calls + e, by omega, fun i hi => h i (unfolds_iff.2 ⟨c, (hI.index _ _).1 hi, hc⟩) _⟩

end

theorem pays_arg {α : Type v} {b : Arena Nat Bool} (hI : b.Inv) {Q : α → Prop} {x : Arg Nat Bool} {t : Tr Nat Bool}
    {k : C → Prog Nat Bool α} {X : Finset C} {n : Nat} (hx : ArgDen b x t)
    (h : ∀ c, CellDen b c t → Pays b Q (k c) (insert c X) n) :
    Pays b Q (x.into fun i => .load i k) X (n + 1) := by
  cases x with
  | id i =>
    intro c hc
    obtain ⟨c', h1, h2⟩ := unfolds_iff.1 hx
    rw [hc] at h1
    cases h1
    exact (h c h2).drop
  | node c =>
    refine .inr ⟨n, rfl, fun i hi d hd => ?_⟩
    have := hd.symm.trans ((hI.index _ _).1 hi)
    cases this
    exact h c hx

theorem start_follows {b : Arena Nat Bool} (hI : b.Inv) {id : Nat} {low high : Node} {t : Ticked Node}
    (h : ∀ f lc hc, Stands b lc low → Stands b hc high → ∀ X, lc ∈ X → hc ∈ X →
      Pays b (fun r => Stands b r t.val) (branchBody (branchP f) id lc hc) X (2 * t.calls)) (f : Nat) {x y : Arg Nat Bool}
    (hx : ArgDen b x (tr low)) (hy : ArgDen b y (tr high)) : Follows b (Stands b) 0 t.call (branchP f id x y) := by
  intro X
  cases f with
  | zero => trivial
  | succ f =>
    rw [branchP]
    have e : 2 * t.call.calls + 0 = 2 * t.calls + 1 + 1 := by rw [Ticked.call_calls]; omega
    rw [e]
    refine pays_arg hI hx fun lc hl => pays_arg hI hy fun hc hh => ?_
    exact h f lc hc hl hh _ (by simp) (by simp)

theorem plain_pays {b : Arena Nat Bool} (hI : b.Inv) {id : Nat} {low high : Node} {lc hc : C} {X : Finset C} {n : Nat}
    (hl : Stands b lc low) (hh : Stands b hc high) (h1 : lc ∈ X) (h2 : hc ∈ X) :
    Pays b (fun r => Stands b r (.Branch id low high))
      (.intern lc fun lo => .intern hc fun hi => .ret (.branch id lo hi) : P) X n := by
  refine .inl ⟨h1, fun i hi => .inl ⟨h2, fun j hj => ?_⟩⟩
  exact ⟨_, _, rfl, unfolds_iff.2 ⟨_, (hI.index _ _).1 hi, hl⟩, unfolds_iff.2 ⟨_, (hI.index _ _).1 hj, hh⟩⟩

/-- The recursive calls of `branch`.  Not code: used to state or prove properties. -/
def BranchFollows (b : Arena Nat Bool) (id : Nat) (low high : Node) (t : Ticked Node) : Prop :=
  ∀ (f : Nat) {x y : Arg Nat Bool}, ArgDen b x (tr low) → ArgDen b y (tr high) →
    Follows b (Stands b) 0 t (branchP f id x y)

theorem branch_follows {b : Arena Nat Bool} (hI : b.Inv) (id : Nat) (low high : Node) :
    BranchFollows b id low high (branchT id low high) := by
  fun_induction Node.branch id low high with
  | case1 id low =>
    rw [show branchT id low .Never = .call (.ret low) by rw [branchT.eq_def]]
    refine @start_follows b hI _ _ _ _ fun f lc hc hl hh X _ _ => ?_
    obtain rfl := CellDen.leaf_inv hh
    exact hl
  | case2 id hId hLow hHigh lId lLow lHigh h ih1 ih2 ih3 =>
    rw [show branchT id (.Branch lId lLow lHigh) (.Branch hId hLow hHigh) = .call ((branchT id lLow hLow).bind fun low =>
      (branchT id lHigh hHigh).bind fun high => branchT hId low high) by rw [branchT.eq_def]; simp [h]]
    refine @start_follows b hI _ _ _ _ fun f lc hc hl hh X _ _ => ?_
    obtain ⟨ll, lh, rfl, ul, uh⟩ := CellDen.branch_inv hl
    obtain ⟨hl', hh', rfl, vl, vh⟩ := CellDen.branch_inv hh
    simp only [branchBody, h, and_self, if_true]
    refine ((ih1 f (.id ul) (.id vl)).bind (e' := 0) (D' := Stands b) fun c1 d1 => (ih2 f (.id uh) (.id vh)).bind (e' := 0) fun c2 d2 => ?_) X
    rw [branchT_val] at d1 d2
    rw [branchT_val, branchT_val]
    exact ih3 f (.node d1) (.node d2)
  | case3 id hId hLow hHigh lId lLow lHigh hn h ih1 ih2 =>
    rw [show branchT id (.Branch lId lLow lHigh) (.Branch hId hLow hHigh) = .call ((branchT id hLow hHigh).bind fun high =>
      branchT hId (.Branch lId lLow lHigh) high) by rw [branchT.eq_def]; simp only [if_neg hn, if_pos h]]
    refine @start_follows b hI _ _ _ _ fun f lc hc hl hh X _ _ => ?_
    obtain ⟨ll, lh, rfl, ul, uh⟩ := CellDen.branch_inv hl
    obtain ⟨hl', hh', rfl, vl, vh⟩ := CellDen.branch_inv hh
    simp only [branchBody, if_neg hn, if_pos h]
    refine ((ih1 f (.id vl) (.id vh)).bind (e' := 0) (D' := Stands b) fun c1 d1 => ?_) X
    rw [branchT_val] at d1
    rw [branchT_val]
    exact ih2 f (.node hl) (.node d1)
  | case4 id hId hLow hHigh lId lLow lHigh hn h h' ih1 ih2 =>
    rw [show branchT id (.Branch lId lLow lHigh) (.Branch hId hLow hHigh) = .call
      ((branchT id lLow (.Branch hId hLow hHigh)).bind fun low => branchT lId low lHigh) by
        rw [branchT.eq_def]; simp only [if_neg hn, if_neg h, if_pos h']]
    refine @start_follows b hI _ _ _ _ fun f lc hc hl hh X _ _ => ?_
    obtain ⟨ll, lh, rfl, ul, uh⟩ := CellDen.branch_inv hl
    obtain ⟨hl', hh', rfl, vl, vh⟩ := CellDen.branch_inv hh
    simp only [branchBody, if_neg hn, if_neg h, if_pos h']
    refine ((ih1 f (.id ul) (.node hh)).bind (e' := 0) (D' := Stands b) fun c1 d1 => ?_) X
    rw [branchT_val] at d1
    rw [branchT_val]
    exact ih2 f (.node d1) (.id uh)
  | case5 hId hLow hHigh lId lLow lHigh hn h h' ih1 =>
    rw [show branchT hId (.Branch lId lLow lHigh) (.Branch hId hLow hHigh) = .call (branchT hId (.Branch lId lLow lHigh) hHigh) by
        rw [branchT.eq_def]; simp only [if_neg hn, if_neg h, if_neg h', if_true]]
    refine @start_follows b hI _ _ _ _ fun f lc hc hl hh X _ _ => ?_
    obtain ⟨ll, lh, rfl, ul, uh⟩ := CellDen.branch_inv hl
    obtain ⟨hl', hh', rfl, vl, vh⟩ := CellDen.branch_inv hh
    simp only [branchBody, if_neg hn, if_neg h, if_neg h', if_true]
    exact ih1 f (.node hl) (.id vh) X
  | case6 hId hLow hHigh lId lLow lHigh hn h h' h'' ih1 =>
    rw [show branchT lId (.Branch lId lLow lHigh) (.Branch hId hLow hHigh) = .call (branchT lId lLow (.Branch hId hLow hHigh)) by
        rw [branchT.eq_def]; simp only [if_neg hn, if_neg h, if_neg h', if_neg h'', if_true]]
    refine @start_follows b hI _ _ _ _ fun f lc hc hl hh X _ _ => ?_
    obtain ⟨ll, lh, rfl, ul, uh⟩ := CellDen.branch_inv hl
    obtain ⟨hl', hh', rfl, vl, vh⟩ := CellDen.branch_inv hh
    simp only [branchBody, if_neg hn, if_neg h, if_neg h', if_neg h'', if_true]
    exact ih1 f (.id ul) (.node hh) X
  | case7 id hId hLow hHigh lId lLow lHigh hn h h' h'' h3 =>
    rw [show branchT id (.Branch lId lLow lHigh) (.Branch hId hLow hHigh) =
      .call (.ret (.Branch id (.Branch lId lLow lHigh) (.Branch hId hLow hHigh))) by
        rw [branchT.eq_def]; simp only [if_neg hn, if_neg h, if_neg h', if_neg h'', if_neg h3]]
    refine @start_follows b hI _ _ _ _ fun f lc hc hl hh X m1 m2 => ?_
    obtain ⟨ll, lh, rfl, ul, uh⟩ := CellDen.branch_inv hl
    obtain ⟨hl', hh', rfl, vl, vh⟩ := CellDen.branch_inv hh
    simp only [branchBody, if_neg hn, if_neg h, if_neg h', if_neg h'', if_neg h3]
    exact plain_pays hI hl hh m1 m2
  | case8 id hId hLow hHigh low hb h ih1 ih2 =>
    rw [show branchT id low (.Branch hId hLow hHigh) = .call ((branchT id hLow hHigh).bind fun high =>
      branchT hId low high) by rw [branchT.eq_def]; cases low <;> simp_all]
    refine @start_follows b hI _ _ _ _ fun f lc hc hl hh X _ _ => ?_
    obtain ⟨v, rfl⟩ := leaf_of hb hl
    obtain ⟨hl', hh', rfl, vl, vh⟩ := CellDen.branch_inv hh
    simp only [branchBody, if_pos h]
    refine ((ih1 f (.id vl) (.id vh)).bind (e' := 0) (D' := Stands b) fun c1 d1 => ?_) X
    rw [branchT_val] at d1
    rw [branchT_val]
    exact ih2 f (.node hl) (.node d1)
  | case9 hId hLow hHigh low hb h ih1 =>
    rw [show branchT hId low (.Branch hId hLow hHigh) = .call (branchT hId low hHigh) by
      rw [branchT.eq_def]; cases low <;> simp_all]
    refine @start_follows b hI _ _ _ _ fun f lc hc hl hh X _ _ => ?_
    obtain ⟨v, rfl⟩ := leaf_of hb hl
    obtain ⟨hl', hh', rfl, vl, vh⟩ := CellDen.branch_inv hh
    simp only [branchBody, if_neg h, if_true]
    exact ih1 f (.node hl) (.id vh) X
  | case10 id hId hLow hHigh low hb h h' =>
    rw [show branchT id low (.Branch hId hLow hHigh) = .call (.ret (.Branch id low (.Branch hId hLow hHigh))) by
      rw [branchT.eq_def]; cases low <;> first | exact (hb _ _ _ rfl).elim | simp only [if_neg h, if_neg h']]
    refine @start_follows b hI _ _ _ _ fun f lc hc hl hh X m1 m2 => ?_
    obtain ⟨v, rfl⟩ := leaf_of hb hl
    obtain ⟨hl', hh', rfl, vl, vh⟩ := CellDen.branch_inv hh
    simp only [branchBody, if_neg h, if_neg h']
    exact plain_pays hI hl hh m1 m2
  | case11 id lId lLow lHigh h ih1 ih2 =>
    rw [show branchT id (.Branch lId lLow lHigh) .Always = .call ((branchT id lLow .Always).bind fun low =>
      branchT lId low lHigh) by rw [branchT.eq_def]; simp only [if_pos h]]
    refine @start_follows b hI _ _ _ _ fun f lc hc hl hh X _ _ => ?_
    obtain ⟨ll, lh, rfl, ul, uh⟩ := CellDen.branch_inv hl
    obtain rfl := CellDen.leaf_inv hh
    simp only [branchBody, if_pos h]
    refine ((ih1 f (.id ul) (.node hh)).bind (e' := 0) (D' := Stands b) fun c1 d1 => ?_) X
    rw [branchT_val] at d1
    rw [branchT_val]
    exact ih2 f (.node d1) (.id uh)
  | case12 lId lLow lHigh h ih1 =>
    rw [show branchT lId (.Branch lId lLow lHigh) .Always = .call (branchT lId lLow .Always) by
      rw [branchT.eq_def]; simp only [if_neg h, if_true]]
    refine @start_follows b hI _ _ _ _ fun f lc hc hl hh X _ _ => ?_
    obtain ⟨ll, lh, rfl, ul, uh⟩ := CellDen.branch_inv hl
    obtain rfl := CellDen.leaf_inv hh
    simp only [branchBody, if_neg h, if_true]
    exact ih1 f (.id ul) (.node hh) X
  | case13 id lId lLow lHigh h h' =>
    rw [show branchT id (.Branch lId lLow lHigh) .Always = .call (.ret (.Branch id (.Branch lId lLow lHigh) .Always)) by
      rw [branchT.eq_def]; simp only [if_neg h, if_neg h']]
    refine @start_follows b hI _ _ _ _ fun f lc hc hl hh X m1 m2 => ?_
    obtain ⟨ll, lh, rfl, ul, uh⟩ := CellDen.branch_inv hl
    obtain rfl := CellDen.leaf_inv hh
    simp only [branchBody, if_neg h, if_neg h']
    exact plain_pays hI hl hh m1 m2
  | case14 id low hb =>
    rw [show branchT id low .Always = .call (.ret (.Branch id low .Always)) by
      rw [branchT.eq_def]; cases low <;> simp_all]
    refine @start_follows b hI _ _ _ _ fun f lc hc hl hh X m1 m2 => ?_
    obtain ⟨v, rfl⟩ := leaf_of hb hl
    obtain rfl := CellDen.leaf_inv hh
    simp only [branchBody]
    exact plain_pays hI hl hh m1 m2

/-! ## Binary operations -/

/-- An operation on two nodes goes along with its counted version.  Not code: used to state or prove properties. -/
def OpFollows (op : Nat → C → C → P) (opT : Node → Node → Ticked Node) : Prop :=
  ∀ (b : Arena Nat Bool), b.Inv → ∀ (x y : Node) (f : Nat) (c d : C), Stands b c x → Stands b d y →
    Follows b (Stands b) 0 (opT x y) (op f c d)

theorem union_follows : OpFollows unionP unionT := by
  intro b hI x y
  fun_induction Node.union x y with
  | case1 n =>
    intro f c d hc hd
    rw [show unionT n n = .call (.ret n) by rw [unionT.eq_def]; simp]
    cases f with
    | zero => exact fun _ => trivial
    | succ f => rw [unionP, if_pos (cell_eq hI hc hd)]; exact .call (.ret hc)
  | case2 n hne =>
    intro f c d hc hd
    rw [show unionT n .Never = .call (.ret n) by rw [unionT.eq_def]; simp [hne]]
    cases f with
    | zero => exact fun _ => trivial
    | succ f =>
      rw [unionP, if_neg (cell_ne hI hc hd hne)]
      obtain rfl := CellDen.leaf_inv hd
      exact .call (.ret hc)
  | case3 m h1 hne =>
    intro f c d hc hd
    rw [show unionT .Never m = .call (.ret m) by rw [unionT.eq_def]; cases m <;> simp_all]
    cases f with
    | zero => exact fun _ => trivial
    | succ f =>
      rw [unionP, if_neg (cell_ne hI hc hd hne)]
      obtain rfl := CellDen.leaf_inv hc
      cases d with
      | leaf v => cases v <;> exact .call (.ret hd)
      | branch i l h => exact .call (.ret hd)
  | case4 h => exact absurd rfl h
  | case5 i l h hne ih =>
    intro f c d hc hd
    rw [show unionT (.Branch i l h) .Always = .call ((unionT l .Always).bind fun low => branchT i low h) by
      rw [unionT.eq_def]; simp]
    cases f with
    | zero => exact fun _ => trivial
    | succ f =>
      rw [unionP, if_neg (cell_ne hI hc hd hne)]
      obtain rfl := CellDen.leaf_inv hd
      obtain ⟨lo, hi, rfl, ul, uh⟩ := CellDen.branch_inv hc
      exact .call (.load ul fun c1 d1 => (ih f _ _ d1 hd).bind (e' := 0) fun r q => .load uh fun c2 d2 =>
        branch_follows hI _ _ _ f (.node q) (.node d2))
  | case6 i l h hne ih =>
    intro f c d hc hd
    rw [show unionT .Always (.Branch i l h) = .call ((unionT .Always l).bind fun low => branchT i low h) by
      rw [unionT.eq_def]; simp]
    cases f with
    | zero => exact fun _ => trivial
    | succ f =>
      rw [unionP, if_neg (cell_ne hI hc hd hne)]
      obtain rfl := CellDen.leaf_inv hc
      obtain ⟨lo, hi, rfl, ul, uh⟩ := CellDen.branch_inv hd
      exact .call (.load ul fun c1 d1 => (ih f _ _ hc d1).bind (e' := 0) fun r q => .load uh fun c2 d2 =>
        branch_follows hI _ _ _ f (.node q) (.node d2))
  | case7 i l h j l' h' hlt hne ih =>
    intro f c d hc hd
    rw [show unionT (.Branch i l h) (.Branch j l' h') = .call ((unionT l (.Branch j l' h')).bind fun low => branchT i low h) by
      rw [unionT.eq_def]; simp only [if_neg hne, if_pos hlt]]
    cases f with
    | zero => exact fun _ => trivial
    | succ f =>
      rw [unionP, if_neg (cell_ne hI hc hd hne)]
      obtain ⟨lo, hi, rfl, ul, uh⟩ := CellDen.branch_inv hc
      obtain ⟨lo', hi', rfl, ul', uh'⟩ := CellDen.branch_inv hd
      simp only [unionBody, if_pos hlt]
      exact .call (.load ul fun c1 d1 => (ih f _ _ d1 hd).bind (e' := 0) fun r q => .load uh fun c2 d2 =>
        branch_follows hI _ _ _ f (.node q) (.node d2))
  | case8 i l h j l' h' hlt hgt hne ih =>
    intro f c d hc hd
    rw [show unionT (.Branch i l h) (.Branch j l' h') = .call ((unionT (.Branch i l h) l').bind fun low => branchT j low h') by
      rw [unionT.eq_def]; simp only [if_neg hne, if_neg hlt, if_pos hgt]]
    cases f with
    | zero => exact fun _ => trivial
    | succ f =>
      rw [unionP, if_neg (cell_ne hI hc hd hne)]
      obtain ⟨lo, hi, rfl, ul, uh⟩ := CellDen.branch_inv hc
      obtain ⟨lo', hi', rfl, ul', uh'⟩ := CellDen.branch_inv hd
      simp only [unionBody, if_neg hlt, if_pos hgt]
      exact .call (.load ul' fun c1 d1 => (ih f _ _ hc d1).bind (e' := 0) fun r q => .load uh' fun c2 d2 =>
        branch_follows hI _ _ _ f (.node q) (.node d2))
  | case9 i l h j l' h' hlt hgt hne ih1 ih2 =>
    intro f c d hc hd
    rw [show unionT (.Branch i l h) (.Branch j l' h') = .call ((unionT l l').bind fun low => (unionT h h').bind fun high =>
      branchT i low high) by rw [unionT.eq_def]; simp only [if_neg hne, if_neg hlt, if_neg hgt]]
    cases f with
    | zero => exact fun _ => trivial
    | succ f =>
      rw [unionP, if_neg (cell_ne hI hc hd hne)]
      obtain ⟨lo, hi, rfl, ul, uh⟩ := CellDen.branch_inv hc
      obtain ⟨lo', hi', rfl, ul', uh'⟩ := CellDen.branch_inv hd
      simp only [unionBody, if_neg hlt, if_neg hgt]
      exact .call (.load ul fun c1 d1 => .load ul' fun c2 d2 => (ih1 f _ _ d1 d2).bind (e' := 0) fun r q => .load uh fun c3 d3 =>
        .load uh' fun c4 d4 => (ih2 f _ _ d3 d4).bind (e' := 0) fun r' q' => branch_follows hI _ _ _ f (.node q) (.node q'))

theorem intersect_follows : OpFollows intersectP intersectT := by
  intro b hI x y
  fun_induction Node.intersect x y with
  | case1 n =>
    intro f c d hc hd
    rw [show intersectT n n = .call (.ret n) by rw [intersectT.eq_def]; simp]
    cases f with
    | zero => exact fun _ => trivial
    | succ f => rw [intersectP, if_pos (cell_eq hI hc hd)]; exact .call (.ret hc)
  | case2 n hne =>
    intro f c d hc hd
    rw [show intersectT n .Always = .call (.ret n) by rw [intersectT.eq_def]; simp [hne]]
    cases f with
    | zero => exact fun _ => trivial
    | succ f =>
      rw [intersectP, if_neg (cell_ne hI hc hd hne)]
      obtain rfl := CellDen.leaf_inv hd
      exact .call (.ret hc)
  | case3 m h1 hne =>
    intro f c d hc hd
    rw [show intersectT .Always m = .call (.ret m) by rw [intersectT.eq_def]; cases m <;> simp_all]
    cases f with
    | zero => exact fun _ => trivial
    | succ f =>
      rw [intersectP, if_neg (cell_ne hI hc hd hne)]
      obtain rfl := CellDen.leaf_inv hc
      cases d with
      | leaf v => cases v <;> exact .call (.ret hd)
      | branch i l h => exact .call (.ret hd)
  | case4 n h1 hne =>
    intro f c d hc hd
    rw [show intersectT n .Never = .call (.ret .Never) by rw [intersectT.eq_def]; cases n <;> simp_all]
    cases f with
    | zero => exact fun _ => trivial
    | succ f =>
      rw [intersectP, if_neg (cell_ne hI hc hd hne)]
      obtain rfl := CellDen.leaf_inv hd
      cases c with
      | leaf v => cases v <;> first | exact .call (.ret hd) | exact absurd rfl (cell_ne hI hc hd hne)
      | branch i l h => exact .call (.ret hd)
  | case5 m h1 h2 hne =>
    intro f c d hc hd
    rw [show intersectT .Never m = .call (.ret .Never) by rw [intersectT.eq_def]; cases m <;> simp_all]
    cases f with
    | zero => exact fun _ => trivial
    | succ f =>
      rw [intersectP, if_neg (cell_ne hI hc hd hne)]
      obtain rfl := CellDen.leaf_inv hc
      cases d with
      | leaf v => cases v <;> first | exact .call (.ret hc) | exact absurd rfl (cell_ne hI hc hd hne)
      | branch i l h => exact .call (.ret hc)
  | case6 i l h j l' h' hlt hne ih =>
    intro f c d hc hd
    rw [show intersectT (.Branch i l h) (.Branch j l' h') = .call (intersectT l (.Branch j l' h')) by
      rw [intersectT.eq_def]; simp only [if_neg hne, if_pos hlt]]
    cases f with
    | zero => exact fun _ => trivial
    | succ f =>
      rw [intersectP, if_neg (cell_ne hI hc hd hne)]
      obtain ⟨lo, hi, rfl, ul, uh⟩ := CellDen.branch_inv hc
      obtain ⟨lo', hi', rfl, ul', uh'⟩ := CellDen.branch_inv hd
      simp only [intersectBody, if_pos hlt]
      exact .call (Follows.load ul fun c1 d1 => ih f _ _ d1 hd)
  | case7 i l h j l' h' hlt hgt hne ih =>
    intro f c d hc hd
    rw [show intersectT (.Branch i l h) (.Branch j l' h') = .call (intersectT (.Branch i l h) l') by
      rw [intersectT.eq_def]; simp only [if_neg hne, if_neg hlt, if_pos hgt]]
    cases f with
    | zero => exact fun _ => trivial
    | succ f =>
      rw [intersectP, if_neg (cell_ne hI hc hd hne)]
      obtain ⟨lo, hi, rfl, ul, uh⟩ := CellDen.branch_inv hc
      obtain ⟨lo', hi', rfl, ul', uh'⟩ := CellDen.branch_inv hd
      simp only [intersectBody, if_neg hlt, if_pos hgt]
      exact .call (Follows.load ul' fun c1 d1 => ih f _ _ hc d1)
  | case8 i l h j l' h' hlt hgt hne ih1 ih2 =>
    intro f c d hc hd
    rw [show intersectT (.Branch i l h) (.Branch j l' h') = .call ((intersectT l l').bind fun low => (intersectT h h').bind fun high => branchT i low high) by
      rw [intersectT.eq_def]; simp only [if_neg hne, if_neg hlt, if_neg hgt]]
    cases f with
    | zero => exact fun _ => trivial
    | succ f =>
      rw [intersectP, if_neg (cell_ne hI hc hd hne)]
      obtain ⟨lo, hi, rfl, ul, uh⟩ := CellDen.branch_inv hc
      obtain ⟨lo', hi', rfl, ul', uh'⟩ := CellDen.branch_inv hd
      simp only [intersectBody, if_neg hlt, if_neg hgt]
      exact .call (Follows.load ul fun c1 d1 => .load ul' fun c2 d2 => (ih1 f _ _ d1 d2).bind (e' := 0) fun r q =>
        .load uh fun c3 d3 => .load uh' fun c4 d4 => (ih2 f _ _ d3 d4).bind (e' := 0) fun r' q' => branch_follows hI _ _ _ f (.node q) (.node q'))

theorem product_follows : OpFollows productP productT := by
  intro b hI x y
  fun_induction Node.product x y with
  | case1 n =>
    intro f c d hc hd
    rw [show productT n n = .call (.ret n) by rw [productT.eq_def]; simp]
    cases f with
    | zero => exact fun _ => trivial
    | succ f => rw [productP, if_pos (cell_eq hI hc hd)]; exact .call (.ret hc)
  | case2 n hne =>
    intro f c d hc hd
    rw [show productT n .Always = .call (.ret n) by rw [productT.eq_def]; simp [hne]]
    cases f with
    | zero => exact fun _ => trivial
    | succ f =>
      rw [productP, if_neg (cell_ne hI hc hd hne)]
      obtain rfl := CellDen.leaf_inv hd
      exact .call (.ret hc)
  | case3 m h1 hne =>
    intro f c d hc hd
    rw [show productT .Always m = .call (.ret m) by rw [productT.eq_def]; cases m <;> simp_all]
    cases f with
    | zero => exact fun _ => trivial
    | succ f =>
      rw [productP, if_neg (cell_ne hI hc hd hne)]
      obtain rfl := CellDen.leaf_inv hc
      cases d with
      | leaf v => cases v <;> exact .call (.ret hd)
      | branch i l h => exact .call (.ret hd)
  | case4 n h1 hne =>
    intro f c d hc hd
    rw [show productT n .Never = .call (.ret .Never) by rw [productT.eq_def]; cases n <;> simp_all]
    cases f with
    | zero => exact fun _ => trivial
    | succ f =>
      rw [productP, if_neg (cell_ne hI hc hd hne)]
      obtain rfl := CellDen.leaf_inv hd
      cases c with
      | leaf v => cases v <;> first | exact .call (.ret hd) | exact absurd rfl (cell_ne hI hc hd hne)
      | branch i l h => exact .call (.ret hd)
  | case5 m h1 h2 hne =>
    intro f c d hc hd
    rw [show productT .Never m = .call (.ret .Never) by rw [productT.eq_def]; cases m <;> simp_all]
    cases f with
    | zero => exact fun _ => trivial
    | succ f =>
      rw [productP, if_neg (cell_ne hI hc hd hne)]
      obtain rfl := CellDen.leaf_inv hc
      cases d with
      | leaf v => cases v <;> first | exact .call (.ret hc) | exact absurd rfl (cell_ne hI hc hd hne)
      | branch i l h => exact .call (.ret hc)
  | case6 i l h j l' h' hlt hne ih1 ih2 =>
    intro f c d hc hd
    rw [show productT (.Branch i l h) (.Branch j l' h') = .call ((productT l (.Branch j l' h')).bind fun low => (productT h (.Branch j l' h')).bind fun high =>
      branchT i low high) by
      rw [productT.eq_def]; simp only [if_neg hne, if_pos hlt]]
    cases f with
    | zero => exact fun _ => trivial
    | succ f =>
      rw [productP, if_neg (cell_ne hI hc hd hne)]
      obtain ⟨lo, hi, rfl, ul, uh⟩ := CellDen.branch_inv hc
      obtain ⟨lo', hi', rfl, ul', uh'⟩ := CellDen.branch_inv hd
      simp only [productBody, if_pos hlt]
      exact .call (Follows.load ul fun c1 d1 => (ih1 f _ _ d1 hd).bind (e' := 0) fun r q =>
        .load uh fun c2 d2 => (ih2 f _ _ d2 hd).bind (e' := 0) fun r' q' => branch_follows hI _ _ _ f (.node q) (.node q'))
  | case7 i l h j l' h' hlt hgt hne ih1 ih2 =>
    intro f c d hc hd
    rw [show productT (.Branch i l h) (.Branch j l' h') = .call ((productT (.Branch i l h) l').bind fun low => (productT (.Branch i l h) h').bind fun high =>
      branchT j low high) by
      rw [productT.eq_def]; simp only [if_neg hne, if_neg hlt, if_pos hgt]]
    cases f with
    | zero => exact fun _ => trivial
    | succ f =>
      rw [productP, if_neg (cell_ne hI hc hd hne)]
      obtain ⟨lo, hi, rfl, ul, uh⟩ := CellDen.branch_inv hc
      obtain ⟨lo', hi', rfl, ul', uh'⟩ := CellDen.branch_inv hd
      simp only [productBody, if_neg hlt, if_pos hgt]
      exact .call (Follows.load ul' fun c1 d1 => (ih1 f _ _ hc d1).bind (e' := 0) fun r q =>
        .load uh' fun c2 d2 => (ih2 f _ _ hc d2).bind (e' := 0) fun r' q' => branch_follows hI _ _ _ f (.node q) (.node q'))
  | case8 i l h j l' h' hlt hgt hne ih1 ih2 ih3 ih4 =>
    intro f c d hc hd
    rw [show productT (.Branch i l h) (.Branch j l' h') = .call ((productT l l').bind fun ll => (productT l h').bind fun lh => (productT h l').bind fun hl =>
      (productT h h').bind fun hh => (unionT hl hh).bind fun nh => (unionT lh nh).bind fun high => branchT i ll high) by
      rw [productT.eq_def]; simp only [if_neg hne, if_neg hlt, if_neg hgt]]
    cases f with
    | zero => exact fun _ => trivial
    | succ f =>
      rw [productP, if_neg (cell_ne hI hc hd hne)]
      obtain ⟨lo, hi, rfl, ul, uh⟩ := CellDen.branch_inv hc
      obtain ⟨lo', hi', rfl, ul', uh'⟩ := CellDen.branch_inv hd
      simp only [productBody, if_neg hlt, if_neg hgt]
      exact .call (Follows.load ul fun c1 d1 => .load ul' fun c2 d2 => (ih1 f _ _ d1 d2).bind (e' := 0) fun r q =>
        .load ul fun c1 d1 => .load uh' fun c2 d2 => (ih2 f _ _ d1 d2).bind (e' := 0) fun r2 q2 =>
        .load uh fun c1 d1 => .load ul' fun c2 d2 => (ih3 f _ _ d1 d2).bind (e' := 0) fun r3 q3 =>
        .load uh fun c1 d1 => .load uh' fun c2 d2 => (ih4 f _ _ d1 d2).bind (e' := 0) fun r4 q4 =>
        (union_follows b hI _ _ f _ _ q3 q4).bind (e' := 0) fun r5 q5 =>
        (union_follows b hI _ _ f _ _ q2 q5).bind (e' := 0) fun r6 q' => branch_follows hI _ _ _ f (.node q) (.node q'))

/-! ## Filters -/

/-- A node with a mark.  Not code: used to state or prove properties. -/
def Marked (b : Arena Nat Bool) (r : C × Bool) (x : Node × Bool) : Prop := Stands b r.1 x.1 ∧ r.2 = x.2

theorem reduce_marked {b : Arena Nat Bool} {r : C × Bool} {x : Node × Bool} (h : Marked b r x) :
    Marked b (reduceBranchC r) (reduceBranch x) := by
  unfold reduceBranchC reduceBranch
  rw [h.2]
  split_ifs
  · exact h
  · exact ⟨rfl, rfl⟩

theorem inner_follows {b : Arena Nat Bool} (hI : b.Inv) (h0 : Zero b) (x : Node) (e f : Nat) {c : C} (hc : Stands b c x) :
    Follows b (Marked b) 0 (subsetInnerT x e) (subsetInnerP f c e) := by
  induction x generalizing f c with
  | Always =>
    cases f with
    | zero => exact fun _ => trivial
    | succ f => obtain rfl := CellDen.leaf_inv hc; exact .call (.ret ⟨hc, rfl⟩)
  | Never =>
    cases f with
    | zero => exact fun _ => trivial
    | succ f => obtain rfl := CellDen.leaf_inv hc; exact .call (.ret ⟨hc, rfl⟩)
  | Branch i l h ihl ihh =>
    cases f with
    | zero => exact fun _ => trivial
    | succ f =>
      obtain ⟨lo, hi, rfl, ul, uh⟩ := CellDen.branch_inv hc
      rw [subsetInnerT, subsetInnerP, subsetInnerBody]
      split_ifs with he
      · exact .call ((branch_follows hI i .Never h f (.id h0) (.id uh)).map fun r hr => ⟨hr, rfl⟩)
      · exact .call (.load ul fun c1 d1 => (ihl f d1).bind (e' := 0) fun r1 q1 => .load uh fun c2 d2 =>
          (ihh f d2).bind (e' := 0) fun r2 q2 => (branch_follows hI i _ _ f (.node (reduce_marked q1).1)
            (.node (reduce_marked q2).1)).map fun r hr => ⟨hr, by rw [(reduce_marked q1).2, (reduce_marked q2).2]⟩)

theorem subset_follows {b : Arena Nat Bool} (hI : b.Inv) (h0 : Zero b) (x : Node) (e f : Nat) {c : C} (hc : Stands b c x) :
    Follows b (Stands b) 0 ((subsetInnerT x e).map Prod.fst) (subsetP f c e) :=
  (inner_follows hI h0 x e f hc).map fun r hr => hr.1

theorem subsetNot_follows {b : Arena Nat Bool} (hI : b.Inv) (x : Node) (e f : Nat) {c : C} (hc : Stands b c x) :
    Follows b (Stands b) 0 (subsetNotT x e) (subsetNotP f c e) := by
  induction x generalizing f c with
  | Always =>
    cases f with
    | zero => exact fun _ => trivial
    | succ f => obtain rfl := CellDen.leaf_inv hc; exact .call (.ret hc)
  | Never =>
    cases f with
    | zero => exact fun _ => trivial
    | succ f => obtain rfl := CellDen.leaf_inv hc; exact .call (.ret hc)
  | Branch i l h ihl ihh =>
    cases f with
    | zero => exact fun _ => trivial
    | succ f =>
      obtain ⟨lo, hi, rfl, ul, uh⟩ := CellDen.branch_inv hc
      rw [Node.subsetNotT, subsetNotP, subsetNotBody]
      split_ifs with he
      · exact .call (.load ul fun c1 d1 => .ret d1)
      · exact .call (.load ul fun c1 d1 => (ihl f d1).bind (e' := 0) fun r1 q1 => .load uh fun c2 d2 =>
          (ihh f d2).bind (e' := 0) fun r2 q2 => branch_follows hI i _ _ f (.node q1) (.node q2))

theorem fold_follows {β : Type v} {b : Arena Nat Bool} {step : C → β → P} {sT : Node → β → Ticked Node}
    (h : ∀ c x e, Stands b c x → Follows b (Stands b) 0 (sT x e) (step c e)) (es : List β) {c : C} {x : Node}
    (hc : Stands b c x) : Follows b (Stands b) 0 (Ticked.fold sT x es) (foldP step es c) := by
  induction es generalizing c x with
  | nil => exact .ret hc
  | cons e es ih => exact (h c x e hc).bind (e' := 0) fun r hr => ih hr

theorem subsetAll_follows {b : Arena Nat Bool} (hI : b.Inv) (h0 : Zero b) (x : Node) (es : List Nat) (f : Nat) {c : C}
    (hc : Stands b c x) : Follows b (Stands b) 0 (subsetAllT x es) (subsetAllP f c es) := by
  refine fold_follows (fun d y e hd => ?_) es rfl
  have : (subsetInnerT x e).bind (fun s => intersectT y s.1) =
      ((subsetInnerT x e).map Prod.fst).bind fun s => intersectT y s := rfl
  rw [this]
  exact (subset_follows hI h0 x e f hc).bind (e' := 0) fun r hr => intersect_follows b hI _ _ f _ _ hd hr

theorem subsetNone_follows {b : Arena Nat Bool} (hI : b.Inv) (x : Node) (es : List Nat) (f : Nat) {c : C}
    (hc : Stands b c x) : Follows b (Stands b) 0 (subsetNoneT x es) (subsetNoneP f c es) :=
  fold_follows (fun d y e hd => (subsetNot_follows hI x e f hc).bind (e' := 0) fun r hr =>
    intersect_follows b hI _ _ f _ _ hd hr) es rfl

/-! ## Listing -/

theorem loop_follows {b : Arena Nat Bool} (f : Nat) {q : List (C × List Nat)} {p : List (Node × List Nat)}
    (ts : List (List Nat)) (h : QueueDen b q p) (X : Finset C) :
    Pays b (fun r => r = treesLoop p ts) (treesLoopP f q ts) X 0 := by
  induction f generalizing q p ts with
  | zero => cases q <;> trivial
  | succ f ih =>
    cases h with
    | nil => rw [treesLoop]; exact rfl
    | @cons x n q p hx hq =>
      obtain ⟨c, path⟩ := x
      obtain ⟨n, path'⟩ := n
      obtain ⟨h1, h2⟩ := hx
      simp only at h1 h2
      subst path'
      cases n with
      | Always => obtain rfl := CellDen.leaf_inv h1; rw [treesLoop]; exact ih _ hq
      | Never => obtain rfl := CellDen.leaf_inv h1; rw [treesLoop]; exact ih _ hq
      | Branch i l h =>
        obtain ⟨lo, hi, rfl, ul, uh⟩ := CellDen.branch_inv h1
        rw [treesLoop]
        intro c1 e1 c2 e2
        obtain ⟨d1, g1, g2⟩ := unfolds_iff.1 ul
        obtain ⟨d2, g3, g4⟩ := unfolds_iff.1 uh
        rw [e1] at g1; cases g1
        rw [e2] at g3; cases g3
        exact ih _ (.cons ⟨g4, rfl⟩ (.cons ⟨g2, rfl⟩ hq))

theorem trees_follows {b : Arena Nat Bool} (f : Nat) {i : Nat} {x : Node} (h : Unfolds b i (tr x)) (X : Finset C) :
    Pays b (fun r => r = x.trees) (treesP f i) X 0 := by
  intro c hc
  obtain ⟨d, h1, h2⟩ := unfolds_iff.1 h
  rw [hc] at h1; cases h1
  exact loop_follows f [] (.cons ⟨h2, rfl⟩ .nil) X

/-! ## Forests -/

variable {T : Type u} [LinearOrder T]

/-- The value stands for the forest.  Not code: used to state or prove properties. -/
def Is (b : Arena Nat Bool) (r : ForestC T) (g : Forest T) : Prop := ForestDen g b r

/-- The value stands for the forest, which exists.  Not code: used to state or prove properties. -/
def Found {α : Type v} {β : Type w} (D : α → β → Prop) (r : α) (o : Option β) : Prop := ∃ g, o = some g ∧ D r g

theorem node_follows {b : Arena Nat Bool} (hI : b.Inv) (f : Nat) (univ : Universe T) (items : List T) :
    Follows b (Stands b) 0 (Forest.getPrioritiesNodeT univ items) (getPrioritiesNodeP f univ items) := by
  rw [Forest.getPrioritiesNodeT, getPrioritiesNodeP, fromIterT, fromIterP]
  split_ifs
  · exact .ret rfl
  · exact fold_follows (fun c x e hc => branch_follows hI e .Never x f (.node (show Stands b (.leaf false) .Never from rfl)) (.node hc)) _ rfl

theorem Follows.seal {b : Arena Nat Bool} (hI : b.Inv) {t : Ticked Node} {p : P} (univ : Universe T)
    (h : Follows b (Stands b) 0 t p) : Follows b (Is b) 1 (t.map fun root => (⟨root, univ⟩ : Forest T))
      (p.bind fun root => .intern root fun root => .ret ⟨root, univ⟩) := by
  have e : t.map (fun root => (⟨root, univ⟩ : Forest T)) = t.bind fun root => .ret ⟨root, univ⟩ := rfl
  rw [e]
  exact h.bind (e' := 1) fun r hr => .intern hI hr fun i hi => .ret ⟨hi, rfl⟩

theorem unit_follows {b : Arena Nat Bool} (hI : b.Inv) (f : Nat) (items : List T) :
    Follows b (Is b) 1 (Forest.unitT items) (unitP f items) := (node_follows hI f _ items).seal hI _

theorem many_follows {b : Arena Nat Bool} (hI : b.Inv) (f : Nat) (m : List (List T)) :
    Follows b (Is b) 1 (Forest.manyT m) (manyP f m) := by
  refine Follows.seal hI _ (fold_follows (fun c x e hc => ?_) m rfl)
  exact (node_follows hI f _ e).bind (e' := 0) fun r hr => union_follows b hI _ _ f _ _ hc hr

/-- `Forest::unique` with its calls counted: weave/src/zdd2/forest/mod.rs:81-89. -/
def uniqueT (set : List T) : Ticked (Forest T) :=
  (Ticked.fold (fun root item => branchT item root .Always) Node.Never ((Universe.fromItems set).getPriorities set)).map
    fun root => ⟨root, Universe.fromItems set⟩

theorem unique_follows {b : Arena Nat Bool} (hI : b.Inv) (f : Nat) (set : List T) :
    Follows b (Is b) 1 (uniqueT set) (uniqueP f set) :=
  Follows.seal hI _ (fold_follows (fun c x e hc => branch_follows hI e x .Always f (.node hc) (.node (show Stands b (.leaf true) .Always from rfl))) _ rfl)

theorem canonical_follows {b : Arena Nat Bool} (hI : b.Inv) (f : Nat) {c : C} {x : Node} (hc : Stands b c x)
    (univ : Universe T) : Follows b (Is b) 2 (Forest.canonicalT x univ) (canonicalP f c univ) := by
  rw [Forest.canonicalT, canonicalP]
  refine Follows.intern (e := 1) hI hc fun i hi X => ?_
  have h := (trees_follows f hi X).bind (m := 2 * (Forest.manyT (x.trees.map fun set => univ.getItems set)).calls + 1)
    (g := fun ts => manyP f (ts.map fun set => univ.getItems set))
    (R := fun r => Is b r (Forest.manyT (x.trees.map fun set => univ.getItems set)).val)
    (fun ts hts => by rw [hts]; exact many_follows hI f _ X)
  rw [Ticked.bind_val, Ticked.bind_calls, treesT_val]
  exact h.mono subset_rfl (by omega)

theorem translate_follows {b : Arena Nat Bool} (hI : b.Inv) (u u' : Universe T) (x : Node) (f : Nat) {c : C}
    (hc : Stands b c x) : Follows b (Found (Stands b)) 0 (Forest.translateRootT u u' x) (translateRootP f u u' c) := by
  induction x generalizing f c with
  | Always =>
    cases f with
    | zero => exact fun _ => trivial
    | succ f => obtain rfl := CellDen.leaf_inv hc; exact .call (.ret ⟨_, rfl, hc⟩)
  | Never =>
    cases f with
    | zero => exact fun _ => trivial
    | succ f => obtain rfl := CellDen.leaf_inv hc; exact .call (.ret ⟨_, rfl, hc⟩)
  | Branch i l h ihl ihh =>
    cases f with
    | zero => exact fun _ => trivial
    | succ f =>
      obtain ⟨lo, hi, rfl, ul, uh⟩ := CellDen.branch_inv hc
      rw [Forest.translateRootT, translateRootP, translateRootBody]
      refine .call (.load ul fun c1 d1 => (ihl f d1).bind (e' := 0) fun r1 q1 => .load uh fun c2 d2 =>
        (ihh f d2).bind (e' := 0) fun r2 q2 => ?_)
      obtain ⟨x1, e1, q1⟩ := q1
      obtain ⟨x2, e2, q2⟩ := q2
      rw [e1, e2]
      cases u.getItem i with
      | none => exact fun _ => trivial
      | some item =>
        dsimp only
        cases u'.getPriority item with
        | none => exact fun _ => trivial
        | some id =>
          intro X
          exact (branch_follows hI id x1 x2 f (.node q1) (.node q2) X).imp fun r hr => ⟨_, rfl, hr⟩

theorem binary_follows {op : Nat → C → C → P} {opT : Node → Node → Ticked Node} (ho : OpFollows op opT)
    {b : Arena Nat Bool} (hI : b.Inv) (f : Nat) {x y : ForestC T} {g h : Forest T} (hx : Is b x g) (hy : Is b y h) :
    Follows b (Found (Is b)) 2 (Forest.binaryT opT g h) (binaryP op f x y) := by
  rw [Forest.binaryT, binaryP, hx.2, hy.2]
  refine Follows.load hx.1 fun c1 d1 => .load hy.1 fun c2 d2 => ?_
  refine (translate_follows hI _ _ _ f d1).bind (e' := 2) fun r1 q1 => (translate_follows hI _ _ _ f d2).bind (e' := 2) fun r2 q2 => ?_
  obtain ⟨x1, e1, q1⟩ := q1
  obtain ⟨x2, e2, q2⟩ := q2
  rw [e1, e2]
  intro X
  have := ((ho b hI x1 x2 f _ _ q1 q2).bind (e' := 2) (D' := Is b) (k := fun r => Forest.canonicalT r (Universe.merge g.univ h.univ))
    (g := fun r => canonicalP f r (Universe.merge g.univ h.univ)) fun r hr => canonical_follows hI f hr _) X
  exact this.imp fun r hr => ⟨_, rfl, hr⟩

theorem forestSubset_follows {b : Arena Nat Bool} (hI : b.Inv) (h0 : Zero b) (f : Nat) {x : ForestC T} {g : Forest T}
    (hx : Is b x g) (e : T) : Follows b (Is b) 2 (g.subsetT e) (forestSubsetP f x e) := by
  rw [Forest.subsetT, forestSubsetP, hx.2]
  cases g.univ.getPriority e with
  | none => exact .ret ⟨h0, rfl⟩
  | some k =>
    refine Follows.load hx.1 fun c d => ?_
    exact (subset_follows hI h0 g.root k f d).bind (e' := 2) (k := fun r => Forest.canonicalT r g.univ) fun r hr =>
      canonical_follows hI f hr _

theorem forestSubsetNot_follows {b : Arena Nat Bool} (hI : b.Inv) (f : Nat) {x : ForestC T} {g : Forest T}
    (hx : Is b x g) (e : T) : Follows b (Is b) 2 (g.subsetNotT e) (forestSubsetNotP f x e) := by
  rw [Forest.subsetNotT, forestSubsetNotP, hx.2]
  cases g.univ.getPriority e with
  | none => exact .ret hx
  | some k =>
    refine Follows.load hx.1 fun c d => ?_
    exact (subsetNot_follows hI g.root k f d).bind (e' := 2) fun r hr => canonical_follows hI f hr _

theorem subsetMany_follows {b : Arena Nat Bool} (hI : b.Inv) (f : Nat) {x : ForestC T} {g : Forest T} (hx : Is b x g)
    (es : List T) {dflt : Forest T → Forest T} {dfltP : ForestC T → Prog Nat Bool (ForestC T)}
    {func : Nat → C → List Nat → P} {funcT : Node → List Nat → Ticked Node}
    (hd : Follows b (Is b) 2 (.ret (dflt g)) (dfltP x))
    (hf : ∀ c es, Stands b c g.root → Follows b (Stands b) 0 (funcT g.root es) (func f c es)) :
    Follows b (Is b) 2 (g.subsetManyT es dflt funcT) (subsetManyP f x es dfltP func) := by
  rw [Forest.subsetManyT, subsetManyP, hx.2]
  split_ifs
  · exact .ret hx
  · exact hd
  · refine Follows.load hx.1 fun c d => ?_
    exact (hf c _ d).bind (e' := 2) fun r hr => canonical_follows hI f hr _

theorem listing_follows {b : Arena Nat Bool} (f : Nat) {x : ForestC T} {g : Forest T} (hx : Is b x g) (X : Finset C) :
    Pays b (fun r => r = g.trees) (forestTreesP f x) X 0 := by
  have := (trees_follows f hx.1 X).bind (m := 0) (g := fun ts => Prog.ret (ts.map fun set => x.univ.getItems set))
    (R := fun r => r = g.trees) (fun ts hts => by show _ = _; rw [hts, hx.2]; rfl)
  exact this

/-! ## Bounds -/

/-- The different items of some lists.  Not code: used to state or prove properties. -/
def itemsOf (ts : List (List T)) : Finset T := ts.flatten.toFinset

theorem mem_itemsOf {ts : List (List T)} {x : T} : x ∈ itemsOf ts ↔ ∃ l ∈ ts, x ∈ l := by
  simp [itemsOf]

theorem itemsOf_family {ts : List (List T)} {x : T} : x ∈ itemsOf ts ↔ ∃ s ∈ Spec.family ts, x ∈ s := by
  rw [mem_itemsOf]
  constructor
  · rintro ⟨l, hl, hx⟩; exact ⟨l.toFinset, ⟨l, hl, rfl⟩, by simpa using hx⟩
  · rintro ⟨_, ⟨l, hl, rfl⟩, hx⟩; exact ⟨l, hl, by simpa using hx⟩

/-- Nodes `union` and `intersect` may add, for `m` and `n` members over `N` items.
Not code: used to state or prove properties. -/
def joinBound (N m n : Nat) : Nat := 42 * ((N + 1) * (m + n + 1)) ^ 2 + 2

/-- Nodes `product` may add.  Not code: used to state or prove properties. -/
def productBound (N m n : Nat) : Nat := 50 * (N + 1) ^ 3 * ((m + 1) * (n + 1)) ^ 2 + 2

/-- Nodes a filter for `L` elements may add.  Not code: used to state or prove properties. -/
def filterBound (L N m : Nat) : Nat := 16 * (L + 1) * ((N + 1) * (m + 1)) ^ 2 + 2

/-- Nodes building a forest of `k` lists of `s` items in all, `N` different, may add.
Not code: used to state or prove properties. -/
def buildBound (k N s : Nat) : Nat := 4 * k * (N + 1) * (s + k + 2) + 1

/-- Nodes `unit` and `unique` of `L` items, `N` different, may add.  Not code: used to state or prove properties. -/
def listBound (L N : Nat) : Nat := 4 * L * (N + 1) + 1

theorem index_items (set : List T) : (Universe.fromItems set).index.length ≤ (itemsOf [set]).card := by
  rw [Forest.fromItems_unit, ← Set.ncard_coe_finset]
  refine length_le_ncard (Universe.ok_fromMatrix _) (Finset.finite_toSet _) fun x hx => ?_
  rw [Finset.mem_coe, mem_itemsOf]
  exact (Universe.mem_index_matrix _ x).mp hx

theorem unit_bound (set : List T) : 2 * (Forest.unitT set).calls + 1 ≤ listBound set.length (itemsOf [set]).card := by
  have h := Forest.nodeT_calls (Universe.ok_fromItems set) set
  have := index_items set
  rw [Forest.unitT, Ticked.map_calls, listBound]
  have h2 : set.length * (2 * (Universe.fromItems set).index.length + 2) ≤ set.length * (2 * (itemsOf [set]).card + 2) := by gcongr
  have h3 : 4 * set.length * ((itemsOf [set]).card + 1) = 2 * (set.length * (2 * (itemsOf [set]).card + 2)) := by ring
  omega

theorem uniqueT_val (set : List T) : (uniqueT set).val = Forest.unique set := by
  rw [uniqueT, Ticked.map_val, Ticked.fold_val (g := fun root item => Node.branch item root .Always)
    (fun a b => branchT_val _ _ _)]
  rfl

theorem single_size {n : Node} {N : Nat} (o : n.Ordered) (h : ∀ s ∈ n.Den, ∃ a < N, s = {a}) : n.size ≤ 2 * N + 1 := by
  have h1 := size_le_occ o
  have len : ∀ p ∈ n.paths, p.length = 1 := by
    intro p hp
    obtain ⟨a, _, ha⟩ := h _ (mem_paths_den.2 ⟨p, hp, rfl⟩)
    rw [← List.toFinset_card_of_nodup ((paths_lt o hp).imp fun h => Nat.ne_of_lt h), ha, Finset.card_singleton]
  have h2 := sum_le_mul (n.paths.map List.length) 1 (by
    intro k hk
    obtain ⟨p, hp, rfl⟩ := List.mem_map.1 hk
    exact (len p hp).le)
  rw [List.length_map, ← count_paths, (count_den o).2] at h2
  have h3 : n.Den.ncard ≤ ((Finset.range N).image fun a => ({a} : Finset Nat)).card := by
    rw [← Set.ncard_coe_finset]
    refine Set.ncard_le_ncard (fun s hs => ?_) (Finset.finite_toSet _)
    obtain ⟨a, ha, rfl⟩ := h s hs
    simp only [Finset.mem_coe, Finset.mem_image, Finset.mem_range]
    exact ⟨a, ha, rfl⟩
  have h4 := Finset.card_image_le (s := Finset.range N) (f := fun a => ({a} : Finset Nat))
  rw [Finset.card_range] at h4
  omega

theorem unique_bound (set : List T) : 2 * (uniqueT set).calls + 1 ≤ listBound set.length (itemsOf [set]).card := by
  have hu := Universe.ok_fromItems set
  have hN := index_items set
  have h : (uniqueT set).calls ≤ ((Universe.fromItems set).getPriorities set).length * (2 * (itemsOf [set]).card + 2) := by
    rw [uniqueT, Ticked.map_calls]
    refine Ticked.fold_calls (fun a b => branchT_val _ _ _)
      (fun n => n.Ordered ∧ ∀ s ∈ n.Den, ∃ a < (itemsOf [set]).card, s = {a}) _ _ _ ?_ ⟨trivial, by simp [Node.Den]⟩
    rintro n i ⟨o, hn⟩ hm
    have hi : i < (itemsOf [set]).card := lt_of_lt_of_le (Forest.priorities_lt hu hm) hN
    have key := Node.unique_fold [i] n {a | {a} ∈ n.Den} o (by
      intro s
      constructor
      · intro hs
        obtain ⟨a, _, rfl⟩ := hn s hs
        exact ⟨a, hs, rfl⟩
      · rintro ⟨a, ha, rfl⟩; exact ha)
    simp only [List.foldl_cons, List.foldl_nil] at key
    refine ⟨⟨key.1, fun s hs => ?_⟩, ?_⟩
    · obtain ⟨a, ha, rfl⟩ := (key.2 s).1 hs
      rcases ha with ha | ha
      · obtain ⟨c, hc, e⟩ := hn _ ha
        exact ⟨c, hc, e⟩
      · rw [List.mem_singleton] at ha
        subst ha
        exact ⟨a, hi, rfl⟩
    · have c := branchT_calls (id := i) (high := .Always) o trivial
      have := single_size o hn
      simp only [Node.size] at c
      omega
  have h2 : ((Universe.fromItems set).getPriorities set).length ≤ set.length := List.length_filterMap_le _ _
  have h3 : ((Universe.fromItems set).getPriorities set).length * (2 * (itemsOf [set]).card + 2) ≤
      set.length * (2 * (itemsOf [set]).card + 2) := by gcongr
  rw [listBound]
  have h4 : 4 * set.length * ((itemsOf [set]).card + 1) = 2 * (set.length * (2 * (itemsOf [set]).card + 2)) := by ring
  omega

theorem many_bound (m : List (List T)) :
    2 * (Forest.manyT m).calls + 1 ≤ buildBound m.length (itemsOf m).card m.flatten.length := by
  have h := (many_calls m (itemsOf m) (fun x => mem_itemsOf) m.flatten.length (fun l hl => by
    rw [List.length_flatten]; exact List.le_sum_of_mem (List.mem_map_of_mem hl))).2.2
  have e : 4 * m.length * ((itemsOf m).card + 1) * (m.flatten.length + m.length + 2) =
      2 * (2 * m.length * ((itemsOf m).card + 1) * (m.flatten.length + m.length + 2)) := by ring
  rw [buildBound, e]
  omega

theorem items_two {f g : Forest T} (x : T) :
    x ∈ itemsOf (f.trees ++ g.trees) ↔ ∃ s ∈ Spec.family f.trees ∪ Spec.family g.trees, x ∈ s := by
  rw [itemsOf_family]
  have : Spec.family (f.trees ++ g.trees) = Spec.family f.trees ∪ Spec.family g.trees := by
    ext s
    simp only [Spec.family, List.mem_append, Set.mem_union, Set.mem_ofPred_eq]
    constructor
    · rintro ⟨l, h | h, e⟩
      · exact .inl ⟨l, h, e⟩
      · exact .inr ⟨l, h, e⟩
    · rintro (⟨l, h, e⟩ | ⟨l, h, e⟩)
      · exact ⟨l, .inl h, e⟩
      · exact ⟨l, .inr h, e⟩
  rw [this]

theorem join_bound {f g : Forest T} (hf : Reach f) (hg : Reach g) :
    2 * (Forest.binaryT unionT f g).calls + 2 ≤ joinBound (itemsOf (f.trees ++ g.trees)).card f.len g.len ∧
    2 * (Forest.binaryT intersectT f g).calls + 2 ≤ joinBound (itemsOf (f.trees ++ g.trees)).card f.len g.len ∧
    2 * (Forest.binaryT productT f g).calls + 2 ≤ productBound (itemsOf (f.trees ++ g.trees)).card f.len g.len := by
  obtain ⟨⟨_, h1⟩, ⟨_, h2⟩, ⟨_, h3⟩⟩ := forest_calls hf hg (itemsOf (f.trees ++ g.trees)) items_two
  rw [joinBound, productBound]
  refine ⟨by omega, by omega, ?_⟩
  have : 50 * ((itemsOf (f.trees ++ g.trees)).card + 1) ^ 3 * ((f.len + 1) * (g.len + 1)) ^ 2 =
      2 * (25 * ((itemsOf (f.trees ++ g.trees)).card + 1) ^ 3 * ((f.len + 1) * (g.len + 1)) ^ 2) := by ring
  omega

theorem filter_bound {f : Forest T} (hf : Reach f) :
    (∀ e, 2 * (f.subsetT e).calls + 2 ≤ filterBound 1 (itemsOf f.trees).card f.len) ∧
    (∀ e, 2 * (f.subsetNotT e).calls + 2 ≤ filterBound 1 (itemsOf f.trees).card f.len) ∧
    (∀ es, 2 * (f.subsetManyT es (fun _ => Forest.empty) subsetAllT).calls + 2 ≤
      filterBound es.length (itemsOf f.trees).card f.len) ∧
    (∀ es, 2 * (f.subsetManyT es (fun x => x) subsetNoneT).calls + 2 ≤
      filterBound es.length (itemsOf f.trees).card f.len) := by
  obtain ⟨h1, h2, h3, h4⟩ := filter_calls hf (itemsOf f.trees) fun x => itemsOf_family
  simp only [filterBound]
  refine ⟨fun e => ?_, fun e => ?_, fun es => ?_, fun es => ?_⟩
  · have := (h1 e).2; omega
  · have := (h2 e).2; omega
  · have := (h3 es).2
    have e : 16 * (es.length + 1) * (((itemsOf f.trees).card + 1) * (f.len + 1)) ^ 2 =
      2 * (8 * (es.length + 1) * (((itemsOf f.trees).card + 1) * (f.len + 1)) ^ 2) := by ring
    omega
  · have := (h4 es).2
    have e : 16 * (es.length + 1) * (((itemsOf f.trees).card + 1) * (f.len + 1)) ^ 2 =
      2 * (8 * (es.length + 1) * (((itemsOf f.trees).card + 1) * (f.len + 1)) ^ 2) := by ring
    omega

/-! ## Programs and threads -/

/-- The forest a program makes; programs never fail (`run_total`).  Not code: used to state or prove properties. -/
def result (p : Matrix.Prog T) : Forest T := (run p).getD Forest.empty

theorem result_eq {p : Matrix.Prog T} {g : Forest T} (h : run p = some g) : result p = g := by rw [result, h]; rfl

theorem reach_result (p : Matrix.Prog T) : Reach (result p) := by
  obtain ⟨g, h⟩ := run_total p
  exact ⟨p, by rw [result_eq h, h]⟩

/-- Nodes a whole program may add.  Not code: used to state or prove properties. -/
def progBound : Matrix.Prog T → Nat
  | .empty => 0
  | .unit s => listBound s.length (itemsOf [s]).card
  | .many m => buildBound m.length (itemsOf m).card m.flatten.length
  | .unique s => listBound s.length (itemsOf [s]).card
  | .union a b => progBound a + progBound b +
      joinBound (itemsOf ((result a).trees ++ (result b).trees)).card (result a).len (result b).len
  | .intersect a b => progBound a + progBound b +
      joinBound (itemsOf ((result a).trees ++ (result b).trees)).card (result a).len (result b).len
  | .product a b => progBound a + progBound b +
      productBound (itemsOf ((result a).trees ++ (result b).trees)).card (result a).len (result b).len
  | .subset a _ => progBound a + filterBound 1 (itemsOf (result a).trees).card (result a).len
  | .subsetNot a _ => progBound a + filterBound 1 (itemsOf (result a).trees).card (result a).len
  | .subsetAll a es => progBound a + filterBound es.length (itemsOf (result a).trees).card (result a).len
  | .subsetNone a es => progBound a + filterBound es.length (itemsOf (result a).trees).card (result a).len

theorem Follows.pays {β : Type w} {α : Type v} {b : Arena Nat Bool} {D : α → β → Prop} {e n : Nat} {t : Ticked β}
    {p : Prog Nat Bool α} (h : Follows b D e t p) (hn : 2 * t.calls + e ≤ n) (X : Finset C) :
    Pays b (fun r => D r t.val) p X n := (h X).mono subset_rfl hn

theorem run_pays {b : Arena Nat Bool} (hI : b.Inv) (h0 : Zero b) (f : Nat) (p : Matrix.Prog T) (X : Finset C) :
    Pays b (fun r => Is b r (result p)) (runP f p) X (progBound p) := by
  have two : ∀ (a c : Matrix.Prog T) (n : Nat) (op : Nat → C → C → P) (opT : Node → Node → Ticked Node)
      (q : Matrix.Prog T), OpFollows op opT →
      2 * (Forest.binaryT opT (result a) (result c)).calls + 2 ≤ n →
      (Forest.binaryT opT (result a) (result c)).val = run q →
      Pays b (fun r => Is b r (result a)) (runP f a) X (progBound a) →
      Pays b (fun r => Is b r (result c)) (runP f c) X (progBound c) →
      Pays b (fun r => Is b r (result q)) ((runP f a).bind fun x => (runP f c).bind fun y => binaryP op f x y) X
        (progBound a + progBound c + n) := by
    intro a c n op opT q ho hn hv ha hc
    have := ha.bind (m := progBound c + n) fun x hx => hc.bind (m := n)
      (R := fun r => Is b r (result q)) (g := fun y => binaryP op f x y) fun y hy => ?_
    · exact this.mono subset_rfl (by omega)
    · refine ((binary_follows ho hI f hx hy).pays hn X).imp fun r ⟨g, h1, h2⟩ => ?_
      rw [hv] at h1
      rw [result_eq h1]; exact h2
  have one : ∀ (a q : Matrix.Prog T) (n : Nat) (k : ForestC T → Prog Nat Bool (ForestC T)) (t : Ticked (Forest T)),
      (∀ x, Is b x (result a) → Follows b (Is b) 2 t (k x)) → 2 * t.calls + 2 ≤ n → run q = some t.val →
      Pays b (fun r => Is b r (result a)) (runP f a) X (progBound a) →
      Pays b (fun r => Is b r (result q)) ((runP f a).bind k) X (progBound a + n) := by
    intro a q n k t hk hn hv ha
    refine ha.bind fun x hx => ?_
    rw [result_eq hv]
    exact (hk x hx).pays hn X
  have get : ∀ a : Matrix.Prog T, run a = some (result a) := fun a => by
    obtain ⟨g, h⟩ := run_total a
    rw [result_eq h, h]
  induction p with
  | empty => exact ⟨h0, rfl⟩
  | unit s =>
    have := (unit_follows hI f s).pays (unit_bound s) X
    rw [Forest.unitT_val] at this
    exact this
  | many m =>
    have := (many_follows hI f m).pays (many_bound m) X
    rw [Forest.manyT_val] at this
    exact this
  | unique s =>
    have := (unique_follows hI f s).pays (unique_bound s) X
    rw [uniqueT_val] at this
    exact this
  | union a c iha ihc =>
    refine two a c _ _ _ _ union_follows (join_bound (reach_result a) (reach_result c)).1 ?_ iha ihc
    rw [(Forest.binaryT_val _ _).1, run, get a, get c]; rfl
  | intersect a c iha ihc =>
    refine two a c _ _ _ _ intersect_follows (join_bound (reach_result a) (reach_result c)).2.1 ?_ iha ihc
    rw [(Forest.binaryT_val _ _).2.1, run, get a, get c]; rfl
  | product a c iha ihc =>
    refine two a c _ _ _ _ product_follows (join_bound (reach_result a) (reach_result c)).2.2 ?_ iha ihc
    rw [(Forest.binaryT_val _ _).2.2, run, get a, get c]; rfl
  | subset a e iha =>
    refine one a _ _ _ _ (fun x hx => forestSubset_follows hI h0 f hx e) ((filter_bound (reach_result a)).1 e) ?_ iha
    rw [Forest.subsetT_val, run, get a]; rfl
  | subsetNot a e iha =>
    refine one a _ _ _ _ (fun x hx => forestSubsetNot_follows hI f hx e) ((filter_bound (reach_result a)).2.1 e) ?_ iha
    rw [Forest.subsetNotT_val, run, get a]; rfl
  | subsetAll a es iha =>
    refine one a _ _ _ _ (fun x hx => subsetMany_follows (dflt := fun _ => Forest.empty) hI f hx es (.ret ⟨h0, rfl⟩)
      fun c es hc => subsetAll_follows hI h0 _ es f hc) ((filter_bound (reach_result a)).2.2.1 es) ?_ iha
    rw [(Forest.subsetManyT_val _ _).1, run, get a]; rfl
  | subsetNone a es iha =>
    refine one a _ _ _ _ (fun x hx => subsetMany_follows (dflt := fun x => x) hI f hx es (.ret hx)
      fun c es hc => subsetNone_follows hI _ es f hc) ((filter_bound (reach_result a)).2.2.2 es) ?_ iha
    rw [(Forest.subsetManyT_val _ _).2, run, get a]; rfl

/-- A program running one call of the API on forests of the arena `a`, or a whole program, and the number of nodes it may
add to the store.  Not code: used to state or prove properties. -/
inductive Request (a : Arena Nat Bool) : (α : Type u) → Prog Nat Bool α → Nat → Prop where
  /-- weave/src/zdd2/forest/mod.rs:133-141 -/
  | union (f : Nat) {x y : ForestC T} {g h : Forest T} : ForestDen g a x → ForestDen h a y → Reach g → Reach h →
      Request a (ForestC T) (binaryP unionP f x y) (joinBound (itemsOf (g.trees ++ h.trees)).card g.len h.len)
  /-- weave/src/zdd2/forest/mod.rs:123-131 -/
  | intersect (f : Nat) {x y : ForestC T} {g h : Forest T} : ForestDen g a x → ForestDen h a y → Reach g → Reach h →
      Request a (ForestC T) (binaryP intersectP f x y) (joinBound (itemsOf (g.trees ++ h.trees)).card g.len h.len)
  /-- weave/src/zdd2/forest/mod.rs:143-151 -/
  | product (f : Nat) {x y : ForestC T} {g h : Forest T} : ForestDen g a x → ForestDen h a y → Reach g → Reach h →
      Request a (ForestC T) (binaryP productP f x y) (productBound (itemsOf (g.trees ++ h.trees)).card g.len h.len)
  /-- weave/src/zdd2/forest/mod.rs:153-155 -/
  | subset (f : Nat) {x : ForestC T} {g : Forest T} (e : T) : ForestDen g a x → Reach g →
      Request a (ForestC T) (forestSubsetP f x e) (filterBound 1 (itemsOf g.trees).card g.len)
  /-- weave/src/zdd2/forest/mod.rs:157-159 -/
  | subsetNot (f : Nat) {x : ForestC T} {g : Forest T} (e : T) : ForestDen g a x → Reach g →
      Request a (ForestC T) (forestSubsetNotP f x e) (filterBound 1 (itemsOf g.trees).card g.len)
  /-- weave/src/zdd2/forest/mod.rs:161-168 -/
  | subsetAll (f : Nat) {x : ForestC T} {g : Forest T} (es : List T) : ForestDen g a x → Reach g →
      Request a (ForestC T) (subsetManyP f x es (fun _ => emptyP) subsetAllP) (filterBound es.length (itemsOf g.trees).card g.len)
  /-- weave/src/zdd2/forest/mod.rs:170-177 -/
  | subsetNone (f : Nat) {x : ForestC T} {g : Forest T} (es : List T) : ForestDen g a x → Reach g →
      Request a (ForestC T) (subsetManyP f x es .ret subsetNoneP) (filterBound es.length (itemsOf g.trees).card g.len)
  /-- weave/src/zdd2/forest/mod.rs:100-113: `trees`, and the listing `len` and `is_empty` do. -/
  | trees (f : Nat) {x : ForestC T} {g : Forest T} : ForestDen g a x → Request a (List (List T)) (forestTreesP f x) 0
  /-- Any program over the API, from scratch. -/
  | program (f : Nat) (p : Matrix.Prog T) : Request a (ForestC T) (runP f p) (progBound p)

theorem Request.pays {a b : Arena Nat Bool} (e : Ext a b) (h0 : Zero a) {α : Type u} {p : Prog Nat Bool α} {n : Nat}
    (h : Request (T := T) a α p n) : Pays b (fun _ => True) p ∅ n := by
  have hI := e.right
  have z := h0.mono e
  cases h with
  | union f hx hy hg hh =>
    exact ((binary_follows union_follows hI f (hx.mono e) (hy.mono e)).pays (join_bound hg hh).1 ∅).imp fun _ _ => trivial
  | intersect f hx hy hg hh =>
    exact ((binary_follows intersect_follows hI f (hx.mono e) (hy.mono e)).pays (join_bound hg hh).2.1 ∅).imp fun _ _ => trivial
  | product f hx hy hg hh =>
    exact ((binary_follows product_follows hI f (hx.mono e) (hy.mono e)).pays (join_bound hg hh).2.2 ∅).imp fun _ _ => trivial
  | subset f k hx hg =>
    exact ((forestSubset_follows hI z f (hx.mono e) k).pays ((filter_bound hg).1 k) ∅).imp fun _ _ => trivial
  | subsetNot f k hx hg =>
    exact ((forestSubsetNot_follows hI f (hx.mono e) k).pays ((filter_bound hg).2.1 k) ∅).imp fun _ _ => trivial
  | subsetAll f es hx hg =>
    exact ((subsetMany_follows (dflt := fun _ => Forest.empty) (dfltP := fun _ => emptyP) hI f (hx.mono e) es (.ret ⟨z, rfl⟩)
      fun c es hc => subsetAll_follows hI z _ es f hc).pays ((filter_bound hg).2.2.1 es) ∅).imp fun _ _ => trivial
  | subsetNone f es hx hg =>
    exact ((subsetMany_follows (dflt := fun x => x) hI f (hx.mono e) es (.ret (hx.mono e))
      fun c es hc => subsetNone_follows hI _ es f hc).pays ((filter_bound hg).2.2.2 es) ∅).imp fun _ _ => trivial
  | trees f hx => exact (listing_follows f (hx.mono e) ∅).imp fun _ _ => trivial
  | program f p => exact (run_pays hI z f p ∅).imp fun _ _ => trivial

/-- C121: threads running calls of the forest API or whole programs over it, in any interleaving and stopped anywhere, add
at most the sum of their bounds to the node store. -/
theorem store_growth {α : Nat → Type u} {m m' : Machine Nat Bool α} (h : MRun m m') (hI : m.arena.Inv) (hz : Zero m.arena)
    (S : Finset Nat) (n : Nat → Nat) (idle : ∀ t, t ∉ S → m'.threads t = m.threads t)
    (busy : ∀ t ∈ S, ∃ p, m.threads t = .run p ∧ Request (T := T) m.arena (α t) p (n t)) :
    m'.arena.nodes.length ≤ m.arena.nodes.length + ∑ t ∈ S, n t := by
  refine pays_growth h hI S n idle fun t ht => ?_
  obtain ⟨p, h1, h2⟩ := busy t ht
  exact ⟨p, h1, h2.pays (mrun_ext h hI) hz⟩

/-- The hypotheses of `store_growth` are met, and the store does grow: a thread building the forest of one combination adds
a node, where its bound allows nine. -/
example : ∃ m m' : Machine Nat Bool (fun _ => ForestC Nat), MRun m m' ∧ m.arena.Inv ∧ Zero m.arena ∧
    (∀ t, t ∉ ({0} : Finset Nat) → m'.threads t = m.threads t) ∧
    (∀ t ∈ ({0} : Finset Nat), ∃ p, m.threads t = .run p ∧ Request (T := Nat) m.arena (ForestC Nat) p 9) ∧
    m.arena.nodes.length = 2 ∧ m'.arena.nodes.length = 3 := by
  have hI : (Arena.init false true : Arena Nat Bool).Inv := init_inv (by decide)
  let m : Machine Nat Bool (fun _ => ForestC Nat) := ⟨Arena.init false true, fun _ => .run (runP 5 (.unit [7]))⟩
  refine ⟨m, _, .cons (.step 0 .addDirect) (.cons (.step 0 (.load rfl)) (.cons (.step 0 .addDirect) (.cons (.step 0 (.load rfl))
    (.cons (.step 0 .addDirect) (.cons (.step 0 .addDirect) (.cons (.step 0 .addDirect) (.nil _))))))), hI, init_zero, ?_, ?_, rfl, rfl⟩
  · intro t ht
    have : t ≠ 0 := by simpa using ht
    simp only [Function.update_of_ne this]
  · exact fun t _ => ⟨_, rfl, Request.program 5 (.unit [7])⟩

/-- The requests on forests exist too: here the union of the forest of one combination with itself. -/
example : ∃ (a : Arena Nat Bool) (x : ForestC Nat), a.Inv ∧ Zero a ∧
    Request (T := Nat) a (ForestC Nat) (binaryP unionP 5 x x) (joinBound 1 1 1) := by
  have hI : (Arena.init false true : Arena Nat Bool).Inv := init_inv (by decide)
  have e := add_ext hI (.branch 0 0 1)
  have hr : (Forest.unit [7] : Forest Nat).root = .Branch 0 .Never .Always := by
    show Node.branch 0 .Never .Always = _
    rw [Node.branch.eq_def]
  have ht : (Forest.unit [7] : Forest Nat).trees = [[7]] := by
    rw [Forest.trees, hr]
    decide +kernel
  have hl : (Forest.unit [7] : Forest Nat).len = 1 := by
    rw [Forest.len, hr]
    decide +kernel
  refine ⟨_, ⟨2, Universe.fromItems [7]⟩, e.right, init_zero.mono e, ?_⟩
  have h : ForestDen (Forest.unit [7] : Forest Nat) ((Arena.init false true : Arena Nat Bool).add (.branch 0 0 1)).1
      ⟨2, Universe.fromItems [7]⟩ := by
    refine ⟨?_, rfl⟩
    rw [hr]
    exact .branch rfl (.leaf rfl) (.leaf rfl)
  have := Request.union 5 h h (reach_unit [7]) (reach_unit [7])
  rw [hl, ht] at this
  exact this

end Verif.ArenaZdd2
