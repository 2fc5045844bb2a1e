import Verif.Debug
import Verif.Zdd2.Serialize

/-!
# Forests read from data the library did not write (C58)

Exactly which forests can be used without a panic: those whose diagram only has ids that the read
universe knows.
-/

set_option linter.unusedSimpArgs false
set_option linter.unusedVariables false
set_option linter.unusedSectionVars false

namespace Verif.Zdd2
open Verif Verif.Spec Universe Forest
open Verif.Debug (Occurs forestInner forestDebug occurs_mem forest_total forest_render)

universe u
variable {T : Type u} [LinearOrder T]

/-- A forest a program can get hold of: made with the API, or read from any data whatever.
Not code: used to state or prove properties. -/
def Held (f : Forest T) : Prop := Reach f ∨ ∃ d, deserializeForest d = some f

/-- Every id in the diagram stands for an item.  Not code: used to state or prove properties. -/
def Sane (f : Forest T) : Prop := ∀ i, Occurs i f.root → ∃ x, f.univ.getItem i = some x

theorem join_bars (d : Nat) : List.flatMap String.toList (List.replicate d "| ") = Verif.Debug.bars d := by
  induction d with
  | zero => rfl
  | succ d ih => rw [List.replicate_succ, List.flatMap_cons, ih]; rfl

/-- C81: the printing function of C47 and C58 (on strings) is the one of C81 (on lists of characters). -/
theorem fmt_is_debug (dbg : T → String) (u : Universe T) (n : Node) (d : Nat) :
    (fmtInner dbg u n d).map String.toList = forestInner (fun x => (dbg x).toList) u d n := by
  induction n generalizing d with
  | Always => rfl
  | Never => rfl
  | Branch i l h ihl ihh =>
    rw [fmtInner, forestInner, ← ihl, ← ihh]
    cases u.getItem i with
    | none => rfl
    | some x =>
      cases fmtInner dbg u l (d + 1) with
      | none => rfl
      | some a =>
        cases fmtInner dbg u h (d + 1) with
        | none => rfl
        | some b =>
          simp [join_bars, Verif.Debug.prioText]

theorem Held.ok {f : Forest T} (h : Held f) : f.univ.Ok ∧ f.root.Ordered := by
  rcases h with h | ⟨d, hd⟩
  · exact ⟨h.canon.ok, h.canon.ordered⟩
  · rw [deserializeForest, Option.map_eq_some_iff] at hd
    obtain ⟨n, hn, rfl⟩ := hd
    exact ⟨ok_from (keysLt_insertFold _ _ List.Pairwise.nil), parsed_ordered hn⟩

theorem Sane.inU {f : Forest T} (o : f.root.Ordered) : Sane f ↔ f.univ.InU f.root := by
  constructor
  · intro h s hs k hk
    have : Occurs k f.root := by
      revert hs
      generalize f.root = n
      induction n generalizing s with
      | Always => intro hs; rw [Node.Den, Set.mem_singleton_iff] at hs; subst hs; simp at hk
      | Never => intro hs; exact hs.elim
      | Branch i l h ihl ihh =>
        rintro (hs | ⟨t, ht, rfl⟩)
        · exact Or.inr (Or.inl (ihl _ hk hs))
        · rcases Finset.mem_insert.mp hk with rfl | hk
          · exact Or.inl rfl
          · exact Or.inr (Or.inr (ihh _ hk ht))
    obtain ⟨x, hx⟩ := h k this
    exact (List.getElem?_eq_some_iff.mp hx).1
  · intro h i hi
    obtain ⟨s, hs, his⟩ := occurs_mem o hi
    exact ⟨_, List.getElem?_eq_getElem (h s hs i his)⟩

theorem translate_sane {u v : Universe T} {n n' : Node} (h : translateRoot u v n = some n') :
    ∀ i, Occurs i n → ∃ x, u.getItem i = some x := by
  induction n generalizing n' with
  | Always => exact fun i hi => hi.elim
  | Never => exact fun i hi => hi.elim
  | Branch j l k ihl ihk =>
    rw [translateRoot] at h
    split at h
    · rename_i l' k' x hl hk hx
      rintro i (rfl | hi | hi)
      · exact ⟨x, hx⟩
      · exact ihl hl i hi
      · exact ihk hk i hi
    · cases h

theorem translateRoots_iff {f g : Forest T} (hf : Held f) (hg : Held g) :
    (∃ r, translateRoots f g = some r) ↔ Sane f ∧ Sane g := by
  obtain ⟨hu, of⟩ := hf.ok
  obtain ⟨hv, og⟩ := hg.ok
  constructor
  · rintro ⟨r, hr⟩
    rw [translateRoots] at hr
    split at hr
    · rename_i a b ha hb
      exact ⟨translate_sane ha, translate_sane hb⟩
    · cases hr
  · rintro ⟨sf, sg⟩
    have hm := ok_merge (v := g.univ) hu
    obtain ⟨a, ea, _⟩ := translate_ok hu hm
      (fun x hx => (mem_index_merge hu hv x).mpr (Or.inl hx)) f.root of ((Sane.inU of).mp sf)
    obtain ⟨b, eb, _⟩ := translate_ok hv hm
      (fun x hx => (mem_index_merge hu hv x).mpr (Or.inr hx)) g.root og ((Sane.inU og).mp sg)
    exact ⟨(merge f.univ g.univ, a, b), by simp [translateRoots, ea, eb]⟩

/-- C58 (exactly when it holds): combining two forests, read from any data or made with the API, panics
exactly if in one of them an id of the diagram stands for no item; so does printing one. -/
theorem held_use_iff_partial (dbg : T → List Char) {f g : Forest T} (hf : Held f) (hg : Held g) :
    ((∃ r, f.union g = some r) ↔ Sane f ∧ Sane g) ∧
    ((∃ r, f.intersect g = some r) ↔ Sane f ∧ Sane g) ∧
    ((∃ r, f.product g = some r) ↔ Sane f ∧ Sane g) ∧
    ((∃ t, forestDebug dbg f = some t) ↔ Sane f) := by
  have key : ∀ h : Universe T × Node × Node → Forest T,
      (∃ r, (translateRoots f g).map h = some r) ↔ Sane f ∧ Sane g := by
    intro h
    rw [← translateRoots_iff hf hg]
    simp [Option.map_eq_some_iff]
  refine ⟨key _, key _, key _, ?_⟩
  constructor
  · rintro ⟨t, ht⟩
    rw [forestDebug, Option.map_eq_some_iff] at ht
    obtain ⟨t', ht', _⟩ := ht
    exact (forest_render ht').2
  · intro h
    obtain ⟨t, ht⟩ := forest_total (dbg := dbg) 1 h
    exact ⟨_, by rw [forestDebug, ht]; rfl⟩

example := held_use_iff_partial (fun n : ℕ => (toString n).toList) (Or.inl (reach_many [[1, 2], [1, 3]]))
  (Or.inr ⟨⟨"(0 (N) (1 (N) (A)))".toList, [(7, 5)]⟩, rfl⟩)

/-- C58: whatever went in, what an operation returns is a forest the API could have made from scratch: it
can be used without panics, and all that is proved of such forests holds of it.  The same goes for filtering
by an item that the universe knows. -/
theorem held_result_reach {f g r : Forest T}
    (h : f.union g = some r ∨ f.intersect g = some r ∨ f.product g = some r ∨
      ∃ x k, f.univ.getPriority x = some k ∧ (f.subset x = r ∨ f.subsetNot x = r)) : Reach r := by
  have fin : ∀ n (u : Universe T), Reach (canonical n u) := fun n u => by
    obtain ⟨m, hm⟩ := canon_canonical n u
    rw [hm]; exact reach_many m
  have key : ∀ (op : Universe T × Node × Node → Node),
      (translateRoots f g).map (fun r => canonical (op r) r.1) = some r → Reach r := by
    intro op h
    obtain ⟨p, _, rfl⟩ := Option.map_eq_some_iff.mp h
    exact fin _ _
  rcases h with h | h | h | ⟨x, k, hk, rfl | rfl⟩
  · exact key (fun r => Node.union r.2.1 r.2.2) h
  · exact key (fun r => Node.intersect r.2.1 r.2.2) h
  · exact key (fun r => Node.product r.2.1 r.2.2) h
  · rw [Forest.subset, hk]; exact fin _ _
  · rw [Forest.subsetNot, hk]; exact fin _ _

example : ∃ f x k, deserializeForest ⟨"(0 (N) (1 (N) (A)))".toList, [(7, 5)]⟩ = some f ∧
    f.univ.getPriority x = some k ∧ Reach (f.subset x) :=
  ⟨_, 7, 0, rfl, by decide +kernel, held_result_reach (g := Forest.empty) (Or.inr (Or.inr (Or.inr ⟨7, 0, by decide +kernel, Or.inl rfl⟩)))⟩

/-- C58: forests made with the API are sane, and read data is sane exactly if every id in its diagram is
below the number of different items listed with it. -/
theorem sane_iff :
    (∀ {f : Forest T}, Reach f → Sane f) ∧
    ∀ {d : ForestData T} {f : Forest T}, deserializeForest d = some f →
      (Sane f ↔ ∀ i, Occurs i f.root → i < (d.univ.map Prod.fst).toFinset.card) := by
  constructor
  · intro f hf
    exact (Sane.inU hf.canon.ordered).mpr hf.canon.inU
  · intro d f hd
    have hn : f.univ.index.length = (d.univ.map Prod.fst).toFinset.card := by
      rw [deserializeForest, Option.map_eq_some_iff] at hd
      obtain ⟨n, hn, rfl⟩ := hd
      have hk : KeysLt (d.univ.foldl (fun m p => insertKV p.1 p.2 m) []) :=
        keysLt_insertFold _ _ List.Pairwise.nil
      have ok : (deserializeUniverse d.univ).Ok := ok_from hk
      have mem : ∀ (l acc : List (T × Nat)) (x : T),
          x ∈ (l.foldl (fun m p => insertKV p.1 p.2 m) acc).map Prod.fst ↔
            x ∈ l.map Prod.fst ∨ x ∈ acc.map Prod.fst := by
        intro l
        induction l with
        | nil => intro acc x; simp
        | cons p l ih =>
          intro acc x
          rw [List.foldl_cons, ih, insertKV, keys_upsert, List.map_cons, List.mem_cons]
          tauto
      have nd : (deserializeUniverse d.univ).index.Nodup := by
        exact nodup_index ok
      rw [← List.toFinset_card_of_nodup nd]
      congr 1
      ext x
      rw [List.mem_toFinset, List.mem_toFinset, mem_index ok]
      have := mem d.univ [] x
      simp only [List.map_nil, List.not_mem_nil, or_false] at this
      exact this
    constructor
    · intro h i hi
      obtain ⟨x, hx⟩ := h i hi
      rw [← hn]
      exact (List.getElem?_eq_some_iff.mp hx).1
    · intro h i hi
      have := h i hi
      rw [← hn] at this
      exact ⟨_, List.getElem?_eq_getElem this⟩

/-- Data that reads as a forest that can be used, and was not written by the library (the counts are wrong). -/
example : ∃ f : Forest ℕ, deserializeForest ⟨"(0 (N) (1 (N) (A)))".toList, [(7, 5), (8, 9)]⟩ = some f ∧ Sane f := by
  have hd : deserializeForest (T := ℕ) ⟨"(0 (N) (1 (N) (A)))".toList, [(7, 5), (8, 9)]⟩ =
      some ⟨Node.branch 0 .Never (Node.branch 1 .Never .Always), deserializeUniverse [(7, 5), (8, 9)]⟩ := rfl
  refine ⟨_, hd, (sane_iff.2 hd).mpr ?_⟩
  intro i hi
  have hc : (([(7, 5), (8, 9)] : List (ℕ × ℕ)).map Prod.fst).toFinset.card = 2 := by decide
  show i < (([(7, 5), (8, 9)] : List (ℕ × ℕ)).map Prod.fst).toFinset.card
  rw [hc]
  simp [Node.branch, Occurs] at hi
  omega

end Verif.Zdd2
