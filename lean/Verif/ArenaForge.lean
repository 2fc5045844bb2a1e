import Verif.Arena

/-!
# Node ids in documents (C88)

`NodeId` of bowtie-core is public and derives `Serialize` and `Deserialize` (bowtie-core/src/bdd/node/mod.rs:19-20):
what is written is the bare number.  (The ids of `weave` are written as the text of their node.)
A number read from a document is not in general an id handed out by this process, so what C11 and C12 say
about ids does not cover it.
-/

set_option linter.unusedSectionVars false
set_option linter.unusedSimpArgs false
set_option linter.unusedVariables false

namespace Verif.Arena

universe u v
variable {K : Type u} {L : Type v} [DecidableEq K] [DecidableEq L]

/-- The derived `Serialize` of `NodeId(usize)`: a newtype around the number.  bowtie-core/src/bdd/node/mod.rs:19-20. -/
def writeId (i : Nat) : Nat := i

/-- The derived `Deserialize` of `NodeId(usize)`: any number is accepted.  bowtie-core/src/bdd/node/mod.rs:19-20. -/
def readId (n : Nat) : Nat := n

/-- `outfit_count_internal` walking over ids, bowtie-core/src/bdd/closet/node_count.rs:40-54, on a stack of the given
depth: `none` if a call finds no room, `some none` if `Node::from` panics.  The additions do not overflow in the model. -/
def outfitCountA (a : Arena K Bool) : Nat → Nat → Option (Option Nat)
  | 0, _ => none
  | f + 1, i =>
    match a.getById i with
    | none => some none
    | some (.leaf b) => some (some (if b then 1 else 0))
    | some (.branch _ lo hi) =>
      match outfitCountA a f lo with
      | none => none
      | some none => some none
      | some (some l) => (outfitCountA a f hi).map (Option.map fun h => l + h)

/-- Number of ways down a diagram that end in `true`.  Not code: used to state or prove properties. -/
def Tr.trues : Tr K Bool → Nat
  | .branch _ l h => l.trues + h.trues
  | .leaf b => if b then 1 else 0

/-- C88 (same run): an id that was written is read back as an id of the same diagram, at every later point
of every schedule of the same run. -/
theorem saved_id_same_run_partial {s s' : Sys K L} {es : List (Event K L)} (h : Exec s es s') {i : Nat} {t : Tr K L}
    (hi : Unfolds s.arena i t) : ∀ t', Unfolds s'.arena (readId (writeId i)) t' ↔ t' = t := by
  intro t'
  have h1 := denotation_stable h hi
  exact ⟨fun h2 => unfolds_fun h2 h1, fun e => e ▸ h1⟩

/-- The two leaves are the same in every run. -/
theorem saved_leaf_any_run {l0 l1 : L} (hl : l0 ≠ l1) {s : Sys K L} (hr : Reach l0 l1 s) :
    Unfolds s.arena (readId 0) (.leaf l0) ∧ Unfolds s.arena (readId 1) (.leaf l1) :=
  ⟨.leaf (leaf_constants hl hr).1, .leaf (leaf_constants hl hr).2⟩

theorem exec_snoc {s s' s'' : Sys K L} {es : List (Event K L)} {e : Event K L} (h : Exec s es s')
    (hs : Step s' e s'') : Exec s (es ++ [e]) s'' := by
  induction h with
  | nil => exact .cons hs (.nil _)
  | cons h1 _ ih => exact .cons h1 (ih hs)

/-- A run that interns `m` nodes testing one item each, in the given order.
Not code: used to state or prove properties. -/
theorem run_of_items {l0 l1 : L} (hl : l0 ≠ l1) (f : Nat → K) (hf : Function.Injective f) (m : Nat) :
    ∃ s : Sys K L, Reach l0 l1 s ∧ (∀ t, s.pc t = .idle) ∧
      s.arena.nodes = [.leaf l0, .leaf l1] ++ (List.range m).map (fun j => .branch (f j) 0 1) := by
  induction m with
  | zero =>
    refine ⟨start l0 l1, ⟨[], .nil _⟩, fun _ => rfl, ?_⟩
    simp [start, Arena.init, Arena.add, Arena.getByNode, hl]
  | succ m ih =>
    obtain ⟨s, hr, hp, hn⟩ := ih
    have hk : (Cell.branch (f m) 0 1 : Cell K L).known s.log := ⟨Or.inl (by decide), Or.inl (by decide)⟩
    obtain ⟨es, he⟩ := id hr
    have hs := Step.addDirect s 0 (.branch (f m) 0 1) (hp 0) hk
    have hnone : s.arena.getByNode (.branch (f m) 0 1) = none := by
      cases e : s.arena.getByNode (.branch (f m) 0 1) with
      | none => rfl
      | some i =>
        have := ((hr.inv hl).arena.index _ _).1 e
        have hmem := List.mem_of_getElem? this
        rw [hn] at hmem
        simp only [List.cons_append, List.nil_append, List.mem_cons, reduceCtorEq, List.mem_map,
          List.mem_range, Cell.branch.injEq, false_or] at hmem
        obtain ⟨j, hj, h1, _⟩ := hmem
        have := hf h1
        omega
    have hr' : Reach l0 l1 _ := ⟨_, exec_snoc he hs⟩
    refine ⟨_, hr', fun t => hp t, ?_⟩
    · simp only [Arena.add, hnone, hn, List.range_succ, List.map_append, List.map_cons, List.map_nil]
      simp

/-- C88 (another run), the full statement is false of the code: whatever number other than those of the two
leaves was written, and whatever diagram it stood for, there is a run in which reading it gives an id of
another diagram, and a run in which using it panics. -/
theorem saved_id_other_run {l0 l1 : L} (hl : l0 ≠ l1) (f : Nat → K) (hf : Function.Injective f)
    {i : Nat} (hi : 2 ≤ i) (t : Tr K L) :
    (∃ (s : Sys K L) (t' : Tr K L), Reach l0 l1 s ∧ Unfolds s.arena (readId i) t' ∧ t' ≠ t) ∧
    (∃ s : Sys K L, Reach l0 l1 s ∧ s.arena.getById (readId i) = none) := by
  constructor
  · have key : ∀ g : Nat → K, Function.Injective g → ∃ s : Sys K L, Reach l0 l1 s ∧
        Unfolds s.arena (readId i) (.branch (g (i - 2)) (.leaf l0) (.leaf l1)) := by
      intro g hg
      obtain ⟨s, hr, _, hn⟩ := run_of_items (l0 := l0) (l1 := l1) hl g hg (i + 1)
      refine ⟨s, hr, .branch (lo := 0) (hi := 1) ?_ (.leaf (leaf_constants hl hr).1)
        (.leaf (leaf_constants hl hr).2)⟩
      unfold Arena.getById readId
      rw [hn, List.getElem?_append_right (by simpa using hi)]
      simp only [List.length_cons, List.length_nil, List.getElem?_map]
      rw [List.getElem?_range (by omega)]
      rfl
    by_cases e : t = .branch (f (i - 2)) (.leaf l0) (.leaf l1)
    · obtain ⟨s, hr, hu⟩ := key (fun j => f (j + 1)) (fun a b h => by simpa using hf h)
      refine ⟨s, _, hr, hu, ?_⟩
      rw [e]
      intro h
      simp only [Tr.branch.injEq, and_self, and_true] at h
      have := hf h
      omega
    · obtain ⟨s, hr, hu⟩ := key f hf
      exact ⟨s, _, hr, hu, fun h => e h.symm⟩
  · refine ⟨start l0 l1, ⟨[], .nil _⟩, ?_⟩
    unfold Arena.getById readId
    rw [List.getElem?_eq_none]
    have : (start l0 l1 : Sys K L).arena.nodes.length = 2 := by
      simp [start, Arena.init, Arena.add, Arena.getByNode, hl]
    omega

/-- C88: a number read from a document breaks the arena itself.  At any point of any schedule, if the number
read is the next free id, a branch built on it is stored under that very id: it is its own child.  No diagram
is read from it, and counting its outfits overflows every stack. -/
theorem read_id_loops {s : Sys K Bool} (hr : Reach false true s) (k : K) (hi : Nat) :
    let i := readId s.arena.nodes.length
    let (a, j) := s.arena.add (.branch k i hi)
    j = i ∧ a.getById j = some (.branch k j hi) ∧ (∀ t, ¬ Unfolds a j t) ∧
      ∀ room, outfitCountA a room j = none := by
  have inv := (hr.inv (by decide)).arena
  have hnone : s.arena.getByNode (.branch k s.arena.nodes.length hi) = none := by
    cases e : s.arena.getByNode (.branch k s.arena.nodes.length hi) with
    | none => rfl
    | some i =>
      have h1 := (inv.index _ _).1 e
      have h2 := (inv.below _ _ _ _ h1).1
      have h3 := (List.getElem?_eq_some_iff.mp h1).1
      omega
  simp only [readId, Arena.add, hnone]
  have hg : Arena.getById ⟨s.arena.nodes ++ [Cell.branch k s.arena.nodes.length hi],
      (Cell.branch k s.arena.nodes.length hi, s.arena.nodes.length) :: s.arena.index⟩ s.arena.nodes.length =
      some (.branch k s.arena.nodes.length hi) := by
    simp [Arena.getById]
  refine ⟨trivial, hg, ?_, ?_⟩
  · intro t
    induction t with
    | leaf l =>
      intro h
      cases h with
      | leaf h => rw [hg] at h; cases h
    | branch k' tl th ih1 ih2 =>
      intro h
      cases h with
      | branch h h1 h2 =>
        rw [hg] at h
        simp only [Option.some.injEq, Cell.branch.injEq] at h
        obtain ⟨_, rfl, _⟩ := h
        exact ih1 h1
  · intro room
    induction room with
    | zero => rfl
    | succ room ih =>
      rw [outfitCountA, hg]
      simp only [ih]

/-- C88: on ids handed out by the process the walk counts what the diagram counts, given room for its height
(so the failure above is due to the number read). -/
theorem outfitCountA_denotes {s : Sys K Bool} {i : Nat} {t : Tr K Bool} (hu : Unfolds s.arena i t) :
    ∃ room, ∀ r, room ≤ r → outfitCountA s.arena r i = some (some t.trues) := by
  induction hu with
  | leaf hg =>
    refine ⟨1, fun r hr => ?_⟩
    obtain ⟨r, rfl⟩ : ∃ q, r = q + 1 := ⟨r - 1, by omega⟩
    rw [outfitCountA, hg]; rfl
  | branch hg _ _ ih1 ih2 =>
    obtain ⟨r1, h1⟩ := ih1
    obtain ⟨r2, h2⟩ := ih2
    refine ⟨max r1 r2 + 1, fun r hr => ?_⟩
    obtain ⟨r, rfl⟩ : ∃ q, r = q + 1 := ⟨r - 1, by omega⟩
    rw [outfitCountA, hg]
    simp only
    rw [h1 r (by omega), h2 r (by omega)]
    rfl

example : Reach false true (start false true : Sys Nat Bool) := ⟨[], .nil _⟩

/-- In a fresh process the number 2, read from a document and used as a child, becomes its own child. -/
example : ((start false true : Sys Nat Bool).arena.add (.branch 7 (readId 2) 1)).2 = 2 := by decide

end Verif.Arena
