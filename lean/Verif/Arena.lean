import Mathlib.Data.List.Basic
import Mathlib.Data.List.Nodup
import Mathlib.Tactic.Common

/-!
# The node arenas: hash-consing under arbitrary thread interleavings (C11, C12)

Models weave/src/zdd2/forest/node/arena.rs:7-46, weave/src/zdd/node/arena.rs:7-45 and
bowtie-core/src/bdd/node/arena.rs:16-60, together with the conversions `From<Node> for NodeId` /
`From<NodeId> for Node` (weave/src/zdd2/forest/node/mod.rs:127-152, weave/src/zdd/node/mod.rs:57-78,
bowtie-core/src/bdd/node/mod.rs:56-82).  The three arenas are the same code up to the label type of a
branch (`K`) and the two leaves (`L`), so the model is generic.

Each critical section under the `RwLock` (a read-locked look-up, a write-locked add) is one atomic
step; a schedule is any list of such steps by any threads.
-/

set_option linter.dupNamespace false
set_option linter.unusedSectionVars false

namespace Verif.Arena

universe u v
variable {K : Type u} {L : Type v} [DecidableEq K] [DecidableEq L]

/-- `enum Node { Branch(_, NodeId, NodeId), <leaves> }` with `NodeId(usize)` as `Nat`:
weave/src/zdd2/forest/node/mod.rs:31-36, weave/src/zdd/node/mod.rs:20-24,
bowtie-core/src/bdd/node/mod.rs:13-17. -/
inductive Cell (K : Type u) (L : Type v) where
  | branch (k : K) (low high : Nat)
  | leaf (l : L)
deriving DecidableEq

/-- `struct NodeArena { nodes: Vec<Node>, node_index: HashMap<Node, NodeId> }`
(weave/src/zdd2/forest/node/arena.rs:7-11).  The map is an association list; the newest entry of a
key is found first. -/
structure Arena (K : Type u) (L : Type v) where
  nodes : List (Cell K L)
  index : List (Cell K L × Nat)

namespace Arena

/-- `get_by_node` (weave/src/zdd2/forest/node/arena.rs:43-45): look-up in `node_index`. -/
def getByNode (a : Arena K L) (c : Cell K L) : Option Nat :=
  (a.index.find? (fun e => decide (e.1 = c))).map Prod.snd

/-- `get_by_id` (weave/src/zdd2/forest/node/arena.rs:39-41). -/
def getById (a : Arena K L) (i : Nat) : Option (Cell K L) := a.nodes[i]?

/-- `add` (weave/src/zdd2/forest/node/arena.rs:27-37): the id on record, or push and record the next index. -/
def add (a : Arena K L) (c : Cell K L) : Arena K L × Nat :=
  match a.getByNode c with
  | some i => (a, i)
  | none => ({ nodes := a.nodes ++ [c], index := (c, a.nodes.length) :: a.index }, a.nodes.length)

/-- `Default for NodeArena` (weave/src/zdd2/forest/node/arena.rs:13-20): add the two leaves to an empty arena. -/
def init (l0 l1 : L) : Arena K L :=
  (add (add { nodes := [], index := [] } (.leaf l0)).1 (.leaf l1)).1

end Arena

/-- What one thread is doing inside `NodeId::from(node)` (weave/src/zdd2/forest/node/mod.rs:127-138). -/
inductive Pc (K : Type u) (L : Type v) where
  /-- not interning -/
  | idle
  /-- looked the node up under the read lock, missed, and has not yet taken the write lock -/
  | missed (c : Cell K L)

/-- The shared arena, the program counters, and the history of completed conversions:
`(c, i) ∈ log` means some `NodeId::from(c)` returned `i`.
The lazily created global arena: weave/src/zdd2/forest/node/mod.rs:127-171, weave/src/zdd/node/mod.rs:62-100, bowtie-core/src/bdd/node/arena.rs:7-14,47-59. -/
structure Sys (K : Type u) (L : Type v) where
  arena : Arena K L
  pc : Nat → Pc K L
  log : List (Cell K L × Nat)

/-- Atomic steps of thread `t`: each holds one of the locks of the functions cited below. -/
inductive Event (K : Type u) (L : Type v) where
  /-- read-locked look-up (weave/src/zdd2/forest/node/mod.rs:129-132) -/
  | lookup (t : Nat) (c : Cell K L)
  /-- write-locked add after a miss (weave/src/zdd2/forest/node/mod.rs:134-136) -/
  | addMissed (t : Nat)
  /-- write-locked add without look-up (weave/src/zdd/node/mod.rs:62-67, bowtie-core/src/bdd/node/mod.rs:62-66) -/
  | addDirect (t : Nat) (c : Cell K L)

/-- A program can only mention child ids it was given: the two constants `NodeId(0)`, `NodeId(1)`,
or an id returned by an earlier conversion.  Not code: used to state or prove properties. -/
def Cell.known (log : List (Cell K L × Nat)) : Cell K L → Prop
  | .leaf _ => True
  | .branch _ lo hi => (lo < 2 ∨ lo ∈ log.map Prod.snd) ∧ (hi < 2 ∨ hi ∈ log.map Prod.snd)

/-- One step.  `Step s e s'`: event `e` is possible in `s` and leads to `s'`.
Models `From<Node> for NodeId`: weave/src/zdd2/forest/node/mod.rs:127-138, weave/src/zdd/node/mod.rs:62-67,
bowtie-core/src/bdd/node/mod.rs:62-66. -/
inductive Step : Sys K L → Event K L → Sys K L → Prop where
  | lookupHit (s : Sys K L) (t : Nat) (c : Cell K L) (i : Nat) :
      s.pc t = .idle → c.known s.log → s.arena.getByNode c = some i →
      Step s (.lookup t c) { s with log := (c, i) :: s.log }
  | lookupMiss (s : Sys K L) (t : Nat) (c : Cell K L) :
      s.pc t = .idle → c.known s.log → s.arena.getByNode c = none →
      Step s (.lookup t c) { s with pc := Function.update s.pc t (.missed c) }
  | addMissed (s : Sys K L) (t : Nat) (c : Cell K L) :
      s.pc t = .missed c →
      Step s (.addMissed t)
        { arena := (s.arena.add c).1, pc := Function.update s.pc t .idle,
          log := (c, (s.arena.add c).2) :: s.log }
  | addDirect (s : Sys K L) (t : Nat) (c : Cell K L) :
      s.pc t = .idle → c.known s.log →
      Step s (.addDirect t c)
        { s with arena := (s.arena.add c).1, log := (c, (s.arena.add c).2) :: s.log }

/-- Executions of a schedule.  Not code: used to state or prove properties. -/
inductive Exec : Sys K L → List (Event K L) → Sys K L → Prop where
  | nil (s) : Exec s [] s
  | cons {s e s' es s''} : Step s e s' → Exec s' es s'' → Exec s (e :: es) s''

/-- Program start: a fresh arena, all threads idle, nothing interned yet.
lazy_static arena, weave/src/zdd2/forest/node/arena.rs:13-24. -/
def start (l0 l1 : L) : Sys K L := { arena := Arena.init l0 l1, pc := fun _ => .idle, log := [] }

/-- The diagrams denoted by ids.  Not code: used to state or prove properties. -/
inductive Tr (K : Type u) (L : Type v) where
  | branch (k : K) (low high : Tr K L)
  | leaf (l : L)
deriving DecidableEq

/-- `Unfolds a i t`: following `Node::from(id)` from id `i` all the way down reads the diagram `t`
(in particular no look-up on the way panics).  Not code: used to state or prove properties. -/
inductive Unfolds (a : Arena K L) : Nat → Tr K L → Prop where
  | leaf {i l} : a.getById i = some (.leaf l) → Unfolds a i (.leaf l)
  | branch {i k lo hi tl th} : a.getById i = some (.branch k lo hi) → Unfolds a lo tl →
      Unfolds a hi th → Unfolds a i (.branch k tl th)

/-! ## Invariants -/

/-- Vector and map agree: this holds whatever nodes are added.  Not code: used to state or prove properties. -/
structure Arena.Inv (a : Arena K L) : Prop where
  two : 2 ≤ a.nodes.length
  index : ∀ c i, a.getByNode c = some i ↔ a.nodes[i]? = some c

/-- Moreover children come before parents: this holds as long as only ids that were handed out are used.
Not code: used to state or prove properties. -/
structure Arena.Sound (a : Arena K L) : Prop extends a.Inv where
  below : ∀ i k lo hi, a.nodes[i]? = some (Cell.branch k lo hi) → lo < i ∧ hi < i

/-- Not code: used to state or prove properties. -/
structure Sys.Inv (s : Sys K L) : Prop where
  arena : s.arena.Sound
  log : ∀ c i, (c, i) ∈ s.log → s.arena.nodes[i]? = some c
  pc : ∀ t c, s.pc t = .missed c → c.known s.log

theorem getByNode_cons (n : List (Cell K L)) (ix : List (Cell K L × Nat)) (c c' : Cell K L) (i : Nat) :
    (Arena.mk n ((c, i) :: ix)).getByNode c' =
      if c = c' then some i else (Arena.mk n ix).getByNode c' := by
  unfold Arena.getByNode
  by_cases h : c = c'
  · simp [h]
  · simp [h]

theorem add_getById {a : Arena K L} (h : ∀ c i, a.getByNode c = some i ↔ a.nodes[i]? = some c)
    (c : Cell K L) : (a.add c).1.nodes[(a.add c).2]? = some c := by
  unfold Arena.add
  split
  next i hi => exact (h c i).1 hi
  next hn => simp

theorem add_mono (a : Arena K L) (c : Cell K L) {i : Nat} {d : Cell K L}
    (h : a.nodes[i]? = some d) : (a.add c).1.nodes[i]? = some d := by
  unfold Arena.add
  split
  · exact h
  · simp only
    rw [List.getElem?_append_left (by
      by_contra hh
      rw [List.getElem?_eq_none (by omega)] at h
      cases h)]
    exact h

theorem add_index {a : Arena K L} (h : ∀ c i, a.getByNode c = some i ↔ a.nodes[i]? = some c)
    (c : Cell K L) :
    ∀ d i, (a.add c).1.getByNode d = some i ↔ (a.add c).1.nodes[i]? = some d := by
  intro d i
  unfold Arena.add
  split
  next j hj => exact h d i
  next hn =>
    simp only
    rw [getByNode_cons]
    by_cases hcd : c = d
    · subst hcd
      simp only [if_true, Option.some.injEq]
      constructor
      · rintro rfl; simp
      · intro hh
        by_contra hne
        have : i < a.nodes.length := by
          by_contra hlt
          rw [List.getElem?_eq_none (by simp; omega)] at hh
          cases hh
        rw [List.getElem?_append_left this] at hh
        rw [← h] at hh
        rw [hn] at hh; cases hh
    · simp only [hcd, if_false]
      rw [show (Arena.mk (a.nodes ++ [c]) a.index).getByNode d = a.getByNode d from rfl, h]
      by_cases hi : i < a.nodes.length
      · rw [List.getElem?_append_left hi]
      · rw [List.getElem?_eq_none (by omega)]
        constructor
        · intro hh; cases hh
        · intro hh
          rw [List.getElem?_append_right (by omega)] at hh
          rw [List.getElem?_singleton] at hh
          split_ifs at hh
          simp only [Option.some.injEq] at hh
          exact absurd hh hcd

theorem add_inv {a : Arena K L} (h : a.Inv) (c : Cell K L) : (a.add c).1.Inv := by
  refine ⟨?_, add_index h.index c⟩
  have := h.two
  unfold Arena.add; split <;> simp <;> omega

theorem add_sound {a : Arena K L} (h : a.Sound) {c : Cell K L}
    (hc : ∀ k lo hi, c = .branch k lo hi → lo < a.nodes.length ∧ hi < a.nodes.length) :
    (a.add c).1.Sound := by
  refine ⟨add_inv h.toInv c, ?_⟩
  · intro i k lo hi hg
    unfold Arena.add at hg
    split at hg
    · exact h.below i k lo hi hg
    · simp only at hg
      by_cases hi' : i < a.nodes.length
      · rw [List.getElem?_append_left hi'] at hg; exact h.below i k lo hi hg
      · rw [List.getElem?_append_right (by omega), List.getElem?_singleton] at hg
        split_ifs at hg with he
        simp only [Option.some.injEq] at hg
        have := hc k lo hi hg
        omega

theorem init_sound {l0 l1 : L} (hl : l0 ≠ l1) : (Arena.init l0 l1 : Arena K L).Sound := by
  have h0 : ∀ c i, (Arena.mk ([] : List (Cell K L)) []).getByNode c = some i ↔
      ([] : List (Cell K L))[i]? = some c := by
    intro c i; simp [Arena.getByNode]
  have h1 := add_index h0 (.leaf l0)
  have h2 := add_index h1 (.leaf l1)
  have hne : (Cell.leaf l0 : Cell K L) ≠ .leaf l1 := by simpa using hl
  have hn : (Arena.init l0 l1 : Arena K L).nodes = [.leaf l0, .leaf l1] := by
    simp [Arena.init, Arena.add, Arena.getByNode, hl]
  refine ⟨⟨by rw [hn]; simp, h2⟩, ?_⟩
  intro i k lo hi hg
  rw [hn] at hg
  match i with
  | 0 => simp at hg
  | 1 => simp at hg
  | i + 2 => simp at hg

theorem init_inv {l0 l1 : L} (hl : l0 ≠ l1) : (Arena.init l0 l1 : Arena K L).Inv := (init_sound hl).toInv

theorem known_bound {s : Sys K L} (h2 : 2 ≤ s.arena.nodes.length)
    (hlog : ∀ c i, (c, i) ∈ s.log → s.arena.nodes[i]? = some c) {c : Cell K L}
    (hk : c.known s.log) :
    ∀ k lo hi, c = .branch k lo hi → lo < s.arena.nodes.length ∧ hi < s.arena.nodes.length := by
  have aux : ∀ i, (i < 2 ∨ i ∈ s.log.map Prod.snd) → i < s.arena.nodes.length := by
    rintro i (hi | hi)
    · omega
    · obtain ⟨⟨c, j⟩, hm, rfl⟩ := List.mem_map.1 hi
      have := hlog c j hm
      by_contra hh
      rw [List.getElem?_eq_none (by simpa using hh)] at this
      cases this
  rintro k lo hi rfl
  exact ⟨aux lo hk.1, aux hi hk.2⟩

theorem known_mono {c d : Cell K L} {i : Nat} {log : List (Cell K L × Nat)} (h : c.known log) :
    c.known ((d, i) :: log) := by
  cases c with
  | leaf l => trivial
  | branch k lo hi =>
    refine ⟨h.1.imp_right ?_, h.2.imp_right ?_⟩ <;>
    · intro hh; rw [List.map_cons]; exact List.mem_cons_of_mem _ hh

theorem step_inv {s s' : Sys K L} {e : Event K L} (hs : s.Inv) (h : Step s e s') : s'.Inv := by
  cases h with
  | lookupHit t c i h1 h2 h3 =>
    refine ⟨hs.arena, ?_, fun t' c' hh => known_mono (hs.pc t' c' hh)⟩
    intro d j hd
    rcases List.mem_cons.1 hd with hd | hd
    · cases hd; exact (hs.arena.index _ _).1 h3
    · exact hs.log d j hd
  | lookupMiss t c h1 h2 h3 =>
    refine ⟨hs.arena, hs.log, ?_⟩
    intro t' c' hh
    simp only [Function.update_apply] at hh
    split_ifs at hh
    · cases hh; exact h2
    · exact hs.pc t' c' hh
  | addMissed t c h1 =>
    have hb := known_bound hs.arena.two hs.log (hs.pc t c h1)
    refine ⟨add_sound hs.arena hb, ?_, ?_⟩
    · intro d j hd
      rcases List.mem_cons.1 hd with hd | hd
      · cases hd; exact add_getById hs.arena.index c
      · exact add_mono _ c (hs.log d j hd)
    · intro t' c' hh
      simp only [Function.update_apply] at hh
      split_ifs at hh
      exact known_mono (hs.pc t' c' hh)
  | addDirect t c h1 h2 =>
    have hb := known_bound hs.arena.two hs.log h2
    refine ⟨add_sound hs.arena hb, ?_, fun t' c' hh => known_mono (hs.pc t' c' hh)⟩
    intro d j hd
    rcases List.mem_cons.1 hd with hd | hd
    · cases hd; exact add_getById hs.arena.index c
    · exact add_mono _ c (hs.log d j hd)

theorem exec_inv {s s' : Sys K L} {es : List (Event K L)} (h : Exec s es s') (hs : s.Inv) :
    s'.Inv := by
  induction h with
  | nil => exact hs
  | cons h1 _ ih => exact ih (step_inv hs h1)

theorem start_inv {l0 l1 : L} (hl : l0 ≠ l1) : (start l0 l1 : Sys K L).Inv :=
  ⟨init_sound hl, by intro c i h; simp [start] at h, by intro t c h; simp [start] at h⟩

/-- The states any run of the program can reach.  Not code: used to state or prove properties. -/
def Reach (l0 l1 : L) (s : Sys K L) : Prop := ∃ es, Exec (start l0 l1) es s

theorem Reach.inv {l0 l1 : L} (hl : l0 ≠ l1) {s : Sys K L} (h : Reach l0 l1 s) : s.Inv :=
  exec_inv h.choose_spec (start_inv hl)

/-! ## C11 -/

/-- C11: in every reachable state, every id ever returned for a node resolves to that node (no
dangling id, no reuse), and the two leaf constants resolve to the leaves. -/
theorem returned_resolves {l0 l1 : L} (hl : l0 ≠ l1) {s : Sys K L} (hr : Reach l0 l1 s)
    {c : Cell K L} {i : Nat} (h : (c, i) ∈ s.log) : s.arena.getById i = some c :=
  (hr.inv hl).log c i h

/-- C11: two conversions return the same id iff they converted the same node, whichever threads ran
them and however they interleaved. -/
theorem returned_same_iff {l0 l1 : L} (hl : l0 ≠ l1) {s : Sys K L} (hr : Reach l0 l1 s)
    {c d : Cell K L} {i j : Nat} (hc : (c, i) ∈ s.log) (hd : (d, j) ∈ s.log) :
    i = j ↔ c = d := by
  have h1 := (hr.inv hl).log c i hc
  have h2 := (hr.inv hl).log d j hd
  constructor
  · rintro rfl; rw [h1] at h2; simpa using h2
  · rintro rfl
    have h3 := ((hr.inv hl).arena.index c i).2 h1
    have h4 := ((hr.inv hl).arena.index c j).2 h2
    rw [h3] at h4; simpa using h4

theorem step_mono {s s' : Sys K L} {e : Event K L} (h : Step s e s') {i : Nat} {c : Cell K L}
    (hg : s.arena.getById i = some c) : s'.arena.getById i = some c := by
  cases h with
  | lookupHit t c i h1 h2 h3 => exact hg
  | lookupMiss t c h1 h2 h3 => exact hg
  | addMissed t c h1 => exact add_mono _ c hg
  | addDirect t c h1 h2 => exact add_mono _ c hg

/-- C11: what an id resolves to never changes, along every continuation of every schedule. -/
theorem resolve_stable {s s' : Sys K L} {es : List (Event K L)} (h : Exec s es s') {i : Nat}
    {c : Cell K L} (hg : s.arena.getById i = some c) : s'.arena.getById i = some c := by
  induction h with
  | nil => exact hg
  | cons h1 _ ih => exact ih (step_mono h1 hg)

/-- C11: the leaf constants `NodeId(0)` and `NodeId(1)` always resolve to the leaves. -/
theorem leaf_constants {l0 l1 : L} (hl : l0 ≠ l1) {s : Sys K L} (hr : Reach l0 l1 s) :
    s.arena.getById 0 = some (.leaf l0) ∧ s.arena.getById 1 = some (.leaf l1) := by
  obtain ⟨es, he⟩ := hr
  constructor
  · exact resolve_stable he (by simp [start, Arena.init, Arena.add, Arena.getByNode, Arena.getById, hl])
  · exact resolve_stable he (by simp [start, Arena.init, Arena.add, Arena.getByNode, Arena.getById, hl])

/-- A thread that missed can always finish its conversion: nothing blocks it. -/
theorem missed_can_finish (s : Sys K L) (t : Nat) (c : Cell K L) (h : s.pc t = .missed c) :
    ∃ s', Step s (.addMissed t) s' ∧ s'.pc t = .idle :=
  ⟨_, .addMissed s t c h, by simp⟩

/-- Two threads racing to intern the same new node: both miss, both add, and both get id 2. -/
theorem demo_race : ∃ s : Sys Nat Bool, Reach false true s ∧
    s.log = [(.branch 7 0 1, 2), (.branch 7 0 1, 2)] := by
  refine ⟨_, ⟨[.lookup 0 (.branch 7 0 1), .lookup 1 (.branch 7 0 1), .addMissed 0, .addMissed 1],
    .cons (.lookupMiss _ 0 _ rfl (by simp [Cell.known]) rfl)
      (.cons (.lookupMiss _ 1 _ rfl (by simp [Cell.known]) rfl)
        (.cons (.addMissed _ 0 (.branch 7 0 1) rfl)
          (.cons (.addMissed _ 1 (.branch 7 0 1) rfl) (.nil _))))⟩, ?_⟩
  rfl

example : ∃ s : Sys Nat Bool, Reach false true s ∧ s.arena.getById 2 = some (.branch 7 0 1) ∧
    s.arena.getById 0 = some (.leaf false) ∧ ((2 : Nat) = 2 ↔ (Cell.branch 7 0 1 : Cell Nat Bool) = .branch 7 0 1) := by
  obtain ⟨s, hr, hs⟩ := demo_race
  have hm : (Cell.branch 7 0 1, 2) ∈ s.log := by simp [hs]
  exact ⟨s, hr, returned_resolves (by decide) hr hm, (leaf_constants (by decide) hr).1,
    returned_same_iff (by decide) hr hm hm⟩

/-! ## C12 -/

theorem unfolds_exists {a : Arena K L} (h : a.Sound) : ∀ i, i < a.nodes.length → ∃ t, Unfolds a i t := by
  intro i
  induction i using Nat.strongRecOn with
  | _ i ih =>
    intro hi
    have hg : a.getById i = some a.nodes[i] := List.getElem?_eq_getElem hi
    match hc : a.nodes[i], hg with
    | .leaf l, hg => exact ⟨_, .leaf hg⟩
    | .branch k lo hi', hg =>
      have hb := h.below i k lo hi' hg
      obtain ⟨t1, h1⟩ := ih lo hb.1 (by omega)
      obtain ⟨t2, h2⟩ := ih hi' hb.2 (by omega)
      exact ⟨_, .branch hg h1 h2⟩

theorem unfolds_fun {a : Arena K L} {i : Nat} {t t' : Tr K L} (h : Unfolds a i t)
    (h' : Unfolds a i t') : t = t' := by
  induction h generalizing t' with
  | leaf hg =>
    cases h' with
    | leaf hg' => rw [hg] at hg'; simp at hg'; rw [hg']
    | branch hg' _ _ => rw [hg] at hg'; cases hg'
  | branch hg _ _ ih1 ih2 =>
    cases h' with
    | leaf hg' => rw [hg] at hg'; cases hg'
    | branch hg' h1 h2 =>
      rw [hg] at hg'
      simp only [Option.some.injEq, Cell.branch.injEq] at hg'
      obtain ⟨rfl, rfl, rfl⟩ := hg'
      rw [ih1 h1, ih2 h2]

theorem unfolds_inj {a : Arena K L} (hi : a.Inv) {i j : Nat} {t : Tr K L} (h : Unfolds a i t)
    (h' : Unfolds a j t) : i = j := by
  induction h generalizing j with
  | leaf hg =>
    cases h' with
    | leaf hg' =>
      have h3 := (hi.index _ _).2 hg
      have h4 := (hi.index _ _).2 hg'
      rw [h3] at h4; simpa using h4
  | branch hg _ _ ih1 ih2 =>
    cases h' with
    | branch hg' h1 h2 =>
      have e1 := ih1 h1
      have e2 := ih2 h2
      subst e1; subst e2
      have h3 := (hi.index _ _).2 hg
      have h4 := (hi.index _ _).2 hg'
      rw [h3] at h4; simpa using h4

/-- C12: in every reachable state every id handed out (or leaf constant) denotes exactly one diagram:
following it never meets a missing node and terminates. -/
theorem id_denotes {l0 l1 : L} (hl : l0 ≠ l1) {s : Sys K L} (hr : Reach l0 l1 s) {i : Nat}
    (hi : i < 2 ∨ i ∈ s.log.map Prod.snd) : ∃! t, Unfolds s.arena i t := by
  have hb : i < s.arena.nodes.length := by
    rcases hi with hi | hi
    · have := (hr.inv hl).arena.two; omega
    · obtain ⟨⟨c, j⟩, hm, rfl⟩ := List.mem_map.1 hi
      have := (hr.inv hl).log c j hm
      by_contra hh
      rw [List.getElem?_eq_none (by simpa using hh)] at this
      cases this
  obtain ⟨t, ht⟩ := unfolds_exists (hr.inv hl).arena i hb
  exact ⟨t, ht, fun t' ht' => unfolds_fun ht' ht⟩

/-- C12: two ids are equal iff the whole diagrams they denote are equal. -/
theorem id_eq_iff {l0 l1 : L} (hl : l0 ≠ l1) {s : Sys K L} (hr : Reach l0 l1 s) {i j : Nat}
    {t t' : Tr K L} (hi : Unfolds s.arena i t) (hj : Unfolds s.arena j t') : i = j ↔ t = t' := by
  constructor
  · rintro rfl; exact unfolds_fun hi hj
  · rintro rfl; exact unfolds_inj (hr.inv hl).arena.toInv hi hj

/-- C12: what an id denotes never changes. -/
theorem denotation_stable {s s' : Sys K L} {es : List (Event K L)} (h : Exec s es s') {i : Nat}
    {t : Tr K L} (hu : Unfolds s.arena i t) : Unfolds s'.arena i t := by
  induction hu with
  | leaf hg => exact .leaf (resolve_stable h hg)
  | branch hg _ _ ih1 ih2 => exact .branch (resolve_stable h hg) ih1 ih2

/-- C12: converting a branch over ids denoting `tl` and `th` yields an id denoting the branch over
`tl` and `th`.  Together with `id_eq_iff` this is what justifies modelling a `NodeId` by its
diagram in the rest of the development. -/
theorem conversion_denotes {l0 l1 : L} (hl : l0 ≠ l1) {s : Sys K L} (hr : Reach l0 l1 s) {k : K}
    {lo hi i : Nat} {tl th : Tr K L} (h : (Cell.branch k lo hi, i) ∈ s.log)
    (h1 : Unfolds s.arena lo tl) (h2 : Unfolds s.arena hi th) :
    Unfolds s.arena i (.branch k tl th) :=
  .branch (returned_resolves hl hr h) h1 h2

/-- The hypotheses are met by a run interning a two-level diagram. -/
theorem demo_unfolds : ∃ s : Sys Nat Bool, Reach false true s ∧
    Unfolds s.arena 3 (.branch 1 (.leaf false) (.branch 2 (.leaf false) (.leaf true))) := by
  refine ⟨_, ⟨[.addDirect 0 (.branch 2 0 1), .addDirect 5 (.branch 1 0 2)],
    .cons (.addDirect _ 0 _ rfl (by simp [Cell.known]))
      (.cons (.addDirect _ 5 _ rfl (by
        refine ⟨Or.inl (by decide), Or.inr ?_⟩; decide)) (.nil _))⟩, ?_⟩
  refine .branch (lo := 0) (hi := 2) rfl (.leaf rfl) (.branch (lo := 0) (hi := 1) rfl (.leaf rfl) (.leaf rfl))

example : ∃ s : Sys Nat Bool, Reach false true s ∧ ∀ j t', Unfolds s.arena j t' →
    ((3 : Nat) = j ↔ .branch 1 (.leaf false) (.branch 2 (.leaf false) (.leaf true)) = t') := by
  obtain ⟨s, hr, hs⟩ := demo_unfolds
  exact ⟨s, hr, fun j t' h => id_eq_iff (by decide) hr hs h⟩

example : ∃ s : Sys Nat Bool, Reach false true s ∧ s.arena.getById 3 ≠ none ∧ ∃! t, Unfolds s.arena 1 t := by
  obtain ⟨s, hr, hs⟩ := demo_unfolds
  refine ⟨s, hr, ?_, id_denotes (by decide) hr (Or.inl (by decide))⟩
  cases hs with
  | branch h _ _ => simp [h]

end Verif.Arena
