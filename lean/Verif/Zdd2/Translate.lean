import Verif.Zdd2.ForestLemmas

/-! Helper lemmas about translating a diagram to another universe, and about the binary operations. -/

set_option linter.unusedSimpArgs false
set_option linter.unusedSectionVars false
set_option linter.unusedVariables false

namespace Verif.Zdd2
open Verif Verif.Spec Verif.Zdd2.Spec

universe u
variable {T : Type u} [LinearOrder T]

namespace Node

/-- Ids that occur in some member.  Not code: used to state or prove properties. -/
def Supp (n : Node) (y : Nat) : Prop := ∃ s ∈ n.Den, y ∈ s

theorem branch_supp {i : Nat} {l h : Node} (ol : l.Ordered) (oh : h.Ordered) {y : Nat}
    (hy : (branch i l h).Supp y) : y = i ∨ l.Supp y ∨ h.Supp y := by
  have hb : ∀ i l h y, (Node.Branch i l h).Supp y → y = i ∨ l.Supp y ∨ h.Supp y := by
    rintro i l h y ⟨s, hs | ⟨t, ht, rfl⟩, hy⟩
    · exact Or.inr (Or.inl ⟨s, hs, hy⟩)
    · rcases Finset.mem_insert.mp hy with rfl | hy
      · exact Or.inl rfl
      · exact Or.inr (Or.inr ⟨t, ht, hy⟩)
  have lo : ∀ i l h y, l.Supp y → (Node.Branch i l h).Supp y := by
    rintro i l h y ⟨s, hs, hy⟩; exact ⟨s, Or.inl hs, hy⟩
  have hi : ∀ i l h y, h.Supp y → (Node.Branch i l h).Supp y := by
    rintro i l h y ⟨s, hs, hy⟩; exact ⟨_, Or.inr ⟨s, hs, rfl⟩, by simp [hy]⟩
  have main : ∀ i l h, (l.Ordered → h.Ordered → ∀ y, (branch i l h).Supp y →
      y = i ∨ l.Supp y ∨ h.Supp y) := by
    intro i l h
    apply branch_ind (P := fun i l h r => l.Ordered → h.Ordered → ∀ y, r.Supp y → y = i ∨ l.Supp y ∨ h.Supp y)
    · intro i l _ _ y hy; exact Or.inr (Or.inl hy)
    · intro i hId hLow hHigh lLow lHigh a b r _ ea eb ih1 ih2 ih3 ol oh y hy
      simp only [Ordered] at ol oh
      have o1 : a.Ordered := ea ▸ Ordered.branch ol.2.2.2.1 oh.2.2.2.1
      have o2 : b.Ordered := eb ▸ Ordered.branch ol.2.2.2.2 oh.2.2.2.2
      rcases ih3 o1 o2 y hy with rfl | h | h
      · obtain ⟨t, ht⟩ := exists_mem oh.2.2.2.2 oh.2.2.1
        exact Or.inr (Or.inr ⟨_, Or.inr ⟨t, ht, rfl⟩, by simp⟩)
      · rcases ih1 ol.2.2.2.1 oh.2.2.2.1 y h with h | h | h
        · exact Or.inl h
        · exact Or.inr (Or.inl (lo _ _ _ _ h))
        · exact Or.inr (Or.inr (lo _ _ _ _ h))
      · rcases ih2 ol.2.2.2.2 oh.2.2.2.2 y h with h | h | h
        · exact Or.inl h
        · exact Or.inr (Or.inl (hi _ _ _ _ h))
        · exact Or.inr (Or.inr (hi _ _ _ _ h))
    · intro i hId hLow hHigh low a r _ ea ih1 ih2 ol oh y hy
      simp only [Ordered] at oh
      have o1 : a.Ordered := ea ▸ Ordered.branch oh.2.2.2.1 oh.2.2.2.2
      rcases ih2 ol o1 y hy with rfl | h | h
      · obtain ⟨t, ht⟩ := exists_mem oh.2.2.2.2 oh.2.2.1
        exact Or.inr (Or.inr ⟨_, Or.inr ⟨t, ht, rfl⟩, by simp⟩)
      · exact Or.inr (Or.inl h)
      · rcases ih1 oh.2.2.2.1 oh.2.2.2.2 y h with h | h | h
        · exact Or.inl h
        · exact Or.inr (Or.inr (lo _ _ _ _ h))
        · exact Or.inr (Or.inr (hi _ _ _ _ h))
    · intro i lId lLow lHigh high a r _ _ _ ea ih1 ih2 ol oh y hy
      simp only [Ordered] at ol
      have o1 : a.Ordered := ea ▸ Ordered.branch ol.2.2.2.1 oh
      rcases ih2 o1 ol.2.2.2.2 y hy with rfl | h | h
      · obtain ⟨t, ht⟩ := exists_mem ol.2.2.2.2 ol.2.2.1
        exact Or.inr (Or.inl ⟨_, Or.inr ⟨t, ht, rfl⟩, by simp⟩)
      · rcases ih1 ol.2.2.2.1 oh y h with h | h | h
        · exact Or.inl h
        · exact Or.inr (Or.inl (lo _ _ _ _ h))
        · exact Or.inr (Or.inr h)
      · exact Or.inr (Or.inl (hi _ _ _ _ h))
    · intro i hLow hHigh low r ih ol oh y hy
      simp only [Ordered] at oh
      rcases ih ol oh.2.2.2.2 y hy with h | h | h
      · exact Or.inl h
      · exact Or.inr (Or.inl h)
      · exact Or.inr (Or.inr (hi _ _ _ _ h))
    · intro i lLow lHigh high r ih ol oh y hy
      simp only [Ordered] at ol
      rcases ih ol.2.2.2.1 oh y hy with h | h | h
      · exact Or.inl h
      · exact Or.inr (Or.inl (lo _ _ _ _ h))
      · exact Or.inr (Or.inr h)
    · intro i l h _ _ _ _ _ y hy; exact hb _ _ _ _ hy
  exact main i l h ol oh y hy

/-- `n` can be relabelled by `σ` without separating items that change order.
Not code: used to state or prove properties. -/
def Sep (σ : Nat → Nat) (n : Node) : Prop :=
  ∀ s ∈ n.Den, ∀ t ∈ n.Den, ∀ x ∈ s, ∀ y ∈ s, x < y → σ y < σ x →
    (∀ z, z < x → (z ∈ s ↔ z ∈ t)) → (x ∈ t ↔ y ∈ t)

theorem Sep.low {σ : Nat → Nat} {i : Nat} {l h : Node} (hs : Sep σ (.Branch i l h)) : Sep σ l :=
  fun s hs' t ht => hs s (Or.inl hs') t (Or.inl ht)

theorem Sep.high {σ : Nat → Nat} {i : Nat} {l h : Node} (o : (Node.Branch i l h).Ordered)
    (hs : Sep σ (.Branch i l h)) : Sep σ h := by
  simp only [Ordered] at o
  intro s hs' t ht x hx y hy hxy hσ hz
  have h1 : i < x := lt_of_mem o.2.2.2.2 o.2.1 hs' hx
  have := hs (insert i s) (Or.inr ⟨s, hs', rfl⟩) (insert i t) (Or.inr ⟨t, ht, rfl⟩) x (by simp [hx]) y
    (by simp [hy]) hxy hσ (by
      intro z hzx
      simp only [Finset.mem_insert, hz z hzx])
  have hxi : x ≠ i := by omega
  have hyi : y ≠ i := by omega
  simpa [hxi, hyi] using this

end Node

namespace Universe

/-- Relabelling from one universe to another.  Not code: used to state or prove properties. -/
def conv (u u' : Universe T) (k : Nat) : Nat :=
  match u.getItem k with
  | some x => u'.prio x
  | none => 0

theorem conv_prio {u u' : Universe T} (hu : u.Ok) {x : T} (hx : x ∈ u.index) :
    conv u u' (u.prio x) = u'.prio x := by
  simp [conv, getItem_prio hu hx]

theorem conv_inj {u u' : Universe T} (hu : u.Ok) (hu' : u'.Ok)
    (hsub : ∀ x ∈ u.index, x ∈ u'.index) {j k : Nat} (hj : j < u.index.length)
    (hk : k < u.index.length) (h : conv u u' j = conv u u' k) : j = k := by
  have gj : u.getItem j = some u.index[j] := List.getElem?_eq_getElem hj
  have gk : u.getItem k = some u.index[k] := List.getElem?_eq_getElem hk
  simp only [conv, gj, gk] at h
  have := prio_inj hu' (hsub _ (List.getElem_mem hj)) (hsub _ (List.getElem_mem hk)) h
  rw [← prio_of_getItem hu gj, ← prio_of_getItem hu gk, this]

end Universe

namespace Forest
open Universe

theorem translate_ok {u u' : Universe T} (hu : u.Ok) (hu' : u'.Ok)
    (hsub : ∀ x ∈ u.index, x ∈ u'.index) (n : Node) (on : n.Ordered) (hn : u.InU n) :
    ∃ n', translateRoot u u' n = some n' ∧ n'.Ordered ∧
      (∀ y, n'.Supp y → ∃ k, n.Supp k ∧ y = conv u u' k) ∧
      (n'= .Never → n = .Never) ∧
      (n.Sep (conv u u') → ∀ s', s' ∈ n'.Den ↔ ∃ s ∈ n.Den, s' = s.image (conv u u')) := by
  induction n with
  | Always =>
    refine ⟨.Always, rfl, trivial, ?_, fun h => (by cases h), fun _ s' => ?_⟩
    · rintro y ⟨s, hs, hy⟩
      rw [Node.Den, Set.mem_singleton_iff] at hs; subst hs; simp at hy
    · simp [Node.Den]
  | Never =>
    refine ⟨.Never, rfl, trivial, ?_, fun h => rfl, fun _ s' => by simp [Node.Den]⟩
    rintro y ⟨s, hs, hy⟩
    exact absurd hs (by simp [Node.Den])
  | Branch i l h ihl ihh =>
    have on' := on
    simp only [Node.Ordered] at on
    obtain ⟨l', el, ol, sl, nl, dl⟩ := ihl on.2.2.2.1 (fun s hs => hn s (Or.inl hs))
    obtain ⟨h', eh, oh, sh, nh, dh⟩ := ihh on.2.2.2.2 (fun s hs k hk =>
      hn (insert i s) (Or.inr ⟨s, hs, rfl⟩) k (by simp [hk]))
    obtain ⟨t0, ht0⟩ := Node.exists_mem on.2.2.2.2 on.2.2.1
    have hi : i < u.index.length := hn (insert i t0) (Or.inr ⟨t0, ht0, rfl⟩) i (by simp)
    have gi : u.getItem i = some u.index[i] := List.getElem?_eq_getElem hi
    have hci : conv u u' i = u'.prio u.index[i] := by simp [conv, gi]
    have gp : u'.getPriority u.index[i] = some (conv u u' i) := by
      rw [hci]; exact getPriority_prio hu' (hsub _ (List.getElem_mem hi))
    have hh' : h' ≠ .Never := fun e => on.2.2.1 (nh e)
    refine ⟨Node.branch (conv u u' i) l' h', by simp [translateRoot, el, eh, gi, gp],
      Node.Ordered.branch ol oh, ?_, ?_, ?_⟩
    · intro y hy
      rcases Node.branch_supp ol oh hy with rfl | h1 | h1
      · exact ⟨i, ⟨_, Or.inr ⟨t0, ht0, rfl⟩, by simp⟩, rfl⟩
      · obtain ⟨k, ⟨s, hs, hk⟩, rfl⟩ := sl y h1
        exact ⟨k, ⟨s, Or.inl hs, hk⟩, rfl⟩
      · obtain ⟨k, ⟨s, hs, hk⟩, rfl⟩ := sh y h1
        exact ⟨k, ⟨_, Or.inr ⟨s, hs, rfl⟩, by simp [hk]⟩, rfl⟩
    · intro e
      exact absurd e (Node.branch_ne_never ol oh hh')
    · intro hsep
      have dl := dl hsep.low
      have dh := dh (hsep.high on')
      have lt_l : ∀ s ∈ l.Den, ∀ y ∈ s, i < y := fun s hs y hy => Node.lt_of_mem on.2.2.2.1 on.1 hs hy
      have lt_h : ∀ s ∈ h.Den, ∀ y ∈ s, i < y := fun s hs y hy => Node.lt_of_mem on.2.2.2.2 on.2.1 hs hy
      have len_l : ∀ s ∈ l.Den, ∀ y ∈ s, y < u.index.length := fun s hs => hn s (Or.inl hs)
      have len_h : ∀ s ∈ h.Den, ∀ y ∈ s, y < u.index.length := fun s hs k hk =>
        hn (insert i s) (Or.inr ⟨s, hs, rfl⟩) k (by simp [hk])
      have inj : ∀ {j k}, j < u.index.length → k < u.index.length → conv u u' j = conv u u' k → j = k :=
        fun hj hk => conv_inj hu hu' hsub hj hk
      intro s'
      rw [Node.branch_sep (conv u u' i) l' h' ol oh ?_ ?_ ?_ s', dl]
      · simp only [dh, Node.mem_den_branch]
        constructor
        · rintro (⟨s, hs, rfl⟩ | ⟨t, ⟨s, hs, rfl⟩, rfl⟩)
          · exact ⟨s, Or.inl hs, rfl⟩
          · exact ⟨insert i s, Or.inr ⟨s, hs, rfl⟩, by simp⟩
        · rintro ⟨s, hs | ⟨t, ht, rfl⟩, rfl⟩
          · exact Or.inl ⟨s, hs, rfl⟩
          · exact Or.inr ⟨_, ⟨t, ht, rfl⟩, by simp⟩
      · intro s' hs' hm
        obtain ⟨s, hs, rfl⟩ := (dl s').mp hs'
        obtain ⟨k, hk, e⟩ := Finset.mem_image.mp hm
        have := inj (len_l s hs k hk) hi e
        have := lt_l s hs k hk; omega
      · intro s' hs' hm
        obtain ⟨s, hs, rfl⟩ := (dh s').mp hs'
        obtain ⟨k, hk, e⟩ := Finset.mem_image.mp hm
        have := inj (len_h s hs k hk) hi e
        have := lt_h s hs k hk; omega
      · intro s' hs' y' hy' hlt
        obtain ⟨s, hs, rfl⟩ := (dh s').mp hs'
        obtain ⟨y, hy, rfl⟩ := Finset.mem_image.mp hy'
        have hiy := lt_h s hs y hy
        constructor
        · intro t' ht'
          obtain ⟨t, ht, rfl⟩ := (dh t').mp ht'
          have := hsep (insert i s) (Or.inr ⟨s, hs, rfl⟩) (insert i t) (Or.inr ⟨t, ht, rfl⟩) i (by simp)
            y (by simp [hy]) hiy hlt (by
              intro z hz
              have h1 : z ∉ s := fun h => by have := lt_h s hs z h; omega
              have h2 : z ∉ t := fun h => by have := lt_h t ht z h; omega
              simp [h1, h2])
          have h3 : y ∈ insert i t := this.mp (by simp)
          rcases Finset.mem_insert.mp h3 with h4 | h4
          · omega
          · exact Finset.mem_image_of_mem _ h4
        · intro t' ht' hyt
          obtain ⟨t, ht, rfl⟩ := (dl t').mp ht'
          obtain ⟨k, hk, e⟩ := Finset.mem_image.mp hyt
          have hky := inj (len_l t ht k hk) (len_h s hs y hy) e
          subst hky
          have := hsep (insert i s) (Or.inr ⟨s, hs, rfl⟩) t (Or.inl ht) i (by simp)
            k (by simp [hy]) hiy hlt (by
              intro z hz
              have h1 : z ∉ s := fun h => by have := lt_h s hs z h; omega
              have h2 : z ∉ t := fun h => by have := lt_l t ht z h; omega
              have h3 : z ≠ i := by omega
              simp [h1, h2, h3])
          have h3 := this.mpr hk
          have := lt_l t ht i h3; omega

theorem mem_den_iff {u : Universe T} (hu : u.Ok) {n : Node} (hn : u.InU n) {s : Finset Nat} :
    s ∈ n.Den ↔ ∃ S ∈ u.Fam n, s = S.image u.prio := by
  constructor
  · intro hs
    obtain ⟨S, hS, rfl⟩ := exists_items hu (hn s hs)
    exact ⟨S, ⟨hS, hs⟩, rfl⟩
  · rintro ⟨S, hS, rfl⟩; exact hS.2

theorem prio_lt_iff {u : Universe T} (hu : u.Ok) {x y : T} (hx : x ∈ u.index) (hy : y ∈ u.index) :
    u.prio x < u.prio y ↔ Before u.count x y :=
  priority_lt hu (getItem_prio hu hx) (getItem_prio hu hy)

theorem conv_image {u u' : Universe T} (hu : u.Ok) {S : Finset T} (hS : u.Known S) :
    (S.image u.prio).image (conv u u') = S.image u'.prio := by
  rw [Finset.image_image]
  apply Finset.image_congr
  intro x hx
  exact conv_prio hu (hS x hx)

theorem sep_of_orderSafe {u u' : Universe T} (hu : u.Ok) (hu' : u'.Ok)
    (hsub : ∀ x ∈ u.index, x ∈ u'.index) {n : Node} (hn : u.InU n)
    (h : OrderSafe (u.Fam n) u.count u'.count) : n.Sep (conv u u') := by
  intro s hs t ht x hx y hy hxy hσ hz
  obtain ⟨S, hS, rfl⟩ := (mem_den_iff hu hn).mp hs
  obtain ⟨R, hR, rfl⟩ := (mem_den_iff hu hn).mp ht
  obtain ⟨a, ha, rfl⟩ := Finset.mem_image.mp hx
  obtain ⟨b, hb, rfl⟩ := Finset.mem_image.mp hy
  have ka := hS.1 a ha
  have kb := hS.1 b hb
  rw [conv_prio hu ka, conv_prio hu kb, prio_lt_iff hu' (hsub b kb) (hsub a ka)] at hσ
  rw [prio_lt_iff hu ka kb] at hxy
  rw [mem_image_prio hu hR.1 ka, mem_image_prio hu hR.1 kb]
  refine h S hS R hR a ha b hb hxy hσ (fun z hza => ?_)
  by_cases kz : z ∈ u.index
  · have := hz (u.prio z) ((prio_lt_iff hu kz ka).mpr hza)
    rwa [mem_image_prio hu hS.1 kz, mem_image_prio hu hR.1 kz] at this
  · exact ⟨fun hz => absurd (hS.1 z hz) kz, fun hz => absurd (hR.1 z hz) kz⟩

/-- Translation of a diagram, in terms of items. -/
theorem translate_fam {u u' : Universe T} (hu : u.Ok) (hu' : u'.Ok)
    (hsub : ∀ x ∈ u.index, x ∈ u'.index) (n : Node) (on : n.Ordered) (hn : u.InU n) :
    ∃ n', translateRoot u u' n = some n' ∧ n'.Ordered ∧ u'.InU n' ∧
      (∀ S ∈ u'.Fam n', ∀ x ∈ S, ∃ R ∈ u.Fam n, x ∈ R) ∧
      (n' = .Never → n = .Never) ∧
      (OrderSafe (u.Fam n) u.count u'.count → u'.Fam n' = u.Fam n) := by
  obtain ⟨n', e, on', hs, hnv, hd⟩ := translate_ok hu hu' hsub n on hn
  have hs' : ∀ y, n'.Supp y → ∃ x, (∃ R ∈ u.Fam n, x ∈ R) ∧ y = u'.prio x := by
    intro y hy
    obtain ⟨k, ⟨s, hs1, hk⟩, rfl⟩ := hs y hy
    obtain ⟨R, hR, rfl⟩ := (mem_den_iff hu hn).mp hs1
    obtain ⟨x, hx, rfl⟩ := Finset.mem_image.mp hk
    exact ⟨x, ⟨R, hR, hx⟩, by rw [conv_prio hu (hR.1 x hx)]⟩
  have hin : u'.InU n' := by
    intro s hs1 k hk
    obtain ⟨x, ⟨R, hR, hx⟩, rfl⟩ := hs' k ⟨s, hs1, hk⟩
    have := getItem_prio hu' (hsub x (hR.1 x hx))
    rw [getItem] at this
    exact (List.getElem?_eq_some_iff.mp this).1
  refine ⟨n', e, on', hin, ?_, hnv, ?_⟩
  · intro S hS x hx
    obtain ⟨z, ⟨R, hR, hz⟩, e1⟩ := hs' (u'.prio x) ⟨_, hS.2, Finset.mem_image_of_mem _ hx⟩
    have := prio_inj hu' (hS.1 x hx) (hsub z (hR.1 z hz)) e1
    subst this
    exact ⟨R, hR, hz⟩
  · intro hsafe
    have hd := hd (sep_of_orderSafe hu hu' hsub hn hsafe)
    ext S
    constructor
    · rintro ⟨hS, h1⟩
      obtain ⟨s, hs1, e1⟩ := (hd _).mp h1
      obtain ⟨R, hR, rfl⟩ := (mem_den_iff hu hn).mp hs1
      rw [conv_image hu hR.1] at e1
      have := image_prio_inj hu' hS (fun x hx => hsub x (hR.1 x hx)) e1
      subst this; exact hR
    · rintro ⟨hS, h1⟩
      exact ⟨fun x hx => hsub x (hS x hx), (hd _).mpr ⟨_, h1, (conv_image hu hS).symm⟩⟩

/-! ### merging universes -/

theorem count_merge_lookup {u v : Universe T} (hu : u.Ok) (hv : v.Ok) (hne : u ≠ v) (x : T) :
    lookup x (merge u v).occurrences =
      match lookup x v.occurrences with
      | some n => some ((lookup x u.occurrences).getD 0 + n)
      | none => lookup x u.occurrences := by
  have e : merge u v = fromOccurrences (v.occurrences.foldl (fun m p => addTo p.1 p.2 m) u.occurrences) := by
    simp [merge, mergeIter, hne]
  rw [e]
  exact addFold_lookup hu.1 hv.1 x

theorem count_merge {u v : Universe T} (hu : u.Ok) (hv : v.Ok) (hne : u ≠ v) (x : T) :
    (merge u v).count x = u.count x + v.count x := by
  rw [Universe.count, count_merge_lookup hu hv hne]
  unfold Universe.count
  cases lookup x v.occurrences <;> simp

theorem before_merge {u v : Universe T} (hu : u.Ok) (hv : v.Ok) (x y : T) :
    Before (merge u v).count x y ↔ Before (fun x => u.count x + v.count x) x y := by
  by_cases hne : u = v
  · subst hne
    have : merge u u = u := by simp [merge, mergeIter]
    rw [this]
    unfold Before
    simp only
    constructor <;> (rintro (h | ⟨h, h'⟩); exact Or.inl (by omega); exact Or.inr ⟨by omega, h'⟩)
  · unfold Before
    simp only [count_merge hu hv hne]

theorem mem_keys_lookup {m : List (T × Nat)} (x : T) :
    x ∈ m.map Prod.fst ↔ lookup x m ≠ none := by
  rw [ne_eq, lookup_eq_none, not_not]

theorem mem_index_merge {u v : Universe T} (hu : u.Ok) (hv : v.Ok) (x : T) :
    x ∈ (merge u v).index ↔ x ∈ u.index ∨ x ∈ v.index := by
  by_cases hne : u = v
  · subst hne
    have : merge u u = u := by simp [merge, mergeIter]
    rw [this]; simp
  · rw [Universe.mem_index (ok_merge hu), Universe.mem_index hu, Universe.mem_index hv, mem_keys_lookup, mem_keys_lookup,
      mem_keys_lookup, count_merge_lookup hu hv hne]
    cases lookup x v.occurrences <;> simp

/-! ### binary operations -/

theorem orderSafe_congr {A : Set (Finset T)} {c c' d d' : T → Nat}
    (hc : ∀ x y, Before c x y ↔ Before d x y) (hc' : ∀ x y, Before c' x y ↔ Before d' x y)
    (h : OrderSafe A c c') : OrderSafe A d d' := by
  intro s hs t ht x hx y hy h1 h2 h3
  exact h s hs t ht x hx y hy ((hc _ _).mpr h1) ((hc' _ _).mpr h2)
    (fun z hz => h3 z ((hc _ _).mp hz))

theorem translateRoots_ok {f g : Forest T} (hf : f.Canon) (hg : g.Canon) :
    ∃ a b, translateRoots f g = some (merge f.univ g.univ, a, b) ∧ a.Ordered ∧ b.Ordered ∧
      (merge f.univ g.univ).InU a ∧ (merge f.univ g.univ).InU b ∧
      translateRoot f.univ (merge f.univ g.univ) f.root = some a ∧
      translateRoot g.univ (merge f.univ g.univ) g.root = some b ∧
      (∀ S ∈ (merge f.univ g.univ).Fam a, ∀ x ∈ S, ∃ R ∈ f.fam, x ∈ R) ∧
      (∀ S ∈ (merge f.univ g.univ).Fam b, ∀ x ∈ S, ∃ R ∈ g.fam, x ∈ R) ∧
      (Compatible f.fam g.fam → (merge f.univ g.univ).Fam a = f.fam ∧
        (merge f.univ g.univ).Fam b = g.fam) := by
  have hu := hf.ok
  have hv := hg.ok
  have hm := ok_merge (v := g.univ) hu
  obtain ⟨a, ea, oa, ia, na, _, ca⟩ := translate_fam hu hm
    (fun x hx => (mem_index_merge hu hv x).mpr (Or.inl hx)) f.root hf.ordered hf.inU
  obtain ⟨b, eb, ob, ib, nb, _, cb⟩ := translate_fam hv hm
    (fun x hx => (mem_index_merge hu hv x).mpr (Or.inr hx)) g.root hg.ordered hg.inU
  rw [hf.fam] at na ca
  rw [hg.fam] at nb cb
  refine ⟨a, b, by simp [translateRoots, ea, eb], oa, ob, ia, ib, ea, eb, na, nb, fun hc => ⟨ca ?_, cb ?_⟩⟩
  · refine orderSafe_congr (fun x y => ?_) (fun x y => ?_) hc.1
    · simp only [Before, hf.count]
    · rw [before_merge hu hv]; simp only [Before, hf.count, hg.count]
  · refine orderSafe_congr (fun x y => ?_) (fun x y => ?_) hc.2
    · simp only [Before, hg.count]
    · rw [before_merge hu hv]; simp only [Before, hf.count, hg.count]

theorem fam_union {u : Universe T} {a b : Node} (oa : a.Ordered) (ob : b.Ordered) :
    u.Fam (Node.union a b) = u.Fam a ∪ u.Fam b := by
  ext S
  simp only [Fam, Set.mem_union, Set.mem_ofPred_eq, Node.mem_union oa ob]
  tauto

theorem inU_union {u : Universe T} {a b : Node} (oa : a.Ordered) (ob : b.Ordered) (ha : u.InU a)
    (hb : u.InU b) : u.InU (Node.union a b) := by
  intro s hs
  rcases (Node.mem_union oa ob).mp hs with h | h
  · exact ha s h
  · exact hb s h

theorem inU_intersect {u : Universe T} {a b : Node} (oa : a.Ordered) (ob : b.Ordered) (ha : u.InU a)
    (hb : u.InU b) : u.InU (Node.intersect a b) := by
  intro s hs
  rcases (Node.intersect_ok a b oa ob).2.2.2 s hs with ⟨h, _⟩ | ⟨h, _⟩
  · exact ha s h
  · exact hb s h

theorem inU_product {u : Universe T} {a b : Node} (oa : a.Ordered) (ob : b.Ordered) (ha : u.InU a)
    (hb : u.InU b) : u.InU (Node.product a b) := by
  intro s hs k hk
  obtain ⟨p, hp, q, hq, rfl⟩ := (Node.product_ok a b oa ob).2.2.1 s hs
  rcases Finset.mem_union.mp hk with h | h
  · exact ha p hp k h
  · exact hb q hq k h

theorem fam_intersect_lower {u : Universe T} {a b : Node} (oa : a.Ordered) (ob : b.Ordered) :
    u.Fam a ∩ u.Fam b ⊆ u.Fam (Node.intersect a b) := by
  rintro S ⟨h1, h2⟩
  exact ⟨h1.1, (Node.intersect_ok a b oa ob).2.2.1 _ h1.2 h2.2⟩

theorem fam_intersect_upper {u : Universe T} (hu : u.Ok) {a b : Node} (oa : a.Ordered) (ob : b.Ordered)
    (ha : u.InU a) (hb : u.InU b) {S : Finset T} (hS : S ∈ u.Fam (Node.intersect a b)) :
    (S ∈ u.Fam a ∧ (S ∈ u.Fam b ∨ ∃ Q ∈ u.Fam b, Q ⊂ S)) ∨
      (S ∈ u.Fam b ∧ (S ∈ u.Fam a ∨ ∃ Q ∈ u.Fam a, Q ⊂ S)) := by
  have low : ∀ {n : Node}, u.InU n → (∃ q ∈ n.Den, q ⊂ S.image u.prio) → ∃ Q ∈ u.Fam n, Q ⊂ S := by
    rintro n hn ⟨q, hq, hqs⟩
    obtain ⟨Q, hQ, rfl⟩ := (mem_den_iff hu hn).mp hq
    exact ⟨Q, hQ, (image_prio_ssubset hu hQ.1 hS.1).mp hqs⟩
  rcases (Node.intersect_ok a b oa ob).2.2.2 _ hS.2 with ⟨h1, h2 | h2⟩ | ⟨h1, h2 | h2⟩
  · exact Or.inl ⟨⟨hS.1, h1⟩, Or.inl ⟨hS.1, h2⟩⟩
  · exact Or.inl ⟨⟨hS.1, h1⟩, Or.inr (low hb h2)⟩
  · exact Or.inr ⟨⟨hS.1, h1⟩, Or.inl ⟨hS.1, h2⟩⟩
  · exact Or.inr ⟨⟨hS.1, h1⟩, Or.inr (low ha h2)⟩

theorem fam_product_upper {u : Universe T} (hu : u.Ok) {a b : Node} (oa : a.Ordered) (ob : b.Ordered)
    (ha : u.InU a) (hb : u.InU b) : u.Fam (Node.product a b) ⊆ prod (u.Fam a) (u.Fam b) := by
  intro S hS
  obtain ⟨p, hp, q, hq, e⟩ := (Node.product_ok a b oa ob).2.2.1 _ hS.2
  obtain ⟨P, hP, rfl⟩ := (mem_den_iff hu ha).mp hp
  obtain ⟨Q, hQ, rfl⟩ := (mem_den_iff hu hb).mp hq
  rw [← Finset.image_union] at e
  refine ⟨P, hP, Q, hQ, image_prio_inj hu hS.1 ?_ e⟩
  intro x hx
  rcases Finset.mem_union.mp hx with h | h
  · exact hP.1 x h
  · exact hQ.1 x h

theorem fam_product_lower {u : Universe T} (hu : u.Ok) {a b : Node} (oa : a.Ordered) (ob : b.Ordered)
    (ha : u.InU a) (hb : u.InU b)
    (h : UnionClosed (u.Fam a) ∨ UnionClosed (u.Fam b) ∨ ItemDisjoint (u.Fam a) (u.Fam b)) :
    prod (u.Fam a) (u.Fam b) ⊆ u.Fam (Node.product a b) := by
  have hunion : ∀ {P Q : Finset T}, u.Known P → u.Known Q → u.Known (P ∪ Q) := by
    intro P Q hP hQ x hx
    rcases Finset.mem_union.mp hx with h | h
    · exact hP x h
    · exact hQ x h
  have hclosed : ∀ {n : Node}, u.InU n → UnionClosed (u.Fam n) → Node.UClosed n.Den := by
    intro n hn hc p hp q hq
    obtain ⟨P, hP, rfl⟩ := (mem_den_iff hu hn).mp hp
    obtain ⟨Q, hQ, rfl⟩ := (mem_den_iff hu hn).mp hq
    rw [← Finset.image_union]
    exact (hc P hP Q hQ).2
  have hgood : Node.Good a.Den b.Den := by
    rcases h with h | h | h
    · exact Or.inl (hclosed ha h)
    · exact Or.inr (Or.inl (hclosed hb h))
    · refine Or.inr (Or.inr ?_)
      intro p hp q hq
      obtain ⟨P, hP, rfl⟩ := (mem_den_iff hu ha).mp hp
      obtain ⟨Q, hQ, rfl⟩ := (mem_den_iff hu hb).mp hq
      rw [Finset.disjoint_left]
      intro k hk hk'
      obtain ⟨x, hx, rfl⟩ := Finset.mem_image.mp hk
      rw [mem_image_prio hu hQ.1 (hP.1 x hx)] at hk'
      exact Finset.disjoint_left.mp (h P hP Q hQ) hx hk'
  rintro S ⟨P, hP, Q, hQ, rfl⟩
  refine ⟨hunion hP.1 hQ.1, ?_⟩
  refine (Node.product_ok a b oa ob).2.2.2 hgood _ ⟨_, hP.2, _, hQ.2, ?_⟩
  rw [Finset.image_union]

end Forest
end Verif.Zdd2
