import Verif.Rename
import Verif.Zdd2.Renaming
import Verif.Matrix.Values
import Verif.Matrix.Counts

/-!
# Other item names: the matrix forest (C131)
-/

set_option linter.unusedSimpArgs false
set_option linter.unusedVariables false
set_option linter.unusedSectionVars false

namespace Verif.Matrix
open Verif Verif.Spec

universe u v
variable {T : Type u} {U : Type v} [LinearOrder T] [LinearOrder U] {σ : T → U}

/-- The family with other items.  Not code: specification. -/
def renamed (σ : T → U) (A : Set (Finset T)) : Set (Finset U) := {B | ∃ s ∈ A, B = s.image σ}

theorem mem_image_iff (hσ : σ.Injective) (s : Finset T) (x : T) : σ x ∈ s.image σ ↔ x ∈ s := by
  rw [Finset.mem_image]
  exact ⟨fun ⟨y, hy, e⟩ => hσ e ▸ hy, fun h => ⟨x, h, rfl⟩⟩

theorem image_mem (hσ : σ.Injective) (A : Set (Finset T)) (s : Finset T) : s.image σ ∈ renamed σ A ↔ s ∈ A :=
  ⟨fun ⟨t, ht, e⟩ => Finset.image_injective hσ e ▸ ht, fun h => ⟨s, h, rfl⟩⟩

theorem renamed_inj (hσ : σ.Injective) : (renamed σ).Injective := by
  intro A B h
  ext s
  rw [← image_mem hσ A, ← image_mem hσ B, h]

theorem renamed_ext (hσ : σ.Injective) {A : Set (Finset T)} {B : Set (Finset U)} (h1 : ∀ s, s.image σ ∈ B ↔ s ∈ A)
    (h2 : ∀ t ∈ B, ∃ s : Finset T, t = s.image σ) : B = renamed σ A := by
  ext t
  constructor
  · intro ht
    obtain ⟨s, rfl⟩ := h2 t ht
    exact ⟨s, (h1 s).mp ht, rfl⟩
  · rintro ⟨s, hs, rfl⟩
    exact (h1 s).mpr hs

theorem toFinset_map_image (l : List T) : (l.map σ).toFinset = l.toFinset.image σ := by
  ext y; simp

theorem one_renamed (hσ : σ.Injective) (A : Set (Finset T)) : One (renamed σ A) ↔ One A := by
  constructor
  · rintro ⟨t, ht⟩
    have : t ∈ renamed σ A := by rw [ht]; rfl
    obtain ⟨s, hs, rfl⟩ := this
    refine ⟨s, Set.ext fun r => ⟨fun hr => ?_, fun hr => by rw [Set.mem_singleton_iff.mp hr]; exact hs⟩⟩
    have h1 : r.image σ ∈ renamed σ A := ⟨r, hr, rfl⟩
    rw [ht] at h1
    exact Finset.image_injective hσ h1
  · rintro ⟨s, rfl⟩
    refine ⟨s.image σ, Set.ext fun t => ⟨?_, ?_⟩⟩
    · rintro ⟨r, hr, rfl⟩; rw [Set.mem_singleton_iff.mp hr]; rfl
    · rintro rfl; exact ⟨s, rfl, rfl⟩

theorem empty_renamed (A : Set (Finset T)) : renamed σ A = ∅ ↔ A = ∅ := by
  rw [Set.eq_empty_iff_forall_notMem, Set.eq_empty_iff_forall_notMem]
  exact ⟨fun h s hs => h _ ⟨s, hs, rfl⟩, fun h t ⟨s, hs, _⟩ => h s hs⟩

theorem union_renamed (A B : Set (Finset T)) : renamed σ A ∪ renamed σ B = renamed σ (A ∪ B) := by
  ext t
  constructor
  · rintro (⟨s, hs, rfl⟩ | ⟨s, hs, rfl⟩)
    · exact ⟨s, .inl hs, rfl⟩
    · exact ⟨s, .inr hs, rfl⟩
  · rintro ⟨s, hs | hs, rfl⟩
    · exact .inl ⟨s, hs, rfl⟩
    · exact .inr ⟨s, hs, rfl⟩

theorem inter_renamed (hσ : σ.Injective) (A B : Set (Finset T)) :
    renamed σ A ∩ renamed σ B = renamed σ (A ∩ B) := by
  refine renamed_ext hσ (fun s => ?_) ?_
  · rw [Set.mem_inter_iff, image_mem hσ, image_mem hσ]; rfl
  · rintro t ⟨⟨s, _, e⟩, _⟩; exact ⟨s, e⟩

theorem prod_renamed (A B : Set (Finset T)) : prod (renamed σ A) (renamed σ B) = renamed σ (prod A B) := by
  ext t
  constructor
  · rintro ⟨_, ⟨a, ha, rfl⟩, _, ⟨b, hb, rfl⟩, rfl⟩
    exact ⟨a ∪ b, ⟨a, ha, b, hb, rfl⟩, (Finset.image_union _ _).symm⟩
  · rintro ⟨_, ⟨a, ha, b, hb, rfl⟩, rfl⟩
    exact ⟨_, ⟨a, ha, rfl⟩, _, ⟨b, hb, rfl⟩, Finset.image_union _ _⟩

theorem having_renamed (hσ : σ.Injective) (A : Set (Finset T)) (x : T) :
    having (renamed σ A) (σ x) = renamed σ (having A x) := by
  refine renamed_ext hσ (fun s => ?_) ?_
  · simp only [having, Set.mem_ofPred_eq, image_mem hσ, mem_image_iff hσ]
  · rintro t ⟨⟨s, _, e⟩, _⟩; exact ⟨s, e⟩

theorem without_renamed (hσ : σ.Injective) (A : Set (Finset T)) (x : T) :
    without (renamed σ A) (σ x) = renamed σ (without A x) := by
  refine renamed_ext hσ (fun s => ?_) ?_
  · simp only [without, Set.mem_ofPred_eq, image_mem hσ, mem_image_iff hσ]
  · rintro t ⟨⟨s, _, e⟩, _⟩; exact ⟨s, e⟩

theorem havingAll_renamed (hσ : σ.Injective) (A : Set (Finset T)) (xs : List T) :
    havingAll (renamed σ A) (xs.map σ) = renamed σ (havingAll A xs) := by
  refine renamed_ext hσ (fun s => ?_) ?_
  · simp only [havingAll, Set.mem_ofPred_eq, image_mem hσ, List.forall_mem_map, mem_image_iff hσ]
  · rintro t ⟨⟨s, _, e⟩, _⟩; exact ⟨s, e⟩

theorem havingNone_renamed (hσ : σ.Injective) (A : Set (Finset T)) (xs : List T) :
    havingNone (renamed σ A) (xs.map σ) = renamed σ (havingNone A xs) := by
  refine renamed_ext hσ (fun s => ?_) ?_
  · simp only [havingNone, Set.mem_ofPred_eq, image_mem hσ, List.forall_mem_map, mem_image_iff hσ]
  · rintro t ⟨⟨s, _, e⟩, _⟩; exact ⟨s, e⟩

theorem meaning_renamed (hσ : σ.Injective) (p : Prog T) : (p.rename σ).meaning = renamed σ p.meaning := by
  induction p with
  | empty => exact ((empty_renamed _).mpr rfl).symm
  | unit s =>
    simp only [Prog.rename, Prog.meaning, toFinset_map_image]
    ext t
    constructor
    · rintro rfl; exact ⟨_, rfl, rfl⟩
    · rintro ⟨r, rfl, rfl⟩; rfl
  | many m =>
    ext t
    constructor
    · rintro ⟨c, hc, rfl⟩
      obtain ⟨d, hd, rfl⟩ := List.mem_map.mp hc
      exact ⟨_, ⟨d, hd, rfl⟩, toFinset_map_image d⟩
    · rintro ⟨_, ⟨d, hd, rfl⟩, rfl⟩
      exact ⟨_, List.mem_map_of_mem hd, toFinset_map_image d⟩
  | unique s =>
    ext t
    constructor
    · rintro ⟨y, hy, rfl⟩
      obtain ⟨x, hx, rfl⟩ := List.mem_map.mp hy
      exact ⟨_, ⟨x, hx, rfl⟩, (Finset.image_singleton _ _).symm⟩
    · rintro ⟨_, ⟨x, hx, rfl⟩, rfl⟩
      exact ⟨_, List.mem_map_of_mem hx, Finset.image_singleton _ _⟩
  | union a b iha ihb => simp only [Prog.rename, Prog.meaning, iha, ihb, union_renamed]
  | intersect a b iha ihb => simp only [Prog.rename, Prog.meaning, iha, ihb, inter_renamed hσ]
  | product a b iha ihb => simp only [Prog.rename, Prog.meaning, iha, ihb, prod_renamed]
  | subset a x iha => simp only [Prog.rename, Prog.meaning, iha, having_renamed hσ]
  | subsetNot a x iha => simp only [Prog.rename, Prog.meaning, iha, without_renamed hσ]
  | subsetAll a xs iha => simp only [Prog.rename, Prog.meaning, iha, havingAll_renamed hσ]
  | subsetNone a xs iha => simp only [Prog.rename, Prog.meaning, iha, havingNone_renamed hσ]

theorem alone_renamed (hσ : σ.Injective) (p : Prog T) : Alone (p.rename σ) ↔ Alone p := by
  induction p with
  | empty => exact Iff.rfl
  | unit s => exact Iff.rfl
  | many m => simp only [Prog.rename, Alone, List.length_map]
  | unique s => simp only [Prog.rename, Alone, List.length_map]
  | union a b iha ihb =>
    simp only [Prog.rename, Alone, iha, ihb, meaning_renamed hσ, empty_renamed, (renamed_inj hσ).eq_iff]
  | intersect a b iha ihb =>
    simp only [Prog.rename, Alone, iha, ihb, meaning_renamed hσ, inter_renamed hσ, one_renamed hσ,
      (renamed_inj hσ).eq_iff]
  | product a b iha ihb => simp only [Prog.rename, Alone, meaning_renamed hσ, one_renamed hσ]
  | subset a x iha => simp only [Prog.rename, Alone, meaning_renamed hσ, having_renamed hσ, one_renamed hσ]
  | subsetNot a x iha => simp only [Prog.rename, Alone, meaning_renamed hσ, without_renamed hσ, one_renamed hσ]
  | subsetAll a xs iha =>
    simp only [Prog.rename, Alone, iha, meaning_renamed hσ, havingAll_renamed hσ, one_renamed hσ, List.map_eq_nil_iff]
  | subsetNone a xs iha =>
    simp only [Prog.rename, Alone, iha, meaning_renamed hσ, havingNone_renamed hσ, one_renamed hσ, List.map_eq_nil_iff]

section
variable {p q : Prog T} {f f₂ : Forest T} {g g₂ : Forest U}

/-- C131: the trees are the renamed trees, each listed in the order of the new names. -/
theorem trees_renamed (hσ : σ.Injective) (hf : Runs p f) (hg : Runs (p.rename σ) g) (h : HashOrder (List T))
    (h' : HashOrder (List U)) : (g.trees h').Perm ((f.trees h).map (fun c => sorted (c.map σ))) := by
  have rf : Reach f := ⟨p, hf⟩
  have rg : Reach g := ⟨_, hg⟩
  obtain ⟨f1, f2, f3⟩ := trees_exact h rf
  obtain ⟨g1, g2, g3⟩ := trees_exact h' rg
  have nd : ((f.trees h).map (fun c => sorted (c.map σ))).Nodup := by
    refine f3.map_on fun a ha b hb e => ?_
    refine lt_ext (f1 a ha) (f1 b hb) fun x => ?_
    have := congrArg (σ x ∈ ·) e
    simpa only [mem_sorted, List.mem_map_of_injective hσ, eq_iff_iff] using this
  have hm := meaning_renamed hσ p
  rw [← run_family hf h, ← run_family hg h'] at hm
  refine (List.perm_ext_iff_of_nodup g3 nd).2 fun c => ?_
  have ts : ∀ d : List T, (sorted (d.map σ)).toFinset = d.toFinset.image σ := fun d => by ext y; simp
  rw [List.mem_map]
  constructor
  · intro hc
    have : c.toFinset ∈ family (g.trees h') := ⟨c, hc, rfl⟩
    rw [hm] at this
    obtain ⟨_, ⟨d, hd, rfl⟩, e⟩ := this
    exact ⟨d, hd, toFinset_inj_of_lt (sorted_lt_of_nodup ((nodup_of_lt (f1 d hd)).map hσ)) (g1 c hc)
      (by rw [ts, e])⟩
  · rintro ⟨d, hd, rfl⟩
    have : d.toFinset.image σ ∈ family (g.trees h') := by rw [hm]; exact ⟨_, ⟨d, hd, rfl⟩, rfl⟩
    obtain ⟨c, hc, e⟩ := this
    rwa [toFinset_inj_of_lt (sorted_lt_of_nodup ((nodup_of_lt (f1 d hd)).map hσ)) (g1 c hc) (by rw [ts, e])]

/-- C131: length and emptiness are the same. -/
theorem size_renamed (hσ : σ.Injective) (hf : Runs p f) (hg : Runs (p.rename σ) g) :
    g.len = f.len ∧ g.isEmpty = f.isEmpty := by
  have hp := trees_renamed hσ hf hg (HashOrder.anyOrder _) (HashOrder.anyOrder _)
  constructor
  · obtain ⟨S, a, b⟩ := len_exact (HashOrder.anyOrder _) ⟨p, hf⟩
    obtain ⟨S', a', b'⟩ := len_exact (HashOrder.anyOrder _) ⟨_, hg⟩
    rw [b, b']
    rw [run_family hf] at a
    rw [run_family hg, meaning_renamed hσ] at a'
    have : S' = S.image (Finset.image σ) := by
      ext t
      rw [a', Finset.mem_image]
      constructor
      · rintro ⟨s, hs, rfl⟩; exact ⟨s, (a s).mpr hs, rfl⟩
      · rintro ⟨s, hs, rfl⟩; exact ⟨s, (a s).mp hs, rfl⟩
    rw [this, Finset.card_image_of_injective _ (Finset.image_injective hσ)]
  · rw [Bool.eq_iff_iff, isEmpty_exact (HashOrder.anyOrder _) ⟨p, hf⟩, isEmpty_exact (HashOrder.anyOrder _) ⟨_, hg⟩,
      run_family hf, run_family hg, meaning_renamed hσ, empty_renamed]

/-- C131: every item occurs as often as it did, listed in the order of the new names. -/
theorem occurrences_renamed (hσ : σ.Injective) (hf : Runs p f) (hg : Runs (p.rename σ) g) (h : HashOrder (List T))
    (mo : HashOrder (T × ℕ)) (h' : HashOrder (List U)) (mo' : HashOrder (U × ℕ)) :
    g.occurrences h' mo' = sortByKey ((f.occurrences h mo).map (fun e => (σ e.1, e.2))) := by
  obtain ⟨f1, f2⟩ := occurrences_exact h h mo ⟨p, hf⟩
  obtain ⟨g1, g2⟩ := occurrences_exact h' h' mo' ⟨_, hg⟩
  have hp := trees_renamed hσ hf hg h h'
  have mm : ∀ (c : List T) x, σ x ∈ sorted (c.map σ) ↔ x ∈ c := fun c x => by
    rw [mem_sorted, List.mem_map_of_injective hσ]
  symm
  refine sortByKey_of_perm g1 ?_
  have nf : (f.occurrences h mo).Nodup := f1.imp (fun {a b} hh e => by subst e; exact lt_irrefl _ hh)
  have ng : (g.occurrences h' mo').Nodup := g1.imp (fun {a b} hh e => by subst e; exact lt_irrefl _ hh)
  refine (List.perm_ext_iff_of_nodup (nf.map fun a b e => ?_) ng).2 fun e => ?_
  · simp only [Prod.mk.injEq] at e
    exact Prod.ext (hσ e.1) e.2
  obtain ⟨y, n⟩ := e
  have cnt : ∀ x, ((g.trees h').filter (fun l => decide (σ x ∈ l))).length =
      ((f.trees h).filter (fun l => decide (x ∈ l))).length := by
    intro x
    rw [(hp.filter _).length_eq, List.filter_map, List.length_map]
    congr 1
    exact List.filter_congr fun c _ => by simp only [Function.comp_apply, mm]
  rw [g2, List.mem_map]
  constructor
  · rintro ⟨⟨x, k⟩, hx, e⟩
    simp only [Prod.mk.injEq] at e
    obtain ⟨rfl, rfl⟩ := e
    obtain ⟨⟨l, hl, hxl⟩, rfl⟩ := (f2 x k).mp hx
    exact ⟨⟨_, hp.mem_iff.mpr (List.mem_map_of_mem hl), (mm l x).mpr hxl⟩, (cnt x).symm⟩
  · rintro ⟨⟨l, hl, hy⟩, rfl⟩
    obtain ⟨c, hc, rfl⟩ := List.mem_map.mp (hp.mem_iff.mp hl)
    rw [mem_sorted] at hy
    obtain ⟨x, hx, rfl⟩ := List.mem_map.mp hy
    exact ⟨(x, _), (f2 x _).mpr ⟨⟨c, hc, hx⟩, rfl⟩, by rw [cnt]⟩

/-- C131: the results of two programs are equal (`==`) exactly if they were. -/
theorem equal_renamed (hσ : σ.Injective) (hf : Runs p f) (hf₂ : Runs q f₂) (hg : Runs (p.rename σ) g)
    (hg₂ : Runs (q.rename σ) g₂) : g = g₂ ↔ f = f₂ := by
  rw [values_exact hg hg₂, values_exact hf hf₂, meaning_renamed hσ, meaning_renamed hσ, (renamed_inj hσ).eq_iff,
    alone_renamed hσ, alone_renamed hσ]
end

/-- Not vacuous: exchanging two names, which does not keep their order. -/
example : ∃ f g, Runs (.union (.many [[1, 2], [3]]) (.unit [2])) f ∧
    Runs (Matrix.Prog.rename (Equiv.swap 1 2 : ℕ → ℕ) (.union (.many [[1, 2], [3]]) (.unit [2]))) g ∧ g.len = f.len ∧
    (g.trees (HashOrder.anyOrder _)).Perm ((f.trees (HashOrder.anyOrder _)).map
      (fun c => sorted (c.map (Equiv.swap 1 2 : ℕ → ℕ)))) ∧
    g.occurrences (HashOrder.anyOrder _) (HashOrder.anyOrder _) = sortByKey
      ((f.occurrences (HashOrder.anyOrder _) (HashOrder.anyOrder _)).map (fun e => ((Equiv.swap 1 2 : ℕ → ℕ) e.1, e.2))) ∧
    (g = g ↔ f = f) := by
  have hσ := (Equiv.swap (1 : ℕ) 2).injective
  obtain ⟨f, hf⟩ := exists_run (.union (.many [[1, 2], [3]]) (.unit [2]) : Prog ℕ)
  obtain ⟨g, hg⟩ := exists_run (Matrix.Prog.rename (Equiv.swap 1 2 : ℕ → ℕ) (.union (.many [[1, 2], [3]]) (.unit [2])))
  exact ⟨f, g, hf, hg, (size_renamed hσ hf hg).1, trees_renamed hσ hf hg _ _, occurrences_renamed hσ hf hg _ _ _ _,
    equal_renamed hσ hf hf hg hg⟩

end Verif.Matrix
