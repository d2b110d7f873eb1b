/-
Property theorems C15, C16, C17, C46: exponent tuples.
-/
import Verif.MomentsLemmas
import Verif.Props.Streaming

namespace Lbm

/-! ### C15 -/

/-- C15: `moments_of_order` lists every tuple of the given length and sum exactly once; without permutations exactly
the descending ones. (Its internal assertions never fail.) -/
theorem C15_moments_of_order (order dim : ℕ) (hd : 1 ≤ dim) (perm : Bool) :
    ∃ l, momentsOfOrder order dim perm = some l ∧ l.Nodup ∧
      ∀ t, t ∈ l ↔ t.length = dim ∧ t.sum = order ∧ (perm = false → t.Pairwise (· ≥ ·)) := by
  obtain ⟨r, rfl⟩ : ∃ r, dim = r + 1 := ⟨dim - 1, by omega⟩
  have hmem : ∀ t, t ∈ fixedSumHelper (List.range (order + 1)) (!perm) r [] order ↔
      t.length = r + 1 ∧ t.sum = order ∧ (perm = false → t.Pairwise (· ≥ ·)) := by
    intro t
    rw [mem_fixedSumHelper]
    constructor
    · rintro ⟨u, h1, h2, -, h4, h5⟩
      simp at h4; subst h4
      exact ⟨h1, h2, fun h => h5 (by simp [h])⟩
    · rintro ⟨h1, h2, h3⟩
      refine ⟨t, h1, h2, ?_, rfl, fun h => h3 (by simpa using h)⟩
      intro e he
      have := List.single_le_sum (l := t) (by simp) e he
      simp; omega
  refine ⟨_, ?_, nodup_fixedSumHelper List.nodup_range (!perm) r [] order, hmem⟩
  unfold momentsOfOrder fixedSumTuples
  simp only [Option.bind_eq_bind, Option.bind_some]
  rw [if_pos]
  rw [List.all_eq_true]
  intro t ht
  obtain ⟨h1, h2, -⟩ := (hmem t).1 ht
  simp [h1, h2]

/-- C15: one representative per permutation class: every tuple of the given length and sum is a permutation of
exactly one listed tuple. -/
theorem C15_one_representative_per_class (order dim : ℕ) (hd : 1 ≤ dim) :
    ∃ l, momentsOfOrder order dim false = some l ∧
      ∀ t : List ℕ, t.length = dim → t.sum = order → ∃! s, s ∈ l ∧ s.Perm t := by
  obtain ⟨l, h1, -, h2⟩ := C15_moments_of_order order dim hd false
  refine ⟨l, h1, fun t ht hs => ?_⟩
  refine ⟨t.mergeSort (fun a b => decide (a ≥ b)), ⟨?_, List.mergeSort_perm t _⟩, ?_⟩
  · rw [h2]
    refine ⟨by simp [ht], by rw [(List.mergeSort_perm t _).sum_eq]; exact hs, fun _ => ?_⟩
    have := List.pairwise_mergeSort (le := fun a b => decide (a ≥ b)) (by simp; omega) (by simp; omega) t
    simpa using this
  · rintro s ⟨hs1, hs2⟩
    have hsd := ((h2 s).1 hs1).2.2 rfl
    have hmd := List.pairwise_mergeSort (le := fun a b => decide (a ≥ b)) (by simp; omega) (by simp; omega) t
    have hmd' : (t.mergeSort (fun a b => decide (a ≥ b))).Pairwise (· ≥ ·) := by simpa using hmd
    exact (hs2.trans (List.mergeSort_perm t _).symm).eq_of_pairwise (fun a b _ _ h1 h2 => by omega) hsd hmd'

/-- C15: `moments_up_to_order` lists every tuple of the given length with sum at most `order` exactly once. -/
theorem C15_moments_up_to_order (order dim : ℕ) (hd : 1 ≤ dim) (perm : Bool) :
    ∃ l, momentsUpToOrder order dim perm = some l ∧ l.Nodup ∧
      ∀ t, t ∈ l ↔ t.length = dim ∧ t.sum ≤ order ∧ (perm = false → t.Pairwise (· ≥ ·)) := by
  have h : ∀ o, ∃ l, momentsOfOrder o dim perm = some l ∧ l.Nodup ∧
      ∀ t, t ∈ l ↔ t.length = dim ∧ t.sum = o ∧ (perm = false → t.Pairwise (· ≥ ·)) :=
    fun o => C15_moments_of_order o dim hd perm
  choose f hf1 hf2 hf3 using h
  refine ⟨((List.range (order + 1)).map f).flatten, ?_, ?_, ?_⟩
  · unfold momentsUpToOrder
    have : (List.range (order + 1)).mapM (fun o => momentsOfOrder o dim perm) =
        some ((List.range (order + 1)).map f) := by
      generalize List.range (order + 1) = os
      induction os with
      | nil => rfl
      | cons o os ih => rw [List.mapM_cons, hf1, ih]; rfl
    rw [this]; rfl
  · rw [← List.flatMap_def, List.nodup_flatMap]
    refine ⟨fun o _ => hf2 o, List.nodup_range.imp ?_⟩
    intro a b hab t h1 h2
    exact hab (((hf3 a t).1 h1).2.1.symm.trans ((hf3 b t).1 h2).2.1)
  · intro t
    simp only [List.mem_flatten, List.mem_map, List.mem_range]
    constructor
    · rintro ⟨_, ⟨o, ho, rfl⟩, ht⟩
      obtain ⟨h1, h2, h3⟩ := (hf3 o t).1 ht
      exact ⟨h1, by omega, h3⟩
    · rintro ⟨h1, h2, h3⟩
      exact ⟨_, ⟨t.sum, by omega, rfl⟩, (hf3 _ t).2 ⟨h1, rfl, h3⟩⟩

/-- C15: `moments_up_to_component_order` lists every tuple of the given length with entries at most `order` exactly
once. -/
theorem C15_moments_up_to_component_order (order dim : ℕ) :
    (momentsUpToComponentOrder order dim).Nodup ∧
      ∀ t, t ∈ momentsUpToComponentOrder order dim ↔ t.length = dim ∧ ∀ e ∈ t, e ≤ order := by
  refine ⟨nodup_pyProduct _ fun l hl => by rw [(List.mem_replicate.1 hl).2]; exact List.nodup_range, fun t => ?_⟩
  unfold momentsUpToComponentOrder
  rw [mem_pyProduct]
  induction dim generalizing t with
  | zero =>
    cases t <;> simp
  | succ dim ih =>
    cases t with
    | nil => simp [List.replicate_succ]
    | cons e t =>
      rw [List.replicate_succ, List.forall₂_cons, ih]
      simp only [List.mem_range, List.length_cons, List.mem_cons, forall_eq_or_imp]
      constructor
      · rintro ⟨h1, h2, h3⟩; exact ⟨by omega, by omega, h3⟩
      · rintro ⟨h1, h2, h3⟩; exact ⟨by omega, by omega, h3⟩

/-- C15: `moment_permutations` lists exactly the permutations of a non-empty tuple, each once, for every iteration
order of python's sets, and their number is `moment_multiplicity`. -/
theorem C15_permutations (ord : List ℕ → List ℕ) (ho : SetOrder ord) (m : List ℕ) (hm : m ≠ []) :
    (momentPermutations ord m).Nodup ∧ (∀ t, t ∈ momentPermutations ord m ↔ t.Perm m) ∧
      (momentPermutations ord m).length = momentMultiplicity m := by
  obtain ⟨n, hn⟩ : ∃ n, m.length = n + 1 := ⟨m.length - 1, by have := List.length_pos_iff.2 hm; omega⟩
  unfold momentPermutations
  rw [hn]
  refine ⟨nodup_uniquePerms ho _ _, mem_uniquePerms ho n m hn, ?_⟩
  rw [momentMultiplicity_eq, hn, ← length_uniquePerms ho n m hn, Nat.mul_div_cancel _ (factProd_pos _ _)]

/-- The empty tuple is excluded for a reason: it has one permutation (itself) and multiplicity 1, but
`moment_permutations(())` yields nothing (`moments.py:785-794` treats only length one as base case). -/
theorem C15_empty_tuple (ord : List ℕ → List ℕ) : momentPermutations ord [] = [] ∧ momentMultiplicity [] = 1 :=
  ⟨rfl, rfl⟩

/-- C15: `extend_moments_with_permutations` lists exactly the permutations of the given tuples, each once. -/
theorem C15_extend (ord : List ℕ → List ℕ) (ho : SetOrder ord) (ms : List (List ℕ)) (hm : ∀ m ∈ ms, m ≠ []) :
    (extendWithPermutations ord ms).Nodup ∧
      ∀ t, t ∈ extendWithPermutations ord ms ↔ ∃ m ∈ ms, t.Perm m := by
  refine ⟨nodup_uniqueList _ _, fun t => ?_⟩
  unfold extendWithPermutations
  simp only [mem_uniqueList, List.mem_flatMap, List.not_mem_nil, not_false_eq_true, and_true]
  constructor
  · rintro ⟨m, h1, h2⟩; exact ⟨m, h1, ((C15_permutations ord ho m (hm m h1)).2.1 t).1 h2⟩
  · rintro ⟨m, h1, h2⟩; exact ⟨m, h1, ((C15_permutations ord ho m (hm m h1)).2.1 t).2 h2⟩

/-- Sets are iterated in some order: `dedup` is one. -/
theorem dedup_setOrder {α : Type} [DecidableEq α] : SetOrder (List.dedup : List α → List α) :=
  fun l => ⟨List.nodup_dedup l, fun _ => List.mem_dedup⟩

example : momentsOfOrder 3 2 = some [[0, 3], [1, 2], [2, 1], [3, 0]] ∧
    momentsOfOrder 3 2 false = some [[2, 1], [3, 0]] ∧ momentMultiplicity [2, 0, 0] = 3 ∧
    (momentsUpToComponentOrder 2 3).length = 27 := by decide +kernel

/-! ### C16 -/

/-- C16 for collections closed under permutation (all uses in the library that rely on it), if the iteration order of
a python set does not depend on the order of insertion: exactly one member of every permutation class is kept, and
extending the kept ones gives the original collection.

Full claim: for every collection; false, see `C16_class_lost`. -/
theorem C16_representatives_partial (ord : List ℕ → List ℕ) (ho : SetOrder ord)
    (hord : ∀ l l' : List ℕ, l.Perm l' → ord l = ord l') (ms : List (List ℕ)) (hne : ∀ m ∈ ms, m ≠ [])
    (hcl : ∀ m ∈ ms, ∀ t, t.Perm m → t ∈ ms) :
    (∀ m ∈ ms, ∃! r, r ∈ pickRepresentatives ord ms ∧ r.Perm m) ∧
      ∀ t, t ∈ extendWithPermutations ord (pickRepresentatives ord ms) ↔ t ∈ ms := by
  have hpick : ∀ r, r ∈ pickRepresentatives ord ms ↔
      r ∈ ms ∧ ∀ m ∈ ms, r ∉ (momentPermutations ord m).tail := by
    intro r
    unfold pickRepresentatives
    simp
  have hperm : ∀ m m' : List ℕ, m.Perm m' → momentPermutations ord m = momentPermutations ord m' := by
    intro m m' h
    unfold momentPermutations
    rw [← h.length_eq]
    exact uniquePerms_perm ho hord _ _ _ rfl h
  have first : ∀ m ∈ ms, ∃! r, r ∈ pickRepresentatives ord ms ∧ r.Perm m := by
    intro m hm
    obtain ⟨hnd, hmem, -⟩ := C15_permutations ord ho m (hne m hm)
    cases hp : momentPermutations ord m with
    | nil => exact absurd ((hmem m).2 (List.Perm.refl m)) (by simp [hp])
    | cons r ps =>
      have hr : r.Perm m := (hmem r).1 (by simp [hp])
      refine ⟨r, ⟨(hpick r).2 ⟨hcl m hm r hr, ?_⟩, hr⟩, ?_⟩
      · intro m' hm' hin
        have : r.Perm m' := ((C15_permutations ord ho m' (hne m' hm')).2.1 r).1 (List.mem_of_mem_tail hin)
        rw [hperm m' m (this.symm.trans hr), hp] at hin
        rw [hp] at hnd
        exact (List.nodup_cons.1 hnd).1 hin
      · rintro s ⟨hs, hsm⟩
        by_contra hne'
        have : s ∈ momentPermutations ord m := (hmem s).2 hsm
        rw [hp, List.mem_cons] at this
        exact ((hpick s).1 hs).2 m hm (by rw [hp]; exact this.resolve_left hne')
  refine ⟨first, fun t => ?_⟩
  rw [(C15_extend ord ho _ fun m hm => hne m ((hpick m).1 hm).1).2]
  constructor
  · rintro ⟨m, h1, h2⟩; exact hcl m ((hpick m).1 h1).1 t h2
  · intro ht
    obtain ⟨r, ⟨h1, h2⟩, -⟩ := first t ht
    exact ⟨r, h1, h2.symm⟩

/-- C16: with or without closure, never two members of one class are kept. -/
theorem C16_at_most_one (ord : List ℕ → List ℕ) (ho : SetOrder ord) (ms : List (List ℕ)) (hne : ∀ m ∈ ms, m ≠ [])
    (r s : List ℕ) (hr : r ∈ pickRepresentatives ord ms) (hs : s ∈ pickRepresentatives ord ms) (h : r.Perm s) :
    r = s := by
  have hpick : ∀ r, r ∈ pickRepresentatives ord ms ↔
      r ∈ ms ∧ ∀ m ∈ ms, r ∉ (momentPermutations ord m).tail := by
    intro r
    unfold pickRepresentatives
    simp
  obtain ⟨hrm, hr2⟩ := (hpick r).1 hr
  obtain ⟨hsm, hs2⟩ := (hpick s).1 hs
  obtain ⟨-, hmem, -⟩ := C15_permutations ord ho r (hne r hrm)
  have h1 := (hmem r).2 (List.Perm.refl r)
  have h2 := (hmem s).2 h.symm
  have h3 := hr2 r hrm
  have h4 := hs2 r hrm
  cases hp : momentPermutations ord r with
  | nil => simp [hp] at h1
  | cons a ps =>
    rw [hp] at h1 h2 h3 h4
    rw [List.mem_cons] at h1 h2
    exact (h1.resolve_right h3).trans (h2.resolve_right h4).symm

/-- C16 violated: whatever the iteration order of python's sets, there is a non-empty collection of permutations of
`(2, 0, 0)` of which `pick_representative_moments` keeps nothing at all. (For CPython's order it is `[(2, 0, 0)]`.) -/
theorem C16_class_lost (ord : List ℕ → List ℕ) (ho : SetOrder ord) :
    ∃ ms : List (List ℕ), ms ≠ [] ∧ (∀ m ∈ ms, m.Perm [2, 0, 0]) ∧ pickRepresentatives ord ms = [] := by
  have hcase : ∀ m : List ℕ, m.Perm [2, 0, 0] →
      (∀ t, t ∈ momentPermutations ord m ↔ t.Perm [2, 0, 0]) := by
    intro m hm t
    rw [(C15_permutations ord ho m (by rintro rfl; simpa using hm.length_eq)).2.1 t]
    exact ⟨fun h => h.trans hm, fun h => h.trans hm.symm⟩
  by_cases h : ∃ m : List ℕ, m.Perm [2, 0, 0] ∧ m ∈ (momentPermutations ord m).tail
  · obtain ⟨m, h1, h2⟩ := h
    refine ⟨[m], by simp, by simpa using h1, ?_⟩
    unfold pickRepresentatives
    simp [h2]
  · push Not at h
    refine ⟨[[2, 0, 0], [0, 2, 0]], by simp, ?_, ?_⟩
    · intro m hm
      simp only [List.mem_cons, List.not_mem_nil, or_false] at hm
      rcases hm with rfl | rfl <;> decide
    · have key : ∀ m m' : List ℕ, m.Perm [2, 0, 0] → m'.Perm [2, 0, 0] → m ≠ m' →
          m' ∈ (momentPermutations ord m).tail := by
        intro m m' hm hm' hne
        have h1 := (hcase m hm m).2 hm
        have h2 := (hcase m hm m').2 hm'
        have h3 := h m hm
        cases hp : momentPermutations ord m with
        | nil => simp [hp] at h1
        | cons a ps =>
          rw [hp] at h1 h2 h3
          rw [List.mem_cons] at h1 h2
          obtain rfl := h1.resolve_right h3
          exact h2.resolve_left (Ne.symm hne)
      have k1 := key [2, 0, 0] [0, 2, 0] (by decide) (by decide) (by decide)
      have k2 := key [0, 2, 0] [2, 0, 0] (by decide) (by decide) (by decide)
      unfold pickRepresentatives
      rw [List.filter_eq_nil_iff]
      intro m hm
      simp only [List.mem_dedup, List.mem_cons, List.not_mem_nil, or_false] at hm
      rcases hm with rfl | rfl
      · simp [k2]
      · simp [k1]

/-- Ascending order is a possible, insertion-independent set order, and there are closed collections. -/
example : SetOrder (fun l : List ℕ => (List.range (l.sum + 1)).filter (· ∈ l)) ∧
    (∀ l l' : List ℕ, l.Perm l' → (List.range (l.sum + 1)).filter (· ∈ l) = (List.range (l'.sum + 1)).filter (· ∈ l')) ∧
    pickRepresentatives (fun l : List ℕ => (List.range (l.sum + 1)).filter (· ∈ l)) [[2, 0, 0], [0, 0, 2], [0, 2, 0]]
      = [[0, 0, 2]] := by
  refine ⟨fun l => ⟨List.nodup_range.filter _, fun x => ?_⟩, fun l l' h => ?_, by decide +kernel⟩
  · simp only [List.mem_filter, List.mem_range, decide_eq_true_eq]
    refine ⟨fun h => h.2, fun h => ⟨?_, h⟩⟩
    have := List.single_le_sum (l := l) (by simp) x h
    omega
  · rw [h.sum_eq]
    apply List.filter_congr
    intro x _
    simp [h.mem_iff]

end Lbm
