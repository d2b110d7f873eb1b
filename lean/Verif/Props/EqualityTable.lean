/-
C126: the table of agreeing moments.
-/
import Verif.EqualityTable
import Verif.Props.Moments

namespace Lbm
namespace EqualityTable

theorem rowCells_moments (agree : List ℕ → Bool) (columns order : ℕ) (ms : List (List ℕ)) (h : ms.length ≤ columns - 1) :
    (rowCells agree columns order ms).map (·.moment) = ms := by
  rw [rowCells, List.map_map]
  have : ((fun c : Cell => c.moment) ∘ fun p : List ℕ × ℕ => (⟨order + 1, p.2, p.1, agree p.1⟩ : Cell)) = Prod.fst := rfl
  rw [this, List.map_fst_zip]
  rw [List.length_range']
  exact h

theorem zipIdx_moments (agree : List ℕ → Bool) (columns : ℕ) (ml : List (List (List ℕ))) (k : ℕ) (h : ∀ ms ∈ ml, ms.length ≤ columns - 1) :
    ((ml.zipIdx k).flatMap fun p => rowCells agree columns p.2 p.1).map (·.moment) = ml.flatten := by
  induction ml generalizing k with
  | nil => rfl
  | cons ms ml ih =>
    rw [List.zipIdx_cons, List.flatMap_cons, List.map_append, rowCells_moments _ _ _ _ (h ms List.mem_cons_self),
      ih (k + 1) fun m hm => h m (List.mem_cons_of_mem _ hm), List.flatten_cons]

theorem le_foldl_max (l : List ℕ) (a : ℕ) : a ≤ l.foldl max a ∧ ∀ x ∈ l, x ≤ l.foldl max a := by
  induction l generalizing a with
  | nil => exact ⟨le_refl _, fun x hx => by simp at hx⟩
  | cons y l ih =>
    obtain ⟨h1, h2⟩ := ih (max a y)
    refine ⟨(le_max_left a y).trans h1, fun x hx => ?_⟩
    rcases List.mem_cons.1 hx with rfl | hx
    · exact (le_max_right a x).trans h1
    · exact h2 x hx

/-- C126. The table shows every descending exponent tuple up to the order exactly once, in the colour of its comparison and in the row of
its order. -/
theorem C126_cells (agree : List ℕ → Bool) (dim maxOrder : ℕ) (hd : 1 ≤ dim) : ∃ cs, cells agree dim maxOrder = some cs ∧
    (cs.map (·.moment)).Nodup ∧ (∀ t, t ∈ cs.map (·.moment) ↔ t.length = dim ∧ t.sum ≤ maxOrder ∧ t.Pairwise (· ≥ ·)) ∧
    (∀ c ∈ cs, c.green = agree c.moment) ∧ (∀ c ∈ cs, c.row = c.moment.sum + 1) := by
  obtain ⟨l, h1, h2, h3⟩ := C15_moments_up_to_order maxOrder dim hd false
  unfold momentsUpToOrder at h1
  cases hm : (List.range (maxOrder + 1)).mapM fun o => momentsOfOrder o dim false with
  | none => rw [hm] at h1; cases h1
  | some ml =>
    rw [hm] at h1
    have hl : ml.flatten = l := Option.some.inj h1
    refine ⟨_, by rw [cells, hm]; rfl, ?_, ?_, ?_, ?_⟩
    all_goals
      have hcol : ∀ ms ∈ ml, ms.length ≤ (ml.map List.length).foldl max 0 + 1 - 1 := fun ms hms => by
        have := (le_foldl_max (ml.map List.length) 0).2 ms.length (List.mem_map_of_mem hms)
        omega
    · rw [zipIdx_moments _ _ _ _ hcol, hl]
      exact h2
    · intro t
      rw [zipIdx_moments _ _ _ _ hcol, hl, h3]
      simp
    · intro c hc
      obtain ⟨p, -, hp⟩ := List.mem_flatMap.1 hc
      obtain ⟨q, -, rfl⟩ := List.mem_map.1 hp
      rfl
    · intro c hc
      obtain ⟨p, hp1, hp⟩ := List.mem_flatMap.1 hc
      obtain ⟨q, hq, rfl⟩ := List.mem_map.1 hp
      have hq1 : q.1 ∈ p.1 := (List.of_mem_zip hq).1
      have hidx := List.mem_zipIdx' hp1
      obtain ⟨hlt, hget⟩ := hidx
      have hF : ∀ o, ∃ l, momentsOfOrder o dim false = some l ∧ l.Nodup ∧
          ∀ t, t ∈ l ↔ t.length = dim ∧ t.sum = o ∧ (false = false → t.Pairwise (· ≥ ·)) := fun o => C15_moments_of_order o dim hd false
      choose F hF1 _ hmem' using hF
      have hmap : (List.range (maxOrder + 1)).mapM (fun o => momentsOfOrder o dim false) = some ((List.range (maxOrder + 1)).map F) := by
        generalize List.range (maxOrder + 1) = os
        induction os with
        | nil => rfl
        | cons o os ih => rw [List.mapM_cons, hF1, ih]; rfl
      rw [hm] at hmap
      have hml : ml = (List.range (maxOrder + 1)).map F := Option.some.inj hmap
      have e2 : p.1 = F p.2 := by
        rw [hget]
        simp only [hml, List.getElem_map, List.getElem_range]
      rw [e2] at hq1
      show p.2 + 1 = q.1.sum + 1
      rw [((hmem' _ _).1 hq1).2.1]

theorem zip_increasing {α : Type} (ms : List α) (k n : ℕ) : (ms.zip (List.range' k n)).Pairwise (fun a b => a.2 < b.2) ∧
    ∀ a ∈ ms.zip (List.range' k n), k ≤ a.2 := by
  induction ms generalizing k n with
  | nil => simp
  | cons m ms ih =>
    cases n with
    | zero => simp
    | succ n =>
      obtain ⟨h1, h2⟩ := ih (k + 1) n
      rw [List.range'_succ, List.zip_cons_cons]
      refine ⟨List.pairwise_cons.2 ⟨fun a ha => h2 a ha, h1⟩, fun a ha => ?_⟩
      rcases List.mem_cons.1 ha with rfl | ha
      · exact le_refl _
      · exact (Nat.le_succ k).trans (h2 a ha)

/-- C126. No two moments share a cell, and none is in the header row or in the column of the orders. -/
theorem C126_positions (agree : List ℕ → Bool) (dim maxOrder : ℕ) (cs : List Cell) (h : cells agree dim maxOrder = some cs) :
    (cs.Pairwise fun a b => a.row < b.row ∨ (a.row = b.row ∧ a.col < b.col)) ∧ ∀ c ∈ cs, 1 ≤ c.row ∧ 1 ≤ c.col := by
  unfold cells at h
  obtain ⟨ml, -, rfl⟩ := Option.map_eq_some_iff.1 h
  constructor
  · rw [List.pairwise_flatMap]
    refine ⟨fun p _ => ?_, ?_⟩
    · unfold rowCells
      rw [List.pairwise_map]
      exact (zip_increasing _ _ _).1.imp fun h => .inr ⟨rfl, h⟩
    · have hp : ml.zipIdx.Pairwise fun a b => a.2 < b.2 := by
        have := List.pairwise_lt_range' (s := 0) (n := ml.length)
        rw [← List.zipIdx_map_snd 0 ml, List.pairwise_map] at this
        exact this
      refine hp.imp fun hab x hx y hy => ?_
      obtain ⟨_, -, rfl⟩ := List.mem_map.1 hx
      obtain ⟨_, -, rfl⟩ := List.mem_map.1 hy
      exact .inl (Nat.succ_lt_succ hab)
  · intro c hc
    obtain ⟨p, -, hp⟩ := List.mem_flatMap.1 hc
    obtain ⟨q, hq, rfl⟩ := List.mem_map.1 hp
    exact ⟨Nat.succ_le_succ (Nat.zero_le _), (zip_increasing _ _ _).2 q hq⟩

theorem count_eq (agree : List ℕ → Bool) (cs : List Cell) (h : ∀ c ∈ cs, c.green = agree c.moment) (g : Bool) :
    count cs g = (((cs.map (·.moment)).filter fun m => agree m == g).map momentMultiplicity).sum := by
  unfold count
  induction cs with
  | nil => rfl
  | cons c cs ih =>
    have ih' := ih fun c hc => h c (List.mem_cons_of_mem _ hc)
    rw [List.map_cons, List.filter_cons, List.filter_cons, h c List.mem_cons_self]
    by_cases hg : (agree c.moment == g) = true
    · rw [if_pos hg, if_pos hg, List.map_cons, List.map_cons, List.sum_cons, List.sum_cons, ih']
    · rw [if_neg hg, if_neg hg, ih']

/-- The multiplicities of descending tuples count all tuples. -/
theorem sum_multiplicity (reps all : List (List ℕ)) (hr : reps.Nodup) (ha : all.Nodup) (hne : ∀ m ∈ reps, m ≠ [])
    (hd : ∀ m ∈ reps, m.Pairwise (· ≥ ·)) (h : ∀ t, t ∈ all ↔ ∃ m ∈ reps, t.Perm m) : (reps.map momentMultiplicity).sum = all.length := by
  have ho : SetOrder (List.dedup : List ℕ → List ℕ) := dedup_setOrder
  have h1 : (reps.flatMap (momentPermutations List.dedup)).length = (reps.map momentMultiplicity).sum := by
    rw [List.length_flatMap]
    congr 1
    exact List.map_congr_left fun m hm => (C15_permutations _ ho m (hne m hm)).2.2
  rw [← h1]
  refine List.Perm.length_eq ((List.perm_ext_iff_of_nodup ?_ ha).2 fun t => ?_)
  · rw [List.nodup_flatMap]
    refine ⟨fun m hm => (C15_permutations _ ho m (hne m hm)).1, ?_⟩
    refine List.Pairwise.imp_of_mem ?_ hr
    intro a b ha' hb' hab
    show List.Disjoint _ _
    intro t h1 h2
    have p1 := ((C15_permutations _ ho a (hne a ha')).2.1 t).1 h1
    have p2 := ((C15_permutations _ ho b (hne b hb')).2.1 t).1 h2
    exact hab ((p1.symm.trans p2).eq_of_pairwise (fun x y _ _ h1 h2 => by omega) (hd a ha') (hd b hb'))
  · rw [h, List.mem_flatMap]
    constructor
    · rintro ⟨m, hm, hp⟩
      exact ⟨m, hm, ((C15_permutations _ ho m (hne m hm)).2.1 t).1 hp⟩
    · rintro ⟨m, hm, hp⟩
      exact ⟨m, hm, ((C15_permutations _ ho m (hne m hm)).2.1 t).2 hp⟩

theorem exists_descending (t : List ℕ) : ∃ m : List ℕ, t.Perm m ∧ m.Pairwise (· ≥ ·) := by
  refine ⟨t.mergeSort (fun a b => decide (a ≥ b)), (List.mergeSort_perm t _).symm, ?_⟩
  have := List.pairwise_mergeSort (le := fun a b : ℕ => decide (a ≥ b)) (fun a b c => by simp; omega) (fun a b => by simp; omega) t
  exact this.imp fun h => by simpa using h

/-- C126. If the comparison does not depend on the order of the exponents, the printed numbers count the tuples of each kind. -/
theorem C126_counts (agree : List ℕ → Bool) (hagree : ∀ t t', t.Perm t' → agree t = agree t') (dim maxOrder : ℕ) (hd : 1 ≤ dim)
    (all : List (List ℕ)) (ha : all.Nodup) (hall : ∀ t, t ∈ all ↔ t.length = dim ∧ t.sum ≤ maxOrder) (g : Bool) :
    ∃ cs, cells agree dim maxOrder = some cs ∧ count cs g = (all.filter fun t => agree t == g).length := by
  obtain ⟨cs, h1, h2, h3, h4, -⟩ := C126_cells agree dim maxOrder hd
  refine ⟨cs, h1, ?_⟩
  rw [count_eq agree cs h4]
  refine sum_multiplicity _ _ (h2.filter _) (ha.filter _) ?_ ?_ ?_
  · intro m hm h0
    have := ((h3 m).1 (List.mem_filter.1 hm).1).1
    rw [h0, List.length_nil] at this
    omega
  · intro m hm
    exact ((h3 m).1 (List.mem_filter.1 hm).1).2.2
  · intro t
    rw [List.mem_filter, hall]
    constructor
    · rintro ⟨⟨hl, hs⟩, hg⟩
      obtain ⟨m, hp, hm⟩ := exists_descending t
      refine ⟨m, List.mem_filter.2 ⟨(h3 m).2 ⟨by rw [← hp.length_eq]; exact hl, by rw [← hp.sum_eq]; exact hs, hm⟩, ?_⟩, hp⟩
      rw [← hagree t m hp]
      exact hg
    · rintro ⟨m, hm, hp⟩
      obtain ⟨hm1, hm2⟩ := List.mem_filter.1 hm
      obtain ⟨a, b, -⟩ := (h3 m).1 hm1
      exact ⟨⟨by rw [hp.length_eq]; exact a, by rw [hp.sum_eq]; exact b⟩, by rw [hagree t m hp]; exact hm2⟩

/-- C126. The printed total is the number of exponent tuples up to the order, whatever the comparison is. -/
theorem C126_total (agree : List ℕ → Bool) (dim maxOrder : ℕ) (hd : 1 ≤ dim) (all : List (List ℕ)) (ha : all.Nodup)
    (hall : ∀ t, t ∈ all ↔ t.length = dim ∧ t.sum ≤ maxOrder) :
    ∃ cs, cells agree dim maxOrder = some cs ∧ count cs true + count cs false = all.length := by
  obtain ⟨cs, h1, h2, h3, h4, -⟩ := C126_cells agree dim maxOrder hd
  refine ⟨cs, h1, ?_⟩
  have hsplit : count cs true + count cs false = ((cs.map (·.moment)).map momentMultiplicity).sum := by
    unfold count
    clear h1 h2 h3 h4
    induction cs with
    | nil => rfl
    | cons c cs ih =>
      rw [List.map_cons, List.map_cons, List.sum_cons, ← ih, List.filter_cons, List.filter_cons]
      cases c.green <;> simp <;> omega
  rw [hsplit]
  refine sum_multiplicity _ _ h2 ha ?_ (fun m hm => ((h3 m).1 hm).2.2) fun t => ?_
  · intro m hm h0
    have := ((h3 m).1 hm).1
    rw [h0, List.length_nil] at this
    omega
  · rw [hall]
    constructor
    · rintro ⟨hl, hs⟩
      obtain ⟨m, hp, hm⟩ := exists_descending t
      exact ⟨m, (h3 m).2 ⟨by rw [← hp.length_eq]; exact hl, by rw [← hp.sum_eq]; exact hs, hm⟩, hp⟩
    · rintro ⟨m, hm, hp⟩
      obtain ⟨a, b, -⟩ := (h3 m).1 hm
      exact ⟨by rw [hp.length_eq]; exact a, by rw [hp.sum_eq]; exact b⟩

/-- C126. For a comparison that does depend on the order of the exponents (an equilibrium given by the caller that is not symmetric) the
numbers are wrong: of `x` and `y` only the first agrees, counted are two. -/
theorem C126_not_symmetric : ∃ (agree : List ℕ → Bool) (cs : List Cell), cells agree 2 1 = some cs ∧ count cs true = 2 ∧
    ([[0, 0], [0, 1], [1, 0]].filter fun t => agree t == true).length = 1 :=
  ⟨fun t => t == [1, 0], [⟨1, 1, [0, 0], false⟩, ⟨2, 1, [1, 0], true⟩], by decide +kernel⟩

/-- Concrete case: a comparison that agrees exactly up to order two, in two dimensions. -/
example : ∃ cs, cells (fun t => decide (t.sum ≤ 2)) 2 3 = some cs ∧ count cs true = 6 ∧ count cs false = 4 ∧ cs.length = 6 ∧
    ∀ t t' : List ℕ, t.Perm t' → decide (t.sum ≤ 2) = decide (t'.sum ≤ 2) :=
  ⟨[⟨1, 1, [0, 0], true⟩, ⟨2, 1, [1, 0], true⟩, ⟨3, 1, [1, 1], true⟩, ⟨3, 2, [2, 0], true⟩, ⟨4, 1, [2, 1], false⟩, ⟨4, 2, [3, 0], false⟩],
    by decide +kernel, by decide +kernel, by decide +kernel, rfl, fun t t' h => by rw [h.sum_eq]⟩

end EqualityTable
end Lbm
