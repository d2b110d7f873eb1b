/-
C32: the sparse mapper and the sparse update rule.
-/
import Verif.Sparse
import Verif.Sweep
import Verif.Props.Psm
import Mathlib.Data.Nat.Bitwise

namespace Lbm

variable {D : ℕ}

/-! ### Order of coordinates -/

theorem coordLt_irrefl : ∀ {D : ℕ} (a : Vec D), coordLt a a = false
  | 0, _ => rfl
  | D + 1, a => by simp [coordLt, coordLt_irrefl]

theorem coordLt_trans : ∀ {D : ℕ} (a b c : Vec D), coordLt a b = true → coordLt b c = true → coordLt a c = true
  | 0, _, _, _, h, _ => h
  | D + 1, a, b, c, h, h' => by
    simp only [coordLt, Bool.or_eq_true, decide_eq_true_eq, Bool.and_eq_true] at *
    rcases h with h | ⟨h, h2⟩ <;> rcases h' with h' | ⟨h', h2'⟩
    · left; omega
    · left; omega
    · left; omega
    · right; exact ⟨by omega, coordLt_trans _ _ _ h2 h2'⟩

theorem coordLt_eq : ∀ {D : ℕ} (a b : Vec D), coordLt a b = false → coordLt b a = false → a = b
  | 0, a, b, _, _ => by funext i; exact i.elim0
  | D + 1, a, b, h, h' => by
    simp only [coordLt, Bool.or_eq_false_iff, decide_eq_false_iff_not, Bool.and_eq_false_iff] at *
    have h0 : a 0 = b 0 := by omega
    have := coordLt_eq (Fin.tail a) (Fin.tail b) (by rcases h.2 with h | h; exact absurd h0 h; exact h)
      (by rcases h'.2 with h | h; exact absurd h0.symm h; exact h)
    rw [← Fin.cons_self_tail a, ← Fin.cons_self_tail b, this, h0]

theorem coordLe_trans (a b c : Vec D) (h : (!coordLt b a) = true) (h' : (!coordLt c b) = true) : (!coordLt c a) = true := by
  simp only [Bool.not_eq_true'] at *
  by_contra hc
  simp only [Bool.not_eq_false] at hc
  cases hab : coordLt a b with
  | true => rw [coordLt_trans _ _ _ hc hab] at h'; cases h'
  | false =>
    obtain rfl := coordLt_eq _ _ hab h
    rw [hc] at h'; cases h'

theorem coordLe_total (a b : Vec D) : ((!coordLt b a) || (!coordLt a b)) = true := by
  cases h : coordLt b a with
  | false => rfl
  | true =>
    cases h' : coordLt a b with
    | false => rfl
    | true =>
      have := coordLt_trans _ _ _ h h'
      rw [coordLt_irrefl] at this; cases this

theorem search_count (k : Vec D) (l : List (Vec D)) (hl : l.Pairwise fun a b => (!coordLt b a) = true) :
    (l.takeWhile fun y => !coordLt k y).length = (l.takeWhile fun y => coordLt y k).length + l.count k := by
  induction l with
  | nil => rfl
  | cons a l ih =>
    rw [List.pairwise_cons] at hl
    rw [List.takeWhile_cons, List.takeWhile_cons, List.count_cons]
    cases hak : coordLt a k with
    | true =>
      have hka : coordLt k a = false := by
        cases h : coordLt k a with
        | false => rfl
        | true => have := coordLt_trans _ _ _ hak h; rw [coordLt_irrefl] at this; cases this
      have hne : (a == k) = false := by
        rw [beq_eq_false_iff_ne]; rintro rfl; rw [coordLt_irrefl] at hak; cases hak
      simp only [hka, hne, Bool.not_false, if_true, List.length_cons, ih hl.2]
      simp
      omega
    | false =>
      cases hka : coordLt k a with
      | true =>
        have hn : l.count k = 0 := by
          rw [List.count_eq_zero]
          intro hmem
          have := hl.1 k hmem
          rw [hka] at this; cases this
        have hne : (a == k) = false := by
          rw [beq_eq_false_iff_ne]; rintro rfl; rw [coordLt_irrefl] at hka; cases hka
        simp [hn, hne]
      | false =>
        obtain rfl := coordLt_eq _ _ hak hka
        have hz : (l.takeWhile fun y => coordLt y a) = [] := by
          cases l with
          | nil => rfl
          | cons b l =>
            have := hl.1 b (by simp)
            rw [List.takeWhile_cons]
            simp only [Bool.not_eq_true'] at this
            simp [this]
        have := ih hl.2
        rw [hz] at this
        simp [this]

theorem search_found (k : Vec D) (l : List (Vec D)) (hl : l.Pairwise fun a b => (!coordLt b a) = true) (hk : k ∈ l) :
    l[(l.takeWhile fun y => coordLt y k).length]? = some k := by
  induction l with
  | nil => cases hk
  | cons a l ih =>
    rw [List.pairwise_cons] at hl
    rw [List.takeWhile_cons]
    cases hak : coordLt a k with
    | true =>
      have : k ∈ l := by
        rcases List.mem_cons.mp hk with rfl | h
        · rw [coordLt_irrefl] at hak; cases hak
        · exact h
      simpa using ih hl.2 this
    | false =>
      have hka : coordLt k a = false := by
        rcases List.mem_cons.mp hk with rfl | h
        · exact coordLt_irrefl _
        · have := hl.1 k h
          simpa using this
      obtain rfl := coordLt_eq _ _ hak hka
      simp

/-! ### Cells of the arrays -/

/-- inside the array -/
def Spec.InBounds (F : FlagArray D) (x : Vec D) : Prop := ∀ i, 0 ≤ x i ∧ x i < F.shape i

theorem mem_allCells : ∀ {D : ℕ} (shape : Fin D → ℕ) (x : Vec D), x ∈ allCells shape ↔ ∀ i, 0 ≤ x i ∧ x i < shape i
  | 0, shape, x => by
    simp only [allCells, List.mem_singleton]
    exact ⟨fun _ i => i.elim0, fun _ => funext fun i => i.elim0⟩
  | D + 1, shape, x => by
    simp only [allCells, List.mem_flatMap, List.mem_range, List.mem_map, mem_allCells (Fin.tail shape)]
    constructor
    · rintro ⟨a, ha, y, hy, rfl⟩ i
      refine Fin.cases ?_ (fun i => ?_) i
      · simp only [Fin.cons_zero]; omega
      · simp only [Fin.cons_succ]; exact hy i
    · intro h
      refine ⟨(x 0).toNat, by have := h 0; omega, Fin.tail x, fun i => h i.succ, ?_⟩
      have : (((x 0).toNat : ℕ) : ℤ) = x 0 := by have := h 0; omega
      rw [this, Fin.cons_self_tail]

theorem nodup_allCells : ∀ {D : ℕ} (shape : Fin D → ℕ), (allCells shape).Nodup
  | 0, _ => by simp [allCells]
  | D + 1, shape => by
    rw [allCells, List.nodup_flatMap]
    constructor
    · intro x _
      refine (nodup_allCells (Fin.tail shape)).map fun a b h => ?_
      exact (Fin.cons_inj.mp h).2
    · refine List.nodup_range.imp fun {a b} hab => ?_
      intro x hx hx'
      simp only [List.mem_map] at hx hx'
      obtain ⟨y, _, rfl⟩ := hx
      obtain ⟨z, _, hz⟩ := hx'
      have := (Fin.cons_inj.mp hz).1
      exact hab (by exact_mod_cast this.symm)

theorem mem_argwhere (F : FlagArray D) (mask : ℕ) (x : Vec D) :
    x ∈ F.argwhere mask ↔ Spec.InBounds F x ∧ F.flag x &&& mask ≠ 0 := by
  simp [FlagArray.argwhere, mem_allCells, Spec.InBounds]

theorem get_ok (F : FlagArray D) {x : Vec D} (h : Spec.InBounds F x) : F.get x = .ok (F.flag x) := if_pos h

namespace SparseMapper

/-- cells stored in the list -/
def _root_.Lbm.Spec.Active (m : SparseMapper D) (x : Vec D) : Prop :=
  Spec.InBounds m.flags x ∧ (m.flags.flag x &&& m.fluid ≠ 0 ∨ m.flags.flag x &&& m.boundary ≠ 0)

/-- no cell of the array is both fluid and boundary -/
def _root_.Lbm.Spec.Disjoint (m : SparseMapper D) : Prop :=
  ∀ x, Spec.InBounds m.flags x → m.flags.flag x &&& m.fluid ≠ 0 → m.flags.flag x &&& m.boundary = 0

theorem mem_coords (m : SparseMapper D) (x : Vec D) : x ∈ m.coords ↔ Spec.Active m x := by
  rw [coords, List.mem_append, mem_argwhere, mem_argwhere, Spec.Active]
  tauto

theorem nodup_coords (m : SparseMapper D) (hd : Spec.Disjoint m) : m.coords.Nodup := by
  rw [coords, List.nodup_append]
  refine ⟨(nodup_allCells _).filter _, (nodup_allCells _).filter _, ?_⟩
  rintro x hx y hy rfl
  rw [mem_argwhere] at hx hy
  exact hy.2 (hd x hx.1 hx.2)

theorem sorted (m : SparseMapper D) : (m.sorter.map m.coords.get).Pairwise fun a b => (!coordLt b a) = true := by
  rw [List.pairwise_map]
  let r : Fin m.coords.length → Fin m.coords.length → Prop := fun i j => (!coordLt (m.coords.get j) (m.coords.get i)) = true
  haveI : Std.Total r := ⟨fun a b => by
    have := coordLe_total (m.coords.get a) (m.coords.get b)
    rw [Bool.or_eq_true] at this
    exact this⟩
  haveI : IsTrans _ r := ⟨fun a b c => coordLe_trans _ _ _⟩
  exact List.pairwise_insertionSort r _

theorem sorter_perm (m : SparseMapper D) : (m.sorter.map m.coords.get).Perm m.coords := by
  have := (List.perm_insertionSort (fun i j : Fin m.coords.length => (!coordLt (m.coords.get j) (m.coords.get i)) = true)
    (List.finRange m.coords.length)).map m.coords.get
  rwa [show List.map m.coords.get (List.finRange m.coords.length) = m.coords from List.map_get_finRange m.coords] at this

theorem search_diff (m : SparseMapper D) (x : Vec D) : m.searchRight x = m.searchLeft x + m.coords.count x := by
  rw [searchRight, searchLeft, search_count _ _ m.sorted, m.sorter_perm.count_eq]

theorem cellIdx_ok (m : SparseMapper D) {x : Vec D} {k : ℕ} (h : m.cellIdx x = .ok k) : m.coords[k]? = some x := by
  rw [cellIdx] at h
  split at h
  · cases h
  · rename_i hc
    push Not at hc
    rw [search_diff] at hc
    have hx : x ∈ m.coords := by rw [← List.count_pos_iff]; omega
    have hf := search_found x _ m.sorted (m.sorter_perm.mem_iff.mpr hx)
    change (m.sorter.map m.coords.get)[m.searchLeft x]? = some x at hf
    rw [List.getElem?_map] at hf
    cases hs : m.sorter[m.searchLeft x]? with
    | none => rw [hs] at hf; cases hf
    | some i =>
      rw [hs] at hf h
      simp only [Option.map_some, Option.some.injEq] at hf
      simp only [Except.ok.injEq] at h
      subst h
      rw [← hf]
      exact List.getElem?_eq_getElem i.isLt

theorem cellIdx_of_mem (m : SparseMapper D) {x : Vec D} (h : m.coords.count x = 1) : ∃ k, m.cellIdx x = .ok k := by
  have hx : x ∈ m.coords := by rw [← List.count_pos_iff]; omega
  have hf := search_found x _ m.sorted (m.sorter_perm.mem_iff.mpr hx)
  change (m.sorter.map m.coords.get)[m.searchLeft x]? = some x at hf
  rw [List.getElem?_map] at hf
  rw [cellIdx, if_neg (by rw [search_diff, h]; simp)]
  cases hs : m.sorter[m.searchLeft x]? with
  | none => rw [hs] at hf; cases hf
  | some i => exact ⟨_, rfl⟩

theorem cellIdx_error (m : SparseMapper D) {x : Vec D} (h : m.coords.count x ≠ 1) : m.cellIdx x = .error .indexError := by
  rw [cellIdx, if_pos]
  rw [search_diff]; omega

end SparseMapper

/-- C32. Cell numbering and coordinate lookup are mutually inverse: for every flag array without cells that are both fluid
and boundary, `cell_idx(x)` is `k` exactly if `coordinate(k)` is `x`; all fluid and boundary cells are numbered, and for
other coordinates `cell_idx` raises `IndexError`. -/
theorem C32_numbering (m : SparseMapper D) (hd : Spec.Disjoint m) (x : Vec D) :
    (∀ k, m.cellIdx x = .ok k ↔ m.coordinate k = .ok x) ∧
    ((∃ k, m.cellIdx x = .ok k) ↔ Spec.Active m x) ∧
    (¬ Spec.Active m x → m.cellIdx x = .error .indexError) := by
  have hex : Spec.Active m x → ∃ k, m.cellIdx x = .ok k := fun h =>
    m.cellIdx_of_mem (List.count_eq_one_of_mem (m.nodup_coords hd) ((m.mem_coords x).mpr h))
  have hc : ∀ k, m.coordinate k = .ok x ↔ m.coords[k]? = some x := by
    intro k
    rw [SparseMapper.coordinate]
    cases h : m.coords[k]? <;> simp
  refine ⟨fun k => ?_, ⟨?_, hex⟩, ?_⟩
  · rw [hc]
    refine ⟨m.cellIdx_ok, fun h => ?_⟩
    obtain ⟨j, hj⟩ := hex ((m.mem_coords x).mp (List.mem_of_getElem? h))
    have hj' := m.cellIdx_ok hj
    rw [List.getElem?_eq_some_iff] at h hj'
    obtain ⟨hk, h⟩ := h
    obtain ⟨hjl, hj'⟩ := hj'
    have := (List.Nodup.getElem_inj_iff (m.nodup_coords hd) (hi := hk) (hj := hjl)).mp (h.trans hj'.symm)
    rw [this]; exact hj
  · rintro ⟨k, hk⟩
    exact (m.mem_coords x).mp (List.mem_of_getElem? (m.cellIdx_ok hk))
  · intro h
    apply m.cellIdx_error
    rw [List.count_eq_zero.mpr (mt (m.mem_coords x).mp h)]
    decide

/-- C32, disagreement: a cell with both a fluid and a boundary flag is stored twice and `cell_idx` reports it as not
found. -/
theorem C32_both_flags (m : SparseMapper D) (x : Vec D) (hb : Spec.InBounds m.flags x)
    (hf : m.flags.flag x &&& m.fluid ≠ 0) (hg : m.flags.flag x &&& m.boundary ≠ 0) :
    m.cellIdx x = .error .indexError := by
  apply m.cellIdx_error
  rw [SparseMapper.coords, List.count_append]
  have h1 : x ∈ m.flags.argwhere m.fluid := (mem_argwhere _ _ _).mpr ⟨hb, hf⟩
  have h2 : x ∈ m.flags.argwhere m.boundary := (mem_argwhere _ _ _).mpr ⟨hb, hg⟩
  have := List.count_pos_iff.mpr h1
  have := List.count_pos_iff.mpr h2
  omega

/-- C32, disagreement: the vectorised lookup gives the number of some stored cell for a coordinate that is not stored, as
soon as there is any cell. -/
theorem C32_bulk_silent (m : SparseMapper D) (x : Vec D) (hx : ¬ Spec.Active m x) (hne : m.coords ≠ []) :
    ∃ k, m.cellIdxBulk x = .ok k ∧ m.coordinate k ≠ .ok x := by
  have hcount : m.coords.count x = 0 := List.count_eq_zero.mpr (mt (m.mem_coords x).mp hx)
  have hs : m.sorter ≠ [] := by
    intro h
    have := m.sorter_perm.length_eq
    rw [h] at this
    simp only [List.map_nil, List.length_nil] at this
    exact hne (List.length_eq_zero_iff.mp this.symm)
  refine ⟨m.sorter.getLast hs, ?_, ?_⟩
  · rw [SparseMapper.cellIdxBulk, if_pos (by rw [m.search_diff, hcount]; simp), List.getLast?_eq_some_getLast hs]
  · intro h
    rw [SparseMapper.coordinate] at h
    have hlt := (m.sorter.getLast hs).isLt
    rw [List.getElem?_eq_getElem (show (m.sorter.getLast hs).val < m.coords.length from hlt)] at h
    simp only [Except.ok.injEq] at h
    exact hx ((m.mem_coords x).mp (h ▸ List.getElem_mem _))

/-! ### Index list -/

/-- flagged as no-slip -/
def Spec.Wall (m : SparseMapper D) (x : Vec D) : Prop := m.flags.flag x &&& m.noSlip ≠ 0

/-- the cell inside the ghost layers that is congruent modulo the size of the inner domain -/
def Spec.wrap (m : SparseMapper D) (gl : ℕ) (x : Vec D) : Vec D :=
  fun i => gl + (x i - gl) % ((m.flags.shape i : ℤ) - 2 * gl)

/-- inside the ghost layers -/
def Spec.Inner (m : SparseMapper D) (gl : ℕ) (x : Vec D) : Prop := ∀ i, (gl : ℤ) ≤ x i ∧ x i < (m.flags.shape i : ℤ) - gl

open Classical in
/-- cell and direction whose population arrives at a fluid cell in direction `d`: the upstream cell, the own reversed
direction at a wall, the cell on the other side of a periodic domain -/
noncomputable def Spec.slot (m : SparseMapper D) (gl : ℕ) (inv : Fin m.stencil.Q → Fin m.stencil.Q) (x : Vec D)
    (d : Fin m.stencil.Q) : Vec D × Fin m.stencil.Q :=
  let y := x - m.stencil.c d
  if Spec.Active m y then (y, d) else if Spec.Wall m y then (x, inv d) else (Spec.wrap m gl y, d)

/-- there is something upstream -/
def Spec.HasUpstream (m : SparseMapper D) (gl : ℕ) (x : Vec D) (d : Fin m.stencil.Q) : Prop :=
  let y := x - m.stencil.c d
  Spec.Active m y ∨ Spec.Wall m y ∨ (¬ Spec.Inner m gl y ∧ Spec.Active m (Spec.wrap m gl y))

/-- what the index list is meant for: at least one ghost layer, neighbours at distance one, all fluid cells inside the
ghost layers, no cell both fluid and boundary; the stencil has its rest direction first and no other one -/
structure Spec.SparseSetup (m : SparseMapper D) (gl : ℕ) (inv : Fin m.stencil.Q → Fin m.stencil.Q) : Prop where
  ghost : 1 ≤ gl
  reach : ∀ d i, -1 ≤ m.stencil.c d i ∧ m.stencil.c d i ≤ 1
  valid : m.stencil.Valid
  inv : ∀ d, m.stencil.c (inv d) = -m.stencil.c d
  rest : ∀ d, m.stencil.c d = 0 ↔ d.val = 0
  nonempty : 0 < m.stencil.Q
  inner : ∀ x, Spec.InBounds m.flags x → m.flags.flag x &&& m.fluid ≠ 0 → Spec.Inner m gl x
  disjoint : Spec.Disjoint m

theorem and_or_ne_zero (f a b : ℕ) : (f &&& (a ||| b) != 0) = true ↔ f &&& b ≠ 0 ∨ f &&& a ≠ 0 := by
  rw [bne_iff_ne, Nat.and_or_distrib_left, Ne, Nat.or_eq_zero_iff]
  tauto

theorem wrapCoord_eq (gl n : ℕ) (x y : ℤ) (h1 : (gl : ℤ) ≤ x) (h2 : x < (n : ℤ) - gl) (h3 : -1 ≤ x - y) (h4 : x - y ≤ 1) :
    (SparseMapper.wrapCoord gl n y).1 = gl + (y - gl) % ((n : ℤ) - 2 * gl) ∧
    ((SparseMapper.wrapCoord gl n y).2 = true ↔ ¬ ((gl : ℤ) ≤ y ∧ y < (n : ℤ) - gl)) ∧
    ((gl : ℤ) ≤ gl + (y - gl) % ((n : ℤ) - 2 * gl) ∧ gl + (y - gl) % ((n : ℤ) - 2 * gl) < (n : ℤ) - gl) := by
  have hpos : (0 : ℤ) < (n : ℤ) - 2 * gl := by omega
  have hr : ((gl : ℤ) ≤ gl + (y - gl) % ((n : ℤ) - 2 * gl) ∧ gl + (y - gl) % ((n : ℤ) - 2 * gl) < (n : ℤ) - gl) := by
    have := Int.emod_nonneg (y - gl) hpos.ne'
    have := Int.emod_lt_of_pos (y - gl) hpos
    omega
  refine ⟨?_, ?_, hr⟩
  · unfold SparseMapper.wrapCoord
    split
    · rename_i h
      simp only []
      rw [show y - (gl : ℤ) = (((n : ℤ) - 2 * gl) - 1) + ((n : ℤ) - 2 * gl) * (-1) by rw [h]; ring, Int.add_mul_emod_self_left,
        Int.emod_eq_of_lt (by omega) (by omega)]
      omega
    · split
      · rename_i h
        simp only []
        rw [show y - (gl : ℤ) = 0 + ((n : ℤ) - 2 * gl) * 1 by rw [h]; ring, Int.add_mul_emod_self_left,
          Int.emod_eq_of_lt (by omega) (by omega)]
        omega
      · simp only []
        rw [Int.emod_eq_of_lt (by omega) (by omega)]
        omega
  · unfold SparseMapper.wrapCoord
    split
    · simp only [true_iff]; omega
    · split
      · simp only [true_iff]; omega
      · simp only [Bool.false_eq_true, false_iff, not_not]; omega

theorem indexEntry_spec (m : SparseMapper D) {gl : ℕ} {inv : Fin m.stencil.Q → Fin m.stencil.Q}
    (hs : Spec.SparseSetup m gl inv) (own : ℕ) (x : Vec D) (hown : m.coords[own]? = some x)
    (hb : Spec.InBounds m.flags x) (hf : m.flags.flag x &&& m.fluid ≠ 0) (d : Fin m.stencil.Q) :
    (Spec.HasUpstream m gl x d → ∃ k, m.coords[k]? = some (Spec.slot m gl inv x d).1 ∧
      m.indexEntry gl own x d = .ok (k + (Spec.slot m gl inv x d).2.val * m.len)) ∧
    (¬ Spec.HasUpstream m gl x d → ∃ e, m.indexEntry gl own x d = .error e) := by
  have hx := hs.inner x hb hf
  have hyb : Spec.InBounds m.flags (x - m.stencil.c d) := by
    intro i
    have := hx i; have := hs.reach d i; have := hs.ghost
    simp only [Pi.sub_apply]
    omega
  have hw := fun i => wrapCoord_eq gl (m.flags.shape i) (x i) ((x - m.stencil.c d) i) (hx i).1 (hx i).2
    (by have := hs.reach d i; simp only [Pi.sub_apply]; omega) (by have := hs.reach d i; simp only [Pi.sub_apply]; omega)
  have hact : ∀ y, Spec.InBounds m.flags y →
      ((m.flags.flag y &&& (m.boundary ||| m.fluid) != 0) = true ↔ Spec.Active m y) := by
    intro y hy
    rw [and_or_ne_zero, Spec.Active]
    exact ⟨fun h => ⟨hy, h⟩, fun h => h.2⟩
  have hwallb : (m.flags.flag (x - m.stencil.c d) &&& m.noSlip != 0) = true ↔ Spec.Wall m (x - m.stencil.c d) := bne_iff_ne
  have hidx : ∀ y, Spec.Active m y → ∃ k, m.cellIdx y = .ok k ∧ m.coords[k]? = some y := by
    intro y hy
    obtain ⟨k, hk⟩ := (C32_numbering m hs.disjoint y).2.1.mpr hy
    exact ⟨k, hk, m.cellIdx_ok hk⟩
  have hzeq : (fun i => (SparseMapper.wrapCoord gl (m.flags.shape i) ((x - m.stencil.c d) i)).1) =
      Spec.wrap m gl (x - m.stencil.c d) := funext fun i => (hw i).1
  have hzb : Spec.InBounds m.flags (Spec.wrap m gl (x - m.stencil.c d)) := by
    intro i
    have h1 := (hw i).2.2
    constructor
    · have : (0 : ℤ) ≤ gl := by omega
      exact this.trans h1.1
    · have : (m.flags.shape i : ℤ) - gl ≤ m.flags.shape i := by omega
      exact lt_of_lt_of_le h1.2 this
  have hbord : (∃ i, (SparseMapper.wrapCoord gl (m.flags.shape i) ((x - m.stencil.c d) i)).2 = true) ↔
      ¬ Spec.Inner m gl (x - m.stencil.c d) := by
    rw [Spec.Inner, not_forall]
    exact exists_congr fun i => (hw i).2.1
  have hinv : m.stencil.inverseIndex (m.stencil.c d) = some (inv d) := by
    rw [Stencil.inverseIndex, Stencil.index_eq_some hs.valid]
    exact hs.inv d
  unfold SparseMapper.indexEntry Spec.HasUpstream Spec.slot
  simp only [get_ok _ hyb, bind, Except.bind, pure, Except.pure]
  by_cases ha : Spec.Active m (x - m.stencil.c d)
  · rw [if_pos ((hact _ hyb).mpr ha), if_pos ha]
    obtain ⟨k, hk, hk'⟩ := hidx _ ha
    rw [hk]
    exact ⟨fun _ => ⟨k, hk', rfl⟩, fun h => absurd (Or.inl ha) h⟩
  · rw [if_neg (mt (hact _ hyb).mp ha), if_neg ha]
    by_cases hwall : Spec.Wall m (x - m.stencil.c d)
    · rw [if_pos (hwallb.mpr hwall), if_pos hwall, hinv]
      exact ⟨fun _ => ⟨own, hown, rfl⟩, fun h => absurd (Or.inr (Or.inl hwall)) h⟩
    · rw [if_neg (mt hwallb.mp hwall), if_neg hwall]
      by_cases hi : Spec.Inner m gl (x - m.stencil.c d)
      · rw [if_neg (by rw [hbord]; exact fun h => h hi)]
        constructor
        · rintro (h | h | h)
          · exact absurd h ha
          · exact absurd h hwall
          · exact absurd hi h.1
        · intro _; exact ⟨_, rfl⟩
      · rw [if_pos (hbord.mpr hi), hzeq, get_ok _ hzb]
        simp only []
        by_cases hz : Spec.Active m (Spec.wrap m gl (x - m.stencil.c d))
        · rw [if_pos ((hact _ hzb).mpr hz)]
          obtain ⟨k, hk, hk'⟩ := hidx _ hz
          rw [hk]
          exact ⟨fun _ => ⟨k, hk', rfl⟩, fun h => absurd (Or.inr (Or.inr ⟨hi, hz⟩)) h⟩
        · rw [if_neg (mt (hact _ hzb).mp hz)]
          constructor
          · rintro (h | h | h)
            · exact absurd h ha
            · exact absurd h hwall
            · exact absurd h.2 hz
          · intro _; exact ⟨_, rfl⟩

theorem fluidCoords_eq (m : SparseMapper D) : m.fluidCoords = m.flags.argwhere m.fluid := by
  simp [SparseMapper.fluidCoords, SparseMapper.coords, SparseMapper.numFluid]

theorem exc_mapM_error {α β : Type} {g : α → Except PyErr β} {l : List α} {a : α} {e : PyErr} (ha : a ∈ l)
    (h : g a = .error e) : ∃ e', l.mapM g = .error e' := by
  cases hl : l.mapM g with
  | error e' => exact ⟨e', rfl⟩
  | ok r =>
    have := exc_mapM_ok hl
    obtain ⟨i, hi, rfl⟩ := List.getElem_of_mem ha
    have h2 := this.get (i := i) hi (by rw [← this.length_eq]; exact hi)
    simp only [List.get_eq_getElem] at h2
    rw [h] at h2; cases h2

theorem filterMap_tail {α : Type} (r : List (Option α)) (h0 : r[0]? = some none)
    (h : ∀ d, 1 ≤ d → d < r.length → ∃ v, r[d]? = some (some v)) (d : ℕ) (hd : 1 ≤ d) (v : α) (hv : r[d]? = some (some v)) :
    (r.filterMap id)[d - 1]? = some v := by
  obtain ⟨e, rfl⟩ : ∃ e, d = e + 1 := ⟨d - 1, by omega⟩
  cases r with
  | nil => simp at h0
  | cons a t =>
    simp only [List.getElem?_cons_zero, Option.some.injEq] at h0
    subst h0
    have hm : ∀ t : List (Option α), (∀ d, d < t.length → ∃ v, t[d]? = some (some v)) → t = (t.filterMap id).map some := by
      intro t
      induction t with
      | nil => intro _; rfl
      | cons a t ih =>
        intro h
        obtain ⟨w, hw⟩ := h 0 (by simp)
        simp only [List.getElem?_cons_zero, Option.some.injEq] at hw
        subst hw
        have := ih fun d hd => by simpa using h (d + 1) (by simpa using hd)
        conv_lhs => rw [this]
        simp
    have ht := hm t fun d hd => by simpa using h (d + 1) (by omega) (by simpa using hd)
    simp only [List.getElem?_cons_succ] at hv
    rw [ht, List.getElem?_map] at hv
    simp only [Nat.add_sub_cancel]
    cases hx : (t.filterMap id)[e]? with
    | none => rw [hx] at hv; cases hv
    | some w =>
      rw [hx] at hv
      simp only [Option.map_some, Option.some.injEq] at hv
      subst hv
      simpa using hx

section array
variable (m : SparseMapper D) {gl : ℕ} {inv : Fin m.stencil.Q → Fin m.stencil.Q}

theorem mem_fluidCoords (x : Vec D) :
    x ∈ m.fluidCoords ↔ Spec.InBounds m.flags x ∧ m.flags.flag x &&& m.fluid ≠ 0 := by
  rw [fluidCoords_eq, mem_argwhere]

theorem coords_of_fluid {k : ℕ} {x : Vec D} (h : m.fluidCoords[k]? = some x) : m.coords[k]? = some x := by
  rw [SparseMapper.fluidCoords, List.getElem?_take] at h
  split at h
  · exact h
  · cases h

theorem indexRow_spec (hs : Spec.SparseSetup m gl inv) (d : Fin m.stencil.Q) (hd : d.val ≠ 0) :
    ((∀ x ∈ m.fluidCoords, Spec.HasUpstream m gl x d) → ∃ r, m.indexRow gl d = .ok (some r)) ∧
    ((∃ x ∈ m.fluidCoords, ¬ Spec.HasUpstream m gl x d) → ∃ e, m.indexRow gl d = .error e) ∧
    (∀ o, m.indexRow gl d = .ok o → ∃ r : List ℕ, o = some r ∧ r.length = m.numFluid ∧
      ∀ (k : ℕ) (x : Vec D), m.fluidCoords[k]? = some x → ∃ k' : ℕ, m.coords[k']? = some (Spec.slot m gl inv x d).1 ∧
        r[k]? = some (k' + (Spec.slot m gl inv x d).2.val * m.len)) := by
  have hne : m.stencil.c d ≠ 0 := fun h => hd ((hs.rest d).mp h)
  have hentry : ∀ (k : ℕ) (x : Vec D), m.fluidCoords[k]? = some x → _ := fun k x h =>
    indexEntry_spec m hs k x (coords_of_fluid m h) ((mem_fluidCoords m x).mp (List.mem_of_getElem? h)).1
      ((mem_fluidCoords m x).mp (List.mem_of_getElem? h)).2 d
  have hzip : ∀ e ∈ m.fluidCoords.zipIdx, m.fluidCoords[e.2]? = some e.1 := by
    intro e he
    rw [List.mem_zipIdx_iff_getElem?] at he
    exact he
  refine ⟨?_, ?_, ?_⟩
  · intro h
    have : ∃ r, (m.fluidCoords.zipIdx).mapM (fun e => m.indexEntry gl e.2 e.1 d) = .ok r := by
      refine exc_mapM_of fun e he => ?_
      obtain ⟨k, _, hk⟩ := (hentry e.2 e.1 (hzip e he)).1 (h e.1 (List.mem_of_getElem? (hzip e he)))
      exact ⟨_, hk⟩
    obtain ⟨r, hr⟩ := this
    exact ⟨r, by rw [SparseMapper.indexRow, if_neg hne, hr]; rfl⟩
  · rintro ⟨x, hx, hu⟩
    obtain ⟨k, hk, rfl⟩ := List.getElem_of_mem hx
    have hkx : m.fluidCoords[k]? = some m.fluidCoords[k] := List.getElem?_eq_getElem hk
    obtain ⟨e, he⟩ := (hentry k _ hkx).2 hu
    have hmem : (m.fluidCoords[k], k) ∈ m.fluidCoords.zipIdx := by
      rw [List.mem_zipIdx_iff_getElem?]; exact hkx
    obtain ⟨e', he'⟩ := exc_mapM_error (g := fun e : Vec D × ℕ => m.indexEntry gl e.2 e.1 d) hmem he
    exact ⟨e', by rw [SparseMapper.indexRow, if_neg hne, he']; rfl⟩
  · intro o ho
    rw [SparseMapper.indexRow, if_neg hne] at ho
    cases hr : (m.fluidCoords.zipIdx).mapM (fun e => m.indexEntry gl e.2 e.1 d) with
    | error e => rw [hr] at ho; cases ho
    | ok r =>
      rw [hr] at ho
      simp only [bind, Except.bind, pure, Except.pure, Except.ok.injEq] at ho
      subst ho
      have hf := exc_mapM_ok hr
      have hlen : r.length = m.fluidCoords.length := by rw [← hf.length_eq, List.length_zipIdx]
      refine ⟨r, rfl, by rw [hlen, fluidCoords_eq]; rfl, fun k x hk => ?_⟩
      obtain ⟨hk1, hk2⟩ := List.getElem?_eq_some_iff.mp hk
      have hg := hf.get (i := k) (by rw [List.length_zipIdx]; exact hk1) (by rw [hlen]; exact hk1)
      simp only [List.get_eq_getElem, List.getElem_zipIdx, hk2, zero_add] at hg
      have hu : Spec.HasUpstream m gl x d := by
        by_contra hu
        obtain ⟨e, he⟩ := (hentry k x hk).2 hu
        rw [he] at hg; cases hg
      obtain ⟨k', h1, h2⟩ := (hentry k x hk).1 hu
      rw [h2] at hg
      simp only [Except.ok.injEq] at hg
      exact ⟨k', h1, by rw [List.getElem?_eq_getElem (by rw [hlen]; exact hk1), hg]⟩

/-- C32. `create_index_array` succeeds exactly if every fluid cell has something upstream in every direction: a stored
cell, a no-slip cell, or a stored cell on the other side of the domain. Then the entry of fluid cell `k` and direction `d`
is the address of the population that arrives there in a dense simulation. -/
theorem C32_index_array (hs : Spec.SparseSetup m gl inv) :
    ((∃ rows, m.createIndexArray gl = .ok rows) ↔
      ∀ x, Spec.InBounds m.flags x → m.flags.flag x &&& m.fluid ≠ 0 → ∀ d : Fin m.stencil.Q, d.val ≠ 0 →
        Spec.HasUpstream m gl x d) ∧
    ∀ rows, m.createIndexArray gl = .ok rows → ∀ (k : ℕ) (x : Vec D), m.fluidCoords[k]? = some x → ∀ d : Fin m.stencil.Q, d.val ≠ 0 →
      ∃ k' : ℕ, m.coords[k']? = some (Spec.slot m gl inv x d).1 ∧
        (rows[d.val - 1]?.bind fun r => r[k]?) = some (k' + (Spec.slot m gl inv x d).2.val * m.len) := by
  have h0 : ∀ d : Fin m.stencil.Q, d.val = 0 → m.indexRow gl d = .ok none := by
    intro d hd
    rw [SparseMapper.indexRow, if_pos ((hs.rest d).mpr hd), if_pos hd]
  have hrows : ∀ rs, (List.finRange m.stencil.Q).mapM (fun dir => m.indexRow gl dir) = .ok rs →
      rs.length = m.stencil.Q ∧ rs[0]? = some none ∧
      ∀ d : Fin m.stencil.Q, d.val ≠ 0 → ∃ r, rs[d.val]? = some (some r) ∧ r.length = m.numFluid ∧
        ∀ (k : ℕ) (x : Vec D), m.fluidCoords[k]? = some x → ∃ k' : ℕ, m.coords[k']? = some (Spec.slot m gl inv x d).1 ∧
          r[k]? = some (k' + (Spec.slot m gl inv x d).2.val * m.len) := by
    intro rs hrs
    have hf := exc_mapM_ok hrs
    have hlen : rs.length = m.stencil.Q := by rw [← hf.length_eq, List.length_finRange]
    have hget : ∀ d : Fin m.stencil.Q, ∃ o, rs[d.val]? = some o ∧ m.indexRow gl d = .ok o := by
      intro d
      have := hf.get (i := d.val) (by rw [List.length_finRange]; exact d.isLt) (by rw [hlen]; exact d.isLt)
      simp only [List.get_eq_getElem, List.getElem_finRange] at this
      exact ⟨_, List.getElem?_eq_getElem (by rw [hlen]; exact d.isLt), this⟩
    refine ⟨hlen, ?_, fun d hd => ?_⟩
    · obtain ⟨o, ho, ho'⟩ := hget ⟨0, hs.nonempty⟩
      rw [h0 _ rfl] at ho'
      cases ho'
      exact ho
    · obtain ⟨o, ho, ho'⟩ := hget d
      obtain ⟨r, rfl, hr, hr'⟩ := (indexRow_spec m hs d hd).2.2 o ho'
      exact ⟨r, ho, hr, hr'⟩
  have hlens : ∀ rs, (List.finRange m.stencil.Q).mapM (fun dir => m.indexRow gl dir) = .ok rs →
      ((rs.filterMap id).map List.length).sum = (m.stencil.Q - 1) * m.numFluid := by
    intro rs hrs
    obtain ⟨hlen, hz, hr⟩ := hrows rs hrs
    have aux : ∀ t : List (Option (List ℕ)), (∀ o ∈ t, ∃ r, o = some r ∧ r.length = m.numFluid) →
        ((t.filterMap id).map List.length).sum = t.length * m.numFluid := by
      intro t
      induction t with
      | nil => intro _; simp
      | cons a t ih =>
        intro h
        obtain ⟨r, rfl, hr⟩ := h a (by simp)
        rw [List.filterMap_cons_some (f := id) (a := some r) (b := r) rfl, List.map_cons, List.sum_cons, hr,
          ih fun o ho => h o (by simp [ho]), List.length_cons]
        ring
    cases rs with
    | nil => simp at hz
    | cons a t =>
      simp only [List.getElem?_cons_zero, Option.some.injEq] at hz
      subst hz
      rw [List.filterMap_cons_none rfl, aux]
      · congr 1
        simp only [List.length_cons] at hlen
        omega
      · intro o ho
        obtain ⟨j, hj, rfl⟩ := List.getElem_of_mem ho
        simp only [List.length_cons] at hlen
        obtain ⟨r, h1, h2, _⟩ := hr ⟨j + 1, by omega⟩ (by simp)
        simp only [List.getElem?_cons_succ] at h1
        rw [List.getElem?_eq_getElem hj] at h1
        exact ⟨r, by simpa using h1, h2⟩
  have hcreate : ∀ rows, m.createIndexArray gl = .ok rows ↔
      ∃ rs, (List.finRange m.stencil.Q).mapM (fun dir => m.indexRow gl dir) = .ok rs ∧ rows = rs.filterMap id := by
    intro rows
    rw [SparseMapper.createIndexArray]
    cases hrs : (List.finRange m.stencil.Q).mapM (fun dir => m.indexRow gl dir) with
    | error e => simp [bind, Except.bind]
    | ok rs =>
      simp only [bind, Except.bind, pure, Except.pure]
      rw [if_pos (hlens rs hrs)]
      simp [eq_comm]
  constructor
  · constructor
    · rintro ⟨rows, hrows'⟩ x hb hf d hd
      by_contra hu
      obtain ⟨e, he⟩ := (indexRow_spec m hs d hd).2.1 ⟨x, (mem_fluidCoords m x).mpr ⟨hb, hf⟩, hu⟩
      obtain ⟨e', he'⟩ := exc_mapM_error (g := fun dir => m.indexRow gl dir) (List.mem_finRange d) he
      obtain ⟨rs, hrs, _⟩ := (hcreate rows).mp hrows'
      rw [he'] at hrs; cases hrs
    · intro h
      have : ∃ rs, (List.finRange m.stencil.Q).mapM (fun dir => m.indexRow gl dir) = .ok rs := by
        refine exc_mapM_of fun d _ => ?_
        by_cases hd : d.val = 0
        · exact ⟨_, h0 d hd⟩
        · obtain ⟨r, hr⟩ := (indexRow_spec m hs d hd).1 fun x hx =>
            h x ((mem_fluidCoords m x).mp hx).1 ((mem_fluidCoords m x).mp hx).2 d hd
          exact ⟨_, hr⟩
      obtain ⟨rs, hrs⟩ := this
      exact ⟨_, (hcreate _).mpr ⟨rs, hrs, rfl⟩⟩
  · intro rows hr k x hk d hd
    obtain ⟨rs, hrs, rfl⟩ := (hcreate rows).mp hr
    obtain ⟨hlen, hz, hall⟩ := hrows rs hrs
    obtain ⟨r, h1, _, h3⟩ := hall d hd
    obtain ⟨k', hk', hv⟩ := h3 k x hk
    refine ⟨k', hk', ?_⟩
    rw [filterMap_tail rs hz (fun j hj hj' => ?_) d.val (by omega) r h1]
    · exact hv
    · obtain ⟨r, h, _⟩ := hall ⟨j, by rw [← hlen]; exact hj'⟩ (by simpa using (by omega : j ≠ 0))
      exact ⟨r, h⟩


/-! ### One step and any number of steps -/

variable {V : Type}

/-- the list memory `mem` (populations of cell `k` at `k + i * N`) holds the populations `F` -/
def Spec.Rep (m : SparseMapper D) (mem : ℕ → V) (F : Vec D → Fin m.stencil.Q → V) : Prop :=
  ∀ (k : ℕ) (x : Vec D) (i : Fin m.stencil.Q), m.coords[k]? = some x → mem (k + i.val * m.len) = F x i

open Classical in
/-- dense pull step with link-wise bounce back at walls: fluid cells collide what arrives, other cells keep what they have
in the destination array -/
noncomputable def Spec.denseStep (m : SparseMapper D) (gl : ℕ) (inv : Fin m.stencil.Q → Fin m.stencil.Q)
    (collide : (Fin m.stencil.Q → V) → Fin m.stencil.Q → V) (src dst : Vec D → Fin m.stencil.Q → V) :
    Vec D → Fin m.stencil.Q → V :=
  fun x => if Spec.InBounds m.flags x ∧ m.flags.flag x &&& m.fluid ≠ 0 then
    collide fun d => if m.stencil.c d = 0 then src x d else src (Spec.slot m gl inv x d).1 (Spec.slot m gl inv x d).2
  else dst x

/-- index list as the array `idx[k, c]` -/
def Spec.idxArray (rows : List (List ℕ)) : ℕ → ℕ → ℕ := fun k c => (rows.getD c []).getD k 0

theorem addr_inj {N k k' i i' : ℕ} (hk : k < N) (hk' : k' < N) (h : k + i * N = k' + i' * N) : k = k' ∧ i = i' := by
  have h1 : (k + i * N) % N = (k' + i' * N) % N := by rw [h]
  rw [Nat.add_mul_mod_self_right, Nat.add_mul_mod_self_right, Nat.mod_eq_of_lt hk, Nat.mod_eq_of_lt hk'] at h1
  subst h1
  refine ⟨rfl, ?_⟩
  have : i * N = i' * N := by omega
  exact Nat.eq_of_mul_eq_mul_right (by omega) this

theorem sparseSweep_spec {Q : ℕ} (N : ℕ) (idx : ℕ → ℕ → ℕ) (collide : (Fin Q → V) → Fin Q → V) (src : ℕ → V)
    (cells : List ℕ) (hc : ∀ k ∈ cells, k < N) (hn : cells.Nodup) (dst : ℕ → V) (k : ℕ) (hk : k < N) (i : Fin Q) :
    sparseSweep (listLayout false N Q) idx collide cells src dst (k + i.val * N) =
      if k ∈ cells then collide (sparseRead (listLayout false N Q) idx src k) i else dst (k + i.val * N) := by
  have haddr : ∀ k i, (listLayout false N Q).addr k i = k + i * N := by
    intro k i; simp [listLayout, ListLayout.addr]
  have hw : ∀ (d : ℕ → V) (k' : ℕ) (v : Fin Q → V), k' < N →
      sparseWrite (listLayout false N Q) k' v d (k + i.val * N) = if k = k' then v i else d (k + i.val * N) := by
    intro d k' v hk'
    unfold sparseWrite
    split
    · rename_i h
      subst h
      have := foldl_update_mem (l := fun i : Fin Q => (listLayout false N Q).addr k i.val)
        (fun a b h => by
          simp only [haddr] at h
          exact Fin.ext (addr_inj hk hk h).2) v (List.finRange Q) d i (List.mem_finRange i)
      simpa only [haddr] using this
    · rename_i h
      apply foldl_update_not_mem (l := fun i : Fin Q => (listLayout false N Q).addr k' i.val)
      intro j _ he
      simp only [haddr] at he
      exact h (addr_inj hk hk' he).1
  induction cells generalizing dst with
  | nil => simp [sparseSweep]
  | cons a cells ih =>
    rw [List.nodup_cons] at hn
    have hstep : sparseSweep (listLayout false N Q) idx collide (a :: cells) src dst =
        sparseSweep (listLayout false N Q) idx collide cells src
          (sparseWrite (listLayout false N Q) a (collide (sparseRead (listLayout false N Q) idx src a)) dst) := rfl
    rw [hstep, ih (fun k hk => hc k (by simp [hk])) hn.2, hw _ _ _ (hc a (by simp))]
    by_cases h : k ∈ cells
    · have : k ≠ a := fun e => hn.1 (e ▸ h)
      simp [h]
    · by_cases e : k = a
      · subst e; simp [h]
      · simp [h, e]

/-- C32. One sparse step is one dense step: with the index list of the mapper and the structure-of-arrays layout, if source
and destination lists hold the populations of two dense arrays, the list after the kernel holds those of the dense array
after the dense step - for every flag array, stencil, collision rule and state. -/
theorem C32_step (hs : Spec.SparseSetup m gl inv) (rows : List (List ℕ)) (hr : m.createIndexArray gl = .ok rows)
    (collide : (Fin m.stencil.Q → V) → Fin m.stencil.Q → V) (src dst : ℕ → V) (F G : Vec D → Fin m.stencil.Q → V)
    (hF : Spec.Rep m src F) (hG : Spec.Rep m dst G) :
    Spec.Rep m (sparseSweep (listLayout false m.len m.stencil.Q) (Spec.idxArray rows) collide (List.range m.numFluid) src dst)
      (Spec.denseStep m gl inv collide F G) := by
  intro k x i hk
  have hle : m.numFluid ≤ m.len := by simp [SparseMapper.numFluid, SparseMapper.len, SparseMapper.coords]
  obtain ⟨hklt, hkx⟩ := List.getElem?_eq_some_iff.mp hk
  rw [sparseSweep_spec m.len _ _ _ _ (fun k h => (List.mem_range.mp h).trans_le hle) List.nodup_range _ k hklt i]
  have hxmem : x ∈ m.coords := List.mem_of_getElem? hk
  have hfl : k < m.numFluid ↔ Spec.InBounds m.flags x ∧ m.flags.flag x &&& m.fluid ≠ 0 := by
    constructor
    · intro h
      have : m.fluidCoords[k]? = some x := by rw [SparseMapper.fluidCoords, List.getElem?_take, if_pos h]; exact hk
      exact (mem_fluidCoords m x).mp (List.mem_of_getElem? this)
    · rintro ⟨hb, hf⟩
      by_contra hc
      have : x ∈ m.flags.argwhere m.boundary := by
        rw [SparseMapper.coords, List.getElem?_append_right (by simpa [SparseMapper.numFluid] using hc)] at hk
        exact List.mem_of_getElem? hk
      exact ((mem_argwhere _ _ _).mp this).2 (hs.disjoint x hb hf)
  unfold Spec.denseStep
  by_cases h : k < m.numFluid
  · rw [if_pos (List.mem_range.mpr h), if_pos (hfl.mp h)]
    congr 1
    funext d
    unfold sparseRead
    have hfk : m.fluidCoords[k]? = some x := by rw [SparseMapper.fluidCoords, List.getElem?_take, if_pos h]; exact hk
    by_cases hd : d.val = 0
    · rw [if_pos hd, if_pos ((hs.rest d).mpr hd)]
      have := hF k x d hk
      rw [hd] at this
      simpa [listLayout, ListLayout.addr] using this
    · rw [if_neg hd, if_neg (mt (hs.rest d).mp hd)]
      obtain ⟨k', h1, h2⟩ := (C32_index_array m hs).2 rows hr k x hfk d hd
      have hidx : Spec.idxArray rows k (d.val - 1) = k' + (Spec.slot m gl inv x d).2.val * m.len := by
        unfold Spec.idxArray
        rw [List.getD_eq_getElem?_getD, List.getD_eq_getElem?_getD]
        cases hrow : rows[d.val - 1]? with
        | none => rw [hrow] at h2; cases h2
        | some r =>
          rw [hrow] at h2
          simp only [Option.bind_some] at h2
          simp [h2]
      rw [hidx]
      have := hF k' _ (Spec.slot m gl inv x d).2 h1
      simpa [listLayout] using this
  · rw [if_neg (by simpa using h), if_neg (mt hfl.mpr h)]
    exact hG k x i hk

/-- C32. Any number of steps: each consists of an arbitrary boundary treatment that does the same to list and dense array,
the kernel and the exchange of the two arrays. -/
theorem C32_run (hs : Spec.SparseSetup m gl inv) (rows : List (List ℕ)) (hr : m.createIndexArray gl = .ok rows)
    (collide : (Fin m.stencil.Q → V) → Fin m.stencil.Q → V)
    (steps : List (((ℕ → V) → ℕ → V) × ((Vec D → Fin m.stencil.Q → V) → Vec D → Fin m.stencil.Q → V)))
    (hb : ∀ b ∈ steps, ∀ mem F, Spec.Rep m mem F → Spec.Rep m (b.1 mem) (b.2 F))
    (src dst : ℕ → V) (F G : Vec D → Fin m.stencil.Q → V) (hF : Spec.Rep m src F) (hG : Spec.Rep m dst G) :
    Spec.Rep m
      (steps.foldl (fun (s : (ℕ → V) × (ℕ → V)) b =>
        (sparseSweep (listLayout false m.len m.stencil.Q) (Spec.idxArray rows) collide (List.range m.numFluid) (b.1 s.1) s.2,
          b.1 s.1)) (src, dst)).1
      (steps.foldl (fun (s : (Vec D → Fin m.stencil.Q → V) × (Vec D → Fin m.stencil.Q → V)) b =>
        (Spec.denseStep m gl inv collide (b.2 s.1) s.2, b.2 s.1)) (F, G)).1 := by
  induction steps generalizing src dst F G with
  | nil => exact hF
  | cons b steps ih =>
    rw [List.foldl_cons, List.foldl_cons]
    have hb1 := hb b (by simp) src F hF
    exact ih (fun c hc => hb c (by simp [hc])) _ _ _ _ (C32_step m hs rows hr collide _ _ _ _ hb1 hG) hb1

end array

/-! ### Example and disagreements -/

/-- one-dimensional three-velocity stencil -/
private def d1q3 : Stencil 1 := Stencil.ofInts 1 [[0], [1], [-1]]

/-- four cells with one ghost layer on each side: no-slip on the left, then fluid, a boundary cell, no-slip -/
private def exMapper (f : List ℕ) : SparseMapper 1 where
  stencil := d1q3
  flags := ⟨fun _ => f.length, fun x => f.getD (x 0).toNat 0⟩
  fluid := 1
  noSlip := 2
  boundary := 4

/-- walls left and right -/
example : (exMapper [2, 1, 1, 2]).createIndexArray 1 = .ok [[4, 2], [5, 3]] := by decide +kernel

/-- periodic -/
example : (exMapper [0, 1, 1, 0]).createIndexArray 1 = .ok [[3, 2], [5, 4]] := by decide +kernel

/-- a boundary cell on the right is stored behind the fluid cells -/
example : (exMapper [2, 1, 1, 4]).createIndexArray 1 = .ok [[6, 3], [7, 8]] := by decide +kernel

/-- this meets the hypotheses of the theorems -/
example : Spec.SparseSetup (exMapper [2, 1, 1, 4]) 1 (![0, 2, 1] : Fin 3 → Fin 3) := by
  have hx : ∀ x : Vec 1, Spec.InBounds (exMapper [2, 1, 1, 4]).flags x → x 0 = 0 ∨ x 0 = 1 ∨ x 0 = 2 ∨ x 0 = 3 := by
    intro x h
    have h0 : 0 ≤ x 0 ∧ x 0 < 4 := h 0
    omega
  refine ⟨le_rfl, by decide, by decide +kernel, by decide +kernel, by decide +kernel, by decide, fun x hb hf i => ?_,
    fun x hb hf => ?_⟩
  · obtain rfl : i = 0 := Subsingleton.elim _ _
    rcases hx x hb with h | h | h | h
    · simp [exMapper, h] at hf
    · rw [h]; decide
    · rw [h]; decide
    · simp [exMapper, h] at hf
  · rcases hx x hb with h | h | h | h <;> simp [exMapper, h] at hf ⊢

/-- C32, disagreement: a periodic domain with an obstacle at the border is refused (`AssertionError`): the wrapped cell must
be fluid or boundary, no-slip cells are only looked for before wrapping. -/
theorem C32_wall_across_border : (exMapper [0, 1, 2, 0]).createIndexArray 1 = .error .assertion := by decide +kernel

/-- C32, disagreement: `kernel_type='collide_only'` reads the streamed populations instead of those of the cell: with the
identity as collision it changes the list. -/
theorem C32_collide_only :
    let rows := [[3, 2], [5, 4]]
    (exMapper [0, 1, 1, 0]).createIndexArray 1 = .ok rows ∧
    (List.range 6).map (sparseCollideOnly (Q := 3) (listLayout false 2 3) (Spec.idxArray rows) (fun f => f) (List.range 2)
      (fun a => a)) ≠ List.range 6 := by decide +kernel

/-- C32, disagreement: the entries are addresses of the structure-of-arrays layout; with the default layout 'AoS' of
`create_symbolic_list` the kernel reads other addresses, some behind the end of the array. -/
theorem C32_aos : ∃ (k d : ℕ), k < 2 ∧ d < 2 ∧
    3 * 2 ≤ Spec.idxArray [[3, 2], [5, 4]] k d * (listLayout true 2 3).s0 := ⟨0, 0, by decide, by decide, by decide⟩

end Lbm
