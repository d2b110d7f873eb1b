/-
C83: absent phases stay absent where up to three phases meet.
-/
import Verif.BoyerCoefficients
import Verif.Props.Boyer

set_option linter.unusedSectionVars false

namespace Lbm
namespace Boyer

open Matrix

section coefficients
variable {K : Type} [Field K] {n : ℕ}

/-- The three-phase system of the phases `j`, `k`, `m` is regular: the discriminant of its surface tensions does not vanish. -/
def RegularTriple (sigma : Matrix (Fin n) (Fin n) K) (j k m : Fin n) : Prop :=
  sigma j k ^ 2 + sigma j m ^ 2 + sigma k m ^ 2 ≠ 2 * (sigma j k * sigma j m + sigma j k * sigma k m + sigma j m * sigma k m)

theorem sum_three {M : Type} [AddCommMonoid M] {j k m : Fin n} (hjk : j ≠ k) (hjm : j ≠ m) (hkm : k ≠ m) (g : Fin n → M)
    (hg : ∀ l, l ∉ [j, k, m] → g l = 0) : ∑ l, g l = g j + g k + g m := by
  have : ∑ l ∈ ({j, k, m} : Finset (Fin n)), g l = ∑ l, g l :=
    Finset.sum_subset (Finset.subset_univ _) fun l _ hl => hg l (by simpa using hl)
  rw [← this, Finset.sum_insert (by simp [hjk, hjm]), Finset.sum_insert (by simp [hkm]), Finset.sum_singleton, add_assoc]

theorem triple_zero {sigma : Matrix (Fin n) (Fin n) K} (hs : ∀ i j, sigma i j = sigma j i) (h0 : ∀ i, sigma i i = 0) {j k m : Fin n}
    (hjk : j ≠ k) (hjm : j ≠ m) (hkm : k ≠ m) (hr : RegularTriple sigma j k m) (y : Fin n → K) (hy : ∀ i, i ∉ [j, k, m] → y i = 0)
    (hsum : ∑ i, y i = 0) (κ : K) (hk : ∀ i ∈ [j, k, m], ∑ l, sigma i l * y l = κ) : y = 0 := by
  have s3 : ∀ i, ∑ l, sigma i l * y l = sigma i j * y j + sigma i k * y k + sigma i m * y m := fun i =>
    sum_three hjk hjm hkm _ fun l hl => by rw [hy l hl, mul_zero]
  rw [sum_three hjk hjm hkm y hy] at hsum
  have e1 := hk j (by simp)
  have e2 := hk k (by simp)
  have e3 := hk m (by simp)
  rw [s3, h0] at e1 e2 e3
  rw [hs k j] at e2
  rw [hs m j, hs m k] at e3
  have hyj : y j = -y k - y m := by linear_combination hsum
  rw [hyj] at e2 e3
  set a := sigma j k
  set b := sigma j m
  set c := sigma k m
  have f1 : 2 * a * y k + (a + b - c) * y m = 0 := by linear_combination e1 - e2
  have f2 : (a + b - c) * y k + 2 * b * y m = 0 := by linear_combination e1 - e3
  have hd : 2 * (a * b + a * c + b * c) - (a ^ 2 + b ^ 2 + c ^ 2) ≠ 0 := fun h => hr (by linear_combination -h)
  have yk : y k = 0 := by
    have : (2 * (a * b + a * c + b * c) - (a ^ 2 + b ^ 2 + c ^ 2)) * y k = 0 := by
      linear_combination 2 * b * f1 - (a + b - c) * f2
    exact (mul_eq_zero.1 this).resolve_left hd
  have ym : y m = 0 := by
    have : (2 * (a * b + a * c + b * c) - (a ^ 2 + b ^ 2 + c ^ 2)) * y m = 0 := by
      linear_combination 2 * a * f2 - (a + b - c) * f1
    exact (mul_eq_zero.1 this).resolve_left hd
  funext i
  by_cases hi : i ∈ [j, k, m]
  · simp only [List.mem_cons, List.not_mem_nil, or_false] at hi
    rcases hi with rfl | rfl | rfl
    · rw [hyj, yk, ym]; simp
    · exact yk
    · exact ym
  · exact hy i hi

theorem block_injective {sigma alpha : Matrix (Fin n) (Fin n) K} {gamma : Fin n → K} (h : IsDiffusion sigma alpha gamma)
    (hs : ∀ i j, sigma i j = sigma j i) (h0 : ∀ i, sigma i i = 0) {j k m : Fin n} (hjk : j ≠ k) (hjm : j ≠ m) (hkm : k ≠ m)
    (hr : RegularTriple sigma j k m) (x : Fin n → K) (hx : ∀ i ∈ [j, k, m], x i = 0)
    (hz : ∀ i, i ∉ [j, k, m] → ∑ l, alpha i l * x l = 0) : x = 0 := by
  have hσ : ∀ i, ∑ l, sigma i l * ∑ p, alpha l p * x p = x i + ∑ p, gamma p * x p := by
    intro i
    have : ∀ l, sigma i l * ∑ p, alpha l p * x p = ∑ p, alpha p l * sigma l i * x p := by
      intro l
      rw [Finset.mul_sum]
      refine Finset.sum_congr rfl fun p _ => ?_
      rw [hs i l, h.symm l p]
      ring
    simp only [this]
    rw [Finset.sum_comm]
    simp only [← Finset.sum_mul, h.inverse, add_mul, Finset.sum_add_distrib, ite_mul, one_mul, zero_mul]
    simp
  have hy := triple_zero hs h0 hjk hjm hkm hr (fun i => ∑ l, alpha i l * x l) hz (by
    rw [Finset.sum_comm]
    refine Finset.sum_eq_zero fun l _ => ?_
    rw [← Finset.sum_mul]
    simp only [h.symm _ l, h.rows, zero_mul]) (∑ p, gamma p * x p) (by
    intro i hi
    rw [hσ, hx i hi, zero_add])
  have hx' : ∀ i, x i + ∑ p, gamma p * x p = 0 := by
    intro i
    rw [← hσ]
    refine Finset.sum_eq_zero fun l _ => ?_
    have := congrFun hy l
    simp only [Pi.zero_apply] at this
    rw [this, mul_zero]
  have hc : ∑ p, gamma p * x p = 0 := by
    have := hx' j
    rwa [hx j (by simp), zero_add] at this
  funext i
  have := hx' i
  rwa [hc, add_zero] at this

/-- **C83 (unique).**  If the three-phase system of the index triple is regular, the linear systems for the coefficients have exactly one
solution outside the triple, for every right-hand side. -/
theorem C83_unique {sigma alpha : Matrix (Fin n) (Fin n) K} {gamma : Fin n → K} (hd : diffusionCoefficients sigma = .ok (alpha, gamma))
    (hs : ∀ i j, sigma i j = sigma j i) (h0 : ∀ i, sigma i i = 0) {j k m : Fin n} (hjk : j ≠ k) (hjm : j ≠ m) (hkm : k ≠ m)
    (hr : RegularTriple sigma j k m) (rhs : Fin n → K) :
    (∃ x, BlockSystem alpha [j, k, m] rhs x) ∧
    ∀ x y, BlockSystem alpha [j, k, m] rhs x → BlockSystem alpha [j, k, m] rhs y → ∀ i, i ∉ [j, k, m] → x i = y i := by
  have h := C67_diffusion sigma alpha gamma hd
  constructor
  · let A : Matrix {i // i ∉ [j, k, m]} {i // i ∉ [j, k, m]} K := fun i l => alpha i l
    have hA : A.det ≠ 0 := by
      intro hA
      obtain ⟨v, hv, hv0⟩ := exists_mulVec_eq_zero_iff.2 hA
      apply hv
      have hsub : ∀ i : Fin n, ∑ l, alpha i l * (if hl : l ∉ [j, k, m] then v ⟨l, hl⟩ else 0) =
          ∑ l : {l // l ∉ [j, k, m]}, alpha i l * v l := by
        intro i
        have e : ∑ l ∈ Finset.univ.filter (fun l => l ∉ [j, k, m]), alpha i l * (if hl : l ∉ [j, k, m] then v ⟨l, hl⟩ else 0) =
            ∑ l, alpha i l * (if hl : l ∉ [j, k, m] then v ⟨l, hl⟩ else 0) :=
          Finset.sum_subset (Finset.subset_univ _) fun l _ hl => by
            have : ¬ (l ∉ [j, k, m]) := by simpa using hl
            rw [dif_neg this, mul_zero]
        rw [← e, ← Finset.sum_subtype_eq_sum_filter, Finset.subtype_univ]
        refine Finset.sum_congr rfl fun l _ => ?_
        rw [dif_pos l.2]
      have := block_injective h hs h0 hjk hjm hkm hr (fun l => if hl : l ∉ [j, k, m] then v ⟨l, hl⟩ else 0)
        (fun i hi => by rw [dif_neg (not_not.2 hi)]) (fun i hi => by
          rw [hsub]
          exact congrFun hv0 ⟨i, hi⟩)
      funext l
      have := congrFun this l
      rwa [dif_pos l.2] at this
    have hu : IsUnit A.det := isUnit_iff_ne_zero.2 hA
    let b : {i // i ∉ [j, k, m]} → K := fun i => rhs i
    have hsol : A *ᵥ (A⁻¹ *ᵥ b) = b := by rw [mulVec_mulVec, mul_nonsing_inv _ hu, one_mulVec]
    refine ⟨fun l => if hl : l ∉ [j, k, m] then (A⁻¹ *ᵥ b) ⟨l, hl⟩ else 0, fun i hi => ?_⟩
    have e1 := congrFun hsol ⟨i, hi⟩
    have e2 : ∑ l, (if l ∈ [j, k, m] then 0 else alpha i l * (if hl : l ∉ [j, k, m] then (A⁻¹ *ᵥ b) ⟨l, hl⟩ else 0)) =
        ∑ l : {l // l ∉ [j, k, m]}, alpha i l * (A⁻¹ *ᵥ b) l := by
      have e : ∑ l ∈ Finset.univ.filter (fun l => l ∉ [j, k, m]), (if l ∈ [j, k, m] then 0 else
            alpha i l * (if hl : l ∉ [j, k, m] then (A⁻¹ *ᵥ b) ⟨l, hl⟩ else 0)) =
          ∑ l, (if l ∈ [j, k, m] then 0 else alpha i l * (if hl : l ∉ [j, k, m] then (A⁻¹ *ᵥ b) ⟨l, hl⟩ else 0)) :=
        Finset.sum_subset (Finset.subset_univ _) fun l _ hl => by
          have : l ∈ [j, k, m] := by
            by_contra h
            exact hl (Finset.mem_filter.2 ⟨Finset.mem_univ _, h⟩)
          rw [if_pos this]
      rw [← e, ← Finset.sum_subtype_eq_sum_filter, Finset.subtype_univ]
      refine Finset.sum_congr rfl fun l _ => ?_
      rw [if_neg l.2, dif_pos l.2]
    rw [e2]
    show -rhs i + (A *ᵥ (A⁻¹ *ᵥ b)) ⟨i, hi⟩ = 0
    rw [e1]
    simp [b]
  · intro x y hx hy i hi
    have := block_injective h hs h0 hjk hjm hkm hr (fun l => if l ∈ [j, k, m] then 0 else x l - y l) (fun l hl => by rw [if_pos hl])
      (fun i hi => by
        have e1 := hx i hi
        have e2 := hy i hi
        have e3 : ∑ l, alpha i l * (if l ∈ [j, k, m] then 0 else x l - y l) =
            ∑ l, (if l ∈ [j, k, m] then 0 else alpha i l * x l) - ∑ l, (if l ∈ [j, k, m] then 0 else alpha i l * y l) := by
          rw [← Finset.sum_sub_distrib]
          refine Finset.sum_congr rfl fun l _ => ?_
          split_ifs <;> ring
        rw [e3]
        linear_combination e1 - e2)
    have := congrFun this i
    rw [if_neg hi] at this
    exact sub_eq_zero.1 this

/-- Strict triangle inequalities (no phase spreads completely between two others) make a triple regular. -/
theorem C83_no_spreading {K : Type} [Field K] [LinearOrder K] [IsStrictOrderedRing K] (sigma : Matrix (Fin n) (Fin n) K) (j k m : Fin n) (h1 : sigma j k < sigma j m + sigma k m)
    (h2 : sigma j m < sigma j k + sigma k m) (h3 : sigma k m < sigma j k + sigma j m) : RegularTriple sigma j k m := by
  unfold RegularTriple
  have p1 : 0 < sigma j k := by linarith
  have p2 : 0 < sigma j m := by linarith
  have p3 : 0 < sigma k m := by linarith
  have := mul_lt_mul_of_pos_left h1 p1
  have := mul_lt_mul_of_pos_left h2 p2
  have := mul_lt_mul_of_pos_left h3 p3
  intro h
  nlinarith

theorem mapM_getD {β : Type} {n : ℕ} (F : Fin n → Except PyErr β) (G : Fin n → β) (d : β) (h : ∀ i, F i = .ok (G i)) :
    ∃ r, (List.finRange n).mapM F = .ok r ∧ ∀ i : Fin n, r.getD i d = G i := by
  refine ⟨_, mapM_ok F G _ fun i _ => h i, fun i => ?_⟩
  simp [List.getElem?_map]

theorem solveBlock_ok (alpha : Matrix (Fin n) (Fin n) K) (index : List (Fin n)) (rhs : Fin n → K) (h : ∃ x, BlockSystem alpha index rhs x) :
    ∃ x, BlockSystem alpha index rhs x ∧ ∀ i, i ∉ index → solveBlock alpha index rhs i = .num (x i) := by
  refine ⟨h.choose, h.choose_spec, fun i hi => ?_⟩
  unfold solveBlock
  rw [dif_pos h]
  simp only [if_neg hi]

/-- **C83 (coefficients).**  For a regular triple `capital_lambda` consists of numbers outside the triple, which solve their linear
system. -/
theorem C83_lambda {sigma alpha : Matrix (Fin n) (Fin n) K} {gamma : Fin n → K}
    (hd : diffusionCoefficients sigma = .ok (alpha, gamma))
    (hs : ∀ i j, sigma i j = sigma j i) (h0 : ∀ i, sigma i i = 0) {j k m : Fin n} (hjk : j < k) (hkm : k < m)
    (hr : RegularTriple sigma j k m) :
    ∃ (v : Fin n → Entry K) (x : Fin n → K), capitalLambda sigma j k m = .ok v ∧ (∀ i, i ∉ [j, k, m] → v i = .num (x i)) ∧
      ∀ i, i ∉ [j, k, m] → ∑ l, (if l ∈ [j, k, m] then 0 else alpha i l * x l) =
        -6 * (alpha i j * (sigma j k + sigma j m) + alpha i k * (sigma j k + sigma k m) + alpha i m * (sigma j m + sigma k m) - gamma i) := by
  have hu := fun rhs => (C83_unique hd hs h0 hjk.ne (hjk.trans hkm).ne hkm.ne hr rhs).1
  obtain ⟨r, hr1, hr2⟩ := mapM_getD (fun i => if i ∈ [j, k, m] then pure 0 else capitalGamma sigma i j k m)
    (fun i => if i ∈ [j, k, m] then 0 else
      -6 * (alpha i j * (sigma j k + sigma j m) + alpha i k * (sigma j k + sigma k m) + alpha i m * (sigma j m + sigma k m) - gamma i)) 0
    (fun i => by
      split_ifs with hi
      · rfl
      · unfold capitalGamma
        rw [if_neg (not_not.2 ⟨hjk.le, hkm.le⟩), hd]
        rfl)
  obtain ⟨x, hx1, hx2⟩ := solveBlock_ok alpha [j, k, m] (fun i => r.getD i 0) (hu _)
  refine ⟨solveBlock alpha [j, k, m] (fun i => r.getD i 0), x, ?_, hx2, fun i hi => ?_⟩
  · simp only [capitalLambda, hd, bind, Except.bind, hr1]
    rfl
  · have := hx1 i hi
    simp only [hr2, if_neg hi] at this
    linear_combination this

/-- **C83 (coefficients).**  The same for `capital_theta`. -/
theorem C83_theta {sigma alpha : Matrix (Fin n) (Fin n) K} {gamma : Fin n → K}
    (hd : diffusionCoefficients sigma = .ok (alpha, gamma))
    (hs : ∀ i j, sigma i j = sigma j i) (h0 : ∀ i, sigma i i = 0) {i j l : Fin n} (hij : i ≠ j) (hil : i ≠ l) (hjl : j ≠ l)
    (hr : RegularTriple sigma i j l) :
    ∃ x : Fin n → K, (∀ k, k ∉ [i, j, l] → capitalTheta alpha i j k l = .num (x k)) ∧
      ∀ p, p ∉ [i, j, l] → ∑ k, (if k ∈ [i, j, l] then 0 else alpha p k * x k) = 2 * alpha p l := by
  obtain ⟨x, hx1, hx2⟩ := solveBlock_ok alpha [i, j, l] (fun p => 2 * alpha p l) (C83_unique hd hs h0 hij hil hjl hr _).1
  exact ⟨x, hx2, fun p hp => by linear_combination hx1 p hp⟩

theorem solveBlock_num {alpha : Matrix (Fin n) (Fin n) K} {index : List (Fin n)} {rhs : Fin n → K} {i : Fin n} {v : K} (hi : i ∉ index)
    (h : solveBlock alpha index rhs i = .num v) : ∃ x, BlockSystem alpha index rhs x := by
  by_contra hne
  unfold solveBlock at h
  rw [dif_neg hne] at h
  simp [hi] at h

theorem lambda_equations {sigma alpha : Matrix (Fin n) (Fin n) K} {gamma : Fin n → K} (hd : diffusionCoefficients sigma = .ok (alpha, gamma))
    {j k m : Fin n} (hjk : j < k) (hkm : k < m) {v : Fin n → Entry K} (hv : capitalLambda sigma j k m = .ok v) (y : Fin n → K)
    (hy : ∀ s, s ∉ [j, k, m] → v s = .num (y s)) (i : Fin n) (hi : i ∉ [j, k, m]) :
    ∑ l, (if l ∈ [j, k, m] then 0 else alpha i l * y l) =
      -6 * (alpha i j * (sigma j k + sigma j m) + alpha i k * (sigma j k + sigma k m) + alpha i m * (sigma j m + sigma k m) - gamma i) := by
  obtain ⟨r, hr1, hr2⟩ := mapM_getD (fun i => if i ∈ [j, k, m] then pure 0 else capitalGamma sigma i j k m)
    (fun i => if i ∈ [j, k, m] then 0 else
      -6 * (alpha i j * (sigma j k + sigma j m) + alpha i k * (sigma j k + sigma k m) + alpha i m * (sigma j m + sigma k m) - gamma i)) 0
    (fun i => by
      split_ifs with hi
      · rfl
      · unfold capitalGamma
        rw [if_neg (not_not.2 ⟨hjk.le, hkm.le⟩), hd]
        rfl)
  simp only [capitalLambda, hd, bind, Except.bind, hr1] at hv
  have hv' : solveBlock alpha [j, k, m] (fun i => r.getD i 0) = v := Except.ok.inj hv
  subst hv'
  obtain ⟨x, hx1, hx2⟩ := solveBlock_ok alpha [j, k, m] (fun i => r.getD i 0) (solveBlock_num hi (hy i hi))
  have hxy : ∀ s, s ∉ [j, k, m] → x s = y s := fun s hs => by
    have := (hx2 s hs).symm.trans (hy s hs)
    injection this
  have := hx1 i hi
  simp only [hr2, if_neg hi] at this
  have e : ∑ l, (if l ∈ [j, k, m] then 0 else alpha i l * y l) = ∑ l, (if l ∈ [j, k, m] then 0 else alpha i l * x l) := by
    refine Finset.sum_congr rfl fun l _ => ?_
    split_ifs with hl
    · rfl
    · rw [hxy l hl]
  rw [e]
  linear_combination this

theorem theta_equations {alpha : Matrix (Fin n) (Fin n) K} {i j l : Fin n} (y : Fin n → K)
    (hy : ∀ k, k ∉ [i, j, l] → capitalTheta alpha i j k l = .num (y k)) (p : Fin n) (hp : p ∉ [i, j, l]) :
    ∑ k, (if k ∈ [i, j, l] then 0 else alpha p k * y k) = 2 * alpha p l := by
  obtain ⟨x, hx1, hx2⟩ := solveBlock_ok alpha [i, j, l] (fun p => 2 * alpha p l) (solveBlock_num hp (hy p hp))
  have hxy : ∀ s, s ∉ [i, j, l] → x s = y s := fun s hs => by
    have := (hx2 s hs).symm.trans (hy s hs)
    injection this
  have e : ∑ k, (if k ∈ [i, j, l] then 0 else alpha p k * y k) = ∑ k, (if k ∈ [i, j, l] then 0 else alpha p k * x k) := by
    refine Finset.sum_congr rfl fun l _ => ?_
    split_ifs with hl
    · rfl
    · rw [hxy l hl]
  rw [e]
  linear_combination hx1 p hp

end coefficients

/-! ### Derivatives where at most three phases are present -/

section derivatives

variable {n : ℕ}

theorem hasDerivAt_coord (c : Fin n → ℝ) (l i : Fin n) : HasDerivAt (fun x => Function.update c l x i) (if i = l then 1 else 0) (c l) := by
  by_cases h : i = l
  · subst h
    simpa using hasDerivAt_id' (c i)
  · simpa [h] using hasDerivAt_const (c l) (c i)

theorem comp_coord (c : Fin n → ℝ) (l i : Fin n) {g : ℝ → ℝ} {g' : ℝ} (hg : HasDerivAt g g' (c i)) :
    HasDerivAt (fun x => g (Function.update c l x i)) (if i = l then g' else 0) (c l) := by
  by_cases h : i = l
  · subst h
    simpa using hg
  · simpa [h] using hasDerivAt_const (c l) (g (c i))

/-- The derivative of the double well -/
def dWell (x : ℝ) : ℝ := 2 * x * (1 - x) * (1 - 2 * x)

theorem hasDerivAt_well (x : ℝ) : HasDerivAt PhaseField.doubleWell (dWell x) x := by
  have h1 := (hasDerivAt_id x).pow 2
  have h2 := ((hasDerivAt_const x (1 : ℝ)).sub (hasDerivAt_id x)).pow 2
  have := h1.mul h2
  refine (this.congr_deriv ?_)
  simp [dWell]
  ring

theorem hasDerivAt_F0 (c : Fin n → ℝ) (sigma : Fin n → Fin n → ℝ) (hs : ∀ i j, sigma i j = sigma j i) (h0 : ∀ i, sigma i i = 0) (l : Fin n) :
    HasDerivAt (fun x => capitalF0 (Function.update c l x) sigma) (∑ j, sigma l j / 2 * (dWell (c l) - dWell (c l + c j))) (c l) := by
  have hterm : ∀ i j, HasDerivAt (fun x => sigma i j / 2 * (PhaseField.doubleWell (Function.update c l x i) +
        PhaseField.doubleWell (Function.update c l x j) - PhaseField.doubleWell (Function.update c l x i + Function.update c l x j)))
      ((if i = l then sigma l j / 2 * (dWell (c l) - dWell (c l + c j)) else 0) +
        (if j = l then sigma l i / 2 * (dWell (c l) - dWell (c l + c i)) else 0)) (c l) := by
    intro i j
    have h1 := comp_coord c l i (hasDerivAt_well (c i))
    have h2 := comp_coord c l j (hasDerivAt_well (c j))
    have h3 : HasDerivAt (fun x => PhaseField.doubleWell (Function.update c l x i + Function.update c l x j))
        (dWell (c i + c j) * ((if i = l then 1 else 0) + (if j = l then 1 else 0))) (c l) := by
      have hsum := (hasDerivAt_coord c l i).add (hasDerivAt_coord c l j)
      have hw : HasDerivAt PhaseField.doubleWell (dWell (c i + c j))
          ((fun x => Function.update c l x i + Function.update c l x j) (c l)) := by
        simpa using hasDerivAt_well (c i + c j)
      exact hw.comp (c l) hsum
    refine (((h1.add h2).sub h3).const_mul (sigma i j / 2)).congr_deriv ?_
    by_cases hi : i = l <;> by_cases hj : j = l
    · subst hi; subst hj; simp [h0]
    · subst hi; simp [hj]
    · subst hj; simp [hi, hs i j, add_comm (c i)]
    · simp [hi, hj]
  have hsum : HasDerivAt (fun x => capitalF0 (Function.update c l x) sigma)
      (∑ j, ∑ i, if i < j then ((if i = l then sigma l j / 2 * (dWell (c l) - dWell (c l + c j)) else 0) +
        (if j = l then sigma l i / 2 * (dWell (c l) - dWell (c l + c i)) else 0)) else 0) (c l) := by
    unfold capitalF0
    refine HasDerivAt.fun_sum fun j _ => HasDerivAt.fun_sum fun i _ => ?_
    by_cases h : i < j
    · simp only [if_pos h]
      exact hterm i j
    · simp only [if_neg h]
      exact hasDerivAt_const _ _
  refine hsum.congr_deriv ?_
  have e : ∀ i j, (if i < j then ((if i = l then sigma l j / 2 * (dWell (c l) - dWell (c l + c j)) else 0) +
        (if j = l then sigma l i / 2 * (dWell (c l) - dWell (c l + c i)) else 0)) else 0) =
      (if i = l then (if l < j then sigma l j / 2 * (dWell (c l) - dWell (c l + c j)) else 0) else 0) +
      (if j = l then (if i < l then sigma l i / 2 * (dWell (c l) - dWell (c l + c i)) else 0) else 0) := by
    intro i j
    by_cases hi : i = l <;> by_cases hj : j = l <;> simp [hi, hj]
  simp only [e, Finset.sum_add_distrib, Finset.sum_ite_eq', Finset.mem_univ, if_true]
  have e2 : ∑ j, ∑ i, (if j = l then (if i < l then sigma l i / 2 * (dWell (c l) - dWell (c l + c i)) else 0) else 0) =
      ∑ i, (if i < l then sigma l i / 2 * (dWell (c l) - dWell (c l + c i)) else 0) := by
    rw [Finset.sum_comm]
    simp
  rw [e2, ← Finset.sum_add_distrib]
  refine Finset.sum_congr rfl fun j _ => ?_
  rcases lt_trichotomy l j with h | rfl | h
  · simp [h, h.le]
  · simp [h0]
  · simp [h, h.le]

theorem hasDerivAt_list_sum {α : Type} (L : List α) (F : α → ℝ → ℝ) (F' : α → ℝ) (x : ℝ) (h : ∀ a ∈ L, HasDerivAt (F a) (F' a) x) :
    HasDerivAt (fun y => (L.map fun a => F a y).sum) (L.map F').sum x := by
  induction L with
  | nil => simpa using hasDerivAt_const x (0 : ℝ)
  | cons a L ih =>
    simp only [List.map_cons, List.sum_cons]
    exact (h a (by simp)).add (ih fun b hb => h b (List.mem_cons_of_mem _ hb))

/-- along the own concentration of an absent phase -/
theorem hasDerivAt_H_self (q : ℝ) (hq : q ≠ 0) : HasDerivAt (fun x => capitalH x (x * q)) q 0 := by
  have e : (fun x => capitalH x (x * q)) = fun x => x * (q * |q| / (|q| + |x|)) := by
    funext x
    rw [capitalH_eq]
    by_cases hx : x = 0
    · subst hx; simp
    · have h1 : 0 < |q| := abs_pos.2 hq
      have h2 : 0 < |x| := abs_pos.2 hx
      have h3 : |x * q| + x ^ 2 = |x| * (|q| + |x|) := by rw [abs_mul, ← sq_abs x]; ring
      rw [h3, abs_mul]
      field_simp
  rw [e, hasDerivAt_iff_tendsto_slope]
  have hc : Filter.Tendsto (fun x : ℝ => q * |q| / (|q| + |x|)) (nhdsWithin 0 {0}ᶜ) (nhds q) := by
    have : ContinuousAt (fun x : ℝ => q * |q| / (|q| + |x|)) 0 := by
      refine ContinuousAt.div continuousAt_const (continuousAt_const.add continuous_abs.continuousAt) ?_
      simpa using hq
    have h0 : q * |q| / (|q| + |(0 : ℝ)|) = q := by
      have : |q| ≠ 0 := abs_ne_zero.2 hq
      simp only [abs_zero, add_zero]
      field_simp
    have := this.tendsto
    rw [h0] at this
    exact this.mono_left nhdsWithin_le_nhds
  refine hc.congr' ?_
  filter_upwards [self_mem_nhdsWithin] with x hx
  have hx' : x ≠ 0 := hx
  rw [slope_def_field]
  field_simp
  simp
  ring

/-- along the concentration of an absent phase, with a present one in the first argument -/
theorem hasDerivAt_H_other (u q : ℝ) (hu : u ≠ 0) : HasDerivAt (fun x => capitalH u (x * q)) 0 0 := by
  have h1 := hasDerivAt_capitalH_right u (0 * q)
  have h2 : HasDerivAt (fun x : ℝ => x * q) q 0 := by simpa using (hasDerivAt_id (0 : ℝ)).mul_const q
  refine (h1.comp (0 : ℝ) h2).congr_deriv ?_
  simp [hu]

theorem combinations_complete {α : Type} : ∀ (L I : List α), I.Sublist L → I ∈ combinations I.length L
  | _, [], _ => by simp [combinations]
  | [], a :: I, h => by simp at h
  | b :: L, a :: I, h => by
    rw [List.length_cons, combinations, List.mem_append, List.mem_map]
    cases h with
    | cons _ h =>
      right
      exact combinations_complete L (a :: I) h
    | cons_cons _ h =>
      left
      exact ⟨I, combinations_complete L I h, rfl⟩

theorem combinations_nodup {α : Type} : ∀ (k : ℕ) (L : List α), L.Nodup → (combinations k L).Nodup
  | 0, _, _ => by simp [combinations]
  | _ + 1, [], _ => by simp [combinations]
  | k + 1, a :: L, h => by
    rw [List.nodup_cons] at h
    rw [combinations]
    refine List.Nodup.append ?_ (combinations_nodup (k + 1) L h.2) ?_
    · exact (combinations_nodup k L h.2).map fun x y hxy => (List.cons.inj hxy).2
    · intro I h1 h2
      obtain ⟨J, -, rfl⟩ := List.mem_map.1 h1
      have := (combinations_sublist _ _ _ h2).1.subset (List.mem_cons_self)
      exact h.1 this

/-- strictly increasing lists with the same elements are equal -/
theorem sorted_eq {L1 L2 : List (Fin n)} (h1 : L1.Pairwise (· < ·)) (h2 : L2.Pairwise (· < ·)) (h : ∀ x, x ∈ L1 ↔ x ∈ L2) : L1 = L2 := by
  have n1 : L1.Nodup := h1.imp fun h => h.ne
  have n2 : L2.Nodup := h2.imp fun h => h.ne
  have hp : L1.Perm L2 := (List.perm_ext_iff_of_nodup n1 n2).2 h
  exact hp.eq_of_pairwise (fun a b _ _ hab hba => absurd hab (lt_asymm hba)) h1 h2

theorem finRange_sorted (n : ℕ) : (List.finRange n).Pairwise (· < ·) := List.pairwise_lt_finRange n

theorem comb_facts {I : List (Fin n)} {k : ℕ} (h : I ∈ combinations k (List.finRange n)) :
    I.Pairwise (· < ·) ∧ I.Nodup ∧ I.length = k := by
  obtain ⟨h1, h2⟩ := combinations_sublist _ _ _ h
  have := (finRange_sorted n).sublist h1
  exact ⟨this, this.imp fun h => h.ne, h2⟩

theorem list_sum_single {α : Type} (L : List α) (hL : L.Nodup) (a : α) (ha : a ∈ L) (g : α → ℝ) (h : ∀ b ∈ L, b ≠ a → g b = 0) :
    (L.map g).sum = g a := by
  induction L with
  | nil => simp at ha
  | cons b L ih =>
    rw [List.nodup_cons] at hL
    rw [List.map_cons, List.sum_cons]
    rcases List.mem_cons.1 ha with rfl | ha'
    · rw [List.sum_eq_zero, add_zero]
      intro y hy
      obtain ⟨d, hd, rfl⟩ := List.mem_map.1 hy
      exact h d (List.mem_cons_of_mem _ hd) fun e => hL.1 (e ▸ hd)
    · rw [h b (by simp) fun e => hL.1 (e ▸ ha'), zero_add, ih hL.2 ha' fun d hd => h d (List.mem_cons_of_mem _ hd)]

section triple

variable (c : Fin n → ℝ) {j k m : Fin n} (hjk : j < k) (hkm : k < m) (hsupp : ∀ l, l ∉ [j, k, m] → c l = 0)

include hjk hkm hsupp

theorem erase_eq_triple {I : List (Fin n)} (hI : I ∈ combinations 4 (List.finRange n)) {l : Fin n} (hl : l ∈ I)
    (hq : ((I.erase l).map c).prod ≠ 0) : I.erase l = [j, k, m] := by
  obtain ⟨h1, h2, h3⟩ := comb_facts hI
  have hT : ∀ x ∈ I.erase l, x ∈ [j, k, m] := by
    intro x hx
    by_contra hne
    apply hq
    rw [List.prod_eq_zero_iff]
    exact List.mem_map.2 ⟨x, hx, hsupp x hne⟩
  have hlen : (I.erase l).length = 3 := by rw [List.length_erase_of_mem hl, h3]
  have hnd : (I.erase l).Nodup := h2.erase l
  have hsorted : (I.erase l).Pairwise (· < ·) := h1.sublist List.erase_sublist
  refine sorted_eq hsorted (by simp [hjk, hkm, hjk.trans hkm]) fun x => ⟨hT x, fun hx => ?_⟩
  have hp : (I.erase l).Subperm [j, k, m] := hnd.subperm hT
  have := hp.perm_of_length_le (by simp [hlen])
  exact this.mem_iff.2 hx

theorem hasDerivAt_G (coeff : List (Fin n) → Fin n → ℝ) (l : Fin n) :
    HasDerivAt (fun x => correctionG coeff (Function.update c l x)) (if l ∈ [j, k, m] then 0 else coeff [j, k, m] l * (c j * c k * c m)) (c l) := by
  have hterm : ∀ I ∈ combinations 4 (List.finRange n), ∀ s ∈ I, HasDerivAt (fun x => coeff (I.filter fun e => e ≠ s) s *
        capitalH (Function.update c l x s) (I.map (Function.update c l x)).prod)
      (if I.filter (fun e => e ≠ l) = [j, k, m] ∧ s = l ∧ l ∉ [j, k, m] then coeff [j, k, m] l * (c j * c k * c m) else 0) (c l) := by
    intro I hI s hs
    obtain ⟨h1, h2, h3⟩ := comb_facts hI
    by_cases hl : l ∈ I
    · have hfil : I.filter (fun e => e ≠ l) = I.erase l := by
        rw [h2.erase_eq_filter]
        refine List.filter_congr fun e _ => ?_
        by_cases he : e = l <;> simp [he]
      have hprod : ∀ x, (I.map (Function.update c l x)).prod = x * ((I.erase l).map c).prod := by
        intro x
        rw [((List.perm_cons_erase hl).map _).prod_eq, List.map_cons, List.prod_cons, Function.update_self]
        congr 2
        refine List.map_congr_left fun e he => ?_
        rw [Function.update_of_ne]
        rintro rfl
        exact h2.not_mem_erase he
      simp only [hprod]
      by_cases hq : ((I.erase l).map c).prod = 0
      · simp only [hq, mul_zero, capitalH_zero]
        refine (hasDerivAt_const _ _).congr_deriv ?_
        split_ifs with hc
        · rw [hfil] at hc
          rw [hc.1] at hq
          have : c j * c k * c m = 0 := by simpa [mul_assoc] using hq
          rw [this, mul_zero]
        · rfl
      · have hT := erase_eq_triple c hjk hkm hsupp hI hl hq
        have hlT : l ∉ [j, k, m] := by
          rw [← hT]
          exact h2.not_mem_erase
        have hqP : ((I.erase l).map c).prod = c j * c k * c m := by simp [hT, mul_assoc]
        rw [hsupp l hlT]
        by_cases hsl : s = l
        · subst hsl
          rw [if_pos ⟨hfil.trans hT, rfl, hlT⟩]
          simp only [Function.update_self]
          rw [hfil, ← hqP, ← hT]
          exact (hasDerivAt_H_self _ hq).const_mul _
        · rw [if_neg fun h => hsl h.2.1]
          simp only [Function.update_of_ne hsl]
          have hsT : s ∈ I.erase l := (h2.mem_erase_iff).2 ⟨hsl, hs⟩
          have hcs : c s ≠ 0 := by
            intro h
            apply hq
            rw [List.prod_eq_zero_iff]
            exact List.mem_map.2 ⟨s, hsT, h⟩
          simpa using (hasDerivAt_H_other (c s) _ hcs).const_mul (coeff (I.filter fun e => e ≠ s) s)
    · have hprod : ∀ x, (I.map (Function.update c l x)).prod = 0 := by
        intro x
        have : I.map (Function.update c l x) = I.map c := by
          refine List.map_congr_left fun e he => ?_
          rw [Function.update_of_ne]
          rintro rfl
          exact hl he
        rw [this, List.prod_eq_zero_iff]
        by_contra hne
        have hT : ∀ x ∈ I, x ∈ [j, k, m] := by
          intro x hx
          by_contra h
          exact hne (List.mem_map.2 ⟨x, hx, hsupp x h⟩)
        have := (h2.subperm hT).length_le
        simp [h3] at this
      simp only [hprod, capitalH_zero, mul_zero]
      rw [if_neg]
      · exact hasDerivAt_const _ _
      · rintro ⟨-, rfl, -⟩
        exact hl hs
  have hsum := hasDerivAt_list_sum (combinations 4 (List.finRange n)) (fun I x => (I.map fun s => coeff (I.filter fun e => e ≠ s) s *
      capitalH (Function.update c l x s) (I.map (Function.update c l x)).prod).sum)
    (fun I => (I.map fun s => if I.filter (fun e => e ≠ l) = [j, k, m] ∧ s = l ∧ l ∉ [j, k, m] then
      coeff [j, k, m] l * (c j * c k * c m) else 0).sum) (c l)
    (fun I hI => hasDerivAt_list_sum I _ _ _ fun s hs => hterm I hI s hs)
  refine hsum.congr_deriv ?_
  split_ifs with hl
  · refine List.sum_eq_zero fun y hy => ?_
    obtain ⟨I, -, rfl⟩ := List.mem_map.1 hy
    refine List.sum_eq_zero fun y hy => ?_
    obtain ⟨s, -, rfl⟩ := List.mem_map.1 hy
    rw [if_neg fun h => h.2.2 hl]
  · have hI0mem : ∀ x, x ∈ (List.finRange n).filter (fun e => e ∈ l :: [j, k, m]) ↔ x ∈ l :: [j, k, m] := fun x => by
      simp only [List.mem_filter, List.mem_finRange, true_and, decide_eq_true_eq]
    set I0 := (List.finRange n).filter (fun e => e ∈ l :: [j, k, m]) with hI0
    have hsub : I0.Sublist (List.finRange n) := List.filter_sublist
    have hs0 : I0.Pairwise (· < ·) := (finRange_sorted n).sublist hsub
    have hnd0 : I0.Nodup := hs0.imp fun h => h.ne
    have hTs : [j, k, m].Pairwise (· < ·) := by simp [hjk, hkm, hjk.trans hkm]
    have hTn : (l :: [j, k, m]).Nodup := List.nodup_cons.2 ⟨hl, hTs.imp fun h => h.ne⟩
    have hlen : I0.length = 4 := by
      have := ((List.perm_ext_iff_of_nodup hnd0 hTn).2 hI0mem).length_eq
      simpa using this
    have hI0c : I0 ∈ combinations 4 (List.finRange n) := by
      rw [← hlen]
      exact combinations_complete _ _ hsub
    have hfil0 : I0.filter (fun e => e ≠ l) = [j, k, m] := by
      refine sorted_eq (hs0.sublist List.filter_sublist) hTs fun x => ?_
      rw [List.mem_filter, hI0mem]
      constructor
      · rintro ⟨h1, h2⟩
        rcases List.mem_cons.1 h1 with h | h
        · simp [h] at h2
        · exact h
      · intro h
        refine ⟨List.mem_cons_of_mem _ h, ?_⟩
        simp only [ne_eq, decide_not, Bool.not_eq_true', decide_eq_false_iff_not]
        rintro rfl
        exact hl h
    have huniq : ∀ I ∈ combinations 4 (List.finRange n), I ≠ I0 → I.filter (fun e => e ≠ l) ≠ [j, k, m] := by
      intro I hI hne hf
      obtain ⟨h1, h2, h3⟩ := comb_facts hI
      apply hne
      have hlI : l ∈ I := by
        by_contra hlI
        have : I.filter (fun e => e ≠ l) = I := by
          rw [List.filter_eq_self]
          intro e he
          simp only [ne_eq, decide_not, Bool.not_eq_true', decide_eq_false_iff_not]
          rintro rfl
          exact hlI he
        rw [this] at hf
        rw [hf] at h3
        simp at h3
      refine sorted_eq h1 hs0 fun x => ?_
      rw [hI0mem, List.mem_cons, ← hf, List.mem_filter]
      constructor
      · intro hx
        by_cases hxl : x = l
        · exact Or.inl hxl
        · exact Or.inr ⟨hx, by simpa using hxl⟩
      · rintro (rfl | h)
        · exact hlI
        · exact h.1
    rw [list_sum_single _ (combinations_nodup 4 _ (List.nodup_finRange n)) I0 hI0c]
    · rw [list_sum_single I0 hnd0 l ((hI0mem l).2 (by simp))]
      · rw [if_pos ⟨hfil0, rfl, hl⟩]
      · intro s _ hs
        rw [if_neg fun h => hs h.2.1]
    · intro I hI hne
      refine List.sum_eq_zero fun y hy => ?_
      obtain ⟨s, -, rfl⟩ := List.mem_map.1 hy
      rw [if_neg fun h => huniq I hI hne h.1]

theorem hasDerivAt_sq (l i : Fin n) : HasDerivAt (fun x => Function.update c l x i ^ 2) (if i = l then 2 * c i else 0) (c l) := by
  have h : HasDerivAt (fun x : ℝ => x ^ 2) (2 * c i) (c i) := by simpa using hasDerivAt_pow 2 (c i)
  exact comp_coord c l i h

theorem hasDerivAt_S1 (l : Fin n) :
    HasDerivAt (fun x => ∑ p, ∑ q, ∑ r, if q < p ∧ r < q then Function.update c l x p ^ 2 * Function.update c l x q ^ 2 *
        Function.update c l x r ^ 2 else 0)
      ((if l = j then 2 * c j * c k ^ 2 * c m ^ 2 else 0) + (if l = k then 2 * c k * c j ^ 2 * c m ^ 2 else 0) +
        (if l = m then 2 * c m * c j ^ 2 * c k ^ 2 else 0)) (c l) := by
  have hT : ∀ p q r : Fin n, q < p → r < q → ¬(p = m ∧ q = k ∧ r = j) → c p = 0 ∨ c q = 0 ∨ c r = 0 := by
    intro p q r h1 h2 hne
    by_contra hz
    push Not at hz
    have mp : p ∈ [j, k, m] := by by_contra h; exact hz.1 (hsupp p h)
    have mq : q ∈ [j, k, m] := by by_contra h; exact hz.2.1 (hsupp q h)
    have mr : r ∈ [j, k, m] := by by_contra h; exact hz.2.2 (hsupp r h)
    apply hne
    have e : [r, q, p] = [j, k, m] := by
      refine sorted_eq (by simp [h1, h2, h2.trans h1]) (by simp [hjk, hkm, hjk.trans hkm]) fun x => ⟨?_, fun hx => ?_⟩
      · intro hx
        simp only [List.mem_cons, List.not_mem_nil, or_false] at hx
        rcases hx with rfl | rfl | rfl <;> assumption
      · have hnd : [r, q, p].Nodup := by simp [h1.ne, h2.ne, (h2.trans h1).ne]
        have hsub : [r, q, p].Subperm [j, k, m] := hnd.subperm fun x hx => by
          simp only [List.mem_cons, List.not_mem_nil, or_false] at hx
          rcases hx with rfl | rfl | rfl <;> assumption
        exact (hsub.perm_of_length_le (by simp)).mem_iff.2 hx
    simp only [List.cons.injEq, and_true] at e
    exact ⟨e.2.2, e.2.1, e.1⟩
  have hterm : ∀ p q r, HasDerivAt (fun x => Function.update c l x p ^ 2 * Function.update c l x q ^ 2 * Function.update c l x r ^ 2)
      (((if p = l then 2 * c p else 0) * c q ^ 2 + c p ^ 2 * (if q = l then 2 * c q else 0)) * c r ^ 2 +
        c p ^ 2 * c q ^ 2 * (if r = l then 2 * c r else 0)) (c l) := by
    intro p q r
    have := ((hasDerivAt_sq c hjk hkm hsupp l p).mul (hasDerivAt_sq c hjk hkm hsupp l q)).mul (hasDerivAt_sq c hjk hkm hsupp l r)
    refine this.congr_deriv ?_
    simp
  have hsum : HasDerivAt (fun x => ∑ p, ∑ q, ∑ r, if q < p ∧ r < q then Function.update c l x p ^ 2 * Function.update c l x q ^ 2 *
        Function.update c l x r ^ 2 else 0)
      (∑ p, ∑ q, ∑ r, if p = m ∧ q = k ∧ r = j then ((if l = j then 2 * c j * c k ^ 2 * c m ^ 2 else 0) +
        (if l = k then 2 * c k * c j ^ 2 * c m ^ 2 else 0) + (if l = m then 2 * c m * c j ^ 2 * c k ^ 2 else 0)) else 0) (c l) := by
    refine HasDerivAt.fun_sum fun p _ => HasDerivAt.fun_sum fun q _ => HasDerivAt.fun_sum fun r _ => ?_
    by_cases h : q < p ∧ r < q
    · simp only [if_pos h]
      refine (hterm p q r).congr_deriv ?_
      by_cases he : p = m ∧ q = k ∧ r = j
      · rw [if_pos he]
        obtain ⟨rfl, rfl, rfl⟩ := he
        simp only [eq_comm (b := l)]
        split_ifs <;> ring
      · rw [if_neg he]
        rcases hT p q r h.1 h.2 he with h0 | h0 | h0 <;> simp [h0]
    · simp only [if_neg h]
      rw [if_neg]
      · exact hasDerivAt_const _ _
      · rintro ⟨rfl, rfl, rfl⟩
        exact h ⟨hkm, hjk⟩
  refine hsum.congr_deriv ?_
  rw [Finset.sum_eq_single m, Finset.sum_eq_single k, Finset.sum_eq_single j]
  · simp
  all_goals simp +contextual

/-- The inner sum of the stabilisation term over ordered pairs -/
theorem inner_eq (g : Fin n → Fin n → ℝ) (p q : Fin n) :
    ∑ r, (if r = p ∨ r = q then 0 else ∑ s, (if s < r ∧ ¬(s = p ∨ s = q) then g s r + g r s else 0)) =
      ∑ s, ∑ r, (if s ≠ r ∧ ¬(s = p ∨ s = q) ∧ ¬(r = p ∨ r = q) then g s r else 0) := by
  have e1 : ∀ r, (if r = p ∨ r = q then 0 else ∑ s, (if s < r ∧ ¬(s = p ∨ s = q) then g s r + g r s else 0)) =
      ∑ s, (if s < r ∧ ¬(s = p ∨ s = q) ∧ ¬(r = p ∨ r = q) then g s r else 0) +
      ∑ s, (if s < r ∧ ¬(s = p ∨ s = q) ∧ ¬(r = p ∨ r = q) then g r s else 0) := by
    intro r
    rw [← Finset.sum_add_distrib]
    by_cases h : r = p ∨ r = q
    · simp [h]
    · simp only [if_neg h]
      refine Finset.sum_congr rfl fun s _ => ?_
      by_cases h2 : s < r ∧ ¬(s = p ∨ s = q)
      · simp [h2, h]
      · have : ¬(s < r ∧ ¬(s = p ∨ s = q) ∧ ¬(r = p ∨ r = q)) := fun h3 => h2 ⟨h3.1, h3.2.1⟩
        simp only [if_neg h2, if_neg this, add_zero]
  simp only [e1, Finset.sum_add_distrib]
  rw [Finset.sum_comm, ← Finset.sum_add_distrib]
  refine Finset.sum_congr rfl fun s _ => ?_
  rw [← Finset.sum_add_distrib]
  refine Finset.sum_congr rfl fun r _ => ?_
  by_cases hs : s = p ∨ s = q
  · simp [hs]
  · by_cases hr : r = p ∨ r = q
    · simp [hr]
    · rcases lt_trichotomy s r with h | rfl | h
      · simp [hs, hr, h, h.ne, h.le]
      · simp
      · simp [hs, hr, h, h.ne', h.le]

theorem stabilization_eq (theta : Fin n → Fin n → Fin n → Fin n → ℝ) (d : Fin n → ℝ) : stabilizationTerm theta d =
    (∑ p, ∑ q, ∑ r, if q < p ∧ r < q then d p ^ 2 * d q ^ 2 * d r ^ 2 else 0) -
    ∑ q, ∑ p, if p < q then d p ^ 2 * d q ^ 2 * ∑ s, ∑ r, (if s ≠ r ∧ ¬(s = p ∨ s = q) ∧ ¬(r = p ∨ r = q) then
      theta p q s r * capitalH (d s) (d s * d r) else 0) else 0 := by
  unfold stabilizationTerm
  congr 1
  refine Finset.sum_congr rfl fun q _ => Finset.sum_congr rfl fun p _ => ?_
  split_ifs with h
  · rw [← inner_eq c hjk hkm hsupp (fun s r => theta p q s r * capitalH (d s) (d s * d r)) p q]
    congr 1
    refine Finset.sum_congr rfl fun r _ => ?_
    split_ifs with h2
    · rfl
    · refine Finset.sum_congr rfl fun s _ => ?_
      split_ifs with h3
      · rw [mul_comm (d r) (d s)]
      · rfl
  · rfl

theorem third_of_mem {p q s r : Fin n} (hpq : p < q) (hp : p ∈ [j, k, m]) (hq : q ∈ [j, k, m]) (hs : s ∈ [j, k, m]) (hr : r ∈ [j, k, m])
    (h1 : ¬(s = p ∨ s = q)) (h2 : ¬(r = p ∨ r = q)) : s = r := by
  by_contra hne
  push Not at h1 h2
  have hnd : [p, q, s, r].Nodup := by
    simp [hpq.ne, hne, Ne.symm h1.1, Ne.symm h1.2, Ne.symm h2.1, Ne.symm h2.2]
  have := (hnd.subperm (l₂ := [j, k, m]) fun x hx => by
    simp only [List.mem_cons, List.not_mem_nil, or_false] at hx
    rcases hx with rfl | rfl | rfl | rfl <;> assumption).length_le
  simp at this

theorem hasDerivAt_S2 (theta : Fin n → Fin n → Fin n → Fin n → ℝ) (l : Fin n) :
    HasDerivAt (fun x => ∑ q, ∑ p, if p < q then Function.update c l x p ^ 2 * Function.update c l x q ^ 2 *
        ∑ s, ∑ r, (if s ≠ r ∧ ¬(s = p ∨ s = q) ∧ ¬(r = p ∨ r = q) then
          theta p q s r * capitalH (Function.update c l x s) (Function.update c l x s * Function.update c l x r) else 0) else 0)
      (if l ∈ [j, k, m] then 0 else c j ^ 2 * c k ^ 2 * (theta j k l m * c m) + c j ^ 2 * c m ^ 2 * (theta j m l k * c k) +
        c k ^ 2 * c m ^ 2 * (theta k m l j * c j)) (c l) := by
  -- one pair of present phases
  have hpair : ∀ p q, p < q → p ∈ [j, k, m] → q ∈ [j, k, m] →
      HasDerivAt (fun x => ∑ s, ∑ r, (if s ≠ r ∧ ¬(s = p ∨ s = q) ∧ ¬(r = p ∨ r = q) then
          theta p q s r * capitalH (Function.update c l x s) (Function.update c l x s * Function.update c l x r) else 0))
        (∑ s, ∑ r, if s = l ∧ l ∉ [j, k, m] ∧ ¬(r = p ∨ r = q) then theta p q l r * c r else 0) (c l) := by
    intro p q hpq hp hq
    refine HasDerivAt.fun_sum fun s _ => HasDerivAt.fun_sum fun r _ => ?_
    by_cases hcond : s ≠ r ∧ ¬(s = p ∨ s = q) ∧ ¬(r = p ∨ r = q)
    · simp only [if_pos hcond]
      obtain ⟨hsr, hs, hr⟩ := hcond
      by_cases hsl : s = l
      · subst hsl
        simp only [Function.update_self, Function.update_of_ne (Ne.symm hsr)]
        by_cases hcr : c r = 0
        · simp only [hcr, mul_zero, capitalH_zero, ite_self]
          exact hasDerivAt_const _ _
        · have hrT : r ∈ [j, k, m] := by by_contra h; exact hcr (hsupp r h)
          have hsT : s ∉ [j, k, m] := fun h => hsr (third_of_mem c hjk hkm hsupp hpq hp hq h hrT hs hr)
          rw [if_pos ⟨trivial, hsT, hr⟩, hsupp s hsT]
          exact (hasDerivAt_H_self (c r) hcr).const_mul _
      · rw [if_neg fun h => hsl h.1]
        simp only [Function.update_of_ne hsl]
        by_cases hcs : c s = 0
        · simp only [hcs, zero_mul, capitalH_zero, mul_zero]
          exact hasDerivAt_const _ _
        · have hsT : s ∈ [j, k, m] := by by_contra h; exact hcs (hsupp s h)
          have hrT : r ∉ [j, k, m] := fun h => hsr (third_of_mem c hjk hkm hsupp hpq hp hq hsT h hs hr)
          by_cases hrl : r = l
          · subst hrl
            simp only [Function.update_self]
            rw [hsupp r hrT]
            have := (hasDerivAt_H_other (c s) (c s) hcs).const_mul (theta p q s r)
            simpa [mul_comm] using this
          · simp only [Function.update_of_ne hrl, hsupp r hrT, mul_zero, capitalH_zero]
            exact hasDerivAt_const _ _
    · simp only [if_neg hcond]
      refine (hasDerivAt_const _ _).congr_deriv ?_
      split_ifs with h
      · obtain ⟨rfl, h2, h3⟩ := h
        have hs : ¬(s = p ∨ s = q) := by
          rintro (rfl | rfl) <;> contradiction
        have : s = r := by
          by_contra hne
          exact hcond ⟨hne, hs, h3⟩
        subst this
        rw [hsupp s h2, mul_zero]
      · rfl
  -- the inner sum does not depend on the phases of the pair
  have hval : ∀ p q x, l = p ∨ l = q → (∑ s, ∑ r, (if s ≠ r ∧ ¬(s = p ∨ s = q) ∧ ¬(r = p ∨ r = q) then
          theta p q s r * capitalH (Function.update c l x s) (Function.update c l x s * Function.update c l x r) else 0)) =
        ∑ s, ∑ r, (if s ≠ r ∧ ¬(s = p ∨ s = q) ∧ ¬(r = p ∨ r = q) then theta p q s r * capitalH (c s) (c s * c r) else 0) := by
    intro p q x hl
    refine Finset.sum_congr rfl fun s _ => Finset.sum_congr rfl fun r _ => ?_
    split_ifs with h
    · have h1 : s ≠ l := by
        rintro rfl
        exact h.2.1 hl
      have h2 : r ≠ l := by
        rintro rfl
        exact h.2.2 hl
      rw [Function.update_of_ne h1, Function.update_of_ne h2]
    · rfl
  have hzero : ∀ p q, p < q → p ∈ [j, k, m] → q ∈ [j, k, m] →
      ∑ s, ∑ r, (if s ≠ r ∧ ¬(s = p ∨ s = q) ∧ ¬(r = p ∨ r = q) then theta p q s r * capitalH (c s) (c s * c r) else 0) = 0 := by
    intro p q hpq hp hq
    refine Finset.sum_eq_zero fun s _ => Finset.sum_eq_zero fun r _ => ?_
    split_ifs with h
    · have : c s * c r = 0 := by
        by_contra hne
        have h1 : s ∈ [j, k, m] := by by_contra h'; exact hne (by rw [hsupp s h', zero_mul])
        have h2 : r ∈ [j, k, m] := by by_contra h'; exact hne (by rw [hsupp r h', mul_zero])
        exact h.1 (third_of_mem c hjk hkm hsupp hpq hp hq h1 h2 h.2.1 h.2.2)
      rw [this, capitalH_zero, mul_zero]
    · rfl
  have hterm : ∀ q p, p < q → HasDerivAt (fun x => Function.update c l x p ^ 2 * Function.update c l x q ^ 2 *
        ∑ s, ∑ r, (if s ≠ r ∧ ¬(s = p ∨ s = q) ∧ ¬(r = p ∨ r = q) then
          theta p q s r * capitalH (Function.update c l x s) (Function.update c l x s * Function.update c l x r) else 0))
      (if l ∈ [j, k, m] then 0 else c p ^ 2 * c q ^ 2 * ∑ r, (if r = p ∨ r = q then 0 else theta p q l r * c r)) (c l) := by
    intro q p hpq
    by_cases hT : p ∈ [j, k, m] ∧ q ∈ [j, k, m]
    · by_cases hl : l = p ∨ l = q
      · have hlT : l ∈ [j, k, m] := by rcases hl with rfl | rfl; exacts [hT.1, hT.2]
        rw [if_pos hlT]
        simp only [hval p q _ hl, hzero p q hpq hT.1 hT.2, mul_zero]
        exact hasDerivAt_const _ _
      · push Not at hl
        simp only [Function.update_of_ne (Ne.symm hl.1), Function.update_of_ne (Ne.symm hl.2)]
        refine ((hpair p q hpq hT.1 hT.2).const_mul (c p ^ 2 * c q ^ 2)).congr_deriv ?_
        by_cases hlT : l ∈ [j, k, m]
        · simp [hlT]
        · rw [if_neg hlT, Finset.sum_eq_single l]
          · congr 1
            refine Finset.sum_congr rfl fun r _ => ?_
            by_cases hr : r = p ∨ r = q
            · rw [if_pos hr, if_neg fun h => h.2.2 hr]
            · rw [if_neg hr, if_pos ⟨rfl, hlT, hr⟩]
          · intro s _ hs
            exact Finset.sum_eq_zero fun r _ => if_neg fun h => hs h.1
          · simp
    · have h0 : c p ^ 2 * c q ^ 2 = 0 := by
        rw [not_and_or] at hT
        rcases hT with h | h
        · rw [hsupp p h]; ring
        · rw [hsupp q h]; ring
      rw [h0, zero_mul, ite_self]
      by_cases hl : l = p ∨ l = q
      · simp only [hval p q _ hl]
        have := ((hasDerivAt_sq c hjk hkm hsupp l p).mul (hasDerivAt_sq c hjk hkm hsupp l q)).mul_const
          (∑ s, ∑ r, (if s ≠ r ∧ ¬(s = p ∨ s = q) ∧ ¬(r = p ∨ r = q) then theta p q s r * capitalH (c s) (c s * c r) else 0))
        refine this.congr_deriv ?_
        simp only [Function.update_eq_self]
        rw [not_and_or] at hT
        rcases hT with h | h <;> simp [hsupp _ h]
      · push Not at hl
        simp only [Function.update_of_ne (Ne.symm hl.1), Function.update_of_ne (Ne.symm hl.2), h0, zero_mul]
        exact hasDerivAt_const _ _
  have hsum : HasDerivAt (fun x => ∑ q, ∑ p, if p < q then Function.update c l x p ^ 2 * Function.update c l x q ^ 2 *
        ∑ s, ∑ r, (if s ≠ r ∧ ¬(s = p ∨ s = q) ∧ ¬(r = p ∨ r = q) then
          theta p q s r * capitalH (Function.update c l x s) (Function.update c l x s * Function.update c l x r) else 0) else 0)
      (∑ q, ∑ p, if p < q then (if l ∈ [j, k, m] then 0 else
        c p ^ 2 * c q ^ 2 * ∑ r, (if r = p ∨ r = q then 0 else theta p q l r * c r)) else 0) (c l) := by
    refine HasDerivAt.fun_sum fun q _ => HasDerivAt.fun_sum fun p _ => ?_
    by_cases h : p < q
    · simp only [if_pos h]
      exact hterm q p h
    · simp only [if_neg h]
      exact hasDerivAt_const _ _
  refine hsum.congr_deriv ?_
  by_cases hl : l ∈ [j, k, m]
  · simp [hl]
  · simp only [if_neg hl]
    have hjk' := hjk.ne
    have hkm' := hkm.ne
    have hjm' := (hjk.trans hkm).ne
    have inner : ∀ p q, ∑ r, (if r = p ∨ r = q then 0 else theta p q l r * c r) =
        (if j = p ∨ j = q then 0 else theta p q l j * c j) + (if k = p ∨ k = q then 0 else theta p q l k * c k) +
          (if m = p ∨ m = q then 0 else theta p q l m * c m) := fun p q =>
      sum_three hjk' hjm' hkm' _ fun r hr => by rw [hsupp r hr, mul_zero, ite_self]
    rw [sum_three hjk' hjm' hkm' _ fun q hq => Finset.sum_eq_zero fun p _ => by rw [hsupp q hq]; simp]
    have outer : ∀ q, ∑ p, (if p < q then c p ^ 2 * c q ^ 2 * ∑ r, (if r = p ∨ r = q then 0 else theta p q l r * c r) else 0) = _ := fun q =>
      sum_three hjk' hjm' hkm' _ fun p hp => by rw [hsupp p hp]; simp
    rw [outer j, outer k, outer m]
    simp only [inner]
    simp [hjk, hkm, hjk.trans hkm, not_lt.2 hjk.le, not_lt.2 hkm.le, not_lt.2 (hjk.trans hkm).le, hjk', hkm', hjm', hjk'.symm, hkm'.symm, hjm'.symm]
    ring

/-- The bulk part of the potential of the uncorrected energy -/
theorem F0_potential {sigma : Matrix (Fin n) (Fin n) ℝ} {alpha : Matrix (Fin n) (Fin n) ℝ} {gamma : Fin n → ℝ} (h : IsDiffusion sigma alpha gamma)
    (hs : ∀ i j, sigma i j = sigma j i) (h0 : ∀ i, sigma i i = 0) (hc : ∑ i, c i = 1) (i : Fin n) :
    ∑ l, alpha i l * ∑ q, sigma l q / 2 * (dWell (c l) - dWell (c l + c q)) =
      -dWell (c i) / 2 + 6 * (c j * c k * c m) * (alpha i j * (sigma j k + sigma j m) + alpha i k * (sigma j k + sigma k m) +
        alpha i m * (sigma j m + sigma k m) - gamma i) := by
  have hjk' := hjk.ne
  have hkm' := hkm.ne
  have hjm' := (hjk.trans hkm).ne
  have hsum : c j + c k + c m = 1 := by rw [← hc, sum_three hjk' hjm' hkm' c hsupp]
  have hw0 : ∀ l, l ∉ [j, k, m] → dWell (c l) = 0 := fun l hl => by rw [hsupp l hl]; simp [dWell]
  have hsumw : ∑ l, dWell (c l) = 12 * (c j * c k * c m) := by
    rw [sum_three hjk' hjm' hkm' _ hw0]
    have : c m = 1 - c j - c k := by linarith
    rw [this]
    unfold dWell
    ring
  -- the two parts of the derivative
  have split : ∀ l, ∑ q, sigma l q / 2 * (dWell (c l) - dWell (c l + c q)) =
      -(1 / 2) * ∑ q, sigma l q * dWell (c q) + ∑ q, sigma l q / 2 * (dWell (c l) + dWell (c q) - dWell (c l + c q)) := by
    intro l
    rw [Finset.mul_sum, ← Finset.sum_add_distrib]
    refine Finset.sum_congr rfl fun q _ => ?_
    ring
  have hE : ∀ l q, l ∉ [j, k, m] ∨ q ∉ [j, k, m] → dWell (c l) + dWell (c q) - dWell (c l + c q) = 0 := by
    intro l q h
    rcases h with h | h
    · rw [hsupp l h, zero_add]; simp [dWell]
    · rw [hsupp q h, add_zero]; simp [dWell]
  have hE3 : ∀ a b d : ℝ, a + b + d = 1 → dWell a + dWell b - dWell (a + b) = 12 * (a * b * d) := by
    intro a b d h
    have : d = 1 - a - b := by linarith
    rw [this]
    unfold dWell
    ring
  have first : ∑ l, alpha i l * ∑ q, sigma l q * dWell (c q) = dWell (c i) + gamma i * (12 * (c j * c k * c m)) := by
    have : ∀ l, alpha i l * ∑ q, sigma l q * dWell (c q) = ∑ q, alpha i l * sigma l q * dWell (c q) := fun l => by
      rw [Finset.mul_sum]
      exact Finset.sum_congr rfl fun q _ => by ring
    simp only [this]
    rw [Finset.sum_comm]
    simp only [← Finset.sum_mul, h.inverse, add_mul, Finset.sum_add_distrib, ite_mul, one_mul, zero_mul, ← Finset.mul_sum, hsumw]
    simp
  have second : ∑ l, alpha i l * ∑ q, sigma l q / 2 * (dWell (c l) + dWell (c q) - dWell (c l + c q)) =
      6 * (c j * c k * c m) * (alpha i j * (sigma j k + sigma j m) + alpha i k * (sigma j k + sigma k m) +
        alpha i m * (sigma j m + sigma k m)) := by
    rw [sum_three hjk' hjm' hkm' _ fun l hl => by
      rw [Finset.sum_eq_zero fun q _ => by rw [hE l q (Or.inl hl), mul_zero], mul_zero]]
    have inner : ∀ l, ∑ q, sigma l q / 2 * (dWell (c l) + dWell (c q) - dWell (c l + c q)) = _ := fun l =>
      sum_three hjk' hjm' hkm' _ fun q hq => by rw [hE l q (Or.inr hq), mul_zero]
    rw [inner j, inner k, inner m, h0, h0, h0, hE3 (c j) (c k) (c m) hsum, hE3 (c j) (c m) (c k) (by linarith), hE3 (c k) (c j) (c m) (by linarith),
      hE3 (c k) (c m) (c j) (by linarith), hE3 (c m) (c j) (c k) (by linarith), hE3 (c m) (c k) (c j) (by linarith), hs k j, hs m j, hs m k]
    ring
  simp only [split, mul_add, Finset.sum_add_distrib]
  rw [second]
  have : ∑ l, alpha i l * (-(1 / 2) * ∑ q, sigma l q * dWell (c q)) = -(1 / 2) * ∑ l, alpha i l * ∑ q, sigma l q * dWell (c q) := by
    rw [Finset.mul_sum]
    exact Finset.sum_congr rfl fun l _ => by ring
  rw [this, first]
  ring

end triple

/-- **C83 (absent phases).**  Let the coefficients of the correction and stabilisation terms be those of the code.  Where at most the three
phases `j`, `k`, `m` are present, the bulk energy has all partial derivatives, and the potential that drives an absent phase vanishes, for
any weight of the stabilisation: absent phases stay absent. -/
theorem C83_absent {sigma alpha : Matrix (Fin n) (Fin n) ℝ} {gamma : Fin n → ℝ} (hd : diffusionCoefficients sigma = .ok (alpha, gamma))
    (hs : ∀ i j, sigma i j = sigma j i) (h0 : ∀ i, sigma i i = 0) {j k m : Fin n} (hjk : j < k) (hkm : k < m)
    (coeff : List (Fin n) → Fin n → ℝ) (theta : Fin n → Fin n → Fin n → Fin n → ℝ)
    (hcoeff : ∃ v, capitalLambda sigma j k m = .ok v ∧ ∀ s, s ∉ [j, k, m] → v s = .num (coeff [j, k, m] s))
    (htheta : ∀ p q r s, p < q → p ∈ [j, k, m] → q ∈ [j, k, m] → r ∈ [j, k, m] → r ≠ p → r ≠ q → s ∉ [j, k, m] →
      capitalTheta alpha p q s r = .num (theta p q s r))
    (factor : ℝ) (c : Fin n → ℝ) (hc : ∑ i, c i = 1) (hsupp : ∀ l, l ∉ [j, k, m] → c l = 0) :
    ∃ d : Fin n → ℝ, (∀ l, HasDerivAt (fun x => capitalF sigma coeff theta factor (Function.update c l x)) (d l) (c l)) ∧
      ∀ i, c i = 0 → ∑ l, alpha i l * d l = 0 := by
  have h := C67_diffusion sigma alpha gamma hd
  have hjk' := hjk.ne
  have hkm' := hkm.ne
  have hjm' := (hjk.trans hkm).ne
  obtain ⟨v, hv1, hv2⟩ := hcoeff
  refine ⟨fun l => ∑ q, sigma l q / 2 * (dWell (c l) - dWell (c l + c q)) +
      (if l ∈ [j, k, m] then 0 else coeff [j, k, m] l * (c j * c k * c m)) +
      factor * (((if l = j then 2 * c j * c k ^ 2 * c m ^ 2 else 0) + (if l = k then 2 * c k * c j ^ 2 * c m ^ 2 else 0) +
        (if l = m then 2 * c m * c j ^ 2 * c k ^ 2 else 0)) -
        (if l ∈ [j, k, m] then 0 else c j ^ 2 * c k ^ 2 * (theta j k l m * c m) + c j ^ 2 * c m ^ 2 * (theta j m l k * c k) +
        c k ^ 2 * c m ^ 2 * (theta k m l j * c j))), fun l => ?_, fun i hi => ?_⟩
  · refine ((hasDerivAt_F0 c sigma hs h0 l).add (hasDerivAt_G c hjk hkm hsupp coeff l)).add (HasDerivAt.const_mul factor ?_)
    have e : (fun x => stabilizationTerm theta (Function.update c l x)) = _ := funext fun x =>
      stabilization_eq c hjk hkm hsupp theta (Function.update c l x)
    rw [e]
    exact (hasDerivAt_S1 c hjk hkm hsupp l).sub (hasDerivAt_S2 c hjk hkm hsupp theta l)
  · have hF := F0_potential c hjk hkm hsupp h hs h0 hc i
    have hw : dWell (c i) = 0 := by rw [hi]; simp [dWell]
    rw [hw] at hF
    have hG : ∑ l, alpha i l * (if l ∈ [j, k, m] then 0 else coeff [j, k, m] l * (c j * c k * c m)) =
        (c j * c k * c m) * ∑ l, (if l ∈ [j, k, m] then 0 else alpha i l * coeff [j, k, m] l) := by
      rw [Finset.mul_sum]
      refine Finset.sum_congr rfl fun l _ => ?_
      split_ifs <;> ring
    have hS1 : ∑ l, alpha i l * ((if l = j then 2 * c j * c k ^ 2 * c m ^ 2 else 0) + (if l = k then 2 * c k * c j ^ 2 * c m ^ 2 else 0) +
        (if l = m then 2 * c m * c j ^ 2 * c k ^ 2 else 0)) =
        alpha i j * (2 * c j * c k ^ 2 * c m ^ 2) + alpha i k * (2 * c k * c j ^ 2 * c m ^ 2) + alpha i m * (2 * c m * c j ^ 2 * c k ^ 2) := by
      simp [mul_add, Finset.sum_add_distrib]
    have hS2 : ∑ l, alpha i l * (if l ∈ [j, k, m] then 0 else c j ^ 2 * c k ^ 2 * (theta j k l m * c m) +
          c j ^ 2 * c m ^ 2 * (theta j m l k * c k) + c k ^ 2 * c m ^ 2 * (theta k m l j * c j)) =
        c j ^ 2 * c k ^ 2 * c m * (∑ l, (if l ∈ [j, k, m] then 0 else alpha i l * theta j k l m)) +
        c j ^ 2 * c m ^ 2 * c k * (∑ l, (if l ∈ [j, k, m] then 0 else alpha i l * theta j m l k)) +
        c k ^ 2 * c m ^ 2 * c j * (∑ l, (if l ∈ [j, k, m] then 0 else alpha i l * theta k m l j)) := by
      rw [Finset.mul_sum, Finset.mul_sum, Finset.mul_sum, ← Finset.sum_add_distrib, ← Finset.sum_add_distrib]
      refine Finset.sum_congr rfl fun l _ => ?_
      split_ifs <;> ring
    have total : ∀ A B C D : Fin n → ℝ, ∑ l, alpha i l * (A l + B l + factor * (C l - D l)) =
        ∑ l, alpha i l * A l + ∑ l, alpha i l * B l + factor * (∑ l, alpha i l * C l - ∑ l, alpha i l * D l) := by
      intro A B C D
      rw [← Finset.sum_sub_distrib, Finset.mul_sum, ← Finset.sum_add_distrib, ← Finset.sum_add_distrib]
      exact Finset.sum_congr rfl fun l _ => by ring
    rw [total, hF, hG, hS1, hS2]
    by_cases hiT : i ∈ [j, k, m]
    · simp only [List.mem_cons, List.not_mem_nil, or_false] at hiT
      rcases hiT with rfl | rfl | rfl <;> simp [hi]
    · have e1 := lambda_equations hd hjk hkm hv1 (coeff [j, k, m]) hv2 i hiT
      have perm : ∀ {p q r : Fin n}, (∀ l, l ∈ [p, q, r] ↔ l ∈ [j, k, m]) → p < q → r ≠ p → r ≠ q → p ∈ [j, k, m] →
          q ∈ [j, k, m] → r ∈ [j, k, m] →
          ∑ l, (if l ∈ [j, k, m] then 0 else alpha i l * theta p q l r) = 2 * alpha i r := by
        intro p q r hm hpq hrp hrq hp hq hr
        have := theta_equations (alpha := alpha) (i := p) (j := q) (l := r) (fun s => theta p q s r)
          (fun s hs' => htheta p q r s hpq hp hq hr hrp hrq (fun h => hs' ((hm s).2 h))) i (fun h => hiT ((hm i).1 h))
        rw [← this]
        refine Finset.sum_congr rfl fun l _ => ?_
        by_cases hl : l ∈ [j, k, m]
        · rw [if_pos hl, if_pos ((hm l).2 hl)]
        · rw [if_neg hl, if_neg fun h => hl ((hm l).1 h)]
      rw [e1, perm (p := j) (q := k) (r := m) (fun l => Iff.rfl) hjk hjm'.symm hkm'.symm (by simp) (by simp) (by simp),
        perm (p := j) (q := m) (r := k) (fun l => by simp only [List.mem_cons, List.not_mem_nil, or_false]; tauto) (hjk.trans hkm)
          hjk'.symm hkm' (by simp) (by simp) (by simp),
        perm (p := k) (q := m) (r := j) (fun l => by simp only [List.mem_cons, List.not_mem_nil, or_false]; tauto) hkm
          hjk' hjm' (by simp) (by simp) (by simp)]
      ring

/-- **C83 (consistent).**  If all triples of phases are regular, the code computes numbers for all coefficients it uses, and with them, at every
composition of at most three phases, no absent phase is driven. -/
theorem C83_consistent (hn : 3 ≤ n) {sigma alpha : Matrix (Fin n) (Fin n) ℝ} {gamma : Fin n → ℝ}
    (hd : diffusionCoefficients sigma = .ok (alpha, gamma)) (hs : ∀ i j, sigma i j = sigma j i) (h0 : ∀ i, sigma i i = 0)
    (hreg : ∀ j k m, j ≠ k → j ≠ m → k ≠ m → RegularTriple sigma j k m) :
    ∃ (coeff : List (Fin n) → Fin n → ℝ) (theta : Fin n → Fin n → Fin n → Fin n → ℝ),
      (∀ j k m, j < k → k < m → ∃ v, capitalLambda sigma j k m = .ok v ∧ ∀ s, s ∉ [j, k, m] → v s = .num (coeff [j, k, m] s)) ∧
      (∀ p q r s, p ≠ q → p ≠ r → q ≠ r → s ∉ [p, q, r] → capitalTheta alpha p q s r = .num (theta p q s r)) ∧
      ∀ (factor : ℝ) (c : Fin n → ℝ), ∑ i, c i = 1 → (Finset.univ.filter fun i => c i ≠ 0).card ≤ 3 →
        ∃ d : Fin n → ℝ, (∀ l, HasDerivAt (fun x => capitalF sigma coeff theta factor (Function.update c l x)) (d l) (c l)) ∧
          ∀ i, c i = 0 → ∑ l, alpha i l * d l = 0 := by
  classical
  have hL : ∀ j k m : Fin n, ∃ x : Fin n → ℝ, j < k → k < m →
      ∃ v, capitalLambda sigma j k m = .ok v ∧ ∀ s, s ∉ [j, k, m] → v s = .num (x s) := by
    intro j k m
    by_cases h : j < k ∧ k < m
    · obtain ⟨v, x, h1, h2, -⟩ := C83_lambda hd hs h0 h.1 h.2 (hreg j k m h.1.ne (h.1.trans h.2).ne h.2.ne)
      exact ⟨x, fun _ _ => ⟨v, h1, h2⟩⟩
    · exact ⟨0, fun h1 h2 => absurd ⟨h1, h2⟩ h⟩
  choose X hX using hL
  have hT : ∀ p q r : Fin n, ∃ x : Fin n → ℝ, p ≠ q → p ≠ r → q ≠ r → ∀ s, s ∉ [p, q, r] → capitalTheta alpha p q s r = .num (x s) := by
    intro p q r
    by_cases h : p ≠ q ∧ p ≠ r ∧ q ≠ r
    · obtain ⟨x, h1, -⟩ := C83_theta hd hs h0 h.1 h.2.1 h.2.2 (hreg p q r h.1 h.2.1 h.2.2)
      exact ⟨x, fun _ _ _ => h1⟩
    · exact ⟨0, fun h1 h2 h3 => absurd ⟨h1, h2, h3⟩ h⟩
  choose Y hY using hT
  refine ⟨fun L s => match L with | [j, k, m] => X j k m s | _ => 0, fun p q s r => Y p q r s, hX,
    fun p q r s h1 h2 h3 h4 => hY p q r h1 h2 h3 s h4, fun factor c hc hcard => ?_⟩
  obtain ⟨T, hT1, hT2⟩ := Finset.exists_superset_card_eq hcard (by simpa using hn)
  let e := T.orderEmbOfFin hT2
  have hjk : e 0 < e 1 := e.strictMono (by decide)
  have hkm : e 1 < e 2 := e.strictMono (by decide)
  have hsupp : ∀ l, l ∉ [e 0, e 1, e 2] → c l = 0 := by
    intro l hl
    by_contra hne
    have : l ∈ T := hT1 (by simp [hne])
    rw [← Finset.mem_coe, ← T.range_orderEmbOfFin hT2] at this
    obtain ⟨x, rfl⟩ := this
    apply hl
    have : x = 0 ∨ x = 1 ∨ x = 2 := by omega
    rcases this with rfl | rfl | rfl <;> simp [e]
  refine C83_absent hd hs h0 hjk hkm _ _ (hX _ _ _ hjk hkm) ?_ factor c hc hsupp
  intro p q r s hpq hp hq hr hrp hrq hs'
  refine hY p q r hpq.ne hrp.symm hrq.symm s fun h => hs' ?_
  simp only [List.mem_cons, List.not_mem_nil, or_false] at h
  rcases h with rfl | rfl | rfl <;> assumption

/-- **C83 (needed).**  Without the correction the potential of an absent phase is a multiple of the product of the three present ones. -/
theorem C83_uncorrected {sigma alpha : Matrix (Fin n) (Fin n) ℝ} {gamma : Fin n → ℝ} (hd : diffusionCoefficients sigma = .ok (alpha, gamma))
    (hs : ∀ i j, sigma i j = sigma j i) (h0 : ∀ i, sigma i i = 0) {j k m : Fin n} (hjk : j < k) (hkm : k < m)
    (c : Fin n → ℝ) (hc : ∑ i, c i = 1) (hsupp : ∀ l, l ∉ [j, k, m] → c l = 0) :
    ∃ d : Fin n → ℝ, (∀ l, HasDerivAt (fun x => capitalF0 (Function.update c l x) sigma) (d l) (c l)) ∧
      ∀ i, c i = 0 → ∃ g, capitalGamma sigma i j k m = .ok g ∧ ∑ l, alpha i l * d l = -g * (c j * c k * c m) := by
  have h := C67_diffusion sigma alpha gamma hd
  refine ⟨_, fun l => hasDerivAt_F0 c sigma hs h0 l, fun i hi => ⟨-6 * (alpha i j * (sigma j k + sigma j m) + alpha i k * (sigma j k + sigma k m) +
    alpha i m * (sigma j m + sigma k m) - gamma i), ?_, ?_⟩⟩
  · unfold capitalGamma
    rw [if_neg (not_not.2 ⟨hjk.le, hkm.le⟩), hd]
    rfl
  · rw [F0_potential c hjk hkm hsupp h hs h0 hc i, hi]
    simp [dWell]
    ring

/-- Equal surface tensions -/
def equalTensions (n : ℕ) (s : ℝ) : Matrix (Fin n) (Fin n) ℝ := fun i j => if i = j then 0 else s

/-- and their diffusion coefficients -/
noncomputable def equalAlpha (n : ℕ) (s : ℝ) : Matrix (Fin n) (Fin n) ℝ := fun i j => if i = j then -(n - 1) / (s * n) else 1 / (s * n)

/-- Equal surface tensions of any number of phases are an instance: all triples are regular, the diffusion coefficients exist, and the factor of
`C83_uncorrected` is `-42 / n`. -/
theorem C83_equal (hn : n ≠ 0) {s : ℝ} (hs : s ≠ 0) : ∃ alpha gamma,
    diffusionCoefficients (equalTensions n s) = .ok (alpha, gamma) ∧
    (∀ j k m : Fin n, j ≠ k → j ≠ m → k ≠ m → RegularTriple (equalTensions n s) j k m) ∧
    ∀ i j k m : Fin n, j < k → k < m → i ∉ [j, k, m] → capitalGamma (equalTensions n s) i j k m = .ok (-42 / n) := by
  have hn' : (n : ℝ) ≠ 0 := by exact_mod_cast hn
  have hD : IsDiffusion (equalTensions n s) (equalAlpha n s)
      (fun _ => -1 / (n : ℝ)) := by
    refine ⟨fun i j => by simp [equalAlpha, eq_comm], fun i => ?_, fun i j => ?_⟩
    · have : ∀ j, (if i = j then -((n : ℝ) - 1) / (s * n) else 1 / (s * n)) = 1 / (s * n) + if i = j then -1 / s else 0 := by
        intro j
        split_ifs
        · field_simp; ring
        · ring
      simp only [equalAlpha, equalTensions, this, Finset.sum_add_distrib, Finset.sum_const, Finset.card_univ, Fintype.card_fin, Finset.sum_ite_eq, Finset.mem_univ,
        if_true, nsmul_eq_mul]
      field_simp
      ring
    · have : ∀ k, (if i = k then -((n : ℝ) - 1) / (s * n) else 1 / (s * n)) * (if k = j then 0 else s) =
          1 / (n : ℝ) + (if i = k then -1 else 0) + (if k = j then (if i = j then 1 - 1 / (n : ℝ) else -1 / (n : ℝ)) else 0) := by
        intro k
        by_cases h1 : i = k <;> by_cases h2 : k = j
        · subst h1; subst h2; simp; ring
        · subst h1; simp [h2]; field_simp; ring
        · subst h2; simp [h1]; ring
        · simp [h1, h2]; field_simp
      simp only [equalAlpha, equalTensions, this, Finset.sum_add_distrib, Finset.sum_const, Finset.card_univ, Fintype.card_fin, Finset.sum_ite_eq, Finset.sum_ite_eq',
        Finset.mem_univ, if_true, nsmul_eq_mul]
      split_ifs <;> field_simp <;> ring
  have hok : ∃ r, diffusionCoefficients (equalTensions n s) = .ok r := by
    unfold diffusionCoefficients
    rw [if_neg (by simp [equalTensions]), if_neg hn, dif_pos]
    · exact ⟨_, rfl⟩
    · refine ⟨(equalAlpha n s, fun _ => -1 / (n : ℝ)), (lemma21_iff _ _ _).2 ?_⟩
      show IsDiffusion _ (alphaMatrix (equalAlpha n s)) _
      rw [alphaMatrix_self _ hD.symm hD.rows]
      exact hD
  obtain ⟨⟨alpha, gamma⟩, hd⟩ := hok
  obtain ⟨ea, eg⟩ := C67_diffusion_unique hn (C67_diffusion _ _ _ hd) hD
  refine ⟨alpha, gamma, hd, fun j k m h1 h2 h3 => ?_, fun i j k m h1 h2 hi => ?_⟩
  · simp only [RegularTriple, equalTensions, if_neg h1, if_neg h2, if_neg h3]
    intro h
    apply hs
    have : s ^ 2 = 0 := by linear_combination -h / 3
    exact pow_eq_zero_iff (two_ne_zero) |>.1 this
  · simp only [List.mem_cons, List.not_mem_nil, or_false, not_or] at hi
    unfold capitalGamma
    rw [if_neg (not_not.2 ⟨h1.le, h2.le⟩), hd, ea, eg]
    simp only [bind, Except.bind, pure, Except.pure, equalAlpha, equalTensions, if_neg hi.1, if_neg hi.2.1, if_neg hi.2.2, if_neg h1.ne, if_neg h2.ne, if_neg (h1.trans h2).ne]
    congr 1
    field_simp
    ring

/-- four phases of equal tension: coefficients exist, and the mixture of the first three does not create the fourth -/
example (factor : ℝ) : ∃ (alpha : Matrix (Fin 4) (Fin 4) ℝ) (coeff : List (Fin 4) → Fin 4 → ℝ) (theta : Fin 4 → Fin 4 → Fin 4 → Fin 4 → ℝ) (d gamma : Fin 4 → ℝ),
    diffusionCoefficients (equalTensions 4 1) = .ok (alpha, gamma) ∧ (∀ l, HasDerivAt (fun x => capitalF (equalTensions 4 1) coeff theta factor (Function.update ![1 / 2, 1 / 4, 1 / 4, 0] l x)) (d l)
      ((![1 / 2, 1 / 4, 1 / 4, 0] : Fin 4 → ℝ) l)) ∧ ∑ l, alpha 3 l * d l = 0 := by
  obtain ⟨alpha, gamma, hd, hreg, -⟩ := C83_equal (n := 4) (by norm_num) (s := 1) one_ne_zero
  obtain ⟨coeff, theta, -, -, h⟩ := C83_consistent (by norm_num) hd (fun i j => by simp [equalTensions, eq_comm]) (fun i => by simp [equalTensions]) hreg
  obtain ⟨d, h1, h2⟩ := h factor ![1 / 2, 1 / 4, 1 / 4, 0] (by simp [Fin.sum_univ_four]; norm_num)
    ((Finset.card_le_card (t := {0, 1, 2}) (fun i hi => by fin_cases i <;> simp at hi ⊢)).trans (by simp))
  exact ⟨alpha, coeff, theta, d, gamma, hd, h1, h2 3 (by simp)⟩

end derivatives

end Boyer
end Lbm
