/-
Lemmas for property C49: the Maxwellian as a product of Gaussians, derivatives of separable generating functions, integrals
of monomials, truncation of polynomials in the velocity.
-/
import Verif.Continuous
import Verif.MomentsLemmas
import Mathlib.Probability.Distributions.Gaussian.Real
import Mathlib.Probability.Moments.MGFAnalytic
import Mathlib.Algebra.MvPolynomial.Funext
import Mathlib.Tactic.Ring
import Mathlib.Tactic.FieldSimp
import Mathlib.Tactic.Positivity

namespace Lbm
namespace Continuous

open MeasureTheory ProbabilityTheory
open scoped NNReal

variable {D : ℕ}

/-! ### The Maxwellian as a product of Gaussians -/

theorem maxwellian_eq_prod (rho : ℝ) (u : Fin D → ℝ) {v : ℝ≥0} (hv : v ≠ 0) (x : Fin D → ℝ) :
    maxwellian rho u v x = rho * ∏ i, gaussianPDFReal (u i) v (x i) := by
  have hpos : (0 : ℝ) < 2 * Real.pi * v := by positivity
  simp only [maxwellian, gaussianPDFReal, Finset.prod_mul_distrib, Finset.prod_const, Finset.card_univ,
    Fintype.card_fin, ← Real.exp_sum, div_eq_mul_inv, mul_assoc]
  congr 1
  congr 1
  · rw [inv_pow]
    congr 1
    rw [Real.sqrt_eq_rpow, ← Real.rpow_natCast, ← Real.rpow_mul (by positivity)]
    congr 1
    ring
  · congr 1
    rw [← List.ofFn_eq_map, List.sum_ofFn, ← Finset.sum_neg_distrib, Finset.sum_mul]

theorem foldl_mul_exp (t x : Fin D → ℝ) (l : List (Fin D)) (a : ℝ) :
    l.foldl (fun g i => g * Real.exp (t i * x i)) a = a * (l.map fun i => Real.exp (t i * x i)).prod := by
  induction l generalizing a with
  | nil => simp
  | cons i l ih => rw [List.foldl_cons, ih, List.map_cons, List.prod_cons, mul_assoc]

theorem integral_gaussianPDF_mul (μ : ℝ) {v : ℝ≥0} (hv : v ≠ 0) (g : ℝ → ℝ) :
    ∫ x, gaussianPDFReal μ v x * g x = ∫ x, g x ∂gaussianReal μ v := by
  rw [integral_gaussianReal_eq_integral_smul hv]; rfl

theorem momentGenerating_maxwellian (rho : ℝ) (u : Fin D → ℝ) {c : ℝ} (hc : 0 < c) (t : Fin D → ℝ) :
    momentGenerating (maxwellian rho u c) t = rho * ∏ i, Real.exp (u i * t i + c * t i ^ 2 / 2) := by
  lift c to ℝ≥0 using hc.le
  have hv : c ≠ 0 := by rintro rfl; simp at hc
  unfold momentGenerating
  simp_rw [foldl_mul_exp, ← List.ofFn_eq_map, List.prod_ofFn, maxwellian_eq_prod _ _ hv, mul_assoc,
    ← Finset.prod_mul_distrib]
  rw [integral_const_mul]
  congr 1
  rw [integral_fintype_prod_volume_eq_prod (fun i y => gaussianPDFReal (u i) c y * Real.exp (t i * y))]
  refine Finset.prod_congr rfl fun i _ => ?_
  rw [integral_gaussianPDF_mul _ hv]
  exact congrFun (mgf_id_gaussianReal (μ := u i) (v := c)) (t i)

/-! ### Derivatives of separable functions -/

theorem partialDiff_prod (a : ℝ) (h : Fin D → ℝ → ℝ) (i : Fin D) :
    partialDiff i (fun t => a * ∏ j, h j (t j)) = fun t => a * ∏ j, (Function.update h i (deriv (h i))) j (t j) := by
  funext t
  unfold partialDiff
  have hp : ∀ (h : Fin D → ℝ → ℝ) (t : Fin D → ℝ),
      ∏ j, h j (t j) = h i (t i) * ∏ j ∈ Finset.univ.erase i, h j (t j) := fun h t =>
    (Finset.mul_prod_erase Finset.univ (fun j => h j (t j)) (Finset.mem_univ i)).symm
  have : (fun s => a * ∏ j, h j (Function.update t i s j)) =
      fun s => (a * ∏ j ∈ Finset.univ.erase i, h j (t j)) * h i s := by
    funext s
    rw [hp, Function.update_self, mul_comm (h i s), mul_assoc]
    congr 2
    refine Finset.prod_congr rfl fun j hj => ?_
    rw [Function.update_of_ne (Finset.ne_of_mem_erase hj)]
  rw [this, deriv_const_mul_field, hp, Function.update_self, mul_comm (deriv (h i) (t i)), mul_assoc]
  congr 2
  refine Finset.prod_congr rfl fun j hj => ?_
  rw [Function.update_of_ne (Finset.ne_of_mem_erase hj)]

theorem foldl_prod (a : ℝ) (l : List (Fin D)) (h : Fin D → ℝ → ℝ) :
    l.foldl (fun g i => partialDiff i g) (fun t => a * ∏ j, h j (t j)) =
      fun t => a * ∏ j, (deriv^[l.count j] (h j)) (t j) := by
  induction l generalizing h with
  | nil => simp
  | cons i l ih =>
    rw [List.foldl_cons, partialDiff_prod, ih]
    funext t
    congr 1
    refine Finset.prod_congr rfl fun j _ => ?_
    by_cases hj : j = i
    · subst hj
      rw [Function.update_self, List.count_cons_self, Function.iterate_succ_apply]
    · rw [Function.update_of_ne hj, List.count_cons_of_ne (fun h => hj h.symm)]

theorem count_partitionList (e : Fin D → ℕ) (j : Fin D) : (partitionList e).count j = e j := by
  unfold partitionList
  rw [List.count_flatMap]
  have : ((List.finRange D).map (List.count j ∘ fun i => List.replicate (e i) i)) =
      (List.finRange D).map fun i => if i = j then e i else 0 := by
    refine List.map_congr_left fun i _ => ?_
    simp [List.count_replicate]
  rw [this, ← List.ofFn_eq_map, List.sum_ofFn, Finset.sum_ite_eq' Finset.univ j e, if_pos (Finset.mem_univ j)]

theorem multiDifferentiation_prod (a : ℝ) (h : Fin D → ℝ → ℝ) (e : Fin D → ℕ) :
    multiDifferentiation (fun t => a * ∏ j, h j (t j)) e = a * ∏ j, iteratedDeriv (e j) (h j) 0 := by
  unfold multiDifferentiation
  rw [foldl_prod]
  simp only [count_partitionList, iteratedDeriv_eq_iterate, Pi.zero_apply]

/-! ### One-dimensional Gaussian -/

theorem integral_pow_gaussian (μ : ℝ) (v : ℝ≥0) (n : ℕ) :
    ∫ x, x ^ n ∂gaussianReal μ v = iteratedDeriv n (fun t => Real.exp (μ * t + v * t ^ 2 / 2)) 0 := by
  have h := iteratedDeriv_mgf_zero (X := id) (μ := gaussianReal μ v)
    (by rw [integrableExpSet_id_gaussianReal]; simp) n
  rw [mgf_id_gaussianReal] at h
  rw [h]; rfl

/-- derivatives of `exp (μ t + v t²/2)` -/
noncomputable def gaussDeriv (μ v : ℝ) : ℕ → ℝ → ℝ
  | 0 => fun t => Real.exp (μ * t + v * t ^ 2 / 2)
  | 1 => fun t => (μ + v * t) * Real.exp (μ * t + v * t ^ 2 / 2)
  | n + 2 => fun t => (μ + v * t) * gaussDeriv μ v (n + 1) t + (n + 1 : ℕ) * v * gaussDeriv μ v n t

theorem hasDerivAt_gaussDeriv (μ v : ℝ) (n : ℕ) (t : ℝ) :
    HasDerivAt (gaussDeriv μ v n) (gaussDeriv μ v (n + 1) t) t := by
  have hl : HasDerivAt (fun t : ℝ => μ + v * t) v t := by
    simpa using ((hasDerivAt_id t).const_mul v).const_add μ
  have he : HasDerivAt (fun t : ℝ => Real.exp (μ * t + v * t ^ 2 / 2))
      (Real.exp (μ * t + v * t ^ 2 / 2) * (μ + v * t)) t := by
    have : HasDerivAt (fun t : ℝ => μ * t + v * t ^ 2 / 2) (μ + v * t) t := by
      have h1 := (hasDerivAt_id t).const_mul μ
      have h2 := ((hasDerivAt_pow 2 t).const_mul v).div_const 2
      refine (h1.add h2).congr_deriv ?_
      simp
      ring
    exact this.exp
  induction n using Nat.strong_induction_on with
  | _ n ih =>
    match n with
    | 0 =>
      have := he
      simp only [gaussDeriv]
      rwa [mul_comm] at this
    | 1 =>
      refine (hl.mul he).congr_deriv ?_
      simp only [gaussDeriv]
      push_cast
      ring
    | n + 2 =>
      have h1 := hl.mul (ih (n + 1) (by omega))
      have h2 := (ih n (by omega)).const_mul ((n + 1 : ℕ) * v : ℝ)
      refine (h1.add h2).congr_deriv ?_
      simp only [gaussDeriv]
      push_cast
      ring

theorem gaussDeriv_zero (μ v : ℝ) (n : ℕ) : gaussDeriv μ v n 0 = gaussMoment μ v n := by
  induction n using Nat.strong_induction_on with
  | _ n ih =>
    match n with
    | 0 => simp [gaussDeriv, gaussMoment]
    | 1 => simp [gaussDeriv, gaussMoment]
    | n + 2 =>
      simp only [gaussDeriv, gaussMoment]
      rw [ih (n + 1) (by omega), ih n (by omega)]
      simp

theorem iteratedDeriv_gauss (μ v : ℝ) (n : ℕ) :
    iteratedDeriv n (fun t => Real.exp (μ * t + v * t ^ 2 / 2)) 0 = gaussMoment μ v n := by
  have : ∀ n, iteratedDeriv n (fun t => Real.exp (μ * t + v * t ^ 2 / 2)) = gaussDeriv μ v n := by
    intro n
    induction n with
    | zero => rw [iteratedDeriv_zero]; rfl
    | succ n ih =>
      rw [iteratedDeriv_succ, ih]
      funext t
      exact (hasDerivAt_gaussDeriv μ v n t).deriv
  rw [this, gaussDeriv_zero]

theorem integrable_pow_gaussian (μ : ℝ) (v : ℝ≥0) (w : ℝ) (n : ℕ) :
    Integrable (fun x => (x - w) ^ n) (gaussianReal μ v) := by
  have h : MemLp (fun x : ℝ => x - w) n (gaussianReal μ v) :=
    (memLp_id_gaussianReal' n (by simp)).sub (memLp_const w)
  refine (h.integrable_norm_pow').mono' (by fun_prop) (Filter.Eventually.of_forall fun x => ?_)
  rw [norm_pow]

theorem integral_centered (μ : ℝ) (v : ℝ≥0) (w : ℝ) (n : ℕ) :
    ∫ x, (x - w) ^ n ∂gaussianReal μ v = gaussMoment (μ - w) v n := by
  rw [← iteratedDeriv_gauss, ← integral_pow_gaussian, ← gaussianReal_map_sub_const w,
    integral_map (by fun_prop) (by fun_prop)]

/-! ### Integrals of the Maxwellian -/

theorem integral_maxwellian (rho : ℝ) (u w : Fin D → ℝ) {c : ℝ} (hc : 0 < c) (e : Fin D → ℕ) :
    ∫ x : Fin D → ℝ, (∏ i, (x i - w i) ^ e i) * maxwellian rho u c x = rho * ∏ i, gaussMoment (u i - w i) c (e i) := by
  lift c to ℝ≥0 using hc.le
  have hv : c ≠ 0 := by rintro rfl; simp at hc
  have : ∀ x : Fin D → ℝ, (∏ i, (x i - w i) ^ e i) * maxwellian rho u c x =
      rho * ∏ i, (gaussianPDFReal (u i) c (x i) * (x i - w i) ^ e i) := by
    intro x
    rw [maxwellian_eq_prod _ _ hv, Finset.prod_mul_distrib]
    ring
  simp_rw [this]
  rw [integral_const_mul,
    integral_fintype_prod_volume_eq_prod (fun i y => gaussianPDFReal (u i) c y * (y - w i) ^ e i)]
  congr 1
  refine Finset.prod_congr rfl fun i _ => ?_
  rw [integral_gaussianPDF_mul _ hv, integral_centered]

theorem integrable_maxwellian (rho : ℝ) (u w : Fin D → ℝ) {c : ℝ} (hc : 0 < c) (e : Fin D → ℕ) :
    Integrable fun x : Fin D → ℝ => (∏ i, (x i - w i) ^ e i) * maxwellian rho u c x := by
  lift c to ℝ≥0 using hc.le
  have hv : c ≠ 0 := by rintro rfl; simp at hc
  have : (fun x : Fin D → ℝ => (∏ i, (x i - w i) ^ e i) * maxwellian rho u c x) =
      fun x => rho * ∏ i, (gaussianPDFReal (u i) c (x i) * (x i - w i) ^ e i) := by
    funext x
    rw [maxwellian_eq_prod _ _ hv, Finset.prod_mul_distrib]
    ring
  rw [this]
  refine Integrable.const_mul ?_ rho
  refine Integrable.fintype_prod (f := fun i y => gaussianPDFReal (u i) c y * (y - w i) ^ e i) fun i => ?_
  have h := integrable_pow_gaussian (u i) c (w i) (e i)
  rw [gaussianReal_of_var_ne_zero _ hv, integrable_withDensity_iff (measurable_gaussianPDF _ _) (by simp [gaussianPDF])] at h
  simpa [toReal_gaussianPDF, mul_comm] using h

/-! ### Sums of one-dimensional functions -/

theorem partialDiff_sum (a : ℝ) (k : Fin D → ℝ → ℝ) (i : Fin D) :
    partialDiff i (fun t => a + ∑ j, k j (t j)) = fun t => 0 + ∑ j, (if j = i then deriv (k i) else 0) (t j) := by
  funext t
  unfold partialDiff
  have : (fun s => a + ∑ j, k j (Function.update t i s j)) =
      fun s => (a + ∑ j ∈ Finset.univ.erase i, k j (t j)) + k i s := by
    funext s
    rw [← Finset.add_sum_erase Finset.univ (fun j => k j (Function.update t i s j)) (Finset.mem_univ i),
      Function.update_self, add_comm (k i s), add_assoc]
    congr 2
    refine Finset.sum_congr rfl fun j hj => ?_
    rw [Function.update_of_ne (Finset.ne_of_mem_erase hj)]
  rw [this, deriv_const_add, zero_add, Finset.sum_eq_single i]
  · simp
  · intro j _ hj; simp [hj]
  · simp

theorem foldl_sum (a : ℝ) (l : List (Fin D)) (hl : l ≠ []) (k : Fin D → ℝ → ℝ) :
    l.foldl (fun g i => partialDiff i g) (fun t => a + ∑ j, k j (t j)) =
      fun t => ∑ j, (if ∀ i ∈ l, i = j then deriv^[l.length] (k j) else 0) (t j) := by
  induction l generalizing a k with
  | nil => exact absurd rfl hl
  | cons i l ih =>
    rw [List.foldl_cons, partialDiff_sum]
    have hd : ∀ n, deriv^[n] (0 : ℝ → ℝ) = 0 := by
      intro n
      induction n with
      | zero => rfl
      | succ n ih =>
        rw [Function.iterate_succ_apply]
        have : deriv (0 : ℝ → ℝ) = 0 := by funext x; exact deriv_const x (0 : ℝ)
        rw [this, ih]
    rcases eq_or_ne l [] with rfl | hne
    · funext t
      simp only [List.foldl_nil, zero_add]
      refine Finset.sum_congr rfl fun j _ => ?_
      by_cases hj : j = i
      · subst hj; simp
      · have : ¬ i = j := fun h => hj h.symm
        simp [hj, this]
    · rw [ih 0 hne]
      funext t
      refine Finset.sum_congr rfl fun j _ => ?_
      by_cases hj : j = i
      · subst hj
        simp only [if_true, List.forall_mem_cons, true_and, List.length_cons, Function.iterate_succ_apply]
      · have : ¬ i = j := fun h => hj h.symm
        simp only [if_neg hj, hd, List.forall_mem_cons, this, false_and, if_false, ite_self]

/-! ### Truncation in the velocity -/

open MvPolynomial in
theorem coeff_truncate (k : ℕ) (p : MvPolynomial (Fin D) ℝ) (d : Fin D →₀ ℕ) :
    coeff d (truncate k p) = if d.degree ≤ k then coeff d p else 0 := by
  unfold truncate
  simp only [coeff_sum, coeff_homogeneousComponent]
  rw [Finset.sum_ite_eq]
  simp only [Finset.mem_range, Nat.lt_succ_iff]

open MvPolynomial in
theorem truncate_mul (k : ℕ) (q p : MvPolynomial (Fin D) ℝ) : truncate k (q * truncate k p) = truncate k (q * p) := by
  ext d
  rw [coeff_truncate, coeff_truncate]
  split
  · rename_i hd
    rw [coeff_mul, coeff_mul]
    refine Finset.sum_congr rfl fun ab hab => ?_
    rw [coeff_truncate, if_pos]
    have : ab.1 + ab.2 = d := Finset.mem_antidiagonal.1 hab
    rw [← this, map_add] at hd
    omega
  · rfl

open MvPolynomial in
theorem truncate_add (k : ℕ) (q p : MvPolynomial (Fin D) ℝ) : truncate k (q + p) = truncate k q + truncate k p := by
  ext d
  rw [coeff_add, coeff_truncate, coeff_truncate, coeff_truncate, coeff_add]
  split <;> simp

open MvPolynomial in
theorem truncate_zero (k : ℕ) : truncate k (0 : MvPolynomial (Fin D) ℝ) = 0 := by
  ext d
  rw [coeff_truncate]
  simp

open MvPolynomial in
theorem truncate_list_sum {α : Type} (k : ℕ) (l : List α) (q p : α → MvPolynomial (Fin D) ℝ) :
    truncate k (l.map fun a => q a * truncate k (p a)).sum = truncate k (l.map fun a => q a * p a).sum := by
  induction l with
  | nil => simp
  | cons a l ih => simp only [List.map_cons, List.sum_cons, truncate_add, ih, truncate_mul]

open MvPolynomial in
theorem truncate_of_le {k : ℕ} {p : MvPolynomial (Fin D) ℝ} (h : p.totalDegree ≤ k) : truncate k p = p := by
  ext d
  rw [coeff_truncate]
  split
  · rfl
  · rename_i hd
    by_contra hne
    have := le_totalDegree (mem_support_iff.2 fun h0 => hne h0.symm)
    rw [Finsupp.degree] at hd
    exact hd (le_trans this h)

open MvPolynomial in
theorem correctOrder_some (k : ℕ) {F : (Fin D → ℝ) → ℝ} (p : MvPolynomial (Fin D) ℝ) (h : ∀ u, eval u p = F u) :
    correctOrder (some k) F = fun u => eval u (truncate k p) := by
  have hex : ∃ p : MvPolynomial (Fin D) ℝ, ∀ u, eval u p = F u := ⟨p, h⟩
  have : hex.choose = p := MvPolynomial.funext fun u => by rw [hex.choose_spec u, h u]
  simp only [correctOrder]
  rw [dif_pos hex, this]

/-! ### Polynomial form of the moments -/

open MvPolynomial in
theorem eval_gaussMoment (a : MvPolynomial (Fin D) ℝ) (c : ℝ) (n : ℕ) (u : Fin D → ℝ) :
    eval u (gaussMoment a (C c) n) = gaussMoment (eval u a) c n := by
  induction n using Nat.strong_induction_on with
  | _ n ih =>
    match n with
    | 0 => simp [gaussMoment]
    | 1 => simp [gaussMoment]
    | n + 2 => simp [gaussMoment, ih (n + 1) (by omega), ih n (by omega)]

open MvPolynomial in
theorem totalDegree_gaussMoment (i : Fin D) (c : ℝ) (n : ℕ) :
    (gaussMoment (X i) (C c) n : MvPolynomial (Fin D) ℝ).totalDegree ≤ n := by
  induction n using Nat.strong_induction_on with
  | _ n ih =>
    match n with
    | 0 => simp [gaussMoment]
    | 1 => simp [gaussMoment]
    | n + 2 =>
      simp only [gaussMoment]
      refine le_trans (totalDegree_add _ _) (max_le ?_ ?_)
      · refine le_trans (totalDegree_mul _ _) ?_
        have := ih (n + 1) (by omega)
        have hX : (X i : MvPolynomial (Fin D) ℝ).totalDegree = 1 := totalDegree_X i
        omega
      · refine le_trans (totalDegree_mul _ _) ?_
        have h1 := ih n (by omega)
        have h2 : (((n + 1 : ℕ) : MvPolynomial (Fin D) ℝ) * C c).totalDegree = 0 := by
          rw [← map_natCast (C : ℝ →+* MvPolynomial (Fin D) ℝ), ← map_mul, totalDegree_C]
        omega

/-! ### Binomial expansion over the contained moments -/

theorem sum_pyProduct {R : Type} [CommRing R] (e : Fin D → ℕ) (f : Fin D → ℕ → R) :
    ((pyProduct ((List.ofFn e).map fun i => List.range (i + 1))).map fun t => ∏ i : Fin D, f i (t.getD i 0)).sum =
      ∏ i, ∑ j ∈ Finset.range (e i + 1), f i j := by
  induction D with
  | zero => simp [pyProduct]
  | succ n ih =>
    rw [List.ofFn_succ, List.map_cons, pyProduct, Fin.prod_univ_succ, ← ih (fun i => e i.succ) (fun i => f i.succ)]
    rw [List.map_flatMap, List.flatMap_def, List.sum_flatten, List.map_map]
    have : ∀ x, ((List.sum ∘ fun x => List.map (fun t => ∏ i : Fin (n + 1), f i (t.getD i 0))
        (List.map (fun t => x :: t) (pyProduct (List.map (fun i => List.range (i + 1)) (List.ofFn fun i => e i.succ)))))
          x : R) = f 0 x * ((pyProduct ((List.ofFn fun i : Fin n => e i.succ).map fun i => List.range (i + 1))).map
            fun t => ∏ i : Fin n, f i.succ (t.getD i 0)).sum := by
      intro x
      simp only [Function.comp_apply, List.map_map]
      rw [← List.sum_map_mul_left]
      congr 1
      refine List.map_congr_left fun t _ => ?_
      simp [Fin.prod_univ_succ]
    rw [List.map_congr_left fun x _ => this x, List.sum_map_mul_right]
    rfl

end Continuous
end Lbm
