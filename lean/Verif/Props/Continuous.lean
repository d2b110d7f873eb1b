/-
Property C49: moments, central moments and cumulants of the continuous Maxwellian, as computed from generating functions,
are the integrals of the distribution; the equilibrium class combines them correctly.
-/
import Verif.ContinuousLemmas
import Mathlib.Data.List.GetD
import Mathlib.Tactic.Linarith
import Mathlib.Tactic.NormNum

namespace Lbm
namespace Continuous

open MeasureTheory ProbabilityTheory MvPolynomial
open scoped NNReal

variable {D : ℕ}

/-! ### Specification -/

namespace Spec

/-- the moment `∫ Π (x_i − w_i)^{e_i} f(x) dx` of a distribution about `w` -/
noncomputable def momentAbout (f : (Fin D → ℝ) → ℝ) (w : Fin D → ℝ) (e : Fin D → ℕ) : ℝ :=
  ∫ x : Fin D → ℝ, (∏ i, (x i - w i) ^ e i) * f x

/-- `F` is a polynomial and `G` consists of its terms of degree at most `k` -/
def IsTruncation (k : ℕ) (F G : (Fin D → ℝ) → ℝ) : Prop :=
  ∃ p : MvPolynomial (Fin D) ℝ, (∀ u, eval u p = F u) ∧
    ∀ u, G u = ∑ d ∈ p.support.filter (fun d => d.degree ≤ k), coeff d p * ∏ i, u i ^ d i

/-- the truncation is determined by the function -/
theorem IsTruncation.unique {k : ℕ} {F G G' : (Fin D → ℝ) → ℝ} (h : IsTruncation k F G) (h' : IsTruncation k F G') :
    G = G' := by
  obtain ⟨p, hp, hG⟩ := h
  obtain ⟨q, hq, hG'⟩ := h'
  have : p = q := MvPolynomial.funext fun u => by rw [hp, hq]
  subst this
  funext u
  rw [hG, hG']

end Spec

theorem isTruncation_truncate (k : ℕ) (p : MvPolynomial (Fin D) ℝ) {F : (Fin D → ℝ) → ℝ} (h : ∀ u, eval u p = F u) :
    Spec.IsTruncation k F fun u => eval u (truncate k p) := by
  refine ⟨p, h, fun u => ?_⟩
  refine (eval_eq' u _).trans ?_
  have hs : (truncate k p).support = p.support.filter fun d => d.degree ≤ k := by
    ext d
    rw [mem_support_iff, coeff_truncate, Finset.mem_filter, mem_support_iff]
    by_cases hd : d.degree ≤ k <;> simp [hd]
  rw [hs]
  refine Finset.sum_congr rfl fun d hd => ?_
  rw [coeff_truncate, if_pos (Finset.mem_filter.1 hd).2]

/-! ### Moments of the Maxwellian -/

/-- the generating function in closed form: `ρ exp (u·t + c_s² |t|² / 2)` -/
theorem C49_generating (rho : ℝ) (u : Fin D → ℝ) {c : ℝ} (hc : 0 < c) (t : Fin D → ℝ) :
    momentGenerating (maxwellian rho u c) t = rho * Real.exp (∑ i, u i * t i + c / 2 * ∑ i, t i ^ 2) := by
  rw [momentGenerating_maxwellian rho u hc, ← Real.exp_sum, Finset.mul_sum, ← Finset.sum_add_distrib]
  congr 2
  exact Finset.sum_congr rfl fun i _ => by ring

/-- moments obtained by differentiating the generating function are the integrals of monomials -/
theorem C49_moment (rho : ℝ) (u : Fin D → ℝ) {c : ℝ} (hc : 0 < c) (e : Fin D → ℕ) :
    continuousMoment (maxwellian rho u c) e = Spec.momentAbout (maxwellian rho u c) 0 e ∧
      continuousMoment (maxwellian rho u c) e = maxwellMoment rho u c e := by
  have h1 : continuousMoment (maxwellian rho u c) e = rho * ∏ i, gaussMoment (u i) c (e i) := by
    unfold continuousMoment
    rw [show momentGenerating (maxwellian rho u c) =
      fun t => rho * ∏ i, (fun s => Real.exp (u i * s + c * s ^ 2 / 2)) (t i) from
        _root_.funext fun t => momentGenerating_maxwellian rho u hc t,
      multiDifferentiation_prod rho fun i s => Real.exp (u i * s + c * s ^ 2 / 2)]
    simp only [iteratedDeriv_gauss]
  refine ⟨?_, h1⟩
  rw [h1, Spec.momentAbout, integral_maxwellian rho u 0 hc]
  simp

/-- central moments about an arbitrary velocity are the integrals of shifted monomials -/
theorem C49_central_moment (rho : ℝ) (u w : Fin D → ℝ) {c : ℝ} (hc : 0 < c) (e : Fin D → ℕ) :
    continuousCentralMoment (maxwellian rho u c) w e = Spec.momentAbout (maxwellian rho u c) w e ∧
      continuousCentralMoment (maxwellian rho u c) w e = rho * ∏ i, gaussMoment (u i - w i) c (e i) := by
  have h1 : continuousCentralMoment (maxwellian rho u c) w e = rho * ∏ i, gaussMoment (u i - w i) c (e i) := by
    unfold continuousCentralMoment
    rw [show centralGenerating (maxwellian rho u c) w =
      fun t => rho * ∏ i, (fun s => Real.exp ((u i - w i) * s + c * s ^ 2 / 2)) (t i) from ?_,
      multiDifferentiation_prod rho fun i s => Real.exp ((u i - w i) * s + c * s ^ 2 / 2)]
    · simp only [iteratedDeriv_gauss]
    · funext t
      rw [centralGenerating, momentGenerating_maxwellian rho u hc, ← List.ofFn_eq_map, List.sum_ofFn, mul_left_comm,
        ← Real.exp_sum, ← Real.exp_sum, ← Real.exp_add, ← Finset.sum_neg_distrib, ← Finset.sum_add_distrib]
      congr 2
      exact Finset.sum_congr rfl fun i _ => by ring
  refine ⟨?_, h1⟩
  rw [h1, Spec.momentAbout, integral_maxwellian rho u w hc]

/-- in the frame moving with the fluid, odd moments vanish and the second moments are `ρ c_s²`, whatever the velocity -/
theorem C49_central_moment_values (rho : ℝ) (u : Fin D → ℝ) {c : ℝ} (hc : 0 < c) :
    (∀ e : Fin D → ℕ, (∃ i, Odd (e i)) → continuousCentralMoment (maxwellian rho u c) u e = 0) ∧
      (∀ i, continuousCentralMoment (maxwellian rho u c) u (Pi.single i 2) = rho * c) ∧
      continuousCentralMoment (maxwellian rho u c) u 0 = rho := by
  have hodd : ∀ n, Odd n → gaussMoment (0 : ℝ) c n = 0 := by
    intro n
    induction n using Nat.strong_induction_on with
    | _ n ih =>
      match n with
      | 0 => intro h; simp at h
      | 1 => intro _; simp [gaussMoment]
      | n + 2 =>
        intro h
        have : Odd n := by rw [Nat.odd_add] at h; simpa using h
        simp [gaussMoment, ih n (by omega) this]
  refine ⟨fun e ⟨i, hi⟩ => ?_, fun i => ?_, ?_⟩
  · rw [(C49_central_moment rho u u hc e).2, Finset.prod_eq_zero (Finset.mem_univ i), mul_zero]
    rw [sub_self, hodd _ hi]
  · rw [(C49_central_moment rho u u hc _).2, Finset.prod_eq_single i]
    · simp [gaussMoment]
    · intro j _ hj; simp [hj, gaussMoment]
    · simp
  · rw [(C49_central_moment rho u u hc _).2]
    simp [gaussMoment]

/-! ### Cumulants of the Maxwellian -/

theorem cumulantGenerating_maxwellian {rho : ℝ} (hr : rho ≠ 0) (u : Fin D → ℝ) {c : ℝ} (hc : 0 < c) :
    cumulantGenerating (maxwellian rho u c) =
      fun t => Real.log rho + ∑ i, (fun s => u i * s + c * s ^ 2 / 2) (t i) := by
  funext t
  rw [cumulantGenerating, momentGenerating_maxwellian rho u hc, ← Real.exp_sum,
    Real.log_mul hr (Real.exp_ne_zero _), Real.log_exp]

theorem iterate_deriv_quadratic (a c : ℝ) :
    deriv^[1] (fun s : ℝ => a * s + c * s ^ 2 / 2) 0 = a ∧ deriv^[2] (fun s : ℝ => a * s + c * s ^ 2 / 2) 0 = c ∧
      ∀ n, deriv^[n + 3] (fun s : ℝ => a * s + c * s ^ 2 / 2) 0 = 0 := by
  have h1 : deriv (fun s : ℝ => a * s + c * s ^ 2 / 2) = fun s => a + c * s := by
    funext s
    have := (((hasDerivAt_id s).const_mul a).add (((hasDerivAt_pow 2 s).const_mul c).div_const 2)).deriv
    refine Eq.trans this ?_
    simp
    ring
  have h2 : deriv (fun s : ℝ => a + c * s) = fun _ => c := by
    funext s
    simpa using (((hasDerivAt_id s).const_mul c).const_add a).deriv
  have h3 : deriv (fun _ : ℝ => c) = fun _ => 0 := by funext s; simp
  have h4 : ∀ n, deriv^[n] (fun _ : ℝ => (0 : ℝ)) = fun _ => 0 := by
    intro n
    induction n with
    | zero => rfl
    | succ n ih =>
      rw [Function.iterate_succ_apply, show deriv (fun _ : ℝ => (0 : ℝ)) = fun _ => 0 by funext s; simp, ih]
  refine ⟨?_, ?_, fun n => ?_⟩
  · rw [Function.iterate_one, h1]; simp
  · rw [Function.iterate_succ_apply, Function.iterate_one, h1, h2]
  · rw [Function.iterate_succ_apply, Function.iterate_succ_apply, Function.iterate_succ_apply, h1, h2, h3, h4]

theorem mem_partitionList (e : Fin D → ℕ) (j : Fin D) : j ∈ partitionList e ↔ e j ≠ 0 := by
  rw [← List.count_pos_iff, count_partitionList]; omega

theorem length_partitionList (e : Fin D → ℕ) : (partitionList e).length = ∑ i, e i := by
  unfold partitionList
  rw [List.length_flatMap, ← List.ofFn_eq_map, List.sum_ofFn]
  simp

/-- Cumulants of the Maxwellian: `log ρ` at order zero, the velocity at order one, `c_s²` for the pure second-order
cumulants, and zero for all others. -/
theorem C49_cumulant {rho : ℝ} (hr : 0 < rho) (u : Fin D → ℝ) {c : ℝ} (hc : 0 < c) :
    continuousCumulant (maxwellian rho u c) 0 = Real.log rho ∧
      (∀ i, continuousCumulant (maxwellian rho u c) (Pi.single i 1) = u i) ∧
      (∀ i, continuousCumulant (maxwellian rho u c) (Pi.single i 2) = c) ∧
      ∀ e : Fin D → ℕ, e ≠ 0 → (∀ i, e ≠ Pi.single i 1) → (∀ i, e ≠ Pi.single i 2) →
        continuousCumulant (maxwellian rho u c) e = 0 := by
  have hval : ∀ e : Fin D → ℕ, e ≠ 0 → continuousCumulant (maxwellian rho u c) e =
      ∑ j, (if ∀ i ∈ partitionList e, i = j then deriv^[∑ i, e i] (fun s => u j * s + c * s ^ 2 / 2) else 0) 0 := by
    intro e he
    have hne : partitionList e ≠ [] := by
      intro h
      refine he (_root_.funext fun j => ?_)
      by_contra hj
      have := (mem_partitionList e j).2 hj
      simp [h] at this
    unfold continuousCumulant multiDifferentiation
    rw [cumulantGenerating_maxwellian hr.ne' u hc, foldl_sum _ _ hne fun i s => u i * s + c * s ^ 2 / 2, length_partitionList]
    rfl
  have hsingle : ∀ (i : Fin D) (n : ℕ), n ≠ 0 → continuousCumulant (maxwellian rho u c) (Pi.single i n) =
      deriv^[n] (fun s => u i * s + c * s ^ 2 / 2) 0 := by
    intro i n hn
    have hmem : ∀ j, j ∈ partitionList (Pi.single i n : Fin D → ℕ) ↔ j = i := by
      intro j
      rw [mem_partitionList]
      by_cases hj : j = i
      · subst hj; simpa using hn
      · simp [hj]
    rw [hval _ (by simpa using hn), Finset.sum_eq_single i, if_pos (fun j hj => (hmem j).1 hj),
      Finset.sum_pi_single', if_pos (Finset.mem_univ i)]
    · intro j _ hj
      rw [if_neg fun h => hj (h i ((hmem i).2 rfl)).symm]
      rfl
    · simp
  refine ⟨?_, fun i => ?_, fun i => ?_, fun e he h1 h2 => ?_⟩
  · unfold continuousCumulant multiDifferentiation
    have : partitionList (0 : Fin D → ℕ) = [] := by simp [partitionList]
    rw [cumulantGenerating_maxwellian hr.ne' u hc, this]
    simp
  · rw [hsingle i 1 one_ne_zero]; exact (iterate_deriv_quadratic (u i) c).1
  · rw [hsingle i 2 two_ne_zero]; exact (iterate_deriv_quadratic (u i) c).2.1
  · rw [hval e he]
    refine Finset.sum_eq_zero fun j _ => ?_
    split
    · rename_i h
      have hej : e = Pi.single j (e j) := by
        funext i
        by_cases hi : i = j
        · subst hi; simp
        · rw [Pi.single_eq_of_ne hi]
          by_contra h0
          exact hi (h i ((mem_partitionList e i).2 h0))
      have hsum : ∑ i, e i = e j := by
        rw [hej, Finset.sum_pi_single', if_pos (Finset.mem_univ j)]; simp
      rw [hsum]
      have hj0 : e j ≠ 0 := fun h => he (by rw [hej, h]; simp)
      have hj1 : e j ≠ 1 := fun h => h1 j (by rw [hej, h])
      have hj2 : e j ≠ 2 := fun h => h2 j (by rw [hej, h])
      obtain ⟨n, hn⟩ : ∃ n, e j = n + 3 := ⟨e j - 3, by omega⟩
      rw [hn]
      exact (iterate_deriv_quadratic (u j) c).2.2 n
    · rfl

/-! ### `get_equilibrium_values_of_maxwell_boltzmann_function` -/

/-- for every list of polynomials, the values are the integrals of the polynomials; other spaces are rejected -/
theorem C49_values (moments : List (List (ℝ × (Fin D → ℕ)))) (rho : ℝ) (u : Fin D → ℝ) {c : ℝ} (hc : 0 < c) :
    maxwellBoltzmannValues moments rho u c "moment" =
        .ok (moments.map fun p => ∫ x : Fin D → ℝ, (p.map fun t => t.1 * ∏ i, x i ^ t.2 i).sum * maxwellian rho u c x) ∧
      maxwellBoltzmannValues moments rho u c "central moment" =
        .ok (moments.map fun p =>
          ∫ x : Fin D → ℝ, (p.map fun t => t.1 * ∏ i, (x i - u i) ^ t.2 i).sum * maxwellian rho u c x) ∧
      (∀ space, (∃ r, maxwellBoltzmannValues moments rho u c space = .ok r) ↔
        space ∈ ["moment", "central moment", "cumulant"]) := by
  have hint : ∀ (w : Fin D → ℝ) (g : (Fin D → ℕ) → ℝ),
      (∀ e, g e = Spec.momentAbout (maxwellian rho u c) w e) → ∀ p : List (ℝ × (Fin D → ℕ)),
      (p.map fun t => t.1 * g t.2).sum =
        ∫ x : Fin D → ℝ, (p.map fun t => t.1 * ∏ i, (x i - w i) ^ t.2 i).sum * maxwellian rho u c x := by
    intro w g hg p
    have hI : ∀ p : List (ℝ × (Fin D → ℕ)), Integrable fun x : Fin D → ℝ =>
        (p.map fun t => t.1 * ∏ i, (x i - w i) ^ t.2 i).sum * maxwellian rho u c x := by
      intro p
      induction p with
      | nil => simp
      | cons t p ih =>
        simp only [List.map_cons, List.sum_cons, add_mul, mul_assoc]
        exact ((integrable_maxwellian rho u w hc t.2).const_mul t.1).add ih
    induction p with
    | nil => simp
    | cons t p ih =>
      simp only [List.map_cons, List.sum_cons, add_mul, mul_assoc]
      rw [integral_add ((integrable_maxwellian rho u w hc t.2).const_mul t.1) (hI p), ← ih, integral_const_mul, hg]
      rfl
  refine ⟨?_, ?_, fun space => ?_⟩
  · simp only [maxwellBoltzmannValues, if_true]
    congr 1
    refine List.map_congr_left fun p _ => ?_
    have := hint 0 _ (fun e => (C49_moment rho u hc e).1) p
    simpa [ofGenerating, continuousMoment] using this
  · unfold maxwellBoltzmannValues
    rw [if_neg (by decide), if_pos rfl]
    congr 1
    exact List.map_congr_left fun p _ => hint u _ (fun e => (C49_central_moment rho u u hc e).1) p
  · simp only [maxwellBoltzmannValues, List.mem_cons, List.not_mem_nil, or_false]
    by_cases h1 : space = "moment"
    · simp [h1]
    · by_cases h2 : space = "central moment"
      · simp [h2]
      · by_cases h3 : space = "cumulant"
        · simp [h3]
        · simp [h1, h2, h3]

/-! ### The equilibrium class -/

namespace HydroMaxwellian

/-- the moments of the class in closed form, as a polynomial in the velocity -/
noncomputable def rawPoly (h : HydroMaxwellian) (e : Fin D → ℕ) : MvPolynomial (Fin D) ℝ :=
  C (if h.compressible then h.rho else h.rhoBackground) * ∏ i, gaussMoment (X i) (C h.csq) (e i) +
    C (((if h.compressible then 0 else h.deltaRho) - if h.deviationOnly then h.rhoBackground else 0) *
      ∏ i, gaussMoment 0 h.csq (e i))

theorem momentAbout_equation (h : HydroMaxwellian) (hc : 0 < h.csq) (u w : Fin D → ℝ) (e : Fin D → ℕ) :
    Spec.momentAbout (h.equation u) w e =
      (if h.compressible then h.rho else h.rhoBackground) * ∏ i, gaussMoment (u i - w i) h.csq (e i) +
        ((if h.compressible then 0 else h.deltaRho) - if h.deviationOnly then h.rhoBackground else 0) *
          ∏ i, gaussMoment (0 - w i) h.csq (e i) := by
  have hI := fun (rho : ℝ) (v : Fin D → ℝ) => integrable_maxwellian rho v w hc e
  have hM := fun (rho : ℝ) (v : Fin D → ℝ) => integral_maxwellian rho v w hc e
  have hN : ∀ (rho : ℝ) (v : Fin D → ℝ),
      Integrable fun x : Fin D → ℝ => -((∏ i, (x i - w i) ^ e i) * maxwellian rho v h.csq x) := fun _ _ => (hI _ _).neg
  have hA : ∀ (rho rho' : ℝ) (v v' : Fin D → ℝ), Integrable fun x : Fin D → ℝ =>
      (∏ i, (x i - w i) ^ e i) * maxwellian rho v h.csq x + -((∏ i, (x i - w i) ^ e i) * maxwellian rho' v' h.csq x) :=
    fun _ _ _ _ => (hI _ _).add (hN _ _)
  unfold Spec.momentAbout equation base corrections
  cases h.compressible <;> cases h.deviationOnly <;>
    simp only [Bool.false_eq_true, if_false, if_true, List.append_nil, List.nil_append, List.cons_append, List.map_cons,
      List.map_nil, List.sum_cons, List.sum_nil, add_zero, mul_add, one_mul, neg_mul, mul_neg]
  · rw [integral_add (hI _ _) (hI _ _), hM, hM]
    simp
  · rw [integral_add (hI _ _) (hA _ _ _ _), integral_add (hI _ _) (hN _ _), integral_neg, hM, hM, hM]
    simp
    ring
  · rw [hM]
    simp
  · rw [integral_add (hI _ _) (hN _ _), integral_neg, hM, hM]
    simp

theorem eval_rawPoly (h : HydroMaxwellian) (hc : 0 < h.csq) (e : Fin D → ℕ) (u : Fin D → ℝ) :
    eval u (h.rawPoly e) = Spec.momentAbout (h.equation u) 0 e := by
  rw [momentAbout_equation h hc]
  simp only [rawPoly, map_add, map_mul, eval_C, map_prod, eval_gaussMoment, eval_X, Pi.zero_apply, sub_zero]

theorem rawMoment_term (h : HydroMaxwellian) (hc : 0 < h.csq) (e : Fin D → ℕ) (u : Fin D → ℝ) :
    (corrections D h).foldl (fun s c => s + c.1 * continuousMoment c.2 e) (continuousMoment (h.base u) e) =
      Spec.momentAbout (h.equation u) 0 e := by
  rw [momentAbout_equation h hc]
  have hM := fun (rho : ℝ) (v : Fin D → ℝ) => (C49_moment rho v hc e).2
  unfold base corrections
  cases h.compressible <;> cases h.deviationOnly <;> simp [hM, maxwellMoment] <;> ring

/-- without truncation, `moment` is the integral of the monomial against `continuous_equation`, for every variant -/
theorem C49_class_moment (h : HydroMaxwellian) (hc : 0 < h.csq) (ho : h.order = none) (e : Fin D → ℕ)
    (u : Fin D → ℝ) : h.rawMoment e u = Spec.momentAbout (h.equation u) 0 e := by
  unfold rawMoment
  rw [ho]
  exact rawMoment_term h hc e u

/-- with truncation, the terms of higher order in the velocity are removed from the integral -/
theorem C49_class_moment_truncated (h : HydroMaxwellian) (hc : 0 < h.csq) {k : ℕ} (ho : h.order = some k)
    (e : Fin D → ℕ) : Spec.IsTruncation k (fun u => Spec.momentAbout (h.equation u) 0 e) (h.rawMoment e) := by
  unfold rawMoment
  rw [ho, correctOrder_some k (h.rawPoly e) fun u => by rw [eval_rawPoly h hc, rawMoment_term h hc]]
  exact isTruncation_truncate k _ (eval_rawPoly h hc e)

theorem totalDegree_rawPoly (h : HydroMaxwellian) (e : Fin D → ℕ) : (h.rawPoly e).totalDegree ≤ ∑ i, e i := by
  unfold rawPoly
  refine le_trans (totalDegree_add _ _) (max_le ?_ (by rw [totalDegree_C]; exact Nat.zero_le _))
  refine le_trans (totalDegree_mul _ _) ?_
  rw [totalDegree_C, zero_add]
  exact le_trans (totalDegree_finsetProd _ _) (Finset.sum_le_sum fun i _ => totalDegree_gaussMoment i h.csq (e i))

/-- moments up to the truncation order are exact -/
theorem C49_low_moments_exact (h : HydroMaxwellian) (hc : 0 < h.csq) {k : ℕ} (ho : h.order = some k) (e : Fin D → ℕ)
    (he : ∑ i, e i ≤ k) (u : Fin D → ℝ) : h.rawMoment e u = Spec.momentAbout (h.equation u) 0 e := by
  unfold rawMoment
  rw [ho, correctOrder_some k (h.rawPoly e) fun u => by rw [eval_rawPoly h hc, rawMoment_term h hc],
    truncate_of_le (le_trans (h.totalDegree_rawPoly e) he)]
  exact eval_rawPoly h hc e u

/-! #### Central moments -/

theorem gauss_binomial (m w : ℝ) {c : ℝ} (hc : 0 < c) (n : ℕ) :
    ∑ j ∈ Finset.range (n + 1), (-1) ^ (n - j) * (w ^ (n - j) * (n.choose j : ℝ)) * gaussMoment m c j =
      gaussMoment (m - w) c n := by
  lift c to ℝ≥0 using hc.le
  rw [← integral_centered]
  have : ∀ x : ℝ, (x - w) ^ n =
      ∑ j ∈ Finset.range (n + 1), (-1) ^ (n - j) * (w ^ (n - j) * (n.choose j : ℝ)) * (x - 0) ^ j := by
    intro x
    rw [sub_eq_add_neg, add_pow]
    refine Finset.sum_congr rfl fun j _ => ?_
    rw [neg_pow w]
    ring
  simp_rw [this]
  rw [integral_finsetSum _ fun j _ => (integrable_pow_gaussian m c 0 j).const_mul _]
  refine Finset.sum_congr rfl fun j _ => ?_
  rw [integral_const_mul, integral_centered, sub_zero]

theorem contained_eq (e : Fin D → ℕ) :
    containedMoments (List.ofFn e) 0 false = pyProduct ((List.ofFn e).map fun i => List.range (i + 1)) := by
  unfold containedMoments
  rw [List.filter_eq_self]
  intro t _
  simp

theorem contained_mem {e : Fin D → ℕ} {t : List ℕ}
    (ht : t ∈ pyProduct ((List.ofFn e).map fun i => List.range (i + 1))) :
    t.length = D ∧ ∀ i : Fin D, t.getD i 0 ≤ e i := by
  rw [mem_pyProduct, List.forall₂_map_right_iff, List.forall₂_iff_get] at ht
  obtain ⟨hlen, h⟩ := ht
  rw [List.length_ofFn] at hlen
  refine ⟨hlen, fun i => ?_⟩
  have := h i (by omega) (by simp)
  simp only [List.get_eq_getElem, List.getElem_ofFn, List.mem_range, Nat.lt_succ_iff] at this
  rwa [List.getD_eq_getElem _ _ (by omega)]

theorem contained_factor {R : Type} [CommRing R] {e : Fin D → ℕ} {t : List ℕ} (w : Fin D → R)
    (ht : t ∈ pyProduct ((List.ofFn e).map fun i => List.range (i + 1))) :
    (-1) ^ ((List.ofFn e).sum - t.sum) *
        ((List.finRange D).map fun i => w i ^ (e i - t.getD i 0) * ((e i).choose (t.getD i 0) : R)).prod =
      ∏ i, ((-1) ^ (e i - t.getD i 0) * (w i ^ (e i - t.getD i 0) * ((e i).choose (t.getD i 0) : R))) := by
  obtain ⟨hlen, hle⟩ := contained_mem ht
  have hsum : t.sum = ∑ i : Fin D, t.getD i 0 := by
    rw [← List.sum_ofFn]
    congr 1
    refine List.ext_getElem (by simp [hlen]) fun n h1 h2 => ?_
    rw [List.getElem_ofFn, List.getD_eq_getElem _ _ h1]
  rw [← List.ofFn_eq_map, List.prod_ofFn, Finset.prod_mul_distrib (f := fun i => (-1 : R) ^ (e i - t.getD i 0)),
    Finset.prod_pow_eq_pow_sum, List.sum_ofFn, hsum, Finset.sum_tsub_distrib _ fun i _ => hle i]

/-- the binomial expansion of the exact raw moments is the moment about the velocity -/
theorem central_expansion (h : HydroMaxwellian) (hc : 0 < h.csq) (u w : Fin D → ℝ) (e : Fin D → ℕ) :
    ((containedMoments (List.ofFn e) 0 false).map fun rm =>
      (-1) ^ ((List.ofFn e).sum - rm.sum) *
        ((List.finRange D).map fun i => w i ^ (e i - rm.getD i 0) * ((e i).choose (rm.getD i 0) : ℝ)).prod *
        Spec.momentAbout (h.equation u) 0 fun i => rm.getD i 0).sum = Spec.momentAbout (h.equation u) w e := by
  rw [contained_eq, List.map_congr_left fun rm hrm => by rw [contained_factor w hrm, momentAbout_equation h hc],
    momentAbout_equation h hc]
  have key : ∀ m : Fin D → ℝ, ((pyProduct ((List.ofFn e).map fun i => List.range (i + 1))).map fun t =>
      (∏ i, ((-1) ^ (e i - t.getD i 0) * (w i ^ (e i - t.getD i 0) * ((e i).choose (t.getD i 0) : ℝ)))) *
        ∏ i, gaussMoment (m i) h.csq (t.getD i 0)).sum = ∏ i, gaussMoment (m i - w i) h.csq (e i) := by
    intro m
    have := sum_pyProduct e fun i j => (-1) ^ (e i - j) * (w i ^ (e i - j) * ((e i).choose j : ℝ)) * gaussMoment (m i) h.csq j
    simp only [gauss_binomial _ _ hc] at this
    rw [← this]
    simp only [Finset.prod_mul_distrib]
  rw [← key u, ← key fun _ => 0, ← List.sum_map_mul_left, ← List.sum_map_mul_left, ← List.sum_map_add]
  congr 1
  refine List.map_congr_left fun t _ => ?_
  simp only [Pi.zero_apply, sub_zero]
  ring

/-- without truncation, `central_moment` is the integral of the shifted monomial against `continuous_equation`, for every
variant and every frame of reference -/
theorem C49_class_central_moment (h : HydroMaxwellian) (hc : 0 < h.csq) (ho : h.order = none)
    (w : (Fin D → ℝ) → Fin D → ℝ) (e : Fin D → ℕ) (u : Fin D → ℝ) :
    h.centralMoment w e u = Spec.momentAbout (h.equation u) (w u) e := by
  unfold centralMoment
  rw [ho]
  simp only [correctOrder, C49_class_moment h hc ho]
  exact central_expansion h hc u (w u) e

/-- with truncation, the result is the truncation of the exact central moment, although it is computed from truncated raw
moments; the frame of reference may be any polynomial in the velocity, in particular the velocity itself or independent
symbols -/
theorem C49_class_central_moment_truncated (h : HydroMaxwellian) (hc : 0 < h.csq) {k : ℕ} (ho : h.order = some k)
    (w : Fin D → MvPolynomial (Fin D) ℝ) (e : Fin D → ℕ) :
    Spec.IsTruncation k (fun u => Spec.momentAbout (h.equation u) (fun i => eval u (w i)) e)
      (h.centralMoment (fun u i => eval u (w i)) e) := by
  have hraw : ∀ (e : Fin D → ℕ) u, h.rawMoment e u = eval u (truncate k (h.rawPoly e)) := by
    intro e u
    unfold rawMoment
    rw [ho, correctOrder_some k (h.rawPoly e) fun u => by rw [eval_rawPoly h hc, rawMoment_term h hc]]
  let q : List ℕ → MvPolynomial (Fin D) ℝ := fun rm => (-1) ^ ((List.ofFn e).sum - rm.sum) *
    ((List.finRange D).map fun i => w i ^ (e i - rm.getD i 0) * ((e i).choose (rm.getD i 0) : MvPolynomial (Fin D) ℝ)).prod
  have hq : ∀ rm u, eval u (q rm) = (-1) ^ ((List.ofFn e).sum - rm.sum) *
      ((List.finRange D).map fun i => eval u (w i) ^ (e i - rm.getD i 0) * ((e i).choose (rm.getD i 0) : ℝ)).prod := by
    intro rm u
    simp only [q, map_mul, map_pow, map_neg, map_one, map_list_prod, List.map_map]
    congr 3
    funext i
    simp
  unfold centralMoment
  rw [ho, correctOrder_some k ((containedMoments (List.ofFn e) 0 false).map fun rm =>
    q rm * truncate k (h.rawPoly fun i : Fin D => rm.getD i 0)).sum ?_, truncate_list_sum]
  · refine isTruncation_truncate k _ fun u => ?_
    rw [map_list_sum, List.map_map, ← central_expansion h hc]
    congr 1
    refine List.map_congr_left fun rm _ => ?_
    simp only [Function.comp_apply, map_mul, hq, eval_rawPoly h hc]
  · intro u
    rw [map_list_sum, List.map_map]
    congr 1
    refine List.map_congr_left fun rm _ => ?_
    simp only [Function.comp_apply, map_mul, hq, hraw]

/-- in the compressible, absolute form, central moments in the moving frame do not depend on the truncation order -/
theorem C49_central_moment_independent_of_order (h : HydroMaxwellian) (hc : 0 < h.csq) (hcomp : h.compressible = true)
    (hdev : h.deviationOnly = false) (e : Fin D → ℕ) (u : Fin D → ℝ) :
    h.centralMoment (fun u => u) e u = h.rho * ∏ i, gaussMoment 0 h.csq (e i) := by
  have hexact : ∀ u : Fin D → ℝ, Spec.momentAbout (h.equation u) u e = h.rho * ∏ i, gaussMoment 0 h.csq (e i) := by
    intro u
    rw [momentAbout_equation h hc, hcomp, hdev]
    simp
  rcases ho : h.order with _ | k
  · rw [C49_class_central_moment h hc ho, hexact]
  · have h1 := C49_class_central_moment_truncated h hc ho X e
    simp only [eval_X] at h1
    have h2 := isTruncation_truncate k (C (h.rho * ∏ i, gaussMoment 0 h.csq (e i)))
      (F := fun u => Spec.momentAbout (h.equation u) (fun i => u i) e) fun u => by rw [eval_C]; exact (hexact u).symm
    rw [truncate_of_le (by rw [totalDegree_C]; exact Nat.zero_le _)] at h2
    have := congrFun (h1.unique h2) u
    simpa using this

/-! #### Conserved moments, background distribution, cumulants -/

/-- if the density is background plus deviation, the zeroth moment is `zeroth_order_moment_symbol` and the first moments
are the momentum `ρ u` (compressible) or `ρ₀ u` (incompressible), in absolute and deviation form and for every truncation
order of at least one -/
theorem C49_conserved (h : HydroMaxwellian) (hc : 0 < h.csq) (ho : ∀ k, h.order = some k → 1 ≤ k)
    (hr : h.rho = h.rhoBackground + h.deltaRho) (u : Fin D → ℝ) :
    h.rawMoment 0 u = h.zerothSymbol ∧
      ∀ i, h.rawMoment (Pi.single i 1) u = (if h.compressible then h.rho else h.rhoBackground) * u i := by
  have hex : ∀ e : Fin D → ℕ, ∑ i, e i ≤ 1 → h.rawMoment e u = Spec.momentAbout (h.equation u) 0 e := by
    intro e he
    rcases hk : h.order with _ | k
    · exact C49_class_moment h hc hk e u
    · exact C49_low_moments_exact h hc hk e (le_trans he (ho k hk)) u
  constructor
  · rw [hex 0 (by simp), momentAbout_equation h hc]
    unfold zerothSymbol
    cases h.compressible <;> cases h.deviationOnly <;> simp [gaussMoment, hr]
  · intro i
    rw [hex _ (by simp), momentAbout_equation h hc]
    have : ∀ m : Fin D → ℝ, ∏ j, gaussMoment (m j) h.csq ((Pi.single i 1 : Fin D → ℕ) j) = m i := by
      intro m
      rw [Finset.prod_eq_single i]
      · simp [gaussMoment]
      · intro j _ hj; simp [hj, gaussMoment]
      · simp
    rw [this fun j => u j - (0 : Fin D → ℝ) j, this fun j => 0 - (0 : Fin D → ℝ) j]
    simp

/-- the deviation form is the absolute form minus the background distribution, which is at rest -/
theorem C49_deviation (h : HydroMaxwellian) (hc : 0 < h.csq) (ho : h.order = none) (hd : h.deviationOnly = true)
    (e : Fin D → ℕ) (u : Fin D → ℝ) :
    h.rawMoment e u = { h with deviationOnly := false }.rawMoment e u - h.background.rawMoment e (0 : Fin D → ℝ) := by
  rw [C49_class_moment h hc ho, C49_class_moment { h with deviationOnly := false } hc ho,
    C49_class_moment h.background hc ho, momentAbout_equation h hc,
    momentAbout_equation { h with deviationOnly := false } hc, momentAbout_equation h.background hc, hd]
  cases h.compressible <;> simp [background] <;> ring

/-- cumulants are computed exactly for the compressible absolute form; rescaled, they are `ρ` times the cumulants of the
distribution -/
theorem C49_class_cumulant (h : HydroMaxwellian) (e : Fin D → ℕ) (rescale : Bool) :
    ((∃ v, h.cumulant e rescale = .ok v) ↔ h.compressible = true ∧ h.deviationOnly = false) ∧
      (h.compressible = true → h.deviationOnly = false → h.order = none →
        h.cumulant e rescale = .ok fun u => (if rescale then h.rho else 1) * continuousCumulant (h.equation u) e) := by
  constructor
  · unfold cumulant
    cases h.compressible <;> cases h.deviationOnly <;> simp
  · intro h1 h2 h3
    have heq : ∀ u : Fin D → ℝ, h.equation u = h.base u := by
      intro u
      funext x
      simp [equation, corrections, h1, h2]
    simp only [cumulant, h1, h2, h3, heq, correctOrder]
    cases rescale <;> simp

/-! #### Instances of the hypotheses -/

/-- the incompressible deviation form with `ρ₀ = 1`, `δρ = 1/10`, `c_s² = 1/3`, second order -/
noncomputable def sample : HydroMaxwellian where
  compressible := false
  deviationOnly := true
  order := some 2
  rho := 11 / 10
  rhoBackground := 1
  deltaRho := 1 / 10
  csq := 1 / 3

example : 0 < sample.csq ∧ (∀ k, sample.order = some k → 1 ≤ k) ∧
    sample.rho = sample.rhoBackground + sample.deltaRho := by
  refine ⟨?_, ?_, ?_⟩ <;> simp [sample]
  norm_num

/-- second moment `ρ₀ u_x u_y` of the sample -/
example : sample.rawMoment (fun _ : Fin 2 => 1) ![2, 3] = 6 := by
  rw [C49_low_moments_exact sample (by simp [sample]) (k := 2) rfl _ (by simp),
    momentAbout_equation sample (by simp [sample])]
  simp [sample, gaussMoment, Fin.prod_univ_two]
  norm_num

/-- a third moment of the compressible Maxwellian: `ρ (u³ + 3 c_s² u)` -/
example : continuousMoment (maxwellian 2 ![3] (1 / 3)) ![3] = 2 * (3 ^ 3 + 3 * (1 / 3) * 3) := by
  rw [(C49_moment _ _ (by norm_num) _).2]
  simp [maxwellMoment, gaussMoment]
  norm_num

end HydroMaxwellian

end Continuous
end Lbm
