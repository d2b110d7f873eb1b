/-
C59: thermal fluctuations.
-/
import Verif.Fluctuating
import Mathlib.Probability.Moments.Covariance
import Mathlib.Probability.Independence.Integration
import Mathlib.MeasureTheory.Integral.IntervalIntegral.FundThmCalculus
import Mathlib.Analysis.SpecialFunctions.Integrals.Basic
import Mathlib.MeasureTheory.Constructions.UnitInterval
import Mathlib.Probability.Independence.InfinitePi
import Mathlib.Tactic.LinearCombination

namespace Lbm.Fluctuating

open Matrix MeasureTheory ProbabilityTheory

/-! ### Acceptance -/

section accept
variable {P : Type} {Q : ℕ}

/-- C59. Accepted are exactly: a temperature that is not zero, no amplitudes, and a weighted-orthogonal method with
linearly independent moments. -/
theorem C59_accepted (m : MomentMethod ℝ P Q) (conserved : P → Bool) (w : Fin Q → ℝ) (density : (Fin Q → ℝ) → ℝ)
    (csSq : ℝ) (T : Temperature) (amps : List ((Fin Q → ℝ) → ℝ)) (rule : (Fin Q → ℝ) → Fin Q → ℝ) :
    ((∃ g, addFluctuations m conserved w density csSq T amps rule = .ok g) ↔
      (T.truthy ∧ amps = [] ∧ ∃ h : m.relax.length = Q,
        (∀ i j, i ≠ j → ∑ q, m.matrix h i q * w q * m.matrix h j q = 0) ∧ (m.matrix h).det ≠ 0)) ∧
    ∀ e, addFluctuations m conserved w density csSq T amps rule = .error e → e = .valueError := by
  unfold addFluctuations
  by_cases h1 : T.truthy ∧ amps = []
  · rw [if_neg (by push Not; exact ⟨h1, fun _ => h1.2⟩)]
    by_cases h2 : m.relax.length = Q
    · rw [dif_pos h2]
      by_cases h3 : IsWeightedOrthogonal (m.matrix h2) w
      · rw [if_pos h3]
        by_cases h4 : (m.matrix h2).det = 0
        · simp only [MomentMethod.pyInv, if_pos h4, reduceCtorEq, exists_false, false_iff, Except.error.injEq]
          exact ⟨fun ⟨_, _, h, _, h5⟩ => h5 h4, fun e he => he.symm⟩
        · simp only [MomentMethod.pyInv, if_neg h4, Except.ok.injEq, exists_eq', true_iff, reduceCtorEq, false_imp_iff,
            implies_true, and_true]
          exact ⟨h1.1, h1.2, h2, h3, h4⟩
      · rw [if_neg h3]
        simp only [reduceCtorEq, exists_false, false_iff, Except.error.injEq]
        exact ⟨fun ⟨_, _, h, h5, _⟩ => h3 h5, fun e he => he.symm⟩
    · rw [dif_neg h2]
      simp only [reduceCtorEq, exists_false, false_iff, Except.error.injEq]
      exact ⟨fun ⟨_, _, h, _, _⟩ => h2 h, fun e he => he.symm⟩
  · rw [if_pos (Or.inl h1)]
    simp only [reduceCtorEq, exists_false, false_iff, Except.error.injEq]
    exact ⟨fun ⟨a, b, _⟩ => h1 ⟨a, b⟩, fun e he => he.symm⟩

/-- C59, disagreement: the documented alternative, amplitudes without a temperature, is refused with the message that
offers it. A temperature of zero is refused as well. -/
theorem C59_amplitudes_refused (m : MomentMethod ℝ P Q) (conserved : P → Bool) (w : Fin Q → ℝ)
    (density : (Fin Q → ℝ) → ℝ) (csSq : ℝ) (amps : List ((Fin Q → ℝ) → ℝ)) (rule : (Fin Q → ℝ) → Fin Q → ℝ) :
    addFluctuations m conserved w density csSq .none amps rule = .error .valueError ∧
    addFluctuations m conserved w density csSq (.number 0) amps rule = .error .valueError := by
  constructor <;> · unfold addFluctuations; rw [if_pos]; left; simp [Temperature.truthy]

/-- C59. A symbolic temperature is accepted whatever its value will be, zero included. -/
theorem C59_symbol_accepted (m : MomentMethod ℝ P Q) (conserved : P → Bool) (w : Fin Q → ℝ) (density : (Fin Q → ℝ) → ℝ)
    (csSq v : ℝ) (rule : (Fin Q → ℝ) → Fin Q → ℝ) :
    (∃ g, addFluctuations m conserved w density csSq (.symbol v) [] rule = .ok g) ↔ ∃ h : m.relax.length = Q,
      (∀ i j, i ≠ j → ∑ q, m.matrix h i q * w q * m.matrix h j q = 0) ∧ (m.matrix h).det ≠ 0 := by
  rw [(C59_accepted m conserved w density csSq (.symbol v) [] rule).1]
  simp [Temperature.truthy]

/-- C59. No noise is put on the density and the components of the momentum, and on nothing else. -/
theorem C59_conserved_moments (p : PExpr) :
    isConserved p = true ↔ p = PExpr.const 1 ∨ ∃ a, p = PExpr.var a := by
  constructor
  · intro h
    simp only [isConserved, List.mem_cons, List.not_mem_nil, or_false, decide_eq_true_eq] at h
    rcases h with h | h | h | h
    · exact .inl h
    · exact .inr ⟨0, h⟩
    · exact .inr ⟨1, h⟩
    · exact .inr ⟨2, h⟩
  · rintro (rfl | ⟨a, rfl⟩)
    · simp [isConserved]
    · fin_cases a <;> simp [isConserved]

end accept

/-! ### Random numbers -/

section rng
variable {Q : ℕ}

theorem randomIndex_lt (cons : Fin Q → Bool) {k l : Fin Q} (hk : cons k = false) (h : k < l) :
    randomIndex cons k < randomIndex cons l := by
  unfold randomIndex
  have hlen : k.val < (List.ofFn cons).length := by simp
  have h1 : ((List.ofFn cons).take (k.val + 1)).countP (! ·) = ((List.ofFn cons).take k).countP (! ·) + 1 := by
    rw [List.take_succ_eq_append_getElem hlen, List.countP_append]
    simp [hk]
  have h2 : ((List.ofFn cons).take (k.val + 1)).countP (! ·) ≤ ((List.ofFn cons).take l).countP (! ·) :=
    (List.take_sublist_take_left (show k.val + 1 ≤ l.val from h)).countP_le
  omega

/-- C59. Different fluctuating moments of a cell use different random numbers, the first numbers of the sequence, as many
as there are fluctuating moments. -/
theorem C59_random_numbers (cons : Fin Q → Bool) :
    (∀ k l, cons k = false → cons l = false → (randomIndex cons k = randomIndex cons l ↔ k = l)) ∧
    ∀ k, cons k = false → randomIndex cons k < (List.ofFn cons).count false := by
  constructor
  · intro k l hk hl
    refine ⟨fun h => ?_, fun h => h ▸ rfl⟩
    rcases lt_trichotomy k l with h1 | h1 | h1
    · have := randomIndex_lt cons hk h1; omega
    · exact h1
    · have := randomIndex_lt cons hl h1; omega
  · intro k hk
    have hlen : k.val < (List.ofFn cons).length := by simp
    have h1 : ((List.ofFn cons).take (k.val + 1)).countP (! ·) = ((List.ofFn cons).take k).countP (! ·) + 1 := by
      rw [List.take_succ_eq_append_getElem hlen, List.countP_append]
      simp [hk]
    have h2 : ((List.ofFn cons).take (k.val + 1)).countP (! ·) ≤ (List.ofFn cons).countP (! ·) :=
      (List.take_sublist _ _).countP_le
    have h3 : (List.ofFn cons).countP (! ·) = (List.ofFn cons).count false := by
      rw [List.count]; congr 1; funext b; cases b <;> rfl
    rw [← h3]; unfold randomIndex; omega

/-- D2Q5 with the moments 1, x, y and two others -/
example : (List.finRange 5).map (randomIndex ![true, false, true, true, false]) = [0, 0, 1, 1, 1] := by decide

end rng

/-! ### Moments of the correction -/

section moments
variable {P : Type} {Q : ℕ}

/-- C59. In moment space the rule adds to every moment its amplitude times its random number: `1`, `x`, `y`, `z` (mass and
momentum) are what they were without fluctuations. -/
theorem C59_moments (m : MomentMethod ℝ P Q) (conserved : P → Bool) (w : Fin Q → ℝ) (density : (Fin Q → ℝ) → ℝ)
    (csSq : ℝ) (T : Temperature) (amps : List ((Fin Q → ℝ) → ℝ)) (rule : (Fin Q → ℝ) → Fin Q → ℝ)
    {g : (ℕ → ℝ) → (Fin Q → ℝ) → Option (Fin Q → ℝ)} (hg : addFluctuations m conserved w density csSq T amps rule = .ok g)
    {r : ℕ → ℝ} {f f' : Fin Q → ℝ} (hf : g r f = some f') :
    ∃ h : m.relax.length = Q, ∀ k,
      (conserved (m.moment h k) = true → ∑ q, m.ev (m.moment h k) q * f' q = ∑ q, m.ev (m.moment h k) q * rule f q) ∧
      (conserved (m.moment h k) = false → ∃ a, 0 ≤ a ∧ csSq ≠ 0 ∧
        a ^ 2 = T.value * density f / csSq * (∑ q, m.ev (m.moment h k) q ^ 2 * w q) * (m.rate h k * (2 - m.rate h k)) ∧
        ∑ q, m.ev (m.moment h k) q * f' q = ∑ q, m.ev (m.moment h k) q * rule f q +
          a * (Real.sqrt 12 * (r (randomIndex (fun k => conserved (m.moment h k)) k) - 1 / 2))) := by
  unfold addFluctuations at hg
  split_ifs at hg with h1 h2 h3
  unfold MomentMethod.pyInv at hg
  by_cases hdet : (m.matrix h2).det = 0
  · rw [if_pos hdet] at hg; exact absurd hg (by simp)
  rw [if_neg hdet] at hg
  simp only [Except.ok.injEq] at hg
  subst hg
  simp only at hf
  split_ifs at hf with h4
  simp only [Option.some.injEq] at hf
  set cons := fun k => conserved (m.moment h2 k) with hcons
  set amp : Fin Q → Option ℝ := fun k => if cons k then some 0 else
    amplitude T.value (density f) csSq (normFactor (m.matrix h2) w k) (m.rate h2 k) with hamp
  have hM : m.matrix h2 *ᵥ f' = m.matrix h2 *ᵥ rule f + fun k => (amp k).getD 0 * randomVector cons r k := by
    rw [← hf, mulVec_add, correction, mulVec_mulVec, ← Matrix.mul_assoc, mul_nonsing_inv _ (isUnit_iff_ne_zero.2 hdet),
      Matrix.one_mul]
    congr 1
    funext k
    rw [mulVec_diagonal]
  have hMk : ∀ k, ∑ q, m.ev (m.moment h2 k) q * f' q = ∑ q, m.ev (m.moment h2 k) q * rule f q +
      (amp k).getD 0 * randomVector cons r k := fun k => congrFun hM k
  refine ⟨h2, fun k => ⟨fun hk => ?_, fun hk => ?_⟩⟩
  · rw [hMk, randomVector, if_pos hk, mul_zero, add_zero]
  · have hs := h4 k
    have hk' : cons k = false := hk
    have ha : amp k = amplitude T.value (density f) csSq (normFactor (m.matrix h2) w k) (m.rate h2 k) := by
      rw [hamp]; simp only [hk', Bool.false_eq_true, if_false]
    have hs' : (amplitude T.value (density f) csSq (normFactor (m.matrix h2) w k) (m.rate h2 k)).isSome := by
      rw [← ha]; simpa [hamp] using hs
    obtain ⟨a, hsome⟩ := Option.isSome_iff_exists.1 hs'
    have h5 := hsome
    unfold amplitude realDiv pyDiv at h5
    by_cases hc : csSq = 0
    · simp [hc] at h5
    rw [if_neg hc] at h5
    simp only [Option.bind_eq_bind, Option.bind_some, pySqrt] at h5
    split_ifs at h5 with hneg
    simp only [Option.some.injEq] at h5
    refine ⟨a, h5 ▸ Real.sqrt_nonneg _, hc, ?_, ?_⟩
    · rw [← h5, Real.sq_sqrt (not_lt.1 hneg), normFactor]
      have : ∀ q, m.matrix h2 k q * m.matrix h2 k q * w q = m.ev (m.moment h2 k) q ^ 2 * w q := fun q => by
        rw [pow_two]; rfl
      simp only [this]
      ring
    · rw [hMk, ha, hsome, randomVector, hk']
      simp only [Option.getD_some, Bool.false_eq_true, if_false]
      ring

/-- C59. With rates between 0 and 2, nonnegative density, temperature and weights every cell has new populations. A
rate outside, where some fluctuating moment has positive norm, gives no numbers. -/
theorem C59_defined (T rho csSq norm rate : ℝ) (hc : 0 < csSq) :
    (0 ≤ T * rho → 0 ≤ norm → 0 ≤ rate → rate ≤ 2 → (amplitude T rho csSq norm rate).isSome) ∧
    (0 < T * rho → 0 < norm → (rate < 0 ∨ 2 < rate) → amplitude T rho csSq norm rate = none) ∧
    (rate = 0 ∨ rate = 2 → amplitude T rho csSq norm rate = some 0) := by
  unfold amplitude realDiv pyDiv
  rw [if_neg hc.ne']
  simp only [Option.bind_eq_bind, Option.bind_some, pySqrt]
  refine ⟨fun h1 h2 h3 h4 => ?_, fun h1 h2 h3 => ?_, fun h => ?_⟩
  · rw [if_neg]; · rfl
    have : 0 ≤ 1 - (1 - rate) ^ 2 := by nlinarith
    have := mul_nonneg (mul_nonneg (div_nonneg h1 hc.le) h2) this
    linarith
  · rw [if_pos]
    have h5 : 1 - (1 - rate) ^ 2 < 0 := by rcases h3 with h | h <;> nlinarith
    exact mul_neg_of_pos_of_neg (mul_pos (div_pos h1 hc) h2) h5
  · have : (1 - (1 - rate) ^ 2) = 0 := by rcases h with rfl | rfl <;> norm_num
    rw [this, mul_zero]; simp

/-- C59. Every cell with nonnegative density gets new populations when temperature and weights are nonnegative and all rates
of fluctuating moments lie between 0 and 2. -/
theorem C59_total (m : MomentMethod ℝ P Q) (conserved : P → Bool) (w : Fin Q → ℝ) (density : (Fin Q → ℝ) → ℝ)
    (csSq : ℝ) (T : Temperature) (amps : List ((Fin Q → ℝ) → ℝ)) (rule : (Fin Q → ℝ) → Fin Q → ℝ)
    {g : (ℕ → ℝ) → (Fin Q → ℝ) → Option (Fin Q → ℝ)} (hg : addFluctuations m conserved w density csSq T amps rule = .ok g)
    (hc : 0 < csSq) (hT : 0 ≤ T.value) (hw : ∀ q, 0 ≤ w q)
    (hrate : ∀ p ∈ m.relax, conserved p.1 = false → 0 ≤ p.2 ∧ p.2 ≤ 2) (r : ℕ → ℝ) (f : Fin Q → ℝ) (hf : 0 ≤ density f) :
    (g r f).isSome := by
  unfold addFluctuations at hg
  split_ifs at hg with h1 h2 h3
  unfold MomentMethod.pyInv at hg
  by_cases hdet : (m.matrix h2).det = 0
  · rw [if_pos hdet] at hg; exact absurd hg (by simp)
  rw [if_neg hdet] at hg
  simp only [Except.ok.injEq] at hg
  subst hg
  simp only
  rw [if_pos]
  · rfl
  intro k
  by_cases hk : conserved (m.moment h2 k) = true
  · rw [if_pos hk]; rfl
  · rw [if_neg hk]
    have hm : m.relax[k.val]'(by have := k.isLt; omega) ∈ m.relax := List.getElem_mem _
    obtain ⟨h4, h5⟩ := hrate _ hm (Bool.eq_false_iff.2 hk)
    exact (C59_defined T.value (density f) csSq _ _ hc).1 (mul_nonneg hT hf)
      (Finset.sum_nonneg fun q _ => mul_nonneg (mul_self_nonneg _) (hw q)) h4 h5

/-- C59. The factors `sum w M²` are those that make independent moments the image of independent populations: for a
weighted-orthogonal matrix `M⁻¹ diag(norm) M⁻ᵀ = diag(w)`. -/
theorem C59_norms (M : Matrix (Fin Q) (Fin Q) ℝ) (w : Fin Q → ℝ) (hM : M.det ≠ 0)
    (h : ∀ i j, i ≠ j → ∑ q, M i q * w q * M j q = 0) :
    M⁻¹ * diagonal (normFactor M w) * M⁻¹ᵀ = diagonal w := by
  have h1 : M * diagonal w * Mᵀ = diagonal (normFactor M w) := by
    ext i j
    rw [Matrix.mul_apply]
    simp only [mul_diagonal, transpose_apply]
    by_cases hij : i = j
    · subst hij
      rw [diagonal_apply_eq, normFactor]
      exact Finset.sum_congr rfl fun q _ => by ring
    · rw [diagonal_apply_ne _ hij]; exact h i j hij
  have hu : IsUnit M.det := isUnit_iff_ne_zero.2 hM
  rw [← h1]
  calc M⁻¹ * (M * diagonal w * Mᵀ) * M⁻¹ᵀ = (M⁻¹ * M) * diagonal w * (Mᵀ * M⁻¹ᵀ) := by simp only [Matrix.mul_assoc]
    _ = diagonal w := by
      rw [nonsing_inv_mul _ hu, ← transpose_mul, nonsing_inv_mul _ hu]; simp

end moments

/-! ### Statistics -/

section statistics
variable {Ω : Type} [MeasurableSpace Ω] {μ : Measure Ω}

theorem uniform_integral {r : Ω → ℝ} (hr : Measurable r) (hlaw : μ.map r = volume.restrict (Set.Icc 0 1)) (g : ℝ → ℝ)
    (hg : Continuous g) : ∫ ω, g (r ω) ∂μ = ∫ x in (0 : ℝ)..1, g x := by
  rw [← integral_map hr.aemeasurable hg.aestronglyMeasurable, hlaw, intervalIntegral.integral_of_le zero_le_one,
    integral_Icc_eq_integral_Ioc]

theorem uniform_integrable {r : Ω → ℝ} (hr : Measurable r) (hlaw : μ.map r = volume.restrict (Set.Icc 0 1)) (g : ℝ → ℝ)
    (hg : Continuous g) : Integrable (fun ω => g (r ω)) μ := by
  have h : Integrable g (μ.map r) := by
    rw [hlaw]; exact hg.integrableOn_Icc
  exact (integrable_map_measure hg.aestronglyMeasurable hr.aemeasurable).1 h

/-- C59. The scaled random numbers have mean zero and variance one when the generator is uniform on the unit interval. -/
theorem C59_uniform {r : Ω → ℝ} (hr : Measurable r) (hlaw : μ.map r = volume.restrict (Set.Icc 0 1)) :
    ∫ ω, (r ω - 1 / 2) * Real.sqrt 12 ∂μ = 0 ∧ ∫ ω, ((r ω - 1 / 2) * Real.sqrt 12) ^ 2 ∂μ = 1 := by
  constructor
  · rw [uniform_integral hr hlaw (fun x => (x - 1 / 2) * Real.sqrt 12) (by fun_prop), intervalIntegral.integral_mul_const]
    rw [intervalIntegral.integral_sub (by simp) (by simp)]
    simp
  · rw [uniform_integral hr hlaw (fun x => ((x - 1 / 2) * Real.sqrt 12) ^ 2) (by fun_prop)]
    have : ∀ x : ℝ, ((x - 1 / 2) * Real.sqrt 12) ^ 2 = 12 * x ^ 2 - 12 * x + 3 := by
      intro x
      rw [mul_pow, Real.sq_sqrt (by norm_num)]; ring
    simp only [this]
    rw [intervalIntegral.integral_add, intervalIntegral.integral_sub, intervalIntegral.integral_const_mul,
      intervalIntegral.integral_const_mul, integral_pow, integral_id]
    · norm_num
    all_goals exact Continuous.intervalIntegrable (by fun_prop) _ _

open Classical in
theorem double_sum {G : Type} {Q : ℕ} (x y : G) (s t v : Fin Q → ℝ) :
    ∑ i, ∑ j, t j * (s i * if x = y ∧ i = j then v i else 0) = if x = y then ∑ i, s i * v i * t i else 0 := by
  by_cases hxy : x = y
  · rw [if_pos hxy]
    refine Finset.sum_congr rfl fun i _ => ?_
    rw [Finset.sum_eq_single i]
    · rw [if_pos ⟨hxy, rfl⟩]; ring
    · intro j _ hj; rw [if_neg fun h => hj h.2.symm]; ring
    · intro h; exact absurd (Finset.mem_univ i) h
  · simp [hxy]

variable [IsProbabilityMeasure μ] {P G : Type} {Q : ℕ}

open Classical in
/-- C59. Fluctuation and dissipation balance. Take populations in all cells that are uncorrelated, with the variances
`T ρ w_q / c_s²` of the ideal gas of the temperature, where ρ is the mean of the density. Let the collision relax the moments that
are not conserved to zero (linear equilibrium, see `C59_linear_equilibrium`) with any rates. Random numbers: uniform,
pairwise independent, independent of the populations. Then the populations after the collision have the same covariance, for
every weighted-orthogonal method. The correction does not change the mean of any moment. Streaming permutes the
populations of the same direction and hence keeps this state. -/
theorem C59_stationary (m : MomentMethod ℝ P Q) (conserved : P → Bool) (w : Fin Q → ℝ) (background csSq rho0 : ℝ)
    (T : Temperature) (amps : List ((Fin Q → ℝ) → ℝ)) (rule : (Fin Q → ℝ) → Fin Q → ℝ)
    {g : (ℕ → ℝ) → (Fin Q → ℝ) → Option (Fin Q → ℝ)}
    (hg : addFluctuations m conserved w (fun f => background + ∑ q, f q) csSq T amps rule = .ok g)
    (hlen : m.relax.length = Q)
    (hrule : ∀ f k, ∑ q, m.ev (m.moment hlen k) q * rule f q =
      (if conserved (m.moment hlen k) then 1 else 1 - m.rate hlen k) * ∑ q, m.ev (m.moment hlen k) q * f q)
    (F F' : Ω → G → Fin Q → ℝ) (R : Ω → G → ℕ → ℝ) (hF : Measurable F) (hR : Measurable R) (hFR : IndepFun F R μ)
    (hlaw : ∀ x n, μ.map (fun ω => R ω x n) = volume.restrict (Set.Icc 0 1))
    (hind : ∀ x n y l, (x, n) ≠ (y, l) → IndepFun (fun ω => R ω x n) (fun ω => R ω y l) μ)
    (hL2 : ∀ x q, MemLp (fun ω => F ω x q) 2 μ)
    (hmean : ∀ x, ∫ ω, background + ∑ q, F ω x q ∂μ = rho0)
    (hcov : ∀ x q y p, cov[fun ω => F ω x q, fun ω => F ω y p; μ] =
      if x = y ∧ q = p then T.value * rho0 / csSq * w q else 0)
    (hstep : ∀ ω x, g (R ω x) (F ω x) = some (F' ω x)) :
    (∀ x q y p, cov[fun ω => F' ω x q, fun ω => F' ω y p; μ] =
      if x = y ∧ q = p then T.value * rho0 / csSq * w q else 0) ∧
    ∀ x k, ∫ ω, ∑ q, m.ev (m.moment hlen k) q * F' ω x q ∂μ = ∫ ω, ∑ q, m.ev (m.moment hlen k) q * rule (F ω x) q ∂μ := by
  obtain ⟨-, -, hl, horth, hdet⟩ := ((C59_accepted m conserved w (fun f => background + ∑ q, f q) csSq T amps rule).1).1 ⟨g, hg⟩
  have hu : IsUnit (m.matrix hlen).det := isUnit_iff_ne_zero.2 hdet
  set M := m.matrix hlen with hMdef
  set cons := fun k => conserved (m.moment hlen k) with hcons
  set a : Fin Q → ℝ := fun k => if cons k then 1 else 1 - m.rate hlen k with ha
  set θ := T.value * rho0 / csSq with hθ
  -- amplitudes as functions of the populations
  set c : Fin Q → ℝ := fun k => T.value / csSq * normFactor M w k * (1 - a k ^ 2) with hc
  set A : Fin Q → (Fin Q → ℝ) → ℝ := fun k f => Real.sqrt (c k * (background + ∑ q, f q)) with hA
  set ξ : ℝ → ℝ := fun x => (x - 1 / 2) * Real.sqrt 12 with hξ
  set N : G → Fin Q → Ω → ℝ := fun x k ω => A k (F ω x) * ξ (R ω x (randomIndex cons k)) with hN
  set mo : G → Fin Q → Ω → ℝ := fun x k ω => ∑ q, M k q * F ω x q with hmo
  have hnorm : ∀ k, normFactor M w k = ∑ q, m.ev (m.moment hlen k) q ^ 2 * w q := fun k =>
    Finset.sum_congr rfl fun q _ => by rw [pow_two]; rfl
  have hrad : ∀ ω x k, (∑ q, M k q * F' ω x q = a k * mo x k ω + N x k ω) ∧ 0 ≤ c k * (background + ∑ q, F ω x q) := by
    intro ω x k
    obtain ⟨h, hk⟩ := C59_moments m conserved w _ csSq T amps rule hg (hstep ω x)
    have hr := hrule (F ω x) k
    cases hck : cons k with
    | true =>
      have h1 := (hk k).1 hck
      have hak : a k = 1 := by simp only [ha, hck, if_true]
      have hc0 : c k = 0 := by simp only [hc, hak]; ring
      refine ⟨?_, by rw [hc0, zero_mul]⟩
      simp only [hN, hA, hc0, zero_mul, Real.sqrt_zero, add_zero]
      exact h1.trans hr
    | false =>
      obtain ⟨b, hb, -, hb2, h1⟩ := (hk k).2 hck
      have hak : a k = 1 - m.rate hlen k := by simp only [ha, hck, Bool.false_eq_true, if_false]
      have hb3 : b ^ 2 = c k * (background + ∑ q, F ω x q) := by
        rw [hb2]; simp only [hc, hak, hnorm]; ring
      refine ⟨?_, by rw [← hb3]; positivity⟩
      have hb4 : A k (F ω x) = b := by simp only [hA]; rw [← hb3, Real.sqrt_sq hb]
      simp only [hN, hb4, hξ]
      rw [show (∑ q, M k q * F' ω x q) = ∑ q, m.ev (m.moment hlen k) q * F' ω x q from rfl, h1, hr]
      simp only [hmo, ha]
      have : ∀ q, M k q = m.ev (m.moment hlen k) q := fun q => rfl
      simp only [this, hcons]
      ring
  -- measurability
  have hFm : ∀ x, Measurable fun ω => F ω x := fun x => (measurable_pi_apply x).comp hF
  have hFq : ∀ x q, Measurable fun ω => F ω x q := fun x q => (measurable_pi_apply q).comp (hFm x)
  have hRn : ∀ x n, Measurable fun ω => R ω x n := fun x n => (measurable_pi_apply n).comp ((measurable_pi_apply x).comp hR)
  have hAm : ∀ k, Measurable (A k) := by
    intro k
    apply Real.continuous_sqrt.measurable.comp
    exact (measurable_const.add (Finset.measurable_sum _ fun q _ => measurable_pi_apply q)).const_mul _
  have hξc : Continuous ξ := by simp only [hξ]; fun_prop
  have hξm : ∀ x n, Measurable fun ω => ξ (R ω x n) := fun x n => hξc.measurable.comp (hRn x n)
  have hAF : ∀ x k, Measurable fun ω => A k (F ω x) := fun x k => (hAm k).comp (hFm x)
  -- independence of functions of F and functions of R
  have hprod : ∀ (u : (G → Fin Q → ℝ) → ℝ) (v : (G → ℕ → ℝ) → ℝ), Measurable u → Measurable v →
      IndepFun (fun ω => u (F ω)) (fun ω => v (R ω)) μ := fun u v hu hv => hFR.comp hu hv
  have hEprod : ∀ (u : (G → Fin Q → ℝ) → ℝ) (v : (G → ℕ → ℝ) → ℝ), Measurable u → Measurable v →
      ∫ ω, u (F ω) * v (R ω) ∂μ = (∫ ω, u (F ω) ∂μ) * ∫ ω, v (R ω) ∂μ := fun u v hu hv =>
    (hprod u v hu hv).integral_fun_mul_eq_mul_integral (hu.comp hF).aestronglyMeasurable (hv.comp hR).aestronglyMeasurable
  have hpF : ∀ x, Measurable fun φ : G → Fin Q → ℝ => φ x := fun x => measurable_pi_apply x
  have hpA : ∀ x k, Measurable fun φ : G → Fin Q → ℝ => A k (φ x) := fun x k => (hAm k).comp (hpF x)
  have hpm : ∀ x k, Measurable fun φ : G → Fin Q → ℝ => ∑ q, M k q * φ x q := fun x k =>
    Finset.measurable_sum _ fun q _ => ((measurable_pi_apply q).comp (hpF x)).const_mul _
  have hpR : ∀ x n, Measurable fun ψ : G → ℕ → ℝ => ξ (ψ x n) := fun x n =>
    hξc.measurable.comp ((measurable_pi_apply n).comp (measurable_pi_apply x))
  have hξ0 : ∀ x n, ∫ ω, ξ (R ω x n) ∂μ = 0 := fun x n => (C59_uniform (hRn x n) (hlaw x n)).1
  have hξ1 : ∀ x n, ∫ ω, ξ (R ω x n) ^ 2 ∂μ = 1 := fun x n => (C59_uniform (hRn x n) (hlaw x n)).2
  -- square integrability
  have hdens : ∀ x, Integrable (fun ω => background + ∑ q, F ω x q) μ := fun x =>
    (integrable_const _).add (integrable_finset_sum _ fun q _ => (hL2 x q).integrable (by norm_num))
  have hAsq : ∀ x k, (fun ω => A k (F ω x) ^ 2) = fun ω => c k * (background + ∑ q, F ω x q) := by
    intro x k; funext ω; exact Real.sq_sqrt (hrad ω x k).2
  have hAint : ∀ x k, Integrable (fun ω => A k (F ω x) ^ 2) μ := fun x k => by
    rw [hAsq]; exact (hdens x).const_mul _
  have hNm : ∀ x k, Measurable (N x k) := fun x k => (hAF x k).mul (hξm x _)
  have hNL2 : ∀ x k, MemLp (N x k) 2 μ := by
    intro x k
    rw [memLp_two_iff_integrable_sq (hNm x k).aestronglyMeasurable]
    have h1 : IndepFun (fun ω => A k (F ω x) ^ 2) (fun ω => ξ (R ω x (randomIndex cons k)) ^ 2) μ :=
      hprod (fun φ => A k (φ x) ^ 2) (fun ψ => ξ (ψ x (randomIndex cons k)) ^ 2) ((hpA x k).pow_const 2) ((hpR x _).pow_const 2)
    have h2 := h1.integrable_mul (hAint x k) (uniform_integrable (hRn x _) (hlaw x _) (fun y => ξ y ^ 2) (hξc.pow 2))
    refine h2.congr (Filter.Eventually.of_forall fun ω => ?_)
    simp only [Pi.mul_apply, hN, mul_pow]
  have hmoL2 : ∀ x k, MemLp (mo x k) 2 μ := fun x k =>
    memLp_finset_sum _ fun q _ => (hL2 x q).const_mul _
  -- expectations
  have hN0 : ∀ x k, ∫ ω, N x k ω ∂μ = 0 := by
    intro x k
    rw [show (fun ω => N x k ω) = fun ω => A k (F ω x) * ξ (R ω x (randomIndex cons k)) from rfl,
      hEprod (fun φ => A k (φ x)) (fun ψ => ξ (ψ x (randomIndex cons k))) (hpA x k) (hpR x _), hξ0, mul_zero]
  have hmN : ∀ x k y l, cov[mo x k, N y l; μ] = 0 := by
    intro x k y l
    rw [covariance_eq_sub (hmoL2 x k) (hNL2 y l), hN0, mul_zero, sub_zero]
    have : (mo x k * N y l) = fun ω => ((∑ q, M k q * F ω x q) * A l (F ω y)) * ξ (R ω y (randomIndex cons l)) := by
      funext ω; simp only [Pi.mul_apply, hmo, hN]; ring
    rw [this, hEprod (fun φ => (∑ q, M k q * φ x q) * A l (φ y)) (fun ψ => ξ (ψ y (randomIndex cons l)))
      ((hpm x k).mul (hpA y l)) (hpR y _), hξ0, mul_zero]
  have hEA : ∀ x k, ∫ ω, A k (F ω x) ^ 2 ∂μ = θ * normFactor M w k * (1 - a k ^ 2) := by
    intro x k
    rw [hAsq, integral_const_mul, hmean]
    simp only [hc, hθ]; ring
  have hcc : ∀ k, cons k = true → ∀ x ω, N x k ω = 0 := by
    intro k hk x ω
    have hak : a k = 1 := by simp only [ha, hk, if_true]
    have hc0 : c k = 0 := by simp only [hc, hak]; ring
    simp only [hN, hA, hc0, zero_mul, Real.sqrt_zero]
  have hNN : ∀ x k y l, cov[N x k, N y l; μ] = if x = y ∧ k = l then θ * normFactor M w k * (1 - a k ^ 2) else 0 := by
    intro x k y l
    rw [covariance_eq_sub (hNL2 x k) (hNL2 y l), hN0, hN0, mul_zero, sub_zero]
    have h1 : (N x k * N y l) = fun ω => (A k (F ω x) * A l (F ω y)) *
        (ξ (R ω x (randomIndex cons k)) * ξ (R ω y (randomIndex cons l))) := by
      funext ω; simp only [Pi.mul_apply, hN]; ring
    by_cases hxy : x = y ∧ k = l
    · obtain ⟨rfl, rfl⟩ := hxy
      rw [if_pos ⟨rfl, rfl⟩, h1, hEprod (fun φ => A k (φ x) * A k (φ x))
        (fun ψ => ξ (ψ x (randomIndex cons k)) * ξ (ψ x (randomIndex cons k))) ((hpA x k).mul (hpA x k))
        ((hpR x _).mul (hpR x _))]
      simp only [← pow_two]
      rw [hEA, hξ1, mul_one]
    · rw [if_neg hxy]
      by_cases hk : cons k = true
      · have : (N x k * N y l) = fun _ => 0 := by funext ω; simp only [Pi.mul_apply, hcc k hk, zero_mul]
        rw [this, integral_zero]
      by_cases hl : cons l = true
      · have : (N x k * N y l) = fun _ => 0 := by funext ω; simp only [Pi.mul_apply, hcc l hl, mul_zero]
        rw [this, integral_zero]
      rw [h1, hEprod (fun φ => A k (φ x) * A l (φ y))
        (fun ψ => ξ (ψ x (randomIndex cons k)) * ξ (ψ y (randomIndex cons l))) ((hpA x k).mul (hpA y l))
        ((hpR x _).mul (hpR y _))]
      have hne : (x, randomIndex cons k) ≠ (y, randomIndex cons l) := by
        intro he
        obtain ⟨h2, h3⟩ := Prod.mk.inj he
        exact hxy ⟨h2, ((C59_random_numbers cons).1 k l (by simpa using hk) (by simpa using hl)).1 h3⟩
      have h4 : IndepFun (fun ω => ξ (R ω x (randomIndex cons k))) (fun ω => ξ (R ω y (randomIndex cons l))) μ :=
        (hind _ _ _ _ hne).comp hξc.measurable hξc.measurable
      rw [h4.integral_fun_mul_eq_mul_integral (hξm x _).aestronglyMeasurable (hξm y _).aestronglyMeasurable, hξ0, zero_mul,
        mul_zero]
  have hmm : ∀ x k y l, cov[mo x k, mo y l; μ] = if x = y ∧ k = l then θ * normFactor M w k else 0 := by
    intro x k y l
    simp only [hmo]
    rw [covariance_fun_sum_fun_sum (fun q => (hL2 x q).const_mul _) (fun q => (hL2 y q).const_mul _)]
    simp only [covariance_const_mul_left, covariance_const_mul_right, hcov]
    rw [double_sum]
    by_cases hxy : x = y
    · rw [if_pos hxy]
      by_cases hkl : k = l
      · rw [if_pos ⟨hxy, hkl⟩, hkl, normFactor, Finset.mul_sum]
        exact Finset.sum_congr rfl fun q _ => by ring
      · rw [if_neg fun h => hkl h.2, ← mul_zero θ, ← horth k l hkl, Finset.mul_sum]
        exact Finset.sum_congr rfl fun q _ => by ring
    · rw [if_neg hxy, if_neg fun h => hxy h.1]
  set m' : G → Fin Q → Ω → ℝ := fun x k => (fun ω => a k * mo x k ω) + N x k with hm'
  have ham : ∀ x k, MemLp (fun ω => a k * mo x k ω) 2 μ := fun x k => (hmoL2 x k).const_mul _
  have hm'L2 : ∀ x k, MemLp (m' x k) 2 μ := fun x k => (ham x k).add (hNL2 x k)
  have hm'cov : ∀ x k y l, cov[m' x k, m' y l; μ] = if x = y ∧ k = l then θ * normFactor M w k else 0 := by
    intro x k y l
    simp only [hm']
    rw [covariance_add_left (ham x k) (hNL2 x k) ((ham y l).add (hNL2 y l)), covariance_add_right (ham x k) (ham y l) (hNL2 y l),
      covariance_add_right (hNL2 x k) (ham y l) (hNL2 y l), covariance_const_mul_left, covariance_const_mul_right,
      covariance_const_mul_left, covariance_const_mul_right, hmm, hmN, hNN, covariance_comm, hmN]
    by_cases hxy : x = y ∧ k = l
    · obtain ⟨rfl, rfl⟩ := hxy
      simp only [and_self, if_true]; ring
    · simp only [if_neg hxy]; ring
  have hF' : ∀ x q, (fun ω => F' ω x q) = fun ω => ∑ k, M⁻¹ q k * m' x k ω := by
    intro x q
    funext ω
    have h1 : M *ᵥ F' ω x = fun k => m' x k ω := by
      funext k; exact (hrad ω x k).1
    have h2 : M⁻¹ *ᵥ (M *ᵥ F' ω x) = F' ω x := by rw [mulVec_mulVec, nonsing_inv_mul _ hu, one_mulVec]
    rw [h1] at h2
    exact (congrFun h2 q).symm
  constructor
  · intro x q y p
    rw [hF', hF', covariance_fun_sum_fun_sum (fun k => (hm'L2 x k).const_mul _) (fun k => (hm'L2 y k).const_mul _)]
    simp only [covariance_const_mul_left, covariance_const_mul_right, hm'cov]
    rw [double_sum]
    by_cases hxy : x = y
    · rw [if_pos hxy]
      have h2 := congrFun (congrFun (C59_norms M w hdet horth) q) p
      rw [Matrix.mul_apply] at h2
      simp only [mul_diagonal, transpose_apply] at h2
      have h3 : ∑ i, M⁻¹ q i * (θ * normFactor M w i) * M⁻¹ p i = θ * diagonal w q p := by
        rw [← h2, Finset.mul_sum]
        exact Finset.sum_congr rfl fun q _ => by ring
      rw [h3, diagonal_apply]
      by_cases hqp : q = p
      · rw [if_pos hqp, if_pos ⟨hxy, hqp⟩]
      · rw [if_neg hqp, if_neg fun h => hqp h.2, mul_zero]
    · rw [if_neg hxy, if_neg fun h => hxy h.1]
  · intro x k
    have h1 : (fun ω => ∑ q, m.ev (m.moment hlen k) q * F' ω x q) = fun ω => a k * mo x k ω + N x k ω := by
      funext ω; exact (hrad ω x k).1
    have h2 : (fun ω => ∑ q, m.ev (m.moment hlen k) q * rule (F ω x) q) = fun ω => a k * mo x k ω := by
      funext ω; exact hrule (F ω x) k
    rw [h1, h2, integral_add ((ham x k).integrable (by norm_num)) ((hNL2 x k).integrable (by norm_num)), hN0, add_zero]

end statistics

/-! ### The collision of a linear equilibrium -/

section linear
variable {P : Type} {Q D : ℕ}

/-- C59. The equilibrium `w (ρ + c·j / c_s²)`, for a weighted-orthogonal set that contains `1` and the components of the
velocity: the moments of these are those of the populations, all others are zero. -/
theorem C59_linear_equilibrium (M : Matrix (Fin Q) (Fin Q) ℝ) (w : Fin Q → ℝ) (csSq : ℝ) (hcs : csSq ≠ 0)
    (horth : ∀ i j, i ≠ j → ∑ q, M i q * w q * M j q = 0) (c : Fin Q → Fin D → ℝ) (k0 : Fin Q) (kc : Fin D → Fin Q)
    (h0 : ∀ q, M k0 q = 1) (hc : ∀ a q, M (kc a) q = c q a) (hne : ∀ a, kc a ≠ k0) (hinj : Function.Injective kc)
    (hw : ∑ q, w q = 1) (hww : ∀ a, ∑ q, w q * c q a ^ 2 = csSq) (f : Fin Q → ℝ) (k : Fin Q) :
    ∑ q, M k q * (w q * (∑ p, f p + ∑ a, c q a * (∑ p, c p a * f p) / csSq)) =
      if k = k0 ∨ ∃ a, k = kc a then ∑ q, M k q * f q else 0 := by
  have hexp : ∑ q, M k q * (w q * (∑ p, f p + ∑ a, c q a * (∑ p, c p a * f p) / csSq)) =
      (∑ q, M k q * w q * M k0 q) * (∑ p, f p) + ∑ a, (∑ q, M k q * w q * M (kc a) q) * ((∑ p, c p a * f p) / csSq) := by
    generalize ∑ p, f p = S
    generalize hJ : (fun a => ∑ p, c p a * f p) = J
    have hJa : ∀ a, ∑ p, c p a * f p = J a := fun a => congrFun hJ a
    simp only [hJa]
    have hq : ∀ q, M k q * (w q * (S + ∑ a, c q a * J a / csSq)) =
        M k q * w q * M k0 q * S + ∑ a, M k q * w q * M (kc a) q * (J a / csSq) := by
      intro q
      rw [h0, mul_add, mul_add, Finset.mul_sum, Finset.mul_sum]
      congr 1
      · ring
      · refine Finset.sum_congr rfl fun a _ => ?_
        rw [hc]; ring
    simp only [hq]
    rw [Finset.sum_add_distrib, Finset.sum_comm]
    simp only [Finset.sum_mul]
  rw [hexp]
  by_cases hk0 : k = k0
  · subst hk0
    rw [if_pos (Or.inl rfl)]
    have h1 : ∀ a, ∑ q, M k q * w q * M (kc a) q = 0 := fun a => horth _ _ (hne a).symm
    simp only [h1, zero_mul, Finset.sum_const_zero, add_zero]
    simp only [h0, one_mul, mul_one, hw]
  · rw [horth k k0 hk0, zero_mul, zero_add]
    by_cases hka : ∃ a, k = kc a
    · obtain ⟨a, rfl⟩ := hka
      rw [if_pos (Or.inr ⟨a, rfl⟩), Finset.sum_eq_single a]
      · have h1 : ∑ q, M (kc a) q * w q * M (kc a) q = csSq := by
          rw [← hww a]
          exact Finset.sum_congr rfl fun q _ => by rw [hc]; ring
        rw [h1, mul_div_cancel₀ _ hcs]
        exact Finset.sum_congr rfl fun q _ => by rw [hc]
      · intro b _ hb
        rw [horth _ _ (fun h => hb (hinj h).symm), zero_mul]
      · intro h; exact absurd (Finset.mem_univ a) h
    · rw [if_neg (not_or.2 ⟨hk0, hka⟩)]
      exact Finset.sum_eq_zero fun a _ => by rw [horth _ _ (fun h => hka ⟨a, h⟩), zero_mul]

/-- C59. The collision rule of the moment-based method in population space, with such an equilibrium, is a rule as
`C59_stationary` needs it. -/
theorem C59_linear_rule [DecidableEq P] (m : MomentMethod ℝ P Q) (hlen : m.relax.length = Q) (conserved : P → Bool)
    (hpop : m.momentSpace = false) {rule : (Fin Q → ℝ) → Fin Q → ℝ}
    (hr : m.collisionRule (fun k => m.rate hlen k) false = .ok rule)
    (hmeq : ∀ f k, m.meq f (m.moment hlen k) =
      if conserved (m.moment hlen k) then ∑ q, m.ev (m.moment hlen k) q * f q else 0) (f : Fin Q → ℝ) (k : Fin Q) :
    ∑ q, m.ev (m.moment hlen k) q * rule f q =
      (if conserved (m.moment hlen k) then 1 else 1 - m.rate hlen k) * ∑ q, m.ev (m.moment hlen k) q * f q := by
  unfold MomentMethod.collisionRule at hr
  cases hb : m.backgroundShift with
  | error e => rw [hb] at hr; exact absurd hr (by simp [bind, Except.bind])
  | ok bg =>
    rw [hb] at hr
    simp only [bind, Except.bind, hpop, Bool.false_eq_true, if_false, MomentMethod.popForcing, Bool.false_and,
      MomentMethod.pyInv] at hr
    split_ifs at hr with h1 hdet
    · simp only [pure, Except.pure, Except.ok.injEq] at hr
      subst hr
      have hM : m.matrix hlen *ᵥ (f + ((m.matrix hlen)⁻¹ * diagonal fun k => m.rate hlen k) *ᵥ
          ((fun i => m.meq f (m.moment hlen i)) - m.matrix hlen *ᵥ f)) =
          m.matrix hlen *ᵥ f + fun k => m.rate hlen k * (m.meq f (m.moment hlen k) - (m.matrix hlen *ᵥ f) k) := by
        rw [mulVec_add, mulVec_mulVec, ← Matrix.mul_assoc, mul_nonsing_inv _ (isUnit_iff_ne_zero.2 hdet), Matrix.one_mul]
        congr 1
        funext k
        rw [mulVec_diagonal]; rfl
      refine (congrFun hM k).trans ?_
      show (m.matrix hlen *ᵥ f) k + m.rate hlen k * (m.meq f (m.moment hlen k) - (m.matrix hlen *ᵥ f) k) = _
      have : (m.matrix hlen *ᵥ f) k = ∑ q, m.ev (m.moment hlen k) q * f q := rfl
      rw [hmeq, this]
      split_ifs <;> ring

end linear

/-! ### A case in which all hypotheses hold -/

section realised

/-- D1Q3 with the moments `1, x, 3 x² - 1` -/
noncomputable def d1q3 (omega : ℝ) : MomentMethod ℝ (Fin 3) 3 where
  relax := [(0, 0), (1, 0), (2, omega)]
  ev := ![![1, 1, 1], ![0, 1, -1], ![-1, 2, 2]]
  meq := fun f p => if p = 2 then 0 else ∑ q, (![![1, 1, 1], ![0, 1, -1], ![-1, 2, 2]] : Fin 3 → Fin 3 → ℝ) p q * f q
  zeroCentered := true
  deviationOnly := true
  background := none
  momentSpace := false
  force := none

noncomputable def w3 : Fin 3 → ℝ := ![2 / 3, 1 / 6, 1 / 6]

theorem d1q3_matrix (omega : ℝ) : (d1q3 omega).matrix rfl = !![1, 1, 1; 0, 1, -1; -1, 2, 2] := by
  ext i j; fin_cases i <;> fin_cases j <;> rfl

theorem d1q3_det (omega : ℝ) : ((d1q3 omega).matrix rfl).det ≠ 0 := by
  rw [d1q3_matrix, det_fin_three]; simp; norm_num

theorem d1q3_orth (omega : ℝ) (i j : Fin 3) (h : i ≠ j) :
    ∑ q, (d1q3 omega).matrix rfl i q * w3 q * (d1q3 omega).matrix rfl j q = 0 := by
  rw [d1q3_matrix]
  fin_cases i <;> fin_cases j <;> first | exact absurd rfl h | (simp [Fin.sum_univ_three, w3]; try norm_num)

/-- accepted, with the collision rule of the method -/
theorem d1q3_accepted (omega : ℝ) : ∃ rule g, (d1q3 omega).collisionRule (fun k => (d1q3 omega).rate rfl k) false = .ok rule ∧
    addFluctuations (d1q3 omega) (fun p => p ≠ 2) w3 (fun f => 1 + ∑ q, f q) (1 / 3) (.number (1 / 100)) [] rule = .ok g := by
  have h1 : ∃ rule, (d1q3 omega).collisionRule (fun k => (d1q3 omega).rate rfl k) false = .ok rule := by
    unfold MomentMethod.collisionRule
    have hb : (d1q3 omega).backgroundShift = .ok none := rfl
    have hl : (d1q3 omega).relax.length = 3 := rfl
    rw [hb]
    simp only [bind, Except.bind, MomentMethod.popForcing, Bool.false_and, MomentMethod.pyInv]
    rw [if_neg (by simp [d1q3]), if_neg (by simp [d1q3]), dif_pos hl, if_neg (d1q3_det omega)]
    exact ⟨_, rfl⟩
  obtain ⟨rule, hr⟩ := h1
  obtain ⟨g, hg⟩ := (C59_accepted (d1q3 omega) (fun p => p ≠ 2) w3 (fun f => 1 + ∑ q, f q) (1 / 3) (.number (1 / 100)) [] rule).1.2
    ⟨by simp [Temperature.truthy], rfl, rfl, d1q3_orth omega, d1q3_det omega⟩
  exact ⟨rule, g, hr, hg⟩

/-- independence is kept under a measure preserving map -/
theorem indepFun_comp {Ω Ω' : Type} [MeasurableSpace Ω] [MeasurableSpace Ω'] {μ : Measure Ω} {ν : Measure Ω'} {φ : Ω → Ω'}
    (hφ : MeasurePreserving φ μ ν) {X Y : Ω' → ℝ} (hX : Measurable X) (hY : Measurable Y) (h : IndepFun X Y ν) :
    IndepFun (fun ω => X (φ ω)) (fun ω => Y (φ ω)) μ := by
  rw [indepFun_iff_measure_inter_preimage_eq_mul] at h ⊢
  intro s t hs ht
  have h1 := h s t hs ht
  rw [← hφ.measure_preimage ((hX hs).inter (hY ht)).nullMeasurableSet, ← hφ.measure_preimage (hX hs).nullMeasurableSet,
    ← hφ.measure_preimage (hY ht).nullMeasurableSet] at h1
  exact h1

open unitInterval

/-- the sample space: for all cells of a line numbers for the initial state and for the noise -/
abbrev Sample := (ℤ × ℕ → I) × (ℤ × ℕ → I)

noncomputable def law : Measure Sample :=
  (Measure.infinitePi fun _ : ℤ × ℕ => (volume : Measure I)).prod (Measure.infinitePi fun _ : ℤ × ℕ => (volume : Measure I))

instance : IsProbabilityMeasure law := by unfold law; infer_instance

noncomputable def noise (ω : Sample) (x : ℤ) (n : ℕ) : ℝ := ω.2 (x, n)
noncomputable def start (ω : Sample) (x : ℤ) (q : Fin 3) : ℝ := 3 / 5 * Real.sqrt (w3 q) * ((ω.1 (x, q.val) : ℝ) - 1 / 2)

theorem coord_law (i : ℤ × ℕ) : Measure.map (fun u : ℤ × ℕ → I => (u i : ℝ))
    (Measure.infinitePi fun _ : ℤ × ℕ => (volume : Measure I)) = volume.restrict (Set.Icc 0 1) :=
  (measurePreserving_coe.comp (measurePreserving_eval_infinitePi (fun _ : ℤ × ℕ => (volume : Measure I)) i)).map_eq

theorem coord_indep {i j : ℤ × ℕ} (h : i ≠ j) : IndepFun (fun u : ℤ × ℕ → I => (u i : ℝ)) (fun u => (u j : ℝ))
    (Measure.infinitePi fun _ : ℤ × ℕ => (volume : Measure I)) :=
  (iIndepFun_infinitePi (X := fun (_ : ℤ × ℕ) (v : I) => (v : ℝ)) (fun _ => measurable_subtype_coe)).indepFun h

theorem coord_measurable (i : ℤ × ℕ) : Measurable fun u : ℤ × ℕ → I => (u i : ℝ) :=
  measurable_subtype_coe.comp (measurable_pi_apply i)

/-- The hypotheses of `C59_stationary` can be met: random populations on the cells of a line, with all three populations
fluctuating, density close to one, and a generator as required. -/
theorem C59_stationary_realised (omega : ℝ) (h1 : 0 ≤ omega) (h2 : omega ≤ 2) : ∃ (rule : _) (g : _) (F' : Sample → ℤ → Fin 3 → ℝ),
    (d1q3 omega).collisionRule (fun k => (d1q3 omega).rate rfl k) false = .ok rule ∧
    addFluctuations (d1q3 omega) (fun p => p ≠ 2) w3 (fun f => 1 + ∑ q, f q) (1 / 3) (.number (1 / 100)) [] rule = .ok g ∧
    Measurable start ∧ Measurable noise ∧ IndepFun start noise law ∧
    (∀ x n, law.map (fun ω => noise ω x n) = volume.restrict (Set.Icc 0 1)) ∧
    (∀ x n y l, (x, n) ≠ (y, l) → IndepFun (fun ω => noise ω x n) (fun ω => noise ω y l) law) ∧
    (∀ x q, MemLp (fun ω => start ω x q) 2 law) ∧ (∀ x, ∫ ω, 1 + ∑ q, start ω x q ∂law = 1) ∧
    (∀ x q y p, cov[fun ω => start ω x q, fun ω => start ω y p; law] =
      if x = y ∧ q = p then (1 / 100) * 1 / (1 / 3) * w3 q else 0) ∧
    (∀ ω x, g (noise ω x) (start ω x) = some (F' ω x)) := by
  obtain ⟨rule, g, hr, hg⟩ := d1q3_accepted omega
  have hw0 : ∀ q, 0 ≤ w3 q := by intro q; fin_cases q <;> norm_num [w3]
  have hw1 : ∀ q, w3 q ≤ 1 := by intro q; fin_cases q <;> norm_num [w3]
  have hlow : ∀ ω x q, -(3 / 10) ≤ start ω x q := by
    intro ω x q
    have h3 : Real.sqrt (w3 q) ≤ 1 := by rw [Real.sqrt_le_left (by norm_num)]; simpa using hw1 q
    have h4 := Real.sqrt_nonneg (w3 q)
    have h5 : 0 ≤ (ω.1 (x, q.val) : ℝ) := (ω.1 (x, q.val)).2.1
    unfold start
    nlinarith
  have hdens : ∀ ω x, 0 ≤ 1 + ∑ q, start ω x q := by
    intro ω x
    rw [Fin.sum_univ_three]
    have := hlow ω x 0; have := hlow ω x 1; have := hlow ω x 2
    linarith
  have htot : ∀ ω x, (g (noise ω x) (start ω x)).isSome := fun ω x =>
    C59_total _ _ _ _ _ _ _ _ hg (by norm_num) (by norm_num [Temperature.value]) hw0
      (by
        intro p hp hcp
        have hp2 : p.1 = 2 := by simpa using hcp
        simp only [d1q3, List.mem_cons, List.not_mem_nil, or_false] at hp
        rcases hp with rfl | rfl | rfl
        · exact absurd hp2 (by decide)
        · exact absurd hp2 (by decide)
        · exact ⟨h1, h2⟩) _ _ (hdens ω x)
  have hu1 : ∀ i : ℤ × ℕ, Measurable fun ω : Sample => (ω.1 i : ℝ) := fun i => (coord_measurable i).comp measurable_fst
  have hu2 : ∀ i : ℤ × ℕ, Measurable fun ω : Sample => (ω.2 i : ℝ) := fun i => (coord_measurable i).comp measurable_snd
  have hlaw1 : ∀ i : ℤ × ℕ, law.map (fun ω : Sample => (ω.1 i : ℝ)) = volume.restrict (Set.Icc 0 1) := by
    intro i
    rw [← coord_law i, ← (measurePreserving_fst (μ := Measure.infinitePi fun _ : ℤ × ℕ => (volume : Measure I))
      (ν := Measure.infinitePi fun _ : ℤ × ℕ => (volume : Measure I))).map_eq, Measure.map_map (coord_measurable i) measurable_fst]
    rfl
  have hlaw2 : ∀ i : ℤ × ℕ, law.map (fun ω : Sample => (ω.2 i : ℝ)) = volume.restrict (Set.Icc 0 1) := by
    intro i
    rw [← coord_law i, ← (measurePreserving_snd (μ := Measure.infinitePi fun _ : ℤ × ℕ => (volume : Measure I))
      (ν := Measure.infinitePi fun _ : ℤ × ℕ => (volume : Measure I))).map_eq, Measure.map_map (coord_measurable i) measurable_snd]
    rfl
  have hind1 : ∀ i j : ℤ × ℕ, i ≠ j → IndepFun (fun ω : Sample => (ω.1 i : ℝ)) (fun ω => (ω.1 j : ℝ)) law := fun i j h =>
    indepFun_comp measurePreserving_fst (coord_measurable i) (coord_measurable j) (coord_indep h)
  have hind2 : ∀ i j : ℤ × ℕ, i ≠ j → IndepFun (fun ω : Sample => (ω.2 i : ℝ)) (fun ω => (ω.2 j : ℝ)) law := fun i j h =>
    indepFun_comp measurePreserving_snd (coord_measurable i) (coord_measurable j) (coord_indep h)
  set K : Fin 3 → ℝ := fun q => 3 / 5 * Real.sqrt (w3 q) / Real.sqrt 12 with hK
  set ζ : ℝ → ℝ := fun x => (x - 1 / 2) * Real.sqrt 12 with hζ
  have hζc : Continuous ζ := by simp only [hζ]; fun_prop
  have h12 : Real.sqrt 12 ≠ 0 := by positivity
  have hst : ∀ x q, (fun ω => start ω x q) = fun ω : Sample => K q * ζ (ω.1 (x, q.val)) := by
    intro x q
    funext ω
    simp only [start, hK, hζ]
    field_simp
  have hζL2 : ∀ i : ℤ × ℕ, MemLp (fun ω : Sample => ζ (ω.1 i)) 2 law := fun i => by
    rw [memLp_two_iff_integrable_sq (f := fun ω : Sample => ζ (ω.1 i)) (hζc.measurable.comp (hu1 i)).aestronglyMeasurable]
    exact uniform_integrable (hu1 i) (hlaw1 i) (fun y => ζ y ^ 2) (hζc.pow 2)
  have hζ0 : ∀ i : ℤ × ℕ, ∫ ω, ζ (ω.1 i) ∂law = 0 := fun i => (C59_uniform (hu1 i) (hlaw1 i)).1
  have hζ1 : ∀ i : ℤ × ℕ, ∫ ω, ζ (ω.1 i) ^ 2 ∂law = 1 := fun i => (C59_uniform (hu1 i) (hlaw1 i)).2
  have hsL2 : ∀ x q, MemLp (fun ω => start ω x q) 2 law := fun x q => by
    rw [hst]; exact (hζL2 _).const_mul _
  have hs0 : ∀ x q, ∫ ω, start ω x q ∂law = 0 := fun x q => by
    rw [hst, integral_const_mul, hζ0, mul_zero]
  refine ⟨rule, g, fun ω x => (g (noise ω x) (start ω x)).get (htot ω x), hr, hg, ?_, ?_, ?_, fun x n => hlaw2 (x, n),
    fun x n y l h => hind2 _ _ h, hsL2, ?_, ?_, fun ω x => (Option.some_get _).symm⟩
  · refine measurable_pi_iff.2 fun x => measurable_pi_iff.2 fun q => ?_
    exact ((hu1 (x, q.val)).sub_const _).const_mul _
  · exact measurable_pi_iff.2 fun x => measurable_pi_iff.2 fun n => hu2 (x, n)
  · refine indepFun_prod (X := fun (u : ℤ × ℕ → I) (x : ℤ) (q : Fin 3) => 3 / 5 * Real.sqrt (w3 q) * ((u (x, q.val) : ℝ) - 1 / 2))
      (Y := fun (u : ℤ × ℕ → I) (x : ℤ) (n : ℕ) => (u (x, n) : ℝ)) ?_ ?_
    · refine measurable_pi_iff.2 fun x => measurable_pi_iff.2 fun q => ?_
      exact ((coord_measurable (x, q.val)).sub_const _).const_mul _
    · exact measurable_pi_iff.2 fun x => measurable_pi_iff.2 fun n => coord_measurable (x, n)
  · intro x
    rw [integral_add (integrable_const _) (integrable_finset_sum _ fun q _ => (hsL2 x q).integrable (by norm_num)),
      integral_finset_sum _ fun q _ => (hsL2 x q).integrable (by norm_num)]
    simp [hs0]
  · intro x q y p
    rw [hst, hst, covariance_const_mul_left, covariance_const_mul_right]
    by_cases h : x = y ∧ q = p
    · obtain ⟨rfl, rfl⟩ := h
      rw [if_pos ⟨rfl, rfl⟩, covariance_eq_sub (hζL2 _) (hζL2 _), hζ0, mul_zero, sub_zero]
      have h3 : ((fun ω : Sample => ζ (ω.1 (x, q.val))) * fun ω => ζ (ω.1 (x, q.val))) = fun ω => ζ (ω.1 (x, q.val)) ^ 2 := by
        funext ω; simp only [Pi.mul_apply, pow_two]
      rw [h3, hζ1]
      have h4 := Real.mul_self_sqrt (hw0 q)
      have h5 := Real.mul_self_sqrt (show (0 : ℝ) ≤ 12 by norm_num)
      have h6 : K q * (K q * 1) = 9 / 25 * (Real.sqrt (w3 q) * Real.sqrt (w3 q)) / (Real.sqrt 12 * Real.sqrt 12) := by
        simp only [hK]; ring
      rw [h6, h4, h5]; ring
    · rw [if_neg h]
      have hne : (x, q.val) ≠ (y, p.val) := by
        intro he
        obtain ⟨h3, h4⟩ := Prod.mk.inj he
        exact h ⟨h3, Fin.ext h4⟩
      have h5 : IndepFun (fun ω : Sample => ζ (ω.1 (x, q.val))) (fun ω => ζ (ω.1 (y, p.val))) law :=
        (hind1 _ _ hne).comp hζc.measurable hζc.measurable
      rw [h5.covariance_eq_zero (hζL2 _) (hζL2 _), mul_zero, mul_zero]

end realised
end Lbm.Fluctuating
