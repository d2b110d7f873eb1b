/-
C28: local relaxation rates of the turbulence models and of Casson's rheology model.
-/
import Verif.Turbulence
import Verif.StencilTables

namespace Lbm

variable {Q D : ℕ}

section helpers

theorem realDiv_ne {a b : ℝ} (h : b ≠ 0) : realDiv a b = some (a / b) := by simp [realDiv, pyDiv, h]
theorem realDiv_zero {a : ℝ} : realDiv a 0 = none := by simp [realDiv, pyDiv]
theorem pySqrt_nonneg {x : ℝ} (h : 0 ≤ x) : pySqrt x = some (Real.sqrt x) := by simp [pySqrt, not_lt.mpr h]
theorem pySqrt_neg {x : ℝ} (h : x < 0) : pySqrt x = none := by simp [pySqrt, h]
theorem realViscosity_pos {ω : ℝ} (h : ω ≠ 0) : realViscosity ω = some ((2 - ω) / (6 * ω)) :=
  realDiv_ne (by simpa using h)
theorem realRate_nonneg {nu : ℝ} (h : 0 ≤ nu) : realRate nu = some (2 / (6 * nu + 1)) :=
  realDiv_ne (by positivity)

end helpers

/-! ### Smagorinsky -/

/-- C28. In every cell with positive density the stress norm of the Smagorinsky model is a nonnegative number, and its
square is twice the sum of the squared non-equilibrium stresses over the squared density. -/
theorem C28_smagorinsky_stress (c : Fin Q → Fin D → ℤ) (f feq : Fin Q → ℝ) {rho : ℝ} (hr : 0 < rho) :
    ∃ Pi, smagorinskyPi c f feq rho = some Pi ∧ 0 ≤ Pi ∧
      (rho * Pi) ^ 2 = 2 * ∑ i : Fin D, ∑ j : Fin D, (∑ q, (c q i : ℝ) * (c q j : ℝ) * (f q - feq q)) ^ 2 := by
  set A := secondMomentTensor c fun q => f q - feq q with hA
  have h0 : 0 ≤ (∑ i, ∑ j, A i j * A i j) * 2 :=
    mul_nonneg (Finset.sum_nonneg fun i _ => Finset.sum_nonneg fun j _ => mul_self_nonneg _) (by norm_num)
  refine ⟨Real.sqrt ((∑ i, ∑ j, A i j * A i j) * 2) / rho, ?_, by positivity, ?_⟩
  · simp [smagorinskyPi, frobeniusNorm, pySqrt_nonneg h0, realDiv_ne hr.ne', ← hA]
  · rw [mul_div_cancel₀ _ hr.ne', Real.sq_sqrt h0, mul_comm]
    simp only [hA, secondMomentTensor, pow_two]

/-- C28. For every molecular rate in (0,2), model constant and nonnegative stress norm the Smagorinsky rate is defined,
lies in (0, ω₀], its relaxation time is the positive solution of the defining quadratic, and the viscosity is the
molecular viscosity plus the eddy viscosity that the model writes out. -/
theorem C28_smagorinsky {omega constant Pi : ℝ} (h0 : 0 < omega) (h2 : omega < 2) (hP : 0 ≤ Pi) :
    ∃ ω, smagorinskyOmega omega constant Pi = some ω ∧ 0 < ω ∧ ω ≤ omega ∧ ω < 2 ∧
      (1 / ω) ^ 2 = 1 / omega * (1 / ω) + 9 / 2 * constant ^ 2 * Pi ∧
      (∃ nu nu0, realViscosity ω = some nu ∧ realViscosity omega = some nu0 ∧
        nu = nu0 + smagorinskyEddyViscosity constant ω Pi) ∧
      0 ≤ smagorinskyEddyViscosity constant ω Pi ∧
      (ω = omega ↔ constant * Pi = 0) := by
  set t := 1 / omega with ht
  have tpos : 0 < t := by positivity
  have ho : omega = 1 / t := by rw [ht]; simp
  have hk : 0 ≤ 18 * constant ^ 2 * Pi := by positivity
  have ha : 0 ≤ 18 * constant ^ 2 * Pi + t ^ 2 := by positivity
  set s := Real.sqrt (18 * constant ^ 2 * Pi + t ^ 2) with hs
  have hsq : s ^ 2 = 18 * constant ^ 2 * Pi + t ^ 2 := Real.sq_sqrt ha
  have s0 : 0 ≤ s := Real.sqrt_nonneg _
  have hts : t ≤ s := Real.le_sqrt_of_sq_le (by linarith)
  have hd : 0 < t + s := by linarith
  have hval : smagorinskyOmega omega constant Pi = some (2 / (t + s)) := by
    simp [smagorinskyOmega, realDiv_ne h0.ne', pySqrt_nonneg ha, realDiv_ne hd.ne', ← ht, ← hs]
  have hle : 2 / (t + s) ≤ omega := by
    rw [ho, div_le_div_iff₀ hd tpos]; linarith
  have quad : (1 / (2 / (t + s))) ^ 2 = t * (1 / (2 / (t + s))) + 9 / 2 * constant ^ 2 * Pi := by
    have : 1 / (2 / (t + s)) = (t + s) / 2 := by field_simp
    rw [this]; linear_combination hsq / 4
  refine ⟨2 / (t + s), hval, by positivity, hle, by linarith, quad, ?_, by
    unfold smagorinskyEddyViscosity; positivity, ?_⟩
  · refine ⟨_, _, realViscosity_pos (by positivity), realViscosity_pos h0.ne', ?_⟩
    unfold smagorinskyEddyViscosity
    rw [ho]
    field_simp
    linear_combination hsq
  · constructor
    · intro h
      have h1 : t + s = 2 * t := by
        rw [ho] at h
        field_simp at h
        linarith
      have h3 : s = t := by linarith
      rw [h3] at hsq
      have h4 : constant ^ 2 * Pi = 0 := by linarith
      rcases mul_eq_zero.mp h4 with h | h
      · rw [pow_eq_zero_iff (by norm_num)] at h; simp [h]
      · simp [h]
    · intro h
      have h4 : constant ^ 2 * Pi = 0 := by rw [pow_two, mul_assoc, h, mul_zero]
      have : s ^ 2 = t ^ 2 := by rw [hsq]; linear_combination 18 * h4
      have h3 : s = t := by
        rw [← Real.sqrt_sq s0, this, Real.sqrt_sq tpos.le]
      rw [h3, ho]; field_simp; norm_num

example : ∃ ω, smagorinskyOmega (3 / 2) (1 / 10) 2 = some ω ∧ 0 < ω ∧ ω < 3 / 2 := by
  obtain ⟨ω, h, h0, h1, -, -, -, -, h2⟩ :=
    C28_smagorinsky (omega := 3 / 2) (constant := 1 / 10) (Pi := 2) (by norm_num) (by norm_num) (by norm_num)
  exact ⟨ω, h, h0, lt_of_le_of_ne h1 fun e => by have := h2.mp e; norm_num at this⟩

/-- C28. More stress never gives a larger rate. -/
theorem C28_smagorinsky_monotone {omega constant Pi Pi' ω ω' : ℝ} (h0 : 0 < omega) (hP : 0 ≤ Pi) (hPP : Pi ≤ Pi')
    (h : smagorinskyOmega omega constant Pi = some ω) (h' : smagorinskyOmega omega constant Pi' = some ω') :
    ω' ≤ ω := by
  have key : ∀ p, 0 ≤ p → smagorinskyOmega omega constant p =
      some (2 / (1 / omega + Real.sqrt (18 * constant ^ 2 * p + (1 / omega) ^ 2))) := by
    intro p hp
    have ha : 0 ≤ 18 * constant ^ 2 * p + (1 / omega) ^ 2 := by positivity
    have : 0 < 1 / omega + Real.sqrt (18 * constant ^ 2 * p + (1 / omega) ^ 2) := by positivity
    unfold smagorinskyOmega
    simp only [realDiv_ne h0.ne', Option.bind_eq_bind, Option.bind_some, pySqrt_nonneg ha, realDiv_ne this.ne']
  rw [key _ hP] at h
  rw [key _ (hP.trans hPP)] at h'
  obtain rfl := Option.some.inj h
  obtain rfl := Option.some.inj h'
  apply div_le_div_of_nonneg_left (by norm_num) (by positivity)
  have : 18 * constant ^ 2 * Pi ≤ 18 * constant ^ 2 * Pi' := mul_le_mul_of_nonneg_left hPP (by positivity)
  have := Real.sqrt_le_sqrt (show 18 * constant ^ 2 * Pi + (1 / omega) ^ 2 ≤ 18 * constant ^ 2 * Pi' + (1 / omega) ^ 2 by
    linarith)
  linarith

/-- C28, disagreement with the interface: the constant 0 (no model) is replaced by the default, any other constant is
used as given. -/
theorem C28_constant (m : SgsModel) (c : ℝ) :
    (c ≠ 0 → sgsConstant m (some c) = c) ∧ sgsConstant m (some 0) = sgsConstant m none ∧ sgsConstant m none ≠ 0 := by
  refine ⟨fun h => by simp [sgsConstant, h], by simp [sgsConstant], ?_⟩
  cases m <;> norm_num [sgsConstant]

/-! ### QR model -/

theorem trace_sq_eq (c : Fin Q → Fin D → ℤ) (g : Fin Q → ℝ) :
    ((secondMomentTensor c g) * (secondMomentTensor c g)).trace = ∑ i, ∑ j, (secondMomentTensor c g i j) ^ 2 := by
  simp only [Matrix.trace, Matrix.diag, Matrix.mul_apply]
  refine Finset.sum_congr rfl fun i _ => Finset.sum_congr rfl fun j _ => ?_
  have : secondMomentTensor c g j i = secondMomentTensor c g i j :=
    Finset.sum_congr rfl fun q _ => by ring
  rw [this, pow_two]

theorem trace_sq_pos {c : Fin Q → Fin D → ℤ} {g : Fin Q → ℝ} (h : secondMomentTensor c g ≠ 0) :
    0 < ((secondMomentTensor c g) * (secondMomentTensor c g)).trace := by
  rw [trace_sq_eq]
  by_contra hn
  have hz : ∑ i, ∑ j, (secondMomentTensor c g i j) ^ 2 = 0 :=
    le_antisymm (not_lt.mp hn) (Finset.sum_nonneg fun i _ => Finset.sum_nonneg fun j _ => sq_nonneg _)
  apply h
  ext i j
  have h1 := (Finset.sum_eq_zero_iff_of_nonneg (fun i _ => Finset.sum_nonneg fun j _ => sq_nonneg _)).mp hz i
    (Finset.mem_univ _)
  have h2 := (Finset.sum_eq_zero_iff_of_nonneg (fun j _ => sq_nonneg _)).mp h1 j (Finset.mem_univ _)
  exact pow_eq_zero_iff (by norm_num) |>.mp h2

theorem qrC_nonneg {c : Fin Q → Fin D → ℤ} {g : Fin Q → ℝ} (h : secondMomentTensor c g ≠ 0) {constant : ℝ}
    (hc : 0 ≤ constant) : ∃ p, qrC constant (secondMomentTensor c g) = some p ∧ 0 ≤ p := by
  have hq := trace_sq_pos h
  refine ⟨_, realDiv_ne (by positivity), ?_⟩
  apply div_nonneg (mul_nonneg hc _) (by positivity)
  split_ifs with h
  · exact h.le
  · exact le_rfl

/-- C28. For molecular rates in (0,2), nonnegative constants, positive density and non-zero stress, the QR rate in two
and three dimensions is defined and in (0, ω₀], and its viscosity is the molecular one plus the nonnegative eddy
viscosity. In three dimensions the eddy viscosity solves `ν_e = 3/2 ω c/ρ`, the relation between the stress and the
strain rate at the adapted rate. -/
theorem C28_qr (c : Fin Q → Fin D → ℤ) (f feq : Fin Q → ℝ) {rho omega constant : ℝ} (hD : D = 2 ∨ D = 3)
    (hr : 0 < rho) (h0 : 0 < omega) (h2 : omega < 2) (hc : 0 ≤ constant)
    (hPi : secondMomentTensor c (fun q => f q - feq q) ≠ 0) :
    ∃ ω e p nu0, qrOmega c f feq rho omega constant = .ok (some (ω, e)) ∧
      qrC constant (secondMomentTensor c fun q => f q - feq q) = some p ∧
      0 ≤ e ∧ 0 < ω ∧ ω ≤ omega ∧
      realViscosity omega = some nu0 ∧ realViscosity ω = some (nu0 + e) ∧
      (D = 2 → e = p) ∧ (D = 3 → e = 3 / 2 * ω * p / rho) := by
  obtain ⟨p, hp, hp0⟩ := qrC_nonneg hPi hc
  set nu0 := (2 - omega) / (6 * omega) with hnu
  have hn0 : 0 < nu0 := div_pos (by linarith) (by positivity)
  have hv : realViscosity omega = some nu0 := realViscosity_pos h0.ne'
  have hom : omega = 2 / (6 * nu0 + 1) := by rw [hnu]; field_simp; ring
  have fin : ∀ e, 0 ≤ e → 0 < 2 / (6 * (nu0 + e) + 1) ∧ 2 / (6 * (nu0 + e) + 1) ≤ omega ∧
      realViscosity (2 / (6 * (nu0 + e) + 1)) = some (nu0 + e) := by
    intro e he
    have hpos : 0 < 6 * (nu0 + e) + 1 := by positivity
    refine ⟨by positivity, ?_, ?_⟩
    · rw [hom]; exact div_le_div_of_nonneg_left (by norm_num) (by positivity) (by linarith)
    · rw [realViscosity_pos (by positivity)]
      congr 1; field_simp; ring
  rcases hD with rfl | rfl
  · obtain ⟨a1, a2, a3⟩ := fin p hp0
    refine ⟨_, p, p, nu0, ?_, hp, hp0, a1, a2, hv, a3, fun _ => rfl, by omega⟩
    have hR : realRate (nu0 + p) = some (2 / (6 * (nu0 + p) + 1)) := realRate_nonneg (by positivity)
    simp only [qrOmega, qrEddyViscosity, if_true, hv, hp, bind, Except.bind, Option.bind, Except.toOption, Option.join,
      id, hR]
  · set b := 6 * nu0 + 1 with hb
    have hb0 : 0 < b := by positivity
    have ha : 0 ≤ b ^ 2 + 72 * p / rho := by positivity
    set s := Real.sqrt (b ^ 2 + 72 * p / rho) with hs
    have hsq : s ^ 2 = b ^ 2 + 72 * p / rho := Real.sq_sqrt ha
    have hbs : b ≤ s := Real.le_sqrt_of_sq_le (by
      have : 0 ≤ 72 * p / rho := by positivity
      linarith)
    have he : 0 ≤ (-b + s) / 12 := div_nonneg (by linarith) (by norm_num)
    obtain ⟨a1, a2, a3⟩ := fin _ he
    refine ⟨_, (-b + s) / 12, p, nu0, ?_, hp, he, a1, a2, hv, a3, by omega, fun _ => ?_⟩
    · have hR : realRate (nu0 + (-b + s) / 12) = some (2 / (6 * (nu0 + (-b + s) / 12) + 1)) :=
        realRate_nonneg (by positivity)
      simp only [qrOmega, qrEddyViscosity, show ¬ (3 : ℕ) = 2 by norm_num, if_false, if_true, hv, hp, bind, Except.bind,
        Option.bind, Except.toOption, Option.join, id, realDiv_ne hr.ne', ← hb, pySqrt_nonneg ha, ← hs, hR]
    · have h1 : 6 * (nu0 + (-b + s) / 12) + 1 = (b + s) / 2 := by rw [hb]; ring
      have hbs' : 0 < b + s := by linarith
      rw [h1]
      have : s ^ 2 * rho = b ^ 2 * rho + 72 * p := by rw [hsq]; field_simp
      field_simp
      linear_combination this

/-- the hypotheses of `C28_qr` hold for D2Q9 with one population off its equilibrium -/
example : secondMomentTensor (fun q : Fin 9 => fun a : Fin 2 => ((Tables.D2Q9_uk.getD q []).getD a 0))
    (fun q => (if q = 1 then 3 else 1) - (1 : ℝ)) ≠ 0 := by
  intro h
  have := congrFun (congrFun h 0) 0
  simp [secondMomentTensor, Fin.sum_univ_succ, Tables.D2Q9_uk] at this
  norm_num at this

/-- C28. The non-equilibrium stress is `-a S` with the rate of strain `S` and a factor `a > 0`. In terms of the
invariants of `S` the QR model uses `max(-det S, 0)` over `tr(S²)/2`: no eddy viscosity where `det S ≥ 0`. -/
theorem C28_qr_invariants (constant a : ℝ) (ha : 0 < a) (S : Matrix (Fin D) (Fin D) ℝ) :
    qrC constant (-(a • S)) = realDiv (constant * (a ^ D * max (-S.det) 0)) (1 / 2 * a ^ 2 * (S * S).trace) := by
  have hd : (-(a • S)).det = (-1) ^ D * a ^ D * S.det := by
    rw [show -(a • S) = (-a) • S by simp, Matrix.det_smul, Fintype.card_fin, neg_pow a]
  have ht : (-(a • S) * -(a • S)).trace = a ^ 2 * (S * S).trace := by
    simp [Matrix.trace_smul, pow_two, mul_assoc]
  have hr : (-1 : ℝ) ^ (D + 1) * ((-1) ^ D * a ^ D * S.det) = a ^ D * -S.det := by
    have h1 : (-1 : ℝ) ^ D * (-1) ^ D = 1 := by rw [← mul_pow]; simp
    rw [pow_succ]; linear_combination -(a ^ D * S.det) * h1
  unfold qrC
  simp only [hd, ht, hr]
  have hp : 0 < a ^ D := by positivity
  congr 1
  · congr 1
    by_cases h : a ^ D * -S.det > 0
    · rw [if_pos h, max_eq_left]; exact (le_of_lt (pos_of_mul_pos_right h hp.le))
    · rw [if_neg h, max_eq_right, mul_zero]
      by_contra hn
      exact h (mul_pos hp (not_le.1 hn))
  · ring

/-- two axisymmetric strain rates; only the second, with a negative determinant, has a non-zero eddy viscosity -/
example : (!![-1, 0, 0; 0, -1, 0; 0, 0, 2] : Matrix (Fin 3) (Fin 3) ℝ).det = 2 ∧
    (!![1, 0, 0; 0, 1, 0; 0, 0, -2] : Matrix (Fin 3) (Fin 3) ℝ).det = -2 := by
  constructor <;> simp [Matrix.det_fin_three]

/-- C28, disagreement: at zero non-equilibrium stress (a fluid initialised with its equilibrium) the QR rate is not a
number in any dimension it supports. -/
theorem C28_qr_undefined_at_equilibrium (c : Fin Q → Fin D → ℤ) (f : Fin Q → ℝ) (rho omega constant : ℝ)
    (hD : D = 2 ∨ D = 3) : qrOmega c f f rho omega constant = .ok none := by
  have hz : secondMomentTensor c (fun q => f q - f q) = 0 := by
    ext i j; simp [secondMomentTensor]
  have hq : qrC constant (secondMomentTensor c (fun q => f q - f q)) = none := by
    rw [hz]; unfold qrC; simp only [mul_zero, Matrix.trace_zero]; exact realDiv_zero
  rcases hD with rfl | rfl <;> simp only [qrOmega, qrEddyViscosity, hq, bind, Except.bind, if_true,
    show ¬ (3 : ℕ) = 2 by norm_num, if_false] <;> cases realViscosity omega <;> rfl

/-- C28. Other dimensions are rejected. -/
theorem C28_qr_dimension (c : Fin Q → Fin D → ℤ) (f feq : Fin Q → ℝ) (rho omega constant : ℝ)
    (hD : D ≠ 2) (hD' : D ≠ 3) : qrOmega c f feq rho omega constant = .error .valueError := by
  simp [qrOmega, qrEddyViscosity, hD, hD', bind, Except.bind]

/-! ### Casson -/

/-- C28, partial. When the Casson rate is a number it is in the clipping interval. The full claim, without "when it is a
number", is false: `C28_casson_undefined`. -/
theorem C28_casson_clipped_partial (p : CassonsParameters) (hp : p.omegaMin ≤ p.omegaMax) {omega rho sigma ω : ℝ}
    (h : cassonOmega p omega rho sigma = some ω) : p.omegaMin ≤ ω ∧ ω ≤ p.omegaMax := by
  unfold cassonOmega at h
  simp only [Option.bind_eq_bind, Option.bind_eq_some_iff, Option.some.injEq] at h
  obtain ⟨_, -, _, -, _, -, new, -, rfl⟩ := h
  unfold cassonClip
  split_ifs with h1 h2
  · exact ⟨le_rfl, hp⟩
  · exact ⟨hp, le_rfl⟩
  · exact ⟨not_lt.mp h1, not_lt.mp h2⟩

/-- C28. For stress above the yield stress (`0 ≤ yield < σ`) the Casson rate is defined; the viscosity is at least the
molecular one, so that the rate never exceeds the molecular rate unless the lower limit forces it to. -/
theorem C28_casson_above_yield (p : CassonsParameters) {omega rho sigma : ℝ}
    (h0 : 0 < omega) (h2 : omega < 2) (hr : 0 < rho) (hy : 0 ≤ p.yieldStress) (hs : p.yieldStress < sigma) :
    ∃ ω mu nu0, cassonOmega p omega rho sigma = some ω ∧ cassonMu p omega rho sigma = some mu ∧
      realViscosity omega = some nu0 ∧ nu0 ≤ mu ∧ ω = cassonClip p (2 / (6 * mu + 1)) ∧ ω ≤ max p.omegaMin omega := by
  have hs0 : 0 < sigma := lt_of_le_of_lt hy hs
  set nu0 := (2 - omega) / (6 * omega) with hnu
  have hn0 : 0 < nu0 := div_pos (by linarith) (by positivity)
  have hv : realViscosity omega = some nu0 := realViscosity_pos h0.ne'
  have hom : omega = 2 / (6 * nu0 + 1) := by rw [hnu]; field_simp; ring
  set th := p.yieldStress / sigma with hth
  have t0 : 0 ≤ th := div_nonneg hy hs0.le
  have t1 : th < 1 := (div_lt_one hs0).mpr hs
  have h1 : 0 < 1 - th := by linarith
  have ha : 0 ≤ th * (1 + rho / nu0 * (1 / 6) * (1 - th)) := by positivity
  set s := Real.sqrt (th * (1 + rho / nu0 * (1 / 6) * (1 - th))) with hsd
  have hs' : 0 ≤ s := Real.sqrt_nonneg _
  have hrhs : cassonRhs th rho nu0 = some (1 / (1 - th) * (1 + s)) := by
    simp only [cassonRhs, realDiv_ne h1.ne', realDiv_ne hn0.ne', Option.bind_eq_bind, Option.bind_some, pySqrt_nonneg ha,
      ← hsd]
  have hge : 1 ≤ 1 / (1 - th) * (1 + s) := by
    rw [div_mul_eq_mul_div, one_mul, le_div_iff₀ h1]; linarith
  set mu := nu0 * (1 / (1 - th) * (1 + s)) ^ 2 with hmu
  have hmu1 : nu0 ≤ mu := by
    have : 1 ≤ (1 / (1 - th) * (1 + s)) ^ 2 := one_le_pow₀ hge
    nlinarith
  have hcm : cassonMu p omega rho sigma = some mu := by
    simp only [cassonMu, hv, realDiv_ne hs0.ne', Option.bind_eq_bind, Option.bind_some, ← hth, hrhs, ← hmu]
  have hmp : 0 ≤ mu := hn0.le.trans hmu1
  have hpos : 0 < 6 * mu + 1 := by positivity
  have hr1 : (2 / (6 * mu + 1)) ≠ 0 := by positivity
  have hr2 : 1 / (2 / (6 * mu + 1)) ≠ 0 := by positivity
  refine ⟨cassonClip p (2 / (6 * mu + 1)), mu, nu0, ?_, hcm, hv, hmu1, rfl, ?_⟩
  · simp only [cassonOmega, hcm, realRate_nonneg hmp, Option.bind_eq_bind, Option.bind_some, realDiv_ne hr1,
      realDiv_ne hr2, one_div_one_div]
  · have hle : 2 / (6 * mu + 1) ≤ omega := by
      rw [hom]; exact div_le_div_of_nonneg_left (by norm_num) (by positivity) (by linarith)
    unfold cassonClip
    split_ifs with h3 h4
    · exact le_max_left _ _
    · exact le_max_of_le_right (by linarith)
    · exact le_max_of_le_right hle

/-- C28. Without yield stress the fluid is Newtonian: the Casson rate is the clipped molecular rate. -/
theorem C28_casson_newtonian (p : CassonsParameters) (hy : p.yieldStress = 0) {omega rho sigma : ℝ}
    (h0 : 0 < omega) (h2 : omega < 2) (hs : sigma ≠ 0) :
    cassonOmega p omega rho sigma = some (cassonClip p omega) := by
  have hv : realViscosity omega = some ((2 - omega) / (6 * omega)) := realViscosity_pos h0.ne'
  have hn0 : 0 < (2 - omega) / (6 * omega) := div_pos (by linarith) (by positivity)
  have hcm : cassonMu p omega rho sigma = some ((2 - omega) / (6 * omega)) := by
    simp only [cassonMu, cassonRhs, hv, hy, realDiv_ne hs, Option.bind_eq_bind, Option.bind_some, zero_div, sub_zero,
      realDiv_ne one_ne_zero, realDiv_ne hn0.ne', zero_mul, pySqrt_nonneg le_rfl, Real.sqrt_zero]
    norm_num
  have e : 2 / (6 * ((2 - omega) / (6 * omega)) + 1) = omega := by field_simp; ring
  simp only [cassonOmega, hcm, realRate_nonneg hn0.le, Option.bind_eq_bind, Option.bind_some, e, realDiv_ne h0.ne',
    realDiv_ne (one_div_ne_zero h0.ne'), one_div_one_div]

example : ∃ ω, cassonOmega { yieldStress := 1 } (3 / 2) 1 2 = some ω ∧ 0.2 ≤ ω ∧ ω ≤ 3 / 2 := by
  obtain ⟨ω, _, _, h, -, -, -, -, h5⟩ := C28_casson_above_yield { yieldStress := 1 } (omega := 3 / 2)
    (rho := 1) (sigma := 2) (by norm_num) (by norm_num) (by norm_num) (by norm_num) (by norm_num)
  refine ⟨ω, h, (C28_casson_clipped_partial _ (by norm_num) h).1, h5.trans (max_le (by norm_num) le_rfl)⟩

/-- C28, disagreement with "the Casson rate stays in the clipping interval": far enough below the yield stress
(`θ > 1 + 6η/ρ`), where the lower limit should act, the argument of the square root is negative and the rate is not a
number. The same happens without any stress. -/
theorem C28_casson_undefined (p : CassonsParameters) {omega rho sigma nu0 : ℝ} (hv : realViscosity omega = some nu0)
    (hn : 0 < nu0) (hr : 0 < rho) (hs : 0 < sigma) (hth : 1 + 6 * nu0 / rho < p.yieldStress / sigma) :
    cassonOmega p omega rho sigma = none ∧ cassonOmega p omega rho 0 = none := by
  constructor
  · set th := p.yieldStress / sigma with ht
    have t1 : 1 < th := by
      have : 0 < 6 * nu0 / rho := by positivity
      linarith
    have hneg : th * (1 + rho / nu0 * (1 / 6) * (1 - th)) < 0 := by
      apply mul_neg_of_pos_of_neg (by linarith)
      have h6 : 6 * nu0 / rho < th - 1 := by linarith
      have h7 : rho / nu0 * (1 / 6) * (6 * nu0 / rho) = 1 := by field_simp
      have h8 : rho / nu0 * (1 / 6) * (6 * nu0 / rho) < rho / nu0 * (1 / 6) * (th - 1) :=
        mul_lt_mul_of_pos_left h6 (by positivity)
      linarith
    have hcm : cassonMu p omega rho sigma = none := by
      simp only [cassonMu, cassonRhs, hv, realDiv_ne hs.ne', Option.bind_eq_bind, Option.bind_some, ← ht,
        realDiv_ne (show 1 - th ≠ 0 by linarith), realDiv_ne hn.ne', pySqrt_neg hneg, Option.bind_none]
    simp [cassonOmega, hcm]
  · have hcm : cassonMu p omega rho 0 = none := by
      simp only [cassonMu, hv, realDiv_zero, Option.bind_eq_bind, Option.bind_some, Option.bind_none]
    simp [cassonOmega, hcm]

/-- the molecular rate 3/2 (viscosity 1/18), density 1 and a stress of half the yield stress are such a case -/
example : cassonOmega { yieldStress := 1 } (3 / 2) 1 (1 / 2) = none :=
  (C28_casson_undefined _ (nu0 := 1 / 18) (by rw [realViscosity_pos (by norm_num)]; norm_num) (by norm_num)
    (by norm_num) (by norm_num) (by norm_num)).1

/-! ### locating the rate -/

/-- C28. When the shear rate is a Python number and a symbol is found for it, then in every environment satisfying the
assignments (an assignment of a number or of another symbol) the symbol has the value of the rate; a rate that no
assignment contains is reported as not found. -/
theorem C28_extract (assignments : List (String × RateExpr)) (v : ℚ) (env : String → ℚ)
    (henv : ∀ eq ∈ assignments, ∀ x, eq.2 = .number x → env eq.1 = x)
    (henv' : ∀ eq ∈ assignments, ∀ s, eq.2 = .symbol s → env eq.1 = env s) :
    (∀ r, extractShearRate assignments (.number v) = (r, true) → ∃ s, r = .symbol s ∧ env s = v) ∧
    ((extractShearRate assignments (.number v)).2 = false ↔ ∀ eq ∈ assignments, eq.2 ≠ .number v) := by
  have key : ∀ (l : List (String × RateExpr)) (st : RateExpr × Bool),
      (∀ eq ∈ l, ∀ x, eq.2 = .number x → env eq.1 = x) → (∀ eq ∈ l, ∀ s, eq.2 = .symbol s → env eq.1 = env s) →
      (st = (.number v, false) ∨ ∃ s, st = (.symbol s, true) ∧ env s = v) →
      let r := l.foldl (fun st eq => if eq.2 = st.1 then (RateExpr.symbol eq.1, true) else st) st
      (r = (.number v, false) ∧ st = (.number v, false) ∧ ∀ eq ∈ l, eq.2 ≠ .number v) ∨
      (∃ s, r = (.symbol s, true) ∧ env s = v) ∧ (st.2 = true ∨ ∃ eq ∈ l, eq.2 = .number v) := by
    intro l
    induction l with
    | nil =>
      rintro st - - (rfl | ⟨s, rfl, hs⟩)
      · exact Or.inl ⟨rfl, rfl, by simp⟩
      · exact Or.inr ⟨⟨s, rfl, hs⟩, Or.inl rfl⟩
    | cons a l ih =>
      intro st h1 h2 hst
      simp only [List.foldl_cons]
      have h1' : ∀ eq ∈ l, ∀ x, eq.2 = .number x → env eq.1 = x := fun e he => h1 e (by simp [he])
      have h2' : ∀ eq ∈ l, ∀ s, eq.2 = .symbol s → env eq.1 = env s := fun e he => h2 e (by simp [he])
      by_cases ha : a.2 = st.1
      · rw [if_pos ha]
        have hval : env a.1 = v := by
          rcases hst with rfl | ⟨s, rfl, hs⟩
          · exact h1 a (by simp) v ha
          · rw [h2 a (by simp) s ha, hs]
        rcases ih (.symbol a.1, true) h1' h2' (Or.inr ⟨_, rfl, hval⟩) with ⟨_, h, _⟩ | ⟨h, _⟩
        · simp at h
        · refine Or.inr ⟨h, ?_⟩
          rcases hst with rfl | ⟨s, rfl, -⟩
          · exact Or.inr ⟨a, by simp, ha⟩
          · exact Or.inl rfl
      · rw [if_neg ha]
        rcases ih st h1' h2' hst with ⟨h, h', h''⟩ | ⟨h, h'⟩
        · refine Or.inl ⟨h, h', ?_⟩
          intro e he
          rcases List.mem_cons.mp he with rfl | he
          · rw [h'] at ha; exact ha
          · exact h'' e he
        · refine Or.inr ⟨h, h'.imp_right ?_⟩
          rintro ⟨e, he, h⟩; exact ⟨e, by simp [he], h⟩
  have := key assignments (.number v, false) henv henv' (Or.inl rfl)
  simp only [extractShearRate]
  rcases this with ⟨h, -, h'⟩ | ⟨⟨s, h, hs⟩, h'⟩
  · rw [h]; exact ⟨by simp, by simpa using h'⟩
  · rw [h]
    refine ⟨by rintro r hr; exact ⟨s, by simpa using hr.symm, hs⟩, ?_⟩
    simp only [Bool.false_eq_true, false_or] at h'
    constructor
    · simp
    · obtain ⟨e, he, h⟩ := h'
      intro hn; exact absurd h (hn e he)

example : extractShearRate [("rho", .other 0), ("omega_0", .number (3/2)), ("omega_1", .symbol "omega_0")]
    (.number (3/2)) = (.symbol "omega_1", true) ∧
    extractShearRate [("rho", .other 0)] (.number (3/2)) = (.number (3/2), false) := by decide +kernel

/-- C28, disagreement with the documentation ("otherwise the shear relaxation rate has to be a sympy symbol"): any
expression that is not a Python number is accepted, whether it occurs in the rule or not. -/
theorem C28_extract_accepts_any (assignments : List (String × RateExpr)) (k : ℕ) :
    extractShearRate assignments (.other k) = (.other k, true) := rfl

end Lbm
