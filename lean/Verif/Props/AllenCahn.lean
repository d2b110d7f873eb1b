import Verif.AllenCahn
import Mathlib.Analysis.SpecialFunctions.Trigonometric.DerivHyp
import Mathlib.Analysis.SpecialFunctions.Exp
import Mathlib.MeasureTheory.Integral.IntegralEqImproper
import Mathlib.Tactic.Linarith
import Mathlib.Tactic.FieldSimp
import Mathlib.Tactic.Ring
import Mathlib.Tactic.NormNum

/-!
# Properties C60, C61: the conservative Allen–Cahn model and its contact angle boundary
-/

namespace Lbm
namespace AllenCahn

open scoped BigOperators
open MeasureTheory Filter Topology

/-! ## The planar interface (specification) -/

/-- The equilibrium profile of the conservative Allen–Cahn equation across a planar interface of width `W`. -/
noncomputable def profile (W x : ℝ) : ℝ := (1 + Real.tanh (2 * x / W)) / 2

/-- The bulk free energy density of the double well. -/
def bulkEnergy (b phi : ℝ) : ℝ := b * phi ^ 2 * (1 - phi) ^ 2

theorem hasDerivAt_tanh (y : ℝ) : HasDerivAt Real.tanh (1 - Real.tanh y ^ 2) y := by
  have hc : Real.cosh y ≠ 0 := (Real.cosh_pos y).ne'
  have h := (Real.hasDerivAt_sinh y).div (Real.hasDerivAt_cosh y) hc
  have hfun : (Real.sinh / Real.cosh) = Real.tanh := by
    funext z
    simp [Real.tanh_eq_sinh_div_cosh]
  rw [hfun] at h
  refine h.congr_deriv ?_
  rw [Real.tanh_eq_sinh_div_cosh]
  field_simp

theorem hasDerivAt_profile {W : ℝ} (hW : W ≠ 0) (x : ℝ) :
    HasDerivAt (profile W) ((1 - 4 * (profile W x - 1 / 2) ^ 2) / W) x := by
  have h1 : HasDerivAt (fun x : ℝ => 2 * x / W) (2 / W) x := by
    have := ((hasDerivAt_id x).const_mul 2).div_const W
    simpa using this
  have h2 := (hasDerivAt_tanh (2 * x / W)).comp x h1
  have h3 := (h2.const_add 1).div_const 2
  refine h3.congr_deriv ?_
  unfold profile
  field_simp
  ring

theorem deriv_profile {W : ℝ} (hW : W ≠ 0) :
    deriv (profile W) = fun x => (1 - 4 * (profile W x - 1 / 2) ^ 2) / W :=
  funext fun x => (hasDerivAt_profile hW x).deriv

theorem hasDerivAt_deriv_profile {W : ℝ} (hW : W ≠ 0) (x : ℝ) :
    HasDerivAt (deriv (profile W))
      (-(8 * (profile W x - 1 / 2) * ((1 - 4 * (profile W x - 1 / 2) ^ 2) / W)) / W) x := by
  rw [deriv_profile hW]
  have h := ((((hasDerivAt_profile hW x).sub_const (1 / 2)).pow 2).const_mul 4).const_sub 1 |>.div_const W
  refine h.congr_deriv ?_
  simp
  ring

theorem profile_eq (W x : ℝ) : profile W x = 1 / (1 + Real.exp (-(4 * x / W))) := by
  unfold profile
  rw [Real.tanh_eq_sinh_div_cosh, Real.sinh_eq, Real.cosh_eq]
  have h1 : Real.exp (-(4 * x / W)) = Real.exp (-(2 * x / W)) / Real.exp (2 * x / W) := by
    rw [← Real.exp_sub]; congr 1; ring
  rw [h1]
  have p1 := Real.exp_pos (2 * x / W)
  have p2 := Real.exp_pos (-(2 * x / W))
  have : Real.exp (2 * x / W) + Real.exp (-(2 * x / W)) ≠ 0 := by positivity
  field_simp
  ring

theorem profile_pos (W x : ℝ) : 0 < profile W x := by
  rw [profile_eq]; positivity

theorem profile_lt_one (W x : ℝ) : profile W x < 1 := by
  rw [profile_eq, div_lt_one (by positivity)]
  linarith [Real.exp_pos (-(4 * x / W))]

theorem deriv_profile_pos {W : ℝ} (hW : 0 < W) (x : ℝ) : 0 < deriv (profile W) x := by
  rw [deriv_profile hW.ne']
  have h0 := profile_pos W x
  have h1 := profile_lt_one W x
  apply div_pos _ hW
  nlinarith [mul_pos h0 (sub_pos.2 h1)]

theorem tendsto_profile_top {W : ℝ} (hW : 0 < W) : Tendsto (profile W) atTop (𝓝 1) := by
  have h1 : Tendsto (fun x : ℝ => 4 * x / W) atTop atTop :=
    (tendsto_id.const_mul_atTop (show (0:ℝ) < 4 by norm_num)).atTop_div_const hW
  have h2 : Tendsto (fun x : ℝ => Real.exp (-(4 * x / W))) atTop (𝓝 0) :=
    Real.tendsto_exp_neg_atTop_nhds_zero.comp h1
  have h3 : Tendsto (fun x : ℝ => 1 / (1 + Real.exp (-(4 * x / W)))) atTop (𝓝 (1 / (1 + 0))) :=
    (tendsto_const_nhds).div (tendsto_const_nhds.add h2) (by norm_num)
  simpa [profile_eq, funext_iff] using h3.congr fun x => (profile_eq W x).symm

theorem profile_neg (W x : ℝ) : profile W (-x) = 1 - profile W x := by
  unfold profile
  rw [show 2 * -x / W = -(2 * x / W) by ring, Real.tanh_neg]
  ring

theorem tendsto_profile_bot {W : ℝ} (hW : 0 < W) : Tendsto (profile W) atBot (𝓝 0) := by
  have h := (tendsto_profile_top hW).comp tendsto_neg_atBot_atTop
  have h2 : Tendsto (fun x => 1 - profile W (-x)) atBot (𝓝 (1 - 1)) := tendsto_const_nhds.sub h
  simp only [sub_self] at h2
  refine h2.congr fun x => ?_
  rw [profile_neg]
  ring

/-- A nonnegative derivative of a function with limits on both sides is integrable, and its integral is the jump. -/
theorem integral_jump (g g' : ℝ → ℝ) (a b : ℝ) (hd : ∀ x, HasDerivAt g (g' x) x) (hpos : ∀ x, 0 ≤ g' x)
    (hb : Tendsto g atBot (𝓝 a)) (ht : Tendsto g atTop (𝓝 b)) : Integrable g' ∧ ∫ x, g' x = b - a := by
  have hI1 : IntegrableOn g' (Set.Ioi 0) :=
    integrableOn_Ioi_deriv_of_nonneg' (fun x _ => hd x) (fun x _ => hpos x) ht
  have hI2' : IntegrableOn (fun x => g' (-x)) (Set.Ioi 0) := by
    refine integrableOn_Ioi_deriv_of_nonneg' (g := fun x => -g (-x)) (l := -a) (fun x _ => ?_)
      (fun x _ => hpos _) ((hb.comp tendsto_neg_atTop_atBot).neg)
    have h := ((hd (-x)).comp x (hasDerivAt_neg x)).neg
    exact h.congr_deriv (by ring)
  have hI2 : IntegrableOn g' (Set.Iic 0) := by
    have h := (integrableOn_Ici_iff_integrableOn_Ioi (μ := volume)).2 hI2'
    have h3 := h.comp_neg
    simpa using h3
  have hI : Integrable g' := by
    rw [← integrableOn_univ, ← Set.Iic_union_Ioi (a := (0:ℝ))]
    exact hI2.union hI1
  exact ⟨hI, integral_of_hasDerivAt_of_tendsto hd hI hb ht⟩

theorem integral_deriv_sq {W : ℝ} (hW : 0 < W) :
    Integrable (fun x => deriv (profile W) x ^ 2) ∧ ∫ x, deriv (profile W) x ^ 2 = 2 / (3 * W) := by
  set G : ℝ → ℝ := fun p => (2 * p ^ 2 - 4 / 3 * p ^ 3) / W with hG
  have hGd : ∀ p, HasDerivAt G ((1 - 4 * (p - 1 / 2) ^ 2) / W) p := by
    intro p
    have h := ((((hasDerivAt_id p).pow 2).const_mul 2).sub (((hasDerivAt_id p).pow 3).const_mul (4 / 3))).div_const W
    refine h.congr_deriv ?_
    simp
    ring
  have hcont : Continuous G := by
    rw [hG]; fun_prop
  have h := integral_jump (fun x => G (profile W x)) (fun x => deriv (profile W) x ^ 2) (G 0) (G 1)
    (fun x => by
      have h := (hGd (profile W x)).comp x (hasDerivAt_profile hW.ne' x)
      refine h.congr_deriv ?_
      rw [deriv_profile hW.ne']
      ring)
    (fun x => sq_nonneg _)
    ((hcont.tendsto 0).comp (tendsto_profile_bot hW)) ((hcont.tendsto 1).comp (tendsto_profile_top hW))
  refine ⟨h.1, ?_⟩
  rw [h.2, hG]
  field_simp
  ring

/-- **C60.**  The equilibrium profile across a planar interface has zero chemical potential everywhere, for every
surface tension and interface width; far away it is one of the two bulk phases, whose chemical potential is zero. -/
theorem C60_planar_chemical_potential (sigma : ℝ) {W : ℝ} (hW : 0 < W) :
    (∀ x, chemicalPotential (beta sigma W) (kappa sigma W) (profile W x) (deriv (deriv (profile W)) x) = 0)
      ∧ Tendsto (profile W) atTop (𝓝 1) ∧ Tendsto (profile W) atBot (𝓝 0)
      ∧ chemicalPotential (beta sigma W) (kappa sigma W) 0 0 = 0
      ∧ chemicalPotential (beta sigma W) (kappa sigma W) 1 0 = 0 := by
  refine ⟨fun x => ?_, tendsto_profile_top hW, tendsto_profile_bot hW, ?_, ?_⟩
  · rw [(hasDerivAt_deriv_profile hW.ne' x).deriv]
    unfold chemicalPotential beta kappa
    have := hW.ne'
    field_simp
    ring
  · simp [chemicalPotential]
  · simp [chemicalPotential]

example : profile 5 0 = 1 / 2 ∧ chemicalPotential (beta 1 5) (kappa 1 5) (1 / 4) 0 ≠ 0 := by
  norm_num [profile, chemicalPotential, beta, kappa]

/-- **C60.**  The chemical potential is the derivative of the double well energy, minus `kappa` times the Laplacian;
both bulk phases are its minima. -/
theorem C60_chemical_potential_energy (b k phi lap : ℝ) :
    HasDerivAt (bulkEnergy b) (chemicalPotential b k phi lap + k * lap) phi
      ∧ (0 ≤ b → bulkEnergy b 0 = 0 ∧ bulkEnergy b 1 = 0 ∧ 0 ≤ bulkEnergy b phi) := by
  constructor
  · have h := (((hasDerivAt_id phi).pow 2).const_mul b).mul (((hasDerivAt_id phi).const_sub 1).pow 2)
    refine h.congr_deriv ?_
    simp [chemicalPotential]
    ring
  · intro hb
    refine ⟨by simp [bulkEnergy], by simp [bulkEnergy], ?_⟩
    unfold bulkEnergy
    positivity

example : bulkEnergy 12 (1 / 2) = 3 / 4 := by norm_num [bulkEnergy]

/-- **C60.**  The parameter called surface tension is the surface tension: the free energy of the planar interface
per area, which is also the integral of `kappa` times the squared gradient. -/
theorem C60_surface_tension (sigma : ℝ) {W : ℝ} (hW : 0 < W) :
    (∫ x, (bulkEnergy (beta sigma W) (profile W x) + kappa sigma W / 2 * deriv (profile W) x ^ 2)) = sigma
      ∧ (∫ x, kappa sigma W * deriv (profile W) x ^ 2) = sigma := by
  have key : (∫ x, kappa sigma W * deriv (profile W) x ^ 2) = sigma := by
    rw [integral_const_mul, (integral_deriv_sq hW).2, kappa]
    have := hW.ne'
    field_simp
  refine ⟨Eq.trans ?_ key, key⟩
  congr 1
  funext x
  rw [deriv_profile hW.ne']
  unfold bulkEnergy beta kappa
  have := hW.ne'
  field_simp
  ring

example : kappa 2 5 = 15 ∧ (∫ x, kappa 2 5 * deriv (profile 5) x ^ 2) = 2 :=
  ⟨by norm_num [kappa], (C60_surface_tension 2 (by norm_num)).2⟩

/-! ## Interface tracking -/

theorem normalizedGradient_sq {D : ℕ} (g : Fin D → ℝ) : ∑ i, normalizedGradient g i ^ 2 ≤ 1 := by
  have hs : 0 ≤ ∑ j, g j * g j := Finset.sum_nonneg fun j _ => mul_self_nonneg _
  have hp : 0 < (∑ j, g j * g j) + 1 / 10 ^ 32 := by positivity
  have : ∑ i, normalizedGradient g i ^ 2 = (∑ j, g j * g j) / ((∑ j, g j * g j) + 1 / 10 ^ 32) := by
    rw [Finset.sum_div]
    refine Finset.sum_congr rfl fun i _ => ?_
    unfold normalizedGradient
    rw [div_pow, Real.sq_sqrt hp.le, sq]
  rw [this, div_le_one hp]
  have : (0:ℝ) ≤ 1 / 10 ^ 32 := by positivity
  linarith

/-- **C60.**  On the planar interface with unit normal `n` the interface tracking force is one third of the gradient,
up to `1e-16/3`: the sharpening force balances diffusion, so the profile with the width of the parameters is
stationary. -/
theorem C60_tracking_balance {D : ℕ} (e : Env) (hW : 0 < e.W) (n : Fin D → ℝ) (hn : ∑ i, n i * n i = 1) (x : ℝ)
    (i : Fin D) :
    |interfaceTrackingForce e (profile e.W x) (fun i => deriv (profile e.W) x * n i) 1 0 i
        - 1 / 3 * (deriv (profile e.W) x * n i)| ≤ 1 / 3 * (1 / 10 ^ 16) := by
  set g := deriv (profile e.W) x with hg
  have hgp : 0 < g := deriv_profile_pos hW x
  have hsum : (∑ j, g * n j * (g * n j)) = g ^ 2 := by
    have : ∀ j, g * n j * (g * n j) = g ^ 2 * (n j * n j) := fun j => by ring
    simp only [this, ← Finset.mul_sum, hn, mul_one]
  have hfrac : (1 - 4 * (profile e.W x - 1 / 2 * (0 + 1)) ^ 2) / e.W = g := by
    rw [hg, deriv_profile hW.ne']
    norm_num
  have hni : |n i| ≤ 1 := by
    rw [abs_le_one_iff_mul_self_le_one, ← hn]
    exact Finset.single_le_sum (f := fun i => n i * n i) (fun j _ => mul_self_nonneg _) (Finset.mem_univ i)
  unfold interfaceTrackingForce normalizedGradient
  rw [hfrac, hsum]
  set s := Real.sqrt (g ^ 2 + 1 / 10 ^ 32) with hs
  have hsg : g ≤ s := by
    rw [hs]; exact Real.le_sqrt_of_sq_le (by linarith [show (0:ℝ) ≤ 1 / 10 ^ 32 by positivity])
  have hsp : 0 < s := hgp.trans_le hsg
  have hsu : s ≤ g + 1 / 10 ^ 16 := by
    rw [hs]
    apply Real.sqrt_le_iff.2
    refine ⟨by positivity, ?_⟩
    have : (0:ℝ) ≤ 2 * g * (1 / 10 ^ 16) := by positivity
    nlinarith
  have hrw : 1 / 3 * g * (g * n i / s) - 1 / 3 * (g * n i) = -(1 / 3 * (g / s * (s - g)) * n i) := by
    field_simp
    ring
  rw [hrw, abs_neg, abs_mul]
  have hq : g / s ≤ 1 := (div_le_one hsp).2 hsg
  have hq0 : 0 ≤ g / s := by positivity
  have h1 : |1 / 3 * (g / s * (s - g))| ≤ 1 / 3 * (1 / 10 ^ 16) := by
    rw [abs_of_nonneg (by have := sub_nonneg.2 hsg; positivity)]
    have : g / s * (s - g) ≤ 1 * (1 / 10 ^ 16) :=
      mul_le_mul hq (by linarith) (sub_nonneg.2 hsg) zero_le_one
    linarith
  calc _ ≤ 1 / 3 * (1 / 10 ^ 16) * 1 := mul_le_mul h1 hni (abs_nonneg _) (by positivity)
    _ = _ := by ring

example : (fun _ : Fin 1 => (1:ℝ)) 0 * (fun _ : Fin 1 => (1:ℝ)) 0 = 1 ∧ deriv (profile 5) 0 = 1 / 5 := by
  refine ⟨by norm_num, ?_⟩
  rw [deriv_profile (by norm_num)]
  norm_num [profile]

/-- **C60** (disagreement).  Bulk values other than 0 and 1 only move the middle of the interface.  With values 1 and -1
the force points against the gradient wherever the phase field is more than one half away from the middle: the interface
of these bulk values is not kept. -/
theorem C60_tracking_levels_partial {D : ℕ} (e : Env) (hW : 0 < e.W) (phi : ℝ) (h1 : 1 / 2 < |phi|) (g : Fin D → ℝ)
    (i : Fin D) (hg : 0 < g i) : interfaceTrackingForce e phi g (phiHeavy := 1) (phiLight := -1) i < 0 := by
  have hs : 0 ≤ ∑ j, g j * g j := Finset.sum_nonneg fun j _ => mul_self_nonneg _
  have hp : 0 < (∑ j, g j * g j) + 1 / 10 ^ 32 := by positivity
  have hsq : 1 / 4 < phi ^ 2 := by
    rw [← sq_abs]; nlinarith
  unfold interfaceTrackingForce normalizedGradient
  have hn : 0 < g i / Real.sqrt ((∑ j, g j * g j) + 1 / 10 ^ 32) := div_pos hg (Real.sqrt_pos.2 hp)
  apply mul_neg_of_neg_of_pos _ hn
  have : (1 - 4 * (phi - 1 / 2 * (-1 + 1)) ^ 2) / e.W < 0 := by
    apply div_neg_of_neg_of_pos _ hW
    norm_num
    linarith
  linarith

example : (1 / 2 : ℝ) < |(9 / 10 : ℝ)| := by norm_num [abs_of_pos]

/-- **C60.**  The normal used by the interface tracking force is never longer than one, and misses length one by at
most `1e-12` where the gradient is at least `1e-10`. -/
theorem C60_normal {D : ℕ} (g : Fin D → ℝ) :
    (∑ i, normalizedGradient g i ^ 2 ≤ 1)
      ∧ ((1:ℝ) / 10 ^ 20 ≤ ∑ i, g i * g i → 1 - 1 / 10 ^ 12 ≤ ∑ i, normalizedGradient g i ^ 2) := by
  refine ⟨normalizedGradient_sq g, fun h => ?_⟩
  have hs : 0 ≤ ∑ j, g j * g j := Finset.sum_nonneg fun j _ => mul_self_nonneg _
  have hp : 0 < (∑ j, g j * g j) + 1 / 10 ^ 32 := by positivity
  have : ∑ i, normalizedGradient g i ^ 2 = (∑ j, g j * g j) / ((∑ j, g j * g j) + 1 / 10 ^ 32) := by
    rw [Finset.sum_div]
    refine Finset.sum_congr rfl fun i _ => ?_
    unfold normalizedGradient
    rw [div_pow, Real.sq_sqrt hp.le, sq]
  rw [this, le_div_iff₀ hp]
  nlinarith

example : (1:ℝ) / 10 ^ 20 ≤ ∑ i : Fin 2, (![1 / 100, 0] : Fin 2 → ℝ) i * (![1 / 100, 0] : Fin 2 → ℝ) i := by
  norm_num [Fin.sum_univ_two]

/-! ## Bulk, equal densities, thermocapillarity -/

/-- **C60.**  In the bulk, where the gradient of the phase field vanishes, no force is left but the body force; the
interface tracking force is zero. -/
theorem C60_bulk {D Q : ℕ} (e : Env) (t : Option ThermoEnv) (T : Option (Temperature D)) (l : Local D)
    (hl : ∀ i, l.grad i = 0) (c : Fin Q → Vec D) (f feq : Fin Q → ℝ) (body F : Fin D → ℝ)
    (h : hydrodynamicForce e t T l c f feq body = .ok F) (phiH phiL : ℝ) :
    F = body ∧ ∀ i, interfaceTrackingForce e l.phi l.grad phiH phiL i = 0 := by
  refine ⟨?_, fun i => by simp [interfaceTrackingForce, normalizedGradient, hl]⟩
  unfold hydrodynamicForce at h
  cases T <;> cases t <;> simp [surfaceForce] at h <;> subst h <;> funext i <;>
    simp [surfaceTensionForce, thermocapillaryForce, pressureForce, viscousForce, hl]

example (e : Env) (c : Fin 9 → Vec 2) (f feq : Fin 9 → ℝ) (body : Fin 2 → ℝ) :
    ∃ F, hydrodynamicForce e none none ⟨1, 0, fun _ => 0, 1⟩ c f feq body = .ok F :=
  ⟨_, rfl⟩

/-- **C60.**  The temperature field needs thermocapillary parameters: without them the assertion fails, and nothing else
fails. -/
theorem C60_refused {D Q : ℕ} (e : Env) (t : Option ThermoEnv) (T : Option (Temperature D)) (l : Local D)
    (c : Fin Q → Vec D) (f feq : Fin Q → ℝ) (body : Fin D → ℝ) :
    (hydrodynamicForce e t T l c f feq body = .error .assertion ↔ T.isSome ∧ t = none)
      ∧ ((∃ F, hydrodynamicForce e t T l c f feq body = .ok F) ↔ ¬(T.isSome ∧ t = none)) := by
  cases T <;> cases t <;> simp [hydrodynamicForce, surfaceForce]

/-- **C60.**  With equal densities the surface tension and the body force are the whole force. -/
theorem C60_equal_densities {D Q : ℕ} (e : Env) (he : e.rhoH = e.rhoL) (l : Local D) (c : Fin Q → Vec D)
    (f feq : Fin Q → ℝ) (body : Fin D → ℝ) :
    hydrodynamicForce e none none l c f feq body = .ok fun i =>
      (4 * (12 * (e.sigma / e.W)) * l.phi * (l.phi - 1) * (l.phi - 1 / 2) - 3 / 2 * e.sigma * e.W * l.lap) * l.grad i
        + body i := by
  simp [hydrodynamicForce, surfaceForce, surfaceTensionForce, pressureForce, viscousForce, he, chemicalPotential, beta,
    kappa]

example : (⟨1, 1, 1, 1, 1, 0, 5, 1, 1⟩ : Env).rhoH = (⟨1, 1, 1, 1, 1, 0, 5, 1, 1⟩ : Env).rhoL := rfl

/-- **C60.**  What the non-equilibrium part of the populations adds to the force is their stress along the gradient of
the density, with minus the relaxation time interpolated between the two fluids. -/
theorem C60_viscous_interpolated {D Q : ℕ} (e : Env) (t : Option ThermoEnv) (T : Option (Temperature D)) (l : Local D)
    (c : Fin Q → Vec D) (f feq : Fin Q → ℝ) (body F F0 : Fin D → ℝ)
    (h : hydrodynamicForce e t T l c f feq body = .ok F) (h0 : hydrodynamicForce e t T l c feq feq body = .ok F0)
    (i : Fin D) :
    F i - F0 i = -((1 - l.phi) * e.tauL + l.phi * e.tauH)
      * ∑ j, (∑ q, (c q i : ℝ) * c q j * (f q - feq q)) * ((e.rhoH - e.rhoL) * l.grad j) := by
  unfold hydrodynamicForce at h h0
  have e1 : ∑ j, (∑ q, (c q i : ℝ) * c q j * (f q - feq q)) * ((e.rhoH - e.rhoL) * l.grad j)
      = (∑ j, stress c (fun q => f q - feq q) i j * l.grad j) * (e.rhoH - e.rhoL) := by
    rw [Finset.sum_mul]
    exact Finset.sum_congr rfl fun j _ => by unfold stress; ring
  have e2 : ∑ j, stress c (fun q => feq q - feq q) i j * l.grad j = 0 := by simp [stress]
  rw [e1]
  cases hs : surfaceForce e t T l with
  | error err => rw [hs] at h; cases h
  | ok fs =>
    rw [hs] at h h0
    obtain rfl := Except.ok.inj h
    obtain rfl := Except.ok.inj h0
    simp only [viscousForce, e2, tau]
    ring

example : ∃ F F0, hydrodynamicForce (D := 1) ⟨1, 1, 1, 1, 1, 0, 5, 1, 1⟩ none none ⟨1, 0, fun _ => 1, 0⟩
    (fun _ : Fin 1 => fun _ => 1) (fun _ => 2) (fun _ => 1) 0 = .ok F ∧
    hydrodynamicForce (D := 1) ⟨1, 1, 1, 1, 1, 0, 5, 1, 1⟩ none none ⟨1, 0, fun _ => 1, 0⟩
    (fun _ : Fin 1 => fun _ => 1) (fun _ => 1) (fun _ => 1) 0 = .ok F0 := ⟨_, _, rfl, rfl⟩

/-- **C60.**  Pressure and surface force act along the gradient of the interpolated density: the pressure force is
minus the pressure deviation times that gradient. -/
theorem C60_pressure {D : ℕ} (e : Env) (deltaRho : ℝ) (dphi : Fin D → ℝ) (i : Fin D) (phi : ℝ → ℝ) (x : ℝ)
    (h : HasDerivAt phi (dphi i) x) :
    HasDerivAt (fun y => density e (phi y)) ((e.rhoH - e.rhoL) * dphi i) x
      ∧ pressureForce e deltaRho dphi i = -(deltaRho / 3) * ((e.rhoH - e.rhoL) * dphi i) := by
  constructor
  · have := (h.mul_const (e.rhoH - e.rhoL)).const_add e.rhoL
    exact this.congr_deriv (by ring)
  · unfold pressureForce
    ring

/-- **C60.**  The thermocapillary part of the force is tangential to the interface, and a uniform temperature gives the
surface tension force for the surface tension at that temperature. -/
theorem C60_thermocapillary {D : ℕ} (e : Env) (t : ThermoEnv) (T : Temperature D) (phi lap : ℝ) (grad : Fin D → ℝ) :
    (∑ i, thermocapillaryForce e t T phi lap grad i * grad i
        = chemicalPotential (beta (sigmaAt t T.value) e.W) (kappa (sigmaAt t T.value) e.W) phi lap
          * ∑ i, grad i * grad i)
      ∧ ((∀ i, T.grad i = 0) → thermocapillaryForce e t T phi lap grad
          = surfaceTensionForce { e with sigma := t.sigmaRef + t.sigmaT * (T.value - t.tmpRef) } phi lap grad) := by
  constructor
  · simp only [thermocapillaryForce]
    set mu := chemicalPotential (beta (sigmaAt t T.value) e.W) (kappa (sigmaAt t T.value) e.W) phi lap
    set m := ∑ j, grad j * grad j with hm
    set d := ∑ j, T.grad j * grad j with hd
    have : ∀ i, (mu * grad i + 3 / 2 * e.W * t.sigmaT * (m * T.grad i - d * grad i)) * grad i
        = (mu - 3 / 2 * e.W * t.sigmaT * d) * (grad i * grad i) + 3 / 2 * e.W * t.sigmaT * m * (T.grad i * grad i) :=
      fun i => by ring
    simp only [this, Finset.sum_add_distrib, ← Finset.mul_sum, ← hm, ← hd]
    ring
  · intro h
    funext i
    simp [thermocapillaryForce, surfaceTensionForce, h, sigmaAt]

example : (thermocapillaryForce ⟨1, 1, 1, 1, 1, 0, 5, 1, 1⟩ ⟨1, 2, 0⟩ ⟨0, ![0, 1]⟩ (1 / 2) 0 ![1, 0] : Fin 2 → ℝ) 1
    = 15 := by
  norm_num [thermocapillaryForce, chemicalPotential, sigmaAt, beta, kappa, Fin.sum_univ_two]

/-- **C60.**  Summed across a planar interface with unit normal `n`, the force along a tangential direction `s` is the
Marangoni stress: the derivative of the surface tension by temperature, times the temperature gradient along `s`. -/
theorem C60_marangoni {D : ℕ} (e : Env) (hW : 0 < e.W) (t : ThermoEnv) (T : Temperature D) (n s : Fin D → ℝ)
    (hn : ∑ i, n i * n i = 1) (hs : ∑ i, n i * s i = 0) :
    (∫ x, ∑ i, s i * thermocapillaryForce e t T (profile e.W x) (deriv (deriv (profile e.W)) x)
        (fun i => deriv (profile e.W) x * n i) i) = t.sigmaT * ∑ i, T.grad i * s i := by
  have key : ∀ x, ∑ i, s i * thermocapillaryForce e t T (profile e.W x) (deriv (deriv (profile e.W)) x)
      (fun i => deriv (profile e.W) x * n i) i
      = (3 / 2 * e.W * t.sigmaT * ∑ i, T.grad i * s i) * deriv (profile e.W) x ^ 2 := by
    intro x
    have h0 := (C60_planar_chemical_potential (sigmaAt t T.value) hW).1 x
    set g := deriv (profile e.W) x
    simp only [thermocapillaryForce, h0, zero_mul, zero_add]
    have hsum : (∑ j, g * n j * (g * n j)) = g ^ 2 := by
      have : ∀ j, g * n j * (g * n j) = g ^ 2 * (n j * n j) := fun j => by ring
      simp only [this, ← Finset.mul_sum, hn, mul_one]
    rw [hsum]
    set d := ∑ j, T.grad j * (g * n j)
    have : ∀ i, s i * (3 / 2 * e.W * t.sigmaT * (g ^ 2 * T.grad i - d * (g * n i)))
        = 3 / 2 * e.W * t.sigmaT * g ^ 2 * (T.grad i * s i) - 3 / 2 * e.W * t.sigmaT * d * g * (n i * s i) :=
      fun i => by ring
    simp only [this, Finset.sum_sub_distrib, ← Finset.mul_sum, hs]
    ring
  simp only [key]
  rw [integral_const_mul, (integral_deriv_sq hW).2]
  have := hW.ne'
  field_simp

example : ∑ i : Fin 2, (![1, 0] : Fin 2 → ℝ) i * (![0, 1] : Fin 2 → ℝ) i = 0 := by norm_num [Fin.sum_univ_two]

/-! ## Viscosity -/

/-- **C60.**  The relaxation rate of the hydrodynamic step belongs to the viscosity interpolated linearly between the
phases, and the rate of the phase field step to the mobility.  The parameter map exists unless a density is zero or
the mobility is `-1/6`. -/
theorem C60_rates (p : Params) :
    (p.env = none ↔ p.rhoH = 0 ∨ p.rhoL = 0 ∨ 1 / 2 + 3 * p.mobility = 0)
      ∧ ∀ e, p.env = some e →
        1 / 3 * (1 / e.omegaPhi - 1 / 2) = p.mobility
        ∧ (∀ phi w, omega e phi = some w →
            1 / 3 * (1 / w - 1 / 2) = p.muL / p.rhoL + phi * (p.muH / p.rhoH - p.muL / p.rhoL))
        ∧ ∀ phi, 0 ≤ phi → phi ≤ 1 → 0 < p.muH / p.rhoH → 0 < p.muL / p.rhoL →
            ∃ w, omega e phi = some w ∧ 0 < w ∧ w < 2 := by
  have hdiv : ∀ a b : ℝ, realDiv a b = if b = 0 then none else some (a / b) := by
    intro a b
    unfold realDiv pyDiv
    split <;> simp_all
  constructor
  · simp only [Params.env, Params.tauH, Params.tauL, Params.nuH, Params.nuL, Params.omegaPhi, hdiv]
    by_cases h1 : p.rhoH = 0 <;> by_cases h2 : p.rhoL = 0 <;> by_cases h3 : 1 / 2 + 3 * p.mobility = 0 <;>
      simp [h1, h2, h3]
  · intro e he
    simp only [Params.env, Params.tauH, Params.tauL, Params.nuH, Params.nuL, Params.omegaPhi, hdiv] at he
    by_cases h1 : p.rhoH = 0
    · simp [h1] at he
    by_cases h2 : p.rhoL = 0
    · simp [h2] at he
    by_cases h3 : 1 / 2 + 3 * p.mobility = 0
    · rw [if_neg h1, if_neg h2, if_pos h3] at he
      simp at he
    simp only [h1, h2, h3, if_false, Option.map_some, Option.bind_some, Option.some.injEq] at he
    subst he
    refine ⟨?_, ?_, ?_⟩
    · simp only [one_div_one_div]
      ring
    · intro phi w hw
      simp only [omega, hdiv, tau] at hw
      split at hw
      · simp at hw
      · simp only [Option.some.injEq] at hw
        subst hw
        simp only [one_div_one_div]
        ring
    · intro phi h0 h1' hH hL
      have ht : 1 / 2 < 1 / 2 + 3 * (p.muL / p.rhoL) + phi * (3 * (p.muH / p.rhoH) - 3 * (p.muL / p.rhoL)) := by
        have : 0 < (1 - phi) * (p.muL / p.rhoL) + phi * (p.muH / p.rhoH) := by
          rcases h0.eq_or_lt with h | h
          · subst h; simpa using hL
          · have := mul_pos h hH
            have := mul_nonneg (sub_nonneg.2 h1') hL.le
            linarith
        nlinarith
      simp only [omega, hdiv, tau]
      rw [if_neg (by linarith)]
      refine ⟨_, rfl, by apply div_pos one_pos; linarith, ?_⟩
      rw [div_lt_iff₀ (by linarith)]
      linarith

example : ∃ e, (⟨1, 1 / 10, 1 / 100, 1 / 1000, 1, 1 / 5, 0, 5⟩ : Params).env = some e := by
  have h := (C60_rates ⟨1, 1 / 10, 1 / 100, 1 / 1000, 1, 1 / 5, 0, 5⟩).1
  rcases hx : (⟨1, 1 / 10, 1 / 100, 1 / 1000, 1, 1 / 5, 0, 5⟩ : Params).env with _ | e
  · rw [hx] at h
    norm_num at h
  · exact ⟨e, rfl⟩

/-- The strain rate that the library computes from the non-equilibrium populations (density one) at a relaxation rate:
`strain_rate_tensor_getter`, macroscopic_value_kernels.py:81. -/
noncomputable def strainRate {D Q : ℕ} (c : Fin Q → Vec D) (f feq : Fin Q → ℝ) (w : ℝ) (i j : Fin D) : ℝ :=
  -(3 / 2) * w * stress c (fun q => f q - feq q) i j

/-- **C60** (partial).  The viscous force is meant to be the viscosity, times twice the strain rate, times the gradient
of the density.  With the strain rate that the library computes from the same populations it is that *times the
relaxation time*: the code leaves out the relaxation rate. -/
theorem C60_viscous_force_partial {D Q : ℕ} (e : Env) (c : Fin Q → Vec D) (f feq : Fin Q → ℝ) (tau : ℝ) (ht : tau ≠ 0)
    (grad : Fin D → ℝ) (i : Fin D) :
    viscousForce e c f feq tau grad i
      = tau * (1 / 3 * (tau - 1 / 2) * ∑ j, 2 * strainRate c f feq (1 / tau) i j * ((e.rhoH - e.rhoL) * grad j)) := by
  unfold viscousForce strainRate
  rw [Finset.mul_sum, Finset.mul_sum, Finset.mul_sum, Finset.sum_mul]
  refine Finset.sum_congr rfl fun j _ => ?_
  field_simp
  ring

/-- **C60** (disagreement).  So the viscous force is not the viscous stress against the density gradient: a shear on the
nine-velocity stencil's first two directions, relaxation time 2. -/
theorem C60_viscous_force_wrong :
    ∃ (e : Env) (c : Fin 2 → Vec 1) (f feq : Fin 2 → ℝ) (tau : ℝ) (grad : Fin 1 → ℝ),
      viscousForce e c f feq tau grad 0
        ≠ 1 / 3 * (tau - 1 / 2) * ∑ j, 2 * strainRate c f feq (1 / tau) 0 j * ((e.rhoH - e.rhoL) * grad j) := by
  refine ⟨⟨2, 1, 1, 1, 1, 0, 5, 1, 1⟩, fun q _ => if q = 0 then 1 else -1, fun _ => 1, fun _ => 0, 2, fun _ => 1, ?_⟩
  norm_num [viscousForce, strainRate, stress, Fin.sum_univ_two]

/-! ## Sub-iterations -/

theorem subIteration_length {D : ℕ} (force : (Fin D → ℝ) → Fin D → ℝ) (vel : Fin D → ℝ → ℝ) (dens : ℝ)
    (u : Fin D → ℝ) (aleph : List ℝ) (k : ℕ) :
    (subIteration force vel dens u aleph k).length = aleph.length + D := by
  simp [subIteration]

theorem zip_tail {D : ℕ} (u v : Fin D → ℝ) (pre : List ℝ) :
    zipVelocity u (slice (pre ++ List.ofFn v) pre.length (pre ++ List.ofFn v).length) = v := by
  funext i
  simp [zipVelocity, slice]

theorem subIterations_eq {D : ℕ} (force : (Fin D → ℝ) → Fin D → ℝ) (vel : Fin D → ℝ → ℝ) (dens : ℝ)
    (u field : Fin D → ℝ) (n : ℕ) :
    ∃ pre : List ℝ, pre.length = n * D ∧ subIterations force vel dens u (List.ofFn field) n
      = pre ++ List.ofFn ((fun v i => vel i (force v i / dens))^[n] field) := by
  induction n with
  | zero => exact ⟨[], by simp, by simp [subIterations]⟩
  | succ n ih =>
    obtain ⟨pre, hl, h⟩ := ih
    refine ⟨pre ++ List.ofFn ((fun v i => vel i (force v i / dens))^[n] field), by simp [hl]; ring, ?_⟩
    have hstep : subIterations force vel dens u (List.ofFn field) (n + 1)
        = subIteration force vel dens u (subIterations force vel dens u (List.ofFn field) n) n := by
      simp [subIterations, List.range_succ]
    rw [hstep, h, Function.iterate_succ_apply']
    unfold subIteration
    rw [← hl, zip_tail]

/-- **C60.**  The force is evaluated at the velocity field after one iteration less than asked for of the map from a
velocity to the velocity which the force at it gives; without any sub-iteration the assignments cannot be made. -/
theorem C60_sub_iterations {D : ℕ} (hD : 0 < D) (force : (Fin D → ℝ) → Fin D → ℝ) (vel : Fin D → ℝ → ℝ) (dens : ℝ)
    (u field : Fin D → ℝ) (n : ℕ) :
    hydrodynamicForceAssignments force vel dens u field 0 = .error .indexError
      ∧ hydrodynamicForceAssignments force vel dens u field (n + 1)
        = .ok (force ((fun v i => vel i (force v i / dens))^[n] field)) := by
  constructor
  · simp [hydrodynamicForceAssignments, hD]
  · obtain ⟨pre, hl, h⟩ := subIterations_eq force vel dens u field n
    have hnot : ¬ D * (n + 1) < D := by
      have : D ≤ D * (n + 1) := Nat.le_mul_of_pos_right _ (Nat.succ_pos n)
      omega
    simp only [hydrodynamicForceAssignments, if_neg hnot, Nat.add_sub_cancel]
    rw [h]
    have hlen : (pre ++ List.ofFn ((fun v i => vel i (force v i / dens))^[n] field)).length - D = pre.length := by
      simp
    rw [hlen, zip_tail]

example : hydrodynamicForceAssignments (D := 1) (fun v _ => v 0) (fun _ g => 1 + g / 2) 1 (fun _ => 7) (fun _ => 0) 3
    = .ok fun _ => 3 / 2 := by
  rw [(C60_sub_iterations (by norm_num) _ _ _ _ _ 2).2]
  norm_num

/-- **C60.**  A velocity field that already agrees with the force it causes is kept: the number of sub-iterations does
not matter.  If the map from force to velocity shrinks distances by `L`, each sub-iteration brings the velocity nearer
to it by that factor. -/
theorem C60_sub_iterations_fixed {D : ℕ} (force : (Fin D → ℝ) → Fin D → ℝ) (vel : Fin D → ℝ → ℝ) (dens : ℝ)
    (us field : Fin D → ℝ) (hfix : ∀ i, vel i (force us i / dens) = us i) (L : ℝ) (hL0 : 0 ≤ L)
    (hL : ∀ v i, |vel i (force v i / dens) - us i| ≤ L * ‖v - us‖) (n : ℕ) :
    (fun v i => vel i (force v i / dens))^[n] us = us
      ∧ ‖(fun v i => vel i (force v i / dens))^[n] field - us‖ ≤ L ^ n * ‖field - us‖ := by
  constructor
  · exact Function.iterate_fixed (funext hfix) n
  · induction n with
    | zero => simp
    | succ n ih =>
      rw [Function.iterate_succ_apply']
      set v := (fun v i => vel i (force v i / dens))^[n] field
      rw [pi_norm_le_iff_of_nonneg (by positivity)]
      intro i
      calc _ ≤ L * ‖v - us‖ := by simpa using hL v i
        _ ≤ L * (L ^ n * ‖field - us‖) := mul_le_mul_of_nonneg_left ih hL0
        _ = _ := by ring

example : ∀ i : Fin 1, (fun _ g => (1:ℝ) + g / 2 : Fin 1 → ℝ → ℝ) i ((fun v _ => v 0 : (Fin 1 → ℝ) → Fin 1 → ℝ)
    (fun _ => 2) i / 1) = (fun _ => 2 : Fin 1 → ℝ) i := by
  intro i; norm_num

/-! ## Initialisation -/

/-- **C60** (partial).  The phase field populations start at the equilibrium of the velocity minus half the force.  For
an equilibrium with the given density and momentum, the velocity that the method then reads off (momentum plus half the
force, over the density) is the given one where the density is one or the force zero, and only there. -/
theorem C60_initial_velocity_partial {D Q : ℕ} (c : Fin Q → Vec D) (feq : ℝ → (Fin D → ℝ) → Fin Q → ℝ)
    (hmom : ∀ rho u i, ∑ q, (c q i : ℝ) * feq rho u q = rho * u i) (phi : ℝ) (hphi : phi ≠ 0)
    (velocity force : Fin D → ℝ) (i : Fin D) :
    ((∑ q, (c q i : ℝ) * feq phi (initVelocity velocity force) q + force i / 2) / phi = velocity i)
      ↔ phi = 1 ∨ force i = 0 := by
  rw [hmom, initVelocity, div_eq_iff hphi]
  constructor
  · intro h
    have : (phi - 1) * force i = 0 := by linarith
    rcases mul_eq_zero.1 this with h | h
    · left; linarith
    · right; exact h
  · rintro (h | h)
    · subst h; ring
    · rw [h]; ring

example : ∀ rho (u : Fin 1 → ℝ) i, ∑ q, (((fun q _ => if q = 0 then 1 else -1 : Fin 2 → Vec 1) q i : ℤ) : ℝ)
    * (fun rho u q => if q = 0 then rho / 2 + rho * u 0 / 2 else rho / 2 - rho * u 0 / 2 :
      ℝ → (Fin 1 → ℝ) → Fin 2 → ℝ) rho u q = rho * u i := by
  intro rho u i
  obtain rfl : i = 0 := Subsingleton.elim _ _
  norm_num [Fin.sum_univ_two]
  ring

end AllenCahn
end Lbm
