/-
C86: the reference solution of the microchannel solves the two-layer thermocapillary problem.

The specification below is written with partial derivatives and does not use the constants of the model.
-/
import Verif.Microchannel
import Mathlib.Analysis.SpecialFunctions.Trigonometric.Deriv
import Mathlib.Analysis.SpecialFunctions.Trigonometric.DerivHyp
import Mathlib.Tactic.FieldSimp
import Mathlib.Tactic.Ring
import Mathlib.Tactic.Linarith
import Mathlib.Tactic.NormNum

namespace Lbm
namespace Microchannel

open Real

/-! ### Specification -/

/-- `Fx` and `Fy` are the partial derivatives of `F`. -/
structure Partials (F Fx Fy : ℝ → ℝ → ℝ) : Prop where
  dx : ∀ x y, HasDerivAt (fun s => F s y) (Fx x y) x
  dy : ∀ x y, HasDerivAt (fun s => F x s) (Fy x y) y

/-- `L` is the Laplacian of `F`. -/
def IsLaplacian (F L : ℝ → ℝ → ℝ) : Prop :=
  ∃ Fx Fy Fxx Fxy Fyx Fyy, Partials F Fx Fy ∧ Partials Fx Fxx Fxy ∧ Partials Fy Fyx Fyy ∧ ∀ x y, L x y = Fxx x y + Fyy x y

/-- Two layers of fluid between walls at `y = -H` and `y = H` with the interface at `y = 0`: heat conduction without flow.  The temperature is given
at the walls, temperature and heat flux are continuous at the interface. -/
structure Heat (H kTop kBottom : ℝ) (wallTop wallBottom : ℝ → ℝ) (T Ttop Tbottom : ℝ → ℝ → ℝ) : Prop where
  top : ∀ x y, 0 < y → T x y = Ttop x y
  bottom : ∀ x y, y ≤ 0 → T x y = Tbottom x y
  harmonicTop : IsLaplacian Ttop fun _ _ => 0
  harmonicBottom : IsLaplacian Tbottom fun _ _ => 0
  wallTop : ∀ x, T x H = wallTop x
  wallBottom : ∀ x, T x (-H) = wallBottom x
  continuous : ∀ x, Ttop x 0 = Tbottom x 0
  flux : ∀ x, ∃ q r, HasDerivAt (fun y => Ttop x y) q 0 ∧ HasDerivAt (fun y => Tbottom x y) r 0 ∧ kTop * q = kBottom * r

/-- The Stokes equations with viscosity `mu`. -/
def Stokes (mu : ℝ) (u v : ℝ → ℝ → ℝ) : Prop :=
  ∃ p px py Lu Lv ux uy vx vy, Partials p px py ∧ Partials u ux uy ∧ Partials v vx vy ∧ IsLaplacian u Lu ∧ IsLaplacian v Lv ∧
    ∀ x y, ux x y + vy x y = 0 ∧ mu * Lu x y = px x y ∧ mu * Lv x y = py x y

/-- Creeping flow in the two layers: walls at rest, a flat interface, continuous velocity, and shear stresses balanced by the gradient of the
surface tension, which changes with the temperature `T` of the interface by `sigmaT`. -/
structure Flow (H mu sigmaT : ℝ) (T : ℝ → ℝ → ℝ) (u v utop vtop ubottom vbottom : ℝ → ℝ → ℝ) : Prop where
  top : ∀ x y, 0 < y → u x y = utop x y ∧ v x y = vtop x y
  bottom : ∀ x y, y ≤ 0 → u x y = ubottom x y ∧ v x y = vbottom x y
  stokesTop : Stokes mu utop vtop
  stokesBottom : Stokes mu ubottom vbottom
  walls : ∀ x, u x H = 0 ∧ v x H = 0 ∧ u x (-H) = 0 ∧ v x (-H) = 0
  interface : ∀ x, vtop x 0 = 0 ∧ vbottom x 0 = 0 ∧ utop x 0 = ubottom x 0
  stress : ∀ x, ∃ q r s, HasDerivAt (fun y => utop x y) q 0 ∧ HasDerivAt (fun y => ubottom x y) r 0 ∧ HasDerivAt (fun x => T x 0) s x ∧
    mu * q - mu * r + sigmaT * s = 0

/-! ### Products of a function of `x` and a function of `y` -/

theorem partials_mul {f f' g g' : ℝ → ℝ} (hf : ∀ x, HasDerivAt f (f' x) x) (hg : ∀ y, HasDerivAt g (g' y) y) :
    Partials (fun x y => g y * f x) (fun x y => g y * f' x) (fun x y => g' y * f x) :=
  ⟨fun x _ => (hf x).const_mul _, fun _ y => (hg y).mul_const _⟩

theorem partials_add {F Fx Fy G Gx Gy : ℝ → ℝ → ℝ} (hF : Partials F Fx Fy) (hG : Partials G Gx Gy) :
    Partials (fun x y => F x y + G x y) (fun x y => Fx x y + Gx x y) (fun x y => Fy x y + Gy x y) :=
  ⟨fun x y => (hF.dx x y).add (hG.dx x y), fun x y => (hF.dy x y).add (hG.dy x y)⟩

theorem d_sin (w x : ℝ) : HasDerivAt (fun s => sin (w * s)) (w * cos (w * x)) x := by
  have h := (Real.hasDerivAt_sin (w * x)).comp x ((hasDerivAt_id x).const_mul w)
  simp only [mul_one] at h
  rw [mul_comm]; exact h

theorem d_cos (w x : ℝ) : HasDerivAt (fun s => cos (w * s)) (-(w * sin (w * x))) x := by
  have h := (Real.hasDerivAt_cos (w * x)).comp x ((hasDerivAt_id x).const_mul w)
  simp only [mul_one] at h
  have e : -(w * sin (w * x)) = -sin (w * x) * w := by ring
  rw [e]; exact h

theorem d_sinh (w x : ℝ) : HasDerivAt (fun s => sinh (w * s)) (w * cosh (w * x)) x := by
  have h := (Real.hasDerivAt_sinh (w * x)).comp x ((hasDerivAt_id x).const_mul w)
  simp only [mul_one] at h
  rw [mul_comm]; exact h

theorem d_cosh (w x : ℝ) : HasDerivAt (fun s => cosh (w * s)) (w * sinh (w * x)) x := by
  have h := (Real.hasDerivAt_cosh (w * x)).comp x ((hasDerivAt_id x).const_mul w)
  simp only [mul_one] at h
  rw [mul_comm]; exact h

/-- `(p + q y) cosh (w y) + (r + s y) sinh (w y)` -/
noncomputable def ell (w p q r s y : ℝ) : ℝ := (p + q * y) * cosh (w * y) + (r + s * y) * sinh (w * y)

theorem d_lin (p q y : ℝ) : HasDerivAt (fun s => p + q * s) q y := by
  simpa using ((hasDerivAt_id y).const_mul q).const_add p

theorem d_ell (w p q r s y : ℝ) : HasDerivAt (ell w p q r s) (ell w (q + w * r) (w * s) (s + w * p) (w * q) y) y := by
  have h := ((d_lin p q y).mul (d_cosh w y)).add ((d_lin r s y).mul (d_sinh w y))
  have e : ell w (q + w * r) (w * s) (s + w * p) (w * q) y =
      q * cosh (w * y) + (p + q * y) * (w * sinh (w * y)) + (s * sinh (w * y) + (r + s * y) * (w * cosh (w * y))) := by
    unfold ell; ring
  rw [e]; exact h

/-- The Laplacian of such a function times `sin (w x)` or `cos (w x)`. -/
theorem laplacian_ell {k k' : ℝ → ℝ} (w p q r s : ℝ) (h1 : ∀ x, HasDerivAt k (k' x) x) (h2 : ∀ x, HasDerivAt k' (-(w ^ 2 * k x)) x) :
    IsLaplacian (fun x y => ell w p q r s y * k x) (fun x y => ell w (2 * w * s) 0 (2 * w * q) 0 y * k x) := by
  refine ⟨_, _, _, _, _, _, partials_mul h1 (d_ell w p q r s), partials_mul h2 (d_ell w p q r s), partials_mul h1 (d_ell w _ _ _ _), fun x y => ?_⟩
  unfold ell
  ring

theorem d2_cos (w x : ℝ) : HasDerivAt (fun s => -(w * sin (w * s))) (-(w ^ 2 * cos (w * x))) x := by
  have h := ((d_sin w x).const_mul w).neg
  have e : -(w ^ 2 * cos (w * x)) = -(w * (w * cos (w * x))) := by ring
  rw [e]; exact h

theorem d2_sin (w x : ℝ) : HasDerivAt (fun s => w * cos (w * s)) (-(w ^ 2 * sin (w * x))) x := by
  have h := (d_cos w x).const_mul w
  have e : -(w ^ 2 * sin (w * x)) = w * (-(w * sin (w * x))) := by ring
  rw [e]; exact h

theorem laplacian_add {F G L M : ℝ → ℝ → ℝ} (hF : IsLaplacian F L) (hG : IsLaplacian G M) :
    IsLaplacian (fun x y => F x y + G x y) (fun x y => L x y + M x y) := by
  obtain ⟨Fx, Fy, Fxx, Fxy, Fyx, Fyy, h1, h2, h3, h4⟩ := hF
  obtain ⟨Gx, Gy, Gxx, Gxy, Gyx, Gyy, g1, g2, g3, g4⟩ := hG
  refine ⟨_, _, _, _, _, _, partials_add h1 g1, partials_add h2 g2, partials_add h3 g3, fun x y => ?_⟩
  show L x y + M x y = _
  rw [h4, g4]; ring

theorem laplacian_lin (p q : ℝ) : IsLaplacian (fun _ y => p + q * y) (fun _ _ => 0) :=
  ⟨fun _ _ => 0, fun _ _ => q, fun _ _ => 0, fun _ _ => 0, fun _ _ => 0, fun _ _ => 0,
    ⟨fun x _ => hasDerivAt_const x _, fun _ y => d_lin p q y⟩, ⟨fun x _ => hasDerivAt_const x _, fun _ y => hasDerivAt_const y _⟩,
    ⟨fun x _ => hasDerivAt_const x _, fun _ y => hasDerivAt_const y _⟩, fun _ _ => by norm_num⟩

/-- A layer is a Stokes flow: the stream function is `U ell w 0 A B C y * sin (w x)`. -/
theorem stokes_layer (mu w U A B C : ℝ) :
    Stokes mu (fun x y => U * ell w (A + w * B) (w * C) (C) (w * A) y * sin (w * x)) (fun x y => -w * U * ell w 0 A B C y * cos (w * x)) := by
  have e1 : (fun x y => U * ell w (A + w * B) (w * C) C (w * A) y * sin (w * x)) =
      fun x y => ell w (U * (A + w * B)) (U * (w * C)) (U * C) (U * (w * A)) y * sin (w * x) := by
    funext x y; unfold ell; ring
  have e2 : (fun x y => -w * U * ell w 0 A B C y * cos (w * x)) = fun x y => ell w 0 (-w * U * A) (-w * U * B) (-w * U * C) y * cos (w * x) := by
    funext x y; unfold ell; ring
  rw [e1, e2]
  refine ⟨fun x y => ell w (-(2 * w * mu * U * A)) 0 (-(2 * w * mu * U * C)) 0 y * cos (w * x), _, _, _, _, _, _, _, _, partials_mul (d_cos w) (d_ell w _ _ _ _),
    partials_mul (d_sin w) (d_ell w _ _ _ _), partials_mul (d_cos w) (d_ell w _ _ _ _), laplacian_ell w _ _ _ _ (d_sin w) (d2_sin w),
    laplacian_ell w _ _ _ _ (d_cos w) (d2_cos w), fun x y => ⟨?_, ?_, ?_⟩⟩ <;> · unfold ell; ring

/-! ### The constants -/

/-- Half the height of the channel. -/
noncomputable def Params.half (P : Params) : ℝ := (⌊P.length / 2⌋ : ℤ) - 1

/-- Half the height in units of the wave length. -/
noncomputable def Params.alpha (P : Params) : ℝ := P.half * (π / P.length)

/-- The arguments for which no division by zero occurs. -/
structure Regular (P : Params) : Prop where
  length : P.length ≠ 0
  bottom : P.kappaBottom ≠ 0
  half : P.half ≠ 0
  sum : P.kappaTop + P.kappaBottom ≠ 0
  viscosity : P.viscosity ≠ 0

theorem sq_sinh_pos {a : ℝ} (h : a ≠ 0) : 0 < sinh a ^ 2 - a ^ 2 := by
  have key : ∀ a : ℝ, 0 < a → 0 < sinh a ^ 2 - a ^ 2 := by
    intro a h
    have := Real.self_lt_sinh_iff.2 h
    nlinarith
  rcases lt_or_gt_of_ne h with h | h
  · have := key (-a) (by linarith)
    simpa using this
  · exact key a h

theorem sinh_two_ne {a : ℝ} (h : a ≠ 0) : sinh (2 * a) - 2 * a ≠ 0 := by
  rcases lt_or_gt_of_ne h with h | h
  · have := Real.sinh_lt_self_iff.2 (show 2 * a < 0 by linarith)
    linarith
  · have := Real.self_lt_sinh_iff.2 (show 0 < 2 * a by linarith)
    linarith

theorem Regular.alpha {P : Params} (h : Regular P) : P.alpha ≠ 0 := mul_ne_zero h.half (div_ne_zero Real.pi_ne_zero h.length)

theorem Regular.kstar {P : Params} (h : Regular P) : 1 + P.kappaTop / P.kappaBottom ≠ 0 := by
  intro e
  refine h.sum ?_
  have := h.bottom
  field_simp at e
  linarith

/-- The constants without the divisions by zero. -/
noncomputable def Params.coeffs (P : Params) : Coeffs :=
  let k := P.kappaTop / P.kappaBottom
  let a := P.alpha
  let f := 1 / (k * sinh a * cosh a + sinh a * cosh a)
  let n := sinh a ^ 2 - a ^ 2
  { kstar := k, mp := P.half, w := π / P.length, a := a, b := a, f := f, ca1 := sinh a ^ 2 / n, ca2 := -1 * P.half * a / n,
    ca3 := (2 * a - sinh (2 * a)) / (2 * n), cb1 := sinh a ^ 2 / n, cb2 := -1 * P.half * a / n, cb3 := (-2 * a + sinh (2 * a)) / (2 * n),
    umax := -1 * (P.t0 * P.sigmaT / P.viscosity) * (sinh a * f) * (n * n / (n * (sinh (2 * a) - 2 * a) + n * (sinh (2 * a) - 2 * a))),
    tt := P.tC - P.tH, nom := k * P.tC * P.half + P.tH * P.half, denom := P.half + k * P.half }

theorem coefficients_regular {P : Params} (h : Regular P) : coefficients P = some P.coeffs := by
  have ha := h.alpha
  have h1 := sinh_two_ne ha
  have h2 := (sq_sinh_pos ha).ne'
  have h3 : P.kappaTop / P.kappaBottom * sinh P.alpha * cosh P.alpha + sinh P.alpha * cosh P.alpha ≠ 0 := by
    have : P.kappaTop / P.kappaBottom * sinh P.alpha * cosh P.alpha + sinh P.alpha * cosh P.alpha = (1 + P.kappaTop / P.kappaBottom) * (sinh P.alpha * cosh P.alpha) := by ring
    rw [this]
    exact mul_ne_zero h.kstar (mul_ne_zero (by simpa using ha) (Real.cosh_pos _).ne')
  have h4 : (sinh P.alpha ^ 2 - P.alpha ^ 2) * (sinh (2 * P.alpha) - 2 * P.alpha) + (sinh P.alpha ^ 2 - P.alpha ^ 2) * (sinh (2 * P.alpha) - 2 * P.alpha) ≠ 0 := by
    rw [← two_mul]
    exact mul_ne_zero two_ne_zero (mul_ne_zero h2 h1)
  have h5 : 2 * (sinh P.alpha ^ 2 - P.alpha ^ 2) ≠ 0 := mul_ne_zero two_ne_zero h2
  unfold coefficients
  simp only [pdiv, if_neg h.bottom, if_neg h.length, Option.bind_eq_bind, Option.bind_some]
  rw [show ((⌊P.length / 2⌋ : ℤ) - 1 : ℝ) * (π / P.length) = P.alpha from rfl, show ((⌊P.length / 2⌋ : ℤ) - 1 : ℝ) = P.half from rfl]
  simp only [if_neg h2, if_neg h3, if_neg h4, if_neg h5, if_neg h.viscosity, Option.bind_some]
  rfl

theorem coefficients_irregular {P : Params} (h : ¬ Regular P) : coefficients P = none := by
  by_contra hc
  obtain ⟨c, hc⟩ := Option.ne_none_iff_exists'.1 hc
  unfold coefficients at hc
  simp only [pdiv, Option.bind_eq_bind] at hc
  have hb : P.kappaBottom ≠ 0 := by intro e; simp [e] at hc
  rw [if_neg hb] at hc
  have hL : P.length ≠ 0 := by intro e; simp [e] at hc
  rw [if_neg hL] at hc
  simp only [Option.bind_some] at hc
  rw [show ((⌊P.length / 2⌋ : ℤ) - 1 : ℝ) * (π / P.length) = P.alpha from rfl] at hc
  have h3 : P.kappaTop / P.kappaBottom * sinh P.alpha * cosh P.alpha + sinh P.alpha * cosh P.alpha ≠ 0 := by intro e; rw [if_pos e] at hc; simp at hc
  have hm : P.half ≠ 0 := by
    intro e
    exact h3 (by simp [Params.alpha, e])
  have hk : P.kappaTop + P.kappaBottom ≠ 0 := by
    intro e
    refine h3 ?_
    have : P.kappaTop = -P.kappaBottom := by linarith
    rw [this, neg_div, div_self hb]
    ring
  have hmu : P.viscosity ≠ 0 := by
    intro e
    rw [if_pos e] at hc
    simp at hc
  exact h ⟨hL, hb, hm, hk, hmu⟩

/-! ### The properties -/

/-- **C86 (errors).**  The solution raises `ZeroDivisionError` exactly for a channel of length zero, no height (lengths from 2 to 4 have none), no
viscosity, a lower fluid that does not conduct, or conductivities that sum to zero. -/
theorem C86_errors (P : Params) (nx ny : ℕ) (tr : Bool) :
    solution P nx ny tr = none ↔
      P.length = 0 ∨ (2 ≤ P.length ∧ P.length < 4) ∨ P.kappaBottom = 0 ∨ P.kappaTop + P.kappaBottom = 0 ∨ P.viscosity = 0 := by
  have hh : P.half = 0 ↔ 2 ≤ P.length ∧ P.length < 4 := by
    unfold Params.half
    have : ((⌊P.length / 2⌋ : ℤ) : ℝ) - 1 = 0 ↔ ⌊P.length / 2⌋ = 1 := by
      rw [sub_eq_zero]; exact_mod_cast Iff.rfl
    rw [this, Int.floor_eq_iff]
    push_cast
    constructor <;> rintro ⟨h1, h2⟩ <;> constructor <;> linarith
  rw [← hh]
  by_cases h : Regular P
  · simp only [solution, coefficients_regular h, Option.bind_eq_bind, Option.bind_some]
    constructor
    · intro e; cases tr <;> simp at e
    · rintro (e | e | e | e | e)
      · exact absurd e h.length
      · exact absurd e h.half
      · exact absurd e h.bottom
      · exact absurd e h.sum
      · exact absurd e h.viscosity
  · simp only [solution, coefficients_irregular h, Option.bind_eq_bind, Option.bind_none, true_iff]
    by_contra hn
    push Not at hn
    exact h ⟨hn.1, hn.2.2.1, hn.2.1, hn.2.2.2.1, hn.2.2.2.2⟩

theorem half_pos {P : Params} (h : 4 ≤ P.length) : 0 < P.half := by
  unfold Params.half
  have : (2 : ℤ) ≤ ⌊P.length / 2⌋ := by
    rw [Int.le_floor]; push_cast; linarith
  have : (2 : ℝ) ≤ (⌊P.length / 2⌋ : ℤ) := by exact_mod_cast this
  linarith

/-- The temperature of the upper layer. -/
noncomputable def tempTop (P : Params) (x y : ℝ) : ℝ :=
  (P.coeffs.nom / P.coeffs.denom + P.coeffs.tt / P.coeffs.denom * y) +
    ell P.coeffs.w (P.t0 * P.coeffs.f * sinh P.alpha) 0 (-(P.t0 * P.coeffs.f * cosh P.alpha)) 0 y * cos (P.coeffs.w * x)

/-- The temperature of the lower layer. -/
noncomputable def tempBottom (P : Params) (x y : ℝ) : ℝ :=
  (P.coeffs.nom / P.coeffs.denom + P.coeffs.kstar * P.coeffs.tt / P.coeffs.denom * y) +
    ell P.coeffs.w (P.t0 * P.coeffs.f * sinh P.alpha) 0 (-(P.t0 * P.coeffs.f * P.coeffs.kstar * cosh P.alpha)) 0 y * cos (P.coeffs.w * x)

theorem temperature_top (P : Params) (x y : ℝ) (h : 0 < y) : temperature P P.coeffs x y = tempTop P x y := by
  unfold temperature tempTop ell
  rw [if_pos h, mul_comm y, Real.sinh_sub, show P.coeffs.a = P.alpha from rfl]
  ring

theorem temperature_bottom (P : Params) (x y : ℝ) (h : y ≤ 0) : temperature P P.coeffs x y = tempBottom P x y := by
  unfold temperature tempBottom ell
  rw [if_neg (by linarith), show P.coeffs.a = P.alpha from rfl]
  ring

theorem alpha_eq (P : Params) : P.coeffs.w * P.half = P.alpha := mul_comm _ _

theorem f_mul {P : Params} (h : Regular P) : P.coeffs.f * ((1 + P.coeffs.kstar) * (sinh P.alpha * cosh P.alpha)) = 1 := by
  have hk := h.kstar
  have hs : sinh P.alpha ≠ 0 := by simpa using h.alpha
  have hc := (Real.cosh_pos P.alpha).ne'
  have e : (1 + P.coeffs.kstar) * (sinh P.alpha * cosh P.alpha) = P.kappaTop / P.kappaBottom * sinh P.alpha * cosh P.alpha + sinh P.alpha * cosh P.alpha := by
    show (1 + P.kappaTop / P.kappaBottom) * _ = _
    ring
  have hne : P.kappaTop / P.kappaBottom * sinh P.alpha * cosh P.alpha + sinh P.alpha * cosh P.alpha ≠ 0 := by
    rw [← e]; exact mul_ne_zero hk (mul_ne_zero hs hc)
  rw [e]
  exact one_div_mul_cancel hne

/-- **C86 (temperature).**  The temperature solves the heat conduction problem of the two layers: `tC` at the upper wall, `tH + t0 cos (pi x / L)` at the
lower wall. -/
theorem C86_heat (P : Params) (hL : 4 ≤ P.length) (c : Coeffs) (hc : coefficients P = some c) :
    ∃ Ttop Tbottom, Heat P.half P.kappaTop P.kappaBottom (fun _ => P.tC) (fun x => P.tH + P.t0 * cos (π / P.length * x)) (temperature P c) Ttop Tbottom := by
  have hR : Regular P := by
    by_contra h
    rw [coefficients_irregular h] at hc
    simp at hc
  rw [coefficients_regular hR] at hc
  injection hc with hc
  subst hc
  have hp := half_pos hL
  have hk : 1 + P.coeffs.kstar ≠ 0 := hR.kstar
  have hd : P.coeffs.denom = (1 + P.coeffs.kstar) * P.half := by
    show P.half + P.kappaTop / P.kappaBottom * P.half = (1 + P.kappaTop / P.kappaBottom) * _
    ring
  have hd0 : P.coeffs.denom ≠ 0 := by rw [hd]; exact mul_ne_zero hk hp.ne'
  have hn : P.coeffs.nom = (P.coeffs.kstar * P.tC + P.tH) * P.half := by
    show P.kappaTop / P.kappaBottom * P.tC * P.half + P.tH * P.half = (P.kappaTop / P.kappaBottom * P.tC + P.tH) * _
    ring
  have ht : P.coeffs.tt = P.tC - P.tH := rfl
  refine ⟨tempTop P, tempBottom P, temperature_top P, temperature_bottom P, ?_, ?_, fun x => ?_, fun x => ?_, fun x => ?_, fun x => ?_⟩
  · have h := laplacian_add (laplacian_lin (P.coeffs.nom / P.coeffs.denom) (P.coeffs.tt / P.coeffs.denom))
      (laplacian_ell P.coeffs.w (P.t0 * P.coeffs.f * sinh P.alpha) 0 (-(P.t0 * P.coeffs.f * cosh P.alpha)) 0 (d_cos _) (d2_cos _))
    have e : (fun x y => (0 : ℝ) + ell P.coeffs.w (2 * P.coeffs.w * 0) 0 (2 * P.coeffs.w * 0) 0 y * cos (P.coeffs.w * x)) = fun _ _ => 0 := by
      funext x y; simp [ell]
    rw [e] at h
    exact h
  · have h := laplacian_add (laplacian_lin (P.coeffs.nom / P.coeffs.denom) (P.coeffs.kstar * P.coeffs.tt / P.coeffs.denom))
      (laplacian_ell P.coeffs.w (P.t0 * P.coeffs.f * sinh P.alpha) 0 (-(P.t0 * P.coeffs.f * P.coeffs.kstar * cosh P.alpha)) 0 (d_cos _) (d2_cos _))
    have e : (fun x y => (0 : ℝ) + ell P.coeffs.w (2 * P.coeffs.w * 0) 0 (2 * P.coeffs.w * 0) 0 y * cos (P.coeffs.w * x)) = fun _ _ => 0 := by
      funext x y; simp [ell]
    rw [e] at h
    exact h
  · rw [temperature_top P x _ hp]
    unfold tempTop ell
    rw [alpha_eq, hn, ht, hd]
    have hp' := hp.ne'
    field_simp
    ring
  · rw [temperature_bottom P x _ (by linarith)]
    unfold tempBottom ell
    rw [mul_neg P.coeffs.w, alpha_eq, hn, ht, hd, Real.sinh_neg, Real.cosh_neg]
    have hp' := hp.ne'
    have e : (P.coeffs.kstar * P.tC + P.tH) * P.half / ((1 + P.coeffs.kstar) * P.half) +
        P.coeffs.kstar * (P.tC - P.tH) / ((1 + P.coeffs.kstar) * P.half) * -P.half = P.tH := by
      field_simp
      ring
    rw [e]
    show _ = P.tH + P.t0 * cos (P.coeffs.w * x)
    linear_combination P.t0 * cos (P.coeffs.w * x) * f_mul hR
  · unfold tempTop tempBottom ell
    simp
  · refine ⟨_, _, (d_lin _ _ 0).add ((d_ell P.coeffs.w _ _ _ _ 0).mul_const _), (d_lin _ _ 0).add ((d_ell P.coeffs.w _ _ _ _ 0).mul_const _), ?_⟩
    have hkb : P.kappaBottom * P.coeffs.kstar = P.kappaTop := mul_div_cancel₀ _ hR.bottom
    rw [← hkb]
    unfold ell
    simp only [mul_zero, Real.cosh_zero, Real.sinh_zero]
    ring

/-- **C86 (flow).**  The velocity is the creeping flow driven by the surface tension `sigmaT T` of the interface, both fluids having the given viscosity. -/
theorem C86_flow (P : Params) (hL : 4 ≤ P.length) (c : Coeffs) (hc : coefficients P = some c) :
    ∃ utop vtop ubottom vbottom, Flow P.half P.viscosity P.sigmaT (temperature P c) (velocityX c) (velocityY c) utop vtop ubottom vbottom := by
  have hR : Regular P := by
    by_contra h
    rw [coefficients_irregular h] at hc
    simp at hc
  rw [coefficients_regular hR] at hc
  injection hc with hc
  subst hc
  have hp := half_pos hL
  set s := sinh P.alpha with hs
  set d := cosh P.alpha with hd
  have hsd : d ^ 2 = s ^ 2 + 1 := by rw [hs, hd]; linarith [Real.cosh_sq P.alpha]
  have hn : s ^ 2 - P.alpha ^ 2 ≠ 0 := (sq_sinh_pos hR.alpha).ne'
  have h2 : sinh (2 * P.alpha) = 2 * s * d := Real.sinh_two_mul _
  have ha1 : P.coeffs.ca1 = s ^ 2 / (s ^ 2 - P.alpha ^ 2) := rfl
  have ha2 : P.coeffs.ca2 = -1 * P.half * P.alpha / (s ^ 2 - P.alpha ^ 2) := rfl
  have ha3 : P.coeffs.ca3 = (P.alpha - s * d) / (s ^ 2 - P.alpha ^ 2) := by
    show (2 * P.alpha - sinh (2 * P.alpha)) / (2 * (s ^ 2 - P.alpha ^ 2)) = _
    rw [h2]; field_simp
  have hb1 : P.coeffs.cb1 = P.coeffs.ca1 := rfl
  have hb2 : P.coeffs.cb2 = P.coeffs.ca2 := rfl
  have hb3 : P.coeffs.cb3 = -P.coeffs.ca3 := by
    show (-2 * P.alpha + sinh (2 * P.alpha)) / (2 * (s ^ 2 - P.alpha ^ 2)) = -((2 * P.alpha - sinh (2 * P.alpha)) / (2 * (s ^ 2 - P.alpha ^ 2)))
    rw [← neg_div]; congr 1; ring
  have hw : P.coeffs.w * P.half = P.alpha := alpha_eq P
  refine ⟨fun x y => P.coeffs.umax * ell P.coeffs.w (P.coeffs.ca1 + P.coeffs.w * P.coeffs.ca2) (P.coeffs.w * P.coeffs.ca3) P.coeffs.ca3 (P.coeffs.w * P.coeffs.ca1) y * sin (P.coeffs.w * x),
    fun x y => -P.coeffs.w * P.coeffs.umax * ell P.coeffs.w 0 P.coeffs.ca1 P.coeffs.ca2 P.coeffs.ca3 y * cos (P.coeffs.w * x),
    fun x y => P.coeffs.umax * ell P.coeffs.w (P.coeffs.cb1 + P.coeffs.w * P.coeffs.cb2) (P.coeffs.w * P.coeffs.cb3) P.coeffs.cb3 (P.coeffs.w * P.coeffs.cb1) y * sin (P.coeffs.w * x),
    fun x y => -P.coeffs.w * P.coeffs.umax * ell P.coeffs.w 0 P.coeffs.cb1 P.coeffs.cb2 P.coeffs.cb3 y * cos (P.coeffs.w * x),
    ⟨fun x y hy => ?_, fun x y hy => ?_, stokes_layer _ _ _ _ _ _, stokes_layer _ _ _ _ _ _, fun x => ?_, fun x => ?_, fun x => ?_⟩⟩
  · unfold velocityX velocityY ell
    rw [if_pos hy, if_pos hy]
    constructor <;> ring
  · unfold velocityX velocityY ell
    rw [if_neg (by linarith), if_neg (by linarith)]
    constructor <;> ring
  · have w1 : (P.coeffs.ca1 + P.coeffs.w * (P.coeffs.ca2 + P.coeffs.ca3 * P.half)) * d + (P.coeffs.ca3 + P.coeffs.w * P.coeffs.ca1 * P.half) * s = 0 := by
      have e : P.coeffs.w * (P.coeffs.ca2 + P.coeffs.ca3 * P.half) = -(P.alpha * s * d) / (s ^ 2 - P.alpha ^ 2) := by
        rw [ha2, ha3]; field_simp; rw [← hw]; ring
      rw [e, mul_right_comm P.coeffs.w, hw, ha1, ha3]
      field_simp
      linear_combination -(P.alpha * s) * hsd
    have w2 : P.coeffs.ca1 * P.half * d + (P.coeffs.ca2 + P.coeffs.ca3 * P.half) * s = 0 := by
      rw [ha1, ha2, ha3]; field_simp; ring
    unfold velocityX velocityY
    rw [if_pos hp, if_pos hp, if_neg (by linarith), if_neg (by linarith), mul_neg P.coeffs.w, hw, Real.cosh_neg, Real.sinh_neg, ← hs, ← hd, hb1, hb2, hb3]
    refine ⟨?_, ?_, ?_, ?_⟩
    · rw [w1]; ring
    · rw [w2]; ring
    · linear_combination P.coeffs.umax * sin (P.coeffs.w * x) * w1
    · linear_combination P.coeffs.w * P.coeffs.umax * cos (P.coeffs.w * x) * w2
  · unfold ell
    rw [hb1, hb2]
    simp
  · refine ⟨_, _, P.t0 * P.coeffs.f * s * -(P.coeffs.w * sin (P.coeffs.w * x)), ((d_ell P.coeffs.w _ _ _ _ 0).const_mul _).mul_const _,
      ((d_ell P.coeffs.w _ _ _ _ 0).const_mul _).mul_const _, ?_, ?_⟩
    · have e : (fun x => temperature P P.coeffs x 0) = fun x => P.coeffs.nom / P.coeffs.denom + P.t0 * P.coeffs.f * s * cos (P.coeffs.w * x) := by
        funext x
        rw [temperature_bottom P x 0 le_rfl]
        unfold tempBottom ell
        simp [hs]
      rw [e]
      exact ((d_cos P.coeffs.w x).const_mul _).const_add _
    · have hu : P.coeffs.umax * P.viscosity * (4 * P.coeffs.ca3) = P.t0 * P.sigmaT * s * P.coeffs.f := by
        have hy := hR.viscosity
        have h1 := sinh_two_ne hR.alpha
        rw [h2] at h1
        have h1' : s * d - P.alpha ≠ 0 := by intro e; apply h1; linarith
        have eu : P.coeffs.umax = -1 * (P.t0 * P.sigmaT / P.viscosity) * (s * P.coeffs.f) * ((s ^ 2 - P.alpha ^ 2) * (s ^ 2 - P.alpha ^ 2) /
            ((s ^ 2 - P.alpha ^ 2) * (2 * s * d - 2 * P.alpha) + (s ^ 2 - P.alpha ^ 2) * (2 * s * d - 2 * P.alpha))) := by
          rw [← h2]; rfl
        have eu' : (s ^ 2 - P.alpha ^ 2) * (s ^ 2 - P.alpha ^ 2) /
            ((s ^ 2 - P.alpha ^ 2) * (2 * s * d - 2 * P.alpha) + (s ^ 2 - P.alpha ^ 2) * (2 * s * d - 2 * P.alpha)) = (s ^ 2 - P.alpha ^ 2) / (4 * (s * d - P.alpha)) := by
          rw [div_eq_div_iff]
          · ring
          · rw [← two_mul]; exact mul_ne_zero two_ne_zero (mul_ne_zero hn h1)
          · exact mul_ne_zero (by norm_num) h1'
        rw [eu, eu', ha3]
        field_simp
        ring
      unfold ell
      simp only [mul_zero, Real.cosh_zero, Real.sinh_zero, hb1, hb2, hb3]
      linear_combination P.coeffs.w * sin (P.coeffs.w * x) * hu

/-- **C86 (arrays).**  With `transpose` all arrays have the same shape, and the entries at `(j, i)` belong to one point of the grid, which covers the channel
from wall to wall.  Without it the velocities and the temperature of that point are at `(i, j)` while its coordinates stay at `(j, i)`. -/
theorem C86_arrays (P : Params) (nx ny : ℕ) (tr : Bool) (r : Result) (h : solution P nx ny tr = some r) (c : Coeffs) (hc : coefficients P = some c)
    (i j : ℕ) (hi : i < nx) (hj : j < ny) :
    ∃ x y, (r.x[j]?.bind (·[i]?)) = some x ∧ (r.y[j]?.bind (·[i]?)) = some y ∧
      x = -P.length - 1 / 2 + i * (2 * P.length / ((nx : ℝ) - 1)) ∧ y = -P.half + j * (2 * P.half / ((ny : ℝ) - 1)) ∧
      let k := if tr then (j, i) else (i, j)
      (r.ux[k.1]?.bind (·[k.2]?)) = some (velocityX c x y) ∧ (r.uy[k.1]?.bind (·[k.2]?)) = some (velocityY c x y) ∧
        (r.t[k.1]?.bind (·[k.2]?)) = some (temperature P c x y) := by
  have hmp : c.mp = P.half := by
    by_cases hR : Regular P
    · rw [coefficients_regular hR] at hc
      injection hc with hc
      rw [← hc]; rfl
    · rw [coefficients_irregular hR] at hc
      simp at hc
  have hx : (linspace (-P.length - 1 / 2) (P.length - 1 / 2) nx)[i]? = some (-P.length - 1 / 2 + i * (2 * P.length / ((nx : ℝ) - 1))) := by
    unfold linspace
    rw [List.getElem?_map, List.getElem?_range hi]
    simp only [Option.map_some]
    congr 3
    ring
  have hy : (linspace (-c.mp) c.mp ny)[j]? = some (-P.half + j * (2 * P.half / ((ny : ℝ) - 1))) := by
    unfold linspace
    rw [List.getElem?_map, List.getElem?_range hj, hmp]
    simp only [Option.map_some]
    congr 3
    ring
  simp only [solution, hc, Option.bind_eq_bind, Option.bind_some] at h
  refine ⟨_, _, ?_, ?_, rfl, rfl, ?_⟩
  · cases tr <;> simp only [Bool.false_eq_true, if_false, if_true, Option.some.injEq] at h <;> subst h <;>
      simp only [List.getElem?_map, hy, Option.map_some, Option.bind_some, hx]
  · cases tr <;> simp only [Bool.false_eq_true, if_false, if_true, Option.some.injEq] at h <;> subst h <;>
      simp only [List.getElem?_map, hy, Option.map_some, Option.bind_some, hx]
  · cases tr <;> simp only [Bool.false_eq_true, if_false, if_true, Option.some.injEq] at h <;> subst h <;>
      simp only [fill, fillT, List.getElem?_map, hx, hy, Option.map_some, Option.bind_some, Bool.false_eq_true, if_false, if_true, and_self]

/-- **C86 (period).**  The solution has the period of the channel: twice the length. -/
theorem C86_period (P : Params) (hL : P.length ≠ 0) (c : Coeffs) (hc : coefficients P = some c) (x y : ℝ) :
    velocityX c (x + 2 * P.length) y = velocityX c x y ∧ velocityY c (x + 2 * P.length) y = velocityY c x y ∧
      temperature P c (x + 2 * P.length) y = temperature P c x y := by
  have hw : c.w = π / P.length := by
    by_cases hR : Regular P
    · rw [coefficients_regular hR] at hc
      injection hc with hc
      rw [← hc]; rfl
    · rw [coefficients_irregular hR] at hc
      simp at hc
  have e : c.w * (x + 2 * P.length) = c.w * x + 2 * π := by
    rw [hw]; field_simp
  unfold velocityX velocityY temperature
  rw [e, Real.sin_add_two_pi, Real.cos_add_two_pi]
  exact ⟨rfl, rfl, rfl⟩

/-! ### Examples -/

/-- A channel with a better conducting upper fluid. -/
noncomputable def exParams : Params :=
  { length := 100, kappaTop := 2, kappaBottom := 1, tH := 20, tC := 10, t0 := 4, sigmaT := -1 / 100, viscosity := 1 / 5 }

theorem exRegular : Regular exParams := by
  refine ⟨by norm_num [exParams], by norm_num [exParams], (half_pos (by norm_num [exParams])).ne', by norm_num [exParams], by norm_num [exParams]⟩

example : ∃ c, coefficients exParams = some c ∧ (∃ a b, Heat exParams.half 2 1 (fun _ => 10) (fun x => 20 + 4 * cos (π / 100 * x)) (temperature exParams c) a b) ∧
    ∃ a b d e, Flow exParams.half (1 / 5) (-1 / 100) (temperature exParams c) (velocityX c) (velocityY c) a b d e :=
  ⟨_, coefficients_regular exRegular, C86_heat exParams (by norm_num [exParams]) _ (coefficients_regular exRegular),
    C86_flow exParams (by norm_num [exParams]) _ (coefficients_regular exRegular)⟩

/-- The flow is not at rest: with a surface tension that falls with the temperature the interface moves from the hot to the cold. -/
example : 0 < exParams.coeffs.umax := by
  have ha : 0 < exParams.alpha := mul_pos (half_pos (by norm_num [exParams])) (div_pos Real.pi_pos (by norm_num [exParams]))
  have h1 := sq_sinh_pos ha.ne'
  have h2 := Real.self_lt_sinh_iff.2 (show 0 < 2 * exParams.alpha by linarith)
  have h3 : 0 < sinh exParams.alpha := Real.sinh_pos_iff.2 ha
  have h4 := Real.cosh_pos exParams.alpha
  show 0 < -1 * (exParams.t0 * exParams.sigmaT / exParams.viscosity) * _ * _
  refine mul_pos (mul_pos (by norm_num [exParams]) (mul_pos h3 ?_)) (div_pos (mul_pos h1 h1) ?_)
  · refine one_div_pos.2 ?_
    have : exParams.kappaTop / exParams.kappaBottom = 2 := by norm_num [exParams]
    rw [this]
    positivity
  · have := mul_pos h1 (show 0 < sinh (2 * exParams.alpha) - 2 * exParams.alpha by linarith)
    linarith

example (nx ny : ℕ) (tr : Bool) : solution { exParams with length := 3 } nx ny tr = none :=
  (C86_errors _ nx ny tr).2 (Or.inr (Or.inl (by norm_num)))

end Microchannel
end Lbm
