import Verif.AllenCahn

/-!
# Parameters of two-phase benchmark set-ups

Model of the functions of `/repo/src/lbmpy/phasefield_allen_cahn/parameter_calculation.py` that compute the parameters
of a simulation from dimensionless numbers.  `none` is an exception (`ZeroDivisionError` or the `ValueError` of
`math.sqrt`); floats are real numbers.
-/

namespace Lbm
namespace AllenCahn

/-- `calculate_parameters_rti`; parameter_calculation.py:226-274. -/
noncomputable def rti (length time rhoH capillary reynolds atwood peclet densityRatio viscosityRatio : ℝ) :
    Option Params :=
  (realDiv length (time ^ 2 * atwood)).bind fun g =>
  (pySqrt (g * length)).bind fun u =>
  (realDiv (rhoH * u * length) reynolds).bind fun muH =>
  (realDiv muH viscosityRatio).bind fun muL =>
  (realDiv rhoH densityRatio).bind fun rhoL =>
  (realDiv (muH * u) capillary).bind fun sigma =>
  (realDiv (u * length) peclet).map fun mobility =>
    { rhoH := rhoH, rhoL := rhoL, muH := muH, muL := muL, sigma := sigma, mobility := mobility, gravity := -g }

/-- `calculate_dimensionless_rising_bubble`; parameter_calculation.py:277-319. -/
noncomputable def risingBubble (time rhoH radius bond reynolds densityRatio viscosityRatio : ℝ) : Option Params :=
  let d := radius * 2
  (realDiv d (time ^ 2)).bind fun g =>
  (realDiv rhoH densityRatio).bind fun rhoL =>
  (pySqrt (g * d ^ 3)).bind fun s =>
  (realDiv (rhoH * s) reynolds).bind fun muH =>
  (realDiv muH viscosityRatio).bind fun muL =>
  (realDiv ((rhoH - rhoL) * g * d ^ 2) bond).map fun sigma =>
    { rhoH := rhoH, rhoL := rhoL, muH := muH, muL := muL, sigma := sigma, gravity := -g }

/-- Water and air: density, viscosity, surface tension and gravity in SI units; parameter_calculation.py:340-345. -/
structure Physical where
  waterRho : ℝ := 998
  airRho : ℝ := 12047 / 10000
  sigma : ℝ := 7286 / 100000
  waterMu : ℝ := 1002 / 1000000
  airMu : ℝ := 18205 / 1000000000
  gravity : ℝ := 981 / 100

/-- `calculate_parameters_taylor_bubble`; parameter_calculation.py:322-380.  The physical constants are those of the
code. -/
noncomputable def taylorBubble (length time rhoH outer inner : ℝ) : Option Params :=
  let c : Physical := {}
  let fluid := outer - inner
  (realDiv outer inner).bind fun ratio =>
  (pySqrt ((c.waterRho - c.airRho) * c.waterRho * c.gravity * fluid ^ 3)).bind fun s =>
  let inverseViscosity := s / c.waterMu
  let bond := (c.waterRho - c.airRho) * c.gravity * fluid ^ 2 / c.sigma
  (realDiv length ratio).bind fun innerLattice =>
  let rhoL := 1 / (c.waterRho / c.airRho)
  let fluidLattice := length - innerLattice
  (realDiv fluidLattice (time ^ 2)).bind fun g =>
  let diff := rhoH - rhoL
  (pySqrt (diff * rhoH * (g * fluidLattice ^ 3))).bind fun s2 =>
  (realDiv s2 inverseViscosity).bind fun muH =>
  let muL := muH / (c.waterMu / c.airMu)
  (realDiv (diff * g * fluidLattice ^ 2) bond).map fun sigma =>
    { rhoH := rhoH, rhoL := rhoL, muH := muH, muL := muL, sigma := sigma, gravity := -g }

/-- The parameters of `ThermocapillaryParameters` beyond `AllenCahnParameters`, with their defaults;
parameter_calculation.py:147-168. -/
structure ThermoParams where
  base : Params
  heatH : ℝ
  heatL : ℝ
  sigmaRef : ℝ := 5 / 1000
  sigmaT : ℝ := 2 / 10000
  tmpRef : ℝ := 0
  wall : ℝ := 0
  time : ℤ := 10

/-- `calculate_parameters_droplet_migration`; parameter_calculation.py:383-435.  `int` truncates towards zero; the
argument is positive whenever the value is defined. -/
noncomputable def dropletMigration (radius reynolds capillary marangoni peclet viscosityRatio heatRatio width
    sigmaRef : ℝ) (height : Option ℝ) : Option ThermoParams :=
  let h := height.getD (2 * radius)
  (realDiv (reynolds * capillary * sigmaRef) radius).bind fun q =>
  (pySqrt q).bind fun u =>
  (realDiv u radius).bind fun gamma =>
  (realDiv (radius * u) reynolds).bind fun nuH =>
  (realDiv nuH viscosityRatio).bind fun nuL =>
  (realDiv (radius * u) marangoni).bind fun heatH =>
  (realDiv heatH heatRatio).bind fun heatL =>
  (realDiv (gamma * radius * width) peclet).bind fun mobility =>
  (realDiv 1 gamma).map fun time : ℝ =>
    { base := { rhoH := 1, rhoL := 1, muH := nuH, muL := nuL, sigma := 0, mobility := mobility }
      heatH := heatH, heatL := heatL, wall := gamma * h, time := if 0 ≤ time then ⌊time⌋ else ⌈time⌉ }

end AllenCahn
end Lbm
