/-
Model of the free energy with high density ratio (`phasefield/high_density_ratio_model.py`).

The antiderivative of `eos / density²` comes out of sympy and is a parameter, as in `Verif.Eos`; the removal of small floating point
numbers (`remove_small_floats`) is not modelled, numbers are exact.  Gradients enter by their squares.
-/
import Verif.Eos

namespace Lbm
namespace HighDensityRatio

open Eos

/-- The solution of `sp.solve(equal_psi_condition, symbolic_integration_constant)` (`high_density_ratio_model.py:33-36`): the condition is linear in the
constant with the difference of the densities as coefficient.  For equal densities the condition is `0`, the list of solutions is empty and the
assertion fails. -/
noncomputable def integrationConstant (G : ℝ → ℝ) (gas liquid : ℝ) : Except PyErr ℝ :=
  if gas - liquid = 0 then .error .assertion else .ok ((G liquid * liquid - G gas * gas) / (gas - liquid))

/-- `psi_eos - psi_0` with the integration constant (`high_density_ratio_model.py:37-40`) -/
noncomputable def psi (G : ℝ → ℝ) (const gas density : ℝ) : ℝ := freeEnergyFromEos G const density - freeEnergyFromEos G const gas

/-- `f` (`high_density_ratio_model.py:43-44`) -/
def wellF (c : ℝ) : ℝ := c ^ 2 * (1 - c) ^ 2

/-- The prefactors: `lambdas` and `kappas`. -/
structure Factors where
  lam0 : ℝ
  lam1 : ℝ
  lam2 : ℝ
  kap0 : ℝ
  kap1 : ℝ
  kap2 : ℝ

/-- The state at a point: density, concentrations, and the squares of their gradients. -/
structure Point where
  density : ℝ
  c1 : ℝ
  c2 : ℝ
  gradDensity : ℝ
  gradC1 : ℝ
  gradC2 : ℝ

/-- `f_bulk` (`high_density_ratio_model.py:46-48`) -/
noncomputable def bulk (P : Factors) (G : ℝ → ℝ) (const gas : ℝ) (x : Point) : ℝ :=
  P.lam0 / 2 * psi G const gas x.density + P.lam1 / 2 * wellF x.c1 + P.lam2 / 2 * wellF x.c2

/-- `f_interface` (`high_density_ratio_model.py:49-51`) -/
noncomputable def interface (P : Factors) (x : Point) : ℝ := P.kap0 / 2 * x.gradDensity + P.kap1 / 2 * x.gradC1 + P.kap2 / 2 * x.gradC2

/-- `free_energy_high_density_ratio` (`high_density_ratio_model.py:8-52`) as a function of the state -/
noncomputable def freeEnergy (P : Factors) (G : ℝ → ℝ) (gas liquid : ℝ) : Except PyErr (Point → ℝ) := do
  let const ← integrationConstant G gas liquid
  .ok fun x => bulk P G const gas x + interface P x

end HighDensityRatio
end Lbm
