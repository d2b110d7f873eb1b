/-
Model of `turbulence_models.py` and `non_newtonian_models.py`: the local relaxation rates computed in one cell.

Values are real numbers. A division by zero or the square root of a negative number makes the generated C code produce
infinities or NaN; here such a value is `none`.
-/
import Mathlib.Analysis.SpecialFunctions.Sqrt
import Mathlib.LinearAlgebra.Matrix.Determinant.Basic
import Mathlib.LinearAlgebra.Matrix.Trace
import Verif.Parameters
import Verif.StencilCtor

namespace Lbm

variable {Q D : ℕ}

/-- `sp.sqrt` in generated code -/
noncomputable def pySqrt (x : ℝ) : Option ℝ := if x < 0 then none else some (Real.sqrt x)

/-- `a / b` on reals -/
noncomputable def realDiv (a b : ℝ) : Option ℝ := @pyDiv ℝ _ (Classical.decEq ℝ) a b

/-- `relaxation_rate_from_lattice_viscosity` on reals -/
noncomputable def realRate (nu : ℝ) : Option ℝ := @rateOfViscosity ℝ _ (Classical.decEq ℝ) nu

/-- `lattice_viscosity_from_relaxation_rate` on reals -/
noncomputable def realViscosity (ω : ℝ) : Option ℝ := @viscosityOfRate ℝ _ (Classical.decEq ℝ) ω

/-- `second_order_moment_tensor` (`utils.py:4-7`) -/
def secondMomentTensor (c : Fin Q → Fin D → ℤ) (f : Fin Q → ℝ) : Matrix (Fin D) (Fin D) ℝ :=
  fun i j => ∑ q, (c q i : ℝ) * (c q j : ℝ) * f q

/-- `frobenius_norm` (`utils.py:10-13`) -/
noncomputable def frobeniusNorm (A : Matrix (Fin D) (Fin D) ℝ) (factor : ℝ := 1) : Option ℝ :=
  pySqrt ((∑ i, ∑ j, A i j * A i j) * factor)

/-- `subgrid_scale_model` of `add_sgs_model` (`turbulence_models.py:11-24`) -/
inductive SgsModel where
  | smagorinsky
  | qr
  deriving DecidableEq

/-- `model_constant if model_constant else default` (`turbulence_models.py:16,20`): 0 is falsy -/
noncomputable def sgsConstant (m : SgsModel) (constant : Option ℝ) : ℝ :=
  match constant with
  | some c => if c = 0 then (match m with | .smagorinsky => 0.12 | .qr => 1 / 3) else c
  | none => match m with | .smagorinsky => 0.12 | .qr => 1 / 3

/-- `Pi` of the Smagorinsky model (`turbulence_models.py:56,66-67`) -/
noncomputable def smagorinskyPi (c : Fin Q → Fin D → ℤ) (f feq : Fin Q → ℝ) (rho : ℝ) : Option ℝ := do
  let n ← frobeniusNorm (secondMomentTensor c fun q => f q - feq q) 2
  realDiv n rho

/-- `sgs_omega` of the Smagorinsky model (`turbulence_models.py:65-70`) -/
noncomputable def smagorinskyOmega (omega constant Pi : ℝ) : Option ℝ := do
  let tau0 ← realDiv 1 omega
  let s ← pySqrt (18 * constant ^ 2 * Pi + tau0 ^ 2)
  realDiv 2 (tau0 + s)

/-- value written to `eddy_viscosity_field` (`turbulence_models.py:74-78`) -/
noncomputable def smagorinskyEddyViscosity (constant adapted Pi : ℝ) : ℝ := constant ^ 2 * (3 / 2) * adapted * Pi

/-- `c_pi` of the QR model (`turbulence_models.py:110-116,135-137`) from the tensor `pi` -/
noncomputable def qrC (constant : ℝ) (pi : Matrix (Fin D) (Fin D) ℝ) : Option ℝ :=
  let r := (-1) ^ (D + 1) * pi.det
  let q := 1 / 2 * (pi * pi).trace
  realDiv (constant * if r > 0 then r else 0) q

/-- `nu_e` of the QR model (`turbulence_models.py:120-129`); other dimensions raise -/
noncomputable def qrEddyViscosity (nu0 rho cPi : ℝ) : Except PyErr (Option ℝ) :=
  if D = 2 then .ok (some cPi)
  else if D = 3 then .ok do
    let base := 6 * nu0 + 1
    let x ← realDiv (72 * cPi) rho
    let s ← pySqrt (base ^ 2 + x)
    some ((-base + s) / 12)
  else .error .valueError

/-- `sgs_omega` of the QR model (`turbulence_models.py:133-139`) together with `nu_e` -/
noncomputable def qrOmega (c : Fin Q → Fin D → ℤ) (f feq : Fin Q → ℝ) (rho omega constant : ℝ) :
    Except PyErr (Option (ℝ × ℝ)) := do
  let nuE : ℝ → ℝ → Except PyErr (Option ℝ) := fun nu0 cPi => qrEddyViscosity (D := D) nu0 rho cPi
  let _ ← nuE 0 0
  .ok do
    let nu0 ← realViscosity omega
    let cPi ← qrC constant (secondMomentTensor c fun q => f q - feq q)
    let e ← ((nuE nu0 cPi).toOption).join
    let ω ← realRate (nu0 + e)
    some (ω, e)

/-- `CassonsParameters` (`non_newtonian_models.py:10-23`) -/
structure CassonsParameters where
  yieldStress : ℝ
  omegaMin : ℝ := 0.2
  omegaMax : ℝ := 1.98

/-- right-hand side of equation 14 (`non_newtonian_models.py:62`) -/
noncomputable def cassonRhs (theta rho eta : ℝ) : Option ℝ := do
  let a ← realDiv 1 (1 - theta)
  let b ← realDiv rho eta
  let s ← pySqrt (theta * (1 + b * (1 / 6) * (1 - theta)))
  some (a * (1 + s))

/-- `omega_cond` (`non_newtonian_models.py:65`) -/
noncomputable def cassonClip (p : CassonsParameters) (new : ℝ) : ℝ :=
  if new < p.omegaMin then p.omegaMin else if new > p.omegaMax then p.omegaMax else new

/-- viscosity `mu` of the Casson model for `sigma` (`non_newtonian_models.py:53-70`) -/
noncomputable def cassonMu (p : CassonsParameters) (omega rho sigma : ℝ) : Option ℝ := do
  let eta ← realViscosity omega
  let theta ← realDiv p.yieldStress sigma
  let rhs ← cassonRhs theta rho eta
  some (eta * rhs ^ 2)

/-- `omega_new` (`non_newtonian_models.py:64-72`) -/
noncomputable def cassonOmega (p : CassonsParameters) (omega rho sigma : ℝ) : Option ℝ := do
  let mu ← cassonMu p omega rho sigma
  let r ← realRate mu
  let tau ← realDiv 1 r
  let new ← realDiv 1 tau
  some (cassonClip p new)

/-! ### `extract_shear_relaxation_rate` -/

/-- what can be given as shear relaxation rate, or appear as a right-hand side: a python `float`/`int`, a symbol, or
another sympy expression (also a sympy number), of which only identity is used -/
inductive RateExpr where
  | number (v : ℚ)
  | symbol (s : String)
  | other (v : ℕ)
  deriving DecidableEq

/-- `extract_shear_relaxation_rate` (`utils.py:16-28`): result and whether found. `number v` on the right-hand side is the
sympy number equal to the python number. -/
def extractShearRate (assignments : List (String × RateExpr)) (rate : RateExpr) : RateExpr × Bool :=
  match rate with
  | .number _ => assignments.foldl (fun st eq => if eq.2 = st.1 then (.symbol eq.1, true) else st) (rate, false)
  | _ => (rate, true)

end Lbm
