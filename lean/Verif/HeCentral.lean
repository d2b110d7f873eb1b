/-
Model of the force model `He` in central moment space (`forcemodels.py:370-435`).

The raw moments of the force are those of `ForceModels.lean` (`heMonomial`, `hePolynomial`); the shift matrix is that of
`CentralMoments.lean`. Expressions in the velocity are functions of the velocity.
-/
import Verif.CentralTransforms
import Verif.ForceModels

set_option linter.unusedSectionVars false

namespace Lbm
namespace HeCentral

open Matrix CentralMoments CentralTransforms

variable {K : Type} [Field K] {D : ℕ}

/-- exponents of a tuple -/
def exponents (D : ℕ) (e : List ℕ) : Fin D → ℕ := fun a => e.getD a 0

/-- `continuous_force_raw_moments` for one polynomial (`forcemodels.py:370-397`) -/
def rawMoment (rho : K) (u F : Fin D → K) (p : MPoly ℤ) : K := hePolynomial rho u F (p.map fun t => ((t.1 : K), exponents D t.2))

/-- `continuous_force_central_moments` (`forcemodels.py:400-406`) -/
noncomputable def centralMoments (st : List (List ℤ)) (polys : Fin st.length → MPoly ℤ) (rho : K) (u F : Fin D → K) :
    Except PyErr (Fin st.length → K) :=
  match setUpShiftMatrix evP polys (velocity (K := K) (D := D) st) with
  | .error e => .error e
  | .ok N => .ok (N u *ᵥ fun i => rawMoment rho u F (polys i))

/-- `central_moment_space_forcing` (`forcemodels.py:426-430`) for relaxation rates `d` -/
noncomputable def centralForcing (st : List (List ℤ)) (polys : Fin st.length → MPoly ℤ) (d : Fin st.length → K) (rho : K)
    (u F : Fin D → K) : Except PyErr (Fin st.length → K) :=
  match centralMoments st polys rho u F with
  | .error e => .error e
  | .ok k => .ok (diagonal (fun i => 1 - 1 / 2 * d i) *ᵥ k)

/-- `symmetric_central_moment_forcing` (`forcemodels.py:432-435`): terms before and after the collision -/
noncomputable def symmetricForcing (st : List (List ℤ)) (polys : Fin st.length → MPoly ℤ) (rho : K) (u F : Fin D → K) :
    Except PyErr ((Fin st.length → K) × (Fin st.length → K)) :=
  match centralMoments st polys rho u F with
  | .error e => .error e
  | .ok k => .ok (fun i => 1 / 2 * k i, fun i => 1 / 2 * k i)

end HeCentral
end Lbm
