/-
Model of the coefficients of the correction and stabilisation terms in `phasefield/n_phase_boyer.py` (lines 200-230, 253-280).

Expressions are their values.  `sp.solve` is modelled by the equations it solves.
-/
import Verif.Boyer

namespace Lbm
namespace Boyer

open Matrix

variable {K : Type} [Field K] {n : ℕ}

/-- Entries of the vectors returned by `capital_lambda` and `capital_theta_helper`: a number, `sp.oo`, or a `sp.Dummy` that was not
replaced because `sp.solve` found no solution. -/
inductive Entry (K : Type)
  | num (x : K)
  | oo
  | dummy

/-- The linear systems of both functions (`n_phase_boyer.py:217-227`, `265-277`): the rows and columns of `alpha` outside the index tuple. -/
def BlockSystem (alpha : Matrix (Fin n) (Fin n) K) (index : List (Fin n)) (rhs x : Fin n → K) : Prop :=
  ∀ i, i ∉ index → -rhs i + ∑ j, (if j ∈ index then 0 else alpha i j * x j) = 0

open Classical in
/-- `unknowns` after the substitution of the solution (`n_phase_boyer.py:213-215, 228-230` and `261-263, 278-280`).  If there were several
solutions, `sp.solve` would return a parametrisation; see `C83_unique`. -/
noncomputable def solveBlock (alpha : Matrix (Fin n) (Fin n) K) (index : List (Fin n)) (rhs : Fin n → K) : Fin n → Entry K :=
  if h : ∃ x, BlockSystem alpha index rhs x then fun i => if i ∈ index then .oo else .num (h.choose i)
  else fun i => if i ∈ index then .oo else .dummy

/-- `capital_gamma` (`n_phase_boyer.py:200-206`). -/
noncomputable def capitalGamma (sigma : Matrix (Fin n) (Fin n) K) (i j k m : Fin n) : Except PyErr K :=
  if ¬(j ≤ k ∧ k ≤ m) then .error .assertion
  else do
    let (alpha, gamma) ← diffusionCoefficients sigma
    pure (-6 * (alpha i j * (sigma j k + sigma j m) + alpha i k * (sigma j k + sigma k m) + alpha i m * (sigma j m + sigma k m) - gamma i))

/-- `capital_lambda` (`n_phase_boyer.py:209-230`) for a triple. -/
noncomputable def capitalLambda (sigma : Matrix (Fin n) (Fin n) K) (j k m : Fin n) : Except PyErr (Fin n → Entry K) := do
  let (alpha, _) ← diffusionCoefficients sigma
  let rhs ← (List.finRange n).mapM fun i => if i ∈ [j, k, m] then pure 0 else capitalGamma sigma i j k m
  pure (solveBlock alpha [j, k, m] fun i => rhs.getD i 0)

/-- `capital_theta_helper` (`n_phase_boyer.py:259-280`). -/
noncomputable def capitalThetaHelper (alpha : Matrix (Fin n) (Fin n) K) (j0 k0 l0 : Fin n) : Fin n → Entry K :=
  solveBlock alpha [j0, k0, l0] fun i => 2 * alpha i l0

/-- `capital_theta` (`n_phase_boyer.py:253-256`) for `index = (i, j, k, l)`. -/
noncomputable def capitalTheta (alpha : Matrix (Fin n) (Fin n) K) (i j k l : Fin n) : Entry K := capitalThetaHelper alpha i j l k

/-- `capital_f` of `free_energy` and `chemical_potential_n_phase_boyer` (`n_phase_boyer.py:127-129, 336`). -/
noncomputable def capitalF (sigma : Fin n → Fin n → ℝ) (coeff : List (Fin n) → Fin n → ℝ) (theta : Fin n → Fin n → Fin n → Fin n → ℝ)
    (correctionFactor : ℝ) (c : Fin n → ℝ) : ℝ :=
  capitalF0 c sigma + correctionG coeff c + correctionFactor * stabilizationTerm theta c

end Boyer
end Lbm
