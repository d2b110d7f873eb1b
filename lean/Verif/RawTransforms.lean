/-
Model of the two transforms between populations and polynomial raw moments, constructors and both directions
(`moment_transforms/rawmomenttransforms.py:20-444`), with the removal of aliases (`moments.py:313-345`) and the shift by the background
distribution, for polynomials and for monomials, without simplifications (see `Simplify`).

Assignments are executed: the result are the values of the main assignments. The equations of the conserved quantities, which the
chimera transform passes on, are not part of the model.
-/
import Verif.CentralTransforms

set_option linter.unusedSectionVars false

namespace Lbm
namespace RawTransforms

open Matrix CentralMoments Chimera CentralTransforms

variable {K : Type} [Field K] {D : ℕ}

/-- `moment` of a polynomial (`abstract_equilibrium.py:108-125`), as used by `_rm_background_shift` (`rawmomenttransforms.py:45-50`) -/
def backgroundMoment (raw : List ℕ → K) (p : MPoly ℤ) : K := (p.map fun t => (t.1 : K) * raw t.2).sum

/-- `moment_polynomials` after the removal of aliases (`rawmomenttransforms.py:208-210`), like terms collected -/
def reduced (st : List (List ℤ)) (polys : List (MPoly ℤ)) : List (MPoly ℤ) :=
  (nonAliasedPolynomials polys (CumulantMethod.sortExponents (extract polys)) st).map collectTerms

/-- `moment_exponents` (`abstractmomenttransform.py:68-71`) -/
def exponents (polys : List (MPoly ℤ)) : List (List ℕ) := CumulantMethod.sortExponents (extract polys)

/-- what the directions compute, for polynomial moments and, with `return_monomials` and `start_from_monomials`, for monomial moments -/
structure Transform (K : Type) (Q : ℕ) where
  exps : List (List ℕ)
  forward : (Fin Q → K) → Fin Q → K
  backward : (Fin Q → K) → Fin Q → K
  forwardMonomials : (Fin Q → K) → Except PyErr (Fin Q → K)
  backwardMonomials : (Fin Q → K) → Except PyErr (Fin Q → K)

open Classical in
/-- `PdfsToMomentsByMatrixTransform` (`rawmomenttransforms.py:54-170`) -/
noncomputable def matrix (D : ℕ) (st : List (List ℤ)) (polys : Fin st.length → MPoly ℤ) (raw : List ℕ → K) :
    Except PyErr (Transform K st.length) :=
  let M := momentMatrix evP polys (velocity st) (0 : Fin D → K)
  let exps := exponents (List.ofFn polys)
  let e : Fin st.length → List ℕ := fun j => exps.getD j []
  let A := momentMatrix evM e (velocity st) (0 : Fin D → K)
  if M.det = 0 then .error .valueError
  else .ok
    { exps
      forward := fun f i => (M *ᵥ f) i + backgroundMoment raw (polys i)
      backward := fun m => M⁻¹ *ᵥ fun i => m i - backgroundMoment raw (polys i)
      forwardMonomials := fun f =>
        if exps.length ≠ st.length then .error .assertion else .ok fun j => (A *ᵥ f) j + raw (e j)
      backwardMonomials := fun m =>
        if exps.length ≠ st.length then .error .assertion
        else if A.det = 0 then .error .valueError else .ok (A⁻¹ *ᵥ fun j => m j - raw (e j)) }

open Classical in
/-- `PdfsToMomentsByChimeraTransform` (`rawmomenttransforms.py:197-413`). The inverse of a matrix that is not square raises
`NonSquareMatrixError`, a `ValueError`. -/
noncomputable def chimera (D : ℕ) (st : List (List ℤ)) (polys : Fin st.length → MPoly ℤ) (raw : List ℕ → K) :
    Except PyErr (Transform K st.length) :=
  let red := reduced st (List.ofFn polys)
  let p : Fin st.length → MPoly ℤ := fun i => red.getD i []
  let exps := exponents red
  let e : Fin st.length → List ℕ := fun j => exps.getD j []
  let A := momentMatrix evM e (velocity st) (0 : Fin D → K)
  let P : Matrix (Fin st.length) (Fin st.length) K := monoToPoly e p
  if exps.length ≠ st.length then .error .valueError
  else if A.det = 0 then .error .valueError
  else if P.det = 0 then .error .valueError
  else .ok
    { exps
      forward := fun f i => (P *ᵥ sums D st rawFactor e f) i + backgroundMoment raw (p i)
      backward := fun m => A⁻¹ *ᵥ (P⁻¹ *ᵥ fun i => m i - backgroundMoment raw (p i))
      forwardMonomials := fun f => .ok fun j => sums D st rawFactor e f j + raw (e j)
      backwardMonomials := fun m => .ok (A⁻¹ *ᵥ fun j => m j - raw (e j)) }

end RawTransforms
end Lbm
