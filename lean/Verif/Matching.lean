/-
Model of `generate_equilibrium_by_matching_moments` (`maxwellian_equilibrium.py:124-139`) and of
`discrete_equilibrium_from_matching_moments` (`equilibrium/generic_discrete_equilibrium.py:9-23`): populations determined
by prescribed moments. Moments are exponent tuples, values are real numbers.
-/
import Verif.Continuous
import Verif.Collision

namespace Lbm
namespace Matching

/-- an entry of `moment_matrix` (`moments.py:415-439`): the monomial with exponents `e` at the velocity `v` -/
def monomialAt (v : List ℤ) (e : List ℕ) : ℝ := ((List.zipWith (fun c k => c ^ k) v e).prod : ℤ)

/-- `moment_matrix(moments, stencil)` for as many moments as velocities (`moments.py:415-439`) -/
def momentMatrix (st : List (List ℤ)) (moments : List (List ℕ)) : Matrix (Fin st.length) (Fin st.length) ℝ :=
  fun k q => monomialAt (st.get q) (moments.getD k [])

/-- `generate_equilibrium_by_matching_moments` for `order=None` (`maxwellian_equilibrium.py:124-139`). The assertion on the
rank fails exactly for matrices that are not invertible. -/
noncomputable def matchingMaxwellian (D : ℕ) (st : List (List ℤ)) (moments : List (List ℕ)) (rho : ℝ) (u : Fin D → ℝ)
    (csq : ℝ) : Except PyErr (Fin st.length → ℝ) :=
  if moments.length ≠ st.length then .error .assertion
  else
    let values : Fin st.length → ℝ := fun k =>
      Continuous.continuousMoment (Continuous.maxwellian rho u csq) fun i => (moments.getD k []).getD i 0
    let M := momentMatrix st moments
    if M.det = 0 then .error .assertion else .ok (M⁻¹.mulVec values)

/-- `discrete_equilibrium_from_matching_moments` (`generic_discrete_equilibrium.py:9-23`); the constraints are a dictionary
from moments to values -/
noncomputable def fromMatchingMoments (st : List (List ℤ)) (constraints : List (List ℕ × ℝ)) :
    Except PyErr (Fin st.length → ℝ) :=
  if constraints.length ≠ st.length then .error .assertion
  else
    match MomentMethod.pyInv (momentMatrix st (constraints.map Prod.fst)) with
    | .ok inv => .ok (inv.mulVec fun k => (constraints.map Prod.snd).getD k 0)
    | .error _ => .error .valueError

end Matching
end Lbm
