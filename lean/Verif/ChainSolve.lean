/-
Model of `chain_solve_and_substitute` (`chapman_enskog/chapman_enskog.py:411-438`) and `compute_higher_order_moment_subs_dict`
(`chapman_enskog.py:619-629`).

Equations are affine in the unknowns `U` (the time derivatives): coefficients are elements of a field `F` (expressions in the
known fields), the remainder is an element of a vector space `W` over it.  For the moment equations `W` is the space of
affine expressions in the moments.  That is the form after `diff_expand_normalizer`, which does not change values; unknowns
inside of further derivatives are not modelled.
-/
import Verif.StencilCtor
import Mathlib.Data.Finsupp.Basic
import Mathlib.Algebra.BigOperators.Finsupp.Basic
import Mathlib.LinearAlgebra.Finsupp.LinearCombination
import Mathlib.LinearAlgebra.Prod

namespace Lbm
namespace ChainSolve

variable {F U W : Type} [Field F] [AddCommGroup W] [Module F W] [DecidableEq U]

/-- an equation `Σ a_u u + w = 0` -/
structure Eqn (F U W : Type) [Zero F] where
  coeff : U →₀ F
  rest : W

open Classical in
/-- `eq.subs(subs_dict)` (`chapman_enskog.py:425`); the solutions in the dict contain no unknowns, see `chain` -/
noncomputable def subs (d : List (U × W)) (e : Eqn F U W) : Eqn F U W where
  coeff := e.coeff.filter fun u => d.lookup u = none
  rest := e.rest + e.coeff.sum fun u a => match d.lookup u with
    | some w => a • w
    | none => 0

/-- `chain_solve_and_substitute` (`chapman_enskog.py:411-438`) with the dict that has been built so far; the result is
`result_assignments, subs_dict`.  The equations are affine, so that `sp.solve` has one solution. -/
noncomputable def chain : List (Eqn F U W) → List (U × W) → Except PyErr (List (Eqn F U W) × List (U × W))
  | [], d => .ok ([], d)
  | e :: es, d =>
    let e' := subs d e
    match e'.coeff.support.toList with
    | [] => (chain es d).map fun r => (e' :: r.1, r.2)
    | [u] => (chain es (d ++ [(u, -((e'.coeff u)⁻¹ • e'.rest))])).map fun r => (e' :: r.1, r.2)
    | _ => .error .assertion

/-- affine expressions in the moments -/
abbrev Affine (F M : Type) [Field F] := (M →₀ F) × F

/-- the value of an affine expression -/
noncomputable def evalMoments {M : Type} (m : M → F) : Affine F M →ₗ[F] F :=
  (Finsupp.linearCombination F m).comp (LinearMap.fst F _ _) + LinearMap.snd F _ _

/-- `pi_ab_equations` (`chapman_enskog.py:622-628`) -/
noncomputable def momentEquations {M : Type} (res : List (Eqn F U (Affine F M))) : List (Eqn F U (Affine F M)) := by
  classical exact res.filter fun e => e.rest.1 ≠ 0

/-- `moments_to_solve_for` (`chapman_enskog.py:621-627`) -/
noncomputable def momentsToSolve {M : Type} (res : List (Eqn F U (Affine F M))) : Set M :=
  {k | ∃ e ∈ momentEquations res, e.rest.1 k ≠ 0}

/-- a solution of the moment equations: values of the moments to solve for, others are zero -/
def IsSolution {M : Type} (res : List (Eqn F U (Affine F M))) (m : M → F) : Prop :=
  (∀ e ∈ momentEquations res, evalMoments m e.rest = 0) ∧ ∀ k, k ∉ momentsToSolve res → m k = 0

open Classical in
/-- `compute_higher_order_moment_subs_dict` (`chapman_enskog.py:619-629`): the values of the moments.  `none` where `sp.solve` does
not return a number for each moment: there is no solution, or there are several, or time derivatives are left in the equations. -/
noncomputable def momentSubsDict {M : Type} (eqs : List (Eqn F U (Affine F M))) : Except PyErr (Option (M → F)) :=
  (chain eqs []).map fun r =>
    if h : (∀ e ∈ momentEquations r.1, e.coeff = 0) ∧ ∃! m, IsSolution r.1 m then some h.2.choose else none

end ChainSolve
end Lbm
