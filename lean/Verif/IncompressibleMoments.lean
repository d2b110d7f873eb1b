import Mathlib.Algebra.MvPolynomial.Eval
import Mathlib.Algebra.MvPolynomial.Variables

/-!
`compressible_to_incompressible_moment_value` (`src/lbmpy/maxwellian_equilibrium.py:230-266`) and its use in
`hydrodynamic_moment_values` (`src/lbmpy/quadratic_equilibrium_construction.py:95-108`).

A term after `expand()` is a multivariate polynomial in its symbols: the summands are the monomials with non-zero
coefficient.  Simplification: symbols with negative exponents are not modelled; with `c_s ** 2 = p / rho` they appear
for moments of order four and higher only.
-/

namespace Lbm
namespace IncompressibleMoments

open MvPolynomial

variable {K σ : Type} [CommRing K]

/-- the body of the loop (`maxwellian_equilibrium.py:259-265`): one is subtracted from the exponent of the density in a
monomial that contains the density and some component of the velocity (`isU`) -/
noncomputable def convertMonomial (rho : σ) (isU : σ → Prop) (m : σ →₀ ℕ) : σ →₀ ℕ :=
  open Classical in if rho ∈ m.support ∧ ∃ i ∈ m.support, isU i then m - Finsupp.single rho 1 else m

/-- `compressible_to_incompressible_moment_value` (`maxwellian_equilibrium.py:251-266`) -/
noncomputable def convert (rho : σ) (isU : σ → Prop) (p : MvPolynomial σ K) : MvPolynomial σ K :=
  ∑ m ∈ p.support, monomial (convertMonomial rho isU m) (coeff m p)

/-- the symbols in `hydrodynamic_moment_values` (`quadratic_equilibrium_construction.py:101,105`) -/
inductive Sym (D : ℕ)
  | rho
  | p
  | u (i : Fin D)
  deriving DecidableEq

/-- is the symbol one of `sp.symbols("u_:3")[:dim]` (`quadratic_equilibrium_construction.py:105`)? -/
def Sym.isU {D : ℕ} (s : Sym D) : Prop := ∃ i, s = .u i

/-- the values returned by `get_equilibrium_values_of_maxwell_boltzmann_function` for `c_s_sq = p / rho` and `order=2`
(`quadratic_equilibrium_construction.py:100-103`) for moments up to order three; exponents are given by the list of the
directions -/
noncomputable def maxwellianValue {D : ℕ} : List (Fin D) → MvPolynomial (Sym D) K
  | [] => X .rho
  | [i] => X .rho * X (.u i)
  | [i, j] => (if i = j then X .p else 0) + X .rho * (X (.u i) * X (.u j))
  | [i, j, k] => (if i = j then X .p * X (.u k) else 0) + (if i = k then X .p * X (.u j) else 0) +
      if j = k then X .p * X (.u i) else 0
  | _ => 0

/-- `hydrodynamic_moment_values` (`quadratic_equilibrium_construction.py:95-108`), orders up to three -/
noncomputable def hydrodynamicMomentValue {D : ℕ} (compressible : Bool) (l : List (Fin D)) : MvPolynomial (Sym D) K :=
  if !compressible then convert .rho Sym.isU (maxwellianValue l) else maxwellianValue l

end IncompressibleMoments
end Lbm
