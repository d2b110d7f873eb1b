import Verif.StencilCtor
import Mathlib.Algebra.MvPolynomial.Basic
import Mathlib.Algebra.MvPolynomial.Eval

/-!
# Construction of quadratic equilibria

`quadratic_equilibrium_construction.py`.  Equilibria are polynomials in the velocity components with coefficients in a field `K`,
where also the values of the parameters lie.  `sp.solve` is modelled by what it returns for the systems at hand: nothing for a
system without solution, and otherwise the values of the symbols that occur, in terms of the others if they are not
determined.  Values are compared as numbers and not as expressions.
-/

namespace Lbm
namespace QuadraticEq

open MvPolynomial

variable {D : ℕ} {K : Type} [Field K]

/-- The four letters of `get_parameter_symbols` (`quadratic_equilibrium_construction.py`, lines 111-112). -/
inductive Letter where
  | A | B | C | D
  deriving DecidableEq

/-- `np.abs(direction).sum()` (lines 23, 34, 64) -/
def speed (d : Vec D) : ℕ := ∑ i, (d i).natAbs

/-- Values of the four parameters for one speed. -/
structure Sol (K : Type) where
  a : K
  b : K
  c : K
  d : K

/-- `scalar_product(u, direction)` (lines 25, 66) -/
noncomputable def uTimesD (K : Type) [Field K] (d : Vec D) : MvPolynomial (Fin D) K := ∑ i, X i * C ((d i : ℤ) : K)

/-- `scalar_product(u, u)` (lines 26, 67) -/
noncomputable def uTimesU (D : ℕ) (K : Type) [Field K] : MvPolynomial (Fin D) K := ∑ i, X i * X i

/-- The quadratic form with given values of the parameters (lines 26, 67). -/
noncomputable def generic (s : Sol K) (d : Vec D) : MvPolynomial (Fin D) K :=
  C s.a + C s.b * uTimesD K d + C s.c * uTimesD K d ^ 2 + C s.d * uTimesU D K

/-- `generic_equilibrium_ansatz` (lines 14-28), the parameters of each speed inserted. -/
noncomputable def ansatz (par : ℕ → Sol K) (stencil : List (Vec D)) : List (MvPolynomial (Fin D) K) :=
  stencil.map fun d => generic (par (speed d)) d

/-- `generic_equilibrium_ansatz_parameters` (lines 31-38); `none` is the symbol `p`.  The order of the list is not modelled. -/
def ansatzParameters (stencil : List (Vec D)) : List (Option (Letter × ℕ)) :=
  (stencil.flatMap fun d => [some (Letter.A, speed d), some (.B, speed d), some (.C, speed d), some (.D, speed d)]).dedup ++ [none]

/-- A value `const + coeff * D` with the symbol `D` of the same speed. -/
structure Val (K : Type) where
  const : K
  coeff : K
  deriving DecidableEq

/-- The items of `solve_res` (line 70) for a solution of the system: `B` and `C` do not occur for the rest direction.  In one dimension
the squares are the same and `C` is given in terms of `D`; the square of the component is the square of the speed. -/
def solved (D s : ℕ) (v : Sol K) : List (Letter × Val K) :=
  if s = 0 then [(.A, ⟨v.a, 0⟩), (.D, ⟨v.d, 0⟩)]
  else if D = 1 then [(.A, ⟨v.a, 0⟩), (.B, ⟨v.b, 0⟩), (.C, ⟨v.c + v.d / (s : K) ^ 2, -1 / (s : K) ^ 2⟩)]
  else [(.A, ⟨v.a, 0⟩), (.B, ⟨v.b, 0⟩), (.C, ⟨v.c, 0⟩), (.D, ⟨v.d, 0⟩)]

open Classical in
/-- `sp.solve(equations, [a, b, c, d])` (lines 69-70): all coefficients of the difference are zero. -/
noncomputable def solve (d : Vec D) (f : MvPolynomial (Fin D) K) : Option (List (Letter × Val K)) :=
  if h : ∃ v : Sol K, f - generic v d = 0 then some (solved D (speed d) h.choose) else none

section dict
variable [DecidableEq K]

/-- The dictionary `result`. -/
abbrev Dict (K : Type) := List ((Letter × ℕ) × Val K)

/-- The loop over the items (lines 73-76). -/
def addItems (s : ℕ) : List (Letter × Val K) → Dict K → Except PyErr (Dict K)
  | [], r => .ok r
  | (l, v) :: items, r =>
    match r.lookup (l, s) with
    | some v' => if v' ≠ v then .error .valueError else addItems s items r
    | none => addItems s items (r ++ [((l, s), v)])

/-- The loop over the directions (lines 63-76). -/
noncomputable def matchLoop : List (Vec D × MvPolynomial (Fin D) K) → Dict K → Except PyErr (Dict K)
  | [], r => .ok r
  | (d, f) :: rest, r =>
    match solve d f with
    | none => .error .valueError
    | some items => (addItems (speed d) items r).bind (matchLoop rest)

/-- `match_generic_equilibrium_ansatz` (lines 41-78) -/
noncomputable def matchAnsatz (stencil : List (Vec D)) (equilibrium : List (MvPolynomial (Fin D) K)) : Except PyErr (Dict K) :=
  matchLoop (stencil.zip equilibrium) []

end dict

/-- `discrete_moment` of polynomial populations (line 89). -/
noncomputable def discreteMoment (stencil : List (Vec D)) (f : List (MvPolynomial (Fin D) K)) (e : Fin D → ℕ) :
    MvPolynomial (Fin D) K :=
  ((stencil.zip f).map fun p => C (∏ i, ((p.1 i : ℤ) : K) ^ e i) * p.2).sum

/-- `moment_constraint_equations` (lines 81-92): the set of the coefficients of the differences.  `Poly.coeffs` returns the
coefficients that are not zero, and zero for the zero polynomial. -/
def momentConstraints (stencil : List (Vec D)) (f : List (MvPolynomial (Fin D) K))
    (values : List ((Fin D → ℕ) × MvPolynomial (Fin D) K)) : Set K :=
  {x | ∃ mv ∈ values, (∃ p ∈ (discreteMoment stencil f mv.1 - mv.2).support, x = coeff p (discreteMoment stencil f mv.1 - mv.2)) ∨
    (discreteMoment stencil f mv.1 - mv.2 = 0 ∧ x = 0)}

/-- `hydrodynamic_moment_values` (lines 95-108) for `compressible=True` and orders up to three: the moments of the Maxwellian with `c_s ** 2 = p / rho`,
without terms of third order in the velocity.  Exponents are given by the list of the directions `i ≤ j ≤ k`. -/
noncomputable def hydrodynamicValue (rho p : K) : List (Fin D) → MvPolynomial (Fin D) K
  | [] => C rho
  | [i] => C rho * X i
  | [i, j] => (if i = j then C p else 0) + C rho * (X i * X j)
  | [i, j, k] => (if i = j then C p * X k else 0) + (if i = k then C p * X j else 0) + (if j = k then C p * X i else 0)
  | _ => 0

/-- The exponents of a list of directions. -/
def exponents (l : List (Fin D)) (i : Fin D) : ℕ := l.count i

end QuadraticEq
end Lbm
