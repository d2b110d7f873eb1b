/-
Model of `methods/momentbased/entropic.py`.

An update expression, expanded, is a polynomial in the two relaxation rates. Its coefficients are expressions in the
remaining symbols: elements of a commutative ring `R` in which equality with zero is decidable, with an evaluation
`R →+* K`. The polynomial is a table: `e[h][s]` is the coefficient of `omega_h ^ h * omega_s ^ s`. Expressions that
sympy does not expand (the `ValueError` "run simplification first") are not modelled.
-/
import Mathlib.Algebra.Polynomial.Derivative
import Mathlib.Algebra.Polynomial.Eval.Defs
import Mathlib.Algebra.BigOperators.Field
import Verif.Parameters
import Verif.StencilCtor

namespace Lbm.Entropic

/-- `_get_relaxation_rates` (`entropic.py:275-297`): the hint `relaxation_rates` as the list of its different entries
and the shear rate; returns `(omega_s, omega_h)`. -/
def pickRates {E : Type} [DecidableEq E] (rates : List E) (omegaS : E) : Except PyErr (E × E) :=
  if rates.dedup.length ≠ 2 then .error .valueError
  else if omegaS ∉ rates.dedup then .error .assertion
  else match rates.dedup.filter (· ≠ omegaS) with
    | h :: _ => .ok (omegaS, h)
    | [] => .error .indexError

section symbolic
variable {R : Type} [CommRing R] [DecidableEq R]

/-- an expression is not the constant zero -/
def nonzero (l : List R) : Bool := l.any (· ≠ 0)

/-- `relaxation_rate_factors(omega_h)` of one update expression (`entropic.py:232-253`): the coefficients of
`omega_h, omega_h², …` up to the first that is zero. They may contain `omega_s`. -/
def factorsH (e : List (List R)) : List (List R) := (e.drop 1).takeWhile nonzero

/-- coefficient of a power of `omega_s`, as polynomial in `omega_h` -/
def column (e : List (List R)) (s : ℕ) : List R := e.map fun row => row.getD s 0

/-- one more than the highest power of `omega_s` -/
def width (e : List (List R)) : ℕ := (e.map List.length).foldr max 0

/-- `relaxation_rate_factors(omega_s)` of one update expression (`entropic.py:232-253`) -/
def factorsS (e : List (List R)) : List (List R) :=
  ((List.range (width e - 1)).map fun k => column e (k + 1)).takeWhile nonzero

/-- `constant_exprs` (`entropic.py:258-262`) -/
def constant (e : List (List R)) : R := (e.getD 0 []).getD 0 0

/-- What `add_entropy_condition` uses of one update expression: constant part, `ds`, and `dh` as polynomial in
`omega_s`. -/
structure Parts (R : Type) where
  const : R
  ds : R
  dh : List R
  deriving DecidableEq

/-- `add_entropy_condition` (`entropic.py:25-88`): the decomposition of the update expressions. `assertion` stands for the
two assertions on linearity (lines 32-43), `valueError` for the cyclic dependency (lines 77-86), which arises when some
`ds` contains `omega_h`. -/
def explicitParts (zeroCentred : Bool) (rule : List (List (List R))) : Except PyErr (List (Parts R)) :=
  if zeroCentred then .error .notImplemented
  else if rule.any fun e => (factorsH e).length ≠ 1 then .error .assertion
  else if rule.any fun e => 1 < (factorsS e).length then .error .assertion
  else if rule.any fun e => nonzero (((factorsS e).getD 0 []).drop 1) then .error .valueError
  else .ok (rule.map fun e => ⟨constant e, ((factorsS e).getD 0 []).getD 0 0, (factorsH e).getD 0 []⟩)

/-- constant part and factors of one update expression in `add_iterative_entropy_condition` (`entropic.py:117-134`):
coefficients by power of the free rate -/
def iterativeParts (l : List R) : List R := l.getD 0 0 :: (l.drop 1).takeWhile (· ≠ 0)

end symbolic

section numeric
variable {K : Type} [Field K] [DecidableEq K]

/-- value of a polynomial given by its coefficients -/
def evalPoly (l : List K) (x : K) : K := l.foldr (fun a acc => a + x * acc) 0

/-- `_get_entropy_maximizing_omega` (`entropic.py:213-216`) -/
def maximizingOmega {Q : ℕ} (omegaS : K) (feq ds dh : Fin Q → K) : Option K :=
  if ∃ i, feq i = 0 then none
  else (pyDiv ((omegaS - 1) * ∑ i, ds i * dh i / feq i) (∑ i, dh i * dh i / feq i)).map fun q => 1 - q

/-- the generated update of `add_entropy_condition` (`entropic.py:48-70`): `omega_h` and the populations -/
def explicitUpdate {Q : ℕ} (omegaS : K) (f const ds dh : Fin Q → K) : Option (K × (Fin Q → K)) :=
  (maximizingOmega omegaS (fun i => f i + ds i + dh i) ds dh).map fun h =>
    (h, fun i => const i + omegaS * ds i + h * dh i)

open Polynomial in
/-- `discrete_approx_entropy(rr_polynomials, eq_symbols)` as polynomial of the free rate (`entropic.py:142,199-210`) -/
noncomputable def entropyPoly {Q : ℕ} (P : Fin Q → K[X]) (feq : Fin Q → K) : K[X] :=
  -∑ i, P i * (P i * C (1 / feq i) - 1)

open Polynomial in
/-- `entropicDiffCoeff_i` (`entropic.py:142-145`): coefficients of the derivative, from the lowest -/
noncomputable def diffCoeffs (S : K[X]) : List K :=
  (List.range ((derivative S).natDegree + 1)).map fun i => (derivative S).coeff i

/-- `sym_coeff_diff2` (`entropic.py:146`) -/
def diff2Coeffs (l : List K) : List K := (l.drop 1).mapIdx fun i a => ((i : K) + 1) * a

/-- one Newton step (`entropic.py:153-159`) -/
def newtonStep (coeffs : List K) (x : K) : Option K :=
  (pyDiv (evalPoly coeffs x) (evalPoly (diff2Coeffs coeffs) x)).map fun q => x - q

/-- the value of the free rate after the generated Newton iterations (`entropic.py:150-159`). With no iterations the
list of intermediate rates has one entry, which is set to the free rate itself: no assignment is generated, and the free
rate keeps the value `given` that the kernel is called with. -/
def freeOmega (coeffs : List K) (initial given : K) : ℕ → Option K
  | 0 => some given
  | 1 => newtonStep coeffs initial
  | n + 2 => (freeOmega coeffs initial given (n + 1)).bind (newtonStep coeffs)

end numeric

end Lbm.Entropic
