/-
Model of the discrete Maxwellian, `maxwellian_equilibrium.py:64-121` and
`equilibrium/discrete_hydro_maxwellian.py:58-130`. Symbols are replaced by values in a field `K`.
-/
import Verif.MomentSets
import Mathlib.Data.Rat.Cast.Defs
import Mathlib.Data.Rat.Cast.CharZero
import Mathlib.Algebra.Field.Defs
import Mathlib.Data.List.OfFn

namespace Lbm

variable {K : Type} [Field K]

/-- the loop `e_times_u += c_q_alpha * u_alpha` over `zip(v, u)` (`maxwellian_equilibrium.py:102-104`) -/
def eTimesU (v : List ℤ) (u : List K) : K := (List.zip v u).foldl (fun s p => s + (p.1 : K) * p.2) 0

/-- the loop `u_times_u += u_alpha * u_alpha` (`maxwellian_equilibrium.py:111-113`) -/
def uTimesU (u : List K) : K := u.foldl (fun s a => s + a * a) 0

/-- `discrete_equilibrium` (`maxwellian_equilibrium.py:84-121`). -/
def discreteEquilibrium (v : List ℤ) (u : List K) (rho weight : K) (order : ℕ) (csSq : K) (compressible : Bool) : K :=
  let rhoOutside := if compressible then rho else 1
  let rhoInside := if !compressible then rho else 1
  let eu := eTimesU v u
  let fq := rhoInside + eu / csSq
  if order ≤ 1 then fq * rhoOutside * weight
  else
    let fq := fq + (1 / 2 / csSq ^ 2 * eu ^ 2 - 1 / 2 / csSq * uTimesU u)
    if order ≤ 2 then fq * rhoOutside * weight
    else
      let fq := fq + (1 / 6 / csSq ^ 3 * eu ^ 3 - 1 / 2 / csSq ^ 2 * uTimesU u * eu)
      fq * rhoOutside * weight

/-- `discrete_maxwellian_equilibrium` (`maxwellian_equilibrium.py:64-81`); `none` is the `KeyError` of `get_weights`. -/
def discreteMaxwellian (st : List (List ℤ)) (u : List K) (rho : K) (order : ℕ) (csSq : K) (compressible : Bool) :
    Option (List K) :=
  (getWeights st).map fun ws =>
    (List.zip ws st).map fun p =>
      discreteEquilibrium p.2 (u.take (st.headD []).length) rho (p.1 : K) order csSq compressible

/-- `discrete_populations` of `DiscreteHydrodynamicMaxwellian` (`discrete_hydro_maxwellian.py:58-86`); `order` is
`none` for python's `None`, which means 4; the density in the deviation form is `1 + delta_rho` by
`simplify_by_equality`. -/
def maxwellianPopulations (st : List (List ℤ)) (u : List K) (rho : K) (order : Option ℕ) (csSq : K)
    (compressible deviationOnly : Bool) : Option (List K) := do
  let order := order.getD 4
  let pdfs ← discreteMaxwellian st u rho order csSq compressible
  if deviationOnly then do
    let shift ← discreteMaxwellian st (List.replicate (st.headD []).length 0) 1 0 csSq false
    some (List.zipWith (fun f s => f - s) pdfs shift)
  else some pdfs

/-- `background_distribution` (`discrete_hydro_maxwellian.py:118-124`). -/
def maxwellianBackground (st : List (List ℤ)) (order : Option ℕ) (csSq : K) : Option (List K) :=
  maxwellianPopulations st (List.replicate (st.headD []).length 0) 1 order csSq true false

end Lbm
