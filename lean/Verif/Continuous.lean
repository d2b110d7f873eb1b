/-
Model of `continuous_distribution_measures.py`, of the continuous part of `maxwellian_equilibrium.py` and of
`equilibrium/continuous_hydro_maxwellian.py`: moments, central moments and cumulants of the continuous Maxwellian.
Expressions are modelled by their values in ℝ; `sp.integrate` over ℝ^D is the Lebesgue integral, `sp.diff` the derivative.
`simplify`, `complete_the_squares_in_exp`, `collect` and the caches do not change values and are not modelled. The helper
symbol for `c_s_sq` (substituted afterwards) is the value of `c_s_sq` itself.
-/
import Verif.Cumulants
import Verif.Moments
import Verif.StencilCtor
import Verif.ForceModels
import Mathlib.MeasureTheory.Integral.Pi
import Mathlib.MeasureTheory.Constructions.Pi
import Mathlib.MeasureTheory.Measure.Lebesgue.Basic
import Mathlib.Analysis.SpecialFunctions.Pow.Real
import Mathlib.RingTheory.MvPolynomial.Homogeneous

namespace Lbm
namespace Continuous

open MeasureTheory

variable {D : ℕ}

/-- `continuous_maxwellian_equilibrium` (`maxwellian_equilibrium.py:142-162`) -/
noncomputable def maxwellian (rho : ℝ) (u : Fin D → ℝ) (csq : ℝ) (v : Fin D → ℝ) : ℝ :=
  rho / (2 * Real.pi * csq) ^ ((D : ℝ) / 2) *
    Real.exp (-((List.finRange D).map fun i => (v i - u i) ^ 2).sum / (2 * csq))

/-- `moment_generating_function` (`continuous_distribution_measures.py:12-57`) -/
noncomputable def momentGenerating (f : (Fin D → ℝ) → ℝ) (t : Fin D → ℝ) : ℝ :=
  ∫ x : Fin D → ℝ, (List.finRange D).foldl (fun g i => g * Real.exp (t i * x i)) (f x)

/-- `central_moment_generating_function` (`continuous_distribution_measures.py:60-71`) -/
noncomputable def centralGenerating (f : (Fin D → ℝ) → ℝ) (velocity t : Fin D → ℝ) : ℝ :=
  Real.exp (-((List.finRange D).map fun i => t i * velocity i).sum) * momentGenerating f t

/-- `cumulant_generating_function` (`continuous_distribution_measures.py:74-84`) -/
noncomputable def cumulantGenerating (f : (Fin D → ℝ) → ℝ) (t : Fin D → ℝ) : ℝ :=
  Real.log (momentGenerating f t)

/-- `__continuous_moment_or_cumulant` for a polynomial in exponent representation
(`continuous_distribution_measures.py:129-137`); a tuple `e` is the representation `[(1, e)]` -/
noncomputable def ofGenerating (g : (Fin D → ℝ) → ℝ) (p : List (ℝ × (Fin D → ℕ))) : ℝ :=
  (p.map fun t => t.1 * multiDifferentiation g t.2).sum

/-- `continuous_moment` of an exponent tuple (`continuous_distribution_measures.py:126-127,140-148`) -/
noncomputable def continuousMoment (f : (Fin D → ℝ) → ℝ) (e : Fin D → ℕ) : ℝ :=
  multiDifferentiation (momentGenerating f) e

/-- `continuous_central_moment` of an exponent tuple (`continuous_distribution_measures.py:126-127,151-160`) -/
noncomputable def continuousCentralMoment (f : (Fin D → ℝ) → ℝ) (velocity : Fin D → ℝ) (e : Fin D → ℕ) : ℝ :=
  multiDifferentiation (centralGenerating f velocity) e

/-- `continuous_cumulant` of an exponent tuple (`continuous_distribution_measures.py:126-127,163-168`) -/
noncomputable def continuousCumulant (f : (Fin D → ℝ) → ℝ) (e : Fin D → ℕ) : ℝ :=
  multiDifferentiation (cumulantGenerating f) e

/-- `get_equilibrium_values_of_maxwell_boltzmann_function` without `order` (`maxwellian_equilibrium.py:165-205`) -/
noncomputable def maxwellBoltzmannValues (moments : List (List (ℝ × (Fin D → ℕ)))) (rho : ℝ) (u : Fin D → ℝ)
    (csq : ℝ) (space : String) : Except PyErr (List ℝ) :=
  let mb := maxwellian rho u csq
  if space = "moment" then .ok (moments.map (ofGenerating (momentGenerating mb)))
  else if space = "central moment" then .ok (moments.map (ofGenerating (centralGenerating mb u)))
  else if space = "cumulant" then .ok (moments.map (ofGenerating (cumulantGenerating mb)))
  else .error .valueError

/-- terms of an expanded polynomial with total degree at most `order` -/
noncomputable def truncate (order : ℕ) (p : MvPolynomial (Fin D) ℝ) : MvPolynomial (Fin D) ℝ :=
  ∑ i ∈ Finset.range (order + 1), MvPolynomial.homogeneousComponent i p

open Classical in
/-- `_correct_order_and_cssq` (`continuous_hydro_maxwellian.py:231-237`): the term, an expression in the velocity symbols,
is expanded and the terms of degree above `order` are removed. The argument is the term as a function of the velocity;
every term passed by the class is a polynomial in the velocity, for which the polynomial is determined by its values. -/
noncomputable def correctOrder (order : Option ℕ) (F : (Fin D → ℝ) → ℝ) : (Fin D → ℝ) → ℝ :=
  match order with
  | none => F
  | some k =>
    if h : ∃ p : MvPolynomial (Fin D) ℝ, ∀ u, MvPolynomial.eval u p = F u then
      fun u => MvPolynomial.eval u (truncate k h.choose)
    else F

/-- attributes of `ContinuousHydrodynamicMaxwellian` (`continuous_hydro_maxwellian.py:72-95`) except for the velocity
symbols, which are the argument of the computed terms -/
structure HydroMaxwellian where
  compressible : Bool
  deviationOnly : Bool
  order : Option ℕ
  rho : ℝ
  rhoBackground : ℝ
  deltaRho : ℝ
  csq : ℝ

namespace HydroMaxwellian

/-- `_base_equation` (`continuous_hydro_maxwellian.py:97-105`) -/
noncomputable def base (h : HydroMaxwellian) (u : Fin D → ℝ) : (Fin D → ℝ) → ℝ :=
  maxwellian (if h.compressible then h.rho else h.rhoBackground) u h.csq

/-- `_corrections` (`continuous_hydro_maxwellian.py:107-115`) -/
noncomputable def corrections (D : ℕ) (h : HydroMaxwellian) : List (ℝ × ((Fin D → ℝ) → ℝ)) :=
  (if h.compressible then [] else [(1, maxwellian h.deltaRho 0 h.csq)]) ++
    if h.deviationOnly then [(-1, maxwellian h.rhoBackground 0 h.csq)] else []

/-- `continuous_equation` (`continuous_hydro_maxwellian.py:145-149`) -/
noncomputable def equation (h : HydroMaxwellian) (u x : Fin D → ℝ) : ℝ :=
  h.base u x + ((corrections D h).map fun c => c.1 * c.2 x).sum

/-- `zeroth_order_moment_symbol` (`continuous_hydro_maxwellian.py:151-153`) -/
def zerothSymbol (h : HydroMaxwellian) : ℝ := if h.deviationOnly then h.deltaRho else h.rho

/-- `background_distribution` (`continuous_hydro_maxwellian.py:159-165`), whose velocity is zero -/
def background (h : HydroMaxwellian) : HydroMaxwellian where
  compressible := true
  deviationOnly := false
  order := h.order
  rho := h.rhoBackground
  rhoBackground := h.rhoBackground
  deltaRho := 0
  csq := h.csq

/-- `_monomial_raw_moment` (`continuous_hydro_maxwellian.py:192-200`). `_simplify_moment` replaces the density symbols by
one another using `rho = rho_background + delta_rho` and does not change values for which this holds. -/
noncomputable def rawMoment (h : HydroMaxwellian) (e : Fin D → ℕ) : (Fin D → ℝ) → ℝ :=
  correctOrder h.order fun u =>
    (corrections D h).foldl (fun s c => s + c.1 * continuousMoment c.2 e) (continuousMoment (h.base u) e)

/-- `_monomial_central_moment` (`continuous_hydro_maxwellian.py:202-221`); `velocity` is the frame of reference, which may
depend on the velocity symbols -/
noncomputable def centralMoment (h : HydroMaxwellian) (velocity : (Fin D → ℝ) → Fin D → ℝ) (e : Fin D → ℕ) :
    (Fin D → ℝ) → ℝ :=
  correctOrder h.order fun u =>
    ((containedMoments (List.ofFn e) 0 false).map fun rm =>
      (-1) ^ ((List.ofFn e).sum - rm.sum) *
        ((List.finRange D).map fun i => velocity u i ^ (e i - rm.getD i 0) * ((e i).choose (rm.getD i 0) : ℝ)).prod *
        h.rawMoment (fun i => rm.getD i 0) u).sum

/-- `cumulant` of an exponent tuple (`continuous_hydro_maxwellian.py:183-188,223-229`) -/
noncomputable def cumulant (h : HydroMaxwellian) (e : Fin D → ℕ) (rescale : Bool) :
    Except PyErr ((Fin D → ℝ) → ℝ) :=
  if !h.compressible || h.deviationOnly then .error .exception
  else
    let value : (Fin D → ℝ) → ℝ := correctOrder h.order fun u => continuousCumulant (h.base u) e
    .ok fun u => if rescale then h.rho * value u else value u

/-- `moment` of a polynomial in exponent representation (`abstract_equilibrium.py:108-125`) -/
noncomputable def moment (h : HydroMaxwellian) (p : List (ℝ × (Fin D → ℕ))) (u : Fin D → ℝ) : ℝ :=
  p.foldl (fun s t => s + t.1 * h.rawMoment t.2 u) 0

end HydroMaxwellian

end Continuous
end Lbm
