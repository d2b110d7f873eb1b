/-
Model of `discrete_entropy` and `discrete_approx_entropy` (`methods/momentbased/entropic.py:188-210`).
-/
import Mathlib.Analysis.SpecialFunctions.Log.Basic

namespace Lbm
namespace DiscreteEntropy

/-- `discrete_entropy` (`entropic.py:188-196`); real values, `zip` stops at the shorter list -/
noncomputable def entropy (func reference : List ℝ) : ℝ :=
  -(List.zipWith (fun f r => f * Real.log (f / r)) func reference).sum

/-- `discrete_approx_entropy` (`entropic.py:199-210`) -/
noncomputable def approxEntropy (func reference : List ℝ) : ℝ :=
  -(List.zipWith (fun f r => f * (f / r - 1)) func reference).sum

end DiscreteEntropy
end Lbm
