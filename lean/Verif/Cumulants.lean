/-
Model of `cumulants.py`: conversion between moments and cumulants by sums over set partitions, and cumulants of discrete
functions. Expressions are modelled by their values; symbols without an entry in the dictionary are variables of the
environment, so that the dictionary is a total function here.
-/
import Verif.Stencil
import Mathlib.Analysis.SpecialFunctions.Log.Basic
import Mathlib.Analysis.Calculus.Deriv.Basic
import Mathlib.Data.List.FinRange

namespace Lbm

/-- `smaller[:n] + [[first] + subset] + smaller[n + 1:]` for all `n` (`cumulants.py:40-41`) -/
def insertEach {α : Type} (x : α) (smaller : List (List α)) : List (List (List α)) :=
  (List.range smaller.length).map fun n => smaller.take n ++ [x :: smaller.getD n []] ++ smaller.drop (n + 1)

/-- `__partition` (`cumulants.py:32-42`); not called with an empty collection (`IndexError`) -/
def partitions {α : Type} : List α → List (List (List α))
  | [] => []
  | [x] => [[[x]]]
  | x :: y :: l => (partitions (y :: l)).flatMap fun smaller => insertEach x smaller ++ [[x] :: smaller]

variable {D : ℕ}

/-- `partition_list` (`cumulants.py:73-76`): one entry per differentiation -/
def partitionList (index : Fin D → ℕ) : List (Fin D) := (List.finRange D).flatMap fun i => List.replicate (index i) i

/-- `moment_index` of a block (`cumulants.py:86-88`) -/
def blockIndex (b : List (Fin D)) : Fin D → ℕ := fun i => b.count i

/-- index of a first-order moment -/
def IsFirstOrder (index : Fin D → ℕ) : Prop := ∃ i, index = Pi.single i 1

instance (index : Fin D → ℕ) : Decidable (IsFirstOrder index) := by unfold IsFirstOrder; infer_instance

/-- substitution of 0 for the first-order symbols (`cumulants.py:92-96`) -/
def centralize (centralized : Bool) (v : (Fin D → ℕ) → ℝ) : (Fin D → ℕ) → ℝ :=
  fun i => if centralized ∧ IsFirstOrder i then 0 else v i

/-- `__cumulant_raw_moment_transform` (`cumulants.py:45-98`); `outer n` is the `n`-th derivative of the outer function
(`cumulants.py:69-71`), `v` the values of the moments/cumulants by index -/
noncomputable def partitionTransform (outer : ℕ → ℝ → ℝ) (centralized : Bool) (index : Fin D → ℕ)
    (v : (Fin D → ℕ) → ℝ) : ℝ :=
  if partitionList index = [] then outer 0 (v 0)
  else ((partitions (partitionList index)).map fun p =>
    outer p.length (v 0) * (p.map fun b => centralize centralized v (blockIndex b)).prod).sum

/-- derivatives of the logarithm -/
noncomputable def logDeriv : ℕ → ℝ → ℝ
  | 0, x => Real.log x
  | n + 1, x => (-1) ^ n * n.factorial / x ^ (n + 1)

/-- derivatives of the exponential function -/
noncomputable def expDeriv (_ : ℕ) (x : ℝ) : ℝ := Real.exp x

/-- `cumulant_as_function_of_raw_moments` (`cumulants.py:166-174`) -/
noncomputable def cumulantOfRawMoments (index : Fin D → ℕ) (m : (Fin D → ℕ) → ℝ) : ℝ :=
  partitionTransform logDeriv false index m

/-- `raw_moment_as_function_of_cumulants` (`cumulants.py:177-179`) -/
noncomputable def rawMomentOfCumulants (index : Fin D → ℕ) (c : (Fin D → ℕ) → ℝ) : ℝ :=
  partitionTransform expDeriv false index c

/-- `cumulant_as_function_of_central_moments` (`cumulants.py:182-184`) -/
noncomputable def cumulantOfCentralMoments (index : Fin D → ℕ) (m : (Fin D → ℕ) → ℝ) : ℝ :=
  partitionTransform logDeriv true index m

/-- `central_moment_as_function_of_cumulants` (`cumulants.py:187-189`) -/
noncomputable def centralMomentOfCumulants (index : Fin D → ℕ) (c : (Fin D → ℕ) → ℝ) : ℝ :=
  partitionTransform expDeriv true index c

/-- argument of the logarithm in `__get_discrete_cumulant_generating_function` (`cumulants.py:101-106`) -/
noncomputable def laplaceTransformation (S : Stencil D) (f : Fin S.Q → ℝ) (xi : Fin D → ℝ) : ℝ :=
  ((List.finRange S.Q).map fun q => f q * Real.exp (((List.finRange D).map fun i => xi i * (S.c q i : ℝ)).sum)).sum

/-- `sp.diff(g, x_i)` for a function of the wave numbers -/
noncomputable def partialDiff (i : Fin D) (g : (Fin D → ℝ) → ℝ) : (Fin D → ℝ) → ℝ :=
  fun xi => deriv (fun t => g (Function.update xi i t)) (xi i)

/-- `multi_differentiation` (`continuous_distribution_measures.py:86-112`): `sp.diff` applies the listed variables from
left to right, then 0 is substituted for all of them -/
noncomputable def multiDifferentiation (g : (Fin D → ℝ) → ℝ) (index : Fin D → ℕ) : ℝ :=
  (partitionList index).foldl (fun g i => partialDiff i g) g 0

/-- `discrete_cumulant` for an index tuple (`cumulants.py:112-130`, `cumulants.py:101-106`) -/
noncomputable def discreteCumulant (S : Stencil D) (f : Fin S.Q → ℝ) (index : Fin D → ℕ) : ℝ :=
  multiDifferentiation (fun xi => Real.log (laplaceTransformation S f xi)) index

end Lbm
