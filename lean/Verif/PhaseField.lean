import Verif.StencilCtor
import Mathlib.Analysis.SpecialFunctions.Pow.Real
import Mathlib.Analysis.SpecialFunctions.Trigonometric.Basic
import Mathlib.Analysis.Calculus.Deriv.Basic
import Mathlib.Algebra.BigOperators.Fin
import Mathlib.Data.Fin.Tuple.Basic

/-!
# Free energies of multi-phase models

Model of `/repo/src/lbmpy/phasefield/analytical.py`.

A free energy is a sympy expression in order parameters and abstract gradients `Diff(phi)`; here it is its value for
given order parameters and gradients, the product of two abstract gradients being their scalar product.  The
functional derivative comes out of pystencils; for an energy `F(phi) + 1/2 Σ Λ ∇phi ∇phi` it is the derivative of `F`
minus `Λ` (made symmetric) times the Laplacian.
-/

namespace Lbm
namespace PhaseField

open scoped BigOperators

/-! ## N phases -/

/-- All phases: the last one is one minus the sum of the others; analytical.py:149-150. -/
def allPhases {n : ℕ} (phi : Fin n → ℝ) : Fin (n + 1) → ℝ := Fin.snoc phi (1 - ∑ i, phi i)

/-- The default of `f1` and `f2`; analytical.py:105-106. -/
def doubleWell (c : ℝ) : ℝ := c ^ 2 * (1 - c) ^ 2

/-- A number as surface tension; analytical.py:154-160. -/
noncomputable def scalarTension (t : ℝ) {N : ℕ} (i j : Fin N) : ℝ := if i ≠ j then t else 0

/-- `lambda_coeff`, with the interface width scaled by `√2`; analytical.py:165-175. -/
noncomputable def lambdaCoeff {n : ℕ} (tension : Fin (n + 1) → Fin (n + 1) → ℝ) (width : ℝ) (k l : Fin n) : ℝ :=
  3 / Real.sqrt 2 * (width * Real.sqrt 2)
    * (tension k.castSucc (Fin.last n) + tension l.castSucc (Fin.last n) - tension k.castSucc l.castSucc)

/-- `f_bulk` with the triple point energy; analytical.py:177-180, 183-186. -/
noncomputable def bulkEnergyN {n : ℕ} (tension : Fin (n + 1) → Fin (n + 1) → ℝ) (width : ℝ) (f1 f2 : ℝ → ℝ)
    (triple : ℝ) (phi : Fin n → ℝ) : ℝ :=
  3 / Real.sqrt 2 / (width * Real.sqrt 2)
      * (∑ i, ∑ j, if i ≠ j then tension i j / 2
          * (f1 (allPhases phi i) + f1 (allPhases phi j) - f2 (allPhases phi i + allPhases phi j)) else 0)
    + ∑ i, ∑ j, ∑ k, if j < i ∧ k < j then triple * allPhases phi i * allPhases phi j * allPhases phi k else 0

/-- `f_interface`; analytical.py:181. -/
noncomputable def interfaceEnergyN {n D : ℕ} (tension : Fin (n + 1) → Fin (n + 1) → ℝ) (width : ℝ)
    (grad : Fin n → Fin D → ℝ) : ℝ :=
  ∑ i, ∑ j, lambdaCoeff tension width i j / 2 * ∑ a, grad i a * grad j a

open Classical in
/-- `free_energy_functional_n_phases` with explicit coefficients and dependent variable; analytical.py:101-193.  The
diagonal of the surface tensions is asserted to be zero when the coefficients of the interface are computed; the last
phase is not looked at. -/
noncomputable def freeEnergyN {n D : ℕ} (tension : Fin (n + 1) → Fin (n + 1) → ℝ) (width : ℝ) (f1 f2 : ℝ → ℝ)
    (triple : ℝ) (bulk interface : Bool) (phi : Fin n → ℝ) (grad : Fin n → Fin D → ℝ) : Except PyErr ℝ :=
  if ∃ l : Fin n, tension l.castSucc l.castSucc ≠ 0 then .error .assertion
  else .ok ((if bulk then bulkEnergyN tension width f1 f2 triple phi else 0)
    + if interface then interfaceEnergyN tension width grad else 0)

/-- One entry of `chemical_potentials_from_free_energy`; analytical.py:231-240. -/
noncomputable def chemicalPotentialN {n : ℕ} (tension : Fin (n + 1) → Fin (n + 1) → ℝ) (width : ℝ) (f1 f2 : ℝ → ℝ)
    (triple : ℝ) (phi lap : Fin n → ℝ) (i : Fin n) : ℝ :=
  deriv (fun t => bulkEnergyN tension width f1 f2 triple (Function.update phi i t)) (phi i)
    - ∑ j, (lambdaCoeff tension width i j + lambdaCoeff tension width j i) / 2 * lap j

/-- The order parameters that `chemical_potentials_from_free_energy` finds by itself: symbols whose names start with
`phi`, sorted by name, without the last; analytical.py:234-237. -/
def defaultOrderParameters (names : List String) : List String :=
  ((names.filter fun s => "phi".isPrefixOf s).mergeSort (fun a b => decide (a ≤ b))).dropLast

/-- `analytic_interface_profile`; analytical.py:210-228. -/
noncomputable def analyticProfile (width x : ℝ) : ℝ := (1 + Real.tanh (x / (2 * width))) / 2

/-! ## Three phases -/

/-- `free_energy_functional_3_phases`, not transformed; analytical.py:31-44. -/
noncomputable def freeEnergy3 {D : ℕ} (kappa : Fin 3 → ℝ) (width : ℝ) (bulk interface : Bool) (c : Fin 3 → ℝ)
    (grad : Fin 3 → Fin D → ℝ) : ℝ :=
  (if bulk then ∑ i, kappa i * c i ^ 2 * (1 - c i) ^ 2 / 2 else 0)
    + if interface then ∑ i, width ^ 2 * kappa i * (∑ a, grad i a * grad i a) / 2 else 0

/-- `transformation_matrix`; analytical.py:51-54. -/
def transformation3 {R : Type} [Ring R] (c : Fin 3 → R) : Fin 3 → R := ![c 0 + c 1 + c 2, c 0 - c 1, c 2]

/-- The solution for the concentrations; analytical.py:55. -/
noncomputable def concentrations3 (op : Fin 3 → ℝ) : Fin 3 → ℝ :=
  ![(op 0 + op 1 - op 2) / 2, (op 0 - op 1 - op 2) / 2, op 2]

/-- `free_energy_functional_3_phases`, transformed: the concentrations are replaced by the solution, also inside the
gradients; analytical.py:57-61. -/
noncomputable def freeEnergy3Transformed {D : ℕ} (kappa : Fin 3 → ℝ) (width : ℝ) (bulk interface : Bool)
    (op : Fin 3 → ℝ) (grad : Fin 3 → Fin D → ℝ) : ℝ :=
  freeEnergy3 kappa width bulk interface (concentrations3 op)
    fun i a => concentrations3 (fun k => grad k a) i

/-! ## Penalty term model -/

/-- `free_energy_functional_n_phases_penalty_term`; analytical.py:64-80. -/
noncomputable def freeEnergyPenalty {n D : ℕ} (kappa : Fin n → ℝ) (width penalty : ℝ) (c : Fin n → ℝ)
    (grad : Fin n → Fin D → ℝ) : ℝ :=
  ∑ i, doubleWell (c i) * kappa i / 2 + ∑ i, (∑ a, grad i a * grad i a) / 2 * width ^ 2 * kappa i
    + penalty * (1 - ∑ i, c i) ^ 2

/-- `n_phases_correction_function`; analytical.py:83-86. -/
noncomputable def correctionFunction (beta : ℝ) (power : ℕ) (c : ℝ) : ℝ :=
  if c < 0 then -beta * c ^ power else if c > 1 then -beta * (1 - c) ^ power else doubleWell c

end PhaseField
end Lbm
