/-
Model of `phasefield/n_phase_boyer.py`: the hierarchy of consistent n-component Cahn-Hilliard systems.

Expressions are their values.  `sp.solve` is modelled by the equations it solves.
-/
import Verif.PhaseField
import Mathlib.LinearAlgebra.Matrix.NonsingularInverse
import Mathlib.MeasureTheory.Integral.IntervalIntegral.Basic

namespace Lbm
namespace Boyer

open Matrix

/-! ## Diffusion coefficients -/

section diffusion
variable {K : Type} [Field K] {n : ℕ}

/-- `alpha_symbolic` as a function of its symbols (`n_phase_boyer.py:22-26`): `α_ij` for `i < j` is used above and below
the diagonal; the diagonal makes the rows add up to zero.  (On the diagonal the symbol is overwritten.) -/
def alphaMatrix (a : Fin n → Fin n → K) : Matrix (Fin n) (Fin n) K := fun i j =>
  if i = j then -∑ k, (if i ≠ k then (if i < k then a i k else a k i) else 0) else if i < j then a i j else a j i

/-- `lemma_2_1` (`n_phase_boyer.py:28-32`). -/
def lemma21 (sigma : Matrix (Fin n) (Fin n) K) (a : Fin n → Fin n → K) (gamma : Fin n → K) : Matrix (Fin n) (Fin n) K :=
  alphaMatrix a * sigma - 1 - vecMulVec gamma fun _ => 1

open Classical in
/-- `diffusion_coefficients` (`n_phase_boyer.py:17-38`) for square matrices: the assertions on the diagonal and on the
existence of a solution (without phases `sp.solve` returns an empty list), and a solution.  If there were several,
`sp.solve` would return a parametrisation; there are not, see `C67_diffusion_unique`. -/
noncomputable def diffusionCoefficients (sigma : Matrix (Fin n) (Fin n) K) :
    Except PyErr (Matrix (Fin n) (Fin n) K × (Fin n → K)) :=
  if ∃ k, sigma k k ≠ 0 then .error .assertion
  else if n = 0 then .error .assertion
  else if h : ∃ s : (Fin n → Fin n → K) × (Fin n → K), lemma21 sigma s.1 s.2 = 0 then
    .ok (alphaMatrix h.choose.1, h.choose.2)
  else .error .assertion

/-- `l_bar` (`n_phase_boyer.py:83-88`); `dF` are the derivatives of the free energy. -/
def lBar (alpha : Matrix (Fin n) (Fin n) K) (dF : Fin n → K) (i : Fin n) : K := -∑ j, alpha i j * dF j

/-- The chemical potential of `free_energy_interfacial` (`n_phase_boyer.py:91-96`, `348`): the functional derivative of
`-ε a/2 Σ_{j<i} σ_ij ∇c_i ∇c_j`; `lap` are the Laplacians. -/
def muInterfacial (sigma : Matrix (Fin n) (Fin n) K) (a epsilon : K) (lap : Fin n → K) (i : Fin n) : K :=
  epsilon * a / 2 * ((∑ j, if j < i then sigma i j * lap j else 0) + ∑ j, if i < j then sigma j i * lap j else 0)

end diffusion

/-! ## Sums over subsets -/

/-- `itertools.combinations`, which is `capital_i` (`n_phase_boyer.py:41-46`): all subsequences of a length, in
lexicographic order of positions. -/
def combinations {α : Type} : ℕ → List α → List (List α)
  | 0, _ => [[]]
  | _ + 1, [] => []
  | k + 1, a :: l => (combinations k l).map (a :: ·) ++ combinations (k + 1) l

section subsets
variable {K : Type} [CommRing K]

/-- `sum(c[index] for index in i)` -/
def sumAt (c : List K) (i : List ℕ) : K := (i.map fun index => c.getD index 0).sum

/-- `capital_s` (`n_phase_boyer.py:49-54`). -/
def capitalS (k : ℕ) (c : List K) (f : K → K) : K :=
  ((combinations k (List.range c.length)).map fun i => f (sumAt c i)).sum

/-- The sum of `psi` (`n_phase_boyer.py:61-66`). -/
def psiSum (k : ℕ) (c : List K) (f : K → K) : K :=
  ((combinations k (List.range c.length)).map fun i =>
    ((List.range k).map fun s => ((combinations (s + 1) i).map fun j => (-1) ^ (k - (s + 1)) * f (sumAt c j)).sum).sum).sum

/-- `psi` (`n_phase_boyer.py:57-66`). -/
def psi (k : ℕ) (c : List K) (f : K → K) : Except PyErr K :=
  if k ≤ c.length then .ok (psiSum k c f) else .error .assertion

end subsets

/-- `lambda_equal_surface_tension` (`n_phase_boyer.py:103-106`). -/
def lambdaEqual {K : Type} [Field K] (k : ℕ) (sigma lambda1 : K) : K :=
  lambda1 - sigma / 2 * ((List.range k).map fun s => (1 : K) / ((s + 1 : ℕ) : K)).sum

/-- `capital_f_bulk_equal_surface_tension` (`n_phase_boyer.py:109-112`). -/
def capitalFEqual {K : Type} [Field K] (c : List K) (f : K → K) (sigma lambda1 : K) : Except PyErr K := do
  let terms ← (List.range c.length).mapM fun k => do
    let p ← psi (k + 1) c f
    pure (lambdaEqual k sigma lambda1 * p)
  pure terms.sum

/-! ## The free energy -/

/-- `capital_f0` (`n_phase_boyer.py:115-121`). -/
noncomputable def capitalF0 {n : ℕ} (c : Fin n → ℝ) (sigma : Fin n → Fin n → ℝ) (f : ℝ → ℝ := PhaseField.doubleWell) : ℝ :=
  ∑ j, ∑ i, if i < j then sigma i j / 2 * (f (c i) + f (c j) - f (c i + c j)) else 0

/-- `capital_h` after `doit` (`n_phase_boyer.py:177-182`). -/
noncomputable def capitalH (u v : ℝ) : ℝ := if u = 0 ∧ v = 0 then 0 else |v| * v / (|v| + u ^ 2)

/-- `capital_h.fdiff` (`n_phase_boyer.py:164-175`). -/
noncomputable def capitalHDiff (argindex : ℕ) (u v : ℝ) : Except PyErr ℝ :=
  if argindex = 1 then .ok (if u = 0 ∧ v = 0 then 0 else -2 * u * |v| * v / (|v| + u ^ 2) ^ 2)
  else if argindex = 2 then .ok (if u = 0 ∧ v = 0 then 1 else (2 * |v| * u ^ 2 + v ^ 2) / (|v| + u ^ 2) ^ 2)
  else .error .exception

/-- `correction_g` (`n_phase_boyer.py:185-197`).  The coefficients come from `sp.solve` (`209-230`) and are an argument:
`coeff reduced s`. -/
noncomputable def correctionG {n : ℕ} (coeff : List (Fin n) → Fin n → ℝ) (c : Fin n → ℝ) : ℝ :=
  ((combinations 4 (List.finRange n)).map fun i =>
    (i.map fun s => coeff (i.filter fun e => e ≠ s) s * capitalH (c s) (i.map c).prod).sum).sum

/-- `stabilization_term` (`n_phase_boyer.py:233-250`).  The coefficients come from `sp.solve` (`253-280`) and are an
argument: `theta i j k l`. -/
noncomputable def stabilizationTerm {n : ℕ} (theta : Fin n → Fin n → Fin n → Fin n → ℝ) (c : Fin n → ℝ) : ℝ :=
  (∑ i, ∑ j, ∑ k, if j < i ∧ k < j then c i ^ 2 * c j ^ 2 * c k ^ 2 else 0)
  - ∑ j, ∑ i, if i < j then c i ^ 2 * c j ^ 2 * ∑ l, (if l = i ∨ l = j then 0 else ∑ k, (if k < l ∧ ¬(k = i ∨ k = j) then
      theta i j k l * capitalH (c k) (c k * c l) + theta i j l k * capitalH (c l) (c k * c l) else 0)) else 0

/-- `compute_ab` (`n_phase_boyer.py:73-80`). -/
noncomputable def computeAb (f : ℝ → ℝ) : ℝ × ℝ :=
  let m := max (max (Real.sqrt (f 0)) (Real.sqrt (f (1 / 2)))) (Real.sqrt (f 1))
  let i := ∫ c in (0 : ℝ)..1, Real.sqrt (f c)
  (m / i, 1 / (2 * m * i))

/-- `free_energy_interfacial` (`n_phase_boyer.py:91-96`); `grad` are the gradients. -/
noncomputable def freeEnergyInterfacial {n D : ℕ} (sigma : Fin n → Fin n → ℝ) (a epsilon : ℝ) (grad : Fin n → Fin D → ℝ) : ℝ :=
  -epsilon * a / 2 * ∑ i, ∑ j, if j < i then sigma i j * ∑ d, grad i d * grad j d else 0

/-- `free_energy_bulk` (`n_phase_boyer.py:99-100`). -/
noncomputable def freeEnergyBulk (capitalF b epsilon : ℝ) : ℝ := b / epsilon * capitalF

/-- `free_energy` (`n_phase_boyer.py:124-138`). -/
noncomputable def freeEnergy {n D : ℕ} (epsilon : ℝ) (sigma : Fin n → Fin n → ℝ) (coeff : List (Fin n) → Fin n → ℝ)
    (theta : Fin n → Fin n → Fin n → Fin n → ℝ) (stabilization : ℝ) (c : Fin n → ℝ) (grad : Fin n → Fin D → ℝ) : ℝ :=
  freeEnergyInterfacial sigma (computeAb PhaseField.doubleWell).1 epsilon grad
  + freeEnergyBulk (capitalF0 c sigma + correctionG coeff c + stabilization * stabilizationTerm theta c)
      (computeAb PhaseField.doubleWell).2 epsilon

end Boyer
end Lbm
