/-
Model of the explicit solver for the temperature next to the phase-field model (`phasefield_allen_cahn/numerical_solver.py`).

The finite difference weights come from pystencils (`derivatives.py`); they are a parameter here.  Floating point numbers are elements of a
field.  The kernels are lists of stages on numbered fields: `0` is the temperature, `k + 1` is `runge_kutta_fields[k]`.
-/
import Verif.StencilCtor
import Mathlib.Algebra.Field.Basic
import Mathlib.Algebra.BigOperators.Group.Finset.Basic
import Mathlib.Data.Rat.Defs

namespace Lbm
namespace HeatSolver

variable {D : ℕ} {K : Type} [Field K]

/-- Weights of a finite difference: offsets and factors. -/
abbrev Weights (D : ℕ) (K : Type) := List (Vec D × K)

/-- `res.apply(field.center)` -/
def apply (w : Weights D K) (f : Vec D → K) (x : Vec D) : K := (w.map fun p => p.2 * f (x + p.1)).sum

/-- The parameters of `get_runge_kutta_update_assignments` (`numerical_solver.py:15-17`); `grad` and `lap` are the weights of
`isotropic_gradient_symbolic` and `laplacian_symbolic` for the stencil. -/
structure Params (D : ℕ) (K : Type) where
  grad : Fin D → Weights D K
  lap : Weights D K
  phase : Vec D → K
  velocity : Vec D → Fin D → K
  conductionH : K
  conductionL : K
  heatCapacityH : K
  heatCapacityL : K
  density : Vec D → K
  stabiliser : K

/-- `interpolate_field_access` (`numerical_solver.py:103-104`) -/
def interpolate (access upper lower : K) : K := lower + access * (upper - lower)

variable (P : Params D K)

/-- `_get_conduction_gradient` (`numerical_solver.py:80-100`): the gradient of the phase with interpolated accesses -/
def conductionGradient (x : Vec D) (i : Fin D) : K :=
  apply (P.grad i) (fun y => interpolate (P.phase y) P.conductionH P.conductionL) x

/-- `-1.0 * dot_u_grad_t + rho_cp * end_term` (`numerical_solver.py:28-40`) with the subexpressions of `_get_stage` (`numerical_solver.py:107-121`) -/
def rhs (t : Vec D → K) (x : Vec D) : K :=
  -1 * (∑ i, P.velocity x i * apply (P.grad i) t x) +
    1 / (P.density x * (P.heatCapacityL + P.phase x * (P.heatCapacityH - P.heatCapacityL))) *
      ((∑ i, conductionGradient P x i * apply (P.grad i) t x) +
        (P.conductionL + P.phase x * (P.conductionH - P.conductionL)) * apply P.lap t x)

/-- A kernel: it writes at each cell a combination of the fields at that cell, and `factor` times the right-hand side of field `src`. -/
structure Stage (K : Type) where
  out : ℕ
  centre : List (ℕ × K)
  src : ℕ
  factor : K

/-- What a stage writes at a cell. -/
def Stage.value (s : Stage K) (F : ℕ → Vec D → K) (x : Vec D) : K :=
  (s.centre.map fun p => p.2 * F p.1 x).sum + s.factor * rhs P (F s.src) x

/-- The kernel of a stage, cell after cell. -/
def Stage.run (s : Stage K) : List (Vec D) → (ℕ → Vec D → K) → ℕ → Vec D → K
  | [], F => F
  | x :: l, F => s.run l (fun k y => if k = s.out ∧ y = x then s.value P F x else F k y)

/-- `get_runge_kutta_update_assignments` (`numerical_solver.py:15-69`) for `n` Runge-Kutta fields; `stabiliser` is the factor of all right-hand
sides. -/
def stages (n : ℕ) (stabiliser : K) : Except PyErr (List (Stage K)) :=
  match n with
  | 0 => .error .indexError
  | 1 => .ok [⟨1, [(0, 1)], 0, stabiliser * (1 / 2)⟩, ⟨0, [(0, 1)], 1, stabiliser⟩]
  | 2 => .error .indexError
  | _ + 3 => .ok [⟨1, [(0, 1)], 0, stabiliser * (1 / 2)⟩, ⟨2, [(0, 1)], 1, stabiliser * (1 / 2)⟩, ⟨3, [(0, 1)], 2, stabiliser⟩,
      ⟨0, [(0, 1 - 4 / 3), (1, 2 / 6), (2, 4 / 6), (3, 2 / 6)], 3, -stabiliser / 6⟩]

/-- One step: the kernels one after the other, each over all cells. -/
def step (cells : List (Vec D)) (l : List (Stage K)) (F : ℕ → Vec D → K) : ℕ → Vec D → K := l.foldl (fun F s => s.run P cells F) F

/-- `get_initialiser_assignments` (`numerical_solver.py:72-77`) -/
def initialise (n : ℕ) (F : ℕ → Vec D → K) : ℕ → Vec D → K := fun k => if 1 ≤ k ∧ k ≤ n then F 0 else F k

end HeatSolver
end Lbm
