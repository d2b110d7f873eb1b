import Verif.StencilCtor
import Mathlib.Algebra.Field.Basic
import Mathlib.Data.Fin.VecNotation

/-!
# Finite difference stencils of the high density ratio model

`fd_stencils_isotropic_high_density_code` (`phasefield/fd_stencils.py`, lines 6-32).  A field access is a function of the cell.
`fd_stencils_standard` is imported from pystencils; `standard` is what it returns for first and second derivatives.
-/

namespace Lbm
namespace FdStencils

variable {K : Type} [Field K] {D : ℕ}

/-- `neighbor(idx, off)` -/
def neighbor (x : Fin D → ℤ) (i : Fin D) (off : ℤ) : Fin D → ℤ := Function.update x i (x i + off)

/-- pystencils' `fd_stencils_standard` (called in lines 9 and 31): central differences. -/
def standard (dx : K) (f : (Fin D → ℤ) → K) (x : Fin D → ℤ) : List (Fin D) → Except PyErr K
  | [i] => .ok ((f (neighbor x i 1) - f (neighbor x i (-1))) / (2 * dx))
  | [i, j] =>
    if i = j then .ok ((f (neighbor x i 1) + f (neighbor x i (-1)) - 2 * f x) / dx ^ 2)
    else .ok ((f (neighbor (neighbor x i 1) j 1) - f (neighbor (neighbor x i (-1)) j 1) - f (neighbor (neighbor x i 1) j (-1)) +
      f (neighbor (neighbor x i (-1)) j (-1))) / 4 / dx ^ 2)
  | _ => .error .notImplemented

/-- The weights of the first derivative (lines 17-19) -/
def gradientWeights (dx : K) : List (ℤ × K) := [(-1, 1 / 12 / dx), (0, 1 / 3 / dx), (1, 1 / 12 / dx)]

/-- The first derivative in two dimensions (lines 14-22) -/
def gradient (dx : K) (f : (Fin 2 → ℤ) → K) (x : Fin 2 → ℤ) (i : Fin 2) : K :=
  let other : Fin 2 := if i = 0 then 1 else 0
  let upper := ((gradientWeights dx).map fun w => f (neighbor (neighbor x i 1) other w.1) * w.2).sum
  let lower := ((gradientWeights dx).map fun w => f (neighbor (neighbor x i (-1)) other w.1) * w.2).sum
  upper - lower

/-- The second derivative in one direction, in two dimensions (lines 25-29) -/
def second (dx : K) (f : (Fin 2 → ℤ) → K) (x : Fin 2 → ℤ) (i : Fin 2) : K :=
  let diagonals := 1 / 8 * (([-1, 1] : List ℤ).flatMap fun a => ([-1, 1] : List ℤ).map fun b => f (neighbor (neighbor x 0 a) 1 b)).sum
  let divDirection := 1 / 2 * (([-1, 1] : List ℤ).map fun a => f (neighbor x i a)).sum
  let center := -(3 / 2) * f x
  (diagonals + divDirection + center) / dx ^ 2

/-- `fd_stencils_isotropic_high_density_code` in two dimensions (lines 10-32) -/
def stencil2 (dx : K) (f : (Fin 2 → ℤ) → K) (x : Fin 2 → ℤ) (indices : List (Fin 2)) : Except PyErr K :=
  match indices with
  | [i] => .ok (gradient dx f x i)
  | [i, j] => if i = j then .ok (second dx f x i) else standard dx f x [i, j]
  | _ => .error .notImplemented

/-- `fd_stencils_isotropic_high_density_code` (lines 6-32); the indices of an access have been checked to be directions. -/
def stencil : (D : ℕ) → (dx : K) → (f : (Fin D → ℤ) → K) → (x : Fin D → ℤ) → List (Fin D) → Except PyErr K
  | 1, dx, f, x, indices => standard dx f x indices
  | 2, dx, f, x, indices => stencil2 dx f x indices
  | _, _, _, _, _ => .error .notImplemented

/-- The Laplacian the model makes of it: the sum of the second derivatives. -/
def laplacian (dx : K) (f : (Fin 2 → ℤ) → K) (x : Fin 2 → ℤ) : K := second dx f x 0 + second dx f x 1

end FdStencils
end Lbm
