import Verif.StencilCtor
import Verif.StencilTables
import Mathlib.Algebra.BigOperators.Group.Finset.Basic
import Mathlib.Data.Rat.Cast.Defs

/-!
# Finite differences of the conservative Allen-Cahn model

Model of `laplacian_symbolic` and `isotropic_gradient_symbolic` (`/repo/src/lbmpy/phasefield_allen_cahn/derivatives.py:6-94`).

The weights come out of `FiniteDifferenceStencilDerivation` of pystencils, which is not part of the repository: it solves for the weights that have the
given symmetries, the weights set by the caller, the highest order of consistency and, if this can be achieved, an isotropic leading
error.  Here they are tables; that the requirements have these solutions and no other is part of `Verif.Props.Derivatives`.  The sums of
the second derivatives and the first derivatives are those of the test `tests/phasefield_allen_cahn/test_phase_field_derivatives.ipynb`.  The branch for 25
directions (lines 23-27, 67-71) is left out, there is no predefined stencil of this size.
-/

namespace Lbm
namespace Derivatives

variable {K : Type} [Field K]

/-- The weights of a second derivative (lines 14-39): by the absolute value of the component along the derivative, and the number of other components
that are not zero -/
def secondTable : ℕ → ℕ → Option (ℕ → ℕ → ℚ)
  | 2, 9 => some fun
    | 0, 0 => -5 / 3
    | 1, 0 => 5 / 6
    | 0, 1 => -1 / 6
    | 1, 1 => 1 / 12
    | _, _ => 0
  | 3, 15 => some fun
    | 0, 0 => -32 / 27
    | 1, 0 => 43 / 54
    | 0, 1 => -11 / 54
    | 1, 2 => 11 / 216
    | _, _ => 0
  | 3, 19 => some fun
    | 0, 0 => -4 / 3
    | 1, 0 => 2 / 3
    | 0, 1 => -1 / 6
    | 1, 1 => 1 / 12
    | _, _ => 0
  | 3, 27 => some fun
    | 0, 0 => -38 / 27
    | 1, 0 => 19 / 27
    | 0, 1 => -7 / 54
    | 1, 1 => 7 / 108
    | 0, 2 => -1 / 54
    | 1, 2 => 1 / 108
    | _, _ => 0
  | _, _ => none

/-- The weights of the first derivative (lines 54-89) in positive direction: by the number of other components that are not zero -/
def firstTable : ℕ → ℕ → Option (ℕ → ℚ)
  | 2, 9 => some fun
    | 0 => 1 / 3
    | 1 => 1 / 12
    | _ => 0
  | 3, 15 => some fun
    | 0 => 1 / 3
    | 2 => 1 / 24
    | _ => 0
  | 3, 19 => some fun
    | 0 => 1 / 6
    | 1 => 1 / 12
    | _ => 0
  | 3, 27 => some fun
    | 0 => 2 / 9
    | 1 => 1 / 18
    | 2 => 1 / 72
    | _ => 0
  | _, _ => none

/-- The number of components that are not zero, without the given one -/
def others (i : ℕ) (l : List ℤ) : ℕ := (l.eraseIdx i).countP (· ≠ 0)

/-- The weight of a direction in the second derivative along an axis -/
def secondWeight (t : ℕ → ℕ → ℚ) (i : ℕ) (l : List ℤ) : ℚ := t (l.getD i 0).natAbs (others i l)

/-- The weight of a direction in the first derivative along the first axis; it is odd in this axis (line 56). -/
def firstWeight (t : ℕ → ℚ) (l : List ℤ) : ℚ := (l.getD 0 0 : ℤ) * t (others 0 l)

/-- `rotate_weights_and_apply` with the axes (0, 1) of the array of weights, whose axes are `-y`, `x`, `z`: the place the weight of a direction is
taken from -/
def rotate01 : List ℤ → List ℤ
  | a :: b :: l => b :: -a :: l
  | l => l

/-- The same with the axes (1, 2) -/
def rotate12 : List ℤ → List ℤ
  | a :: b :: c :: l => c :: b :: -a :: l
  | l => l

/-- `res.apply(field.center)` -/
def apply {D : ℕ} (st : List (List ℤ)) (w : List ℤ → ℚ) (f : Vec D → K) (x : Vec D) : K :=
  (st.map fun l => (w l : K) * f fun a => x a + l.getD a 0).sum

/-- `laplacian_symbolic` (lines 6-43) -/
def laplacianSymbolic {D : ℕ} (st : List (List ℤ)) (f : Vec D → K) (x : Vec D) : Except PyErr K :=
  match secondTable D st.length with
  | none => .error .valueError
  | some t => .ok (∑ i : Fin D, apply st (secondWeight t i) f x)

/-- `isotropic_gradient_symbolic` (lines 46-94); in one dimension the second axis, whose symmetry is assumed in any case (line 57), is missing. -/
def isotropicGradientSymbolic {D : ℕ} (st : List (List ℤ)) (f : Vec D → K) (x : Vec D) : Except PyErr (List K) :=
  if D < 2 then .error .indexError
  else match firstTable D st.length with
    | none => .error .valueError
    | some t => .ok [apply st (firstWeight t) f x, apply st (fun l => firstWeight t (rotate01 l)) f x,
        if D = 3 then apply st (fun l => firstWeight t (rotate12 l)) f x else 0]

end Derivatives
end Lbm
