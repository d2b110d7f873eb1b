/-
Model of the reference solution for thermocapillary flow in a microchannel (`phasefield_allen_cahn/analytical.py`).

Floating point numbers are real numbers; `none` is `ZeroDivisionError`.  The coordinates of `numpy.linspace` are computed exactly.
-/
import Mathlib.Analysis.SpecialFunctions.Trigonometric.Basic
import Mathlib.Analysis.Complex.Trigonometric
import Mathlib.Algebra.Order.Floor.Ring

namespace Lbm
namespace Microchannel

open Real

/-- Arguments of `analytical_solution_microchannel` (`analytical.py:18-22`) apart from the numbers of points. -/
structure Params where
  length : ℝ
  kappaTop : ℝ
  kappaBottom : ℝ
  tH : ℝ
  tC : ℝ
  t0 : ℝ
  sigmaT : ℝ
  viscosity : ℝ

/-- The constants of the solution (`analytical.py:29-51,58-60`). -/
structure Coeffs where
  kstar : ℝ
  mp : ℝ
  w : ℝ
  a : ℝ
  b : ℝ
  f : ℝ
  ca1 : ℝ
  ca2 : ℝ
  ca3 : ℝ
  cb1 : ℝ
  cb2 : ℝ
  cb3 : ℝ
  umax : ℝ
  tt : ℝ
  nom : ℝ
  denom : ℝ

/-- `x / y` of Python -/
noncomputable def pdiv (x y : ℝ) : Option ℝ := if y = 0 then none else some (x / y)

/-- The constants (`analytical.py:26-60`). -/
noncomputable def coefficients (P : Params) : Option Coeffs := do
  let kstar ← pdiv P.kappaTop P.kappaBottom
  let mp : ℝ := (⌊P.length / 2⌋ : ℤ) - 1
  let w ← pdiv π P.length
  let a := mp * w
  let b := mp * w
  let f ← pdiv 1 (kstar * sinh b * cosh a + sinh a * cosh b)
  let g := sinh a * f
  let h ← pdiv ((sinh a ^ 2 - a ^ 2) * (sinh b ^ 2 - b ^ 2))
    ((sinh b ^ 2 - b ^ 2) * (sinh (2 * a) - 2 * a) + (sinh a ^ 2 - a ^ 2) * (sinh (2 * b) - 2 * b))
  let ca1 ← pdiv (sinh a ^ 2) (sinh a ^ 2 - a ^ 2)
  let ca2 ← pdiv (-1 * mp * a) (sinh a ^ 2 - a ^ 2)
  let ca3 ← pdiv (2 * a - sinh (2 * a)) (2 * (sinh a ^ 2 - a ^ 2))
  let cb1 ← pdiv (sinh b ^ 2) (sinh b ^ 2 - b ^ 2)
  let cb2 ← pdiv (-1 * mp * b) (sinh b ^ 2 - b ^ 2)
  let cb3 ← pdiv (-2 * b + sinh (2 * b)) (2 * (sinh b ^ 2 - b ^ 2))
  let q ← pdiv (P.t0 * P.sigmaT) P.viscosity
  some { kstar, mp, w, a, b, f, ca1, ca2, ca3, cb1, cb2, cb3, umax := -1 * q * g * h, tt := P.tC - P.tH,
         nom := kstar * P.tC * mp + P.tH * mp, denom := mp + kstar * mp }

/-- `t_a` at a point (`analytical.py:71,79`) -/
noncomputable def temperature (P : Params) (c : Coeffs) (x y : ℝ) : ℝ :=
  if y > 0 then (c.tt * y + c.nom) / c.denom + P.t0 * c.f * sinh (c.a - y * c.w) * cos (c.w * x)
  else (c.kstar * c.tt * y + c.nom) / c.denom +
    P.t0 * c.f * (sinh c.a * cosh (c.w * y) - c.kstar * sinh (c.w * y) * cosh c.a) * cos (c.w * x)

/-- `u_x` at a point (`analytical.py:68,72,77,80`) -/
noncomputable def velocityX (c : Coeffs) (x y : ℝ) : ℝ :=
  if y > 0 then c.umax * ((c.ca1 + c.w * (c.ca2 + c.ca3 * y)) * cosh (c.w * y) + (c.ca3 + c.w * c.ca1 * y) * sinh (c.w * y)) * sin (c.w * x)
  else c.umax * ((c.cb1 + c.w * (c.cb2 + c.cb3 * y)) * cosh (c.w * y) + (c.cb3 + c.w * c.cb1 * y) * sinh (c.w * y)) * sin (c.w * x)

/-- `u_y` at a point (`analytical.py:69,73,81`) -/
noncomputable def velocityY (c : Coeffs) (x y : ℝ) : ℝ :=
  if y > 0 then -c.w * c.umax * (c.ca1 * y * cosh (c.w * y) + (c.ca2 + c.ca3 * y) * sinh (c.w * y)) * cos (c.w * x)
  else -c.w * c.umax * (c.cb1 * y * cosh (c.w * y) + (c.cb2 + c.cb3 * y) * sinh (c.w * y)) * cos (c.w * x)

/-- `np.linspace(start, stop, n)` -/
noncomputable def linspace (start stop : ℝ) (n : ℕ) : List ℝ := (List.range n).map fun i : ℕ => start + (i : ℝ) * ((stop - start) / ((n : ℝ) - 1))

/-- `u[ii, jj]` for all points (`analytical.py:61-84`) -/
noncomputable def fill (F : ℝ → ℝ → ℝ) (xx yy : List ℝ) : List (List ℝ) := xx.map fun x => yy.map fun y => F x y

/-- The results: coordinates, velocities, temperature. -/
structure Result where
  x : List (List ℝ)
  y : List (List ℝ)
  ux : List (List ℝ)
  uy : List (List ℝ)
  t : List (List ℝ)

/-- The array `fill F xx yy` transposed. -/
noncomputable def fillT (F : ℝ → ℝ → ℝ) (xx yy : List ℝ) : List (List ℝ) := yy.map fun y => xx.map fun x => F x y

/-- `analytical_solution_microchannel` (`analytical.py:18-89`); `np.meshgrid(xx, yy)` has the `y` coordinate as first index. -/
noncomputable def solution (P : Params) (nx ny : ℕ) (transpose : Bool) : Option Result := do
  let c ← coefficients P
  let xx := linspace (-P.length - 1 / 2) (P.length - 1 / 2) nx
  let yy := linspace (-c.mp) c.mp ny
  let x := yy.map fun _ => xx
  let y := yy.map fun y => xx.map fun _ => y
  if transpose then some ⟨x, y, fillT (velocityX c) xx yy, fillT (velocityY c) xx yy, fillT (temperature P c) xx yy⟩
  else some ⟨x, y, fill (velocityX c) xx yy, fill (velocityY c) xx yy, fill (temperature P c) xx yy⟩

end Microchannel
end Lbm
