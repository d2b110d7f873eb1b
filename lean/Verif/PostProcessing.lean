import Verif.StencilCtor
import Mathlib.Analysis.SpecialFunctions.Trigonometric.Inverse
import Mathlib.Analysis.SpecialFunctions.Sqrt

/-!
# Evaluation of phase-field results: contour lines, triple points, circles, Neumann angles

`phasefield/post_processing.py`, lines 9-149, and `phasefield/contact_angle_circle_fitting.py`, lines 6-36 and 87-146.

Numpy numbers do not raise on a division by zero: they become infinite or *not a number* (the code even silences the warning,
`post_processing.py` line 22).  `Flt` is a field with these values added; rounding and the sign of zero are not modelled.
Contour extraction (scikit-image) and circle fitting (scipy) are outside: functions take their results as arguments.
-/

namespace Lbm
namespace PostProcessing

/-- A numpy number without rounding: a number, an infinity with its sign (`true` is negative), or not a number. -/
inductive Flt (K : Type) where
  | num (x : K)
  | inf (neg : Bool)
  | nan
  deriving DecidableEq

namespace Flt

variable {K : Type} [Field K] [LinearOrder K]

/-- `-a` -/
def neg : Flt K → Flt K
  | num x => num (-x)
  | inf s => inf !s
  | nan => nan

/-- `a + b` -/
def add : Flt K → Flt K → Flt K
  | num x, num y => num (x + y)
  | num _, inf s => inf s
  | inf s, num _ => inf s
  | inf s, inf t => if s = t then inf s else nan
  | _, _ => nan

/-- `a - b` -/
def sub (a b : Flt K) : Flt K := add a (neg b)

/-- `a * b` -/
def mul : Flt K → Flt K → Flt K
  | num x, num y => num (x * y)
  | num x, inf s => if x = 0 then nan else inf (s ^^ decide (x < 0))
  | inf s, num x => if x = 0 then nan else inf (s ^^ decide (x < 0))
  | inf s, inf t => inf (s ^^ t)
  | _, _ => nan

/-- `a / b`; zeros count as positive. -/
def div : Flt K → Flt K → Flt K
  | num x, num y => if y = 0 then if x = 0 then nan else inf (decide (x < 0)) else num (x / y)
  | num _, inf _ => num 0
  | inf s, num y => inf (s ^^ decide (y < 0))
  | _, _ => nan

/-- `x < b` for a number `x` -/
def gt (x : K) : Flt K → Bool
  | num y => decide (x < y)
  | inf s => !s
  | nan => false

/-- `b <= x` for a number `x` -/
def le (x : K) : Flt K → Bool
  | num y => decide (y ≤ x)
  | inf s => s
  | nan => false

/-- The finite value, if there is one -/
def toNum : Flt K → Option K
  | num x => some x
  | _ => none

/-- `np.sqrt` -/
noncomputable def sqrt : Flt ℝ → Flt ℝ
  | num x => if 0 ≤ x then num (Real.sqrt x) else nan
  | inf false => inf false
  | _ => nan

end Flt

section Intersections

variable {K : Type} [Field K] [LinearOrder K]

/-- A segment of a contour line: two consecutive vertices -/
abbrev Seg (K : Type) := (K × K) × (K × K)

/-- `slope` of a segment (`post_processing.py`, lines 34-35) -/
def slope (s : Seg K) : Flt K := .div (.num (s.2.2 - s.1.2)) (.num (s.2.1 - s.1.1))

/-- `yi` for a segment of the first and one of the second path (lines 42-45) -/
def crossY (s1 s2 : Seg K) : Flt K :=
  let m1 := slope s1
  let m2inv := Flt.div (.num 1) (slope s2)
  Flt.div (Flt.add (Flt.mul m1 (Flt.sub (Flt.sub (.num s2.1.1) (.num s1.1.1)) (Flt.mul m2inv (.num s2.1.2)))) (.num s1.1.2))
    (Flt.sub (.num 1) (Flt.mul m1 m2inv))

/-- `xi` (line 46) -/
def crossX (s1 s2 : Seg K) : Flt K :=
  let m2inv := Flt.div (.num 1) (slope s2)
  Flt.add (Flt.mul (Flt.sub (crossY s1 s2) (.num s2.1.2)) m2inv) (.num s2.1.1)

/-- `arr_min(a, b) < v` and `v <= arr_max(a, b)` (lines 25-29 and 48-51) -/
def within (a b : K) (v : Flt K) : Bool := v.gt (if a < b then a else b) && v.le (if a > b then a else b)

/-- `x_cond` (lines 48-49) -/
def xCond (s1 s2 : Seg K) : Bool := within s1.1.1 s1.2.1 (crossX s1 s2) && within s2.1.1 s2.2.1 (crossX s1 s2)

/-- `y_cond` (lines 50-51) -/
def yCond (s1 s2 : Seg K) : Bool := within s1.1.2 s1.2.2 (crossY s1 s2) && within s2.1.2 s2.2.2 (crossY s1 s2)

/-- The segments of a path (slices `[:-1]` and `[1:]`, lines 37-40) -/
def segments (path : List (K × K)) : List (Seg K) := path.zip path.tail

/-- `find_intersections` (lines 18-53): `meshgrid` runs through the second path in the outer, the first in the inner loop; the abscissas
and the ordinates are selected by conditions of their own. -/
def findIntersections (path1 path2 : List (K × K)) : List (Flt K) × List (Flt K) :=
  let pairs := (segments path2).flatMap fun s2 => (segments path1).map fun s1 => (s1, s2)
  ((pairs.filter fun s => xCond s.1 s.2).map fun s => crossX s.1 s.2, (pairs.filter fun s => yCond s.1 s.2).map fun s => crossY s.1 s.2)

/-- `get_line_intersections` (lines 56-65).  `np.array([xs, ys])` of lists of different lengths is a `ValueError`. -/
def lineIntersections (line1 line2 : List (List (K × K))) : Except PyErr (List (Flt K × Flt K)) :=
  let res := line1.flatMap fun c1 => line2.map fun c2 => findIntersections c1 c2
  let xs := res.flatMap Prod.fst
  let ys := res.flatMap Prod.snd
  if xs.length = ys.length then .ok (xs.zip ys) else .error .valueError

end Intersections

section Points

/-- Points of the plane -/
abbrev Pt := ℝ × ℝ

/-- The squared distance (line 69) -/
def distSq (p q : Pt) : ℝ := (p.1 - q.1) ^ 2 + (p.2 - q.2) ^ 2

/-- `np.argmin` with the first minimum winning, on a non-empty list -/
noncomputable def argmin (f : Pt → ℝ) (best : Pt) : List Pt → Pt
  | [] => best
  | q :: qs => if f q < f best then argmin f q qs else argmin f best qs

/-- `find_closest_point` (lines 68-70); `argmin` of nothing is a `ValueError`. -/
noncomputable def findClosestPoint (p : Pt) : List Pt → Except PyErr (Pt × ℝ)
  | [] => .error .valueError
  | q :: qs =>
    let c := argmin (fun r => distSq r p) q qs
    .ok (c, Real.sqrt (distSq c p))

/-- What `get_triple_point_centers` returns: a list of points, or the array `[[], []]`, whose two rows are no points (line 84) -/
inductive Centers where
  | points (l : List Pt)
  | twoEmptyRows

/-- `get_triple_point_centers` (lines 73-93) from the three lists of intersections -/
noncomputable def tripleCenters (i01 i12 i02 : List Pt) (threshold : ℝ) : Except PyErr Centers :=
  if min (min i01.length i12.length) i02.length = 0 then .ok .twoEmptyRows
  else do
    let l ← i01.mapM fun p => do
      let (c1, d1) ← findClosestPoint p i12
      let (c2, d2) ← findClosestPoint p i02
      if d1 > threshold ∨ d2 > threshold then pure none
      else pure (some (((p.1 + c1.1 + c2.1) / 3, (p.2 + c1.2 + c2.2) / 3) : Pt))
    pure (.points (l.filterMap id))

/-- `np.arccos`: not a number outside `[-1, 1]` -/
noncomputable def arccos (x : ℝ) : Option ℝ := if -1 ≤ x ∧ x ≤ 1 then some (Real.arccos x) else none

/-- `np.rad2deg` -/
noncomputable def rad2deg (x : ℝ) : ℝ := x * 180 / Real.pi

/-- `np.linalg.norm` -/
noncomputable def norm (p : Pt) : ℝ := Real.sqrt (p.1 ^ 2 + p.2 ^ 2)

/-- Scalar product -/
def dot (p q : Pt) : ℝ := p.1 * q.1 + p.2 * q.2

/-- `v / np.linalg.norm(v)`: not a number for the zero vector -/
noncomputable def normalize (v : Pt) : Option Pt := if norm v = 0 then none else some (v.1 / norm v, v.2 / norm v)

/-- The angle between two vectors in degrees -/
noncomputable def angleDeg (v w : Pt) : Option ℝ := do
  let a ← normalize v
  let b ← normalize w
  (arccos (dot a b)).map rad2deg

/-- `get_angle` (lines 9-15) -/
noncomputable def getAngle (center p1 p2 : Pt) : Option ℝ := angleDeg (p1 - center) (p2 - center)

/-- A triple point (line 6) -/
structure TriplePoint where
  center : Pt
  branches : List Pt
  angles : List (Option ℝ)

/-- `get_triple_points` (lines 96-132), from the centres and the intersections of the contour lines.  The test for emptiness asks for
`len`, which is two for `[[], []]`; taking such a row from a list of points does not broadcast. -/
noncomputable def triplePoints (centers : Centers) (p01 p12 p20 : List Pt) : Except PyErr (List TriplePoint) :=
  match centers with
  | .twoEmptyRows => .error .valueError
  | .points l => l.mapM fun c => do
    let b0 ← findClosestPoint c p20
    let b1 ← findClosestPoint c p01
    let b2 ← findClosestPoint c p12
    pure ⟨c, [b0.1, b1.1, b2.1], [getAngle c b0.1 b1.1, getAngle c b1.1 b2.1, getAngle c b2.1 b0.1]⟩

end Points

section Neumann

/-- One angle: `arccos(-(a² + b² - c²) / 2 / a / b)` in degrees; not a number if a divisor vanishes -/
noncomputable def neumannAngle (a b c : ℝ) : Option ℝ :=
  if a = 0 ∨ b = 0 then none else (arccos (-(a ^ 2 + b ^ 2 - c ^ 2) / 2 / a / b)).map rad2deg

/-- `neumann_angles_from_surface_tensions` (`contact_angle_circle_fitting.py`, lines 87-94) -/
noncomputable def neumannAngles (g : Fin 3 → Fin 3 → ℝ) : List (Option ℝ) :=
  [neumannAngle (g 0 1) (g 0 2) (g 1 2), neumannAngle (g 0 1) (g 1 2) (g 0 2), neumannAngle (g 1 2) (g 0 2) (g 0 1)]

/-- `surface_tension_from_kappas` (lines 97-102) -/
noncomputable def surfaceTension (kappa : Fin 3 → ℝ) (width : ℝ) (i j : Fin 3) : ℝ :=
  if i = j then 0 else (kappa i + kappa j) / 6 * width

/-- `analytic_neumann_angles` (`post_processing.py`, lines 135-149) -/
noncomputable def analyticAngles (kappa : Fin 3 → ℝ) : List (Option ℝ) :=
  let g := fun i j => kappa i + kappa j
  [neumannAngle (g 0 1) (g 0 2) (g 1 2), neumannAngle (g 0 1) (g 1 2) (g 0 2), neumannAngle (g 1 2) (g 0 2) (g 0 1)]

end Neumann

section Circles

/-- A circle: centre and radius (`contact_angle_circle_fitting.py`, line 83) -/
structure Circle where
  center : Pt
  radius : ℝ

open Flt in
/-- `circle_intersections` (lines 6-36) -/
noncomputable def circleIntersections (m0 m1 : Pt) (r0 r1 : ℝ) : List (Flt ℝ × Flt ℝ) :=
  let dist := norm (m0 - m1)
  let x0 := m0.1
  let y0 := m0.2
  let x1 := m1.1
  let y1 := m1.2
  let k1 := div (num (y0 - y1)) (num (x0 - x1))
  let b1 := sub (num y1) (mul k1 (num x1))
  let k2 := div (num (-1)) k1
  let b2 := div (num (r0 ^ 2 - r1 ^ 2 - x0 ^ 2 + x1 ^ 2 - y0 ^ 2 + y1 ^ 2)) (num (2 * (y1 - y0)))
  if dist > r0 + r1 then []
  else if |r1 - r0| = dist ∨ dist = r0 + r1 then
    let xx := div (neg (sub b1 b2)) (sub k1 k2)
    let yy := div (neg (add (mul (neg b2) k1) (mul b1 k2))) (sub k1 k2)
    [(xx, yy)]
  else if |r1 - r0| < dist ∧ dist < r0 + r1 then
    let k2sq := mul k2 k2
    let radicand := sub (add (add (sub (sub (add (add (neg (mul b2 b2)) (num (r1 ^ 2))) (mul k2sq (num (r1 ^ 2))))
      (mul (mul (mul (num 2) b2) k2) (num x1))) (mul k2sq (num (x1 ^ 2)))) (mul (mul (num 2) b2) (num y1)))
      (mul (mul (mul (num 2) k2) (num x1)) (num y1))) (num (y1 ^ 2))
    let front := add (add (mul (neg b2) k2) (num x1)) (mul k2 (num y1))
    let xx1 := div (sub front (Flt.sqrt radicand)) (add (num 1) k2sq)
    let yy1 := add (mul k2 xx1) b2
    let xx2 := div (add front (Flt.sqrt radicand)) (add (num 1) k2sq)
    let yy2 := add (mul k2 xx2) b2
    [(xx1, yy1), (xx2, yy2)]
  else []

/-- `rotate90_ccw` (lines 129-130) -/
def rotateCcw (v : Pt) : Pt := (-v.2, v.1)

/-- `rotate90_cw` (lines 132-133) -/
def rotateCw (v : Pt) : Pt := (v.2, -v.1)

/-- The angles of the lens from the left intersection (lines 138-146) -/
noncomputable def lensAngles (left : Pt) (lower upper : Circle) : List (Option ℝ) :=
  let v20 := rotateCcw (lower.center - left)
  let v01 : Pt := (-1, 0)
  let v12 := rotateCw (upper.center - left)
  [angleDeg v20 v01, angleDeg v01 v12, angleDeg v12 v20]

/-- `liquid_lens_neumann_angles` (lines 105-146) from the two fitted circles.  Two intersections are unpacked, otherwise a
`ValueError`; a comparison with not a number is false, so the assertion fails on it.  Sorting is stable. -/
noncomputable def liquidLens (c0 c1 : Circle) : Except PyErr (List (Option ℝ)) :=
  match circleIntersections c0.center c1.center c0.radius c1.radius with
  | [(.num xa, .num ya), (.num xb, .num yb)] =>
    if |ya - yb| < 1 / 10 then
      let left : Pt := if xa ≤ xb then (xa, ya) else (xb, yb)
      if c0.center.2 ≤ c1.center.2 then .ok (lensAngles left c0 c1) else .ok (lensAngles left c1 c0)
    else .error .assertion
  | [_, _] => .error .assertion
  | _ => .error .valueError

end Circles

end PostProcessing
end Lbm
