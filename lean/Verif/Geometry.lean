import Verif.StencilCtor
import Mathlib.Analysis.Real.Sqrt
import Mathlib.Algebra.Order.Floor.Ring
import Mathlib.Data.Rat.Floor

/-!
# Pipes, channels, cavities

`geometry.py`, `scenarios.py`, `analytical_solutions.py` and `vorticity_2d` of `postprocessing.py`.

Arrays are modelled as functions of the cell, numbers as reals (diameters as rationals, so that they can be
rounded).  Where numpy would divide by a radius of zero the model returns `none`.  A mask callback is called
with the midpoints of the cells and sets the boundary in all cells, ghost layers included; boundaries set later
overwrite earlier ones (`replace=True`, the default of `set_boundary` in pystencils).  `slice_from_direction`
selects the ghost layer of the face.
-/

namespace Lbm
namespace Geometry

variable {D : ℕ}

/-- Python's `int(round(q))`: to the nearest integer, halves to the even neighbour. -/
def pyRound (q : ℚ) : ℤ :=
  let f := ⌊q⌋
  if q - f < 1 / 2 then f
  else if 1 / 2 < q - f then f + 1
  else if f % 2 = 0 then f else f + 1

/-- The radius (`geometry.py`, lines 62-65 and 145-148): half the diameter, by default half the smallest
extent of the cross section, rounded.  `min` of an empty sequence is a `ValueError`. -/
def pipeRadius (shape : Fin D → ℕ) (flow : Fin D) (diameter : Option ℚ) : Except PyErr ℤ :=
  match diameter with
  | some d => .ok (pyRound (d / 2))
  | none =>
    match (((List.finRange D).filter fun i => i ≠ flow).map shape).min? with
    | some m => .ok (pyRound ((m : ℚ) / 2))
    | none => .error .valueError

/-- The centre of the pipe (lines 71-72, 157). -/
def pipeCenter (shape : Fin D → ℕ) (i : Fin D) : ℤ := pyRound ((shape i : ℚ) / 2)

/-- The velocity in flow direction as a function of the position (lines 153-162): `center` and `radius` as
above. -/
noncomputable def profile (uMax : ℝ) (radius : ℤ) (flow : Fin D) (center : Fin D → ℤ) (pos : Fin D → ℝ) : ℝ :=
  let dist := Real.sqrt (∑ i, if i = flow then 0 else (pos i - (center i : ℝ)) ^ 2)
  uMax * (1 - (dist / (radius : ℝ)) ^ 2)

/-- The midpoint of a cell (line 150). -/
noncomputable def midpoint (x : Fin D → ℤ) (i : Fin D) : ℝ := (x i : ℝ) + 1 / 2

/-- `get_pipe_velocity_field` (lines 124-163): component `j` of the velocity in cell `x`. -/
noncomputable def pipeVelocity (shape : Fin D → ℕ) (uMax : ℝ) (flow : Fin D) (diameter : Option ℚ) :
    Except PyErr (Option ((Fin D → ℤ) → Fin D → ℝ)) := do
  let radius ← pipeRadius shape flow diameter
  if radius = 0 then .ok none
  else .ok (some fun x j =>
    if j = flow then profile uMax radius flow (pipeCenter shape) (midpoint x) else 0)

/-- The callback of `add_pipe_inflow_boundary` (lines 58-82): component `j` of the velocity at a boundary link
at position `pos`.  In 2D the coordinate is shifted by the radius (line 76), in 3D by the centre. -/
noncomputable def inflowVelocity (shape : Fin D → ℕ) (uMax : ℝ) (flow : Fin D) (diameter : Option ℚ) :
    Except PyErr (Option ((Fin D → ℝ) → Fin D → ℝ)) := do
  let radius ← pipeRadius shape flow diameter
  if D = 3 then
    if radius = 0 then .ok none
    else .ok (some fun pos j =>
      if j = flow then profile uMax radius flow (pipeCenter shape) pos else 0)
  else if D = 2 then
    if radius = 0 then .ok none
    else .ok (some fun pos j =>
      if j = flow then profile uMax radius flow (fun _ => radius) pos else 0)
  else .error .valueError

/-- The callback of `add_pipe_walls` for a constant diameter (lines 105-119), flow in direction `0`; the
coordinates are the midpoints of the cells. -/
noncomputable def pipeWall (shape : Fin (D + 1) → ℕ) (diameter : ℚ) (x : Fin (D + 1) → ℤ) : Prop :=
  ((diameter : ℝ) / 2) ^ 2 <
    ∑ i : Fin D, (midpoint x i.succ - ((shape i.succ / 2 : ℕ) : ℝ)) ^ 2

/-- The callback of `add_sphere` (lines 29-33) takes two coordinates; called with the coordinates of all
dimensions it raises a `TypeError` for a different number. -/
noncomputable def sphereMask (midpointArg : ℝ × ℝ) (radius : ℝ) (coordinates : List ℝ) : Except PyErr Prop :=
  match coordinates with
  | [x, y] => .ok ((x - midpointArg.1) ^ 2 + (y - midpointArg.2) ^ 2 < radius ^ 2)
  | _ => .error .typeError

/-- `get_shear_flow_velocity_field` (lines 184-190): component `j` in the cell with last coordinate `z`;
`height` is the extent in this coordinate (line 184) and `rand` the random numbers. -/
noncomputable def shearFlow (height : ℕ) (uMax factor : ℝ) (rand : Fin D → (Fin D → ℤ) → ℝ) (last : Fin D)
    (x : Fin D → ℤ) (j : Fin D) : ℝ :=
  if (j : ℕ) = 0 then
    if ((height / 3 : ℕ) : ℤ) ≤ x last ∧ x last < ((height / 3 * 2 : ℕ) : ℤ) then -uMax else uMax
  else factor * uMax * (rand j x - 1 / 2)

/-! ### Scenarios -/

/-- What a cell of the array with its ghost layer is. -/
inductive CellKind where
  | fluid | wall | inflow | outflow | lid
  deriving DecidableEq

/-- `set_boundary(boundary, slice_from_direction(d, dim))`: the ghost layer of the face in direction `i`, the
upper one if `up`. -/
def onFace (shape : Fin D → ℕ) (i : Fin D) (up : Bool) (x : Fin D → ℤ) : Bool :=
  if up then x i = shape i else x i = -1

/-- `create_lid_driven_cavity` (`scenarios.py`, lines 97-100): the lid at the upper face of direction 1 first,
then no-slip at the others. -/
def cavity (shape : Fin D → ℕ) (one : Fin D) (x : Fin D → ℤ) : CellKind :=
  let k := if onFace shape one true x then CellKind.lid else .fluid
  let others := (List.finRange D).flatMap fun i =>
    if i = one then [(i, false)] else [(i, false), (i, true)]
  others.foldl (fun k f => if onFace shape f.1 f.2 x then .wall else k) k

/-- How a channel is driven. -/
inductive Drive where
  | force | pressure | velocity
  deriving DecidableEq

/-- `bool(p)` of a number or `None`. -/
def truthy : Option ℚ → Bool
  | some q => q ≠ 0
  | none => false

/-- The choices made by `create_channel` (`scenarios.py`, lines 128-166): how the channel is driven, or the
exception. -/
def channelDrive (force pressure uMax : Option ℚ) (duct callback : Bool) : Except PyErr Drive := do
  if [truthy force, truthy pressure, truthy uMax].count true ≠ 1 then .error .valueError
  let drive ←
    if truthy force then .ok Drive.force
    else if truthy pressure then .ok Drive.pressure
    else if truthy uMax then
      if duct then .error .notImplemented else .ok Drive.velocity
    else .error .assertion
  if duct && callback then .error .valueError
  .ok drive

/-- The kinds of cells of a channel without callback (`create_channel`, lines 143-170): inflow and outflow, then
the walls of the box, then (unless `duct`) the wall of the pipe with the diameter of line 169. -/
noncomputable def channelCell (shape : Fin (D + 1) → ℕ) (drive : Drive) (duct : Bool)
    (x : Fin (D + 1) → ℤ) : CellKind :=
  let k :=
    if drive = .force then CellKind.fluid
    else if onFace shape 0 true x then .outflow
    else if onFace shape 0 false x then .inflow
    else .fluid
  let k := if ∃ i : Fin D, onFace shape i.succ true x || onFace shape i.succ false x then .wall else k
  if duct then k
  else
    match ((List.finRange D).map fun i => shape i.succ).min? with
    | none => k
    | some m => by
        classical
        exact if pipeWall shape m x then .wall else k

/-- The densities set at inflow and outflow of a channel driven by a pressure difference (lines 144-145). -/
def pressureDensities (pressureDifference : ℝ) : ℝ × ℝ := (1 + pressureDifference, 1)

/-! ### Analytical solution and vorticity -/

/-- `poiseuille_flow` (`analytical_solutions.py`, line 20). -/
noncomputable def poiseuilleFlow (middleDistance height force viscosity : ℝ) : ℝ :=
  force * 1 / (2 * viscosity) * (height ^ 2 / 4 - middleDistance ^ 2)

/-- `np.gradient` along one axis with `n` entries: central differences inside, one-sided at the ends; less
than two entries are a `ValueError`. -/
noncomputable def npGradient (n : ℕ) (f : ℕ → ℝ) : Except PyErr (ℕ → ℝ) :=
  if n < 2 then .error .valueError
  else .ok fun i =>
    if i = 0 then f 1 - f 0
    else if i + 1 = n then f i - f (i - 1)
    else (f (i + 1) - f (i - 1)) / 2

/-- `vorticity_2d` (`postprocessing.py`, lines 16-21) of a field with `nx` times `ny` cells. -/
noncomputable def vorticity2d (nx ny : ℕ) (u v : ℕ → ℕ → ℝ) (x y : ℕ) : Except PyErr ℝ := do
  let gradYOfX ← npGradient ny (fun y => u x y)
  let gradXOfY ← npGradient nx (fun x => v x y)
  .ok (gradXOfY x - gradYOfX y)

end Geometry
end Lbm
