import Verif.StencilCtor
import Mathlib.Analysis.Real.Sqrt
import Mathlib.Data.Matrix.Basic
import Mathlib.LinearAlgebra.Matrix.Notation
import Mathlib.LinearAlgebra.Matrix.Trace

/-!
# The Oldroyd-B model of a viscoelastic fluid

`oldroydb.py`.  The discretisation classes `FVM1stOrder` and `VOF` belong to pystencils; what is modelled is
the source term, the face stresses, the force, the update of the stress in place, the boundary values and the
constructors of the boundary conditions.

Cells are the elements of an additive group `X` (the integer lattice, or a torus for periodic domains) with the
offsets given by a homomorphism `off`.  A staggered field stores one value per cell and direction of
`staggered_stencil`; the face in the opposite direction is stored by the neighbour.  Numbers are real; sympy
expressions are modelled by their values.
-/

namespace Lbm
namespace OldroydB

open Matrix

variable {D : ℕ}

/-- `_source` (`oldroydb.py`, lines 43-47), with `gradu i j` the derivative of velocity component `j` in
direction `i` (line 44). -/
noncomputable def source (lambdaP etaP : ℝ) (gradu τ : Matrix (Fin D) (Fin D) ℝ) :
    Matrix (Fin D) (Fin D) ℝ :=
  let gamma := gradu + graduᵀ
  τ * gradu + graduᵀ * τ + (1 / lambdaP) • (etaP • gamma - τ)

/-- `_flux` (lines 40-41): the flux of the stress component in direction `k`. -/
def flux (u : Fin D → ℝ) (τ : Matrix (Fin D) (Fin D) ℝ) (k : Fin D) : Matrix (Fin D) (Fin D) ℝ :=
  u k • τ

section Faces

variable {X : Type} [AddCommGroup X] (off : Vec D →+ X)

/-- `tauface` (lines 49-52): the stress at the face between a cell and its neighbour in direction `d`, stored
for the directions of `staggered_stencil`. -/
noncomputable def tauface (τ : X → Matrix (Fin D) (Fin D) ℝ) (d : Vec D) (x : X) :
    Matrix (Fin D) (Fin D) ℝ :=
  (1 / 2 : ℝ) • (τ x + τ (x + off d))

/-- Access to a staggered field that is no flux field, as done by `staggered_access` (line 58): a direction
that is not in the list is read at the neighbour, in the opposite direction. -/
def faceAccess (half : List (Vec D)) (store : Vec D → X → Matrix (Fin D) (Fin D) ℝ) (d : Vec D) (x : X) :
    Matrix (Fin D) (Fin D) ℝ :=
  if d ∈ half then store d x else store (-d) (x + off d)

/-- `norm()` of an offset (lines 59, 61). -/
noncomputable def norm (d : Vec D) : ℝ := Real.sqrt (∑ i, (d i : ℝ) ^ 2)

/-- `full_stencil` (lines 55-56): the stored directions and their inverses. -/
def fullStencil (half : List (Vec D)) : List (Vec D) := half ++ half.map fun d => -d

/-- `force` (lines 54-62), component `j` of the force in cell `x`. -/
noncomputable def force (half : List (Vec D)) (store : Vec D → X → Matrix (Fin D) (Fin D) ℝ) (x : X)
    (j : Fin D) : ℝ :=
  let dtau := ((fullStencil half).map fun d =>
    (∑ i, faceAccess off half store d x i j * (d i : ℝ)) / norm d).sum
  let a0 := ((fullStencil half).map norm).sum
  dtau / a0 * 2 * D

/-- `ForceOnBoundary.__call__` (lines 187-203): what the conditional of one link adds to the force on a
boundary cell, `a.transpose() * o` (line 199). -/
def linkForce (stress : Matrix (Fin D) (Fin D) ℝ) (o : Vec D) (j : Fin D) : ℝ :=
  ∑ i, stress i j * (o i : ℝ)

end Faces

/-- `continuity` (lines 70-76): the kernel first copies the stress of the cell to `tau_old`, then assigns the
new values one after the other; `rhs i j` reads `tau_old` (line 76) and nothing else of the cell that is
changed.  `todo` are the components still to be assigned. -/
def assignAll (rhs : Fin D → Fin D → Matrix (Fin D) (Fin D) ℝ → ℝ) (old : Matrix (Fin D) (Fin D) ℝ) :
    List (Fin D × Fin D) → Matrix (Fin D) (Fin D) ℝ → Matrix (Fin D) (Fin D) ℝ
  | [], cur => cur
  | p :: todo, cur =>
    assignAll rhs old todo (Matrix.of fun i j => if (i, j) = p then rhs i j old else cur i j)

/-- The kernel of `continuity` (lines 70-76), with the components in the order of the two ranges. -/
def continuity (rhs : Fin D → Fin D → Matrix (Fin D) (Fin D) ℝ → ℝ) (τ : Matrix (Fin D) (Fin D) ℝ) :
    Matrix (Fin D) (Fin D) ℝ :=
  assignAll rhs τ ((List.finRange D).flatMap fun i => (List.finRange D).map fun j => (i, j)) τ

/-! ### Boundary conditions -/

/-- The nested conditional built in `Flux`, `Extrapolation` and `ForceOnBoundary` (lines 101-115, 149-166,
196-203): each round of the loop puts the conditional built so far into the `else` branch of the new one.
`branches` are the statements for the directions of `stencil[1:]`, the condition for the one at position `k`
is that the direction is `k + 1` (lines 93, 146, 193).  The result is the statement that is executed. -/
def conditional {β : Type} (branches : List β) (direction : ℕ) : Option β :=
  (branches.zipIdx).foldl (fun otherwise b => if direction = b.2 + 1 then some b.1 else otherwise) none

/-- The value stored by `Flux` and `Extrapolation` for one component (lines 105-110, 156-161): in a flux field
the access in the opposite direction comes with the factor `-1`, which is moved to the value. -/
def storedValue (opposite : Bool) (value : ℝ) : ℝ := if opposite then -1 * value else value

/-- What an access to the component returns: with the factor `-1` in the opposite direction. -/
def readBack (opposite : Bool) (stored : ℝ) : ℝ := if opposite then -1 * stored else stored

/-- `Flux.__call__`, lines 95-98: the value, or zeros. -/
def fluxValue {n : ℕ} (value : Option (Fin n → ℝ)) : Fin n → ℝ := value.getD fun _ => 0

/-- The weights of `Extrapolation` (lines 131-138). -/
noncomputable def extrapolationWeights (order : ℕ) : Except PyErr (List ℝ) :=
  match order with
  | 0 => .ok [1]
  | 1 => .ok [3 / 2, -(1 / 2)]
  | 2 => .ok [15 / 8, -(10 / 8), 3 / 8]
  | _ => .error .notImplemented

/-- `Extrapolation.__call__`, lines 152-155: the extrapolated value at the face in direction `o` of cell `x`,
from the cell and the ones behind it. -/
noncomputable def extrapolate {X : Type} [AddCommGroup X] (off : Vec D →+ X) (weights : List ℝ)
    (src : X → ℝ) (o : Vec D) (x : X) : ℝ :=
  ((weights.zipIdx).map fun w => w.1 * src (x + off (fun i => -1 * (w.2 : ℤ) * o i))).sum

/-- The arguments a `name` may have. -/
inductive NameArg where
  | none
  | str (s : String)
  | type

/-- `super(C).__init__(arg)` with one argument to `super`: the object is an unbound `super` object and
`__init__` is its own initialiser, which takes a type. -/
def unboundSuperInit : NameArg → Except PyErr Unit
  | .type => .ok ()
  | _ => .error .typeError

/-- `ForceOnBoundary.__init__` (lines 180-185). -/
def forceOnBoundaryInit (forceFieldStaggered : Bool) (name : NameArg) : Except PyErr Unit := do
  unboundSuperInit name
  if forceFieldStaggered then .error .assertion else .ok ()

end OldroydB
end Lbm
