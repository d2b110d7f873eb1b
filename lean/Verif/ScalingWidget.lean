/-
Model of `ScalingWidget` (`parameterization.py:11-153`): the numbers of the form and what its change listeners do with them.

Numbers are rational. Assigning a number to a field runs the listeners of the field if the number changes, before the assignment returns
(traitlets). Labels, buttons and layout are left out, as is the Reynolds number, which no other field depends on.
-/
import Verif.Parameters

namespace Lbm
namespace ScalingWidget

/-- the options of `scaling_type` (`parameterization.py:13-15`) -/
inductive Kind where
  | diffusive
  | acoustic
  | fixedVelocity
  deriving DecidableEq

/-- the fields of the form (`parameterization.py:13-24`); `viscosity` in units of `10⁻⁶` -/
structure Form where
  kind : Kind
  length : ℚ
  cells : ℚ
  velocity : ℚ
  dx : ℚ
  viscosity : ℚ
  omega : ℚ
  dt : ℚ
  latticeVelocity : ℚ
  deriving DecidableEq

/-- `BoundedFloatText(min=0, max=2)` (line 21) -/
def clamp (q : ℚ) : ℚ := max 0 (min 2 q)

/-- `_update_free_parameter` (`parameterization.py:97-115`) with the functions for single fields (lines 80-95 and 117-120). It is itself the
listener of `omega`, `dt` and `max_lattice_velocity` (lines 71-72). `fuel` bounds the depth of the calls, `none` if an exception is raised or the
depth is exceeded. -/
def updateFree : ℕ → Form → Option Form
  | 0, _ => none
  | fuel + 1, w =>
    let setDt := fun (w : Form) (v : ℚ) => if w.dt = v then some w else updateFree fuel { w with dt := v }
    let setOmega := fun (w : Form) (v : ℚ) => if w.omega = clamp v then some w else updateFree fuel { w with omega := clamp v }
    let setLattice := fun (w : Form) (v : ℚ) =>
      if w.latticeVelocity = v then some w else updateFree fuel { w with latticeVelocity := v }
    let dtFromOmega := fun (w : Form) => if w.omega = 0 then some w else
      (viscosityOfRate w.omega).bind fun nu => (pyDiv nu (w.viscosity / 1000000)).bind fun q => setDt w (q * w.dx ^ 2)
    let dtFromLattice := fun (w : Form) => if w.velocity = 0 then some w else
      (pyDiv w.latticeVelocity w.velocity).bind fun q => setDt w (q * w.dx)
    let omegaFromDt := fun (w : Form) => if w.dx = 0 then some w else
      (pyDiv (w.viscosity / 1000000 * w.dt) (w.dx ^ 2)).bind fun nu => (rateOfViscosity nu).bind fun o => setOmega w o
    let latticeFromDt := fun (w : Form) => if w.dx = 0 then some w else
      (pyDiv w.dt w.dx).bind fun q => setLattice w (q * w.velocity)
    match w.kind with
    | .diffusive => (dtFromOmega w).bind latticeFromDt
    | .acoustic => (omegaFromDt w).bind latticeFromDt
    | .fixedVelocity => (omegaFromDt w).bind dtFromLattice

/-- deep enough, see `C129_settles` -/
def depth : ℕ := 5

/-- `_on_dx_change` (`parameterization.py:129-137`) outside of another update. The listener of `cells_per_length` returns at once. -/
def onDx (w : Form) : Option Form :=
  if w.dx = 0 then some w else (pyDiv w.length w.dx).bind fun c => updateFree depth { w with cells := c }

/-- `_on_cells_per_length_change` (`parameterization.py:139-147`) -/
def onCells (w : Form) : Option Form :=
  if w.cells = 0 then some w else (pyDiv w.length w.cells).bind fun d => updateFree depth { w with dx := d }

/-- `_on_physical_length_change` (`parameterization.py:149-153`); here the listener of `dx` is active. -/
def onLength (w : Form) : Option Form :=
  if w.cells = 0 then some w else
    (pyDiv w.length w.cells).bind fun d => (if w.dx = d then some w else onDx { w with dx := d }).bind (updateFree depth)

/-- input of the user -/
inductive Event where
  | kind (k : Kind)
  | length (v : ℚ)
  | cells (v : ℚ)
  | velocity (v : ℚ)
  | dx (v : ℚ)
  | viscosity (v : ℚ)
  | omega (v : ℚ)
  | dt (v : ℚ)
  | latticeVelocity (v : ℚ)

/-- The listeners (`parameterization.py:63-72`) after the input. The field `max_physical_velocity` has only the listener `_update_re`. Input in a
disabled field is not possible (lines 98-113). -/
def step (w : Form) : Event → Option Form
  | .kind k => if w.kind = k then some w else updateFree depth { w with kind := k }
  | .length v => if w.length = v then some w else onLength { w with length := v }
  | .cells v => if w.cells = v then some w else onCells { w with cells := v }
  | .velocity v => some { w with velocity := v }
  | .dx v => if w.dx = v then some w else onDx { w with dx := v }
  | .viscosity v => if w.viscosity = v then some w else updateFree depth { w with viscosity := v }
  | .omega v => if w.kind ≠ .diffusive ∨ w.omega = clamp v then some w else updateFree depth { w with omega := clamp v }
  | .dt v => if w.kind ≠ .acoustic ∨ w.dt = v then some w else updateFree depth { w with dt := v }
  | .latticeVelocity v =>
    if w.kind ≠ .fixedVelocity ∨ w.latticeVelocity = v then some w else updateFree depth { w with latticeVelocity := v }

end ScalingWidget
end Lbm
