/-
Model of `relaxationrates.py` (conversion functions) and of `parameterization.py` (`reynolds_number`, `Scaling`). Numbers
are elements of a field `K`; a division by zero raises in Python and is `none` here.
-/
import Mathlib.Algebra.Order.Field.Basic
import Mathlib.Tactic.FieldSimp
import Mathlib.Tactic.Ring
import Mathlib.Tactic.Linarith
import Mathlib.Tactic.Positivity

namespace Lbm

variable {K : Type} [Field K] [DecidableEq K]

/-- `a / b` of Python -/
def pyDiv (a b : K) : Option K := if b = 0 then none else some (a / b)

/-- `relaxation_rate_from_lattice_viscosity` (`relaxationrates.py:6-8`) -/
def rateOfViscosity (nu : K) : Option K := pyDiv 2 (6 * nu + 1)

/-- `lattice_viscosity_from_relaxation_rate` (`relaxationrates.py:11-14`) -/
def viscosityOfRate (ω : K) : Option K := pyDiv (2 - ω) (6 * ω)

/-- `relaxation_rate_from_magic_number` (`relaxationrates.py:17-20`); the default magic number is 3/16 -/
def rateOfMagicNumber (ω : K) (magic : K := 3 / 16) : Option K := pyDiv (4 - 2 * ω) (4 * magic * ω + 2 - ω)

/-- `relaxation_rate_scaling` (`relaxationrates.py:63-73`) -/
def rateScaling (ω scale : K) : Option K := pyDiv ω (ω / 2 + scale * (1 - ω / 2))

/-- `reynolds_number` (`parameterization.py:167-172`) -/
def reynoldsNumber (length velocity viscosity : K) : Option K := (pyDiv length viscosity).map (· * velocity)

/-- a `Scaling` object (`parameterization.py:193-199`) -/
structure Scaling (K : Type) where
  length : K
  velocity : K
  viscosity : K
  cellsPerLength : K
  /-- `_reynolds_number` -/
  reynolds : K

namespace Scaling

/-- `_parameter_update` (lines 201-203) -/
def update (s : Scaling K) : Option (Scaling K) :=
  (reynoldsNumber s.length s.velocity s.viscosity).map fun r => { s with reynolds := r }

/-- `__init__` (lines 193-199); `_reynolds_number` is `None` until the update, here 0 -/
def new (length velocity viscosity cellsPerLength : K) : Option (Scaling K) :=
  update ⟨length, velocity, viscosity, cellsPerLength, 0⟩

/-- assignments to attributes: the three properties with setters (lines 217-237) and the plain attribute
`cells_per_length` -/
inductive Op (K : Type) where
  | setVelocity (v : K)
  | setViscosity (v : K)
  | setLength (v : K)
  | setCells (v : K)

/-- one attribute assignment. When `_parameter_update` raises, the attribute has been assigned already; the sequence
ends there. -/
def step (s : Scaling K) : Op K → Option (Scaling K)
  | .setVelocity v => update { s with velocity := v }
  | .setViscosity v => update { s with viscosity := v }
  | .setLength v => update { s with length := v }
  | .setCells v => some { s with cellsPerLength := v }

/-- `dx` (lines 205-207) -/
def dx (s : Scaling K) : Option K := pyDiv s.length s.cellsPerLength

/-- `fixed_lattice_velocity_scaling` (lines 239-258): relaxation rate and dt -/
def fixedLatticeVelocity (s : Scaling K) (latticeVelocity : K) : Option (K × K) := do
  let dx ← s.dx
  let r ← pyDiv latticeVelocity s.velocity
  let dt := r * dx
  let nu ← pyDiv (s.viscosity * dt) (dx ^ 2)
  let ω ← rateOfViscosity nu
  return (ω, dt)

/-- `diffusive_scaling` (lines 260-276): dt and lattice velocity -/
def diffusive (s : Scaling K) (ω : K) : Option (K × K) := do
  let nu ← viscosityOfRate ω
  let dx ← pyDiv s.length s.cellsPerLength
  let r ← pyDiv nu s.viscosity
  let dt := r * dx ^ 2
  let v ← pyDiv dt dx
  return (dt, v * s.velocity)

/-- `acoustic_scaling` (lines 278-291): relaxation rate and lattice velocity -/
def acoustic (s : Scaling K) (dt : K) : Option (K × K) := do
  let dx ← s.dx
  let v ← pyDiv dt dx
  let nu ← pyDiv (s.viscosity * dt) (dx ^ 2)
  let ω ← rateOfViscosity nu
  return (ω, v * s.velocity)

end Scaling
end Lbm
