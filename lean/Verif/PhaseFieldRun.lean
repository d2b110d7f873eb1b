import Verif.GhostLayers
import Verif.PhaseKernels

/-!
# The multi-phase model with its kernels filled in

Model of `PhaseFieldStep` (`/repo/src/lbmpy/phasefield/phasefieldstep.py`): the order of kernels from `Verif.GhostLayers` with the kernels that
the constructor creates (lines 86-179).  Chemical potentials, pressure tensor, force and finite differences are those of
`Verif.PhaseKernels`; of the lattice Boltzmann methods the collisions are parameters.

Left out: boundary conditions, GPUs, values of `discretization` other than `'standard'`.
-/

namespace Lbm
namespace PhaseFieldRun

open GhostLayers PhaseKernels PhaseField

variable {K : Type} [Field K] {D Q n : ℕ}

/-- What a cell of an array holds: values by index -/
abbrev Values (K : Type) : Type := ℕ → K

/-- Arguments of the constructor (`phasefieldstep.py:22-35`) and what is made of them: `extra` are the items of
`order_parameter_force`; `collide`, `velocity` and `density` belong to the method of the flow with a force (lines 136-143), `chCollide` are
the collisions of the order parameters for chemical potential and velocity (lines 163-179). -/
structure Model (K : Type) [Field K] (D Q n : ℕ) where
  dx : K
  dt : K
  energy : ExpandedEnergy K n
  extra : List (Fin n × (Fin D → K))
  directions : Fin Q → Vec D
  collide : (Fin D → K) → (Fin Q → K) → Fin Q → K
  velocity : (Fin D → K) → (Fin Q → K) → Fin D → K
  density : (Fin Q → K) → K
  chCollide : ℕ → K → (Fin D → K) → (Fin Q → K) → Fin Q → K

namespace Model

variable (M : Model K D Q n)

/-- An array around a cell, as a grid without bounds -/
def around (w : Arr → Vec D → Values K) (a : Arr) (k : ℕ) : Cell (fun _ : Fin D => 0) → K := fun o => w a o k

/-- The order parameters around a cell -/
def phiAround (w : Arr → Vec D → Values K) : Fin n → Cell (fun _ : Fin D => 0) → K := fun i => around w (.phi i) 0

/-- The tensor of `pressure_tensor_kernel` (`phasefieldstep.py:103-105`, `kerneleqs.py:32-45`), if there is one -/
noncomputable def pressure {size : Fin D → ℕ} (phi : Fin n → Cell size → K) : Fin D → Fin D → Cell size → K :=
  match pressureKernel M.dx M.energy phi none true with
  | .ok P => P
  | .error _ => fun _ _ _ => 0

/-- `extra_force` (`phasefieldstep.py:112-115`) -/
def extraForce (phi : Fin n → K) (b : Fin D) : K := (M.extra.map fun e => e.2 b * phi e.1).sum

/-- The values that arrive in a cell (`updatekernels.py:113-116`) -/
def streamed (w : Arr → Vec D → Values K) (a : Arr) (q : Fin Q) : K := w a (-M.directions q) q

/-- The first values by index -/
def toValues {m : ℕ} (f : Fin m → K) : Values K := fun k => if h : k < m then f ⟨k, h⟩ else 0

/-- The kernels -/
noncomputable def fns : Krn → (Arr → Vec D → Values K) → Arr → Values K
  | .muPressure, w, .mu i => fun _ => if h : i < n then muKernel M.dx M.energy (phiAround w) ⟨i, h⟩ 0 else 0
  | .muPressure, w, .pressure => fun lin => (store (M.pressure (phiAround w)) lin 0).getD 0
  | .force, w, .force => toValues fun b =>
      forceUsingPressure M.dx (fun a b o => (load (fun lin o => some (around w .pressure lin o)) a b o).getD 0) none
        (some (M.extraForce fun i => w (.phi i) 0 0)) b 0
  | .collide, w, .hydro => toValues (M.collide (fun a => w .force 0 a) fun q => w .hydro 0 q)
  | .stream, w, .hydroTmp => toValues (M.streamed w .hydro)
  | .stream, w, .velocity => toValues (M.velocity (fun a => w .force 0 a) (M.streamed w .hydro))
  | .stream, w, .phi _ => fun _ => M.density (M.streamed w .hydro)
  | .chStreamCollide i, w, .chTmp _ =>
      toValues (M.chCollide i (w (.mu i) 0 0) (fun a => w .velocity 0 a) (M.streamed w (.ch i)))
  | .chStreamCollide i, w, .phi _ => fun _ => ∑ q, M.streamed w (.ch i) q
  | .fd, w, .phiTmp i => fun _ => cahnHilliardEq M.dx M.dt 1 (around w (.phi i) 0) (around w (.mu i) 0) (fun a => around w .velocity a) 0
  | _, _, _ => 0

/-- The time step of the object, if the constructor does not raise: the pressure tensor comes first (`phasefieldstep.py:103`), then the choice of the
solver (lines 154-157). -/
noncomputable def program (density : Option ℕ) (runHydro fd : Bool) : Except PyErr (List (Op Arr (Values K) D)) :=
  match extractGamma M.energy with
  | .error e => .error e
  | .ok _ => phaseFieldStep M.fns n density runHydro fd

end Model
end PhaseFieldRun
end Lbm
