import Verif.PressureTensor
import Mathlib.Data.ZMod.Basic
import Mathlib.Algebra.BigOperators.Ring.Finset
import Mathlib.Algebra.BigOperators.Field

/-!
# Kernels of the multi-phase model on a periodic grid

Model of `/repo/src/lbmpy/phasefield/kerneleqs.py`: chemical potentials, forces, pressure tensor and the finite difference step of the
Cahn-Hilliard equation.

A field has one value per cell and index; the synchronisation of the ghost layers makes the grid periodic, so cells are
vectors of residues.  From pystencils, which is not part of the repository, are taken: `discretize_spatial` with the scheme
`'standard'` replaces every derivative of a field by central differences; `Discretization2ndOrder` replaces `advection` by the
central difference of the mean fluxes, `diffusion` by the difference of the fluxes between cells, and solves for one explicit
Euler step of the `transient` term.
-/

namespace Lbm
namespace PhaseKernels

open PhaseField

/-- A cell of a periodic grid -/
abbrev Cell {D : ℕ} (size : Fin D → ℕ) : Type := (a : Fin D) → ZMod (size a)

variable {D n : ℕ} {size : Fin D → ℕ} {K : Type} [Field K]

/-- The neighbouring cell with an offset along an axis -/
def neighbor (x : Cell size) (a : Fin D) (o : ℤ) : Cell size := x + Pi.single a (o : ZMod (size a))

/-- The first derivative of a field by `discretize_spatial` -/
def diff1 (dx : K) (f : Cell size → K) (a : Fin D) (x : Cell size) : K := (f (neighbor x a 1) - f (neighbor x a (-1))) / (2 * dx)

/-- The second derivative of a field along one axis by `discretize_spatial` -/
def diff2 (dx : K) (f : Cell size → K) (a : Fin D) (x : Cell size) : K :=
  (f (neighbor x a 1) - 2 * f x + f (neighbor x a (-1))) / dx ^ 2

/-- The sum that replaces the Laplacian (`substitute_laplacian_by_sum`, `analytical.py:251-262`), discretised -/
def lap (dx : K) (f : Cell size → K) (x : Cell size) : K := ∑ a, diff2 dx f a x

/-! ## Forces -/

/-- The bulk part of a chemical potential in a cell -/
noncomputable def muBulkAt (F : ExpandedEnergy K n) (phi : Fin n → Cell size → K) (i : Fin n) (x : Cell size) : K :=
  MvPolynomial.eval (fun j => phi j x) (MvPolynomial.pderiv i F.bulk)

/-- The part of a chemical potential from one product of gradients, discretised -/
def muProductAt (dx : K) (phi : Fin n → Cell size → K) (i : Fin n) (p : K × List (Option (Fin n))) (x : Cell size) : K :=
  match p.2 with
  | [some j, some k] => -p.1 * ((if i = j then lap dx (phi k) x else 0) + if i = k then lap dx (phi j) x else 0)
  | _ => 0

/-- `mu_kernel` (`kerneleqs.py:13-21`): what is stored in `mu_field(i)` -/
noncomputable def muKernel (dx : K) (F : ExpandedEnergy K n) (phi : Fin n → Cell size → K) (i : Fin n) (x : Cell size) : K :=
  muBulkAt F phi i x + (F.products.map fun p => muProductAt dx phi i p x).sum

/-- `force_kernel_using_mu` (`kerneleqs.py:24-29`) -/
def forceUsingMu (dx : K) (phi mu : Fin n → Cell size → K) (a : Fin D) (x : Cell size) : K := ∑ i, -phi i x * diff1 dx (mu i) a x

/-- The bulk part of the pressure in a cell (`pressure_tensor_bulk_component`, `analytical.py:312-320`); the chemical potentials may be given -/
noncomputable def pressureBulkAt (F : ExpandedEnergy K n) (phi : Fin n → Cell size → K) (mu : Option (Fin n → Cell size → K))
    (x : Cell size) : K :=
  ∑ i, phi i x * mu.getD (muBulkAt F phi) i x - MvPolynomial.eval (fun j => phi j x) F.bulk

/-- The term `t` of the pressure at the interface (`analytical.py:328-332`), discretised -/
def interfaceTermAt (dx : K) (ci cj : Cell size → K) (a b : Fin D) (x : Cell size) : K :=
  diff1 dx ci a x * diff1 dx cj b x + diff1 dx ci b x * diff1 dx cj a x
    - if a = b then ∑ g, diff1 dx ci g x * diff1 dx cj g x + ∑ g, ci x * diff2 dx cj g x + ∑ g, cj x * diff2 dx ci g x else 0

/-- `pressure_tensor_kernel` (`kerneleqs.py:32-45`) and, without the bulk part, that of `pressure_tensor_kernel_pbs` (lines 48-67), before the
entries are stored: the entries of the tensor -/
noncomputable def pressureKernel (dx : K) (F : ExpandedEnergy K n) (phi : Fin n → Cell size → K) (mu : Option (Fin n → Cell size → K))
    (bulk : Bool) : Except PyErr (Fin D → Fin D → Cell size → K) :=
  match extractGamma F with
  | .error e => .error e
  | .ok gamma => .ok fun a b x =>
    (∑ i, ∑ j, interfaceTermAt dx (phi i) (phi j) a b x * (gammaAt gamma i j / 2)) +
      if bulk then (if a = b then pressureBulkAt F phi mu x else 0) else 0

/-- Storing the tensor: the entry of a linear index is written at the key of the index map (lines 40-44, 57-61); `none` if there is no
such index. -/
def store (P : Fin D → Fin D → Cell size → K) (lin : ℕ) (x : Cell size) : Option K :=
  ((symmetricLinearization D).find? fun e => e.2 == lin).bind fun e =>
    if h : e.1.1 < D ∧ e.1.2 < D then some (P ⟨e.1.1, h.1⟩ ⟨e.1.2, h.2⟩ x) else none

/-- Reading the tensor again (`force_kernel_using_pressure_tensor`, line 75) -/
def load (stored : ℕ → Cell size → Option K) (a b : Fin D) (x : Cell size) : Option K :=
  ((symmetricLinearization D).lookup (if a < b then (a.1, b.1) else (b.1, a.1))).bind fun lin => stored lin x

/-- `force_kernel_using_pressure_tensor` (`kerneleqs.py:70-80`) for a tensor that has been read -/
def forceUsingPressure (dx : K) (P : Fin D → Fin D → Cell size → K) (pbs : Option (Cell size → K)) (extra : Option (Fin D → K)) (b : Fin D)
    (x : Cell size) : K :=
  -∑ a, diff1 dx (P a b) a x + (match pbs with | some s => 2 * diff1 dx s b x * s x | none => 0) +
    match extra with | some f => f b | none => 0

/-! ## Cahn-Hilliard equation with finite differences -/

/-- `advection(phi, velocity, phase_idx)` by `Discretization2ndOrder` -/
def advection (dx : K) (phi : Cell size → K) (u : Fin D → Cell size → K) (x : Cell size) : K :=
  (∑ a, ((phi (neighbor x a 1) * u a (neighbor x a 1) + phi x * u a x) / 2 -
    (phi (neighbor x a (-1)) * u a (neighbor x a (-1)) + phi x * u a x) / 2)) / dx

/-- `diffusion(mu, mobility, phase_idx)` by `Discretization2ndOrder` -/
def diffusion (dx mobility : K) (mu : Cell size → K) (x : Cell size) : K :=
  (∑ a, (mobility * (mu (neighbor x a 1) - mu x) - mobility * (mu x - mu (neighbor x a (-1))))) / dx ^ 2

/-- `cahn_hilliard_fd_eq` (`kerneleqs.py:86-89`) -/
def cahnHilliardEq (dx dt mobility : K) (phi mu : Cell size → K) (u : Fin D → Cell size → K) (x : Cell size) : K :=
  phi x + dt * (-advection dx phi u x + diffusion dx mobility mu x)

/-- The mobilities of the phases (`CahnHilliardFDStep.__init__`, lines 103-105, 109): one number is taken for all, an entry missing in a list is
an `IndexError`. -/
def mobilityOf (n : ℕ) (mobilities : K ⊕ List K) : Except PyErr (Fin n → K) :=
  match mobilities with
  | .inl m => .ok fun _ => m
  | .inr l => if n ≤ l.length then .ok fun i => l.getD i 0 else .error .indexError

/-- `CahnHilliardFDStep.time_step` (lines 117-120): one step of all phases with the current chemical potentials and velocities -/
def timeStep (dx dt : K) (mobilities : K ⊕ List K) (mu : Fin n → Cell size → K) (u : Fin D → Cell size → K) (phi : Fin n → Cell size → K) :
    Except PyErr (Fin n → Cell size → K) :=
  (mobilityOf n mobilities).map fun m i => cahnHilliardEq dx dt (m i) (phi i) (mu i) u

end PhaseKernels
end Lbm
