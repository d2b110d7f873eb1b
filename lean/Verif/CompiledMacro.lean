/-
Model of `compile_macroscopic_values_getter` and `compile_macroscopic_values_setter`
(`macroscopic_value_kernels.py:88-242`): which cells of the array the compiled functions treat, which populations they
read or write in a cell, and which arguments they reject.

From pystencils, which is not part of the repository, is taken how `create_kernel` chooses the cells: an
`iteration_slice` is iterated; without one, `ghost_layers` are left out at the rim of the array; without either, as many
layers as the widest access needs. The cells are treated in any order. What is computed in a cell (`get_equilibrium`,
`output_equations_from_pdfs`) is in `Macroscopic.lean`. Left out: layouts and data types, the comparison of the shape with
the array used as a blueprint (158-160, 236-238), values that are neither numbers nor arrays, and velocities given
with fewer or more components than the dimension.
-/
import Verif.Macroscopic
import Verif.GhostLayers
import Verif.Streaming

namespace Lbm
namespace CompiledMacro

variable {K : Type} {D Q : ℕ}

/-- the arguments `ghost_layers` (per axis: lower and upper) and `iteration_slice` (per axis: begin and end)
(`macroscopic_value_kernels.py:89` and `171`) -/
structure Config (D : ℕ) where
  ghostLayers : Option (Fin D → ℕ × ℕ)
  iterationSlice : Option (Fin D → ℤ × ℤ)

/-- the default arguments `ghost_layers=1, iteration_slice=None` (`macroscopic_value_kernels.py:89` and `171`) -/
def Config.default : Config D := ⟨some fun _ => (1, 1), none⟩

/-- the number of layers that the widest access of a kernel needs (pystencils) -/
def needs (acc : Fin Q → Access D Q) : ℕ := Finset.univ.sup fun i => GhostLayers.layers (acc i).1

/-- the cells of an array of shape `L` that a kernel iterates over (pystencils) -/
def Config.Inside (cfg : Config D) (n : ℕ) (L : Fin D → ℕ) (x : Vec D) : Prop :=
  match cfg.iterationSlice with
  | some s => ∀ a, (s a).1 ≤ x a ∧ x a < (s a).2
  | none => match cfg.ghostLayers with
    | some g => ∀ a, ((g a).1 : ℤ) ≤ x a ∧ x a < L a - (g a).2
    | none => ∀ a, (n : ℤ) ≤ x a ∧ x a < L a - n

/-- a kernel made by `create_kernel`: its configuration and the accesses to the populations -/
structure Kernel (D Q : ℕ) where
  config : Config D
  acc : Fin Q → Access D Q

/-- the cells the kernel treats -/
def Kernel.Cells (k : Kernel D Q) (L : Fin D → ℕ) (x : Vec D) : Prop := k.config.Inside (needs k.acc) L x

/-- `get_accessor(...).write(pdf_field, stencil)` (`macroscopic_value_kernels.py:149-150` and `226-227`); the errors of
the accessor functions are not told apart -/
def writeAccesses (S : Stencil D) (p : String) (ts : Timestep) : Except PyErr (Fin S.Q → Access D S.Q) :=
  match getAccessor D p ts with
  | none => .error .valueError
  | some a => match a.write S with
    | none => .error .exception
    | some wr => .ok wr

/-- the names in `conserved_quantities` (`conservedquantitycomputation.py:138-142`) -/
def conservedQuantities : List String := ["density", "density_deviation", "velocity"]

/-! ### the getter -/

/-- `compile_macroscopic_values_getter` (`macroscopic_value_kernels.py:88-167`) -/
def compileGetter (S : Stencil D) (p : String) (ts : Timestep) (names : List String) (cfg : Config D) :
    Except PyErr (Kernel D S.Q) :=
  if names.any (· ∉ conservedQuantities) then .error .valueError
  else (writeAccesses S p ts).map fun acc => ⟨cfg, acc⟩

/-- the arrays the getter writes to -/
structure Outputs (K : Type) (D : ℕ) where
  density : Vec D → K
  densityDeviation : Vec D → K
  velocity : Vec D → Fin D → K

/-- the function `getter` (`macroscopic_value_kernels.py:157-165`) for the arrays named `kwargs`, the kernel treating `cells` -/
def runGetter [Field K] (k : Kernel D Q) (names kwargs : List String) (cq : Cqc K D) (csSq : K) (c : Fin Q → Fin D → K)
    (cells : List (Vec D)) (arr : Vec D × Fin Q → K) (out : Outputs K D) : Except PyErr (Outputs K D) :=
  if names.any (· ∉ kwargs) then .error .valueError
  else
    let value := fun x => cq.output csSq c fun i => arr (loc (.id _) x (k.acc i))
    .ok { density := fun x => if "density" ∈ names ∧ x ∈ cells then (value x).density else out.density x
          densityDeviation := fun x =>
            if "density_deviation" ∈ names ∧ x ∈ cells then (value x).densityDeviation else out.densityDeviation x
          velocity := fun x => if "velocity" ∈ names ∧ x ∈ cells then (value x).velocity else out.velocity x }

/-! ### the setter -/

/-- the argument `quantities_to_set` (`macroscopic_value_kernels.py:170`): numbers or arrays for density and velocity, numbers being
constant arrays; of the other keys, whether an array is given -/
structure Given (K : Type) (D : ℕ) where
  density : Option (Vec D → K)
  velocity : Option (Vec D → Fin D → K)
  others : List (String × Bool)

/-- the loop over `quantities_to_set` (`macroscopic_value_kernels.py:203-216`) and the call of
`equilibrium_input_equations_from_init_values` with its keywords `density=1` and `velocity=(0, 0, 0)`
(`macroscopic_value_kernels.py:218`, `conservedquantitycomputation.py:251`) -/
def Given.values [Zero K] [One K] (g : Given K D) : Except PyErr (Vec D → K × (Fin D → K)) :=
  if g.others.any (fun o => o.2 && o.1 ∉ conservedQuantities) then .error .keyError
  else if g.others ≠ [] then .error .typeError
  else .ok fun x => (g.density.elim 1 (· x), g.velocity.elim 0 (· x))

/-- `compile_macroscopic_values_setter` (`macroscopic_value_kernels.py:170-242`). The arguments `ghost_layers` and
`iteration_slice` are not used: line 232 creates the kernel with `CreateKernelConfig(target=target)`. -/
def compileSetter [Zero K] [One K] (S : Stencil D) (p : String) (ts : Timestep) (g : Given K D) (_cfg : Config D) :
    Except PyErr (Kernel D S.Q × (Vec D → K × (Fin D → K))) :=
  match g.values with
  | .error e => .error e
  | .ok v => (writeAccesses S p ts).map fun acc => (⟨⟨none, none⟩, acc⟩, v)

/-- the function `setter` (`macroscopic_value_kernels.py:235-240`): in each of the cells, the populations `eq density velocity` are
stored in order -/
def runSetter (k : Kernel D Q) (eq : K → (Fin D → K) → Fin Q → K) (v : Vec D → K × (Fin D → K))
    (cells : List (Vec D)) (arr : Vec D × Fin Q → K) : Vec D × Fin Q → K :=
  sweepTwo (.id _) k.acc k.acc (fun x _ => eq (v x).1 (v x).2) cells arr arr

end CompiledMacro
end Lbm
