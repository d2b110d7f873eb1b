/-
Model of `DensityVelocityComputation` (`methods/conservedquantitycomputation.py:84-377`) and of setting and reading
macroscopic values (`macroscopic_value_kernels.py:29-64`), evaluated: symbols are replaced by values in a field `K`. How
the sums over the populations are generated is in `MomentEquations.lean`.
-/
import Verif.ForceModels

namespace Lbm

variable {K : Type} [Field K] {Q D : ℕ}

/-- the options of `DensityVelocityComputation.__init__` (`conservedquantitycomputation.py:107-137`) -/
structure Cqc (K : Type) (D : ℕ) where
  compressible : Bool
  zeroCentered : Bool
  /-- `background_density` -/
  rho0 : K
  force : Option (ForceKind × (Fin D → K))

/-- values of the density, density deviation and velocity symbols -/
structure Macro (K : Type) (D : ℕ) where
  rho : K
  deltaRho : K
  u : Fin D → K

namespace Cqc

/-- `reference_density` (line 222) -/
def reference (cq : Cqc K D) (rho : K) : K := if cq.compressible then rho else cq.rho0

/-- `equilibrium_input_equations_from_pdfs` (`conservedquantitycomputation.py:218-249`) -/
def equilibriumInput (cq : Cqc K D) (c : Fin Q → Fin D → K) (f : Fin Q → K) : Macro K D :=
  let m0 := ∑ q, f q
  let rho := if cq.zeroCentered then cq.rho0 + m0 else m0
  let deltaRho := if cq.zeroCentered then m0 else rho - cq.rho0
  let u := fun a => (∑ q, f q * c q a) / cq.reference rho
  let u := match cq.force with
    | some (k, F) => fun a => u a + k.equilibriumVelocityShift (cq.reference rho) F a
    | none => u
  ⟨rho, deltaRho, u⟩

/-- `equilibrium_input_equations_from_init_values` (`conservedquantitycomputation.py:251-272`) -/
def initValues (cq : Cqc K D) (density : K) (velocity : Fin D → K) : Macro K D :=
  let offset : Fin D → K := match cq.force with
    | some (_, F) => defaultVelocityShift (cq.reference density) F
    | none => fun _ => 0
  ⟨density, density - cq.rho0, fun a => velocity a - offset a⟩

/-- what `output_equations_from_pdfs` can compute -/
structure Output (K : Type) (D : ℕ) where
  density : K
  densityDeviation : K
  velocity : Fin D → K
  momentumDensity : Fin D → K
  moment0 : K
  moment1 : Fin D → K
  moment2 : Fin D → Fin D → K

/-- `output_equations_from_pdfs` (`conservedquantitycomputation.py:274-374`); `csSq` is `_c_s_sq` -/
def output (cq : Cqc K D) (csSq : K) (c : Fin Q → Fin D → K) (f : Fin Q → K) : Output K D :=
  let m0 := ∑ q, f q
  let rho := if cq.zeroCentered then cq.rho0 + m0 else m0
  let deltaRho := if cq.zeroCentered then m0 else rho - cq.rho0
  let mom := fun a => ∑ q, f q * c q a
  let u := fun a => mom a / cq.reference rho
  let u := match cq.force with
    | some (_, F) => fun a => u a + defaultVelocityShift (cq.reference rho) F a
    | none => u
  let shift : Fin D → K := match cq.force with
    | some (_, F) => defaultMomentumDensityShift F
    | none => fun _ => 0
  { density := rho
    densityDeviation := deltaRho
    velocity := u
    momentumDensity := fun a => mom a + shift a
    moment0 := ∑ q, f q
    moment1 := fun a => ∑ q, c q a * f q
    moment2 := fun a b => (∑ q, f q * c q a * c q b) + if cq.zeroCentered ∧ a = b then csSq else 0 }

end Cqc

/-- `macroscopic_values_setter` (`macroscopic_value_kernels.py:29-46`): `get_equilibrium` of the method with the
conserved quantities given by the initial values. `meqOf` are the equilibrium moments as functions of the conserved
quantities. -/
noncomputable def setter [DecidableEq K] {P : Type} (m : MomentMethod K P Q) (meqOf : Macro K D → P → K) (cq : Cqc K D)
    (density : K) (velocity : Fin D → K) : Except PyErr (Fin Q → K) :=
  ({ m with meq := fun _ => meqOf (cq.initValues density velocity) } : MomentMethod K P Q).getEquilibrium.map
    fun r => r 0

end Lbm
