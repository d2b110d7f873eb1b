import Verif.Turbulence
import Mathlib.Analysis.SpecialFunctions.Trigonometric.Basic

/-!
# The conservative Allen–Cahn two-phase model

Model of `/repo/src/lbmpy/phasefield_allen_cahn/parameter_calculation.py`, `kernel_equations.py` and `contact_angle.py`.

The python functions assemble sympy expressions in the symbols of the parameter map, of the phase field and of the
lattice Boltzmann method; a definition here is the value of such an expression.  Floats are real numbers.  The finite
difference operators of `derivatives.py` come out of pystencils; their values at the cell (Laplacian, gradient) are
arguments.  In two dimensions the third entry of the gradient is the constant zero and is left out.
-/

namespace Lbm
namespace AllenCahn

/-! ## Parameters -/

/-- `AllenCahnParameters.__init__`; parameter_calculation.py:6-18. -/
structure Params where
  rhoH : ℝ
  rhoL : ℝ
  muH : ℝ
  muL : ℝ
  sigma : ℝ
  mobility : ℝ := 1 / 5
  gravity : ℝ := 0
  width : ℝ := 5

/-- The values of the symbols in the parameter map; parameter_calculation.py:90-100. -/
structure Env where
  rhoH : ℝ
  rhoL : ℝ
  tauH : ℝ
  tauL : ℝ
  omegaPhi : ℝ
  gravity : ℝ
  W : ℝ
  mobility : ℝ
  sigma : ℝ

/-- `kinematic_viscosity_heavy`; parameter_calculation.py:20-22. -/
noncomputable def Params.nuH (p : Params) : Option ℝ := realDiv p.muH p.rhoH

/-- `kinematic_viscosity_light`; parameter_calculation.py:24-26. -/
noncomputable def Params.nuL (p : Params) : Option ℝ := realDiv p.muL p.rhoL

/-- `relaxation_time_heavy`; parameter_calculation.py:28-30. -/
noncomputable def Params.tauH (p : Params) : Option ℝ := p.nuH.map (3 * ·)

/-- `relaxation_time_light`; parameter_calculation.py:32-34. -/
noncomputable def Params.tauL (p : Params) : Option ℝ := p.nuL.map (3 * ·)

/-- `omega_phi`; parameter_calculation.py:36-38. -/
noncomputable def Params.omegaPhi (p : Params) : Option ℝ := realDiv 1 (1 / 2 + 3 * p.mobility)

/-- `parameter_map`; parameter_calculation.py:90-100. -/
noncomputable def Params.env (p : Params) : Option Env :=
  p.tauH.bind fun tH => p.tauL.bind fun tL => p.omegaPhi.map fun w =>
    { rhoH := p.rhoH, rhoL := p.rhoL, tauH := tH, tauL := tL, omegaPhi := w, gravity := p.gravity, W := p.width,
      mobility := p.mobility, sigma := p.sigma }

/-- `beta`; parameter_calculation.py:77-78 (also kernel_equations.py:154). -/
noncomputable def beta (sigma W : ℝ) : ℝ := 12 * (sigma / W)

/-- `kappa`; parameter_calculation.py:81-82 (also kernel_equations.py:155). -/
noncomputable def kappa (sigma W : ℝ) : ℝ := 3 / 2 * sigma * W

/-- The relaxation time of the hydrodynamic step; parameter_calculation.py:87, kernel_equations.py:194. -/
noncomputable def tau (e : Env) (phi : ℝ) : ℝ := 1 / 2 + e.tauL + phi * (e.tauH - e.tauL)

/-- `omega`; parameter_calculation.py:84-88. -/
noncomputable def omega (e : Env) (phi : ℝ) : Option ℝ := realDiv 1 (tau e phi)

/-- The interpolated density; kernel_equations.py:263, 343. -/
noncomputable def density (e : Env) (phi : ℝ) : ℝ := e.rhoL + phi * (e.rhoH - e.rhoL)

/-! ## Forces -/

/-- `chemical_potential_symbolic`; kernel_equations.py:19-34. -/
noncomputable def chemicalPotential (beta kappa phi lap : ℝ) : ℝ :=
  4 * beta * phi * (phi - 1) * (phi - 1 / 2) - kappa * lap

/-- `normalized_isotropic_gradient_symbolic`; kernel_equations.py:37-52. -/
noncomputable def normalizedGradient {D : ℕ} (grad : Fin D → ℝ) : Fin D → ℝ :=
  fun i => grad i / Real.sqrt ((∑ j, grad j * grad j) + 1 / 10 ^ 32)

/-- `pressure_force`; kernel_equations.py:55-75. -/
noncomputable def pressureForce {D : ℕ} (e : Env) (deltaRho : ℝ) (grad : Fin D → ℝ) : Fin D → ℝ :=
  fun i => -1 / 3 * deltaRho * (e.rhoH - e.rhoL) * grad i

/-- `second_order_moment_tensor`; utils.py:4-7. -/
def stress {D Q : ℕ} (c : Fin Q → Vec D) (f : Fin Q → ℝ) (i j : Fin D) : ℝ :=
  ∑ q, (c q i : ℝ) * c q j * f q

/-- `viscous_force`; kernel_equations.py:78-109.  `f` are the pre-collision populations, `feq` the equilibrium terms. -/
noncomputable def viscousForce {D Q : ℕ} (e : Env) (c : Fin Q → Vec D) (f feq : Fin Q → ℝ) (tau : ℝ)
    (grad : Fin D → ℝ) : Fin D → ℝ :=
  fun i => (1 / 2 - tau) * (∑ j, stress c (fun q => f q - feq q) i j * grad j) * (e.rhoH - e.rhoL)

/-- `surface_tension_force`; kernel_equations.py:112-130. -/
noncomputable def surfaceTensionForce {D : ℕ} (e : Env) (phi lap : ℝ) (grad : Fin D → ℝ) : Fin D → ℝ :=
  fun i => chemicalPotential (beta e.sigma e.W) (kappa e.sigma e.W) phi lap * grad i

/-- The additional symbols of `ThermocapillaryParameters`; parameter_calculation.py:147-205 (heat conductivities, which
no force reads, left out). -/
structure ThermoEnv where
  sigmaRef : ℝ
  sigmaT : ℝ
  tmpRef : ℝ

/-- The temperature field at the cell: value and gradient. -/
structure Temperature (D : ℕ) where
  value : ℝ
  grad : Fin D → ℝ

/-- The surface tension at the temperature of the cell; kernel_equations.py:153. -/
def sigmaAt (t : ThermoEnv) (temperature : ℝ) : ℝ := t.sigmaRef + t.sigmaT * (temperature - t.tmpRef)

/-- `thermocapillary_surface_tension_force`; kernel_equations.py:133-166. -/
noncomputable def thermocapillaryForce {D : ℕ} (e : Env) (t : ThermoEnv) (T : Temperature D) (phi lap : ℝ)
    (grad : Fin D → ℝ) : Fin D → ℝ :=
  let sigma := sigmaAt t T.value
  let magnitude := ∑ j, grad j * grad j
  let dot := ∑ j, T.grad j * grad j
  let deltaS := 3 / 2 * e.W * t.sigmaT
  fun i => chemicalPotential (beta sigma e.W) (kappa sigma e.W) phi lap * grad i
    + deltaS * (magnitude * T.grad i - dot * grad i)

/-- What the forces read at a cell: phase field, its Laplacian and gradient, density deviation of the hydrodynamic step. -/
structure Local (D : ℕ) where
  phi : ℝ
  lap : ℝ
  grad : Fin D → ℝ
  deltaRho : ℝ

/-- The surface force of `hydrodynamic_force`: the temperature field is optional and needs `ThermocapillaryParameters`;
kernel_equations.py:199-204. -/
noncomputable def surfaceForce {D : ℕ} (e : Env) (t : Option ThermoEnv) (T : Option (Temperature D)) (l : Local D) :
    Except PyErr (Fin D → ℝ) :=
  match T, t with
  | none, _ => .ok (surfaceTensionForce e l.phi l.lap l.grad)
  | some _, none => .error .assertion
  | some T, some t => .ok (thermocapillaryForce e t T l.phi l.lap l.grad)

/-- `hydrodynamic_force`; kernel_equations.py:169-210. -/
noncomputable def hydrodynamicForce {D Q : ℕ} (e : Env) (t : Option ThermoEnv) (T : Option (Temperature D))
    (l : Local D) (c : Fin Q → Vec D) (f feq : Fin Q → ℝ) (body : Fin D → ℝ) : Except PyErr (Fin D → ℝ) :=
  match surfaceForce e t T l with
  | .error err => .error err
  | .ok fs => .ok fun i => fs i + pressureForce e l.deltaRho l.grad i
      + viscousForce e c f feq (tau e l.phi) l.grad i + body i

/-- `interface_tracking_force`; kernel_equations.py:213-239. -/
noncomputable def interfaceTrackingForce {D : ℕ} (e : Env) (phi : ℝ) (grad : Fin D → ℝ) (phiHeavy : ℝ := 1)
    (phiLight : ℝ := 0) : Fin D → ℝ :=
  fun i => 1 / 3 * ((1 - 4 * (phi - 1 / 2 * (phiLight + phiHeavy)) ^ 2) / e.W) * normalizedGradient grad i

/-! ## Sub-iterations -/

/-- `dict(zip(u_symp, values))` read at component `i`: a velocity symbol beyond the end of the slice is not replaced. -/
def zipVelocity {D : ℕ} (u : Fin D → ℝ) (values : List ℝ) : Fin D → ℝ := fun i => (values[i.val]?).getD (u i)

/-- `aleph[a:b]`. -/
def slice (l : List ℝ) (a b : ℕ) : List ℝ := (l.take b).drop a

/-- One sub-iteration `k` appends the velocities that the current force leads to; kernel_equations.py:288-293.
`vel i g` is the velocity equation of the method with `g` in place of the force component `i`; `u` is what the velocity
symbols themselves stand for. -/
noncomputable def subIteration {D : ℕ} (force : (Fin D → ℝ) → Fin D → ℝ) (vel : Fin D → ℝ → ℝ) (dens : ℝ)
    (u : Fin D → ℝ) (aleph : List ℝ) (k : ℕ) : List ℝ :=
  aleph ++ List.ofFn fun i => vel i (force (zipVelocity u (slice aleph (k * D) aleph.length)) i / dens)

/-- All sub-iterations `0 … n - 1`; kernel_equations.py:288. -/
noncomputable def subIterations {D : ℕ} (force : (Fin D → ℝ) → Fin D → ℝ) (vel : Fin D → ℝ → ℝ) (dens : ℝ)
    (u : Fin D → ℝ) (aleph : List ℝ) (n : ℕ) : List ℝ :=
  (List.range n).foldl (subIteration force vel dens u) aleph

/-- `hydrodynamic_force_assignments`, executed: the values given to the force symbols; kernel_equations.py:242-300.
Without a sub-iteration there is no symbol for the velocity. -/
noncomputable def hydrodynamicForceAssignments {D : ℕ} (force : (Fin D → ℝ) → Fin D → ℝ) (vel : Fin D → ℝ → ℝ)
    (dens : ℝ) (u field : Fin D → ℝ) (subIter : ℕ) : Except PyErr (Fin D → ℝ) :=
  if D * subIter < D then .error .indexError
  else
    let aleph := subIterations force vel dens u (List.ofFn field) (subIter - 1)
    .ok (force (zipVelocity u (slice aleph (aleph.length - D) aleph.length)))

/-! ## Initialisation -/

/-- The velocity at which `initializer_kernel_phase_field_lb` evaluates the equilibrium; kernel_equations.py:412-414. -/
noncomputable def initVelocity {D : ℕ} (velocity force : Fin D → ℝ) : Fin D → ℝ := fun i => velocity i - 1 / 2 * force i

/-! ## The contact angle boundary -/

/-- `var`; contact_angle.py:38-42: half the length of the link, the interface width, the cosine of the angle. -/
noncomputable def contactVar (W cosine : ℝ) {D : ℕ} (d : Vec D) : ℝ :=
  -(1 / 2 * Real.sqrt (∑ i, (d i : ℝ) * d i)) * (4 / W) * cosine

/-- The value given to the boundary cell from `var` and the value of the neighbouring fluid cell;
contact_angle.py:43-44, 49-51. -/
noncomputable def wallValue (v phi : ℝ) : ℝ :=
  if v * v ≤ 1 / 10 ^ 6 then phi
  else (1 + v - Real.sqrt ((1 + v) * (1 + v) - 4 * v * phi)) / v - phi

/-- `ContactAngle.__call__`; contact_angle.py:34-62.  `angle` in degrees, `d` the link, `indexDims` the number of index
dimensions of the field, `phi` its value in the neighbouring cell.  A zero interface width raises `ZeroDivisionError`;
the square root of a negative number would be a NaN in the kernel: `none`. -/
noncomputable def contactAngle (angle W : ℝ) {D : ℕ} (d : Vec D) (indexDims : ℕ) (phi : ℝ) :
    Except PyErr (Option ℝ) :=
  if W = 0 then .error .exception
  else if indexDims ≠ 0 then .error .notImplemented
  else
    let v := contactVar W (Real.cos (angle * (Real.pi / 180))) d
    if v * v ≤ 1 / 10 ^ 6 ∨ 0 ≤ (1 + v) * (1 + v) - 4 * v * phi then .ok (some (wallValue v phi)) else .ok none

end AllenCahn
end Lbm
