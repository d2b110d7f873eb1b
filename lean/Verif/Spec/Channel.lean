import Verif.Spec.Simulation
import Mathlib.Algebra.Field.Basic
import Mathlib.Algebra.BigOperators.Group.Finset.Basic

/-!
# Flow between two plates

Directions are given by `c`; the flow is along axis `a`, the plates are normal to axis `b`.
-/

namespace Lbm
namespace Spec

variable {D Q : ℕ} {K : Type} [Field K]

/-- The space between two plates normal to axis `b`, periodic in the other axes. -/
def channel (size : Fin D → ℕ) (b : Fin D) : Domain D where
  size := size
  periodic := fun k => k ≠ b
  wall := fun x => x b < 0 ∨ size b ≤ x b

/-- moment of `f` with respect to a function of the direction -/
def dirMoment (c : Fin Q → Vec D) (φ : Vec D → ℤ) (f : Fin Q → K) : K := ∑ i, (φ (c i) : K) * f i

/-- What a flow between plates sees of a collision `C` of the populations `f`: mass and the momentum normal to the plates are
conserved, the force `F` is added to the momentum along the plates; without momentum normal to the plates the shear stress relaxes
with rate `ωs` to zero and the flux of shear stress `∑ (3 c_a c_b² - c_a) f` relaxes with rate `ωq` to zero. -/
structure PlateCollision (c : Fin Q → Vec D) (a b : Fin D) (ωs ωq F : K) (C : (Fin Q → K) → Fin Q → K) (f : Fin Q → K) :
    Prop where
  mass : ∑ i, C f i = ∑ i, f i
  normal : dirMoment c (fun v => v b) (C f) = dirMoment c (fun v => v b) f
  along : dirMoment c (fun v => v a) (C f) = dirMoment c (fun v => v a) f + F
  shear : dirMoment c (fun v => v b) f = 0 →
    dirMoment c (fun v => v a * v b) (C f) = (1 - ωs) * dirMoment c (fun v => v a * v b) f
  flux : dirMoment c (fun v => v b) f = 0 →
    dirMoment c (fun v => 3 * (v a * v b ^ 2) - v a) (C f) = (1 - ωq) * dirMoment c (fun v => 3 * (v a * v b ^ 2) - v a) f

/-- What a flow sees of a plate with momentum `j` along axis `a`: compared with bounce back it sends back the same mass and the share
of this momentum that moves away from it. `s` is the direction away from the plate. -/
structure PlateWall (c : Fin Q → Vec D) (a b : Fin D) (s : ℤ) (inv : Fin Q → Fin Q) (j : K) (W : Fin Q → (Fin Q → K) → K)
    (f : Fin Q → K) : Prop where
  mass : ∑ i, (if c i b = s then W i f - f (inv i) else 0) = 0
  along : ∑ i, (if c i b = s then (c i a : K) * (W i f - f (inv i)) else 0) = j / 3

/-- The profile without force or source between plates with values `j₀` and `j₁` at distance `height`, at distance `m` of the first. -/
def planeCouette (j₀ j₁ height m : K) : K := j₀ + (j₁ - j₀) * (m / height)

/-- What diffusion between plates sees of a collision: mass is conserved, the flux normal to the plates relaxes with rate `ωf` to
zero, the second moment in this direction relaxes with rate `ωs` to a third of the mass. -/
structure PlateDiffusion (c : Fin Q → Vec D) (b : Fin D) (ωs ωf : K) (C : (Fin Q → K) → Fin Q → K) (f : Fin Q → K) : Prop where
  mass : ∑ i, C f i = ∑ i, f i
  flux : dirMoment c (fun v => v b) (C f) = (1 - ωf) * dirMoment c (fun v => v b) f
  second : dirMoment c (fun v => v b ^ 2) (C f) =
    dirMoment c (fun v => v b ^ 2) f + ωs * ((∑ i, f i) / 3 - dirMoment c (fun v => v b ^ 2) f)

/-- What diffusion sees of a plate with concentration `q`: the mean of what arrives and what comes back is the share of `q` that
moves in this direction. -/
def PlateSource (c : Fin Q → Vec D) (b : Fin D) (s : ℤ) (inv : Fin Q → Fin Q) (q : K) (W : Fin Q → (Fin Q → K) → K)
    (f : Fin Q → K) : Prop :=
  ∑ i, (if c i b = s then W i f + f (inv i) else 0) = q / 3

/-- The flow between resting plates at distance `height`, of a fluid with kinematic viscosity `ν` driven by the force `F`, at
distance `m` of the middle. -/
def planePoiseuille (F ν height m : K) : K := F / (2 * ν) * ((height / 2) ^ 2 - m ^ 2)

end Spec
end Lbm
