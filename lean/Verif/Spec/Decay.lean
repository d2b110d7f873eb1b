import Verif.Spec.Simulation
import Mathlib.Analysis.Normed.Field.Lemmas
import Mathlib.Topology.Algebra.Order.Field
import Mathlib.Logic.Relation

/-!
# Diffusion without flow in a domain with walls

The reference for the decay of differences in concentration.
-/

namespace Lbm
namespace Spec

variable {D Q : ℕ}

/-- What diffusion sees of a collision: the parts of the populations that are even under reversal of directions relax with rate `ωs`
to the weights times the concentration, the odd ones relax with rate `ωa` to zero. -/
def Diffuses (w : Fin Q → ℝ) (inv : Fin Q → Fin Q) (ωs ωa : ℝ) (C : (Fin Q → ℝ) → Fin Q → ℝ) : Prop :=
  ∀ f i, (C f i + C f (inv i)) / 2 = (f i + f (inv i)) / 2 + ωs * (w i * ∑ j, f j - (f i + f (inv i)) / 2) ∧
    (C f i - C f (inv i)) / 2 = (f i - f (inv i)) / 2 - ωa * ((f i - f (inv i)) / 2)

open Classical in
/-- Walls: nothing passes, or where `given` holds, the concentration of the wall is `conc`. -/
noncomputable def diffusionWalls (w : Fin Q → ℝ) (inv : Fin Q → Fin Q) (given : Vec D → Fin Q → Prop)
    (conc : Vec D → Fin Q → ℝ) :
    Vec D → Fin Q → (Fin Q → ℝ) → ℝ :=
  fun x i f => if given x i then 2 * w i * conc x i - f (inv i) else f (inv i)

/-- distance of a state from the uniform concentration `c`, summed over the cells `A` -/
noncomputable def deviation (w : Fin Q → ℝ) (c : ℝ) (A : Finset (Vec D)) (g : Vec D → Fin Q → ℝ) : ℝ :=
  ∑ x ∈ A, ∑ i, (g x i - w i * c) ^ 2 / w i

/-- a box that is periodic along all axes, without walls -/
def periodicBox (size : Fin D → ℕ) : Domain D where
  size := size
  periodic := fun _ => true
  wall := fun _ => False

/-- the sign of a cell on a checkerboard -/
def checkerboard (x : Vec D) : ℝ := if Even (∑ k, x k) then 1 else -1

/-- two cells of the flow are neighbours -/
def Domain.Linked (d : Domain D) (c : Fin Q → Vec D) (x y : Vec D) : Prop := ∃ i, ¬ d.wall (x - c i) ∧ y = d.image (x - c i)

/-- from `x` one gets to `y` inside of the flow -/
def Domain.Connected (d : Domain D) (c : Fin Q → Vec D) (x y : Vec D) : Prop := Relation.ReflTransGen (d.Linked c) x y

end Spec
end Lbm
