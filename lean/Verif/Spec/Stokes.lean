import Verif.Spec.Simulation
import Mathlib.Algebra.Ring.Int.Parity
import Mathlib.Analysis.Normed.Field.Lemmas

/-!
# Flows at vanishing Reynolds number, and signs that alternate along an axis
-/

namespace Lbm
namespace Spec

variable {D Q : ℕ}

/-- 1 in cells with even, -1 in cells with odd coordinate along axis `b` -/
def alternating (K : Type) [Ring K] (b : Fin D) (x : Vec D) : K := if Even (x b) then 1 else -1

/-- momentum along axis `b` -/
def momentum {K : Type} [Ring K] (c : Fin Q → Vec D) (b : Fin D) (f : Fin Q → K) : K := ∑ i, (c i b : K) * f i

/-- Collisions that are linear: the parts of the populations that are even under reversal of directions relax with rate `ωs` to the
weights times the density, the odd ones with rate `ωa` to `3 w c·j` with the momentum `j`. -/
def StokesCollision (c : Fin Q → Vec D) (w : Fin Q → ℝ) (inv : Fin Q → Fin Q) (ωs ωa : ℝ) (C : (Fin Q → ℝ) → Fin Q → ℝ) : Prop :=
  ∀ f i, (C f i + C f (inv i)) / 2 = (f i + f (inv i)) / 2 + ωs * (w i * ∑ j, f j - (f i + f (inv i)) / 2) ∧
    (C f i - C f (inv i)) / 2 =
      (f i - f (inv i)) / 2 + ωa * (3 * w i * ∑ a, (c i a : ℝ) * momentum c a f - (f i - f (inv i)) / 2)

end Spec
end Lbm
