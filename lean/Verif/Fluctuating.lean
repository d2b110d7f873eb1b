/-
Model of `fluctuatinglb.py`.

The collision rule is the function from the populations of a cell to its new populations (`Collision.lean`). Random
numbers are a sequence per cell and time step: `random_symbol` of pystencils is a generator of symbols, each of which is
assigned one of the numbers that the counter-based generator computes for the cell.
-/
import Verif.Collision
import Verif.Turbulence

namespace Lbm.Fluctuating

open Matrix

/-- argument `temperature`: `None`, a number, or a symbol, of which only the value at run time is used -/
inductive Temperature where
  | none
  | number (v : ℝ)
  | symbol (v : ℝ)

namespace Temperature

/-- `bool(temperature)`; symbols are true -/
def truthy : Temperature → Prop
  | none => False
  | number v => v ≠ 0
  | symbol _ => True

def value : Temperature → ℝ
  | none => 0
  | number v => v
  | symbol v => v

end Temperature

/-- `conserved_moments` (`fluctuatinglb.py:55`) for polynomials as written in the source -/
def isConserved (p : PExpr) : Bool := p ∈ [PExpr.const 1, PExpr.var 0, PExpr.var 1, PExpr.var 2]

section
variable {P : Type} {Q : ℕ}

/-- `normalization_factors` (`fluctuatinglb.py:44-45`) -/
def normFactor (M : Matrix (Fin Q) (Fin Q) ℝ) (w : Fin Q → ℝ) (k : Fin Q) : ℝ := ∑ q, M k q * M k q * w q

/-- `is_weighted_orthogonal` (`momentbasedmethod.py:236-241`) -/
def IsWeightedOrthogonal (M : Matrix (Fin Q) (Fin Q) ℝ) (w : Fin Q → ℝ) : Prop :=
  ∀ i j, i ≠ j → ∑ q, M i q * w q * M j q = 0

/-- one entry of `fluctuation_amplitude_from_temperature` (`fluctuatinglb.py:42-49`), evaluated; the root of a negative
number is complex for sympy and not a number at run time -/
noncomputable def amplitude (temperature density csSq norm rate : ℝ) : Option ℝ := do
  let mu ← realDiv (temperature * density) csSq
  pySqrt (mu * norm * (1 - (1 - rate) ^ 2))

/-- how many random numbers the moments before `k` took from the generator (`fluctuatinglb.py:58-59`) -/
def randomIndex (conserved : Fin Q → Bool) (k : Fin Q) : ℕ := ((List.ofFn conserved).take k).countP (! ·)

/-- `random_matrix` (`fluctuatinglb.py:58-59`) -/
noncomputable def randomVector (conserved : Fin Q → Bool) (r : ℕ → ℝ) (k : Fin Q) : ℝ :=
  if conserved k then 0 else (r (randomIndex conserved k) - 1 / 2) * Real.sqrt 12

/-- `fluctuation_correction` (`fluctuatinglb.py:53-63`) -/
noncomputable def correction (Minv : Matrix (Fin Q) (Fin Q) ℝ) (conserved : Fin Q → Bool) (amp : Fin Q → ℝ) (r : ℕ → ℝ) :
    Fin Q → ℝ := (Minv * diagonal amp) *ᵥ randomVector conserved r

open Classical in
/-- `add_fluctuations_to_collision_rule` (`fluctuatinglb.py:16-39`). `amplitudes` are the given ones, as functions of the
populations; `density` is the density computed from the populations. The amplitude of a conserved moment is multiplied by
the symbolic zero and disappears. A cell in which one of the remaining amplitudes is not a number has no new
populations (a simplification: populations to which this amplitude does not contribute would stay numbers). -/
noncomputable def addFluctuations (m : MomentMethod ℝ P Q) (conserved : P → Bool) (w : Fin Q → ℝ)
    (density : (Fin Q → ℝ) → ℝ) (csSq : ℝ) (temperature : Temperature) (amplitudes : List ((Fin Q → ℝ) → ℝ))
    (rule : (Fin Q → ℝ) → Fin Q → ℝ) : Except PyErr ((ℕ → ℝ) → (Fin Q → ℝ) → Option (Fin Q → ℝ)) :=
  if ¬(temperature.truthy ∧ amplitudes = []) ∨ (temperature.truthy ∧ amplitudes ≠ []) then .error .valueError
  else if h : m.relax.length = Q then
    if IsWeightedOrthogonal (m.matrix h) w then
      match MomentMethod.pyInv (m.matrix h) with
      | .error e => .error e
      | .ok Minv => .ok fun r f =>
        let cons := fun k => conserved (m.moment h k)
        let amp := fun k => if cons k then some 0 else
          amplitude temperature.value (density f) csSq (normFactor (m.matrix h) w k) (m.rate h k)
        if ∀ k, (amp k).isSome then some (rule f + correction Minv cons (fun k => (amp k).getD 0) r) else none
    else .error .valueError
  else .error .valueError

end

end Lbm.Fluctuating
