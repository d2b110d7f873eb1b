/-
Model of `init_sharp_interface` and `init_tanh` (`phasefield/experiments1D.py:55-95`).

The order parameters of a row of cells along the first axis; `x` is the index of a cell.  Populations are set from them afterwards
(lines 75, 95), which is not part of the model.
-/
import Mathlib.Analysis.SpecialFunctions.Trigonometric.DerivHyp

namespace Lbm
namespace InitialProfiles

/-- the defaults of `x1` and `x2` (`experiments1D.py:56-60`, `:79-83`) -/
def bounds (size : ℕ) (x1 x2 : Option ℤ) : ℤ × ℤ :=
  let a := x1.getD (size / 4 : ℕ)
  (a, x2.getD (3 * a))

/-- `init_sharp_interface` (`experiments1D.py:55-75`): the new order parameters; for `phase ≥ num` nothing is done (lines 62-63). -/
def sharp {n : ℕ} (size : ℕ) (phase : ℕ) (x1 x2 : Option ℤ) (inverse : Bool) (phi : ℤ → Fin n → ℝ) : ℤ → Fin n → ℝ :=
  if n ≤ phase then phi else
    let b := bounds size x1 x2
    let vals : ℝ × ℝ := if inverse then (1, 0) else (0, 1)
    fun x i => if (i : ℕ) = phase then (if b.1 < x ∧ x < b.2 then vals.2 else vals.1) else phi x i

/-- `init_tanh` (`experiments1D.py:78-95`) -/
noncomputable def smooth {n : ℕ} (size : ℕ) (phase : ℕ) (x1 x2 : Option ℤ) (width : ℝ) (phi : ℤ → Fin n → ℝ) : ℤ → Fin n → ℝ :=
  if n ≤ phase then phi else
    let b := bounds size x1 x2
    fun x i => if (i : ℕ) = phase then
        (1 + Real.tanh (((x : ℝ) - b.1) / (2 * width))) / 2 + (1 + Real.tanh ((-(x : ℝ) + b.2) / (2 * width))) / 2 - 1
      else phi x i

end InitialProfiles
end Lbm
