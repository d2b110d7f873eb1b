/-
Model of setting and reading concentrations in `PhaseFieldStep` (`phasefield/phasefieldstep.py:47-56,262-276,297-309`) for the models
of `phasefield/scenarios.py`.

A state holds `n` order parameters in each cell.  More than one order parameter is assumed (with one, pystencils leaves out the last
axis of the array).  Concentrations are one list for all cells of the slice.  A slice is the set of its cells.
-/
import Verif.StencilCtor
import Mathlib.Algebra.Order.Field.Basic
import Mathlib.Algebra.BigOperators.Group.List.Basic

namespace Lbm
namespace Concentrations

variable {K C : Type} [Field K] [LinearOrder K]

/-- The two conversions of a `PhaseFieldStep` (`phasefieldstep.py:47-56`); the second component of the first is whether there is a
warning. -/
structure Conv (K : Type) where
  toOrder : List K → Except PyErr (List K × Bool)
  fromOrder : List K → Except PyErr (List K)

/-- No conversion (`phasefieldstep.py:265-266`, `:306`); `create_n_phase_model_penalty_term` (`scenarios.py:84-87`). -/
def plain : Conv K := ⟨fun c => .ok (c, false), fun p => .ok p⟩

/-- The conversions of `create_n_phase_model` (`scenarios.py:57-76`). -/
def nPhase : Conv K where
  toOrder c := .ok (c.dropLast, decide (1 / 100000 < |c.sum - 1|))
  fromOrder op := .ok (op ++ [1 - op.sum])

/-- `tensordot` with the transformation matrix (`phasefieldstep.py:52-54`, `analytical.py:51-53`); another length is a `ValueError`. -/
def forward : List K → Except PyErr (List K)
  | [a, b, c] => .ok [a + b + c, a - b, c]
  | _ => .error .valueError

/-- `tensordot` with the inverse matrix (`phasefieldstep.py:51`, `:55-56`). -/
def backward : List K → Except PyErr (List K)
  | [rho, phi, psi] => .ok [(rho + phi - psi) / 2, (rho - phi - psi) / 2, psi]
  | _ => .error .valueError

/-- `create_three_phase_model` with `include_rho=True` (`scenarios.py:20-25`): both conversions from the matrix. -/
def threePhase : Conv K := ⟨fun c => (forward c).map fun p => (p, false), backward⟩

/-- `create_three_phase_model` with `include_rho=False` (`scenarios.py:26-43`): the conversion of the order parameters is given (density
one), but `transformation_matrix` is passed with its first row (line 41), so that the other conversion has three values. Fewer than two
order parameters are an `IndexError`, further ones are ignored (line 37). -/
def threePhaseNoRho : Conv K where
  toOrder c := (forward c).map fun p => (p, false)
  fromOrder
    | phi :: psi :: _ => backward [1, phi, psi]
    | _ => .error .indexError

/-- the loop of `set_concentration` over the values in one cell (`phasefieldstep.py:269-270`) -/
def write {n : ℕ} (phi : List K) (old : Fin n → K) : Fin n → K := fun i => phi.getD i (old i)

/-- `set_concentration` (`phasefieldstep.py:262-270`): the new state and whether there is a warning. Too many values are an `IndexError`
(if the slice has a cell; the cells that were written before are not part of the model). -/
def setConcentration {n : ℕ} (conv : Conv K) (slice : List C) [DecidableEq C] (c : List K) (st : C → Fin n → K) :
    Except PyErr ((C → Fin n → K) × Bool) := do
  let (phi, warn) ← conv.toOrder c
  if n < phi.length ∧ slice ≠ [] then .error .indexError
  return (fun x => if x ∈ slice then write phi (st x) else st x, warn)

/-- `concentration_slice` in one cell (`phasefieldstep.py:297-309`), all concentrations. -/
def concentration {n : ℕ} (conv : Conv K) (st : C → Fin n → K) (x : C) : Except PyErr (List K) :=
  conv.fromOrder (List.ofFn (st x))

/-- `set_single_concentration` (`phasefieldstep.py:272-276`). The number of phases is that of the last axis of the concentrations (line
273), here of the cell `x`. Negative indices are not modelled. -/
def setSingle {n : ℕ} (conv : Conv K) (slice : List C) [DecidableEq C] (x : C) (phase : ℕ) (value : K) (st : C → Fin n → K) :
    Except PyErr ((C → Fin n → K) × Bool) := do
  let num := (← concentration conv st x).length
  if num ≤ phase then .error .indexError
  setConcentration conv slice ((List.replicate num 0).set phase value) st

end Concentrations
end Lbm
