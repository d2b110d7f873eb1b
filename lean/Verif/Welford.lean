/-
Model of `welford_assignments` (`flow_statistics.py:7-119`): the statements executed in one cell for one new sample.
-/
import Mathlib.Algebra.BigOperators.Fin
import Mathlib.Algebra.Field.Basic
import Verif.StencilCtor

namespace Lbm

/-- an argument of `welford_assignments`: a `Field` or a `Field.Access` with `values_per_cell` values, or something else -/
inductive FieldArg where
  | field (valuesPerCell : ℕ)
  | access (valuesPerCell : ℕ)
  | other
  deriving DecidableEq

/-- `values_per_cell()` where it exists -/
def FieldArg.values : FieldArg → Except PyErr ℕ
  | .field n => .ok n
  | .access n => .ok n
  | .other => .error .valueError

/-- the argument checks (`flow_statistics.py:31-79`); the result is `dim` -/
def welfordChecks (field mean : FieldArg) (squares cubes : Option FieldArg) : Except PyErr ℕ := do
  let dim ← field.values
  let _ ← mean.values
  match squares with
  | none => pure ()
  | some a =>
    let n ← a.values
    if n = dim ^ 2 then pure () else throw .assertion
  match cubes with
  | none => pure ()
  | some a =>
    let n ← a.values
    if n = dim ^ 3 then pure () else throw .assertion
  if cubes.isSome ∧ squares.isNone then throw .assertion else pure dim

variable {K : Type} [Field K] {dim : ℕ}

/-- the values in one cell -/
structure WelfordState (K : Type) (dim : ℕ) where
  mean : Fin dim → K
  squares : Fin dim → Fin dim → K
  cubes : Fin dim → Fin dim → Fin dim → K

/-- The assignments (`flow_statistics.py:81-119`) executed one after the other for a sample `x` with the value `counter` of
the symbol `counter`. Index `i*dim + j` of the squares field is `squares i j`. The `cubes` lines read the squares field
after it was updated. The statements for squares and cubes are absent when the fields are not given; they do not influence
the other ones, so the model always has them. -/
def welfordStep (s : WelfordState K dim) (counter : K) (x : Fin dim → K) : WelfordState K dim :=
  let delta := fun i => x i - s.mean i
  let mean := fun i => s.mean i + delta i / counter
  let delta2 := fun i => x i - mean i
  let squares := fun i j => s.squares i j + delta i * delta2 j
  let cubes := fun i j k => s.cubes i j k - delta k / counter * squares i j - delta j / counter * squares k i -
    delta i / counter * squares j k + delta2 i * (2 * delta j - delta2 j) * delta k
  ⟨mean, squares, cubes⟩

/-- the kernel is run once per sample with the counter starting from `n + 1` -/
def welfordRun (s : WelfordState K dim) (n : ℕ) : List (Fin dim → K) → WelfordState K dim
  | [] => s
  | x :: rest => welfordRun (welfordStep s ((n + 1 : ℕ) : K) x) (n + 1) rest

end Lbm
