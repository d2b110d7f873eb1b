import Mathlib.Algebra.BigOperators.Group.Finset.Basic
import Mathlib.Algebra.BigOperators.Fin
import Mathlib.Algebra.Order.Field.Basic
import Mathlib.Algebra.Order.BigOperators.Group.Finset
import Mathlib.Data.Fintype.Card

/-!
# The simplex projection of phase concentrations

`phasefield/simplex_projection.pyx`, lines 8-46 (2D) and 52-91 (3D).  Both functions run the same body
for every cell; the 2D one visits the cells with `y` outside and `x` inside, the 3D one with `z`, `y`,
`x`.  The model takes the list of the cells in the order they are visited, each with the `n` phase
concentrations `c[x, y, :]`.

Simplifications.  Numbers are elements of an ordered field instead of C doubles, and the threshold
`1e-18` (lines 11, 55) is a parameter.  `handled_mask` is an `unsigned int`; it is modelled as one
Boolean per phase, which is the same for up to 32 phases.  A division by zero (an infinity or a NaN in
C, `cdivision(True)`) is modelled as `none`.
-/

namespace Lbm
namespace Simplex

variable {K : Type} [Field K] [LinearOrder K] {n : ℕ}

/-- The variables used while one cell is processed: the concentrations, `handled_mask` and
`local_phases` (`simplex_projection.pyx`, lines 9-10, 18). -/
structure State (K : Type) (n : ℕ) where
  /-- the concentrations of the cell -/
  c : Fin n → K
  /-- `handled_mask` -/
  mask : Fin n → Bool
  /-- `local_phases` -/
  left : ℤ

/-- One round of the loop marking the zero phases (lines 21-25). -/
def markZero (th : K) (st : State K n) (a : Fin n) : State K n :=
  if -th < st.c a ∧ st.c a < th then
    { c := Function.update st.c a 0, mask := Function.update st.mask a true, left := st.left - 1 }
  else st

/-- The loop marking the zero phases (lines 21-25). -/
def markZeros (th : K) (st : State K n) : State K n :=
  (List.finRange n).foldl (markZero th) st

/-- The treatment of a negative phase `a` (lines 31-36): it is marked, its value is added in equal parts
to the phases that are not marked, and it is set to zero. -/
def distribute (st : State K n) (a : Fin n) : Option (State K n) :=
  let mask := Function.update st.mask a true
  let left := st.left - 1
  if left = 0 ∧ ∃ b, mask b = false then none
  else some
    { c := Function.update
        (fun b => if mask b = false then st.c b + st.c a / (left : K) else st.c b) a 0
      mask := mask
      left := left }

/-- The first negative phase: where the `while` loop (lines 29-38) next enters the `if`, as it always
starts again from the first phase. -/
def firstNegative (c : Fin n → K) : Option (Fin n) :=
  (List.finRange n).find? (fun a => decide (c a < 0))

/-- The `while` loop (lines 28-38), with a bound on the number of restarts. -/
def distributeAll : ℕ → State K n → Option (State K n)
  | 0, st => some st
  | fuel + 1, st =>
    match firstNegative st.c with
    | none => some st
    | some a => (distribute st a).bind (distributeAll fuel)

/-- The normalisation (lines 40-46). -/
def normalize (c : Fin n → K) : Option (Fin n → K) :=
  let sum := ∑ a, c a
  if sum = 0 then none else some fun a => c a / sum

/-- The treatment of one cell (lines 18-46); the loop is restarted at most `n` times, see
`C71_loop_terminates`.  The result contains the new `handled_mask`, which the next cell starts with: it is
set to zero in line 10 only, outside of the loops over the cells. -/
def projectCell (th : K) (mask : Fin n → Bool) (c : Fin n → K) :
    Option ((Fin n → K) × (Fin n → Bool)) :=
  (distributeAll n (markZeros th { c := c, mask := mask, left := n })).bind fun st =>
    (normalize st.c).map fun c' => (c', st.mask)

/-- The loop over the cells (lines 16-46), started with a given `handled_mask`. -/
def sweep (th : K) : (Fin n → Bool) → List (Fin n → K) → Option (List (Fin n → K))
  | _, [] => some []
  | mask, c :: cs =>
    (projectCell th mask c).bind fun r => (sweep th r.2 cs).map fun rest => r.1 :: rest

/-- `simplex_projection_2d` / `simplex_projection_3d` (lines 8-46, 52-91) on the list of the cells in the
order of the loops. -/
def simplexProjection (th : K) (cells : List (Fin n → K)) : Option (List (Fin n → K)) :=
  sweep th (fun _ => false) cells

end Simplex
end Lbm
