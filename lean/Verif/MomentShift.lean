/-
Model of `divide_first_order_moments_by_rho`, `add_density_offset` and `apply_force_model_shift`
(`methods/conservedquantitycomputation.py:455-503`).

A right hand side is represented by its value as a function of the values of the symbols.
-/
import Verif.StencilCtor
import Mathlib.Algebra.Field.Basic
import Mathlib.Logic.Function.Basic

namespace Lbm
namespace MomentShift

variable {S K : Type} [Field K] [DecidableEq S]

/-- an assignment `lhs = rhs` -/
structure Asg (S K : Type) where
  lhs : S
  rhs : (S → K) → K

/-- `divide_first_order_moments_by_rho` (`conservedquantitycomputation.py:455-468`); `old_eqs[0]` of an empty list is an
`IndexError` -/
def divideByRho (dim : ℕ) : List (Asg S K) → Except PyErr (List (Asg S K))
  | [] => .error .indexError
  | e :: es => .ok (e :: ((es.take dim).map fun q => ⟨q.lhs, fun σ => q.rhs σ / σ e.lhs⟩) ++ es.drop dim)

/-- `add_density_offset` (`conservedquantitycomputation.py:471-477`) -/
def addOffset (offset : K) : List (Asg S K) → Except PyErr (List (Asg S K))
  | [] => .error .indexError
  | e :: es => .ok (⟨e.lhs, fun σ => e.rhs σ + offset⟩ :: es)

/-- `apply_force_model_shift` (`conservedquantitycomputation.py:480-503`). The shift function gets the density symbol or one, here the
value of it; `zip` (line 501) stops at the shorter list. -/
def applyShift (shift : List ((S → K) → K → K)) (dim : ℕ) (compressible reverse : Bool) :
    List (Asg S K) → Except PyErr (List (Asg S K))
  | [] => .error .indexError
  | e :: es =>
    let density : (S → K) → K := fun σ => if compressible then σ e.lhs else 1
    let offsets := shift.map fun s => fun σ => if reverse then -s σ (density σ) else s σ (density σ)
    .ok (e :: (List.zipWith (fun (q : Asg S K) o => ⟨q.lhs, fun σ => q.rhs σ + o σ⟩) (es.take dim) offsets) ++ es.drop dim)

/-- running the assignments one after the other -/
def run (es : List (Asg S K)) (σ : S → K) : S → K := es.foldl (fun σ e => Function.update σ e.lhs (e.rhs σ)) σ

end MomentShift
end Lbm
