/-
Model of `get_solvability_conditions` and of the loops and the insertion of moments in `determine_higher_order_moments`
(`chapman_enskog/chapman_enskog_higher_order.py:35-91`).
-/
import Verif.CeSubst
import Verif.Moments

namespace Lbm
namespace HigherOrder

open CeSubst

variable {K : Type}

/-- the keys of `get_solvability_conditions` (`chapman_enskog_higher_order.py:35-41`), all with value zero -/
def solvabilityConditions (dim order : ℕ) : Option (List (Name × List ℕ × ℤ)) :=
  (momentsUpToOrder 1 dim).map fun ms =>
    [Name.pre, Name.post].flatMap fun n => ms.flatMap fun t => (List.range (order + 1)).map fun (k : ℕ) => (n, t, (k : ℤ))

/-- `.subs(solvability_conditions)` (line 69) -/
def applyConditions [Zero K] (conditions : List (Name × List ℕ × ℤ)) (e : Ex K) : Ex K :=
  e.replace fun n t s => if (n, t, s) ∈ conditions then some (Ex.num 0) else none

/-- `tm` after `take_moments` (`chapman_enskog_higher_order.py:67-69`) -/
def insertAll [Zero K] (dim order : ℕ) (post : List ℕ → ℤ → ℤ → Ex K) (eq : List ℕ → Ex K) (e : Ex K) : Option (Ex K) :=
  (solvabilityConditions dim order).map fun c => applyConditions c (substitute post eq e)

/-- The inner loop `for order in range(order + 1)` (`chapman_enskog_higher_order.py:76`): the iterations and the value of the
variable `order` afterwards, which the loop assigns to. -/
def inner (eps order : ℕ) : List (ℕ × ℕ) × ℕ :=
  ((List.range (order + 1)).map fun o => (eps, o), (List.range (order + 1)).getLast?.getD order)

/-- the outer loop (`chapman_enskog_higher_order.py:73-91`) over the remaining `eps_order`s -/
def outer : List ℕ → ℕ → List (ℕ × ℕ)
  | [], _ => []
  | eps :: rest, order => (inner eps order).1 ++ outer rest (inner eps order).2

/-- the pairs of `eps_order` and `order` in the sequence in which they are treated -/
def iterations (order : ℕ) : List (ℕ × ℕ) := outer (List.range' 1 (order - 1)) order

end HigherOrder
end Lbm
