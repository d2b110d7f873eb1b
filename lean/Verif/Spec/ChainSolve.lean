/-
What it means that values satisfy a system of affine equations.
-/
import Verif.ChainSolve

namespace Lbm
namespace ChainSolve
namespace Spec

variable {F U W N : Type} [Field F] [AddCommGroup W] [Module F W] [AddCommGroup N] [Module F N]

/-- the left-hand side of an equation for values `y` of the unknowns and `φ` of the remainder -/
noncomputable def lhs (φ : W →ₗ[F] N) (y : U → N) (e : Eqn F U W) : N := Finsupp.linearCombination F y e.coeff + φ e.rest

/-- the values satisfy the equations -/
def Satisfies (φ : W →ₗ[F] N) (y : U → N) (es : List (Eqn F U W)) : Prop := ∀ e ∈ es, lhs φ y e = 0

/-- the values are those of a dict -/
def Agrees (φ : W →ₗ[F] N) (y : U → N) (d : List (U × W)) : Prop := ∀ p ∈ d, y p.1 = φ p.2

/-- each equation brings one new unknown: the unknowns of each equation are among those solved before, and the new one -/
def Triangular : List U → List (Eqn F U W × U) → Prop
  | _, [] => True
  | solved, (e, u) :: l => u ∉ solved ∧ e.coeff u ≠ 0 ∧ (∀ v, e.coeff v ≠ 0 → v = u ∨ v ∈ solved) ∧ Triangular (solved ++ [u]) l

end Spec
end ChainSolve
end Lbm
