import Verif.TakeMoments
import Mathlib.Algebra.Algebra.Basic
import Mathlib.Algebra.BigOperators.Group.Finset.Basic

/-!
# What the symbols of an equation mean

The fields are elements of an algebra `A` over the constants `K`.  In each of finitely many directions the populations are fields and
the velocity is constant; derivatives are linear over the constants.
-/

namespace Lbm
namespace Spec

open TakeMoments

/-- values of the symbols -/
structure Meaning (R ι K A Q : Type) [Field K] [CommRing A] [Algebra K A] where
  /-- the derivatives -/
  d : ι → A →ₗ[K] A
  /-- the velocities -/
  c : Q → Fin 3 → K
  /-- populations of given name and superscript -/
  f : String → ℕ → Q → A
  /-- the other symbols, the same for all directions -/
  other : R → A

namespace Meaning
variable {R ι K A Q : Type} [Field K] [CommRing A] [Algebra K A] (v : Meaning R ι K A Q)

/-- nested derivatives -/
def derivatives (l : List ι) (x : A) : A := l.foldr (fun i y => v.d i y) x

/-- a symbol in a direction -/
def arg (q : Q) : Arg R → A
  | .pdf n s => v.f n s q
  | .other r => v.other r

/-- a factor in a direction -/
def factor (q : Q) : Factor R ι → A
  | .diff l a => v.derivatives l (v.arg q a)
  | .vel i => algebraMap K A (v.c q i)
  | .sym a => v.arg q a

/-- a product in a direction -/
def product (q : Q) (l : List (Factor R ι)) : A := (l.map (v.factor q)).prod

/-- an equation in a direction -/
def eqn (q : Q) : Eqn R ι → A
  | .mul l => v.product q l
  | .add ts => (ts.map (v.product q)).sum
  | .other (some x) => v.factor q x
  | .other none => 0

/-- the moment with the given exponents -/
def moment [Fintype Q] (name : String) (m : Fin 3 → ℕ) (s : ℕ) : A := ∑ q, (∏ i, v.c q i ^ m i) • v.f name s q

/-- a coefficient times a derivative of a moment, when the symbols of moments have the values `μ`; there are no populations in
the coefficient -/
def term (μ : String → (Fin 3 → ℕ) → ℕ → A) (t : MomentTerm R ι) : A :=
  (t.rest.map fun | .other r => v.other r | .pdf _ _ => 0).prod * v.derivatives t.targets (μ t.name t.exponents t.superscript)

end Meaning
end Spec
end Lbm
