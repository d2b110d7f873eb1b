import Verif.NavierStokesMatch
import Mathlib.RingTheory.Derivation.Basic
import Mathlib.Algebra.MvPolynomial.Eval

/-!
# The Navier–Stokes equations

Fields are elements of an algebra over the constants; the derivatives along the axes and in time are derivations.
-/

namespace Lbm
namespace Spec

open NavierStokesMatch

/-- density, velocity and moments with their derivatives -/
structure Fields (K A : Type) [Field K] [CommRing A] [Algebra K A] (D : ℕ) (μ : Type) where
  rho : A
  u : Fin D → A
  mom : μ → A
  /-- derivative in time (`none`) or along an axis -/
  d : Option (Fin D) → Derivation K A A

namespace Fields
variable {K A : Type} [Field K] [CommRing A] [Algebra K A] {D : ℕ} {μ : Type} (v : Fields K A D μ)

/-- value of a symbol -/
def base : Base D μ → A
  | .rho => v.rho
  | .u i => v.u i
  | .mom m => v.mom m

/-- value of an equation -/
noncomputable def eval (p : Poly K D μ) : A :=
  MvPolynomial.aeval (fun | .base b => v.base b | .diff x => v.d x.2 (v.base x.1) : Sym D μ → A) p

/-- the left side of the equation of continuity -/
def continuity (compressible : Bool) : A :=
  v.d none v.rho + ∑ i, v.d (some i) ((if compressible then v.rho else 1) * v.u i)

/-- the left side of the momentum equation with pressure `p` and stress `σ` -/
def momentum (compressible : Bool) (p : A) (σ : Fin D → Fin D → A) (i : Fin D) : A :=
  v.d none ((if compressible then v.rho else 1) * v.u i) +
    ∑ j, v.d (some j) ((if compressible then v.rho else 1) * (v.u i * v.u j)) + v.d (some i) p + ∑ j, v.d (some j) (σ i j)

end Fields
end Spec
end Lbm
