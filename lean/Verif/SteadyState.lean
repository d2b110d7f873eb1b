import Verif.ChapmanEnskog
import Mathlib.Algebra.Module.LinearMap.End

/-!
# Steady state Chapman–Enskog analysis

Model of `/repo/src/lbmpy/chapman_enskog/chapman_enskog_steady_state.py`.

As in `ChapmanEnskog` expressions are modelled by their values.  Populations are elements of a `K`-module `V`; the symbols
`c.dot(dx)`, `A` and `1/A` are linear maps of it.  They do not commute, like the symbols of the code.  Not modelled:
sympy's normal forms (`expand_diff_linear`, `normalize_diff_order`, `collect_diffs`).
-/

namespace Lbm
namespace SteadyState

open scoped BigOperators

section
variable {K V : Type} [Field K] [AddCommGroup V] [Module K V]

/-- `f` replaced by `sum(eps ** i * f_i for i in range(0, order + 1))`; chapman_enskog.py:540-549. -/
def expandPdf (order : ℕ) (f : ℕ → V) (i : ℕ) : V := if i < order + 1 then f i else 0

/-- The coefficient of `eps ** n` in the expanded equation `sum_k (eps c.dx)^k / k! f + A (f - f_0) - eps F`, `k` up to
`order`; chapman_enskog_steady_state.py:70-83, 90-92. -/
def taylored (order : ℕ) (T coll : V →ₗ[K] V) (F : V) (f : ℕ → V) (n : ℕ) : V :=
  (∑ k ∈ Finset.range order, if k + 1 ≤ n then
    (1 / ((k + 1).factorial : K)) • (T ^ (k + 1)) (expandPdf order f (n - (k + 1))) else 0) +
    coll (expandPdf order f n - if n = 0 then f 0 else 0) - if n = 1 then F else 0

/-- `_create_pdf_hierarchy`: `f_n` solved from the equation of order `n`, all smaller ones inserted;
chapman_enskog_steady_state.py:85-105. -/
def hierarchy (order : ℕ) (T inv : V →ₗ[K] V) (F f0 : V) (n : ℕ) : V :=
  match n with
  | 0 => f0
  | n + 1 => -inv ((∑ k : Fin (n + 1), if k.val < order then
      (1 / ((k.val + 1).factorial : K)) • (T ^ (k.val + 1)) (hierarchy order T inv F f0 (n - k.val)) else 0) -
        if n = 0 then F else 0)
termination_by n
decreasing_by omega

/-- `_recombine_pdfs`; chapman_enskog_steady_state.py:107-108. -/
def recombined (order : ℕ) (eps : K) (f : ℕ → V) : V := ∑ i ∈ Finset.range order, eps ^ (i + 1 - 1) • f (i + 1)

/-- `scale_hierarchy` of the class for one relaxation rate: `f_n = -B * eps_dict[n]` with the smaller ones inserted; every
derivative has the factor `Delta_t`; chapman_enskog_steady_state.py:189-211. -/
def srtHierarchy (order : ℕ) (B dt : K) (T : V →ₗ[K] V) (f0 : V) (n : ℕ) : V :=
  hierarchy order (dt • T) (B • LinearMap.id) 0 f0 n

/-- `recombined` of that class, divided by the common factors; chapman_enskog_steady_state.py:214-215. -/
def srtRecombined (order : ℕ) (B dt : K) (T : V →ₗ[K] V) (f0 : V) : V :=
  (1 / (dt * B)) • -(∑ n ∈ Finset.range order, srtHierarchy order B dt T f0 (n + 1))

end

section
variable {K A : Type} [Field K] [CommRing A] [Algebra K A] {D Q : ℕ}

/-- `c.dot(dx)` applied to populations; chapman_enskog_steady_state.py:75-79. -/
def transport (c : Fin Q → Fin D → K) (x : Fin D → (A →ₗ[K] A)) : (Fin Q → A) →ₗ[K] (Fin Q → A) :=
  LinearMap.pi fun q => (∑ a, c q a • x a) ∘ₗ LinearMap.proj q

/-- A matrix over the constants applied to populations; `inverse_collision_matrix` in place of `1 / A`;
chapman_enskog_steady_state.py:124-127, 154-160. -/
def applyMatrix (M : Matrix (Fin Q) (Fin Q) K) : (Fin Q → A) →ₗ[K] (Fin Q → A) :=
  LinearMap.pi fun q => ∑ r, M q r • LinearMap.proj r

/-- `continuity_equation`: the sum over the directions; chapman_enskog_steady_state.py:110-111, 165. -/
def continuity (r : Fin Q → A) : A := ∑ q, r q

/-- `momentum_equations[coordinate]`, `shift` is the velocity shift of the force model or 0;
chapman_enskog_steady_state.py:113-121. -/
def momentum (c : Fin Q → Fin D → K) (shift : Fin D → A) (r : Fin Q → A) (a : Fin D) : A := (∑ q, c q a • r q) + shift a

/-- The symbol `Diff(Diff(u_i, j), k)`, the derivatives are sorted; chapman_enskog_steady_state.py:283-290. -/
def key (i j k : Fin D) : Fin D × Fin D × Fin D := (i, max j k, min j k)

/-- `navier_stokes_ref.coeff(item)`; chapman_enskog_steady_state.py:298-301. -/
def nsRef (nu nuB : K) (a : Fin D) (s : Fin D × Fin D × Fin D) : K :=
  -(nu * ∑ b, ((if s = key a b b then 1 else 0) + (if s = key b b a then 1 else 0)) +
    (nuB - 2 * nu / 3) * ∑ b, ∑ g, (if s = key g b g ∧ a = b then 1 else 0))

/-- `navier_stokes_ref.atoms(Diff)`: the second derivatives that occur; the set of the code also has the first derivatives
inside of them, their equations are `0 = 0`; chapman_enskog_steady_state.py:308. -/
def nsAtoms (a : Fin D) : Finset (Fin D × Fin D × Fin D) :=
  (Finset.univ.image fun b => key a b b) ∪ (Finset.univ.image fun b => key b b a)

/-- The equations that `determine_viscosities` solves for the viscosities; chapman_enskog_steady_state.py:307-310. -/
def MatchesViscosities (firstOrder : Fin D × Fin D × Fin D → K) (a : Fin D) (nu nuB : K) : Prop :=
  ∀ s ∈ nsAtoms a, nsRef nu nuB a s - firstOrder s = 0

end

end SteadyState
end Lbm
