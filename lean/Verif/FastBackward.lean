import Verif.StencilCtor
import Mathlib.Algebra.BigOperators.Group.Finset.Basic
import Mathlib.Algebra.Field.Basic
import Mathlib.Algebra.Module.Pi
import Mathlib.Algebra.Module.LinearMap.Basic
import Mathlib.Algebra.Module.LinearMap.Defs
import Mathlib.Data.Fintype.Pi
import Mathlib.Data.Fin.VecNotation

/-!
# The backward fast central moment transform

`FastCentralMomentTransform._split_backward_equations` and `_split_backward_equations_recursive`
(`moment_transforms/centralmomenttransforms.py`, lines 710-792), called by `backward_transform` (lines 611-667).

The right-hand sides of the raw equations `inv_monomial_matrix * moments` are polynomials in the velocity components with
linear combinations of the moment symbols as coefficients.  They are modelled by their coefficients; `V` is the space of the
linear combinations.  The model covers polynomials of degree at most two in each component; this is what the inverse matrix
contains if no moment has a higher exponent than two (see `rawEquation`).  Of sympy, `subs`, `expand`, `collect` and `coeff` of
such polynomials are modelled by their results.  Expressions are equal as keys of the dictionary if they are the same
polynomial: the keys are expanded.
-/

namespace Lbm
namespace FastBackward

variable {D : ℕ} {K V : Type}

/-- A polynomial of degree at most two in each of the `D` velocity components; `c p` is the coefficient of the product of
the `u_k ^ p k`. -/
abbrev Poly (D : ℕ) (V : Type) := (Fin D → Fin 3) → V

/-- The right-hand side of an assignment: an expression that is not split, or three products of a factor for one velocity
component and a symbol, with the common factor (line 775-777). -/
inductive Rhs (D : ℕ) (V : Type) where
  | poly (c : Poly D V)
  | grouped (axis : Fin D) (d : ℤ) (s : Fin 3 → ℕ)

/-- What the recursion changes: the symbol generator, `known_coeffs_dict` and `all_subexpressions`. -/
structure State (D : ℕ) (V : Type) where
  next : ℕ
  known : List (Poly D V × ℕ)
  subs : List (ℕ × Rhs D V)

section
variable [AddCommGroup V] [DecidableEq V]

/-- The test for velocity symbols in the expression (line 721). -/
def hasVelocity (c : Poly D V) : Bool := decide (∃ p, p ≠ (fun _ => 0) ∧ c p ≠ 0)

/-- The coefficient of `u_k ^ j`, a polynomial in the other components. -/
def coeffAt (k : Fin D) (j : Fin 3) (c : Poly D V) : Poly D V :=
  fun p => if p k = 0 then c (Function.update p k j) else 0

/-- `rhs_grouped_by_v.coeff(v, k)` (lines 743-753).  The equations for the proxy are solved for `u ** 2` and `u`:
for the direction `-1` they become `v ** 2 + u` and `(v + 1) / 2`, for `0` they become `1 - v ** 2` and `-v / 2`, for `1` they
become `v ** 2 - u` and `(v - 1) / 2`; `a`, `b`, `c` are the coefficients of `1`, `u`, `u ** 2`. -/
def grouped (K : Type) [Field K] [Module K V] (d : ℤ) (a b c : Poly D V) : Fin 3 → Poly D V :=
  if d = -1 then ![a + (1 / 2 : K) • (b + c), (1 / 2 : K) • (b + c), c]
  else if d = 0 then ![a + c, -((1 / 2 : K) • b), -c]
  else ![a - (1 / 2 : K) • (b - c), (1 / 2 : K) • (b - c), c]

/-- `grouping_factors` (lines 733-737) -/
def factors [Field K] (d : ℤ) (u : K) : Fin 3 → K :=
  if d = -1 then ![1, 2 * u - 1, u ^ 2 - u]
  else if d = 0 then ![-1, -2 * u, 1 - u ^ 2]
  else ![1, 2 * u + 1, u ^ 2 + u]

/-- `common_factor` (line 741) -/
def commonFactor [Field K] (d : ℤ) : K := if d = 0 then 1 else 2

/-- `coeff_subexp` (lines 752-758) -/
def coeffSubexp (K : Type) [Field K] [Module K V] (k : Fin D) (d : ℤ) (c : Poly D V) (j : Fin 3) : Poly D V :=
  let e := (commonFactor d : K) • grouped K d (coeffAt k 0 c) (coeffAt k 1 c) (coeffAt k 2 c) j
  if j = 0 then (1 / factors d (0 : K) 0 : K) • e else e

/-- The memoisation (lines 760-774): a coefficient that is known has a symbol, for another one a new symbol is taken and
the coefficient is split by `rec` before it is appended to the subexpressions. -/
def request (rec : Poly D V → State D V → Except PyErr (Rhs D V × State D V)) (c : Poly D V) (st : State D V) :
    Except PyErr (ℕ × State D V) :=
  match st.known.find? (fun e => decide (e.1 = c)) with
  | some e => .ok (e.2, st)
  | none => do
    let (rhs, st') ← rec c { st with next := st.next + 1, known := st.known ++ [(c, st.next)] }
    .ok (st.next, { st' with subs := st'.subs ++ [(st.next, rhs)] })

/-- `_split_backward_equations_recursive` (lines 710-779); `r` is `dim - step`.  When all components are used up, the access
of the velocity raises an `IndexError`; another direction than -1, 0, 1 is a `KeyError`. -/
def split (K : Type) [Field K] [Module K V] (dir : Fin D → ℤ) :
    (r : ℕ) → r ≤ D → Poly D V → State D V → Except PyErr (Rhs D V × State D V)
  | 0, _, c, st => if hasVelocity c then .error .indexError else .ok (.poly c, st)
  | r + 1, h, c, st =>
    if hasVelocity c then
      let k : Fin D := ⟨r, h⟩
      if dir k = -1 ∨ dir k = 0 ∨ dir k = 1 then do
        let rec' := split K dir r (Nat.le_of_succ_le h)
        let (s0, st) ← request rec' (coeffSubexp K k (dir k) c 0) st
        let (s1, st) ← request rec' (coeffSubexp K k (dir k) c 1) st
        let (s2, st) ← request rec' (coeffSubexp K k (dir k) c 2) st
        .ok (.grouped k (dir k) ![s0, s1, s2], st)
      else .error .keyError
    else .ok (.poly c, st)

/-- `_split_backward_equations` (lines 781-792): the split main assignments in the order of the stencil, and the state
with the subexpressions.  `topological_sort` does not change values. -/
def splitAll (K : Type) [Field K] [Module K V] :
    List (Poly D V × (Fin D → ℤ)) → State D V → Except PyErr (List (Rhs D V) × State D V)
  | [], st => .ok ([], st)
  | e :: l, st => do
    let (rhs, st) ← split K e.2 D le_rfl e.1 st
    let (rest, st) ← splitAll K l st
    .ok (rhs :: rest, st)

end

section values
variable [Field K] [AddCommGroup V] [Module K V]

/-- The value of a polynomial: `u` are the velocities and `m` gives the values of linear combinations of moments. -/
def val (u : Fin D → K) (m : V →ₗ[K] K) (c : Poly D V) : K := ∑ p, (∏ k, u k ^ (p k).val) * m (c p)

/-- The value of a right-hand side, `none` if it contains a symbol that is not assigned before. -/
def evalRhs (u : Fin D → K) (m : V →ₗ[K] K) (env : ℕ → Option K) : Rhs D V → Option K
  | .poly c => some (val u m c)
  | .grouped k d s => do
    let a ← env (s 0)
    let b ← env (s 1)
    let c ← env (s 2)
    some (1 / commonFactor d * (factors d (u k) 0 * a + factors d (u k) 1 * b + factors d (u k) 2 * c))

/-- The subexpressions are assigned one after the other. -/
def exec (u : Fin D → K) (m : V →ₗ[K] K) (subs : List (ℕ × Rhs D V)) : ℕ → Option K :=
  subs.foldl (fun env a => Function.update env a.1 (evalRhs u m env a.2)) (fun _ => none)

end values

section raw
variable [Field K] {Q : ℕ}

/-- The right-hand side of the equation for one population (line 658): the row `minv` of the inverse of the raw moment matrix
times the inverse of the shift matrix, which expresses the raw moment with the exponents `e i` by the central ones:
`prod_k binom(e i k, e j k) u_k ^ (e i k - e j k)` for `e j ≤ e i` (lines 517-520). -/
def rawEquation (e : Fin Q → Fin D → ℕ) (minv : Fin Q → K) : Poly D (Fin Q → K) :=
  fun p j => ∑ i, if ∀ k, e i k = e j k + (p k).val then minv i * ∏ k, ((e i k).choose (e j k) : K) else 0

end raw

end FastBackward
end Lbm
