/-
Model of the collision operator of `methods/cumulantbased/cumulantbasedmethod.py` and of the symmetric forcing of
`forcemodels.py`.

The transform between populations and central moments is modelled by the matrix of the monomials about the fluid velocity and
its inverse; that the transforms of the library compute this is the subject of C35 and C52. `sp.log` and `sp.exp` are those of the
real numbers. Generation of symbols for relaxation rates is the subject of C34.
-/
import Verif.CumulantTransform
import Verif.CentralMoments

namespace Lbm
namespace CumulantMethod

open Matrix CumulantTransform

variable {D : ℕ}

/-- `str` of a monomial (`moments.py:178`), as printed by sympy: `1`, or factors `x`, `x**2` joined by `*` -/
def monomialStr (e : List ℕ) : List Char :=
  let factors := (List.zip ['x', 'y', 'z'] e).filterMap fun p =>
    if p.2 = 0 then none else if p.2 = 1 then some [p.1] else some (p.1 :: '*' :: '*' :: Nat.toDigits 10 p.2)
  if factors.isEmpty then ['1'] else List.intercalate ['*'] factors

/-- `exponent_tuple_sort_key` (`moments.py:175-183`): order, number of symbols, length of the string, string. The characters of the
string are given by their code points, in which order Python compares them. -/
def sortKey (e : List ℕ) : List ℕ :=
  let s := monomialStr e
  [e.sum, (e.filter (· ≠ 0)).length, s.length] ++ s.map Char.toNat

/-- comparison of tuples -/
def lexLe : List ℕ → List ℕ → Bool
  | [], _ => true
  | _ :: _, [] => false
  | a :: s, b :: t => a < b || (a == b && lexLe s t)

/-- `sorted(list(required_moments), key=exponent_tuple_sort_key)` (`cumulanttransforms.py:96`) -/
def sortExponents (l : List (List ℕ)) : List (List ℕ) :=
  l.insertionSort fun a b => lexLe (sortKey a) (sortKey b) = true

/-- value of the monomial with the given exponents -/
def evMono (e : List ℕ) (v : Fin D → ℝ) : ℝ := ∏ a, v a ^ e.getD a 0

/-- the velocities of a stencil -/
def velocities (S : Stencil D) (q : Fin S.Q) (a : Fin D) : ℝ := (S.c q a : ℝ)

/-- force models with respect to `symmetric_central_moment_forcing` (`forcemodels.py:134`); vectors that depend on the populations
through the fluid velocity are functions of the populations -/
inductive Forcing (S : Stencil D) where
  /-- `Simple`, `Luo` (`forcemodels.py:205-210`, `265-270`) with the result of `__call__` -/
  | full (pop : (Fin S.Q → ℝ) → Fin S.Q → ℝ)
  /-- `Guo`, `Schiller` (`forcemodels.py:309-313`) with the result of `Luo.__call__` -/
  | halves (pop : (Fin S.Q → ℝ) → Fin S.Q → ℝ)
  /-- `CentralMoment` (`forcemodels.py:222-229`) -/
  | first (F : Fin D → ℝ)
  /-- `He` (`forcemodels.py:432-435`) with the result of `continuous_force_central_moments` -/
  | continuous (cm : (Fin S.Q → ℝ) → List ℕ → ℝ)
  /-- `Buick`, `EDM`, `ShanChen`, which do not have this function -/
  | none

namespace Forcing

/-- `cm_matrix @ sp.Matrix(self(lb_method))` -/
def centralMoments (S : Stencil D) (u : Fin D → ℝ) (pop : Fin S.Q → ℝ) (e : List ℕ) : ℝ :=
  ∑ q, evMono e (fun a => velocities S q a - u a) * pop q

/-- the entries that `CentralMoment` sets in a vector of zeros (`forcemodels.py:223-227`) -/
noncomputable def firstEntries (Q : ℕ) (F : Fin D → ℝ) : List ℝ :=
  (List.finRange D).foldl (fun l (i : Fin D) => l.set (i.val + 1) (1 / 2 * F i)) (List.replicate Q 0)

/-- `symmetric_central_moment_forcing(lb_method, central_moments)`: terms before and after the collision -/
noncomputable def terms {S : Stencil D} (F : Forcing S) (vel : (Fin S.Q → ℝ) → Fin D → ℝ) (moments : List (List ℕ))
    (f : Fin S.Q → ℝ) : List ℝ × List ℝ :=
  match F with
  | full pop => (List.replicate S.Q 0, moments.map (centralMoments S (vel f) (pop f)))
  | halves pop =>
    let l := moments.map fun e => 1 / 2 * centralMoments S (vel f) (pop f) e
    (l, l)
  | first F => (firstEntries S.Q F, firstEntries S.Q F)
  | continuous cm =>
    let l := moments.map fun e => 1 / 2 * cm f e
    (l, l)
  | none => ([], [])

/-- `has_symmetric_central_moment_forcing` (`forcemodels.py:134`) -/
def symmetric {S : Stencil D} : Forcing S → Bool
  | none => false
  | _ => true

end Forcing

/-- `CumulantBasedLbMethod` (`cumulantbasedmethod.py:21-70`) -/
structure Method (S : Stencil D) where
  /-- `cumulants`, the keys of the relaxation dictionary -/
  cumulants : List PExpr
  /-- values of `zeroth_order_equilibrium_moment_symbol` and `first_order_equilibrium_moment_symbols`, computed from the
  populations by the conserved quantity equations -/
  rho : (Fin S.Q → ℝ) → ℝ
  vel : (Fin S.Q → ℝ) → Fin D → ℝ
  /-- `cumulant_equilibrium_values` (`cumulantbasedmethod.py:105-108`) -/
  ceq : (Fin S.Q → ℝ) → Fin S.Q → ℝ
  zeroCentered : Bool
  deviationOnly : Bool
  /-- central moments of `_equilibrium.background_distribution` about a velocity -/
  background : Option ((Fin D → ℝ) → List ℕ → ℝ)
  force : Option (Forcing S)

namespace Method

variable {S : Stencil D}

/-- the check of the constructor (`cumulantbasedmethod.py:57-59`) -/
def checked (m : Method S) : Except PyErr (Method S) :=
  match m.force with
  | some F => if F.symmetric then .ok m else .error .valueError
  | none => .ok m

/-- `set_force_model` (`cumulantbasedmethod.py:152-155`) -/
def setForceModel (m : Method S) (F : Forcing S) : Except PyErr (Method S) :=
  if F.symmetric then .ok { m with force := some F } else .error .valueError

/-- the background distribution of step "background shift" (`cumulantbasedmethod.py:333-339`) -/
def backgroundShift (m : Method S) : Except PyErr ((Fin D → ℝ) → List ℕ → ℝ) :=
  if m.zeroCentered then
    if m.deviationOnly then .error .assertion
    else match m.background with
      | some b => .ok b
      | none => .error .assertion
  else .ok fun _ _ => 0

/-- the matrix between populations and the monomial central moments about a velocity -/
noncomputable def pdfsToCentral (S : Stencil D) (cms : List (List ℕ)) (u : Fin D → ℝ) : Matrix (Fin S.Q) (Fin S.Q) ℝ :=
  CentralMoments.momentMatrix evMono (fun i : Fin S.Q => cms.getD i []) (velocities S) u

/-- value of the symbol of the central moment `e`; only those in `cms` are assigned -/
noncomputable def symbolValue {Q : ℕ} (cms : List (List ℕ)) (values : Fin Q → ℝ) (e : List ℕ) : ℝ :=
  if h : cms.idxOf e < Q then values ⟨cms.idxOf e, h⟩ else 0

/-- step 3, the forcing terms of the two halves (`cumulantbasedmethod.py:358-371`) -/
noncomputable def forcing (m : Method S) (includeForce : Bool) (cms : List (List ℕ)) (f : Fin S.Q → ℝ) : List ℝ × List ℝ :=
  match includeForce, m.force with
  | true, some F => F.terms m.vel cms f
  | _, _ => (List.replicate S.Q 0, List.replicate S.Q 0)

/-- the assignments of one collision, for the transforms `t`, the order `cms` of the central moments and the background `b` -/
noncomputable def collide (m : Method S) (t : Transform S.Q) (cms : List (List ℕ)) (b : (Fin D → ℝ) → List ℕ → ℝ) (d : Fin S.Q → ℝ)
    (includeForce : Bool) (f : Fin S.Q → ℝ) : Fin S.Q → ℝ :=
  let rho := m.rho f
  let u := m.vel f
  let F := m.forcing includeForce cms f
  -- steps 2 and 3
  let kappa : Fin S.Q → ℝ := fun i => (pdfsToCentral S cms u *ᵥ f) i + b u (cms.getD i []) + F.1.getD i 0
  let c := forwardTransform D t rho u (symbolValue cms kappa)
  -- step 4 (`cumulantbasedmethod.py:373-379`)
  let post : Fin S.Q → ℝ := c + diagonal d *ᵥ (m.ceq f - c)
  let kappaPost : Fin S.Q → ℝ := fun i => backwardTransform D t rho u (fun _ => 0) post (cms.getD i []) + F.2.getD i 0
  -- step 5
  (pdfsToCentral S cms u)⁻¹ *ᵥ fun i => kappaPost i - b u (cms.getD i [])

open Classical in
/-- `_centered_cumulant_collision_rule` (`cumulantbasedmethod.py:296-402`) with rates `d`. The transform to central moments inverts the
matrix of raw moments. -/
noncomputable def collisionRule (m : Method S) (d : Fin S.Q → ℝ) (includeForce : Bool) :
    Except PyErr ((Fin S.Q → ℝ) → Fin S.Q → ℝ) :=
  match m.backgroundShift with
  | .error e => .error e
  | .ok b =>
    match construct D S.Q m.cumulants with
    | .error e => .error e
    | .ok t =>
      if (pdfsToCentral S (sortExponents t.required) 0).det = 0 then .error .valueError
      else .ok (m.collide t (sortExponents t.required) b d includeForce)

/-- `get_equilibrium` (`cumulantbasedmethod.py:215-256`): all rates 1 -/
noncomputable def getEquilibrium (m : Method S) (includeForce : Bool := false) :
    Except PyErr ((Fin S.Q → ℝ) → Fin S.Q → ℝ) := m.collisionRule (fun _ => 1) includeForce

end Method

end CumulantMethod
end Lbm
