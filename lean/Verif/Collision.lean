/-
Model of the collision operator of `methods/momentbased/momentbasedmethod.py`.

Symbolic assignments are modelled by the functions they compute: a collision rule is a map from the pre-collision
populations of a cell to its post-collision populations.
-/
import Verif.StencilCtor
import Verif.MomentSets
import Mathlib.LinearAlgebra.Matrix.NonsingularInverse

set_option linter.unusedSectionVars false

namespace Lbm

open Matrix

/-- What a force model contributes to a collision rule (`forcemodels.py`, used at `momentbasedmethod.py:380-381` and
`400-408`): population-space terms, and moment-space terms if `has_moment_space_forcing`. -/
structure ForceTerms (K : Type) (Q : ℕ) where
  pop : (Fin Q → K) → Fin Q → K
  momentSpace : Option ((Fin Q → K) → Fin Q → K)

/-- `MomentBasedLbMethod` (`momentbasedmethod.py:21-58`). `P` is the type of moment polynomials. -/
structure MomentMethod (K P : Type) (Q : ℕ) where
  /-- `_relaxation_dict`: moments and their rates in insertion order -/
  relax : List (P × K)
  /-- the row of `moment_matrix` of a moment -/
  ev : P → Fin Q → K
  /-- equilibrium value of a moment; the conserved quantities in it are computed from the populations of the cell by
  `equilibrium_input_equations_from_pdfs` -/
  meq : (Fin Q → K) → P → K
  /-- `_zero_centered` -/
  zeroCentered : Bool
  /-- `_equilibrium.deviation_only` -/
  deviationOnly : Bool
  /-- moments of `_equilibrium.background_distribution` -/
  background : Option (P → K)
  /-- `_moment_transform_class is not None`; the transform is `PdfsToMomentsByMatrixTransform` here -/
  momentSpace : Bool
  /-- `_force_model` -/
  force : Option (ForceTerms K Q)

namespace MomentMethod
variable {K P : Type} [Field K] [DecidableEq K] [DecidableEq P] {Q : ℕ}

/-- `self.moments` as a vector of length `Q`, if there are that many. -/
def moment (m : MomentMethod K P Q) (h : m.relax.length = Q) (i : Fin Q) : P := (m.relax[i.val]'(by have := i.isLt; omega)).1

/-- `self.relaxation_rates` likewise. -/
def rate (m : MomentMethod K P Q) (h : m.relax.length = Q) (i : Fin Q) : K := (m.relax[i.val]'(by have := i.isLt; omega)).2

/-- `self.moment_matrix` (`momentbasedmethod.py:228-230`). -/
def matrix (m : MomentMethod K P Q) (h : m.relax.length = Q) : Matrix (Fin Q) (Fin Q) K :=
  fun i => m.ev (m.moment h i)

/-- sympy's `Matrix.inv()`: raises a `ValueError` subclass for singular matrices. -/
noncomputable def pyInv (M : Matrix (Fin Q) (Fin Q) K) : Except PyErr (Matrix (Fin Q) (Fin Q) K) :=
  if M.det = 0 then .error .valueError else .ok M⁻¹

/-- `background_distribution` of `_collision_rule_with_relaxation_matrix` (`momentbasedmethod.py:348-353`). -/
def backgroundShift (m : MomentMethod K P Q) : Except PyErr (Option (P → K)) :=
  if m.zeroCentered && !m.deviationOnly then
    match m.background with
    | some b => .ok (some b)
    | none => .error .assertion
  else .ok none

/-- `moment_space_forcing` (`momentbasedmethod.py:334-338`): the moment-space force terms, if they are used. -/
def momentForcing (m : MomentMethod K P Q) (includeForce : Bool) : Option ((Fin Q → K) → Fin Q → K) :=
  if includeForce && m.momentSpace then m.force.bind fun t => t.momentSpace else none

/-- The population-space force terms added at the end (`momentbasedmethod.py:400-408`). -/
def popForcing (m : MomentMethod K P Q) (includeForce : Bool) : Option ((Fin Q → K) → Fin Q → K) :=
  if includeForce && (m.momentForcing includeForce).isNone then m.force.map fun t => t.pop else none

/-- `_collision_rule_with_relaxation_matrix` (`momentbasedmethod.py:320-416`) with relaxation matrix `diag d`. -/
noncomputable def collisionRule (m : MomentMethod K P Q) (d : Fin Q → K) (includeForce : Bool) :
    Except PyErr ((Fin Q → K) → Fin Q → K) := do
  let bg ← m.backgroundShift
  let base ←
    if m.momentSpace then
      if h : m.relax.length = Q then do
        let M := m.matrix h
        let Minv ← pyInv M
        -- `_rm_background_shift` (`rawmomenttransforms.py:45-50`)
        let shift : Fin Q → K := fun i => match bg with | some b => b (m.moment h i) | none => 0
        pure fun f : Fin Q → K =>
          let mEq : Fin Q → K := fun i => m.meq f (m.moment h i)
          -- `forward_transform` (`rawmomenttransforms.py:101`)
          let mPre := M *ᵥ f + shift
          let mPost := mPre + (diagonal d) *ᵥ (mEq - mPre)
          let mPost := match m.momentForcing includeForce with | some F => mPost + F f | none => mPost
          -- `backward_transform` (`rawmomenttransforms.py:155-159`)
          Minv *ᵥ (mPost - shift)
      else .error .assertion
    else if m.zeroCentered && !m.deviationOnly then .error .exception
    else
      if h : m.relax.length = Q then do
        let M := m.matrix h
        let Minv ← pyInv M
        pure fun f : Fin Q → K =>
          let mEq : Fin Q → K := fun i => m.meq f (m.moment h i)
          f + (Minv * diagonal d) *ᵥ (mEq - M *ᵥ f)
      else .error .valueError
  match m.popForcing includeForce with
  | some F => pure fun f => base f + F f
  | none => pure base

/-- The rates of `get_collision_rule` (`momentbasedmethod.py:179-184`): multiplied by `1 - fraction` in partially
saturated cells. That the symbolic matrix of `_generate_symbolic_relaxation_matrix` stands for these rates is C34. -/
def effectiveRates (m : MomentMethod K P Q) (fraction : Option K) (i : Fin Q) : K :=
  let r := (m.relax.map Prod.snd).getD i.val 0
  match fraction with
  | some B => r * (1 - B)
  | none => r

/-- `get_collision_rule` (`momentbasedmethod.py:176-191`). -/
noncomputable def getCollisionRule (m : MomentMethod K P Q) (fraction : Option K := none) :
    Except PyErr ((Fin Q → K) → Fin Q → K) :=
  m.collisionRule (m.effectiveRates fraction) true

/-- `get_equilibrium` (`momentbasedmethod.py:132-169`): the collision rule with every rate symbol set to 1. -/
noncomputable def getEquilibrium (m : MomentMethod K P Q) (includeForce : Bool := false) :
    Except PyErr ((Fin Q → K) → Fin Q → K) :=
  m.collisionRule (fun _ => 1) includeForce

/-- `collision_matrix` (`momentbasedmethod.py:217-220`). -/
noncomputable def collisionMatrix (m : MomentMethod K P Q) : Except PyErr (Matrix (Fin Q) (Fin Q) K) :=
  if h : m.relax.length = Q then do
    let Minv ← pyInv (m.matrix h)
    pure (Minv * diagonal (m.rate h) * m.matrix h)
  else .error .valueError

/-- python `d[k] = v` on an `OrderedDict` -/
def dictSet (d : List (P × K)) (k : P) (v : K) : List (P × K) :=
  if k ∈ d.map Prod.fst then d.map fun e => if e.1 = k then (e.1, v) else e else d ++ [(k, v)]

/-- `set_zeroth_moment_relaxation_rate` (`momentbasedmethod.py:193-196`); `one` is the polynomial 1. -/
def setZerothRate (m : MomentMethod K P Q) (one : P) (ω : K) : MomentMethod K P Q :=
  { m with relax := dictSet m.relax one ω }

/-- `set_first_moment_relaxation_rate` (`momentbasedmethod.py:198-203`); `xs` are the first `dim` moment symbols. -/
def setFirstRate (m : MomentMethod K P Q) (xs : List P) (ω : K) : Except PyErr (MomentMethod K P Q) :=
  if ∀ e ∈ xs, e ∈ m.relax.map Prod.fst then
    .ok { m with relax := xs.foldl (fun d e => dictSet d e ω) m.relax }
  else .error .assertion

/-- `set_conserved_moments_relaxation_rate` (`momentbasedmethod.py:205-208`). -/
def setConservedRate (m : MomentMethod K P Q) (one : P) (xs : List P) (ω : K) : Except PyErr (MomentMethod K P Q) :=
  (m.setZerothRate one ω).setFirstRate xs ω

/-- `override_weights` / `_compute_weights` by moment matching (`momentbasedmethod.py:304-307`): `M⁻¹` applied to the
background moments. -/
noncomputable def matchedWeights (m : MomentMethod K P Q) : Except PyErr (Fin Q → K) :=
  match m.background with
  | none => .error .assertion
  | some b =>
    if h : m.relax.length = Q then do
      let Minv ← pyInv (m.matrix h)
      pure (Minv *ᵥ fun i => b (m.moment h i))
    else .error .valueError

end MomentMethod

/-! ### Two relaxation times (`methods/creationfunctions.py:224-304`) -/

/-- `opposite.subs(s, -s)` for every moment symbol (`moments.py:220-222`). -/
def PExpr.opposite : PExpr → PExpr
  | .const n => .const n
  | .var i => .const (-1) * .var i
  | .add a b => a.opposite + b.opposite
  | .sub a b => a.opposite - b.opposite
  | .mul a b => a.opposite * b.opposite
  | .pow a n => a.opposite ^ n

/-- `is_even` of a polynomial (`moments.py:219-223`): `expand(moment - opposite) == 0`. -/
def PExpr.isEven (p : PExpr) : Bool := (p - p.opposite).expand == []

/-- `rr_dict` of `create_srt` (`creationfunctions.py:244-245`). -/
def srtRates {K : Type} (moments : List PExpr) (ω : K) : List (PExpr × K) := moments.map fun m => (m, ω)

/-- `rr_dict` of `create_trt` (`creationfunctions.py:273-275`). -/
def trtRates {K : Type} (moments : List PExpr) (ωeven ωodd : K) : List (PExpr × K) :=
  moments.map fun m => (m, if m.isEven then ωeven else ωodd)

end Lbm
