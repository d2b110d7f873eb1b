/-
Model of `boundaries/wall_function_models.py` and of `WallFunctionBounce` (`boundaries/boundaryconditions.py`).

Values are real numbers. A division by zero or a logarithm of a non-positive number makes the generated C code produce
infinities or NaN; here such a value is `none`.
-/
import Verif.BoundaryRules
import Verif.Turbulence
import Mathlib.Analysis.SpecialFunctions.Log.Basic
import Mathlib.Analysis.SpecialFunctions.Trigonometric.Arctan
import Mathlib.Analysis.SpecialFunctions.Pow.Real
import Mathlib.Analysis.Calculus.Deriv.Basic

namespace Lbm.Wall

/-- `sp.ln` in generated code -/
noncomputable def pyLog (x : ℝ) : Option ℝ := if 0 < x then some (Real.log x) else none

/-- `MoninObukhovSimilarityTheory.shear_stress_assignments` (`wall_function_models.py:47-50`) -/
noncomputable def most (z0 kappa phi rho u y : ℝ) : Option ℝ := do
  let q ← realDiv y z0
  let l ← pyLog (q + phi)
  let uTau ← realDiv (u * kappa) l
  some (uTau ^ 2 * rho)

/-- A wall law as an expression of `u_tau[0]`: its value and the set of arguments at which generated code can evaluate
it. -/
structure WallLaw where
  value : ℝ → ℝ
  defined : ℝ → Prop

/-- `u_plus` and `y_plus` (`wall_function_models.py:95-96,125-126,158-159`) are defined for `u_tau ≠ 0` and non-zero
viscosity. -/
def plusDefined (nu uTau : ℝ) : Prop := uTau ≠ 0 ∧ nu ≠ 0

/-- the law of `LogLaw` (`wall_function_models.py:92-96`) -/
noncomputable def logLaw (nu kappa b u y : ℝ) : WallLaw where
  value x := 1 / kappa * Real.log (y * x / nu) + b - u / x
  defined x := plusDefined nu x ∧ kappa ≠ 0 ∧ 0 < y * x / nu

/-- the law of `SpaldingsLaw` (`wall_function_models.py:118-126`) -/
noncomputable def spalding (nu kappa b u y : ℝ) : WallLaw where
  value x :=
    let ku := kappa * (u / x)
    u / x + Real.exp (-kappa * b) * (Real.exp ku - 1 - ku - ku ^ 2 / 2 - ku ^ 3 / 6) - y * x / nu
  defined x := plusDefined nu x

/-- the law of `MuskerLaw` (`wall_function_models.py:152-159`); the real power needs a non-negative base, the logarithm
a positive argument -/
noncomputable def musker (nu u y : ℝ) : WallLaw where
  value x :=
    let yp := y * x / nu
    5.424 * Real.arctan (0.119760479041916168 * yp - 0.488023952095808383)
      + 0.434 * Real.log ((yp + 10.6) ^ (9.6 : ℝ) / (yp ^ 2 - 8.15 * yp + 86) ^ 2) - 3.50727901936264842 - u / x
  defined x := plusDefined nu x ∧ 0 < y * x / nu + 10.6

open Classical in
/-- one pass of `newton_iteration` (`wall_function_models.py:67-74`): `delta = -law/law'`, `u_tau[i+1] = u_tau[i] +
delta`. The symbolic derivative `wall_law.diff` is the derivative of the expression. -/
noncomputable def newtonStep (L : WallLaw) (x : ℝ) : Option ℝ :=
  if L.defined x ∧ deriv L.value x ≠ 0 then some (x + -L.value x / deriv L.value x) else none

/-- the values `u_tau[0], …, u_tau[n]` (`wall_function_models.py:67-74`) -/
noncomputable def newton (L : WallLaw) (x0 : ℝ) : ℕ → Option ℝ
  | 0 => some x0
  | n + 1 => (newton L x0 n).bind (newtonStep L)

open Classical in
/-- `u_tau_init` (`wall_function_models.py:98,128,161`); a target of 0 counts as absent -/
noncomputable def uTauInit (target : Option ℝ) (u : ℝ) : ℝ :=
  match target with
  | some t => if t ≠ 0 then t else u / 100
  | none => u / 100

/-- `shear_stress_assignments` of the implicit laws (`wall_function_models.py:101-105,131-135,164-168`) -/
noncomputable def implicitStress (L : WallLaw) (steps : ℕ) (target : Option ℝ) (rho u : ℝ) : Option ℝ :=
  (newton L (uTauInit target u) steps).map fun x => x ^ 2 * rho

/-! ### `WallFunctionBounce` -/

/-- The checks of the normal direction (`boundaryconditions.py:583-593`): exactly one non-zero entry, which is ±1. -/
def wfbAxis (n : Vec 3) : Except PyErr (Fin 3) :=
  match (List.finRange 3).filter fun i => n i ≠ 0 with
  | [a] => if n a = 1 ∨ n a = -1 then .ok a else .error .assertion
  | _ => .error .valueError

/-- `WallFunctionBounce.__init__` (`boundaryconditions.py:538-602`) for integer shifts: returns `mirror_axis`. A Maronga
shift of 0 counts as absent. -/
def wfbInit (Q : ℕ) (meanVelocity : Bool) (shift : ℤ) (maronga : Option ℤ) (n : Vec 3) : Except PyErr (Fin 3) :=
  if Q ≠ 19 ∧ Q ≠ 27 then .error .valueError
  else if shift < 1 then .error .assertion
  else
    let m := maronga.getD 0
    if m ≠ 0 ∧ meanVelocity = false then .error .assertion
    else if m ≠ 0 ∧ m < 1 then .error .assertion
    else if shift ≠ 1 ∧ m ≠ 0 then .error .valueError
    else wfbAxis n

/-- `wall_distance` handed to the wall function (`boundaryconditions.py:681,686`) -/
noncomputable def wfbWallDistance (shift : ℤ) (maronga : Option ℤ) (dy : ℝ) : ℝ :=
  ((if maronga.getD 0 ≠ 0 then maronga.getD 0 else shift : ℤ) : ℝ) - 1 / 2 * dy

/-- `u_m`: magnitude of the tangential velocity (`boundaryconditions.py:675-679`) -/
noncomputable def tangentialSpeed (a : Fin 3) (u : Fin 3 → ℝ) : ℝ :=
  Real.sqrt (∑ i ∈ Finset.univ.erase a, u i ^ 2)

/-- `maronga_fix` (`boundaryconditions.py:662-673`) from the instantaneous and mean velocity of the first cell -/
noncomputable def marongaFix (a : Fin 3) (inst mean : Fin 3 → ℝ) : Option ℝ :=
  realDiv (tangentialSpeed a inst) (tangentialSpeed a mean)

/-- `wall_stress[i]` for a tangential axis (`boundaryconditions.py:690-692`) -/
noncomputable def wallStress (a : Fin 3) (u : Fin 3 → ℝ) (tauW fix : ℝ) (i : Fin 3) : Option ℝ :=
  (realDiv (-u i) (tangentialSpeed a u)).map fun q => q * tauW * fix

/-- `WeightMethod` (`boundaryconditions.py:527-529`) -/
inductive WeightMethod where
  | lattice
  | geometric
  deriving DecidableEq

/-- the solution `(a, b)` of the linear system (`boundaryconditions.py:702-705`) -/
noncomputable def wfbAB : WeightMethod → ℝ × ℝ
  | .lattice => (1 / 3, 1 / 12)
  | .geometric => (Real.sqrt 2 / (2 * Real.sqrt 2 + 4), 1 / (2 * Real.sqrt 2 + 4))

/-- `wfb_weight` (`boundaryconditions.py:694-712`); `s` is the number of non-zero tangential components of the
direction -/
noncomputable def wfbWeight (Q : ℕ) (m : WeightMethod) (s : ℤ) : ℝ :=
  if Q = 19 then 1 / 2
  else if s = 0 then 0
  else if s = 1 then (wfbAB m).1
  else (wfbAB m).2

/-- `drag` (`boundaryconditions.py:714-715`) -/
noncomputable def drag (S : Stencil 3) (a : Fin 3) (m : WeightMethod) (dt dy : ℝ) (stress : Fin 3 → ℝ) (j : Fin S.Q) :
    ℝ :=
  ∑ i ∈ Finset.univ.erase a,
    (S.c j i : ℝ) * (dt / dy * wfbWeight S.Q m (∑ i ∈ Finset.univ.erase a, S.c j i ^ 2)) * stress i

variable {G : Type} [AddCommGroup G] [DecidableEq G]

/-- `WallFunctionBounce.__call__` (`boundaryconditions.py:608-719`) with the wall stress of each link given:
`f_in(inv_dir[dir]) = f_out[c_dir + normal](inv_dir[mirrored[dir]]) - drag`. -/
noncomputable def wfbRule (φ : Vec 3 →+ G) (S : Stencil 3) (n : Vec 3) (m : WeightMethod) (dt dy : ℝ)
    (stress : G → Fin S.Q → Fin 3 → ℝ) : Option (Rule G S.Q ℝ) := do
  let a ← freeSlipAxis n
  let mir ← mirrorTable S a
  let inv ← collect (Indexing.inverseDirIndex S)
  some fun y j fout _ => fout (y + φ (S.c j + n)) (inv (mir j)) - drag S a m dt dy (stress y j) j

/-- The cell, relative to the cell of the link, whose populations are used when no mean velocity is given or for the
Maronga correction (`boundaryconditions.py:616-619,633-636`): the entry of the generated arrays `f_in_inv_offsets_x/y/z`
for the mirrored direction, plus the normal. -/
def pdfSampleOffset {S : Stencil 3} (ix : Indexing S) (mir : Fin S.Q → Fin S.Q) (n : Vec 3) (j : Fin S.Q) :
    Option (Vec 3) := do
  let t ← ix.translated (.inn, true)
  some ((t (mir j)).1 + n)

/-- The cell, relative to the cell of the link, at which the mean velocity field is read
(`boundaryconditions.py:643-655`). -/
def meanSampleOffset (shift : ℤ) (maronga : Option ℤ) (n : Vec 3) : Vec 3 :=
  (if maronga.getD 0 ≠ 0 then maronga.getD 0 else shift) • n

/-- The proxy accesses of the kernel (`boundaryconditions.py:614,717`): `f_in(inv_dir[dir])` and
`f_out[..](inv_dir[mirrored[dir]])`; `dir` is run-time symbol 0, `mirrored[dir]` run-time symbol 1. The offset of the second
one is a run-time expression, which does not influence the generated arrays. -/
def wfbProxies (Q : ℕ) : List (Indexing.Proxy 3 Q) :=
  [⟨.inn, true, .inr 0, 0⟩, ⟨.out, true, .inr 1, 0⟩]

end Lbm.Wall
