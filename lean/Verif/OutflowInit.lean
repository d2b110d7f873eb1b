/-
Model of the initial data of `ExtrapolationOutflow` (`boundaries/boundaryconditions.py:919-991`).
-/
import Verif.BoundaryRules
import Verif.Macroscopic

namespace Lbm

variable {D : ℕ} {G : Type} [AddCommGroup G] [DecidableEq G]

/-- an argument that may be a constant or a callback taking the coordinates of a boundary cell
(`boundaryconditions.py:909-912`) -/
inductive InitArg (G X : Type) where
  | const (x : X)
  | callback (f : G → X)

/-- `arg(*b_cell) if callable(arg) else arg` (`boundaryconditions.py:973-976`) -/
def InitArg.at {X : Type} : InitArg G X → G → X
  | .const x, _ => x
  | .callback f, y => f y

/-- python's truth value of a number, a tuple or a function, as used in line 951 -/
def InitArg.truthy {X : Type} (nonzero : X → Bool) : InitArg G X → Bool
  | .const x => nonzero x
  | .callback _ => true

section equilibrium
variable {K : Type} [Field K] [DecidableEq K]

/-- what decides about the arguments of `eq_lambda` besides the method -/
structure EqSymbols where
  /-- the equilibrium is a `DiscreteHydrodynamicMaxwellian` -/
  discrete : Bool
  /-- its order in the velocity -/
  order : Option ℕ

/-- number of velocity symbols in `first_order_equilibrium_moment_symbols`: the continuous Maxwellian keeps the first `D`
of its three symbols (`continuous_hydro_maxwellian.py:88`), the discrete one hands all of them to its base class
(`discrete_hydro_maxwellian.py:60,86`) -/
def EqSymbols.arity (s : EqSymbols) (D : ℕ) : ℕ := if s.discrete then 3 else D

/-- `calc_eq_pdfs` without the selection of the direction (`boundaryconditions.py:952-959`): the populations
`get_equilibrium` computes, as a function of the symbol of the zeroth order moment of the equilibrium (the density, or the
deviation of the density for a delta equilibrium) and the symbols of the velocity. A wrong number of arguments is a
`TypeError`. A compressible delta equilibrium of order at least 1 contains both density symbols; the density itself is not
among the arguments, calling the function is a `NameError`. -/
noncomputable def calcEq {P : Type} {Q : ℕ} (m : MomentMethod K P Q) (meqOf : Macro K D → P → K) (cq : Cqc K D)
    (s : EqSymbols) (density : K) (velocity : List K) : Except PyErr (Fin Q → K) :=
  if velocity.length ≠ s.arity D then .error .typeError
  else if m.deviationOnly && cq.compressible && s.order.getD 4 ≠ 0 then .error .exception
  else
    let u : Fin D → K := fun a => velocity.getD a 0
    let x : Macro K D :=
      if m.deviationOnly then ⟨cq.rho0 + density, density, u⟩ else ⟨density, density - cq.rho0, u⟩
    ({ m with meq := fun _ => meqOf x } : MomentMethod K P Q).getEquilibrium.map fun r => r 0

/-- `equilibrium_calculation` (`boundaryconditions.py:949-961`) together with the evaluation of the two arguments in a
boundary cell (`boundaryconditions.py:971-977`); `none` if it is not set -/
noncomputable def equilibriumCalculation {P : Type} {Q : ℕ} (m : MomentMethod K P Q) (meqOf : Macro K D → P → K)
    (cq : Cqc K D) (s : EqSymbols) (density : Option (InitArg G K)) (velocity : Option (InitArg G (List K))) :
    Option (G → Except PyErr (Fin Q → K)) :=
  match density, velocity with
  | some d, some v =>
    if d.truthy (fun x => decide (x ≠ 0)) && v.truthy (fun l => decide (l ≠ [])) then
      some fun y => calcEq m meqOf cq s (d.at y) (v.at y)
    else none
  | _, _ => none

end equilibrium

section callback
variable {K : Type} {S : Stencil D}

/-- the loop over the index array in `init_callback` (`boundaryconditions.py:981-991`); `wr` are the accesses of
`pdf_acc`, `n` is the normal direction -/
def outflowInitLoop (φ : Vec D →+ G) (wr : Fin S.Q → Access D S.Q) (n : Vec D)
    (eq : Option (G → Except PyErr (Fin S.Q → K))) (f : G × Fin S.Q → K) :
    List (G × Fin S.Q) → Except PyErr (List ((G × Fin S.Q) × OutflowData K))
  | [] => .ok []
  | (y, j) :: links => do
    let j' ← match Indexing.inverseDirIndex S j with
      | some j' => .ok j'
      | none => .error .valueError
    let pdf := f (loc φ (y + φ (S.c j - n)) (wr j'))
    let nd ← match eq with
      | some e => (e (y + φ (S.c j))).map fun g => g j'
      | none => .ok pdf
    let rest ← outflowInitLoop φ wr n eq f links
    .ok (((y, j), ⟨pdf, nd⟩) :: rest)

/-- `init_callback` (`boundaryconditions.py:964-991`) with `zeroth_timestep = ts`: `AccessPdfValues` for the direction
`'out'` fails like `get_accessor` -/
def outflowInit (φ : Vec D →+ G) (S : Stencil D) (p : String) (ts : Timestep) (n : Vec D)
    (eq : Option (G → Except PyErr (Fin S.Q → K))) (f : G × Fin S.Q → K) (links : List (G × Fin S.Q)) :
    Except PyErr (List ((G × Fin S.Q) × OutflowData K)) :=
  match (getAccessor D p ts).bind fun a => a.write S with
  | some wr => outflowInitLoop φ wr n eq f links
  | none => .error .valueError

end callback

end Lbm
