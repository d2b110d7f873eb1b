/-
Model of `add_psm_to_collision_rule` (`partially_saturated_cells.py:42-115`), evaluated: the symbols of the assignments are
replaced by their values in one cell.
-/
import Verif.Macroscopic

namespace Lbm

variable {K : Type} [Field K] [DecidableEq K] {D : ℕ}

/-- `get_equilibrium_terms` (`momentbasedmethod.py:171-174`) with the density, density deviation and velocity symbols replaced
by values. (The collision rule with all rates 1 does not depend on the populations otherwise.) -/
noncomputable def equilibriumAt {P : Type} {Q : ℕ} (m : MomentMethod K P Q) (meqOf : Macro K D → P → K) (x : Macro K D) :
    Except PyErr (Fin Q → K) :=
  ({ m with meq := fun _ => meqOf x } : MomentMethod K P Q).getEquilibrium.map fun r => r 0

/-- `solid_collision` of one particle and one direction (`partially_saturated_cells.py:65-89`). `eps` is the value of the
individual fraction field, `rate0` is `method.relaxation_rates[0]`, `f` the pre-collision populations, `eqF` and `eqS` the
equilibria for the velocity of the fluid and of the particle. -/
def solidCollision (S : Stencil D) (sc : ℤ) (eps rate0 : K) (f eqF eqS : Fin S.Q → K) (i : Fin S.Q) : Except PyErr K :=
  match S.inverseIndex (S.c i) with
  | none => .error .valueError
  | some j =>
    if sc = 1 then .ok (eps * ((f j - eqF j) - (f i - eqS i)))
    else if sc = 2 then .ok (eps * ((eqS i - f i) + (1 - rate0) * (f i - eqF i)))
    else if sc = 3 then .ok (eps * ((f j - eqS j) - (f i - eqS i)))
    else .error .valueError

/-- all directions of one particle: the terms and minus their first moment, which is the force on the particle
(lines 57-91) -/
def particleCollision (S : Stencil D) (sc : ℤ) (eps rate0 : K) (f eqF eqS : Fin S.Q → K) :
    Except PyErr ((Fin S.Q → K) × (Fin D → K)) := do
  let terms ← (List.finRange S.Q).mapM (solidCollision S sc eps rate0 f eqF eqS)
  let t : Fin S.Q → K := fun q => terms.getD q 0
  return (t, fun a => (List.finRange S.Q).foldl (fun F q => F - t q * (S.c q a : K)) 0)

/-- `add_psm_to_collision_rule` (lines 42-115): `base` are the post-collision populations without the solid terms, the result
is the new ones together with the values written to `particle_force_field`. `particles` has for each particle its fraction
and its equilibrium; the equilibria are those of the method for the density of the cell and the velocity in
`object_velocity_field`. -/
def addPsm (S : Stencil D) (sc : ℤ) (rate0 : K) (f eqF base : Fin S.Q → K) (particles : List (K × (Fin S.Q → K))) :
    Except PyErr ((Fin S.Q → K) × List (Fin D → K)) := do
  let parts ← particles.mapM fun p => particleCollision S sc p.1 rate0 f eqF p.2
  let solid : Fin S.Q → K := fun q => parts.foldl (fun s t => s + t.1 q) 0
  return (fun q => base q + solid q, parts.map Prod.snd)

end Lbm
