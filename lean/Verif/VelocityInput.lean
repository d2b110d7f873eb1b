/-
Model of the options `density_input` and `velocity_input` of `create_lb_collision_rule` (`creationfunctions.py:656-681`): the
conserved quantities in the equilibrium are read from fields. A vector `velocity` has an entry for every axis here (`zip` at line
675 keeps the computed values of missing axes).
-/
import Verif.Macroscopic
import Verif.StencilCtor

namespace Lbm

variable {K : Type} [Field K] {Q D : ℕ}

/-- the conserved quantities that enter the equilibrium (`creationfunctions.py:663-678`); `density` and `velocity` are the values of
the fields in the cell -/
def Cqc.inputs (cq : Cqc K D) (c : Fin Q → Fin D → K) (density : Option K) (velocity : Option (Fin D → K)) :
    Except PyErr ((Fin Q → K) → Macro K D) :=
  match density, velocity with
  | none, none => .ok fun f => cq.equilibriumInput c f
  | none, some u => .ok fun f => { cq.equilibriumInput c f with u := u }
  | some _, none => .error .valueError
  | some rho, some u => .ok fun _ => ⟨rho, rho - cq.rho0, u⟩

end Lbm
