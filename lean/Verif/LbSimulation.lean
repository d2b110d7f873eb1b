import Verif.Boundary
import Verif.Sweep

/-!
# A simulation with `LatticeBoltzmannStep`

Model of `LatticeBoltzmannStep.time_step` (`lbstep.py:271-282`) on arrays with one ghost layer (`lbstep.py:43-50`): the two orders of
the parts of a time step (`lbstep.py:124-137`), the synchronisation of ghost layers of the periodic axes, the boundary handling,
which is always the one for the pattern `'pull'` (`lbstep.py:153-156`, `boundaryhandling.py:22-23`), the kernel and the swap.

From pystencils are taken: the kernel loops over all cells of the domain, whatever their flags, in some order; the synchronisation
function (an argument here, the contract is `SyncOk` in the property file); the list of links of a boundary (an argument).  The
boundary conditions are those of `Verif/Boundary.lean`.
-/

namespace Lbm
namespace Simulation

variable {D : ℕ} {V : Type}

/-- Populations in an array with ghost layers; coordinates of the domain begin at 0. -/
abbrev Pdfs (D Q : ℕ) (V : Type) : Type := Vec D × Fin Q → V

/-- the argument `time_step_order` (`lbstep.py:124,128`) -/
inductive Order
  | streamCollide | collideStream
  deriving DecidableEq, Repr

/-- What a time step consists of -/
structure Step (S : Stencil D) (V : Type) where
  /-- the cells of the domain in the order of the loops -/
  cells : List (Vec D)
  /-- `_sync_src` (`lbstep.py:148-149`) -/
  sync : Pdfs D S.Q V → Pdfs D S.Q V
  /-- boundary conditions and their index list -/
  rule : Rule (Vec D) S.Q V
  links : List (Vec D × Fin S.Q)
  /-- the collision -/
  collide : Vec D → (Fin S.Q → V) → Fin S.Q → V

/-- `time_step` (`lbstep.py:271-282`) on the arrays named `pdfSrc` and `pdfTmp`, the swap included.  `pattern` is the streaming
pattern of the configuration, which only the fused kernel uses (`creationfunctions.py:620-635`). -/
def Step.timeStep {S : Stencil D} (p : Step S V) (pattern : String) (o : Order) (s : Pdfs D S.Q V × Pdfs D S.Q V) :
    Option (Pdfs D S.Q V × Pdfs D S.Q V) :=
  match o with
  | .collideStream => do
    let s ← kernelStep (.id _) S collideOnly p.collide p.cells s
    let f ← boundaryHook (.id _) S "pull" p.rule p.links 0 (p.sync s.1)
    kernelStep (.id _) S pull (fun _ f => f) p.cells (f, s.2)
  | .streamCollide => do
    let f ← boundaryHook (.id _) S "pull" p.rule p.links 0 (p.sync s.1)
    let a ← getAccessor D pattern .both
    kernelStep (.id _) S a p.collide p.cells (f, s.2)

/-- `run_old` (`lbstep.py:321-327`) without the transfers; `run` is the same (C41) -/
def Step.steps {S : Stencil D} (p : Step S V) (pattern : String) (o : Order) :
    ℕ → Pdfs D S.Q V × Pdfs D S.Q V → Option (Pdfs D S.Q V × Pdfs D S.Q V)
  | 0, s => some s
  | n + 1, s => do p.timeStep pattern o (← p.steps pattern o n s)

end Simulation
end Lbm
