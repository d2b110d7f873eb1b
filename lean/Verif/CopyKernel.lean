/-
Model of `create_copy_kernel` (`updatekernels.py:123-140`).
-/
import Verif.Streaming

namespace Lbm
namespace CopyKernel

variable {D : ℕ} {G V : Type} [AddCommGroup G] [DecidableEq G]

/-- One cell of the kernel of `create_copy_kernel` (`updatekernels.py:137-140`): the temporaries are read at the *write* accesses of
the source (line 138), then stored at the write accesses of the destination (line 139). -/
def copyCell (φ : Vec D →+ G) {Q : ℕ} (wr : Fin Q → Access D Q) (x : G) (src dst : G × Fin Q → V) : G × Fin Q → V :=
  let copied : Fin Q → V := fun i => src (loc φ x (wr i))
  (List.finRange Q).foldl (fun f i => Function.update f (loc φ x (wr i)) (copied i)) dst

/-- The kernel of `create_copy_kernel` (`updatekernels.py:123-140`) run over `cells` with two arrays; `none` is an exception of the
accessor. -/
def copyKernel (φ : Vec D →+ G) (S : Stencil D) (a : Accessor D) (cells : List G) (src dst : G × Fin S.Q → V) :
    Option (G × Fin S.Q → V) := do
  let wr ← a.write S
  return cells.foldl (fun d x => copyCell φ wr x src d) dst

/-- The same kernel with one array for both fields. -/
def copyKernelSame (φ : Vec D →+ G) (S : Stencil D) (a : Accessor D) (cells : List G) (f : G × Fin S.Q → V) :
    Option (G × Fin S.Q → V) := do
  let wr ← a.write S
  return cells.foldl (fun d x => copyCell φ wr x d d) f

end CopyKernel
end Lbm
