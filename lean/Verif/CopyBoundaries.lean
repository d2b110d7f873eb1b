/-
Model of the two boundary conditions that also write populations of the boundary node itself: `NeumannByCopy` and
`StreamInConstant` (`boundaries/boundaryconditions.py`).
-/
import Verif.Boundary

set_option linter.unusedSectionVars false

namespace Lbm
namespace CopyBoundaries

variable {D : ℕ} {G V : Type} [AddCommGroup G] [DecidableEq G]

/-- Right-hand side of an assignment of the two conditions: a function of the cell, the link direction `dir_symbol`, its inverse
`inv_dir[dir_symbol]` and the proxy `f_out`. -/
abbrev Rhs (G : Type) (Q : ℕ) (V : Type) := G → Fin Q → Fin Q → (G → Fin Q → V) → V

/-- The two assignments of a link: to `f_in(inv_dir[dir_symbol])` and to `f_out[neighbour_offset](dir_symbol)`, in this order. -/
structure Pair (G : Type) (Q : ℕ) (V : Type) where
  toIn : Rhs G Q V
  toNeighbour : Rhs G Q V

/-- `NeumannByCopy.__call__` (`boundaryconditions.py:1202-1205`). -/
def neumannByCopy {Q : ℕ} : Pair G Q V := ⟨fun y _ j' fout => fout y j', fun y j _ fout => fout y j⟩

/-- `StreamInConstant.__call__` (`boundaryconditions.py:1235-1238`). -/
def streamInConstant {Q : ℕ} (constant : V) : Pair G Q V := ⟨fun _ _ _ _ => constant, fun _ _ _ _ => constant⟩

/-- The kernel of `create_lattice_boltzmann_boundary_kernel` (`boundaryhandling.py:151-199`) for a pair of assignments: one loop
iteration per entry `(cell, dir)` of the index list on the same array. A proxy access with offset becomes the resolved access shifted by
the offset (`indexing.py:126-130`), `neighbour_offset` being the stencil velocity (`custom_code_nodes.py:11-16`). -/
def pairKernel (φ : Vec D →+ G) {S : Stencil D} (ix : Indexing S) (P : Pair G S.Q V) :
    List (G × Fin S.Q) → (G × Fin S.Q → V) → Option (G × Fin S.Q → V)
  | [], f => some f
  | (y, j) :: links, f => do
    let j' ← Indexing.inverseDirIndex S j
    let f1 := Function.update f (loc φ y (ix.inn j')) (P.toIn y j j' fun x i => f (loc φ x (ix.out i)))
    let f2 := Function.update f1 (loc φ (y + φ (S.c j)) (ix.out j)) (P.toNeighbour y j j' fun x i => f1 (loc φ x (ix.out i)))
    pairKernel φ ix P links f2

/-- The boundary handling call between step `t` and `t+1` (`boundaryhandling.py:36-39, 67-72`). -/
def pairHook (φ : Vec D →+ G) (S : Stencil D) (p : String) (P : Pair G S.Q V) (links : List (G × Fin S.Q)) (t : ℕ)
    (f : G × Fin S.Q → V) : Option (G × Fin S.Q → V) := do
  let ts ← stepTimestep p t
  let ix ← Indexing.make S p ts
  pairKernel φ ix P links f

end CopyBoundaries
end Lbm
