/-
Model of the boundary rules of `boundaries/boundaryconditions.py`.
-/
import Verif.Boundary
import Mathlib.Algebra.Field.Basic
import Mathlib.Algebra.BigOperators.Group.Finset.Basic
import Mathlib.Data.Rat.Cast.Defs

set_option linter.unusedSectionVars false

namespace Lbm

variable {D : ℕ} {G V : Type} [AddCommGroup G] [DecidableEq G]

/-! ### Free slip -/

/-- `MirroredStencilDirections.mirror_stencil` (`custom_code_nodes.py:37-43`), for an existing axis. -/
def mirror (a : Fin D) (v : Vec D) : Vec D := Function.update v a (-v a)

/-- `FreeSlip.__init__` with a normal direction (`boundaryconditions.py:375-393`): exactly one non-zero entry, entries
in {-1, 0, 1}; returns `mirror_axis`. `none` stands for the `ValueError` / failed assertion. -/
def freeSlipAxis (n : Vec D) : Option (Fin D) :=
  match (List.finRange D).filter fun i => n i ≠ 0 with
  | [a] => if n a = 1 ∨ n a = -1 then some a else none
  | _ => none

/-- The table `MirroredStencilDirections` generates (`custom_code_nodes.py:50-56`): for each direction the index of its
mirror image; fails when one is missing. -/
def mirrorTable (S : Stencil D) (a : Fin D) : Option (Fin S.Q → Fin S.Q) :=
  collect fun j => S.index (mirror a (S.c j))

/-- `FreeSlip.__call__` with a normal direction (`boundaryconditions.py:468-483`):
`f_in(inv_dir[dir]) = f_out[c_dir + normal](inv_dir[mirrored[dir]])`. -/
def freeSlipFixed (φ : Vec D →+ G) (S : Stencil D) (n : Vec D) : Option (Rule G S.Q V) := do
  let a ← freeSlipAxis n
  let mir ← mirrorTable S a
  let inv ← collect (Indexing.inverseDirIndex S)
  some fun y j fout _ => fout (y + φ (S.c j + n)) (inv (mir j))

/-- `boundary_cells` of `FreeSlip.init_callback` (`boundaryconditions.py:410-417`). -/
def freeSlipBoundaryCells (φ : Vec D →+ G) (S : Stencil D) (links : List (G × Fin S.Q)) : List G :=
  links.map fun l => l.1 + φ (S.c l.2)

/-- The loop over dimensions in `FreeSlip.init_callback` (`boundaryconditions.py:422-433`): `normal_direction` and
`ref_direction` after visiting the given axes. -/
def freeSlipLoop (φ : Vec D →+ G) (boundary : List G) (x : G) (d : Vec D) (axes : List (Fin D)) : Vec D × Vec D :=
  axes.foldl (fun s i =>
    if x + φ (Pi.single i (d i)) ∈ boundary then (Function.update s.1 i (d i), mirror i s.2) else s) (0, d)

/-- The index data `(wnx, wny, wnz)` and `ref_dir` of a link (`boundaryconditions.py:419-443`); `none` stands for the
`ValueError` of `stencil.index`. -/
def freeSlipData (φ : Vec D →+ G) (S : Stencil D) (boundary : List G) (x : G) (j : Fin S.Q) :
    Option (Vec D × Fin S.Q) := do
  let s := freeSlipLoop φ boundary x (S.c j) (List.finRange D)
  if s.1 = 0 then
    let r ← S.index s.2
    some (-S.c j, r)
  else
    let r ← S.index (-s.2)
    some (-s.1, r)

/-- `FreeSlip` without a normal direction (`boundaryconditions.py:399-443` and `473-483`):
`f_in(inv_dir[dir]) = f_out[c_dir + (wnx, wny, wnz)](ref_dir)`. The callback fails when a reflected direction is not in
the stencil; otherwise the `getD` default is never used for an entry of the index list. -/
def freeSlipAuto (φ : Vec D →+ G) (S : Stencil D) (links : List (G × Fin S.Q)) : Option (Rule G S.Q V) :=
  let data := freeSlipData φ S (freeSlipBoundaryCells φ S links)
  if links.all fun l => (data l.1 l.2).isSome then
    some fun y j fout _ =>
      let e := (data y j).getD (0, j)
      fout (y + φ (S.c j + e.1)) e.2
  else none

/-! ### Interpolated bounce back -/

section field
variable {K : Type} [Field K]

/-- `NoSlipLinearBouzidi.__call__`, right hand side (`boundaryconditions.py:202-208`), from `f_xf = f_out(dir)`,
`f_xf_inv = f_out(inv_dir[dir])`, `d_x2f = f_in(dir)`. -/
def bouzidi [LinearOrder K] (q fxf fxfInv dx2f : K) : K :=
  if 1 / 2 ≤ q then (1 / 2 * (fxf + fxfInv * (2 * q - 1))) / q
  else if 0 < q ∧ q < 1 / 2 then 2 * q * fxf + (1 - 2 * q) * dx2f
  else fxf

/-- `NoSlipLinearBouzidi` as a rule with wall distances `q` per link (`boundaryconditions.py:188-219`). -/
def bouzidiRule [LinearOrder K] {Q : ℕ} (inv : Fin Q → Fin Q) (q : G → Fin Q → K) : Rule G Q K :=
  fun y j fout fin => bouzidi (q y j) (fout y j) (fout y (inv j)) (fin y j)

/-- `QuadraticBounceBack.__call__`, right hand side (`boundaryconditions.py:340-345`); `feq` is the sum of the
equilibria of the direction and its reverse. -/
def quadraticBounceBack (q ω feq fxf fxfInv : K) : K :=
  let t1 := fxf - fxfInv + (fxf + fxfInv - feq * ω) / (1 - ω)
  let t2 := (q * (fxf + fxfInv)) / (1 + q)
  (1 - q) / (1 + q) * t1 * (1 / 2) + t2

/-! ### Velocity bounce back, pressure and concentration boundaries, outflow -/

/-- `UBB.__call__`, `vel_term` (`boundaryconditions.py:812-816`); `c_s^2 = 1/3`. -/
def ubbVelTerm {S : Stencil D} (w : Fin S.Q → K) (u : Fin D → K) (j : Fin S.Q) : K :=
  2 / (1 / 3) * (∑ k, (S.c j k : K) * u k) * w j

/-- The density factor of `UBB.__call__` (`boundaryconditions.py:821-838`): nothing for incompressible methods, the
given density if it is set and non-zero (python truthiness), else the density computed from the populations of the
cell. `bg` is the background density of the storage (`0` for absolute storage). -/
def ubbDensity {Q : ℕ} [DecidableEq K] (compressible : Bool) (density : Option K) (bg : K) (f : Fin Q → K) : K :=
  if compressible then
    match density with
    | some d => if d ≠ 0 then d else ∑ i, f i + bg
    | none => ∑ i, f i + bg
  else 1

/-- `UBB.__call__` (`boundaryconditions.py:794-838`), wall velocity `u` of each link. -/
def ubbRule {S : Stencil D} [DecidableEq K] (w : Fin S.Q → K) (compressible : Bool) (density : Option K) (bg : K)
    (u : G → Fin S.Q → Fin D → K) : Rule G S.Q K :=
  fun y j fout _ => fout y j - ubbVelTerm w (u y j) j * ubbDensity compressible density bg (fout y)

/-- `SimpleExtrapolationOutflow.__call__` (`boundaryconditions.py:884-888`):
`f_in(inv_dir[dir]) = f_out[c_dir - normal](inv_dir[dir])`. -/
def simpleOutflowRule (φ : Vec D →+ G) {S : Stencil D} (n : Vec D) (inv : Fin S.Q → Fin S.Q) : Rule G S.Q V :=
  fun y j fout _ => fout (y + φ (S.c j - n)) (inv j)

/-- `FixedDensity.__call__` (`boundaryconditions.py:1064-1096`): `eqSym y i` is the part of the equilibrium even in the
velocity, evaluated with the prescribed density and the velocity of the cell's populations. -/
def fixedDensityRule {Q : ℕ} (eqSym : (Fin Q → K) → Fin Q → K) : Rule G Q K :=
  fun y j fout _ => 2 * eqSym (fout y) j - fout y j

/-- `DiffusionDirichlet.__call__` (`boundaryconditions.py:1159-1181`); `cs = 1/3` is what the code uses where the
formula has the speed of sound. -/
def diffusionDirichletRule {S : Stencil D} (w : Fin S.Q → K) (conc : G → Fin S.Q → K) (u : Option (G → Fin D → K)) :
    Rule G S.Q K :=
  fun y j fout _ =>
    let eq := match u with
      | some u => 1 + (∑ k, (S.c j k : K) * u y k) ^ 2 / (2 * (1 / 3) ^ 4) - (∑ k, u y k * u y k) / (2 * (1 / 3) ^ 2)
      | none => 1
    2 * w j * conc y j * eq - fout y j

/-- The index data of one `ExtrapolationOutflow` link: the fields `pdf` and `pdf_nd`
(`boundaryconditions.py:993-996`). -/
structure OutflowData (K : Type) where
  /-- population of the domain cell recorded in the previous step -/
  pdf : K
  /-- value used at the boundary in the previous step -/
  nd : K

/-- `pdf_inter` of `ExtrapolationOutflow.__call__` (`boundaryconditions.py:1024-1026`); `θ` is `c * dt/dx`. -/
def outflowInter (θ : K) (d : OutflowData K) : K := d.pdf * θ + (1 - θ) * d.nd

/-- Kernel of `ExtrapolationOutflow` (`boundaryconditions.py:1016-1038`): like `linkKernel`; each entry carries its own
index data, and the three assignments `f_in(inv_dir[dir]) = pdf_inter`, `pdf = f_out[c_dir - normal](inv_dir[dir])`,
`pdf_nd = pdf_inter` are executed in this order. -/
def outflowKernel (φ : Vec D →+ G) {S : Stencil D} (ix : Indexing S) (θ : K) (n : Vec D) :
    List ((G × Fin S.Q) × OutflowData K) → (G × Fin S.Q → K) →
      Option ((G × Fin S.Q → K) × List ((G × Fin S.Q) × OutflowData K))
  | [], f => some (f, [])
  | ((y, j), d) :: links, f => do
    let j' ← Indexing.inverseDirIndex S j
    let f1 := Function.update f (loc φ y (ix.inn j')) (outflowInter θ d)
    let r ← outflowKernel φ ix θ n links f1
    some (r.1, ((y, j), ⟨f1 (loc φ (y + φ (S.c j - n)) (ix.out j')), outflowInter θ d⟩) :: r.2)

end field

end Lbm
