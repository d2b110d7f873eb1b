/-
Model of `boundaries/boundaries_in_kernel.py`: boundary conditions at the faces of a box, executed inside the update
kernel by the border cells.
-/
import Verif.Indexing

set_option linter.unusedSectionVars false

namespace Lbm.InKernel

variable {D : ℕ} {V : Type}

/-- `direction_indices_in_direction` (`boundaries_in_kernel.py:15-20`): the list of the yielded indices. -/
def dirIndices (S : Stencil D) (d : Vec D) : List (Fin S.Q) :=
  (List.finRange S.Q).filter fun i => ∃ k, (d k = 1 ∧ S.c i k = 1) ∨ (d k = -1 ∧ S.c i k = -1)

/-- `abs_direction` (`boundaries_in_kernel.py:38`). -/
def absDirection (d : Vec D) : Vec D := fun k => if d k < 0 then -d k else d k

/-- The axis of a direction (`boundaries_in_kernel.py:38-40`); `none` is the `AssertionError` (the `ValueError` of
`tuple.index` cannot occur: non-negative entries with sum 1 contain a 1). -/
def axis (d : Vec D) : Option (Fin D) :=
  if ((List.finRange D).map (absDirection d)).sum = 1 then (List.finRange D).find? fun k => absDirection d k = 1
  else none

/-- The condition built by `border_conditions` (`boundaries_in_kernel.py:41-57`) evaluated in the cell with loop
counters `x`, for a direction whose axis is `k`; `shape` is `field.shape` including the ghost layers. -/
def border (d : Vec D) (k : Fin D) (shape : Vec D) (gl : ℤ) (x : Vec D) : Bool :=
  let e := decide (x k = if d k < 0 then gl else shape k - gl - 1)
  if gl = 0 then e
  else e && decide (∀ j, j ≠ k → gl ≤ x j) && decide (∀ j, j ≠ k → x j < shape j - gl)

/-- A boundary condition that can be used inside the kernel: the value it assigns to `f_in(inv_dir[dir])`, from the
post-collision populations of its own cell. (`__call__` of `NoSlip`, `UBB`, `FixedDensity`, `DiffusionDirichlet`.
Rules that read `f_out` of other cells, `f_in`, or index data are not covered: the substitution of
`boundaries_in_kernel.py:73-74` replaces only accesses to the own cell.) -/
abbrev LocalRule (Q : ℕ) (V : Type) := Fin Q → (Fin Q → V) → V

/-- The code generated by `boundary_conditional` (`boundaries_in_kernel.py:60-84`): the condition (direction and axis)
and the assignments, each with the access written and the direction whose rule gives the value. -/
structure Cond (D Q : ℕ) (V : Type) where
  d : Vec D
  k : Fin D
  assigns : List (Access D Q × Fin Q)
  rule : LocalRule Q V

/-- The assignments of `boundary_conditional` (`boundaries_in_kernel.py:68-78`): `f_in(inv_dir[idx])` with an integer
`idx` is resolved by `substitute_proxies` (`indexing.py:117-125`) to the inward access of the inverse direction. -/
def assigns {S : Stencil D} (ix : Indexing S) (dirs : List (Fin S.Q)) : Option (List (Access D S.Q × Fin S.Q)) :=
  dirs.mapM fun i => do
    let j ← Indexing.inverseDirIndex S i
    return (ix.inn j, i)

/-- `boundary_conditional` (`boundaries_in_kernel.py:60-84`), with `cse=False`; `none` is any exception. -/
def conditional (S : Stencil D) (p : String) (prev : Timestep) (e : Vec D × LocalRule S.Q V) :
    Option (Cond D S.Q V) := do
  let ix ← Indexing.make S p prev
  let as ← assigns ix (dirIndices S e.1)
  let k ← axis e.1
  return ⟨e.1, k, as, e.2⟩

/-- The kernel made by `update_rule_with_push_boundaries`. -/
structure Kernel (D Q : ℕ) (V : Type) where
  rd : Fin Q → Access D Q
  wr : Fin Q → Access D Q
  conds : List (Cond D Q V)

/-- `update_rule_with_push_boundaries` (`boundaries_in_kernel.py:87-109`); the split groups of the hints (lines
102-107) only reorder loops and are not modelled. -/
def updateRule (S : Stencil D) (spec : List (Vec D × LocalRule S.Q V)) (p : String) (ts : Timestep) :
    Option (Kernel D S.Q V) := do
  let a ← getAccessor D p ts
  let rd ← a.read S
  let wr ← a.write S
  let cs ← spec.mapM (conditional S p ts)
  return ⟨rd, wr, cs⟩

/-- Absolute position of an access from cell `x` of the array. -/
def at' {Q : ℕ} (x : Vec D) (a : Access D Q) : Vec D × Fin Q := loc (AddMonoidHom.id (Vec D)) x a

/-- Execution of one conditional in cell `x` with post-collision populations `post` (`boundaries_in_kernel.py:80-84`,
`ghost_layers=1`). -/
def Cond.exec {Q : ℕ} (shape x : Vec D) (post : Fin Q → V) (f : Vec D × Fin Q → V) (c : Cond D Q V) :
    Vec D × Fin Q → V :=
  if border c.d c.k shape 1 x then
    c.assigns.foldl (fun f a => Function.update f (at' x a.1) (c.rule a.2 post)) f
  else f

/-- One cell of the kernel: the loads are subexpressions, then the collision, then the stores, then the conditionals
in the order of `boundary_spec` (`boundaries_in_kernel.py:91-100`). All of them work on the one given field. -/
def Kernel.cell {Q : ℕ} (K : Kernel D Q V) (shape : Vec D) (C : Vec D → (Fin Q → V) → Fin Q → V) (x : Vec D)
    (f : Vec D × Fin Q → V) : Vec D × Fin Q → V :=
  let post := C x fun i => f (at' x (K.rd i))
  K.conds.foldl (Cond.exec shape x post)
    ((List.finRange Q).foldl (fun f i => Function.update f (at' x (K.wr i)) (post i)) f)

/-- The loop over the cells. -/
def Kernel.sweep {Q : ℕ} (K : Kernel D Q V) (shape : Vec D) (C : Vec D → (Fin Q → V) → Fin Q → V)
    (cells : List (Vec D)) (f : Vec D × Fin Q → V) : Vec D × Fin Q → V :=
  cells.foldl (fun f x => K.cell shape C x f) f

/-- `n` time steps with the kernels of the alternating timesteps, starting with step 0. -/
def run (S : Stencil D) (spec : List (Vec D × LocalRule S.Q V)) (p : String) (shape : Vec D)
    (C : ℕ → Vec D → (Fin S.Q → V) → Fin S.Q → V) (cells : List (Vec D)) :
    ℕ → (Vec D × Fin S.Q → V) → Option (Vec D × Fin S.Q → V)
  | 0, f => some f
  | n + 1, f => do
    let f ← run S spec p shape C cells n f
    let ts ← stepTimestep p n
    let K ← updateRule S spec p ts
    return K.sweep shape (C n) cells f

end Lbm.InKernel
