/-
Model of the iterative initialisation of velocity fields: `create_advanced_velocity_setter_collision_rule`
(`macroscopic_value_kernels.py:245-282`) and `LatticeBoltzmannStep.run_iterative_initialization`
(`lbstep.py:349-432`).
-/
import Verif.Macroscopic
import Mathlib.Data.Real.Basic

namespace Lbm
namespace IterativeInit

open Matrix

/-! ### The collision rule -/

section Rule
variable {K P : Type} [Field K] [DecidableEq K] [DecidableEq P] {Q D : ℕ}

/-- `eq_input` (`macroscopic_value_kernels.py:263-273`): the density is that of the populations, the velocity is read
from the field and shifted by `macroscopic_velocity_shift` in `equilibrium_input_equations_from_init_values`
(`conservedquantitycomputation.py:251-272`). The shift divides by the reference density. In a compressible method that is
the symbol `rho`, which both merged collections define: by the populations in one, by `density=1` in the other. What
pystencils makes of the clash is not modelled, the value used is the argument `shiftDensity`. -/
def input (cq : Cqc K D) (c : Fin Q → Fin D → K) (shiftDensity : K) (velocity : Fin D → K) (f : Fin Q → K) :
    Macro K D :=
  let x := cq.equilibriumInput c f
  let offset : Fin D → K := match cq.force with
    | some (_, F) => defaultVelocityShift (cq.reference shiftDensity) F
    | none => fun _ => 0
  ⟨x.rho, x.deltaRho, fun a => velocity a - offset a⟩

/-- What the force model reads in the new rule: the velocity symbols now have the values of `input`. -/
def forceInput (M : Matrix (Fin Q) (Fin Q) K) (c : Fin Q → Fin D → K) (w rates : Fin Q → K) (cq : Cqc K D)
    (shiftDensity : K) (velocity : Fin D → K) (eq : K → (Fin D → K) → Fin Q → K)
    (heRaw : K → (Fin D → K) → Fin Q → K) (F : Fin D → K) (f : Fin Q → K) : ForceInput K Q D :=
  let x := input cq c shiftDensity velocity f
  { c := c, w := w, M := M, rates := rates, rho := x.rho, u := x.u, compressible := cq.compressible, eq := eq,
    heRaw := heRaw x.rho x.u, F := F }

/-- The parts of a method the rule is derived from, besides its moments and rates. -/
structure Parts (K P : Type) (Q D : ℕ) where
  cq : Cqc K D
  c : Fin Q → Fin D → K
  w : Fin Q → K
  /-- equilibrium moments as functions of the conserved quantities -/
  meqOf : Macro K D → P → K
  eq : K → (Fin D → K) → Fin Q → K
  heRaw : K → (Fin D → K) → Fin Q → K
  heEq : (Fin Q → K) → Fin Q → K
  shiftDensity : K

/-- `create_advanced_velocity_setter_collision_rule` (`macroscopic_value_kernels.py:245-282`) for one cell with
prescribed velocity `velocity`; `xs` are the first `dim` moment symbols. The simplification strategy (line 279) does not
change values (C84). -/
noncomputable def rule (p : Parts K P Q D) (m : MomentMethod K P Q) (xs : List P) (ω : K) (velocity : Fin D → K) :
    Except PyErr ((Fin Q → K) → Fin Q → K) := do
  let m' ← m.setFirstRate xs ω
  if h : m'.relax.length = Q then
    ({ m' with
        meq := fun f => p.meqOf (input p.cq p.c p.shiftDensity velocity f)
        force := p.cq.force.map fun kF => kF.1.terms
          (forceInput (m'.matrix h) p.c p.w (m'.effectiveRates none) p.cq p.shiftDensity velocity p.eq p.heRaw kF.2)
          p.heEq } : MomentMethod K P Q).getCollisionRule
  else .error .valueError

/-- One step of the loop (`lbstep.py:412-417`) on a periodic domain: the cells form a finite group, `shift q` is the
position of the neighbour in direction `q`. The kernel streams by pulling, then collides. Boundaries are left out. -/
def step {G : Type} [AddCommGroup G] (shift : Fin Q → G) (r : G → (Fin Q → K) → Fin Q → K) (f : G → Fin Q → K) :
    G → Fin Q → K :=
  fun x => r x fun q => f (x - shift q) q

end Rule

/-! ### The loop -/

/-- exceptions of `run_iterative_initialization` -/
inductive Err
  | zeroDivision
  | assertion
  | valueError
  deriving DecidableEq, Repr

/-- What the loop works on: populations, the velocity and density arrays, the backup of the velocity, and the rate the
cached kernel was made for (`_velocity_init_kernel`, `lbstep.py:174,403`). -/
structure World (S V ρ ω : Type) where
  pdfs : S
  velocity : V
  density : ρ
  backup : V
  kernel : Option ω

/-- the kernels and the residuum; a residuum of `none` is NaN -/
structure Ops (S V ρ ω R : Type) where
  /-- `lbstep.py:412-417` with the kernel of the given rate and prescribed velocity -/
  advance : ω → V → S → S
  readVelocity : S → V
  readDensity : S → ρ
  /-- `compute_residuum` (`lbstep.py:396-401`) of the prescribed and the computed velocity -/
  residuum : V → V → Option R

section Loop
variable {S V ρ ω R : Type} [LT R] [DecidableLT R]

/-- `residuum < convergence_threshold`, false for NaN -/
def below (threshold : R) : Option R → Bool
  | some r => decide (r < threshold)
  | none => false

/-- the loop `for outer_iteration in range(outer_iterations)` (`lbstep.py:410-424`) with `check` steps per round; returns
the last residuum, the number of steps and the arrays -/
def outer (o : Ops S V ρ ω R) (rate : ω) (check : ℕ) (threshold : R) :
    ℕ → Option (Option R) → ℕ → World S V ρ ω → Option (Option R) × ℕ × World S V ρ ω
  | 0, res, steps, w => (res, steps, w)
  | n + 1, _, steps, w =>
    let s := (o.advance rate w.backup)^[check] w.pdfs
    let w' := { w with pdfs := s, velocity := o.readVelocity s, density := o.readDensity s }
    let res := o.residuum w'.backup w'.velocity
    if res.isNone || below threshold res then (some res, steps + check, w')
    else outer o rate check threshold n (some res) (steps + check) w'

/-- `run_iterative_initialization` (`lbstep.py:349-432`). -/
def run (o : Ops S V ρ ω R) (rate : ω) (threshold : R) (maxSteps check : ℤ) (w : World S V ρ ω) :
    Except Err (R × ℕ) × World S V ρ ω :=
  -- lines 403-404: the kernel is made on the first call only
  let rate' := w.kernel.getD rate
  let w := { w with kernel := some rate' }
  -- line 406
  let w := { w with backup := w.velocity }
  if check = 0 then (.error .zeroDivision, w)
  else
    let r := outer o rate' check.toNat threshold (maxSteps.fdiv check).toNat none 0 w
    match r.1 with
    | none => (.error .assertion, r.2.2)
    | some res =>
      if below threshold res then
        match res with
        | some x => (.ok (x, r.2.1), r.2.2)
        | none => (.error .valueError, r.2.2)
      else (.error .valueError, { r.2.2 with velocity := r.2.2.backup })

end Loop

/-! ### The residuum -/

/-- `np.average(np.abs(a - b))` of one block given as its list of values -/
noncomputable def blockAverage (b : List (ℝ × ℝ)) : ℝ := (b.map fun p => |p.1 - p.2|).sum / b.length

/-- the loop over the blocks of one process (`lbstep.py:397-399`): every block replaces the value of the one before -/
noncomputable def processResiduum (blocks : List (List (ℝ × ℝ))) : ℝ :=
  blocks.foldl (fun _ b => blockAverage b) 0

/-- `compute_residuum` (`lbstep.py:396-401`): the average over the processes -/
noncomputable def residuum (processes : List (List (List (ℝ × ℝ)))) : ℝ :=
  (processes.map processResiduum).sum / (processes.map fun _ => (1 : ℝ)).sum

end IterativeInit
end Lbm
