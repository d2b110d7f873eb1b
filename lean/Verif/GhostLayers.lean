import Verif.Stencil
import Verif.StencilCtor
import Mathlib.Data.ZMod.Basic
import Mathlib.Data.Finset.Lattice.Fold

/-!
# Time steps of the phase field models on arrays with ghost layers

Model of the order of kernels, synchronisations and swaps in `PhaseFieldStep.time_step` (`phasefield/phasefieldstep.py:242-256`),
`CahnHilliardFDStep.time_step` (`phasefield/kerneleqs.py:117-120`), `PhaseFieldStepDirect.time_step`
(`phasefield/phasefieldstep_direct.py:162-177`), the loop of `create_model` (`phasefield/nphase_nestler.py:210-234`) and
`LatticeBoltzmannStep.time_step` (`lbstep.py:271-282`).

Arrays have ghost layers around the domain.  From pystencils, which is not part of the repository, are taken: a kernel leaves out as many
layers at the rim of the arrays as it is told, or as its widest access needs; a synchronisation function of a periodic domain copies to all
ghost layers.  What the kernels compute is arbitrary; of each kernel the arrays and offsets it reads and the arrays it writes are
given.  Boundary handling is left out, as is that the synchronisation of `LatticeBoltzmannStep` copies only the populations that the
streaming needs (`lbstep.py:148-149`).
-/

namespace Lbm
namespace GhostLayers

variable {A V : Type} {D : ℕ}

/-- Contents of all arrays, in domain and ghost layers: coordinates of the domain begin at 0. -/
abbrev Arrays (A V : Type) (D : ℕ) : Type := A → Vec D → V

/-- The cell is in the domain or at most `d` layers away from it. -/
def Within (size : Fin D → ℕ) (d : ℕ) (y : Vec D) : Prop := ∀ i, -(d : ℤ) ≤ y i ∧ y i < size i + d

instance (size : Fin D → ℕ) (d : ℕ) (y : Vec D) : Decidable (Within size d y) := by unfold Within; infer_instance

/-- The number of layers an access with this offset needs -/
def layers (o : Vec D) : ℕ := Finset.univ.sup fun i => (o i).natAbs

/-- A kernel: its reading accesses, the arrays it writes in the centre, the argument `ghost_layers`, and the value written to an array
as a function of the values around the cell -/
structure Kernel (A V : Type) (D : ℕ) where
  reads : List (A × Vec D)
  writes : List A
  ghostLayers : Option ℕ
  fn : (A → Vec D → V) → A → V

/-- The number of layers the widest access needs -/
def Kernel.needs (k : Kernel A V D) : ℕ := (k.reads.map fun r => layers r.2).foldr max 0

/-- How far outside of the domain the kernel writes, in arrays with `g` ghost layers -/
def Kernel.extension (g : ℕ) (k : Kernel A V D) : ℕ := g - k.ghostLayers.getD k.needs

/-- One part of a time step -/
inductive Op (A V : Type) (D : ℕ)
  | sync (arrays : List A)
  | kernel (k : Kernel A V D)
  | swap (a b : A)

variable [DecidableEq A]

/-- The kernel in one cell -/
def Kernel.cell (k : Kernel A V D) (st : Arrays A V D) (y : Vec D) : Arrays A V D :=
  fun a z => if a ∈ k.writes ∧ z = y then k.fn (fun b o => st b (y + o)) a else st a z

/-- Synchronisation of periodic ghost layers -/
def syncArrays (size : Fin D → ℕ) (g : ℕ) (arrays : List A) (st : Arrays A V D) : Arrays A V D :=
  fun a y => if a ∈ arrays ∧ Within size g y then st a fun i => y i % size i else st a y

/-- Swap of two arrays -/
def swapArrays (a b : A) (st : A → V) : A → V := fun c => if c = a then st b else if c = b then st a else st c

/-- The order of the cells in each kernel that is executed: at a time, for an extension beyond the domain -/
abbrev Schedule (D : ℕ) : Type := ℕ → ℕ → List (Vec D)

/-- One part of the step; the kernel treats the cells in the given order.  `none` if a kernel has accesses outside of the arrays. -/
def Op.run (size : Fin D → ℕ) (g : ℕ) (order : ℕ → List (Vec D)) (st : Arrays A V D) : Op A V D → Option (Arrays A V D)
  | .sync arrays => some (syncArrays size g arrays st)
  | .kernel k => if k.extension g + k.needs ≤ g then some ((order (k.extension g)).foldl k.cell st) else none
  | .swap a b => some (swapArrays a b st)

/-- A time step, part by part, from time `t` on -/
def runOps (size : Fin D → ℕ) (g : ℕ) (order : Schedule D) : ℕ → List (Op A V D) → Arrays A V D → Option (Arrays A V D)
  | _, [], st => some st
  | t, op :: l, st => (op.run size g (order t) st).bind fun st' => runOps size g order (t + 1) l st'

/-- Several time steps -/
def runSteps (size : Fin D → ℕ) (g : ℕ) (order : Schedule D) (step : List (Op A V D)) :
    ℕ → ℕ → Arrays A V D → Option (Arrays A V D)
  | _, 0, st => some st
  | t, n + 1, st => (runOps size g order t step st).bind fun st' => runSteps size g order step (t + step.length) n st'

/-! ## The programs -/

/-- All offsets of at most `r` cells along each axis -/
def box (D r : ℕ) : List (Vec D) :=
  (allVecs D (2 * r + 1)).map fun v i => v i - r
where
  /-- All vectors with entries from 0 to `n - 1` -/
  allVecs : (D n : ℕ) → List (Vec D)
    | 0, _ => [Fin.elim0]
    | D + 1, n => (allVecs D n).flatMap fun v => (List.range n).map fun k : ℕ => (Fin.cons (k : ℤ) v : Vec (D + 1))

/-- Arrays of the phase field models; those with several values per cell are split into one for each order parameter. -/
inductive Arr
  | phi (i : ℕ) | mu (i : ℕ) | velocity | density | force | pressure
  | hydro | hydroTmp | ch (i : ℕ) | chTmp (i : ℕ) | phiTmp (i : ℕ)
  deriving DecidableEq, Repr

/-- Kernels of the phase field models -/
inductive Krn
  | mu | muPressure | force | collide | stream | streamCollide | getter
  | chCollide (i : ℕ) | chStream (i : ℕ) | chStreamCollide (i : ℕ) | chGetter (i : ℕ) | fd | simplex
  deriving DecidableEq, Repr

section Programs

variable (fns : Krn → (Arr → Vec D → V) → Arr → V)

/-- Accesses to the centre of arrays -/
def centre (l : List Arr) : List (Arr × Vec D) := l.map fun a => (a, 0)

/-- Accesses around the cell -/
def around (r : ℕ) (l : List Arr) : List (Arr × Vec D) := l.flatMap fun a => (box D r).map fun o => (a, o)

/-- The arrays of all order parameters -/
def all (n : ℕ) (f : ℕ → Arr) : List Arr := (List.range n).map f

/-- A kernel of the model -/
def mk (name : Krn) (reads : List (Arr × Vec D)) (writes : List Arr) (ghostLayers : Option ℕ := none) : Op Arr V D :=
  .kernel ⟨reads, writes, ghostLayers, fns name⟩

/-- `LatticeBoltzmannStep.time_step` (`lbstep.py:271-282`) of the flow with `time_step_order='collide_stream'`
(`phasefieldstep.py:136-143`): two kernels (`lbstep.py:128-136`); the second computes the outputs (`updatekernels.py:87-120`). -/
def hydroStep (density : Option ℕ) : List (Op Arr V D) :=
  [mk fns .collide (centre [.hydro, .force]) [.hydro],
   .sync [.hydro],
   mk fns .stream (around 1 [.hydro] ++ centre [.force]) ([.hydroTmp, .velocity] ++ (density.map Arr.phi).toList),
   .swap .hydro .hydroTmp]

/-- `LatticeBoltzmannStep.time_step` (`lbstep.py:271-282`) of one order parameter (`phasefieldstep.py:163-180`) -/
def chStep (i : ℕ) : List (Op Arr V D) :=
  [.sync [.ch i],
   mk fns (.chStreamCollide i) (around 1 [.ch i] ++ centre [.mu i, .velocity]) [.chTmp i, .phi i],
   .swap (.ch i) (.chTmp i)]

/-- `CahnHilliardFDStep.time_step` (`kerneleqs.py:117-120`) -/
def fdStep (n : ℕ) : List (Op Arr V D) :=
  .sync (all n .phi ++ [.velocity] ++ all n .mu) ::
  mk fns .fd (around 1 (all n .phi ++ [.velocity] ++ all n .mu)) (all n .phiTmp) ::
  (List.range n).map fun i => .swap (.phi i) (.phiTmp i)

/-- `PhaseFieldStep.time_step` (`phasefieldstep.py:242-256`) with `n` order parameters; `density` is the index of the order parameter
that is the density, which has no step of its own (lines 164-165), `fd` the choice of the solver (line 154); both together are
refused (lines 155-157). -/
def phaseFieldStep (n : ℕ) (density : Option ℕ) (runHydro fd : Bool) : Except PyErr (List (Op Arr V D)) :=
  if fd && density.isSome then .error .notImplemented else .ok <|
  [.sync (all n .phi),
   mk fns .muPressure (around 1 (all n .phi)) (all n .mu ++ [.pressure]),
   .sync [.pressure],
   mk fns .force (around 1 [.pressure] ++ centre (all n .phi)) [.force]] ++
  (if runHydro then hydroStep fns density else []) ++
  (if fd then fdStep fns n else ((List.range n).filter fun i => decide (some i ≠ density)).flatMap (chStep fns))

/-- `PhaseFieldStepDirect.time_step` (`phasefieldstep_direct.py:162-177`); the first two kernels are told to leave out two layers
(lines 45, 76, 82), those of the lattice Boltzmann methods are not (lines 93-103). -/
def directStep (n : ℕ) : List (Op Arr V D) :=
  [.sync (all n .phi),
   mk fns .mu (around 1 (all n .phi)) (all n .mu) (some 2),
   .sync (all n .mu),
   mk fns .force (around 2 (all n .mu) ++ centre (all n .phi)) [.force] (some 2),
   .sync (.hydro :: all n .ch),
   mk fns .streamCollide (around 1 [.hydro] ++ centre [.force]) [.hydroTmp, .velocity],
   .swap .hydro .hydroTmp] ++
  (List.range n).flatMap fun i =>
    [mk fns (.chStreamCollide i) (around 1 [.ch i] ++ centre [.mu i, .velocity]) [.chTmp i, .phi i],
     .swap (.ch i) (.chTmp i)]

/-- The loop of `create_model` (`nphase_nestler.py:210-234`); kernels are created without `ghost_layers`. -/
def nestlerStep (n : ℕ) (simplexProjection : Bool) : List (Op Arr V D) :=
  [.sync (all n .phi),
   mk fns .mu (around 1 (all n .phi)) (all n .mu),
   .sync (all n .mu),
   mk fns .force (around 2 (all n .mu) ++ centre (all n .phi)) [.force],
   mk fns .collide (centre [.hydro, .force]) [.hydro],
   .sync [.hydro],
   mk fns .stream (around 1 [.hydro]) [.hydroTmp, .density, .velocity],
   .swap .hydro .hydroTmp,
   mk fns .getter (centre [.hydro]) [.density, .velocity]] ++
  ((List.range n).flatMap fun i =>
    [mk fns (.chCollide i) (centre [.ch i, .phi i, .mu i, .velocity]) [.ch i],
     .sync [.ch i],
     mk fns (.chStream i) (around 1 [.ch i]) [.chTmp i],
     .swap (.ch i) (.chTmp i),
     mk fns (.chGetter i) (centre [.ch i]) [.phi i]]) ++
  if simplexProjection then [mk fns .simplex (centre (all n .phi)) (all n .phi)] else []

end Programs

/-- What `run` of `create_model` returns (`nphase_nestler.py:234`): the array without its outermost cells.  Coordinates are those of the
returned array. -/
def returned (g : ℕ) (st : Arrays A V D) (a : A) (y : Vec D) : V := st a fun i => y i + 1 - g

/-- The shape of what `run` returns -/
def returnedShape (size : Fin D → ℕ) (g : ℕ) (i : Fin D) : ℕ := size i + 2 * g - 2

end GhostLayers
end Lbm
