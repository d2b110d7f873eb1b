/-
Model of the boundary-handling call protocol (`boundaries/boundaryhandling.py:34-92`) and of the time loop and iterative
initialisation of `LatticeBoltzmannStep` (`lbstep.py:256-432`).

From pystencils three things are used and assumed: `BoundaryHandling.__call__` runs the `kernel` of every boundary object
in turn; `TimeLoop.run(n)` runs the pre-run functions, `n // 2` times all recorded calls, `n % 2` times the single-step
functions, and the post-run functions; `swap` exchanges the two arrays behind two names, `get_kernel_kwargs` and
`add_fixed_steps` record the arrays that are behind the names at that moment, while synchronisation functions look the
array up by name when they are called.
-/
import Verif.Streaming
import Verif.StencilCtor
import Mathlib.Order.Defs.LinearOrder
import Mathlib.Logic.Function.Iterate
import Mathlib.Algebra.Order.Field.Rat

namespace Lbm

/-! ### Boundary handling -/

/-- a compiled boundary kernel: acts on the state, may raise -/
abbrev BKernel (S : Type) := S → Except PyErr S

/-- entry of `_boundary_object_to_boundary_info`: one kernel, or the list of two kernels of
`InplaceStreamingBoundaryInfo` -/
inductive BoundaryInfo (S : Type) where
  | single (k : BKernel S)
  | inplace (kernels : List (BKernel S))

/-- `LatticeBoltzmannBoundaryHandling`: `_prev_timestep` and the boundaries of the index lists in iteration order -/
structure BHandling (S : Type) where
  prevTimestep : Option Timestep
  infos : List (BoundaryInfo S)

/-- enum value of a `Timestep` used as list index (`utility.py:18-21`) -/
def Timestep.value : Timestep → ℕ
  | .even => 0
  | .odd => 1
  | .both => 2

/-- property `kernel` (`boundaryhandling.py:78-85`; the attribute of pystencils' info class otherwise) -/
def BoundaryInfo.kernel {S : Type} (i : BoundaryInfo S) (prev : Option Timestep) : Except PyErr (BKernel S) :=
  match i with
  | .single k => .ok k
  | .inplace ks =>
    match prev with
    | none => .error .exception
    | some t =>
      match ks[t.value]? with
      | some k => .ok k
      | none => .error .indexError

/-- `BoundaryHandling.__call__` of pystencils: state after the kernels run so far, and the exception if one is raised -/
def runBoundaries {S : Type} (prev : Option Timestep) : List (BoundaryInfo S) → S → S × Option PyErr
  | [], s => (s, none)
  | i :: is, s =>
    match i.kernel prev with
    | .error e => (s, some e)
    | .ok k =>
      match k s with
      | .error e => (s, some e)
      | .ok s' => runBoundaries prev is s'

/-- `__call__` (`boundaryhandling.py:36-39`): on an exception the last line is not executed -/
def BHandling.call {S : Type} (h : BHandling S) (t : Timestep) (s : S) : BHandling S × S × Option PyErr :=
  match runBoundaries (some t) h.infos s with
  | (s', none) => ({ h with prevTimestep := none }, s', none)
  | (s', some e) => ({ h with prevTimestep := some t }, s', some e)

/-- `_add_inplace_boundary` (`boundaryhandling.py:53-66`) of a boundary not present yet: the kernels for previous time
step even and odd, in this order -/
def inplaceInfo {S : Type} (create : Timestep → BKernel S) : BoundaryInfo S := .inplace [create .even, create .odd]

/-- `_add_boundary` (`boundaryhandling.py:47-51`) -/
def addBoundary {S : Type} (inplace : Bool) (create : Timestep → BKernel S) : BoundaryInfo S :=
  if inplace then inplaceInfo create else .single (create .both)

/-- `add_fixed_steps` (`boundaryhandling.py:41-45`) -/
def addFixedSteps {S : Type} (inplace : Bool) (calls : List S) (new : List S) : Except PyErr (List S) :=
  if inplace then .error .notImplemented else .ok (calls ++ new)

/-! ### Time loop -/

/-- two arrays and the name table: `src` is the index of the array named `pdfSrc`, the other one is `pdfTmp` -/
structure Arrays (B : Type) where
  src : Bool
  buf : Bool → B

/-- assign one of the two arrays -/
def Arrays.set {B : Type} (a : Arrays B) (i : Bool) (b : B) : Arrays B :=
  { a with buf := fun j => if j = i then b else a.buf j }

/-- `swap` -/
def Arrays.swap {B : Type} (a : Arrays B) : Arrays B := { a with src := !a.src }

/-- `_lbmKernels` (`lbstep.py:121-137`); a kernel with two arrays gives their new contents -/
inductive LbKernels (B : Type) where
  | streamCollide (k : B → B → B × B)
  | collideStream (collide : B → B) (stream : B → B → B × B)

/-- what a step consists of -/
structure LbStep (B M : Type) where
  kernels : LbKernels B
  /-- synchronisation of ghost layers of one array -/
  sync : B → B
  /-- boundary handling on one array -/
  bnd : B → B
  /-- `_getterKernel`: macroscopic arrays from the populations -/
  getter : B → M → M

variable {B M : Type}

/-- a recorded call with the array it was recorded for, or `_sync_src`/`_sync_tmp` -/
inductive LoopCall where
  | collide (i : Bool)
  | stream (i : Bool)
  | bnd (i : Bool)
  | syncSrc
  | syncTmp

/-- run a kernel with source array `i` and the other array as destination -/
def runOn (k : B → B → B × B) (i : Bool) (a : Arrays B) : Arrays B :=
  let r := k (a.buf i) (a.buf !i)
  (a.set i r.1).set (!i) r.2

/-- the kernel with two arrays -/
def LbStep.main (s : LbStep B M) : B → B → B × B :=
  match s.kernels with
  | .streamCollide k => k
  | .collideStream _ k => k

/-- execute a recorded call -/
def LbStep.exec (s : LbStep B M) (c : LoopCall) (a : Arrays B) : Arrays B :=
  match c with
  | .collide i =>
    match s.kernels with
    | .streamCollide _ => a
    | .collideStream k _ => a.set i (k (a.buf i))
  | .stream i => runOn s.main i a
  | .bnd i => a.set i (s.bnd (a.buf i))
  | .syncSrc => a.set a.src (s.sync (a.buf a.src))
  | .syncTmp => a.set (!a.src) (s.sync (a.buf !a.src))

/-- `time_step` (`lbstep.py:271-282`): arrays are looked up by name -/
def LbStep.timeStep (s : LbStep B M) (a : Arrays B) : Arrays B :=
  let a := match s.kernels with
    | .collideStream collide _ => a.set a.src (collide (a.buf a.src))
    | .streamCollide _ => a
  let a := a.set a.src (s.sync (a.buf a.src))
  let a := a.set a.src (s.bnd (a.buf a.src))
  let a := runOn s.main a.src a
  a.swap

/-- `get_time_loop` (`lbstep.py:284-309`): recorded calls and the name table afterwards, from the name table -/
def LbStep.record (s : LbStep B M) (src : Bool) : List LoopCall × Bool :=
  let one := fun (t : ℕ) (src : Bool) =>
    (match s.kernels with
      | .collideStream _ _ => [LoopCall.collide src]
      | .streamCollide _ => []) ++
    [if t = 0 then .syncSrc else .syncTmp, .bnd src, .stream src]
  (one 0 src ++ one 1 (!src), !(!src))

/-- data: arrays on CPU and GPU, macroscopic arrays on both, `time_steps_run` -/
structure World (B M : Type) where
  cpu : Arrays B
  gpu : Arrays B
  mac : M
  macGpu : M
  steps : ℕ

/-- arrays the kernels work on -/
def World.dev (gpu : Bool) (w : World B M) : Arrays B := if gpu then w.gpu else w.cpu

/-- apply to the arrays the kernels work on -/
def World.onDev (gpu : Bool) (f : Arrays B → Arrays B) (w : World B M) : World B M :=
  if gpu then { w with gpu := f w.gpu } else { w with cpu := f w.cpu }

/-- `pre_run` (`lbstep.py:260-266`); the macroscopic arrays have a GPU copy if `macOnGpu` -/
def preRun (gpu macOnGpu : Bool) (w : World B M) : World B M :=
  if gpu then
    let w := { w with gpu := w.gpu.set w.gpu.src (w.cpu.buf w.cpu.src) }
    if macOnGpu then { w with macGpu := w.mac } else w
  else w

/-- `post_run` (`lbstep.py:311-314`) -/
def LbStep.postRun (s : LbStep B M) (gpu : Bool) (w : World B M) : World B M :=
  let w := if gpu then { w with cpu := w.cpu.set w.cpu.src (w.gpu.buf w.gpu.src) } else w
  { w with mac := s.getter (w.cpu.buf w.cpu.src) w.mac }

/-- `run` (`lbstep.py:316-319`) with pystencils' `TimeLoop.run` -/
def LbStep.run (s : LbStep B M) (gpu macOnGpu : Bool) (n : ℕ) (w : World B M) : World B M :=
  let w := preRun gpu macOnGpu w
  let (calls, names) := s.record (w.dev gpu).src
  let w := w.onDev gpu fun a => { a with src := names }
  let w := preRun gpu macOnGpu w
  let w := w.onDev gpu fun a => (fun a => calls.foldl (fun a c => s.exec c a) a)^[n / 2] a
  let w := w.onDev gpu (s.timeStep^[n % 2])
  let w := s.postRun gpu w
  { w with steps := w.steps + (2 * (n / 2) + n % 2) }

/-- `run_old` (`lbstep.py:321-327`): `time_step` repeated -/
def LbStep.runOld (s : LbStep B M) (gpu macOnGpu : Bool) (n : ℕ) (w : World B M) : World B M :=
  let w := preRun gpu macOnGpu w
  let w := w.onDev gpu (s.timeStep^[n])
  let w := s.postRun gpu w
  { w with steps := w.steps + n }

/-! ### Iterative initialisation -/

/-- what `run_iterative_initialization` uses: one step of the initialisation kernel (synchronisation, boundaries,
kernel, swap), the velocity of the populations, and the residuum (`none` is NaN) -/
structure IterInit (P V K : Type) where
  step : P → P
  velocity : P → V
  residuum : V → V → Option K

/-- `global_residuum < convergence_threshold`; comparisons with NaN are false -/
def below {K : Type} [LT K] [DecidableLT K] (r : Option K) (thr : K) : Bool :=
  match r with
  | some r => decide (r < thr)
  | none => false

/-- the loop over outer iterations (`lbstep.py:407-421`): populations, velocity, last residuum (outer `none`: no
iteration yet), steps -/
def initLoop {P V K : Type} [LT K] [DecidableLT K] (m : IterInit P V K) (thr : K) (check : ℕ) (backup : V) :
    ℕ → P → V → Option (Option K) → ℕ → P × V × Option (Option K) × ℕ
  | 0, p, v, r, n => (p, v, r, n)
  | k + 1, p, _, _, n =>
    let p := m.step^[check] p
    let v := m.velocity p
    let r := m.residuum backup v
    if r.isNone || below r thr then (p, v, some r, n + check)
    else initLoop m thr check backup k p v (some r) (n + check)

/-- `run_iterative_initialization` (`lbstep.py:349-432`): final populations and velocity, and the result or exception -/
def iterativeInit {P V K : Type} [LT K] [DecidableLT K] (m : IterInit P V K) (thr : K) (maxSteps check : ℕ) (p : P) (v : V) :
    P × V × Except PyErr (Option K × ℕ) :=
  if check = 0 then (p, v, .error .exception)
  else
    let (p', v', r, n) := initLoop m thr check v (maxSteps / check) p v none 0
    match r with
    | none => (p', v', .error .assertion)
    | some r => if below r thr then (p', v', .ok (r, n)) else (p', v, .error .valueError)

/-- `np.average(np.abs(..))` of a block, given the velocity differences -/
def blockAverage (b : List ℚ) : ℚ := (b.map abs).sum / b.length

/-- `compute_residuum` on one process (`lbstep.py:393-396`): the variable is overwritten by every block -/
def processResiduum (blocks : List (List ℚ)) : ℚ := blocks.foldl (fun _ b => blockAverage b) 0

/-- `compute_residuum` (`lbstep.py:393-398`) over all processes; `reduce_float_sequence` sums `[residuum, 1.0]` -/
def computeResiduum (procs : List (List (List ℚ))) : ℚ :=
  (procs.map processResiduum).sum / (procs.map fun _ => (1 : ℚ)).sum

end Lbm
