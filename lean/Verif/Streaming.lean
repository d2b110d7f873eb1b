/-
Model of the population addressing of lbmpy: `fieldaccess.py`, `advanced_streaming/utility.py`, and of the
kernels built from it, `updatekernels.py`.
-/
import Verif.Stencil
import Verif.StencilTables
import Mathlib.Logic.Function.Basic
import Mathlib.Algebra.Group.Hom.Defs

namespace Lbm

variable {D : ℕ}

/-- A relative field access `field[offset](index)` (pystencils `Field.Access`, used throughout `fieldaccess.py`). -/
abbrev Access (D Q : ℕ) := Vec D × Fin Q

/-- A python list comprehension over all `Q` directions whose body may raise: it is defined only if every
body evaluation is. -/
def collect {Q : ℕ} {α : Type} (f : Fin Q → Option α) : Option (Fin Q → α) :=
  if h : ∀ i, (f i).isSome then some fun i => (f i).get (h i) else none

/-- What an accessor object offers (`fieldaccess.py:22-48`): `read`, `write` (one access per direction; `none` = an
exception is raised), `is_inplace`. -/
structure Accessor (D : ℕ) where
  read : (S : Stencil D) → Option (Fin S.Q → Access D S.Q)
  write : (S : Stencil D) → Option (Fin S.Q → Access D S.Q)
  isInplace : Bool

/-- `tuple(max(e, 0) for e in d)` (`fieldaccess.py:165,169,177,181`). -/
def posPart (d : Vec D) : Vec D := fun k => max (d k) 0

/-- `CollideOnlyInplaceAccessor` (`fieldaccess.py:54-63`). -/
def collideOnly : Accessor D where
  read _ := collect fun i => some (0, i)
  write _ := collect fun i => some (0, i)
  isInplace := true

/-- `StreamPullTwoFieldsAccessor` (`fieldaccess.py:66-75`). -/
def pull : Accessor D where
  read S := collect fun i => some (-S.c i, i)
  write _ := collect fun i => some (0, i)
  isInplace := false

/-- `StreamPushTwoFieldsAccessor` (`fieldaccess.py:78-87`). -/
def push : Accessor D where
  read _ := collect fun i => some (0, i)
  write S := collect fun i => some (S.c i, i)
  isInplace := false

/-- `AAEvenTimeStepAccessor` (`fieldaccess.py:136-145`). -/
def aaEven : Accessor D where
  read _ := collect fun i => some (0, i)
  write S := collect fun i => do return (0, ← S.inverseIndex (S.c i))
  isInplace := true

/-- `AAOddTimeStepAccessor` (`fieldaccess.py:148-157`). -/
def aaOdd : Accessor D where
  read S := collect fun i => do return (-S.c i, ← S.inverseIndex (S.c i))
  write S := collect fun i => some (S.c i, i)
  isInplace := true

/-- `EsoTwistEvenTimeStepAccessor` (`fieldaccess.py:160-169`). -/
def esoTwistEven : Accessor D where
  read S := collect fun i => some (fun k => max (-(S.c i k)) 0, i)
  write S := collect fun i => do return (posPart (S.c i), ← S.inverseIndex (S.c i))
  isInplace := true

/-- `EsoTwistOddTimeStepAccessor` (`fieldaccess.py:172-181`). -/
def esoTwistOdd : Accessor D where
  read S := collect fun i => do return (posPart (-S.c i), ← S.inverseIndex (S.c i))
  write S := collect fun i => some (posPart (S.c i), i)
  isInplace := true

/-- `_get_lehmann_stencil` (`fieldaccess.py:371-388`). For other sizes the python function constructs a
`ValueError` without raising it and returns `None`; the callers then fail with an `AttributeError` on
`None.index`. Both are `none` here. -/
def lehmannStencil (S : Stencil D) : Option (List (List ℤ)) :=
  if S.Q = 9 then some Tables.D2Q9_lehmann
  else if S.Q = 15 then some Tables.D3Q15_lehmann
  else if S.Q = 19 then some Tables.D3Q19_lehmann
  else if S.Q = 27 then some Tables.D3Q27_lehmann
  else none

/-- `lehmann_stencil.index(d) % 2 == 0` (`fieldaccess.py:195` and seven more places).  `none`: either there is no
such stencil, or `index` fails (assertion on the dimension, or `ValueError` of `tuple.index`). -/
def lehmannEven (S : Stencil D) (d : Vec D) : Option Bool := do
  let l ← lehmannStencil S
  let k ← l.findIdx? (fun e => e = List.ofFn d)
  return k % 2 == 0

/-- The common shape of the eight esoteric pull/push accesses (`fieldaccess.py:184-316`): position 0 is
`field.center` (offset 0, index 0); the others choose by the parity of the position in Lehmann's ordering. -/
def esoAccess (S : Stencil D) (evenCase oddCase : Fin S.Q → Option (Access D S.Q)) :
    Option (Fin S.Q → Access D S.Q) :=
  collect fun i =>
    if i.val = 0 then some (0, i)
    else do if ← lehmannEven S (S.c i) then evenCase i else oddCase i

/-- `EsoPullEvenTimeStepAccessor` (`fieldaccess.py:184-214`). -/
def esoPullEven : Accessor D where
  read S := esoAccess S (fun i => some (-S.c i, i)) (fun i => some (0, i))
  write S := esoAccess S (fun i => do return (0, ← S.inverseIndex (S.c i)))
    (fun i => do return (S.c i, ← S.inverseIndex (S.c i)))
  isInplace := true

/-- `EsoPullOddTimeStepAccessor` (`fieldaccess.py:217-247`). -/
def esoPullOdd : Accessor D where
  read S := esoAccess S (fun i => do return (-S.c i, ← S.inverseIndex (S.c i)))
    (fun i => do return (0, ← S.inverseIndex (S.c i)))
  write S := esoAccess S (fun i => some (0, i)) (fun i => some (S.c i, i))
  isInplace := true

/-- `EsoPushEvenTimeStepAccessor` (`fieldaccess.py:250-281`). -/
def esoPushEven : Accessor D where
  read S := esoAccess S (fun i => do return (0, ← S.inverseIndex (S.c i)))
    (fun i => do return (-S.c i, ← S.inverseIndex (S.c i)))
  write S := esoAccess S (fun i => some (S.c i, i)) (fun i => some (0, i))
  isInplace := true

/-- `EsoPushOddTimeStepAccessor` (`fieldaccess.py:284-316`). -/
def esoPushOdd : Accessor D where
  read S := esoAccess S (fun i => some (0, i)) (fun i => some (-S.c i, i))
  write S := esoAccess S (fun i => do return (S.c i, ← S.inverseIndex (S.c i)))
    (fun i => do return (0, ← S.inverseIndex (S.c i)))
  isInplace := true

/-- `Timestep` (`advanced_streaming/utility.py:18-21`). -/
inductive Timestep | even | odd | both
  deriving DecidableEq, Repr

/-- `Timestep.next` (`utility.py:23-24`). -/
def Timestep.next : Timestep → Timestep
  | .both => .both
  | .even => .odd
  | .odd => .even

/-- `Timestep.idx` (`utility.py:26-29`): the enum value modulo 2. -/
def Timestep.idx : Timestep → ℕ
  | .even => 0 % 2
  | .odd => 1 % 2
  | .both => 2 % 2

/-- `streaming_patterns` (`utility.py:40`). -/
def streamingPatterns : List String := ["push", "pull", "aa", "esotwist", "esopull", "esopush"]

/-- `is_inplace` (`utility.py:61-65`); `none` is the `ValueError`. -/
def isInplace (p : String) : Option Bool :=
  if p ∉ streamingPatterns then none
  else some (p ∈ ["aa", "esotwist", "esopull", "esopush"])

/-- `even_accessors` (`utility.py:42-49`); `none` is a missing key. -/
def evenAccessors (D : ℕ) : List (String × Accessor D) :=
  [("pull", pull), ("push", push), ("aa", aaEven), ("esotwist", esoTwistEven),
   ("esopull", esoPullEven), ("esopush", esoPushEven)]

/-- `odd_accessors` (`utility.py:51-58`). -/
def oddAccessors (D : ℕ) : List (String × Accessor D) :=
  [("pull", pull), ("push", push), ("aa", aaOdd), ("esotwist", esoTwistOdd),
   ("esopull", esoPullOdd), ("esopush", esoPushOdd)]

/-- `get_accessor` (`utility.py:68-79`); `none` is the `ValueError`. -/
def getAccessor (D : ℕ) (p : String) (t : Timestep) : Option (Accessor D) := do
  if p ∉ streamingPatterns then none
  else if (← isInplace p) ∧ t = .both then none
  else if t = .even then (evenAccessors D).lookup p
  else (oddAccessors D).lookup p

/-- `get_timesteps` (`utility.py:82-83`). -/
def getTimesteps (p : String) : Option (List Timestep) := do
  if ← isInplace p then return [.even, .odd] else return [.both]

/-! ### Kernels -/

/-- The timestep of the `t`-th step of a run that alternates the timesteps of `get_timesteps`
(the usage of `Timestep.next` prescribed by `utility.py:23`): starts with the first of them. -/
def stepTimestep (p : String) (t : ℕ) : Option Timestep := do
  let ts ← getTimesteps p
  ts[t % ts.length]?

section kernel
variable {G V : Type} [AddCommGroup G] [DecidableEq G] {Q : ℕ}

/-- Absolute position of a relative access made from cell `x`. Cells form an arbitrary additive group `G`
with `φ` embedding lattice vectors: `G = ℤ^D, φ = id` is the plain array, `G` a torus a periodic one. -/
def loc (φ : Vec D →+ G) (x : G) (a : Access D Q) : G × Fin Q := (x + φ a.1, a.2)

/-- One cell of a kernel made by `create_lbm_kernel` (`updatekernels.py:13-58`) with source array `src`, target
array `dst`: pre-collision symbols are substituted by the read accesses, post-collision symbols by the write
accesses, the main assignments are executed in direction order.  -/
def cellUpdate (φ : Vec D →+ G) (rd wr : Fin Q → Access D Q) (C : G → (Fin Q → V) → Fin Q → V)
    (x : G) (src dst : G × Fin Q → V) : G × Fin Q → V :=
  let out := C x fun i => src (loc φ x (rd i))
  (List.finRange Q).foldl (fun f i => Function.update f (loc φ x (wr i)) (out i)) dst

/-- The loop over `cells` of a two-array kernel (`updatekernels.py:35-44`). -/
def sweepTwo (φ : Vec D →+ G) (rd wr : Fin Q → Access D Q) (C : G → (Fin Q → V) → Fin Q → V)
    (cells : List G) (src dst : G × Fin Q → V) : G × Fin Q → V :=
  cells.foldl (fun d x => cellUpdate φ rd wr C x src d) dst

/-- The loop over `cells` of an in-place kernel: `dst_field = src_field` and all reads of a cell are isolated into
temporaries before its writes (`updatekernels.py:28-29,54-56`). -/
def sweepInplace (φ : Vec D →+ G) (rd wr : Fin Q → Access D Q) (C : G → (Fin Q → V) → Fin Q → V)
    (cells : List G) (f : G × Fin Q → V) : G × Fin Q → V :=
  cells.foldl (fun f x => cellUpdate φ rd wr C x f f) f

/-- One time step on the pair (current array, other array): in-place kernels work on the current array; two-array
kernels write the other one and the arrays are swapped afterwards (`lbstep.py:271-282`). -/
def kernelStep (φ : Vec D →+ G) (S : Stencil D) (a : Accessor D) (C : G → (Fin S.Q → V) → Fin S.Q → V)
    (cells : List G) (s : (G × Fin S.Q → V) × (G × Fin S.Q → V)) :
    Option ((G × Fin S.Q → V) × (G × Fin S.Q → V)) := do
  let rd ← a.read S
  let wr ← a.write S
  if a.isInplace then return (sweepInplace φ rd wr C cells s.1, s.2)
  else return (sweepTwo φ rd wr C cells s.1 s.2, s.1)

/-- A run of `n` steps starting with step number 0. `C t` is the collision operator of step `t`, `hook t` anything
executed between step `t` and step `t+1` on the current array (boundary handling, periodic copies), `none` being an
exception. (`lbstep.py:271-282` runs boundary handling before the kernel: that is this run with the hook also applied
once to the initial array.) -/
def run (φ : Vec D →+ G) (S : Stencil D) (p : String) (C : ℕ → G → (Fin S.Q → V) → Fin S.Q → V)
    (hook : ℕ → (G × Fin S.Q → V) → Option (G × Fin S.Q → V)) (cells : List G) :
    ℕ → (G × Fin S.Q → V) × (G × Fin S.Q → V) → Option ((G × Fin S.Q → V) × (G × Fin S.Q → V))
  | 0, s => some s
  | n + 1, s => do
    let s ← run φ S p C hook cells n s
    let ts ← stepTimestep p n
    let a ← getAccessor D p ts
    let s' ← kernelStep φ S a (C n) cells s
    return (← hook n s'.1, s'.2)

/-- The populations the kernel of step `t` would read in cell `x` from array `f`: `AccessPdfValues` with
`streaming_dir = 'in'` (`utility.py:98-131`). -/
def readPops (φ : Vec D →+ G) (S : Stencil D) (p : String) (t : ℕ) (f : G × Fin S.Q → V) :
    Option (G → Fin S.Q → V) := do
  let ts ← stepTimestep p t
  let a ← getAccessor D p ts
  let rd ← a.read S
  return fun x i => f (loc φ x (rd i))

/-- The post-collision populations of cell `x` stored by the kernel of step `t` in array `f`: `AccessPdfValues` with
`streaming_dir = 'out'` (`utility.py:98-131`). -/
def writtenPops (φ : Vec D →+ G) (S : Stencil D) (p : String) (t : ℕ) (f : G × Fin S.Q → V) :
    Option (G → Fin S.Q → V) := do
  let ts ← stepTimestep p t
  let a ← getAccessor D p ts
  let wr ← a.write S
  return fun x i => f (loc φ x (wr i))

end kernel

end Lbm
