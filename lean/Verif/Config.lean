/-
Model of the configuration of a lattice Boltzmann method: `LBMConfig.__post_init__`, `update_with_default_parameters`, and the decisions of
`create_lb_method`, `create_lb_collision_rule` and `create_lb_update_rule` (`creationfunctions.py`).
-/
import Verif.StencilCtor
import Verif.Streaming
import Verif.ForceModels

namespace Lbm
namespace Config

/-- `Method` (`enums.py:42-133`) -/
inductive Method
  | srt | trt | mrtRaw | mrt | centralMoment | kbcN1 | kbcN2 | kbcN3 | kbcN4 | cumulant | monomialCumulant
  deriving DecidableEq, Repr

/-- the names of the members -/
def Method.name : Method → String
  | .srt => "SRT" | .trt => "TRT" | .mrtRaw => "MRT_RAW" | .mrt => "MRT" | .centralMoment => "CENTRAL_MOMENT"
  | .kbcN1 => "TRT_KBC_N1" | .kbcN2 => "TRT_KBC_N2" | .kbcN3 => "TRT_KBC_N3" | .kbcN4 => "TRT_KBC_N4"
  | .cumulant => "CUMULANT" | .monomialCumulant => "MONOMIAL_CUMULANT"

def Method.all : List Method :=
  [.srt, .trt, .mrtRaw, .mrt, .centralMoment, .kbcN1, .kbcN2, .kbcN3, .kbcN4, .cumulant, .monomialCumulant]

/-- the four KBC methods -/
def Method.isKbc (m : Method) : Bool := m ∈ [.kbcN1, .kbcN2, .kbcN3, .kbcN4]

/-- the two cumulant methods -/
def Method.isCumulant (m : Method) : Bool := m ∈ [.monomialCumulant, .cumulant]

/-- `CollisionSpace` (`enums.py:136-163`) -/
inductive Space | populations | rawMoments | centralMoments | cumulants
  deriving DecidableEq, Repr

/-- `CollisionSpace.compatible` (`enums.py:165-175`) -/
def Space.compatible (s : Space) (m : Method) : Bool :=
  m ∈ (match s with
    | .populations => [.srt, .trt, .mrtRaw, .mrt, .kbcN1, .kbcN2, .kbcN3, .kbcN4]
    | .rawMoments => [.srt, .trt, .mrtRaw, .mrt]
    | .centralMoments => [.centralMoment]
    | .cumulants => [.monomialCumulant, .cumulant] : List Method)

/-- the members of `ForceModel` (`enums.py:178-223`) -/
inductive ForceName | simple | luo | guo | buick | silva | edm | kupershtokh | he | shanChen | centralMoment
  deriving DecidableEq, Repr

/-- `force_model_dict` (`creationfunctions.py:456-468`). The entry `'schiller'` has no member of the enumeration. -/
def ForceName.kind : ForceName → ForceKind
  | .simple => .simple | .luo => .luo | .guo => .guo | .buick => .buick | .silva => .buick | .edm => .edm | .kupershtokh => .edm
  | .he => .he | .shanChen => .shanChen | .centralMoment => .centralMoment

/-- upper-case names of the members -/
def forceNames : List (String × ForceName) :=
  [("SIMPLE", .simple), ("LUO", .luo), ("GUO", .guo), ("BUICK", .buick), ("SILVA", .silva), ("EDM", .edm), ("KUPERSHTOKH", .kupershtokh),
   ("HE", .he), ("SHANCHEN", .shanChen), ("CENTRALMOMENT", .centralMoment)]

/-- the parameter `force_model`: `None`, a member, a string (given in upper case, see `ForceModel[self.force_model.upper()]`,
`creationfunctions.py:474`), or an object, which carries its force -/
inductive ForceArg (K : Type)
  | none
  | member (n : ForceName)
  | str (upper : String)
  | object (k : ForceKind) (force : List K)
  deriving DecidableEq, Repr

/-- the parameter `kernel_type` -/
inductive KernelType
  | defaultStreamCollide | collideOnly | streamPullOnly
  | streamPullCollide | collideStreamPush | aaEven | aaOdd | esotwistEven | esotwistOdd
  | accessor
  | other
  deriving DecidableEq, Repr

/-- `kernel_type_to_streaming_pattern` (`creationfunctions.py:429-436`) -/
def KernelType.legacy : KernelType → Option (String × Timestep)
  | .streamPullCollide => some ("pull", .both)
  | .collideStreamPush => some ("push", .both)
  | .aaEven => some ("aa", .even)
  | .aaOdd => some ("aa", .odd)
  | .esotwistEven => some ("esotwist", .even)
  | .esotwistOdd => some ("esotwist", .odd)
  | _ => none

/-- The parameters of `LBMConfig` (`creationfunctions.py:101-345`) that `__post_init__` looks at, with a stencil given as an `LBStencil`
(`StencilCtor` is about its construction). Fields and dictionaries are represented by whether they are given; `fraction` is the symbol
`psm_config.fraction_field.center`. Not here: deprecated strings for methods (see `methodArg`) and `maxwellian_moments`. -/
structure Params (K : Type) where
  D : ℕ := 2
  Q : ℕ := 9
  method : Method := .srt
  rates : Option (List K) := none
  rate : Option K := none
  compressible : Bool := false
  zeroCentered : Bool := true
  delta : Option Bool := none
  forceModel : ForceArg K := .none
  force : List K
  space : Option Space := none
  entropic : Bool := false
  fluctuating : Bool := false
  fraction : Option K := none
  velocityInput : Bool := false
  densityInput : Bool := false
  conservedMoments : Bool := true
  kernelType : KernelType := .defaultStreamCollide
  pattern : String := "pull"
  timestep : Timestep := .both
  deriving DecidableEq

/-- `Method[self.method.upper()]` (`creationfunctions.py:348-351`) on the upper-case string -/
def methodArg (upper : String) : Except PyErr Method :=
  match Method.all.find? fun m => m.name == upper with
  | some m => .ok m
  | none => .error .keyError

section
variable {K : Type} [Field K] [DecidableEq K]

/-- `creationfunctions.py:361-373`; `omega` is `sp.Symbol("omega")`, `magic` is `relaxation_rate_from_magic_number` -/
def setRates (omega : K) (magic : K → K) (p : Params K) : Params K :=
  let p := match p.rates, p.rate with
    | none, none => { p with rate := some omega }
    | _, _ => p
  match p.rate with
  | none => p
  | some ω => if p.method = .trt ∨ p.method.isKbc then { p with rates := some [ω, magic ω] } else { p with rates := some [ω] }

/-- `creationfunctions.py:375-398` -/
def setDelta (p : Params K) : Except PyErr (Params K) :=
  if ¬ p.compressible ∧ p.method.isCumulant then .error .valueError
  else if p.zeroCentered ∧ p.entropic then .error .valueError
  else
    match p.delta with
    | some true => if ¬ p.zeroCentered then .error .valueError else if p.method.isCumulant then .error .valueError else .ok p
    | some false => .ok p
    | none =>
      if p.zeroCentered then .ok { p with delta := some (! (p.method = .centralMoment ∨ p.method.isCumulant : Bool)) }
      else .ok { p with delta := some false }

/-- `creationfunctions.py:400-426` -/
def setSpace (p : Params K) : Except PyErr (Params K) :=
  match p.space with
  | some s =>
    if (p.entropic ∨ p.fluctuating) ∧ s ≠ .populations then .error .valueError
    else if ¬ s.compatible p.method then .error .valueError
    else .ok p
  | none =>
    if p.method = .srt ∨ p.method = .trt ∨ p.method.isKbc then .ok { p with space := some .populations }
    else if p.entropic ∨ p.fluctuating then .ok { p with space := some .populations }
    else if p.method = .mrtRaw ∨ p.method = .mrt then .ok { p with space := some .rawMoments }
    else if p.method = .centralMoment then .ok { p with space := some .centralMoments }
    else if p.method.isCumulant then .ok { p with space := some .cumulants }
    else .error .exception

/-- `creationfunctions.py:438-440` -/
def setKernel (p : Params K) : Params K :=
  match p.kernelType.legacy with
  | some (s, t) => { p with pattern := s, timestep := t, kernelType := .defaultStreamCollide }
  | none => p

/-- `creationfunctions.py:445-454`: the default force model -/
def defaultForceModel (p : Params K) : Params K :=
  if p.forceModel = .none ∧ p.force.any (· ≠ 0) then
    { p with forceModel := .object (if p.method = .cumulant then .centralMoment else .guo) (p.force.take p.D) }
  else p

/-- `creationfunctions.py:470-471`: the force in partially saturated cells -/
def scaleForce (p : Params K) : Params K :=
  match p.fraction with
  | some b => { p with force := p.force.map fun f => (1 - b) * f }
  | none => p

/-- `creationfunctions.py:473-481` -/
def createForceModel (p : Params K) : Except PyErr (Params K) :=
  match p.forceModel with
  | .str s =>
    match forceNames.lookup s with
    | some n => .ok { p with forceModel := .object n.kind (p.force.take p.D) }
    | none => .error .keyError
  | .member n => .ok { p with forceModel := .object n.kind (p.force.take p.D) }
  | _ => .ok p

/-- `creationfunctions.py:483-484` -/
def setConserved (p : Params K) : Params K :=
  if p.densityInput ∨ p.velocityInput then { p with conservedMoments := false } else p

/-- `LBMConfig(**params)`: the generated `__init__` followed by `__post_init__` (`creationfunctions.py:347-484`) -/
def make (omega : K) (magic : K → K) (p : Params K) : Except PyErr (Params K) :=
  match setDelta (setRates omega magic p) with
  | .error e => .error e
  | .ok p =>
    match setSpace p with
    | .error e => .error e
    | .ok p =>
      match createForceModel (scaleForce (defaultForceModel (setKernel p))) with
      | .error e => .error e
      | .ok p => .ok (setConserved p)

/-- `replace(lbm_config, **params)` in `update_with_default_parameters` (`creationfunctions.py:963-969`): `dataclasses.replace` constructs
a new object from all parameters of the old one, with the changes, and runs `__post_init__` again. Every `create_*` function does so
first. -/
def update (omega : K) (magic : K → K) (p : Params K) (change : Params K → Params K) : Except PyErr (Params K) :=
  make omega magic (change p)

/-! ### The creation functions -/

/-- the constructor chosen by `create_lb_method`, with the relaxation rates passed to it -/
inductive Chosen (K : Type)
  | srt (ω : K) | trt (even odd : K) | mrt (rates : List K) | centralMoment (rates : List K) | mrtRaw (rates : List K)
  | kbc (dim nr : ℕ) (a b : K) | cumulant (rates : List K) | cumulantFourthOrder | monomialCumulant (rates : List K)
  deriving DecidableEq, Repr

/-- number of a KBC method: `lbm_config.method.name[-1]` -/
def Method.kbcNumber : Method → ℕ
  | .kbcN1 => 1 | .kbcN2 => 2 | .kbcN3 => 3 | .kbcN4 => 4 | _ => 0

/-- the decisions of `create_lb_method` (`creationfunctions.py:773-868`) on a configuration that `make` has returned -/
def createMethod (fourthOrder : Bool) (p : Params K) : Except PyErr (Chosen K) :=
  match p.rates with
  | none => .error .typeError
  | some r =>
    match p.method with
    | .srt => match r with | ω :: _ => .ok (.srt ω) | [] => .error .assertion
    | .trt => match r with | a :: b :: _ => .ok (.trt a b) | _ => .error .assertion
    | .mrt => .ok (.mrt r)
    | .centralMoment => .ok (.centralMoment r)
    | .mrtRaw => .ok (.mrtRaw r)
    | .cumulant =>
      if fourthOrder then
        if p.D ≠ 3 ∧ p.Q ≠ 27 then .error .valueError
        else if 2 < r.length then .error .assertion
        else .ok .cumulantFourthOrder
      else .ok (.cumulant r)
    | .monomialCumulant => .ok (.monomialCumulant r)
    | m =>
      if p.D = 2 ∧ p.Q = 9 ∨ p.D = 3 ∧ p.Q = 27 then
        match r with | a :: b :: _ => .ok (.kbc p.D m.kbcNumber a b) | _ => .error .indexError
      else .error .notImplemented

/-- what `create_lb_collision_rule` adds to the rule of the method -/
inductive Stage
  | psm | galilean | fourthOrder | iterativeEntropic (n : ℕ) | entropic | sgs | cassons | output | fluctuations | csePdfs | cseGlobal
  deriving DecidableEq, Repr

/-- the options that it looks at. `newton`: `entropic_newton_iterations` (`none` if falsy, `some none` if `True`); `splitGroups`: the
method's rule has the hint `'split_groups'`; `ratesIsList`: whether `relaxation_rates` is a list. -/
structure Options where
  psm : Option (Bool × Bool) := none
  galilean : Bool := false
  fourthOrder : Bool := false
  newton : Option (Option ℕ) := none
  sgs : Bool := false
  cassons : Bool := false
  output : Bool := false
  csePdfs : Bool := false
  cseGlobal : Bool := false
  splitGroups : Bool := false
  ratesIsList : Bool := true
  deriving DecidableEq, Repr

/-- `creationfunctions.py:687-690` -/
def psmStage : Option (Bool × Bool) → Except PyErr (List Stage)
  | none => .ok []
  | some (fraction, velocity) => if ¬ fraction ∨ ¬ velocity then .error .valueError else .ok [.psm]

/-- the decisions of `create_lb_collision_rule` (`creationfunctions.py:642-770`), without those that the additions make themselves
(`Corrections`, `Turbulence`, `Psm`) -/
def stages (o : Options) (p : Params K) : Except PyErr (List Stage) :=
  if p.densityInput ∧ ¬ p.velocityInput then .error .valueError
  else
    match psmStage o.psm with
    | .error e => .error e
    | .ok s0 =>
      let s1 := s0 ++ if o.galilean then [.galilean] else []
      if o.fourthOrder ∧ (p.rates.getD []).length = 1 ∧ ¬ o.ratesIsList then .error .attributeError
      else
        let s2 := s1 ++ if o.fourthOrder then [.fourthOrder] else []
        let model : Except PyErr (List Stage) :=
          if p.entropic then
            if o.sgs ∨ o.cassons then .error .valueError
            else match o.newton with
              | some none => .ok [.iterativeEntropic 3]
              | some (some n) => .ok [.iterativeEntropic n]
              | none => .ok [.entropic]
          else if o.sgs then
            if o.cassons then .error .valueError else .ok [.sgs]
          else .ok []
        match model with
        | .error e => .error e
        | .ok s3 =>
          let s4 : List Stage := if o.splitGroups then [] else if o.cassons then [.cassons] else []
          .ok (s2 ++ s3 ++ s4 ++ (if o.output then [.output] else []) ++ (if p.fluctuating then [.fluctuations] else []) ++
            (if o.csePdfs then [.csePdfs] else []) ++ if o.cseGlobal then [.cseGlobal] else [])

/-- the kernel that `create_lb_update_rule` makes -/
inductive Kernel
  | streamPullOnly
  | periodic
  | pattern (p : String) (t : Timestep)
  | collideOnly
  | given
  deriving DecidableEq, Repr

/-- the choice of the accessor in `create_lb_update_rule` (`creationfunctions.py:620-635`) -/
def chooseKernel (periodicity : List Bool) (p : Params K) : Except PyErr Kernel :=
  match p.kernelType with
  | .streamPullOnly => .ok .streamPullOnly
  | .defaultStreamCollide =>
    if p.pattern = "pull" ∧ periodicity.any id then .ok .periodic
    else match getAccessor p.D p.pattern p.timestep with
      | some _ => .ok (.pattern p.pattern p.timestep)
      | none => .error .valueError
  | .collideOnly => .ok .collideOnly
  | .accessor => .ok .given
  | _ => .error .valueError

end

/-! ### Optimisation parameters -/

/-- keys of the dictionary `optimization` that are used (`creationfunctions.py:922-923,944-945`) -/
def configKeys : List String :=
  ["target", "backend", "cpu_openmp", "double_precision", "gpu_indexing", "gpu_indexing_params", "cpu_vectorize_info"]

def optimisationKeys : List String :=
  ["cse_pdfs", "cse_global", "simplification", "pre_simplification", "split", "field_size", "field_layout", "symbolic_field",
   "symbolic_temporary_field", "builtin_periodicity"]

/-- the second half of `update_with_default_parameters` for the dictionary `optimization` and an `LBMOptimisation` (a map from its
parameters to values): `creationfunctions.py:924-958` -/
def updateOptimisation {V : Type} (opt : List (String × V)) (current : String → Option V) : Except PyErr (String → Option V) :=
  let kept := opt.filter fun kv => optimisationKeys.contains kv.1
  if kept.any fun kv => (current kv.1).isNone then .error .keyError
  else .ok fun k => match kept.reverse.lookup k with
    | some v => some v
    | none => current k

end Config
end Lbm
