/-
Model of `_get_relaxation_info_dict` (`methods/creationfunctions.py:600-706`), of `get_shear_relaxation_rate`,
`get_bulk_relaxation_rate` (`relaxationrates.py:23-60`) and of `get_order` (`moments.py:248-267`).
-/
import Verif.MomentSets
import Verif.StencilCtor
import Mathlib.Data.List.Lex

namespace Lbm

/-! ### `get_order` -/

/-- lexicographic comparison of exponent lists, as in sympy's default monomial order -/
def lexLt : List ℕ → List ℕ → Bool
  | [], [] => false
  | [], _ :: _ => true
  | _ :: _, [] => false
  | a :: l, b :: m => decide (a < b) || (a == b && lexLt l m)

/-- exponents of `sp.polys.polytools.LM` -/
def leadingMonomial {R : Type} (p : MPoly R) : List ℕ := (p.map Prod.snd).foldl (fun a b => if lexLt a b then b else a) []

/-- `get_order` of a polynomial (lines 262-266); for constants the leading monomial has no symbols. The order of an
exponent tuple (line 260) is its sum. -/
def getOrder {R : Type} (p : MPoly R) : ℕ := (leadingMonomial p).sum

/-! ### `_get_relaxation_info_dict` -/

/-- what the function uses of a moment: `get_order`, `is_shear_moment(·, dim)`, `is_bulk_moment(·, dim)` -/
structure Classify (M : Type) where
  order : M → ℕ
  shear : M → Bool
  bulk : M → Bool

/-- the classification of polynomials in dimension `dim` -/
def classifyPoly (dim : ℕ) : Classify PExpr where
  order p := getOrder p.expand
  shear p := isShearMoment p.expand dim
  bulk p := isBulkMoment p.expand dim

/-- argument `relaxation_rates`: a function of the moment group, or a list -/
inductive RatesArg (M K : Type) where
  | callable (f : List M → List K)
  | list (l : List K)

variable {M K : Type} [DecidableEq M]

/-- a dictionary built by `result[moment] = rr` for each pair in turn -/
def dictOf (l : List (M × K)) : List (M × K) :=
  l.foldl (fun d e => if e.1 ∈ d.map Prod.fst then d.map fun x => if x.1 = e.1 then (x.1, e.2) else x else d ++ [e]) []

/-- `for moment in group: result[moment] = next(rr)`; an exhausted iterator raises `StopIteration` -/
def zipRates : List M → List K → Except PyErr (List (M × K))
  | [], _ => .ok []
  | _ :: _, [] => .error .exception
  | m :: ms, r :: rs => do
    let rest ← zipRates ms rs
    .ok ((m, r) :: rest)

section
variable [Zero K] [One K]

/-- rate of a moment when one rate is given (lines 642-655) -/
def singleRate (c : Classify M) (conserved : Bool) (ω : K) (m : M) : K :=
  if conserved then
    if c.order m ≤ 1 then 0 else if c.shear m then ω else 1
  else
    if c.shear m || decide (c.order m ≤ 1) then ω else 1

/-- a local variable that may be unbound -/
def bound (v : Option K) : Except PyErr K :=
  match v with
  | some v => .ok v
  | none => .error .exception

/-- does this moment execute `next_rr = True` (lines 681-683, 689-691) -/
def usesGroupRate (c : Classify M) (m : M) : Bool :=
  !decide (c.order m ≤ 1) && !c.shear m && !c.bulk m

/-- rate of a moment in the fallback case (lines 673-691) -/
def fallbackRate (c : Classify M) (conserved : Bool) (shear bulk rr : Option K) (m : M) : Except PyErr K :=
  if conserved then
    if c.order m ≤ 1 then .ok 0
    else if c.shear m then bound shear
    else if c.bulk m then bound bulk
    else bound rr
  else
    if c.shear m || decide (c.order m ≤ 1) then bound shear
    else if c.bulk m then bound bulk
    else bound rr

/-- `next(rr_iter)` inside the `try` (lines 664-670): exhaustion becomes the `ValueError` of line 694 -/
def nextRate (it : List K) : Except PyErr (K × List K) :=
  match it with
  | [] => .error .valueError
  | r :: it => .ok (r, it)

/-- the loop over groups (lines 669-691) -/
def fallbackLoop (c : Classify M) (conserved : Bool) (shear bulk : Option K) :
    List (List M) → List K → Option K → Bool → Except PyErr (List (M × K))
  | [], _, _, _ => .ok []
  | g :: gs, it, rr, next => do
    let (rr, it) ← if next then (do let (r, it) ← nextRate it; .ok (some r, it)) else .ok (rr, it)
    let vs ← g.mapM fun m => do .ok (m, ← fallbackRate c conserved shear bulk rr m)
    let rest ← fallbackLoop c conserved shear bulk gs it rr (g.any (usesGroupRate c))
    .ok (vs ++ rest)

/-- the fallback case (lines 660-691) -/
def fallback (c : Classify M) (conserved : Bool) (rates : List K) (nested : List (List M)) :
    Except PyErr (List (M × K)) := do
  let (shear, it) ← if nested.flatten.any c.shear then (do let (r, it) ← nextRate rates; .ok (some r, it))
    else .ok (none, rates)
  let (bulk, it) ← if nested.flatten.any c.bulk then (do let (r, it) ← nextRate it; .ok (some r, it))
    else .ok (none, it)
  fallbackLoop c conserved shear bulk nested it none true

/-- `_get_relaxation_info_dict` (`methods/creationfunctions.py:600-706`) without the modifier. The assignments to `result`
are collected in lists and made at the end. -/
def rateDict (c : Classify M) (rates : RatesArg M K) (nested : List (List M)) (conserved : Bool) :
    Except PyErr (List (M × K)) :=
  match rates with
  | .callable f => do
    let gs ← nested.mapM fun g => zipRates g (f g)
    .ok (dictOf gs.flatten)
  | .list rates =>
    let one := match rates with
      | [ω] => nested.flatten.map fun m => (m, singleRate c conserved ω m)
      | _ => []
    if rates.length = nested.flatten.length then
      .ok (dictOf (one ++ List.zip nested.flatten rates))
    else if rates.length = 1 then .ok (dictOf one)
    else do
      let l ← fallback c conserved rates nested
      .ok (dictOf l)

/-- `_get_relaxation_info_dict` (`methods/creationfunctions.py:600-706`): the modifier is applied in lines 620-622 and
703-705 -/
def relaxationInfo [Mul K] (c : Classify M) (rates : RatesArg M K) (nested : List (List M)) (conserved : Bool := true)
    (modifier : Option K := none) : Except PyErr (List (M × K)) := do
  let d ← rateDict c rates nested conserved
  match modifier with
  | none => .ok d
  | some a => .ok (d.map fun e => (e.1, e.2 * a))
end

/-! ### `get_shear_relaxation_rate`, `get_bulk_relaxation_rate` -/

variable [DecidableEq K]

/-- `get_shear_relaxation_rate` (`relaxationrates.py:23-47`) for methods without the attribute
`shear_relaxation_rate` -/
def shearRate (c : Classify M) (d : List (M × K)) : Except PyErr K :=
  match ((d.filter fun e => c.shear e.1).map Prod.snd).dedup with
  | [ω] => .ok ω
  | _ :: _ :: _ => .error .valueError
  | [] =>
    match (d.map Prod.snd).dedup with
    | [ω] => .ok ω
    | _ => .error .notImplemented

/-- `get_bulk_relaxation_rate` (`relaxationrates.py:50-60`) -/
def bulkRate (c : Classify M) (d : List (M × K)) : Except PyErr K :=
  match d.find? fun e => c.bulk e.1 with
  | some e => .ok e.2
  | none => shearRate c d

end Lbm
