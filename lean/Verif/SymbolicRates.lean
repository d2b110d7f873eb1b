/-
Model of the symbolic relaxation matrix, `methods/abstractlbmethod.py:52-75, 102-131`.

sympy expressions other than plain symbols are an arbitrary type `E` with decidable equality (dictionary key equality).
-/
import Verif.StencilCtor
import Mathlib.Logic.Function.Basic

namespace Lbm

/-- A relaxation rate after `sp.sympify`. -/
inductive Rate (E : Type)
  | sym (name : String)
  | expr (e : E)
deriving DecidableEq

/-- `f"rr_{n}"` -/
def rrName (n : ℕ) : String := "rr_" ++ n.repr

/-- The loop of `_generate_symbolic_relaxation_matrix` (`abstractlbmethod.py:110-122`). `norm` is the replacement of
the integer zero by `0.0`; `sub` the dictionary `subexpressions` in insertion order. -/
def symLoop {E : Type} [DecidableEq E] (norm : E → E) :
    List (Rate E) → List (E × String) → List String × List (E × String)
  | [], sub => ([], sub)
  | .sym s :: rs, sub =>
    let r := symLoop norm rs sub
    (s :: r.1, r.2)
  | .expr e :: rs, sub =>
    match sub.lookup (norm e) with
    | some s =>
      let r := symLoop norm rs sub
      (s :: r.1, r.2)
    | none =>
      let r := symLoop norm rs (sub ++ [(norm e, rrName sub.length)])
      (rrName sub.length :: r.1, r.2)

/-- The assignments and the diagonal of `_generate_symbolic_relaxation_matrix` without modifier; the final assertion
that every entry is a symbol holds by typing. -/
def symbolicRates {E : Type} [DecidableEq E] (norm : E → E) (rr : List (Rate E)) :
    List String × List (E × String) := symLoop norm rr []

/-- `substitutions` executed in order as assignments `symbol := expression`, starting in environment `env`. -/
def execAssignments {E K : Type} (eval : E → (String → K) → K) (sub : List (E × String)) (env : String → K) :
    String → K :=
  sub.foldl (fun env a => Function.update env a.2 (eval a.1 env)) env

/-- The numerical diagonal: with a modifier every symbol is multiplied by it (`abstractlbmethod.py:125-126`). -/
def diagonalValues {E K : Type} [Mul K] [DecidableEq E] (norm : E → E) (eval : E → (String → K) → K)
    (rr : List (Rate E)) (modifier : Option ((String → K) → K)) (env : String → K) : List K :=
  let r := symbolicRates norm rr
  let env' := execAssignments eval r.2 env
  r.1.map fun s => match modifier with | some m => env' s * m env' | none => env' s

/-- `subs_dict_relaxation_rate` (`abstractlbmethod.py:69-75`) for `Q` rates: later entries overwrite earlier ones. -/
def subsDict {E : Type} [DecidableEq E] (norm : E → E) (rr : List (Rate E)) : List (String × Rate E) :=
  (List.zip (symbolicRates norm rr).1 rr).foldl (fun d e => (e.1, e.2) :: d.filter fun x => x.1 ≠ e.1) []

end Lbm
