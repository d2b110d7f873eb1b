import Verif.StencilCtor
import Verif.Moments
import Mathlib.Data.Fintype.BigOperators
import Mathlib.Algebra.BigOperators.Group.List.Basic

/-!
# Moments of symbolic equations

Model of `take_moments` (`/repo/src/lbmpy/chapman_enskog/chapman_enskog.py:339-396`), which replaces the populations in a symbolic
equation by symbols of moments.

An equation is a product or a sum of products, as after `expand_diff_linear(eqn, functions).expand()` (line 390); `normalize_product`
is the list of the factors.  Nested derivatives are the list of their targets, outermost first, together with
`get_arg_recursive()`.  Not modelled: the expansion itself and the limits of the derivatives.
-/

namespace Lbm
namespace TakeMoments

/-- a symbol that is not a velocity: one of the symbols `expanded_symbol(name, superscript=i)` or something else -/
inductive Arg (R : Type) where
  | pdf (name : String) (superscript : ℕ)
  | other (r : R)

/-- a factor of a product -/
inductive Factor (R ι : Type) where
  | diff (targets : List ι) (arg : Arg R)
  | vel (i : Fin 3)
  | sym (a : Arg R)

/-- an equation: `sp.Mul`, `sp.Add` or anything else, such as a symbol, a derivative or zero -/
inductive Eqn (R ι : Type) where
  | mul (factors : List (Factor R ι))
  | add (terms : List (List (Factor R ι)))
  | other (factor : Option (Factor R ι))

variable {R ι : Type}

/-- `determine_f_index` (`chapman_enskog.py:347-354`): position of the name and superscript -/
def determineIndex (names : List (String × String)) (maxExpansion : ℕ) : Arg R → Option (ℕ × ℕ)
  | .pdf name s => if s < maxExpansion then (names.findIdx? fun p => p.1 == name).map fun i => (i, s) else none
  | .other _ => none

/-- the variables of the loop (`chapman_enskog.py:357-360`); of the derivative only the targets are used later -/
structure State (R ι : Type) where
  index : Option (ℕ × ℕ) := none
  derivative : Option (List ι) := none
  velocities : List (Fin 3) := []
  rest : List (Arg R) := []

/-- the body of the loop (`chapman_enskog.py:361-374`) -/
def step (names : List (String × String)) (maxExpansion : ℕ) (st : State R ι) : Factor R ι → Except PyErr (State R ι)
  | .diff targets arg =>
    if st.index.isSome then .error .assertion
    else .ok { st with index := determineIndex names maxExpansion arg, derivative := some targets }
  | .vel i => .ok { st with velocities := st.velocities ++ [i] }
  | .sym a =>
    match determineIndex names maxExpansion a with
    | none => .ok { st with rest := st.rest ++ [a] }
    | some j => if st.index.isSome then .error .assertion else .ok { st with index := some j }

/-- the result for a product: `rest * derivatives of CeMoment(moment_name, moment_tuple, superscript)` -/
structure MomentTerm (R ι : Type) where
  rest : List (Arg R)
  targets : List ι
  name : String
  exponents : Fin 3 → ℕ
  superscript : ℕ

/-- `moment_tuple` (`chapman_enskog.py:376-379`) -/
def momentTuple (l : List (Fin 3)) : Fin 3 → ℕ := fun i => l.count i

/-- `non_aliased_moment` (`moments.py:269-289`) of the three exponents -/
def nonAliased (m : Fin 3 → ℕ) : Fin 3 → ℕ := fun i => (nonAliasedMoment (List.ofFn m)).getD i 0

/-- `handle_product` (`chapman_enskog.py:356-387`); without a population `f_index.moment_name` is an `AttributeError` -/
def handleProduct (names : List (String × String)) (maxExpansion : ℕ) (aliasing : Bool) (l : List (Factor R ι)) :
    Except PyErr (MomentTerm R ι) := do
  let st ← l.foldlM (step names maxExpansion) {}
  match st.index with
  | none => .error .attributeError
  | some (i, s) =>
    let m := momentTuple st.velocities
    .ok ⟨st.rest, st.derivative.getD [], (names.getD i ("", "")).2, if aliasing then nonAliased m else m, s⟩

/-- `take_moments` (`chapman_enskog.py:339-396`) -/
def takeMoments (names : List (String × String)) (maxExpansion : ℕ) (aliasing : Bool) :
    Eqn R ι → Except PyErr (List (MomentTerm R ι))
  | .mul l => (handleProduct names maxExpansion aliasing l).map fun t => [t]
  | .add ts => ts.mapM (handleProduct names maxExpansion aliasing)
  | .other _ => .error .assertion

end TakeMoments
end Lbm
