/-
Model of `insert_pure_products`, `insert_conserved_quantity_products` and `insert_half_force` (`methods/momentbased/momentbasedsimplifications.py:323-360`).

`insert_subexpressions` is a function of pystencils, modelled after its documentation: the subexpressions are looked at one after the other, a chosen
one is removed and substituted everywhere. Expressions have numbers, symbols, sums, products and powers; a product is written with two
factors, `factors` are the arguments of the flattened product in sympy.
-/
import Mathlib.Logic.Function.Basic
import Mathlib.Algebra.Order.Field.Rat

namespace Lbm
namespace InsertSub

/-- expressions; symbols are numbered -/
inductive Expr where
  | sym (n : ℕ)
  | const (q : ℚ)
  | add (a b : Expr)
  | mul (a b : Expr)
  | pow (a : Expr) (n : ℕ)
  deriving DecidableEq

namespace Expr

/-- sympy's `subs` of one symbol -/
def subst : Expr → ℕ → Expr → Expr
  | sym n, s, e => if n = s then e else sym n
  | const q, _, _ => const q
  | add a b, s, e => add (a.subst s e) (b.subst s e)
  | mul a b, s, e => mul (a.subst s e) (b.subst s e)
  | pow a n, s, e => pow (a.subst s e) n

/-- the arguments of a product -/
def factors : Expr → List Expr
  | mul a b => a.factors ++ b.factors
  | e => [e]

/-- `is_constant`: no symbols -/
def isConstant : Expr → Bool
  | sym _ => false
  | const _ => true
  | add a b => a.isConstant && b.isConstant
  | mul a b => a.isConstant && b.isConstant
  | pow a _ => a.isConstant

end Expr

/-- an assignment -/
abbrev Asg := ℕ × Expr

/-- subexpressions and main assignments -/
structure Collection where
  subs : List Asg
  main : List Asg

/-- substitution in the right-hand sides -/
def substAll (s : ℕ) (e : Expr) (l : List Asg) : List Asg := l.map fun a => (a.1, a.2.subst s e)

/-- the loop of `insert_subexpressions` (pystencils): `done` are the subexpressions before the current one -/
def insertLoop (chosen : Asg → Bool) (skip : List ℕ) : ℕ → List Asg → List Asg → List Asg → Collection
  | fuel + 1, done, a :: rest, main =>
    if !skip.contains a.1 && chosen a then
      insertLoop chosen skip fuel (substAll a.1 a.2 done) (substAll a.1 a.2 rest) (substAll a.1 a.2 main)
    else insertLoop chosen skip fuel (done ++ [a]) rest main
  | _, done, rest, main => ⟨done ++ rest, main⟩

/-- `insert_subexpressions`; one round of the loop for each subexpression -/
def insertSubexpressions (c : Collection) (chosen : Asg → Bool) (skip : List ℕ := []) : Collection :=
  insertLoop chosen skip c.subs.length [] c.subs c.main

/-- the callback of `insert_pure_products` (`momentbasedsimplifications.py:326-333`) -/
def pureProduct (symbols : List ℕ) (a : Asg) : Bool :=
  let isSymbol := fun e => match e with
    | .sym n => symbols.contains n
    | _ => false
  match a.2 with
  | .sym n => symbols.contains n
  | .mul x y => (Expr.mul x y).factors.all fun f => f.isConstant || isSymbol f
  | _ => false

/-- `insert_pure_products` (`momentbasedsimplifications.py:323-335`) -/
def insertPureProducts (c : Collection) (symbols : List ℕ) (skip : List ℕ := []) : Collection :=
  insertSubexpressions c (pureProduct symbols) skip

/-- `insert_conserved_quantity_products` (`momentbasedsimplifications.py:338-347`): the symbols of density, zeroth moment and velocity. The keyword
arguments, here `skip`, are not passed on (line 347). -/
def insertConservedProducts (c : Collection) (rho m000 : ℕ) (u : List ℕ) (_skip : List ℕ := []) : Collection :=
  insertPureProducts c (rho :: m000 :: u)

/-- `insert_half_force` (`momentbasedsimplifications.py:350-360`) -/
def insertHalfForce (c : Collection) (force : Option (List ℕ)) (skip : List ℕ := []) : Collection :=
  match force with
  | none => c
  | some f => insertSubexpressions c (fun a => f.any fun n =>
      a.2 == .mul (.const (1 / 2)) (.sym n) || a.2 == .mul (.const (-1 / 2)) (.sym n)) skip

end InsertSub
end Lbm
