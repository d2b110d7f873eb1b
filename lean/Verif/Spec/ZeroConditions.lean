/-
What an expression with cases means: its value at given values of the symbols, `none` for a division by zero and where no case
applies.
-/
import Verif.ZeroConditions
import Mathlib.Algebra.BigOperators.Group.List.Basic
import Mathlib.Algebra.Order.Group.Unbundled.Abs

namespace Lbm
namespace ZeroConditions
namespace Spec

variable {V K : Type} [Field K] [LinearOrder K]

/-- the truth of a condition -/
def Holds (env : V → K) : Cond V K → Prop
  | .tt => True
  | .ff => False
  | .eq0 vs => (vs.map env).prod = 0
  | .le0 v => env v ≤ 0
  | .absLt t v => |env v| < t
  | .and a b => Holds env a ∧ Holds env b
  | .or a b => Holds env a ∨ Holds env b
  | .not a => ¬ Holds env a

open Classical in
/-- the value of an expression -/
noncomputable def value (env : V → K) : Expr V K → Option K
  | .num q => some q
  | .sym v => some (env v)
  | .add a b => (value env a).bind fun x => (value env b).map fun y => x + y
  | .mul a b => (value env a).bind fun x => (value env b).map fun y => x * y
  | .inv a => (value env a).bind fun x => if x = 0 then none else some x⁻¹
  | .abs a => (value env a).map fun x => |x|
  | .pw r => value env r
  | .pcase c a r => if Holds env c then value env a else value env r
  | .pend => none

/-- the symbols of a set replaced by zero -/
def zeroed [DecidableEq V] (s : Finset V) (env : V → K) (v : V) : K := if v ∈ s then 0 else env v

/-- a condition that tests products of symbols only -/
def ProductTest : Cond V K → Prop
  | .eq0 vs => vs ≠ []
  | .and a b => ProductTest a ∧ ProductTest b
  | .or a b => ProductTest a ∧ ProductTest b
  | .not a => ProductTest a
  | _ => False

/-- a test of one symbol, or the last case -/
def SingleTest : Cond V K → Prop
  | .tt => True
  | .le0 _ => True
  | .eq0 [_] => True
  | _ => False

/-- every condition is a test of one symbol -/
def SingleTests : Expr V K → Prop
  | .add a b => SingleTests a ∧ SingleTests b
  | .mul a b => SingleTests a ∧ SingleTests b
  | .inv a => SingleTests a
  | .abs a => SingleTests a
  | .pw r => SingleTests r
  | .pcase c a r => SingleTest c ∧ SingleTests a ∧ SingleTests r
  | _ => True

/-- no cases at all -/
def NoCases : Expr V K → Prop
  | .add a b => NoCases a ∧ NoCases b
  | .mul a b => NoCases a ∧ NoCases b
  | .inv a => NoCases a
  | .abs a => NoCases a
  | .pw _ => False
  | .pcase _ _ _ => False
  | .pend => False
  | _ => True

/-- the cases of a `Piecewise`: branches without cases, conditions on products -/
def FlatChain : Expr V K → Prop
  | .pcase c a r => (c = .tt ∨ ProductTest c) ∧ NoCases a ∧ FlatChain r
  | .pend => True
  | _ => False

/-- expressions with cases that are not nested, with conditions on products of symbols, as `capital_h` makes them -/
def Flat : Expr V K → Prop
  | .add a b => Flat a ∧ Flat b
  | .mul a b => Flat a ∧ Flat b
  | .inv a => Flat a
  | .abs a => Flat a
  | .pw r => FlatChain r
  | .pcase _ _ _ => False
  | .pend => False
  | _ => True

end Spec
end ZeroConditions
end Lbm
