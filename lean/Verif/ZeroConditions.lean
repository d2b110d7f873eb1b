/-
Model of `condition_variables` and `simplify_zero_conditions` of `phasefield/n_phase_boyer.py:285-315` and of the threshold
of `chemical_potential_n_phase_boyer` (`n_phase_boyer.py:340-342`).

Expressions are trees with `Piecewise` nodes; the conditions are those of `capital_h` (`n_phase_boyer.py:167`, `180`), which
compare products of symbols with zero, and those the functions create.  Substitution evaluates conditions and removes
branches as sympy does.  The arithmetic normal form of sympy (`0 * x` is `0`) is not modelled.
-/
import Mathlib.Data.Finset.Union
import Mathlib.Data.Finset.Card
import Mathlib.Data.Finset.Lattice.Basic
import Mathlib.Algebra.Order.Field.Basic
import Mathlib.Data.Rat.Defs

namespace Lbm
namespace ZeroConditions

variable {V K : Type} [DecidableEq V]

/-- conditions of `Piecewise`: `eq0 vs` is `sp.Eq(v_1 * v_2 * ..., 0)`, `le0 v` is `sp.LessThan(v, 0)` (`n_phase_boyer.py:309`),
`absLt t v` is `sp.StrictLessThan(sp.Abs(v), t)` (`n_phase_boyer.py:341`) -/
inductive Cond (V K : Type)
  | tt
  | ff
  | eq0 (vs : List V)
  | le0 (v : V)
  | absLt (t : K) (v : V)
  | and (a b : Cond V K)
  | or (a b : Cond V K)
  | not (a : Cond V K)

/-- expressions; `pw` marks a `Piecewise`, whose branches are a chain of `pcase` ending with `pend` -/
inductive Expr (V K : Type)
  | num (q : K)
  | sym (v : V)
  | add (a b : Expr V K)
  | mul (a b : Expr V K)
  | inv (a : Expr V K)
  | abs (a : Expr V K)
  | pw (chain : Expr V K)
  | pcase (c : Cond V K) (a rest : Expr V K)
  | pend

/-- the symbols of a condition, `e[1].atoms(sp.Symbol)` (`n_phase_boyer.py:292`) -/
def Cond.vars : Cond V K → Finset V
  | .tt => ∅
  | .ff => ∅
  | .eq0 vs => vs.toFinset
  | .le0 v => {v}
  | .absLt _ v => {v}
  | .and a b => a.vars ∪ b.vars
  | .or a b => a.vars ∪ b.vars
  | .not a => a.vars

/-- `condition_variables` (`n_phase_boyer.py:285-297`): it does not look inside the branches of a `Piecewise` -/
def conditionVariables : Expr V K → Finset V
  | .num _ => ∅
  | .sym _ => ∅
  | .add a b => conditionVariables a ∪ conditionVariables b
  | .mul a b => conditionVariables a ∪ conditionVariables b
  | .inv a => conditionVariables a
  | .abs a => conditionVariables a
  | .pw r => conditionVariables r
  | .pcase c _ r => c.vars ∪ conditionVariables r
  | .pend => ∅

/-- all symbols of the conditions, those in branches included; the measure of the recursion -/
def allVars : Expr V K → Finset V
  | .num _ => ∅
  | .sym _ => ∅
  | .add a b => allVars a ∪ allVars b
  | .mul a b => allVars a ∪ allVars b
  | .inv a => allVars a
  | .abs a => allVars a
  | .pw r => allVars r
  | .pcase c a r => c.vars ∪ (allVars a ∪ allVars r)
  | .pend => ∅

/-- sympy's `And` of evaluated arguments -/
def mkAnd : Cond V K → Cond V K → Cond V K
  | .ff, _ => .ff
  | _, .ff => .ff
  | .tt, b => b
  | a, .tt => a
  | a, b => .and a b

/-- sympy's `Or` of evaluated arguments -/
def mkOr : Cond V K → Cond V K → Cond V K
  | .tt, _ => .tt
  | _, .tt => .tt
  | .ff, b => b
  | a, .ff => a
  | a, b => .or a b

/-- sympy's `Not` of an evaluated argument -/
def mkNot : Cond V K → Cond V K
  | .tt => .ff
  | .ff => .tt
  | a => .not a

/-- `Piecewise` with a first branch that is always taken is that branch -/
def collapse : Expr V K → Expr V K
  | .pcase .tt a _ => a
  | r => .pw r

/-- a branch of a `Piecewise` with an evaluated condition: branches that are never taken are removed, and those after one that is
always taken -/
def branch : Cond V K → Expr V K → Expr V K → Expr V K
  | .ff, _, r => r
  | .tt, a, _ => .pcase .tt a .pend
  | c, a, r => .pcase c a r

section zero
variable [Field K] [LinearOrder K]

/-- `.subs(v, 0)` of a condition (`n_phase_boyer.py:308`) -/
def Cond.zero (v : V) : Cond V K → Cond V K
  | .tt => .tt
  | .ff => .ff
  | .eq0 vs => if v ∈ vs then .tt else .eq0 vs
  | .le0 w => if v = w then .tt else .le0 w
  | .absLt t w => if v = w then (if 0 < t then .tt else .ff) else .absLt t w
  | .and a b => mkAnd (a.zero v) (b.zero v)
  | .or a b => mkOr (a.zero v) (b.zero v)
  | .not a => mkNot (a.zero v)

/-- `expression.subs(cond_var, 0)` (`n_phase_boyer.py:308`) -/
def Expr.zero (v : V) : Expr V K → Expr V K
  | .num q => .num q
  | .sym w => if w = v then .num 0 else .sym w
  | .add a b => .add (a.zero v) (b.zero v)
  | .mul a b => .mul (a.zero v) (b.zero v)
  | .inv a => .inv (a.zero v)
  | .abs a => .abs (a.zero v)
  | .pw r => collapse (r.zero v)
  | .pcase c a r => branch (c.zero v) (a.zero v) (r.zero v)
  | .pend => .pend

end zero

/-- substitution of symbols that are not zero for the variables `s` of a condition: a product of such symbols is not zero -/
def Cond.nonzero (s : Finset V) : Cond V K → Cond V K
  | .tt => .tt
  | .ff => .ff
  | .eq0 vs => if ∀ v ∈ vs, v ∈ s then .ff else .eq0 vs
  | .le0 w => .le0 w
  | .absLt t w => .absLt t w
  | .and a b => mkAnd (a.nonzero s) (b.nonzero s)
  | .or a b => mkOr (a.nonzero s) (b.nonzero s)
  | .not a => mkNot (a.nonzero s)

/-- `expression.subs(substitutions).subs({v: k …})` (`n_phase_boyer.py:313`) with dummies that are not zero
(`n_phase_boyer.py:311`) -/
def Expr.nonzero (s : Finset V) : Expr V K → Expr V K
  | .num q => .num q
  | .sym w => .sym w
  | .add a b => .add (a.nonzero s) (b.nonzero s)
  | .mul a b => .mul (a.nonzero s) (b.nonzero s)
  | .inv a => .inv (a.nonzero s)
  | .abs a => .abs (a.nonzero s)
  | .pw r => collapse (r.nonzero s)
  | .pcase c a r => branch (c.nonzero s) (a.nonzero s) (r.nonzero s)
  | .pend => .pend

/-- `condition_type(cond_var, 0)` (`n_phase_boyer.py:309-310`); `nonneg` is sympy's assumption -/
def zeroCondition (nonneg : V → Bool) (v : V) : Cond V K := if nonneg v then .le0 v else .eq0 [v]

/-- the branches of `sp.Piecewise(*result)` (`n_phase_boyer.py:310`, `314-315`) -/
def chain (nonneg : V → Bool) (last : Expr V K) : List (V × Expr V K) → Expr V K
  | [] => .pcase .tt last .pend
  | (v, e) :: l => .pcase (zeroCondition nonneg v) e (chain nonneg last l)

/-! ### The recursion ends -/

theorem vars_mkAnd (a b : Cond V K) : (mkAnd a b).vars ⊆ a.vars ∪ b.vars := by
  cases a <;> cases b <;> simp [mkAnd, Cond.vars]

theorem vars_mkOr (a b : Cond V K) : (mkOr a b).vars ⊆ a.vars ∪ b.vars := by
  cases a <;> cases b <;> simp [mkOr, Cond.vars]

theorem vars_mkNot (a : Cond V K) : (mkNot a).vars ⊆ a.vars := by
  cases a <;> simp [mkNot, Cond.vars]

theorem allVars_collapse (e : Expr V K) : allVars (collapse e) ⊆ allVars e := by
  cases e with
  | pcase c a r => cases c <;> simp [collapse, allVars, Cond.vars, Finset.subset_union_left]
  | _ => simp [collapse, allVars]

theorem allVars_branch (c : Cond V K) (a r : Expr V K) : allVars (branch c a r) ⊆ c.vars ∪ (allVars a ∪ allVars r) := by
  cases c <;> simp [branch, allVars, Cond.vars, Finset.subset_union_left, Finset.subset_union_right]

theorem conditionVariables_subset (e : Expr V K) : conditionVariables e ⊆ allVars e := by
  induction e with
  | add a b ha hb => exact Finset.union_subset_union ha hb
  | mul a b ha hb => exact Finset.union_subset_union ha hb
  | pcase c a r ha hr => exact Finset.union_subset_union subset_rfl (hr.trans Finset.subset_union_right)
  | inv a h => exact h
  | abs a h => exact h
  | pw a h => exact h
  | _ => exact subset_rfl

section zero
variable [Field K] [LinearOrder K]

theorem vars_zero (v : V) (c : Cond V K) : (c.zero v).vars ⊆ c.vars.erase v := by
  induction c with
  | eq0 vs =>
    unfold Cond.zero
    split_ifs with h
    · simp [Cond.vars]
    · intro w hw
      rw [Finset.mem_erase]
      refine ⟨?_, hw⟩
      rintro rfl
      exact h (by simpa [Cond.vars] using hw)
  | le0 w =>
    unfold Cond.zero
    split_ifs with h
    · simp [Cond.vars]
    · simp [Cond.vars, h]
  | absLt t w =>
    unfold Cond.zero
    split_ifs with h <;> simp [Cond.vars]
    exact fun e => h e.symm
  | and a b ha hb =>
    refine (vars_mkAnd _ _).trans ((Finset.union_subset_union ha hb).trans ?_)
    simp only [Cond.vars, Finset.erase_union_distrib, subset_rfl]
  | or a b ha hb =>
    refine (vars_mkOr _ _).trans ((Finset.union_subset_union ha hb).trans ?_)
    simp only [Cond.vars, Finset.erase_union_distrib, subset_rfl]
  | not a ha => exact (vars_mkNot _).trans ha
  | _ => simp [Cond.zero, Cond.vars]

theorem allVars_zero (v : V) (e : Expr V K) : allVars (e.zero v) ⊆ (allVars e).erase v := by
  induction e with
  | sym w => unfold Expr.zero; split_ifs <;> simp [allVars]
  | add a b ha hb => simpa only [allVars, Expr.zero, Finset.erase_union_distrib] using Finset.union_subset_union ha hb
  | mul a b ha hb => simpa only [allVars, Expr.zero, Finset.erase_union_distrib] using Finset.union_subset_union ha hb
  | inv a h => exact h
  | abs a h => exact h
  | pw a h => exact (allVars_collapse _).trans h
  | pcase c a r ha hr =>
    refine (allVars_branch _ _ _).trans ?_
    simpa only [allVars, Finset.erase_union_distrib] using
      Finset.union_subset_union (vars_zero v c) (Finset.union_subset_union ha hr)
  | _ => simp [Expr.zero, allVars]

/-- `simplify_zero_conditions` (`n_phase_boyer.py:300-315`); `order` is the order of the set of variables -/
def simplify (nonneg : V → Bool) (order : (s : Finset V) → {l : List V // ∀ v, v ∈ l ↔ v ∈ s}) (e : Expr V K) : Expr V K :=
  if conditionVariables e = ∅ then e
  else .pw (chain nonneg (e.nonzero (conditionVariables e))
    ((order (conditionVariables e)).1.attach.map fun v => (v.1, simplify nonneg order (e.zero v.1))))
termination_by (allVars e).card
decreasing_by
  have hv : v.1 ∈ allVars e := conditionVariables_subset e (((order (conditionVariables e)).2 v.1).1 v.2)
  exact lt_of_le_of_lt (Finset.card_le_card (allVars_zero v.1 e)) (Finset.card_erase_lt_of_mem hv)

end zero

/-- `.subs({sp.Eq(c_i, 0): sp.StrictLessThan(sp.Abs(c_i), zero_threshold)})` of a condition (`n_phase_boyer.py:341-342`) -/
def Cond.threshold (t : K) : Cond V K → Cond V K
  | .eq0 [v] => .absLt t v
  | .and a b => .and (a.threshold t) (b.threshold t)
  | .or a b => .or (a.threshold t) (b.threshold t)
  | .not a => .not (a.threshold t)
  | c => c

/-- `mu_bulk.subs(substitutions)` (`n_phase_boyer.py:340-342`) -/
def Expr.threshold (t : K) : Expr V K → Expr V K
  | .num q => .num q
  | .sym w => .sym w
  | .add a b => .add (a.threshold t) (b.threshold t)
  | .mul a b => .mul (a.threshold t) (b.threshold t)
  | .inv a => .inv (a.threshold t)
  | .abs a => .abs (a.threshold t)
  | .pw r => .pw (r.threshold t)
  | .pcase c a r => .pcase (c.threshold t) (a.threshold t) (r.threshold t)
  | .pend => .pend

end ZeroConditions
end Lbm
