/-
Model of the simplifications of collision rules (`methods/momentbased/momentbasedsimplifications.py`, lines 18-267 and 365-400) and of the
strategy for methods with one or two relaxation rates (`simplificationfactory.py:44-61`).

Expressions and collections are those of `Verif.SymSplit`.  What is used of sympy and pystencils is collected in `Sympy`: the operations with
what they have to preserve.
-/
import Verif.SymSplit
import Mathlib.Logic.Relation

namespace Lbm
namespace Simplify

open SymSplit

variable {E K : Type} [DecidableEq E] [Field K]

/-- all equations hold -/
def Solves (A : Alg E K) (l : Asms E) (σ : ℕ → K) : Prop := ∀ p ∈ l, σ p.1 = A.eval σ p.2

/-- `b` is needed directly to compute `a` -/
def Needs (A : Alg E K) (l : Asms E) (a b : ℕ) : Prop := ∃ p ∈ l, p.1 = a ∧ b ∈ A.vars p.2

/-- Operations of sympy and pystencils on expressions, with the properties relied on. -/
structure Sympy (A : Alg E K) where
  /-- `e.collect(x)` -/
  collect : E → ℕ → E
  eval_collect : ∀ σ e x, A.eval σ (collect e x) = A.eval σ e
  vars_collect : ∀ e x, A.vars (collect e x) ⊆ A.vars e
  /-- `e.coeff(x)` -/
  coeff : E → ℕ → E
  vars_coeff : ∀ e x, A.vars (coeff e x) ⊆ A.vars e
  /-- `a * b` -/
  mul : E → E → E
  eval_mul : ∀ σ a b, A.eval σ (mul a b) = A.eval σ a * A.eval σ b
  vars_mul : ∀ a b, A.vars (mul a b) ⊆ A.vars a ∪ A.vars b
  /-- `a / b` -/
  div : E → E → E
  vars_div : ∀ a b, A.vars (div a b) ⊆ A.vars a ∪ A.vars b
  /-- `e.subs(a, b)` -/
  subs : E → E → E → E
  eval_subs : ∀ σ e a b, A.eval σ a = A.eval σ b → A.eval σ (subs e a b) = A.eval σ e
  vars_subs : ∀ e a b, A.vars (subs e a b) ⊆ A.vars e ∪ A.vars b
  /-- `e.subs(x, n)` for a number -/
  setTo : E → ℕ → ℤ → E
  vars_setTo : ∀ e x n, A.vars (setTo e x n) ⊆ A.vars e
  /-- `e == 0` -/
  isZero : E → Bool
  /-- `e == 1` -/
  isOne : E → Bool
  /-- `len(e.args)` -/
  nargs : E → ℕ
  /-- `subs_additive(e, s, t)` -/
  subsAdditive : E → ℕ → E → E
  eval_subsAdditive : ∀ σ e s t, σ s = A.eval σ t → A.eval σ (subsAdditive e s t) = A.eval σ e
  vars_subsAdditive : ∀ e s t, A.vars (subsAdditive e s t) ⊆ A.vars e ∪ {s} ∪ A.vars t
  /-- the symbol that stands for the sum (`false`) or the difference of two symbols in `replace_second_order_products` -/
  pairSym : ℕ → ℕ → Bool → ℕ
  /-- `replace_second_order_products(e, u, positive=None, replace_mixed=substitutions)`: the new expression and the extended list -/
  secondOrder : List ℕ → E → Asms E → E × Asms E
  secondOrder_new : ∀ u e acc, ∃ new, (secondOrder u e acc).2 = acc ++ new ∧
    (∀ p ∈ new, ∃ i ∈ u, ∃ j ∈ u, ∃ b, p.1 = pairSym i j b ∧ A.vars p.2 ⊆ {i, j}) ∧
    ((acc.map Prod.fst).Nodup → ((acc ++ new).map Prod.fst).Nodup)
  eval_secondOrder : ∀ σ u e acc, Solves A (secondOrder u e acc).2 σ → A.eval σ (secondOrder u e acc).1 = A.eval σ e
  vars_secondOrder : ∀ u e acc, A.vars (secondOrder u e acc).1 ⊆ A.vars e ∪ {x | x ∈ (secondOrder u e acc).2.map Prod.fst}
  /-- `extract_most_common_factor(e)` -/
  commonFactor : E → E × E
  eval_commonFactor : ∀ σ e, A.eval σ e = A.eval σ (commonFactor e).1 * A.eval σ (commonFactor e).2
  /-- the factor is a number -/
  vars_commonFactor : ∀ e, A.vars (commonFactor e).1 = ∅ ∧ A.vars (commonFactor e).2 ⊆ A.vars e
  /-- `sp.cse([a, b], symbols=generator)`: subexpressions, new terms, number of symbols taken from the generator so far -/
  cse : (ℕ → ℕ) → ℕ → E → E → Asms E × (E × E) × ℕ
  cse_ctr : ∀ gen ctr a b, ctr ≤ (cse gen ctr a b).2.2
  cse_lhs : ∀ gen ctr a b, ∃ ks : List ℕ, ks.Nodup ∧ (∀ k ∈ ks, ctr ≤ k ∧ k < (cse gen ctr a b).2.2) ∧
    (cse gen ctr a b).1.map Prod.fst = ks.map gen
  cse_order : ∀ gen ctr a b, (cse gen ctr a b).1.Pairwise fun p q => q.1 ∈ A.vars p.2 → q.1 ∈ A.vars a ∪ A.vars b
  cse_vars : ∀ gen ctr a b, ∀ p ∈ (cse gen ctr a b).1, A.vars p.2 ⊆ A.vars a ∪ A.vars b ∪ {x | x ∈ (cse gen ctr a b).1.map Prod.fst}
  cse_self : ∀ gen ctr a b, ∀ p ∈ (cse gen ctr a b).1, p.1 ∈ A.vars p.2 → p.1 ∈ A.vars a ∪ A.vars b
  cse_terms : ∀ gen ctr a b, A.vars (cse gen ctr a b).2.1.1 ∪ A.vars (cse gen ctr a b).2.1.2 ⊆
    A.vars a ∪ A.vars b ∪ {x | x ∈ (cse gen ctr a b).1.map Prod.fst}
  eval_cse : ∀ σ gen ctr a b, Solves A (cse gen ctr a b).1 σ →
    A.eval σ (cse gen ctr a b).2.1.1 = A.eval σ a ∧ A.eval σ (cse gen ctr a b).2.1.2 = A.eval σ b
  /-- `ac.new_filtered(symbols).new_without_subexpressions().main_assignments` -/
  filtered : AC E → List ℕ → Asms E
  filtered_mem : ∀ ac syms, ∀ p ∈ filtered ac syms, p.1 ∈ syms ∧ p.1 ∈ (ac.subexpressions ++ ac.main).map Prod.fst ∧
    ∀ x ∈ A.vars p.2, Relation.TransGen (Needs A (ac.subexpressions ++ ac.main)) p.1 x
  eval_filtered : ∀ σ ac syms, Solves A (ac.subexpressions ++ ac.main) σ → Solves A (filtered ac syms) σ
  /-- `ac.topological_sort()`, applied to subexpressions and to main assignments; a cycle is an error -/
  topologicalSort : Asms E → Except PyErr (Asms E)
  topologicalSort_ok : ∀ l l', topologicalSort l = .ok l' → l'.Perm l ∧
    l'.Pairwise (fun p q => q.1 ∉ A.vars p.2) ∧ ∀ p ∈ l', p.1 ∉ A.vars p.2
  /-- the subexpressions kept by `ac.new_without_unused_subexpressions()` -/
  used : AC E → Asms E
  used_sublist : ∀ ac, (used ac).Sublist ac.subexpressions
  used_closed : ∀ ac, ∀ p ∈ used ac ++ ac.main, ∀ q ∈ ac.subexpressions, q.1 ∈ A.vars p.2 → q ∈ used ac

/-- The simplification hints; `none` for a missing one. -/
structure Hints where
  velocity : Option (List ℕ)
  density : Option ℕ
  densityDeviation : Option ℕ
  /-- relaxation rates, and the symbols in them -/
  relaxationRates : Option (ℕ × List ℕ)
  forceTerms : List ℕ

section passes
variable (A : Alg E K) (sy : Sympy A)

/-- `cr.copy(result)` with new right-hand sides -/
def mapMain (f : E → E) (ac : AC E) : AC E := { ac with main := ac.main.map fun p => (p.1, f p.2) }

/-- the loop of `replace_second_order_velocity_products` (`momentbasedsimplifications.py:30-32`) -/
def secondOrderLoop (u : List ℕ) : Asms E → Asms E → Asms E × Asms E
  | [], acc => ([], acc)
  | (x, e) :: l, acc =>
    let r := sy.secondOrder u e acc
    let s := secondOrderLoop u l r.2
    ((x, r.1) :: s.1, s.2)

/-- `replace_second_order_velocity_products` (`momentbasedsimplifications.py:18-35`) -/
def replaceSecondOrder (h : Hints) (ac : AC E) : Except PyErr (AC E) :=
  match h.velocity with
  | none => .error .assertion
  | some u =>
    let r := secondOrderLoop A sy u ac.main []
    .ok { ac with subexpressions := ac.subexpressions ++ r.2, main := r.1 }

/-- `factor_relaxation_rates` (`momentbasedsimplifications.py:38-57`) -/
def factorRates (h : Hints) (ac : AC E) : Except PyErr (AC E) :=
  match h.relaxationRates with
  | none => .error .assertion
  | some (number, rates) => if number > 19 then .ok ac else .ok (mapMain (fun e => rates.foldl sy.collect e) ac)

/-- `factor_density_after_factoring_relaxation_times` (`momentbasedsimplifications.py:60-84`) -/
def factorDensity (h : Hints) (ac : AC E) : Except PyErr (AC E) :=
  match h.density, h.relaxationRates with
  | some rho, some (_, rates) =>
    .ok (mapMain (fun e => rates.foldl (fun e r => sy.subs e (sy.coeff e r) (sy.collect (sy.coeff e r) rho)) e) ac)
  | _, _ => .error .assertion

/-- `replace_density_and_velocity` (`momentbasedsimplifications.py:87-107`) -/
def replaceDensityVelocity (h : Hints) (ac : AC E) : Except PyErr (AC E) :=
  match h.density, h.velocity with
  | some rho, some u =>
    .ok (mapMain (fun e => (sy.filtered ac (rho :: u)).foldl (fun e p => sy.subsAdditive e p.1 p.2) e) ac)
  | _, _ => .error .assertion

/-- `__get_common_quadratic_and_constant_terms` (`momentbasedsimplifications.py:365-400`) from the right-hand side of the centre; `free` are the
free symbols of the rule that are no relaxation rates -/
def commonTerms (h : Hints) (rates free : List ℕ) (centre : E) : Except PyErr (Option E) :=
  let t := rates.foldl (fun t r => sy.setTo t r 1) centre
  let t := free.foldl (fun t f => sy.setTo t f 0) t
  let t := h.forceTerms.foldl (fun t f => sy.setTo t f 0) t
  match h.densityDeviation, h.density with
  | some dev, some rho =>
    let weight := sy.setTo (sy.setTo t dev 1) rho 1
    let weight := (h.velocity.getD []).foldl (fun w u => sy.setTo w u 0) weight
    .ok (if sy.isZero weight then none else some (sy.div t weight))
  | _, _ => .error .keyError

/-- `replace_common_quadratic_and_constant_term` (`momentbasedsimplifications.py:110-142`); `common` is the symbol `f_eq_common` -/
def replaceCommon {D : ℕ} (common : ℕ) (S : Stencil D) (h : Hints) (free : List ℕ) (ac : AC E) : Except PyErr (AC E) :=
  match h.density, h.velocity, h.relaxationRates with
  | some _, some _, some (_, rates) =>
    if hQ : 0 < S.Q then
      if S.c ⟨0, hQ⟩ ≠ 0 then .error .assertion
      else
        match ac.main.head? with
        | none => .error .indexError
        | some centre => do
          match ← commonTerms A sy h rates free centre.2 with
          | none => pure ac
          | some t =>
            if sy.nargs t > 1 then
              let ac' := mapMain (fun e => sy.subsAdditive e common t) ac
              pure { ac' with subexpressions := ac.subexpressions ++ [(common, t)] }
            else pure ac
    else .error .indexError
  | _, _, _ => .error .assertion

/-- State of `cse_in_opposing_directions`: `substitutions`, `new_coefficient_substitutions`, symbols taken from the generator -/
structure CseState (E : Type) where
  substitutions : Asms E
  coefficients : List (E × ℕ)
  ctr : ℕ

/-- `new_coefficient_substitutions[new_coefficient]` (`momentbasedsimplifications.py:195-197`) -/
def coefficientFor (gen : ℕ → ℕ) (s : CseState E) (e : E) : ℕ × CseState E :=
  match s.coefficients.find? (fun p => p.1 == e) with
  | some p => (p.2, s)
  | none => (gen s.ctr, { s with coefficients := s.coefficients ++ [(e, gen s.ctr)], ctr := s.ctr + 1 })

/-- one relaxation rate for a pair of rules (`momentbasedsimplifications.py:187-209`) -/
def cseRate (gen : ℕ → ℕ) (s : CseState E) (rules : E × E) (r : ℕ) : (E × E) × CseState E :=
  let t1 := sy.coeff rules.1 r
  let t2 := sy.coeff rules.2 r
  let f1 := sy.commonFactor t1
  let f2 := sy.commonFactor t2
  let same := f1.1 = f2.1 ∧ sy.isOne f1.1 = false
  let c := if same then coefficientFor gen s (sy.mul f1.1 (A.sym r)) else (r, s)
  let handled := if same then (f1.2, f2.2) else (t1, t2)
  let res := sy.cse gen c.2.ctr handled.1 handled.2
  ((sy.subs rules.1 (sy.mul (A.sym r) t1) (sy.mul (A.sym c.1) res.2.1.1),
    sy.subs rules.2 (sy.mul (A.sym r) t2) (sy.mul (A.sym c.1) res.2.1.2)),
    { c.2 with substitutions := c.2.substitutions ++ res.1, ctr := res.2.2 })

/-- a pair of rules (`momentbasedsimplifications.py:178-209`) -/
def csePair (gen : ℕ → ℕ) (rates : List ℕ) (s : CseState E) (rules : E × E) : (E × E) × CseState E :=
  if rates = [] then
    let res := sy.cse gen s.ctr rules.1 rules.2
    (res.2.1, { s with substitutions := s.substitutions ++ res.1, ctr := res.2.2 })
  else rates.foldl (fun q r => cseRate A sy gen q.2 q.1 r) (rules, s)

/-- The loop over directions (`momentbasedsimplifications.py:166-211`): `done` are the directions deleted from `direction_to_update_rule`.
`sp.cse` applied to assignments (line 183) keeps their left-hand sides. -/
def cseLoop {D : ℕ} (gen : ℕ → ℕ) (rates : List ℕ) (S : Stencil D) (main : Asms E) :
    List (Fin S.Q) → List (Fin S.Q) → CseState E → Except PyErr (Asms E × CseState E)
  | [], _, s => .ok ([], s)
  | i :: is, done, s =>
    if i ∈ done then cseLoop gen rates S main is done s
    else
      match main[i.val]? with
      | none => .ok ([], s)
      | some p =>
        match S.index (-S.c i) with
        | none => .error .keyError
        | some j =>
          match main[j.val]? with
          | none => .error .keyError
          | some q =>
            if j = i then do
              let rest ← cseLoop gen rates S main is done s
              pure (p :: rest.1, rest.2)
            else do
              let r := csePair A sy gen rates s (p.2, q.2)
              let rest ← cseLoop gen rates S main is (i :: j :: done) r.2
              pure ((p.1, r.1.1) :: (q.1, r.1.2) :: rest.1, rest.2)

/-- `cse_in_opposing_directions` (`momentbasedsimplifications.py:145-221`); `post` are the post collision symbols of the method -/
def cseOpposing {D : ℕ} (gen : ℕ → ℕ) (S : Stencil D) (post : List ℕ) (h : Hints) (ac : AC E) : Except PyErr (AC E) :=
  match h.relaxationRates with
  | none => .error .assertion
  | some (number, rates) =>
    if number = 0 then .ok ac
    else do
      let r ← cseLoop A sy gen rates S ac.main (List.finRange S.Q) [] ⟨[], [], ac.ctr⟩
      if r.1.all fun p => p.1 ∈ post then
        pure { subexpressions := ac.subexpressions ++ (r.2.substitutions ++ r.2.coefficients.map fun p => (p.2, p.1)),
               main := r.1.mergeSort fun p q => post.idxOf p.1 ≤ post.idxOf q.1, ctr := r.2.ctr }
      else .error .valueError

/-- the loop of `substitute_moments_in_conserved_quantity_equations` (`momentbasedsimplifications.py:250-261`) on the two dictionaries -/
def substituteLoop [∀ e : E, DecidablePred (· ∈ A.vars e)] (reduced : Asms E) :
    List (ℕ × ℕ) → Asms E × Asms E → Except PyErr (Asms E × Asms E)
  | [], d => .ok d
  | (cq, m) :: l, (main, sub) =>
    match SymSplit.get reduced m with
    | none => .error .keyError
    | some momentEq =>
      if cq ∈ A.vars momentEq then .error .assertion
      else
        match SymSplit.get reduced cq with
        | none => .error .keyError
        | some cqEq =>
          let e := sy.subsAdditive cqEq m momentEq
          if (SymSplit.get main cq).isSome then substituteLoop reduced l (SymSplit.set main cq e, sub)
          else if (SymSplit.get sub m).isSome then substituteLoop reduced l (main, SymSplit.set sub cq e)
          else .error .assertion

/-- `substitute_moments_in_conserved_quantity_equations` (`momentbasedsimplifications.py:224-267`); `map` is the hint `cq_symbols_to_moments` -/
def substituteMoments [∀ e : E, DecidablePred (· ∈ A.vars e)] (map : Option (List (ℕ × ℕ))) (ac : AC E) : Except PyErr (AC E) :=
  match map with
  | none => .error .valueError
  | some map =>
    if map = [] then .ok ac
    else do
      let reduced := sy.filtered ac (map.map Prod.fst ++ map.map Prod.snd)
      let d ← substituteLoop A sy reduced map (toDict ac.main, toDict ac.subexpressions)
      let sub ← sy.topologicalSort d.2
      let main ← sy.topologicalSort d.1
      let ac' : AC E := { ac with main := main, subexpressions := sub }
      pure { ac' with subexpressions := sy.used ac' }

/-- The passes of pystencils in the strategy, taken as they are. -/
structure External (E : Type) where
  /-- `apply_to_all_assignments(sp.expand)` -/
  expand : AC E → AC E
  /-- `subexpression_substitution_in_main_assignments` -/
  substitution : AC E → AC E
  /-- `add_subexpressions_for_divisions` -/
  divisions : AC E → AC E
  /-- `insert_constants` -/
  constants : AC E → AC E
  /-- `insert_aliases` -/
  aliases : AC E → AC E

/-- `_srt_trt_population_space_simplification` (`simplificationfactory.py:44-61`); `create_lbm_split_groups` changes no assignments.  `free` are
the free symbols of the rule at the sixth pass that are no relaxation rates. -/
def srtTrtStrategy {D : ℕ} (ext : External E) (common : ℕ) (S : Stencil D) (h : Hints) (free : AC E → List ℕ) (ac : AC E) :
    Except PyErr (AC E) := do
  let ac := ext.expand ac
  let ac ← replaceSecondOrder A sy h ac
  let ac := ext.expand ac
  let ac ← factorRates A sy h ac
  let ac ← replaceDensityVelocity A sy h ac
  let ac ← replaceCommon A sy common S h (free ac) ac
  let ac ← factorDensity A sy h ac
  let ac := ext.aliases (ext.constants (ext.divisions (ext.substitution ac)))
  pure { ac with subexpressions := sy.used ac }

end passes

end Simplify
end Lbm
