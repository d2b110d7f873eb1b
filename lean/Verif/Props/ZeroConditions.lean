/-
C114: `simplify_zero_conditions` does not change the value of an expression and leaves conditions on single symbols; what the
threshold of `chemical_potential_n_phase_boyer` changes.
-/
import Verif.Spec.ZeroConditions
import Mathlib.Algebra.Order.Ring.Abs
import Mathlib.Algebra.BigOperators.Group.List.Lemmas
import Mathlib.Algebra.GroupWithZero.Basic
import Mathlib.Tactic.NormNum
import Mathlib.Tactic.FinCases
import Mathlib.Data.Fintype.Basic
import Mathlib.Tactic.Linarith
import Mathlib.Algebra.Order.Ring.Rat
import Mathlib.Algebra.Field.Rat

namespace Lbm
namespace ZeroConditions

open Spec

variable {V K : Type} [DecidableEq V] [Field K] [LinearOrder K]

/-! ### Evaluated conditions -/

omit [DecidableEq V] in
theorem holds_mkAnd (env : V → K) (a b : Cond V K) : Holds env (mkAnd a b) ↔ Holds env a ∧ Holds env b := by
  cases a <;> cases b <;> simp [mkAnd, Holds]

omit [DecidableEq V] in
theorem holds_mkOr (env : V → K) (a b : Cond V K) : Holds env (mkOr a b) ↔ Holds env a ∨ Holds env b := by
  cases a <;> cases b <;> simp [mkOr, Holds]

omit [DecidableEq V] in
theorem holds_mkNot (env : V → K) (a : Cond V K) : Holds env (mkNot a) ↔ ¬ Holds env a := by
  cases a <;> simp [mkNot, Holds]

omit [DecidableEq V] in
theorem value_collapse (env : V → K) (e : Expr V K) : value env (collapse e) = value env e := by
  cases e with
  | pcase c a r => cases c <;> simp [collapse, value, Holds]
  | _ => simp [collapse, value]

omit [DecidableEq V] in
theorem value_pcase (env : V → K) (c : Cond V K) (a r : Expr V K) (h : Holds env c) : value env (.pcase c a r) = value env a := by
  rw [value]; exact if_pos h

omit [DecidableEq V] in
theorem value_pcase_not (env : V → K) (c : Cond V K) (a r : Expr V K) (h : ¬ Holds env c) :
    value env (.pcase c a r) = value env r := by
  rw [value]; exact if_neg h

omit [DecidableEq V] in
theorem value_branch (env : V → K) (c : Cond V K) (a r : Expr V K) : value env (branch c a r) = value env (.pcase c a r) := by
  cases c <;> simp [branch, value, Holds]

omit [LinearOrder K] in
theorem map_update (v : V) (env : V → K) (vs : List V) (h : v ∉ vs) : vs.map (Function.update env v 0) = vs.map env := by
  refine List.map_congr_left fun w hw => ?_
  rw [Function.update_of_ne]
  rintro rfl
  exact h hw

omit [DecidableEq V] [LinearOrder K] in
theorem prod_zero (env : V → K) (vs : List V) : (vs.map env).prod = 0 ↔ ∃ v ∈ vs, env v = 0 := by
  induction vs with
  | nil => simp
  | cons w vs ih => simp [ih, mul_eq_zero]

theorem holds_zero [IsStrictOrderedRing K] (v : V) (env : V → K) (c : Cond V K) : Holds env (c.zero v) ↔ Holds (Function.update env v 0) c := by
  induction c with
  | eq0 vs =>
    unfold Cond.zero
    split_ifs with h
    · simp only [Holds, true_iff]
      rw [prod_zero]
      exact ⟨v, h, by simp⟩
    · simp only [Holds]
      rw [map_update v env vs h]
  | le0 w =>
    unfold Cond.zero
    split_ifs with h
    · subst h; simp [Holds]
    · simp only [Holds]
      rw [Function.update_of_ne (Ne.symm h)]
  | absLt t w =>
    unfold Cond.zero
    split_ifs with h ht
    · subst h; simp [Holds, ht]
    · subst h; simpa [Holds] using ht
    · simp only [Holds]
      rw [Function.update_of_ne (Ne.symm h)]
  | and a b ha hb => simp only [Cond.zero, holds_mkAnd, ha, hb, Holds]
  | or a b ha hb => simp only [Cond.zero, holds_mkOr, ha, hb, Holds]
  | not a ha => simp only [Cond.zero, holds_mkNot, ha, Holds]
  | tt => simp [Cond.zero, Holds]
  | ff => simp [Cond.zero, Holds]

/-- Substituting zero is setting the symbol to zero. -/
theorem value_zero [IsStrictOrderedRing K] (v : V) (env : V → K) (e : Expr V K) : value env (e.zero v) = value (Function.update env v 0) e := by
  induction e with
  | sym w =>
    unfold Expr.zero
    split_ifs with h
    · subst h; simp [value]
    · simp [value, h]
  | pw r h => rw [Expr.zero, value_collapse, h]; rfl
  | pcase c a r ha hr => 
    rw [Expr.zero, value_branch]
    by_cases h : Holds env (c.zero v)
    · rw [value_pcase _ _ _ _ h, value_pcase _ _ _ _ ((holds_zero v env c).1 h), ha]
    · rw [value_pcase_not _ _ _ _ h, value_pcase_not _ _ _ _ fun h' => h ((holds_zero v env c).2 h'), hr]
  | add a b ha hb => simp only [Expr.zero, value, ha, hb]
  | mul a b ha hb => simp only [Expr.zero, value, ha, hb]
  | inv a h => simp only [Expr.zero, value, h]
  | abs a h => simp only [Expr.zero, value, h]
  | num q => rfl
  | pend => rfl

theorem holds_nonzero (s : Finset V) (env : V → K) (hs : ∀ v ∈ s, env v ≠ 0) (c : Cond V K) :
    Holds env (c.nonzero s) ↔ Holds env c := by
  induction c with
  | eq0 vs =>
    unfold Cond.nonzero
    split_ifs with h
    · simp only [Holds, false_iff]
      rw [prod_zero]
      rintro ⟨v, hv, h0⟩
      exact hs v (h v hv) h0
    · exact Iff.rfl
  | and a b ha hb => simp only [Cond.nonzero, holds_mkAnd, ha, hb, Holds]
  | or a b ha hb => simp only [Cond.nonzero, holds_mkOr, ha, hb, Holds]
  | not a ha => simp only [Cond.nonzero, holds_mkNot, ha, Holds]
  | _ => exact Iff.rfl

theorem value_nonzero (s : Finset V) (env : V → K) (hs : ∀ v ∈ s, env v ≠ 0) (e : Expr V K) :
    value env (e.nonzero s) = value env e := by
  induction e with
  | pw r h => rw [Expr.nonzero, value_collapse, h]; rfl
  | pcase c a r ha hr => 
    rw [Expr.nonzero, value_branch]
    by_cases h : Holds env (c.nonzero s)
    · rw [value_pcase _ _ _ _ h, value_pcase _ _ _ _ ((holds_nonzero s env hs c).1 h), ha]
    · rw [value_pcase_not _ _ _ _ h, value_pcase_not _ _ _ _ fun h' => h ((holds_nonzero s env hs c).2 h'), hr]
  | add a b ha hb => simp only [Expr.nonzero, value, ha, hb]
  | mul a b ha hb => simp only [Expr.nonzero, value, ha, hb]
  | inv a h => simp only [Expr.nonzero, value, h]
  | abs a h => simp only [Expr.nonzero, value, h]
  | _ => rfl

omit [DecidableEq V] in
theorem holds_zeroCondition (nonneg : V → Bool) (env : V → K) (hn : ∀ v, nonneg v = true → 0 ≤ env v) (v : V) :
    Holds env (zeroCondition nonneg v : Cond V K) ↔ env v = 0 := by
  unfold zeroCondition
  split_ifs with h
  · exact ⟨fun h' => le_antisymm h' (hn v h), fun h' => le_of_eq h'⟩
  · simp [Holds]

omit [DecidableEq V] in
/-- The value of the cases that `simplify_zero_conditions` writes. -/
theorem value_chain (nonneg : V → Bool) (env : V → K) (last : Expr V K) (x : Option K) (l : List (V × Expr V K))
    (h1 : ∀ p ∈ l, Holds env (zeroCondition nonneg p.1 : Cond V K) → value env p.2 = x)
    (h2 : (∀ p ∈ l, ¬ Holds env (zeroCondition nonneg p.1 : Cond V K)) → value env last = x) :
    value env (chain nonneg last l) = x := by
  induction l with
  | nil => rw [chain, value_pcase env .tt _ _ trivial]; exact h2 (by simp)
  | cons p l ih =>
    obtain ⟨v, e⟩ := p
    by_cases h : Holds env (zeroCondition nonneg v : Cond V K)
    · rw [chain, value_pcase _ _ _ _ h]
      exact h1 (v, e) (by simp) h
    · rw [chain, value_pcase_not _ _ _ _ h]
      refine ih (fun p hp => h1 p (List.mem_cons_of_mem _ hp)) fun hl => h2 ?_
      intro p hp
      rcases List.mem_cons.1 hp with rfl | hp
      · exact h
      · exact hl p hp

/-- C114. The value of an expression does not change: for all values of the symbols that agree with the assumptions, whatever the
order of the variables; where the expression has no value the result has none. -/
theorem C114_value [IsStrictOrderedRing K] (nonneg : V → Bool) (order : (s : Finset V) → {l : List V // ∀ v, v ∈ l ↔ v ∈ s}) (env : V → K)
    (hn : ∀ v, nonneg v = true → 0 ≤ env v) (e : Expr V K) : value env (simplify nonneg order e) = value env e := by
  induction hk : (allVars e).card using Nat.strong_induction_on generalizing e with
  | _ k ih =>
    rw [simplify]
    split_ifs with hc
    · rfl
    · rw [value]
      refine value_chain nonneg env _ _ _ ?_ ?_
      · intro p hp hz
        obtain ⟨⟨v, hv⟩, -, rfl⟩ := List.mem_map.1 hp
        rw [holds_zeroCondition nonneg env hn] at hz
        have hmem : v ∈ allVars e := conditionVariables_subset e (((order (conditionVariables e)).2 v).1 hv)
        rw [ih _ (hk ▸ lt_of_le_of_lt (Finset.card_le_card (allVars_zero v e)) (Finset.card_erase_lt_of_mem hmem)) _ rfl,
          value_zero, ← hz, Function.update_eq_self]
      · intro hl
        refine value_nonzero _ env (fun v hv h0 => ?_) e
        have hv' : v ∈ (order (conditionVariables e)).1 := ((order (conditionVariables e)).2 v).2 hv
        refine hl (v, simplify nonneg order (e.zero v)) (List.mem_map.2 ⟨⟨v, hv'⟩, List.mem_attach _ _, rfl⟩) ?_
        rw [holds_zeroCondition nonneg env hn]
        exact h0

/-! ### The conditions that are left -/

/-- every condition is `True` -/
def AllTrue : Expr V K → Prop
  | .add a b => AllTrue a ∧ AllTrue b
  | .mul a b => AllTrue a ∧ AllTrue b
  | .inv a => AllTrue a
  | .abs a => AllTrue a
  | .pw r => AllTrue r
  | .pcase c a r => c = .tt ∧ AllTrue a ∧ AllTrue r
  | _ => True

omit [DecidableEq V] [Field K] [LinearOrder K] in
theorem AllTrue.single {e : Expr V K} (h : AllTrue e) : SingleTests e := by
  induction e with
  | add a b ha hb => exact ⟨ha h.1, hb h.2⟩
  | mul a b ha hb => exact ⟨ha h.1, hb h.2⟩
  | inv a ha => exact ha h
  | abs a ha => exact ha h
  | pw a ha => exact ha h
  | pcase c a r ha hr =>
    obtain ⟨rfl, h1, h2⟩ := h
    exact ⟨trivial, ha h1, hr h2⟩
  | _ => trivial

omit [DecidableEq V] [Field K] [LinearOrder K] in
theorem AllTrue.threshold (t : K) {e : Expr V K} (h : AllTrue e) : e.threshold t = e := by
  induction e with
  | add a b ha hb => rw [Expr.threshold, ha h.1, hb h.2]
  | mul a b ha hb => rw [Expr.threshold, ha h.1, hb h.2]
  | inv a ha => rw [Expr.threshold, ha h]
  | abs a ha => rw [Expr.threshold, ha h]
  | pw a ha => rw [Expr.threshold, ha h]
  | pcase c a r ha hr =>
    obtain ⟨rfl, h1, h2⟩ := h
    rw [Expr.threshold, ha h1, hr h2]; rfl
  | _ => rfl

omit [DecidableEq V] [Field K] [LinearOrder K] in
theorem NoCases.allTrue {e : Expr V K} (h : NoCases e) : AllTrue e := by
  induction e with
  | add a b ha hb => exact ⟨ha h.1, hb h.2⟩
  | mul a b ha hb => exact ⟨ha h.1, hb h.2⟩
  | inv a ha => exact ha h
  | abs a ha => exact ha h
  | pw a ha => exact h.elim
  | pcase c a r ha hr => exact h.elim
  | _ => trivial

omit [DecidableEq V] [Field K] [LinearOrder K] in
theorem NoCases.flat {e : Expr V K} (h : NoCases e) : Flat e := by
  induction e with
  | add a b ha hb => exact ⟨ha h.1, hb h.2⟩
  | mul a b ha hb => exact ⟨ha h.1, hb h.2⟩
  | inv a ha => exact ha h
  | abs a ha => exact ha h
  | pw a ha => exact h.elim
  | pcase c a r ha hr => exact h.elim
  | pend => exact h.elim
  | _ => trivial

theorem NoCases.zero (v : V) {e : Expr V K} (h : NoCases e) : NoCases (e.zero v) := by
  induction e with
  | add a b ha hb => exact ⟨ha h.1, hb h.2⟩
  | mul a b ha hb => exact ⟨ha h.1, hb h.2⟩
  | inv a ha => exact ha h
  | abs a ha => exact ha h
  | sym w => unfold Expr.zero; split_ifs <;> trivial
  | num q => trivial
  | pw a ha => exact h.elim
  | pcase c a r ha hr => exact h.elim
  | pend => exact h.elim

omit [Field K] [LinearOrder K] in
theorem NoCases.nonzero (s : Finset V) {e : Expr V K} (h : NoCases e) : NoCases (e.nonzero s) := by
  induction e with
  | add a b ha hb => exact ⟨ha h.1, hb h.2⟩
  | mul a b ha hb => exact ⟨ha h.1, hb h.2⟩
  | inv a ha => exact ha h
  | abs a ha => exact ha h
  | sym w => trivial
  | num q => trivial
  | pw a ha => exact h.elim
  | pcase c a r ha hr => exact h.elim
  | pend => exact h.elim

/-- an evaluated condition on products -/
def Evaluated (c : Cond V K) : Prop := c = .tt ∨ c = .ff ∨ ProductTest c

omit [DecidableEq V] [Field K] [LinearOrder K] in
theorem Evaluated.mkAnd {a b : Cond V K} (ha : Evaluated a) (hb : Evaluated b) : Evaluated (mkAnd a b) := by
  unfold Evaluated at *
  rcases ha with rfl | rfl | ha
  · cases b <;> simp_all [ZeroConditions.mkAnd]
  · cases b <;> simp [ZeroConditions.mkAnd]
  · rcases hb with rfl | rfl | hb
    · cases a <;> simp_all [ZeroConditions.mkAnd]
    · cases a <;> simp [ZeroConditions.mkAnd]
    · cases a <;> cases b <;> simp_all [ZeroConditions.mkAnd, ProductTest]

omit [DecidableEq V] [Field K] [LinearOrder K] in
theorem Evaluated.mkOr {a b : Cond V K} (ha : Evaluated a) (hb : Evaluated b) : Evaluated (mkOr a b) := by
  unfold Evaluated at *
  rcases ha with rfl | rfl | ha
  · cases b <;> simp [ZeroConditions.mkOr]
  · cases b <;> simp_all [ZeroConditions.mkOr]
  · rcases hb with rfl | rfl | hb
    · cases a <;> simp [ZeroConditions.mkOr]
    · cases a <;> simp_all [ZeroConditions.mkOr]
    · cases a <;> cases b <;> simp_all [ZeroConditions.mkOr, ProductTest]

omit [DecidableEq V] [Field K] [LinearOrder K] in
theorem Evaluated.mkNot {a : Cond V K} (ha : Evaluated a) : Evaluated (mkNot a) := by
  unfold Evaluated at *
  rcases ha with rfl | rfl | ha
  · simp [ZeroConditions.mkNot]
  · simp [ZeroConditions.mkNot]
  · cases a <;> simp_all [ZeroConditions.mkNot, ProductTest]

theorem ProductTest.zero (v : V) {c : Cond V K} (h : ProductTest c) : Evaluated (c.zero v) := by
  induction c with
  | eq0 vs =>
    unfold Cond.zero
    split_ifs
    · exact .inl rfl
    · exact .inr (.inr h)
  | and a b ha hb => exact (ha h.1).mkAnd (hb h.2)
  | or a b ha hb => exact (ha h.1).mkOr (hb h.2)
  | not a ha => exact (ha h).mkNot
  | _ => exact h.elim

omit [Field K] [LinearOrder K] in
theorem ProductTest.nonzero (s : Finset V) {c : Cond V K} (h : ProductTest c) (hs : c.vars ⊆ s) :
    c.nonzero s = .tt ∨ c.nonzero s = .ff := by
  induction c with
  | eq0 vs =>
    unfold Cond.nonzero
    rw [if_pos fun v hv => hs (by simpa [Cond.vars] using hv)]
    exact .inr rfl
  | and a b ha hb =>
    have hs' : a.vars ⊆ s ∧ b.vars ⊆ s := Finset.union_subset_iff.1 hs
    rcases ha h.1 hs'.1 with e1 | e1 <;> rcases hb h.2 hs'.2 with e2 | e2 <;> simp [Cond.nonzero, e1, e2, mkAnd]
  | or a b ha hb =>
    have hs' : a.vars ⊆ s ∧ b.vars ⊆ s := Finset.union_subset_iff.1 hs
    rcases ha h.1 hs'.1 with e1 | e1 <;> rcases hb h.2 hs'.2 with e2 | e2 <;> simp [Cond.nonzero, e1, e2, mkOr]
  | not a ha => rcases ha h hs with e1 | e1 <;> simp [Cond.nonzero, e1, mkNot]
  | _ => exact h.elim

omit [Field K] [LinearOrder K] in
theorem ProductTest.vars {c : Cond V K} (h : ProductTest c) : c.vars ≠ ∅ := by
  induction c with
  | eq0 vs =>
    have h' : vs ≠ [] := h
    simpa [Cond.vars] using h'
  | and a b ha hb => intro e; exact ha h.1 (Finset.union_eq_empty.1 e).1
  | or a b ha hb => intro e; exact ha h.1 (Finset.union_eq_empty.1 e).1
  | not a ha => exact ha h
  | _ => exact h.elim

theorem FlatChain.zero (v : V) {r : Expr V K} (h : FlatChain r) : FlatChain (r.zero v) := by
  induction r with
  | pcase c a r ha hr =>
    obtain ⟨hc, h1, h2⟩ := h
    have he : Evaluated (c.zero v) := by
      rcases hc with rfl | hc
      · exact .inl rfl
      · exact ProductTest.zero v hc
    rw [Expr.zero]
    generalize c.zero v = c' at he
    rcases he with rfl | rfl | he
    · exact ⟨.inl rfl, NoCases.zero v h1, trivial⟩
    · exact hr h2
    · cases c' with
      | tt => exact he.elim
      | ff => exact he.elim
      | _ => exact ⟨.inr he, NoCases.zero v h1, hr h2⟩
  | pend => trivial
  | _ => exact h.elim

omit [DecidableEq V] [Field K] [LinearOrder K] in
theorem FlatChain.collapse {r : Expr V K} (h : FlatChain r) : Flat (collapse r) := by
  cases r with
  | pcase c a r => cases c with
    | tt => exact NoCases.flat h.2.1
    | _ => exact h
  | pend => exact h
  | _ => exact h.elim

theorem Flat.zero (v : V) {e : Expr V K} (h : Flat e) : Flat (e.zero v) := by
  induction e with
  | add a b ha hb => exact ⟨ha h.1, hb h.2⟩
  | mul a b ha hb => exact ⟨ha h.1, hb h.2⟩
  | inv a ha => exact ha h
  | abs a ha => exact ha h
  | sym w => unfold Expr.zero; split_ifs <;> trivial
  | num q => trivial
  | pw r _ => exact FlatChain.collapse (FlatChain.zero v h)
  | pcase c a r ha hr => exact h.elim
  | pend => exact h.elim

omit [Field K] [LinearOrder K] in
theorem FlatChain.allTrue {r : Expr V K} (h : FlatChain r) (hv : conditionVariables r = ∅) : AllTrue r := by
  induction r with
  | pcase c a r ha hr =>
    obtain ⟨hc, h1, h2⟩ := h
    have hv' := Finset.union_eq_empty.1 hv
    rcases hc with rfl | hc
    · exact ⟨rfl, NoCases.allTrue h1, hr h2 hv'.2⟩
    · exact absurd hv'.1 (ProductTest.vars hc)
  | pend => trivial
  | _ => exact h.elim

omit [Field K] [LinearOrder K] in
theorem Flat.allTrue {e : Expr V K} (h : Flat e) (hv : conditionVariables e = ∅) : AllTrue e := by
  induction e with
  | add a b ha hb => exact ⟨ha h.1 (Finset.union_eq_empty.1 hv).1, hb h.2 (Finset.union_eq_empty.1 hv).2⟩
  | mul a b ha hb => exact ⟨ha h.1 (Finset.union_eq_empty.1 hv).1, hb h.2 (Finset.union_eq_empty.1 hv).2⟩
  | inv a ha => exact ha h hv
  | abs a ha => exact ha h hv
  | pw r _ => exact FlatChain.allTrue (r := r) h hv
  | pcase c a r ha hr => exact h.elim
  | pend => exact h.elim
  | _ => trivial

omit [Field K] [LinearOrder K] in
theorem FlatChain.nonzero (s : Finset V) {r : Expr V K} (h : FlatChain r) (hs : conditionVariables r ⊆ s) :
    AllTrue (r.nonzero s) := by
  induction r with
  | pcase c a r ha hr =>
    obtain ⟨hc, h1, h2⟩ := h
    have hs' := Finset.union_subset_iff.1 hs
    have he : c.nonzero s = .tt ∨ c.nonzero s = .ff := by
      rcases hc with rfl | hc
      · exact .inl rfl
      · exact ProductTest.nonzero s hc hs'.1
    rw [Expr.nonzero]
    rcases he with e | e <;> rw [e]
    · exact ⟨rfl, NoCases.allTrue (NoCases.nonzero s h1), trivial⟩
    · exact hr h2 hs'.2
  | pend => trivial
  | _ => exact h.elim

omit [DecidableEq V] [Field K] [LinearOrder K] in
theorem AllTrue.collapse {r : Expr V K} (h : AllTrue r) : AllTrue (collapse r) := by
  cases r with
  | pcase c a r => cases c with
    | tt => exact h.2.1
    | _ => exact h
  | _ => exact h

omit [Field K] [LinearOrder K] in
theorem Flat.nonzero (s : Finset V) {e : Expr V K} (h : Flat e) (hs : conditionVariables e ⊆ s) : AllTrue (e.nonzero s) := by
  induction e with
  | add a b ha hb => exact ⟨ha h.1 (Finset.union_subset_iff.1 hs).1, hb h.2 (Finset.union_subset_iff.1 hs).2⟩
  | mul a b ha hb => exact ⟨ha h.1 (Finset.union_subset_iff.1 hs).1, hb h.2 (Finset.union_subset_iff.1 hs).2⟩
  | inv a ha => exact ha h hs
  | abs a ha => exact ha h hs
  | pw r _ => exact AllTrue.collapse (FlatChain.nonzero s h hs)
  | pcase c a r ha hr => exact h.elim
  | pend => exact h.elim
  | _ => trivial

omit [DecidableEq V] [Field K] [LinearOrder K] in
theorem single_chain (nonneg : V → Bool) (last : Expr V K) (l : List (V × Expr V K)) (hl : SingleTests last)
    (h : ∀ p ∈ l, SingleTests p.2) : SingleTests (chain nonneg last l) := by
  induction l with
  | nil => exact ⟨trivial, hl, trivial⟩
  | cons p l ih =>
    obtain ⟨v, e⟩ := p
    refine ⟨?_, h (v, e) (by simp), ih fun p hp => h p (List.mem_cons_of_mem _ hp)⟩
    unfold zeroCondition
    split_ifs <;> trivial

/-- C114. Cases that are not nested, with conditions on products of symbols (as those of `capital_h`): afterwards every condition
tests one symbol. -/
theorem C114_single (nonneg : V → Bool) (order : (s : Finset V) → {l : List V // ∀ v, v ∈ l ↔ v ∈ s}) (e : Expr V K) (h : Flat e) :
    SingleTests (simplify nonneg order e) := by
  induction hk : (allVars e).card using Nat.strong_induction_on generalizing e with
  | _ k ih =>
    rw [simplify]
    split_ifs with hc
    · exact (Flat.allTrue h hc).single
    · refine single_chain nonneg _ _ (Flat.nonzero _ h subset_rfl).single ?_
      intro p hp
      obtain ⟨⟨v, hv⟩, -, rfl⟩ := List.mem_map.1 hp
      have hmem : v ∈ allVars e := conditionVariables_subset e (((order (conditionVariables e)).2 v).1 hv)
      exact ih _ (hk ▸ lt_of_le_of_lt (Finset.card_le_card (allVars_zero v e)) (Finset.card_erase_lt_of_mem hmem)) _
        (Flat.zero v h) rfl

/-! ### The threshold -/

omit [DecidableEq V] [Field K] [LinearOrder K] in
theorem threshold_chain (nonneg : V → Bool) (t : K) (last : Expr V K) (l : List (V × Expr V K)) (hl : last.threshold t = last)
    (hn : ∀ v, nonneg v = true) (h : ∀ p ∈ l, p.2.threshold t = p.2) : (chain nonneg last l).threshold t = chain nonneg last l := by
  induction l with
  | nil => simp only [chain, Expr.threshold, hl, Cond.threshold]
  | cons p l ih =>
    obtain ⟨v, e⟩ := p
    have he : e.threshold t = e := h (v, e) (by simp)
    simp only [chain, Expr.threshold, he, ih fun p hp => h p (List.mem_cons_of_mem _ hp), zeroCondition, hn, if_true, Cond.threshold]

/-- C114. The threshold is ignored for symbols that sympy knows to be not negative. -/
theorem C114_threshold_ignored (nonneg : V → Bool) (hn : ∀ v, nonneg v = true)
    (order : (s : Finset V) → {l : List V // ∀ v, v ∈ l ↔ v ∈ s}) (t : K) (e : Expr V K) (h : Flat e) :
    (simplify nonneg order e).threshold t = simplify nonneg order e := by
  induction hk : (allVars e).card using Nat.strong_induction_on generalizing e with
  | _ k ih =>
    rw [simplify]
    split_ifs with hc
    · exact (Flat.allTrue h hc).threshold t
    · rw [Expr.threshold, threshold_chain nonneg t _ _ ((Flat.nonzero _ h subset_rfl).threshold t) hn]
      intro p hp
      obtain ⟨⟨v, hv⟩, -, rfl⟩ := List.mem_map.1 hp
      have hmem : v ∈ allVars e := conditionVariables_subset e (((order (conditionVariables e)).2 v).1 hv)
      exact ih _ (hk ▸ lt_of_le_of_lt (Finset.card_le_card (allVars_zero v e)) (Finset.card_erase_lt_of_mem hmem)) _
        (Flat.zero v h) rfl

omit [DecidableEq V] in
/-- The value of the cases with a threshold: the first symbol below it decides. -/
theorem value_threshold_chain (nonneg : V → Bool) (hn : ∀ v, nonneg v = false) (t : K) (env : V → K) (last : Expr V K)
    (l : List (V × Expr V K)) :
    (∃ p ∈ l, |env p.1| < t ∧ value env ((chain nonneg last l).threshold t) = value env (p.2.threshold t)) ∨
      ((∀ p ∈ l, t ≤ |env p.1|) ∧ value env ((chain nonneg last l).threshold t) = value env (last.threshold t)) := by
  induction l with
  | nil => exact .inr ⟨by simp, value_pcase env .tt _ _ trivial⟩
  | cons p l ih =>
    obtain ⟨v, e⟩ := p
    have hval : value env ((chain nonneg last ((v, e) :: l)).threshold t) =
        if |env v| < t then value env (e.threshold t) else value env ((chain nonneg last l).threshold t) := by
      have hz : (zeroCondition nonneg v : Cond V K).threshold t = .absLt t v := by simp [zeroCondition, hn, Cond.threshold]
      rw [chain, Expr.threshold, hz]
      split_ifs with h
      · exact value_pcase env (.absLt t v) _ _ h
      · exact value_pcase_not env (.absLt t v) _ _ h
    by_cases hlt : |env v| < t
    · left
      exact ⟨(v, e), by simp, hlt, by rw [hval, if_pos hlt]⟩
    · rw [hval, if_neg hlt]
      rcases ih with ⟨p, hp, h1, h2⟩ | ⟨h1, h2⟩
      · exact .inl ⟨p, List.mem_cons_of_mem _ hp, h1, h2⟩
      · refine .inr ⟨fun p hp => ?_, h2⟩
        rcases List.mem_cons.1 hp with rfl | hp
        · exact not_lt.1 hlt
        · exact h1 p hp

/-- C114. With a threshold the value is that of the expression with some of the symbols below the threshold set to zero, at least
one of the variables in its conditions if one of these is below; so nothing changes where all symbols are above. -/
theorem C114_threshold [IsStrictOrderedRing K] (nonneg : V → Bool) (hn : ∀ v, nonneg v = false)
    (order : (s : Finset V) → {l : List V // ∀ v, v ∈ l ↔ v ∈ s}) (t : K) (ht : 0 < t) (env : V → K) (e : Expr V K) (h : Flat e) :
    ∃ s : Finset V, (∀ v ∈ s, |env v| < t) ∧ ((∃ v ∈ conditionVariables e, |env v| < t) → ∃ v ∈ conditionVariables e, v ∈ s) ∧
      value env ((simplify nonneg order e).threshold t) = value (zeroed s env) e := by
  have hempty : zeroed ∅ env = env := by funext v; simp [zeroed]
  induction hk : (allVars e).card using Nat.strong_induction_on generalizing e with
  | _ k ih =>
    rw [simplify]
    split_ifs with hc
    · refine ⟨∅, by simp, fun ⟨v, hv, _⟩ => by rw [hc] at hv; simp at hv, ?_⟩
      rw [(Flat.allTrue h hc).threshold t, hempty]
    · rw [Expr.threshold, value]
      rcases value_threshold_chain nonneg hn t env (e.nonzero (conditionVariables e))
        ((order (conditionVariables e)).1.attach.map fun v => (v.1, simplify nonneg order (e.zero v.1))) with
        ⟨p, hp, hlt, hval⟩ | ⟨hall, hval⟩
      · obtain ⟨⟨v, hv⟩, -, rfl⟩ := List.mem_map.1 hp
        have hcv : v ∈ conditionVariables e := ((order (conditionVariables e)).2 v).1 hv
        have hmem : v ∈ allVars e := conditionVariables_subset e hcv
        obtain ⟨s, hs, -, hs2⟩ := ih _
          (hk ▸ lt_of_le_of_lt (Finset.card_le_card (allVars_zero v e)) (Finset.card_erase_lt_of_mem hmem)) _ (Flat.zero v h) rfl
        refine ⟨insert v s, ?_, fun _ => ⟨v, hcv, Finset.mem_insert_self _ _⟩, ?_⟩
        · intro w hw
          rcases Finset.mem_insert.1 hw with rfl | hw
          · exact hlt
          · exact hs w hw
        · rw [hval, hs2, value_zero]
          congr 1
          funext w
          by_cases hw : w = v
          · subst hw; simp [zeroed]
          · simp [zeroed, hw]
      · have hall' : ∀ v ∈ conditionVariables e, t ≤ |env v| := fun v hv =>
          hall (v, simplify nonneg order (e.zero v))
            (List.mem_map.2 ⟨⟨v, ((order (conditionVariables e)).2 v).2 hv⟩, List.mem_attach _ _, rfl⟩)
        refine ⟨∅, by simp, fun ⟨v, hv, hlt⟩ => absurd hlt (not_lt.2 (hall' v hv)), ?_⟩
        rw [hval, (Flat.nonzero _ h subset_rfl).threshold t, hempty]
        refine value_nonzero _ env (fun v hv h0 => ?_) e
        have := hall' v hv
        rw [h0, abs_zero] at this
        exact absurd ht (not_lt.2 this)

/-! ### The derivative of `capital_h` -/

/-- the square of an expression -/
def sq (e : Expr V K) : Expr V K := .mul e e

/-- `capital_h(u, u * w).fdiff(2)` (`n_phase_boyer.py:162-175`) of symbols `0` for `u` and `1` for `w` -/
def derivative : Expr (Fin 2) ℚ :=
  let v : Expr (Fin 2) ℚ := .mul (.sym 0) (.sym 1)
  .pw (.pcase (.and (.eq0 [0]) (.eq0 [0, 1])) (.num 1)
    (.pcase .tt (.mul (.add (.mul (.num 2) (.mul (.abs v) (sq (.sym 0)))) (sq v)) (.inv (sq (.add (.abs v) (sq (.sym 0)))))) .pend))

example : Flat derivative := by simp [derivative, Flat, FlatChain, ProductTest, NoCases, sq]

theorem value_derivative (env : Fin 2 → ℚ) (h : ¬ (env 0 = 0)) : value env derivative =
    some ((2 * (|env 0 * env 1| * (env 0 * env 0)) + env 0 * env 1 * (env 0 * env 1)) *
      ((|env 0 * env 1| + env 0 * env 0) * (|env 0 * env 1| + env 0 * env 0))⁻¹) := by
  have hc : ¬ Holds env (.and (.eq0 [0]) (.eq0 [0, 1])) := by simp [Holds, h]
  have hd : |env 0 * env 1| + env 0 * env 0 ≠ 0 := by
    have h1 : 0 ≤ |env 0 * env 1| := abs_nonneg _
    have h2 : 0 < env 0 * env 0 := mul_self_pos.2 h
    exact ne_of_gt (by linarith)
  unfold derivative
  simp only
  rw [value, value_pcase_not _ _ _ _ hc, value_pcase env .tt _ _ trivial]
  rw [abs_mul] at hd
  simp [value, sq, hd]

theorem value_derivative_zero (env : Fin 2 → ℚ) (h : env 0 = 0) : value env derivative = some 1 := by
  have hc : Holds env (.and (.eq0 [0]) (.eq0 [0, 1])) := by simp [Holds, h]
  unfold derivative
  simp only
  rw [value, value_pcase _ _ _ _ hc, value]

/-- C114. With a threshold the derivative of `capital_h` changes below it: at `u = w = 1/100` it is `3/4`, with the threshold `0` or `1`. -/
theorem C114_threshold_changes (order : (s : Finset (Fin 2)) → {l : List (Fin 2) // ∀ v, v ∈ l ↔ v ∈ s}) :
    value (fun _ => (1 / 100 : ℚ)) derivative = some (3 / 4) ∧
    value (fun _ => (1 / 100 : ℚ)) ((simplify (fun _ => false) order derivative).threshold (1 / 10)) ≠ some (3 / 4) := by
  constructor
  · rw [value_derivative _ (by norm_num)]
    norm_num [abs_of_pos]
  · obtain ⟨s, -, h2, h3⟩ := C114_threshold (fun _ => false) (fun _ => rfl) order (1 / 10 : ℚ) (by norm_num) (fun _ => 1 / 100)
      derivative (by simp [derivative, Flat, FlatChain, ProductTest, NoCases, sq])
    rw [h3]
    by_cases h0 : (0 : Fin 2) ∈ s
    · rw [value_derivative_zero _ (by simp [zeroed, h0])]
      norm_num
    · have h1 : (1 : Fin 2) ∈ s := by
        obtain ⟨v, -, hv⟩ := h2 ⟨0, by decide, by norm_num [abs_of_pos]⟩
        fin_cases v
        · exact absurd hv h0
        · exact hv
      rw [value_derivative _ (by simp [zeroed, h0])]
      simp [zeroed, h0, h1]
      norm_num

/-- C114, an example: `u = 0`, where the formula of the last case divides by zero, through the theorem. -/
example (order : (s : Finset (Fin 2)) → {l : List (Fin 2) // ∀ v, v ∈ l ↔ v ∈ s}) :
    value (fun _ => (0 : ℚ)) (simplify (fun _ => false) order derivative) = some 1 := by
  rw [C114_value _ _ _ (by simp), value_derivative_zero _ rfl]

end ZeroConditions
end Lbm
