/-
C124: solvability conditions and loops of the analysis of higher order.
-/
import Verif.HigherOrder
import Verif.Props.CeSubst
import Verif.Props.Moments

namespace Lbm
namespace HigherOrder

open CeSubst Ex

variable {K : Type} [Field K]

/-- C124. The conditions are those for density and momentum at all orders up to the given one, including order zero. -/
theorem C124_conditions (dim order : ℕ) (hd : 1 ≤ dim) : ∃ l, solvabilityConditions dim order = some l ∧
    ∀ n t s, (n, t, s) ∈ l ↔ t.length = dim ∧ t.sum ≤ 1 ∧ 0 ≤ s ∧ s ≤ order := by
  obtain ⟨ms, h1, -, h2⟩ := C15_moments_up_to_order 1 dim hd true
  refine ⟨_, by rw [solvabilityConditions, h1]; rfl, fun n t s => ?_⟩
  have hn : n ∈ [Name.pre, Name.post] := by cases n <;> simp
  simp only [List.mem_flatMap, List.mem_map, List.mem_range, Prod.mk.injEq]
  constructor
  · rintro ⟨n', -, t', ht, k, hk, rfl, rfl, rfl⟩
    have := (h2 _).1 ht
    refine ⟨this.1, this.2.1, by omega, by omega⟩
  · rintro ⟨a, b, c, d⟩
    exact ⟨n, hn, t, (h2 _).2 ⟨a, b, fun h => nomatch h⟩, s.toNat, by omega, rfl, rfl, by omega⟩

/-- Moments that do not occur do not matter. -/
theorem eval_congr_occurs (v w : Val K) (P : Name → List ℕ → ℤ → Prop) (hs : v.sym = w.sym) (hd : v.diff = w.diff)
    (hm : ∀ n t s, ¬ P n t s → v.mom n t s = w.mom n t s) (e : Ex K) (he : ¬ Occurs P e) : eval v e = eval w e := by
  induction e with
  | num a => rfl
  | sym s => simp only [eval, hs]
  | mom n t s => exact hm n t s he
  | add a b iha ihb => simp only [eval, iha fun h => he (.inl h), ihb fun h => he (.inr h)]
  | mul a b iha ihb => simp only [eval, iha fun h => he (.inl h), ihb fun h => he (.inr h)]
  | pow a n ih => simp only [eval, ih he]
  | diff i a ih => simp only [eval, ih he, hd]

/-- C124. Inserting the moments and then the conditions does not change the value of an equation if the moments have their values and the
higher parts of density and momentum vanish: the condition at order zero does no harm as these moments have been replaced before. -/
theorem C124_sound (v : Val K) (dim order : ℕ) (hd : 1 ≤ dim) (post : List ℕ → ℤ → ℤ → Ex K) (eq : List ℕ → Ex K)
    (heq : ∀ t, ¬ Occurs (fun n _ s => n = .pre ∧ s = 0) (eq t))
    (h0 : ∀ t, v.mom .pre t 0 = eval v (eq t)) (h1 : ∀ t s, v.mom .post t s = eval v (post t s 1))
    (hpre : ∀ t s, 0 < s → t.sum ≤ 1 → v.mom .pre t s = 0) (hpost : ∀ t s, 0 ≤ s → t.sum ≤ 1 → v.mom .post t s = 0)
    {e : Ex K} (h : Flat e) : ∃ r, insertAll dim order post eq e = some r ∧ eval v r = eval v e := by
  obtain ⟨l, hl, hmem⟩ := C124_conditions dim order hd
  refine ⟨applyConditions l (substitute post eq e), by rw [insertAll, hl]; rfl, ?_⟩
  rw [← C123_substitute_sound v post eq h0 h1 h]
  unfold applyConditions
  rw [eval_replace]
  apply eval_congr_occurs _ v (fun n _ s => n = .pre ∧ s = 0)
  · rfl
  · rfl
  · intro n t s hns
    dsimp only
    split_ifs with hc
    · obtain ⟨-, b, c, -⟩ := (hmem n t s).1 hc
      cases n with
      | pre => exact (hpre t s (lt_of_le_of_ne c fun h => hns ⟨rfl, h.symm⟩) b).symm
      | post => exact (hpost t s c b).symm
    · rfl
  · refine occurs_replace _ _ ?_ ?_ _
    · intro n t s e' he'
      split_ifs at he' with ha
      cases he'
      exact heq t
    · intro n t s hn
      split_ifs at hn with ha
      exact fun hp => ha ⟨hp.2, hp.1⟩

/-- C124. Applied first, the conditions remove density and momentum from the equations, whatever their values are. -/
theorem C124_first_removes (v : Val K) (dim order : ℕ) (hd : 1 ≤ dim) (t : List ℕ) (ht : t.length = dim) (hs : t.sum ≤ 1) :
    ∃ l, solvabilityConditions dim order = some l ∧ eval v (applyConditions l (mom .pre t 0)) = 0 := by
  obtain ⟨l, hl, hmem⟩ := C124_conditions dim order hd
  refine ⟨l, hl, ?_⟩
  have : (Name.pre, t, (0 : ℤ)) ∈ l := (hmem _ _ _).2 ⟨ht, hs, le_refl _, by omega⟩
  simp only [applyConditions, Ex.replace, this, if_true, Option.getD_some, eval]

/-- The inner loop leaves the value of `order` as it was. -/
theorem inner_order (eps order : ℕ) : (inner eps order).2 = order := by
  simp only [inner, List.range_succ, List.getLast?_append, List.getLast?_singleton, Option.some_or, Option.getD_some]

theorem outer_eq (l : List ℕ) (order : ℕ) : outer l order = l.flatMap fun e => (List.range (order + 1)).map fun o => (e, o) := by
  induction l with
  | nil => rfl
  | cons e l ih => rw [outer, inner_order, ih]; rfl

/-- C124. Although the inner loop assigns to the variable that bounds it, every pair of orders is treated, once. -/
theorem C124_iterations (order : ℕ) : (∀ e o, (e, o) ∈ iterations order ↔ 1 ≤ e ∧ e < order ∧ o ≤ order) ∧
    (iterations order).length = (order - 1) * (order + 1) ∧
    (iterations order).Pairwise fun a b => a.1 < b.1 ∨ (a.1 = b.1 ∧ a.2 < b.2) := by
  rw [iterations, outer_eq]
  refine ⟨fun e o => ?_, ?_, ?_⟩
  · simp only [List.mem_flatMap, List.mem_map, List.mem_range, Prod.mk.injEq, List.mem_range'_1]
    constructor
    · rintro ⟨a, ha, b, hb, rfl, rfl⟩
      omega
    · rintro ⟨h1, h2, h3⟩
      exact ⟨e, by omega, o, by omega, rfl, rfl⟩
  · simp only [List.length_flatMap, List.length_map, List.length_range, List.map_const', List.length_range', List.sum_replicate, smul_eq_mul]
  · rw [List.pairwise_flatMap]
    refine ⟨fun e _ => ?_, ?_⟩
    · rw [List.pairwise_map]
      exact List.pairwise_lt_range.imp fun h => .inr ⟨rfl, h⟩
    · refine (List.pairwise_lt_range' (s := 1) (n := order - 1)).imp fun h x hx y hy => ?_
      obtain ⟨_, -, rfl⟩ := List.mem_map.1 hx
      obtain ⟨_, -, rfl⟩ := List.mem_map.1 hy
      exact .inl h

/-- Concrete case: the conditions of the first order in two dimensions and the loops up to order three. -/
example : (solvabilityConditions 2 1).map List.length = some 12 ∧
    iterations 3 = [(1, 0), (1, 1), (1, 2), (1, 3), (2, 0), (2, 1), (2, 2), (2, 3)] := by decide +kernel

/-- Concrete case: values that meet the hypotheses of `C124_sound`, with density and momentum 5 and a stress 3. -/
example : ∃ v : Val ℚ, (∀ t, v.mom .pre t 0 = eval v (Ex.sym 7)) ∧
    (∀ t s, v.mom .post t s = eval v (if t.sum ≤ 1 then num 0 else mul (num (-(1 / 2))) (mom .pre t s))) ∧
    (∀ t s, 0 < s → t.sum ≤ 1 → v.mom .pre t s = 0) ∧ (∀ t s, 0 ≤ s → t.sum ≤ 1 → v.mom .post t s = 0) ∧
    v.mom .pre [1, 1] 1 = 3 ∧ v.mom .pre [0, 0] 0 = 5 := by
  refine ⟨⟨fun _ => 5, fun n t s => match n with
      | .pre => if s = 0 then 5 else if t.sum ≤ 1 then 0 else 3
      | .post => if t.sum ≤ 1 then 0 else -(1 / 2) * (if s = 0 then 5 else if t.sum ≤ 1 then 0 else 3), fun _ x => x⟩,
    fun t => by simp [eval], fun t s => ?_, fun t s h h' => by simp [h', h.ne'], fun t s _ h' => by simp [h'], by simp, by simp⟩
  by_cases h : t.sum ≤ 1 <;> simp [h, eval]

end HigherOrder
end Lbm
