/-
C58: the entropy condition determines the free relaxation rate.
-/
import Verif.Entropic
import Mathlib.Algebra.Order.Field.Basic
import Mathlib.Algebra.Order.BigOperators.Group.Finset
import Mathlib.Algebra.BigOperators.Fin
import Mathlib.Algebra.Polynomial.Eval.Degree
import Mathlib.Tactic.Ring
import Mathlib.Tactic.Linarith
import Mathlib.Tactic.FieldSimp
import Mathlib.Tactic.Positivity
import Mathlib.Tactic.LinearCombination

namespace Lbm.Entropic

/-! ### Specification -/

namespace Spec
variable {K : Type} [Field K]

/-- the approximation of the relative entropy of `f` with respect to `feq` -/
def entropy {Q : ℕ} (f feq : Fin Q → K) : K := -∑ i, f i * (f i / feq i - 1)

end Spec

/-! ### Choice of the rates -/

/-- C58. Exactly two different rates are needed, one of which is the shear rate; the other one is the free rate. -/
theorem C58_rates {E : Type} [DecidableEq E] (rates : List E) (s : E) :
    (pickRates rates s = .error .valueError ↔ rates.dedup.length ≠ 2) ∧
    (∀ s' h, pickRates rates s = .ok (s', h) ↔ s' = s ∧ s ≠ h ∧ ∀ e, e ∈ rates ↔ e = s ∨ e = h) := by
  have hnd := rates.nodup_dedup
  have hmem : ∀ e, e ∈ rates ↔ e ∈ rates.dedup := fun e => List.mem_dedup.symm
  unfold pickRates
  generalize rates.dedup = l at hnd hmem
  simp only [hmem]
  rcases l with _ | ⟨a, _ | ⟨b, _ | ⟨c, l⟩⟩⟩
  · refine ⟨by simp, fun s' h => ?_⟩
    simp only [List.length_nil, ne_eq, OfNat.zero_ne_ofNat, not_false_eq_true, if_true, reduceCtorEq, List.not_mem_nil,
      false_iff]
    rintro ⟨-, -, h3⟩; exact h3 s (Or.inl rfl)
  · refine ⟨by simp, fun s' h => ?_⟩
    simp only [List.length_singleton, ne_eq, OfNat.one_ne_ofNat, not_false_eq_true, if_true, reduceCtorEq,
      List.mem_singleton, false_iff]
    rintro ⟨-, h2, h3⟩
    exact h2 (((h3 s).2 (Or.inl rfl)).trans ((h3 h).2 (Or.inr rfl)).symm)
  · have hab : a ≠ b := by simp at hnd; exact hnd
    by_cases ha : s = a
    · subst ha
      refine ⟨by simp [hab.symm], fun s' h => ?_⟩
      simp only [List.length_cons, List.length_nil, ne_eq, not_true_eq_false, if_false, List.mem_cons, true_or,
        List.filter_cons, decide_not, decide_true, Bool.not_true, Bool.false_eq_true, hab.symm, decide_false,
        Bool.not_false, if_true, Except.ok.injEq, Prod.mk.injEq, List.not_mem_nil, or_false]
      constructor
      · rintro ⟨rfl, rfl⟩; exact ⟨rfl, hab, fun e => Iff.rfl⟩
      · rintro ⟨rfl, h2, h3⟩
        refine ⟨rfl, ?_⟩
        rcases (h3 h).2 (Or.inr rfl) with h4 | h4
        · exact absurd h4.symm h2
        · exact h4.symm
    by_cases hb : s = b
    · subst hb
      refine ⟨by simp [hab], fun s' h => ?_⟩
      simp only [List.length_cons, List.length_nil, ne_eq, not_true_eq_false, if_false, List.mem_cons, true_or, or_true,
        List.filter_cons, decide_not, decide_true, Bool.not_true, Bool.false_eq_true, hab, decide_false,
        Bool.not_false, if_true, Except.ok.injEq, Prod.mk.injEq, List.not_mem_nil, or_false]
      constructor
      · rintro ⟨rfl, rfl⟩; exact ⟨rfl, hab.symm, fun e => or_comm⟩
      · rintro ⟨rfl, h2, h3⟩
        refine ⟨rfl, ?_⟩
        rcases (h3 h).2 (Or.inr rfl) with h4 | h4
        · exact h4.symm
        · exact absurd h4.symm h2
    · refine ⟨by simp [ha, hb], fun s' h => ?_⟩
      simp only [List.length_cons, List.length_nil, ne_eq, not_true_eq_false, if_false, List.mem_cons, ha, hb,
        List.not_mem_nil, or_false, not_false_eq_true, if_true, reduceCtorEq, false_iff]
      rintro ⟨-, -, h3⟩
      rcases (h3 s).2 (Or.inl rfl) with h | h
      · exact ha h
      · exact hb h
  · refine ⟨by simp, fun s' h => ?_⟩
    have : ((a :: b :: c :: l).length ≠ 2) := by simp
    rw [if_pos this]
    simp only [reduceCtorEq, false_iff]
    rintro ⟨-, -, h3⟩
    simp only [List.nodup_cons, List.mem_cons, not_or] at hnd
    have h1 := (h3 a).1 (by simp)
    have h2 := (h3 b).1 (by simp)
    have h4 := (h3 c).1 (by simp)
    obtain ⟨⟨n1, n2, -⟩, ⟨n3, -⟩, -⟩ := hnd
    rcases h1 with rfl | rfl <;> rcases h2 with rfl | rfl <;> rcases h4 with rfl | rfl <;> simp_all

example : pickRates ["omega_0", "omega_1", "omega_0"] "omega_0" = .ok ("omega_0", "omega_1") ∧
    pickRates ["0", "omega_0", "omega_1"] "omega_0" = .error .valueError := by decide

/-! ### Decomposition -/

section symbolic
variable {R : Type} [CommRing R] [DecidableEq R]

/-- a linear update expression `c + ds omega_s + dh omega_h` -/
def linear (c ds dh : R) : List (List R) := [[c, ds], [dh]]

/-- C58. Update rules that are linear in the rates (moment-based methods) are accepted by the explicit procedure exactly
when every update expression depends on the free rate; the parts are then the coefficients. -/
theorem C58_linear_accepted (rule : List (R × R × R)) :
    (explicitParts false (rule.map fun p => linear p.1 p.2.1 p.2.2) =
      if ∀ p ∈ rule, p.2.2 ≠ 0 then .ok (rule.map fun p => ⟨p.1, p.2.1, [p.2.2]⟩) else .error .assertion) ∧
    ∀ rule' : List (List (List R)), explicitParts true rule' = .error .notImplemented := by
  have hH : ∀ p : R × R × R, factorsH (linear p.1 p.2.1 p.2.2) = if p.2.2 ≠ 0 then [[p.2.2]] else [] := by
    intro p; by_cases h : p.2.2 = 0 <;> simp [factorsH, linear, nonzero, h]
  have hS : ∀ p : R × R × R, factorsS (linear p.1 p.2.1 p.2.2) = if p.2.1 ≠ 0 then [[p.2.1, 0]] else [] := by
    intro p; by_cases h : p.2.1 = 0 <;> simp [factorsS, width, column, linear, nonzero, h]
  refine ⟨?_, fun _ => rfl⟩
  have h0 : ¬ ((false : Bool) = true) := by decide
  unfold explicitParts
  rw [if_neg h0]
  by_cases hall : ∀ p ∈ rule, p.2.2 ≠ 0
  · rw [if_pos hall, if_neg, if_neg, if_neg]
    · rw [List.map_map]
      congr 1
      apply List.map_congr_left
      intro p hp
      simp only [Function.comp, hH, hS, if_pos (hall p hp)]
      by_cases h : p.2.1 = 0 <;> simp [constant, linear, h]
    · simp only [List.any_map, List.any_eq_true, Function.comp, not_exists, not_and, hS]
      intro p hp
      by_cases h : p.2.1 = 0 <;> simp [h, nonzero]
    · simp only [List.any_map, List.any_eq_true, Function.comp, not_exists, not_and, hS]
      intro p hp
      by_cases h : p.2.1 = 0 <;> simp [h]
    · simp only [List.any_map, List.any_eq_true, Function.comp, not_exists, not_and, hH]
      intro p hp
      simp [hall p hp]
  · rw [if_neg hall, if_pos]
    push Not at hall
    obtain ⟨p, hp, h⟩ := hall
    simp only [List.any_map, List.any_eq_true, Function.comp, hH]
    exact ⟨p, hp, by simp [h]⟩

/-- three populations whose update depends on both rates -/
example : explicitParts false [linear (5 : ℤ) 1 2, linear 6 0 (-1), linear 7 (-1) (-1)] =
    .ok [⟨5, 1, [2]⟩, ⟨6, 0, [-1]⟩, ⟨7, -1, [-1]⟩] := by decide

/-- C58, disagreement: the TRT collision relaxes the even and the odd parts of the populations with one rate each. When
the free rate is the one of the odd part, a self-inverse direction (the rest velocity) does not depend on it, and the
explicit procedure fails. -/
theorem C58_trt_refused {Q : ℕ} (inv : Fin Q → Fin Q) (f even odd : Fin Q → R)
    (h2 : ∀ r : R, r + r = 0 → r = 0) (hodd : ∀ i, odd (inv i) = -odd i) (rest : Fin Q) (hrest : inv rest = rest) :
    explicitParts false (List.ofFn fun i => linear (f i) (even i) (odd i)) = .error .assertion := by
  have hz : odd rest = 0 := h2 _ (by have := hodd rest; rw [hrest] at this; linear_combination this)
  have := (C58_linear_accepted (List.ofFn fun i => (f i, even i, odd i))).1
  rw [if_neg] at this
  · rw [List.map_ofFn] at this; exact this
  · intro hall
    exact hall (f rest, even rest, odd rest) (List.mem_ofFn.2 ⟨rest, rfl⟩) hz

/-- D1Q3: rest, right, left -/
example : ∀ i : Fin 3, (![0, 4, -4] : Fin 3 → ℤ) ((![0, 2, 1] : Fin 3 → Fin 3) i) = -(![0, 4, -4] : Fin 3 → ℤ) i := by decide

/-- C58. A product of both rates in one update expression (as most force models produce) is reported as cyclic
dependency. -/
theorem C58_mixed_refused (c ds dh m : R) (hm : m ≠ 0) :
    explicitParts false [[[c, ds], [dh, m]]] = .error .valueError := by
  have hH : factorsH [[c, ds], [dh, m]] = [[dh, m]] := by simp [factorsH, nonzero, hm]
  have hS : factorsS [[c, ds], [dh, m]] = [[ds, m]] := by
    simp [factorsS, width, column, nonzero, hm]
  simp [explicitParts, hH, hS, nonzero, hm]

/-- C58, disagreement: a power of the free rate behind a missing one is not noticed. The rule is accepted as linear and
the term is lost. -/
theorem C58_explicit_gap (c ds dh x : R) (hd : dh ≠ 0) :
    explicitParts false [[[c, ds], [dh], [0], [x]]] = .ok [⟨c, ds, [dh]⟩] := by
  have hH : factorsH [[c, ds], [dh], [0], [x]] = [[dh]] := by simp [factorsH, nonzero, hd]
  have hS : factorsS [[c, ds], [dh], [0], [x]] = if ds ≠ 0 then [[ds, 0, 0, 0]] else [] := by
    by_cases h : ds = 0 <;> simp [factorsS, width, column, nonzero, h]
  unfold explicitParts
  simp only [List.any_cons, List.any_nil, List.map_cons, List.map_nil, hH, hS]
  by_cases h : ds = 0 <;> simp [nonzero, constant, h]

/-- C58. The decomposition of the iterative procedure is complete when no power of the free rate is skipped. -/
theorem C58_iterative_complete {K : Type} [Field K] (ev : R →+* K) (l : List R) (x : K)
    (hgap : ∀ k, 1 ≤ k → l.getD k 0 = 0 → ∀ j, k ≤ j → l.getD j 0 = 0) :
    evalPoly ((iterativeParts l).map ev) x = ∑ k : Fin l.length, ev (l.get k) * x ^ (k : ℕ) := by
  have hz : ∀ l : List R, (∀ j, l.getD j 0 = 0) → ∑ k : Fin l.length, ev (l.get k) * x ^ (k : ℕ) = 0 := by
    intro l h
    apply Finset.sum_eq_zero
    intro k _
    have := h k
    rw [List.getD_eq_getElem?_getD, List.getElem?_eq_getElem k.2, Option.getD_some] at this
    rw [List.get_eq_getElem, this, map_zero, zero_mul]
  have hcons : ∀ (a : R) (l : List R), ∑ k : Fin (a :: l).length, ev ((a :: l).get k) * x ^ (k : ℕ) =
      ev a + x * ∑ k : Fin l.length, ev (l.get k) * x ^ (k : ℕ) := by
    intro a l
    show ∑ k : Fin (l.length + 1), _ = _
    rw [Fin.sum_univ_succ, Finset.mul_sum]
    congr 1
    · simp
    · apply Finset.sum_congr rfl
      intro k _
      simp [pow_succ]; ring
  have key : ∀ l : List R, (∀ k, l.getD k 0 = 0 → ∀ j, k ≤ j → l.getD j 0 = 0) →
      evalPoly ((l.takeWhile (· ≠ 0)).map ev) x = ∑ k : Fin l.length, ev (l.get k) * x ^ (k : ℕ) := by
    intro l
    induction l with
    | nil => intro _; simp [evalPoly]
    | cons a l ih =>
      intro h
      by_cases ha : a = 0
      · rw [hz _ (fun j => h 0 (by simpa using ha) j (Nat.zero_le _))]
        simp [ha, evalPoly]
      · rw [hcons, ← ih fun k hk j hj => by simpa using h (k + 1) (by simpa using hk) (j + 1) (by omega)]
        simp [ha, evalPoly]
  cases l with
  | nil => simp [iterativeParts, evalPoly]
  | cons a l =>
    rw [hcons, ← key l fun k hk j hj => by simpa using hgap (k + 1) (by omega) (by simpa using hk) (j + 1) (by omega)]
    simp [iterativeParts, evalPoly]

/-- C58, disagreement: `c + ω² d` loses its second term. -/
theorem C58_iterative_gap : iterativeParts [(3 : ℤ), 0, 5] = [3] ∧ iterativeParts [(3 : ℤ), 2, 5] = [3, 2, 5] := by decide

end symbolic

/-! ### The explicit rate maximises the entropy -/

section numeric
variable {K : Type} [Field K] [LinearOrder K] [IsStrictOrderedRing K] {Q : ℕ}

theorem entropy_quadratic (c d feq : Fin Q → K) (hfeq : ∀ i, 0 < feq i) (x y : K) :
    Spec.entropy (fun i => c i + x * d i) feq = Spec.entropy (fun i => c i + y * d i) feq
      - (x - y) * (∑ i, d i * (2 * (c i + y * d i) / feq i - 1)) - (x - y) ^ 2 * ∑ i, d i * d i / feq i := by
  simp only [Spec.entropy]
  rw [Finset.mul_sum, Finset.mul_sum, ← Finset.sum_neg_distrib, ← Finset.sum_neg_distrib, ← Finset.sum_sub_distrib,
    ← Finset.sum_sub_distrib]
  apply Finset.sum_congr rfl
  intro i _
  have := (hfeq i).ne'
  field_simp
  ring

theorem norm_pos (d feq : Fin Q → K) (hfeq : ∀ i, 0 < feq i) (hd : ∃ i, d i ≠ 0) : 0 < ∑ i, d i * d i / feq i := by
  obtain ⟨i, hi⟩ := hd
  refine Finset.sum_pos' (fun i _ => div_nonneg (mul_self_nonneg _) (hfeq i).le) ⟨i, Finset.mem_univ _, ?_⟩
  exact div_pos (mul_self_pos.2 hi) (hfeq i)

/-- the only maximum of a concave parabola is where its derivative vanishes -/
theorem maximum_of_stationary (c d feq : Fin Q → K) (hfeq : ∀ i, 0 < feq i) (hd : ∃ i, d i ≠ 0) (h : K)
    (hs : ∑ i, d i * (2 * (c i + h * d i) / feq i - 1) = 0) (x : K) :
    Spec.entropy (fun i => c i + x * d i) feq ≤ Spec.entropy (fun i => c i + h * d i) feq ∧
    (Spec.entropy (fun i => c i + x * d i) feq = Spec.entropy (fun i => c i + h * d i) feq → x = h) := by
  have hq := entropy_quadratic c d feq hfeq x h
  have hp := norm_pos d feq hfeq hd
  rw [hs, mul_zero, sub_zero] at hq
  rw [hq]
  refine ⟨by have := mul_nonneg (sq_nonneg (x - h)) hp.le; linarith, fun he => ?_⟩
  have : (x - h) ^ 2 * ∑ i, d i * d i / feq i = 0 := by linarith
  rcases mul_eq_zero.1 this with h1 | h1
  · have := pow_eq_zero_iff (n := 2) (by norm_num) |>.1 h1; linarith
  · exact absurd h1 hp.ne'

/-- C58. The explicit procedure. For a rule `f' = f + ω_s ds + ω_h dh` whose equilibrium `feq = f + ds + dh` is positive
and whose free part conserves mass, away from `dh = 0`, the generated rate is the only one that maximises the
approximated entropy of the populations after the collision. -/
theorem C58_explicit_maximal (omegaS : K) (f ds dh : Fin Q → K) (hfeq : ∀ i, 0 < f i + ds i + dh i)
    (hmass : ∑ i, dh i = 0) (hd : ∃ i, dh i ≠ 0) :
    ∃ h f', explicitUpdate omegaS f f ds dh = some (h, f') ∧ (∀ i, f' i = f i + omegaS * ds i + h * dh i) ∧
      ∀ x, Spec.entropy (fun i => f i + omegaS * ds i + x * dh i) (fun i => f i + ds i + dh i) ≤
          Spec.entropy f' (fun i => f i + ds i + dh i) ∧
        (Spec.entropy (fun i => f i + omegaS * ds i + x * dh i) (fun i => f i + ds i + dh i) =
          Spec.entropy f' (fun i => f i + ds i + dh i) → x = h) := by
  set feq : Fin Q → K := fun i => f i + ds i + dh i with hfe
  have hp := norm_pos dh feq hfeq hd
  set A := ∑ i, dh i * dh i / feq i with hA
  set B := ∑ i, ds i * dh i / feq i with hB
  have hm : maximizingOmega omegaS feq ds dh = some (1 - (omegaS - 1) * B / A) := by
    unfold maximizingOmega
    rw [if_neg (by rintro ⟨i, hi⟩; exact (hfeq i).ne' hi), pyDiv, if_neg hp.ne']; rfl
  refine ⟨1 - (omegaS - 1) * B / A, _, by simp only [explicitUpdate, ← hfe, hm]; rfl, fun i => rfl, ?_⟩
  intro x
  refine maximum_of_stationary (fun i => f i + omegaS * ds i) dh feq hfeq hd _ ?_ x
  have hi : ∀ i, dh i * (2 * (f i + omegaS * ds i + (1 - (omegaS - 1) * B / A) * dh i) / feq i - 1) =
      dh i + 2 * (omegaS - 1) * (ds i * dh i / feq i) - 2 * ((omegaS - 1) * B / A) * (dh i * dh i / feq i) := by
    intro i
    have h0 : feq i ≠ 0 := (hfeq i).ne'
    have hf : f i = feq i - ds i - dh i := by simp only [hfe]; ring
    rw [hf]
    field_simp
    ring
  simp only [hi]
  rw [Finset.sum_sub_distrib, Finset.sum_add_distrib, hmass, ← Finset.mul_sum, ← Finset.mul_sum, ← hA, ← hB]
  field_simp
  ring

/-- a non-equilibrium state of three populations -/
example : (∀ i : Fin 3, (0 : ℚ) < ![4, 3, 2] i + ![-1, 1, 0] i + ![1, -2, 1] i) ∧
    (∑ i : Fin 3, (![1, -2, 1] : Fin 3 → ℚ) i = 0) ∧
    maximizingOmega (3 / 2 : ℚ) ![4, 2, 3] ![-1, 1, 0] ![1, -2, 1] = some (77 / 62) := by decide +kernel

/-- C58. Quantities that the two relaxed parts do not carry (mass, momentum) change only by the constant part, whatever
rate is chosen. -/
theorem C58_conservation (omegaS : K) (f const ds dh v : Fin Q → K) (hs : ∑ i, v i * ds i = 0) (hh : ∑ i, v i * dh i = 0)
    {h : K} {f' : Fin Q → K} (he : explicitUpdate omegaS f const ds dh = some (h, f')) :
    ∑ i, v i * f' i = ∑ i, v i * const i := by
  unfold explicitUpdate at he
  obtain ⟨x, -, hx⟩ := Option.map_eq_some_iff.1 he
  obtain ⟨rfl, rfl⟩ := Prod.mk.inj hx
  have : ∀ i, v i * (const i + omegaS * ds i + x * dh i) = v i * const i + omegaS * (v i * ds i) + x * (v i * dh i) :=
    fun i => by ring
  simp only [this]
  rw [Finset.sum_add_distrib, Finset.sum_add_distrib, ← Finset.mul_sum, ← Finset.mul_sum, hs, hh]; ring

/-- C58, disagreement: where the free part vanishes, in particular in a fluid initialised with its equilibrium, the rate is
not a number, and with it all populations. -/
theorem C58_equilibrium_undefined (omegaS : K) (f const ds : Fin Q → K) :
    explicitUpdate omegaS f const ds (fun _ => 0) = none := by
  unfold explicitUpdate maximizingOmega
  split_ifs
  · rfl
  · simp [pyDiv]

/-- C58, disagreement: with a force added to the populations (force models "simple", "Luo", "EDM", which the
documentation recommends) the constant part is not `f`. The explicit rate then does not maximise the entropy of the
populations after the collision. -/
theorem C58_forced_not_maximal : ∃ (omegaS x : ℚ) (f force ds dh : Fin 3 → ℚ), (∀ i, 0 < f i + ds i + dh i) ∧
    ∑ i, dh i = 0 ∧ ∑ i, force i = 0 ∧ ∃ h f', explicitUpdate omegaS f (fun i => f i + force i) ds dh = some (h, f') ∧
      Spec.entropy f' (fun i => f i + ds i + dh i) <
        Spec.entropy (fun i => f i + force i + omegaS * ds i + x * dh i) (fun i => f i + ds i + dh i) := by
  refine ⟨3 / 2, 5 / 4, ![4, 3, 2], ![1, 0, -1], ![-1, 1, 0], ![1, -2, 1], by decide +kernel, by decide +kernel,
    by decide +kernel, 77 / 62, fun i => (![4, 3, 2] i + ![1, 0, -1] i) + 3 / 2 * ![-1, 1, 0] i + 77 / 62 * ![1, -2, 1] i,
    ?_, by simp [Spec.entropy, Fin.sum_univ_three]; norm_num⟩
  have : maximizingOmega (3 / 2 : ℚ) (fun i => ![4, 3, 2] i + ![-1, 1, 0] i + ![1, -2, 1] i) ![-1, 1, 0] ![1, -2, 1] =
    some (77 / 62) := by decide +kernel
  simp only [explicitUpdate, this]; rfl

/-! ### The iterative procedure -/

theorem evalPoly_range (g : ℕ → K) (n : ℕ) (x : K) :
    evalPoly ((List.range n).map g) x = ∑ i ∈ Finset.range n, g i * x ^ i := by
  induction n generalizing g with
  | zero => simp [evalPoly]
  | succ n ih =>
    rw [List.range_succ_eq_map, List.map_cons, List.map_map, Finset.sum_range_succ', add_comm]
    show g 0 + x * evalPoly ((List.range n).map (g ∘ Nat.succ)) x = _
    rw [ih, Finset.mul_sum]
    simp only [pow_zero, mul_one]
    congr 1
    apply Finset.sum_congr rfl
    intro i _
    simp only [Function.comp, Nat.succ_eq_add_one, pow_succ]; ring

open Polynomial

theorem evalPoly_diff (S : K[X]) (x : K) : evalPoly (diffCoeffs S) x = (derivative S).eval x := by
  rw [diffCoeffs, evalPoly_range, eval_eq_sum_range]

/-- C58. The coefficients used for the second derivative are those of the derivative of the first derivative. -/
theorem C58_second_derivative (S : K[X]) (x : K) :
    evalPoly (diff2Coeffs (diffCoeffs S)) x = (derivative (derivative S)).eval x := by
  set D := derivative S with hD
  have h1 : diff2Coeffs (diffCoeffs S) = (List.range D.natDegree).map fun (i : ℕ) => ((i : K) + 1) * D.coeff (i + 1) := by
    rw [diff2Coeffs, diffCoeffs, ← hD, List.range_succ_eq_map, List.map_cons, List.map_map, List.drop_one, List.tail_cons]
    apply List.ext_getElem
    · simp
    · intro i h1 h2; simp
  rw [h1, evalPoly_range, eval_eq_sum_range' (n := D.natDegree + 1) (by
    have := natDegree_derivative_le D; omega), Finset.sum_range_succ]
  rw [show (derivative D).coeff D.natDegree = 0 by
    rw [coeff_derivative, coeff_eq_zero_of_natDegree_lt (by omega), zero_mul], zero_mul, add_zero]
  apply Finset.sum_congr rfl
  intro i _
  rw [coeff_derivative D]; ring

/-- C58. For every rule (also of higher order in the free rate, as for cumulants) the iteration rests exactly at the
stationary points of the approximated entropy. -/
theorem C58_newton_fixed_point (S : K[X]) (x : K) (h2 : (derivative (derivative S)).eval x ≠ 0) :
    newtonStep (diffCoeffs S) x = some x ↔ (derivative S).eval x = 0 := by
  rw [newtonStep, C58_second_derivative, evalPoly_diff, pyDiv, if_neg h2]
  simp only [Option.map_some, Option.some.injEq, sub_eq_self, div_eq_zero_iff, h2, or_false]

theorem entropyPoly_eval (P : Fin Q → K[X]) (feq : Fin Q → K) (x : K) :
    (entropyPoly P feq).eval x = Spec.entropy (fun i => (P i).eval x) feq := by
  simp only [entropyPoly, eval_neg, eval_finset_sum, eval_mul, eval_sub, eval_C, eval_one, Spec.entropy]
  congr 1
  apply Finset.sum_congr rfl
  intro i _
  rw [mul_one_div]

/-- C58. For rules linear in the free rate, any number of iterations (at least one) from any initial value gives the rate
that maximises the approximated entropy. -/
theorem C58_iterative_maximal (c d feq : Fin Q → K) (hfeq : ∀ i, 0 < feq i) (hd : ∃ i, d i ≠ 0) (initial given : K)
    (n : ℕ) :
    ∃ h, freeOmega (diffCoeffs (entropyPoly (fun i => C (c i) + X * C (d i)) feq)) initial given (n + 1) = some h ∧
      ∀ x, Spec.entropy (fun i => c i + x * d i) feq ≤ Spec.entropy (fun i => c i + h * d i) feq ∧
        (Spec.entropy (fun i => c i + x * d i) feq = Spec.entropy (fun i => c i + h * d i) feq → x = h) := by
  set S := entropyPoly (fun i => C (c i) + X * C (d i)) feq with hS
  set A := ∑ i, d i * d i / feq i with hA
  have hp : 0 < A := norm_pos d feq hfeq hd
  have hS1 : derivative S = -∑ i, C (d i) * ((C (c i) + X * C (d i)) * C (2 / feq i) - 1) := by
    rw [hS, entropyPoly, derivative_neg, derivative_sum]
    congr 1
    apply Finset.sum_congr rfl
    intro i _
    simp only [derivative_mul, derivative_add, derivative_sub, derivative_C, derivative_X, derivative_one]
    rw [show (2 : K) / feq i = 1 / feq i + 1 / feq i by ring, C_add]
    ring
  have he1 : ∀ x, (derivative S).eval x = -∑ i, d i * (2 * (c i + x * d i) / feq i - 1) := by
    intro x
    rw [hS1]
    simp only [eval_neg, eval_finset_sum, eval_mul, eval_sub, eval_add, eval_C, eval_X, eval_one]
    congr 1
    apply Finset.sum_congr rfl
    intro i _
    ring
  have he2 : ∀ x, (derivative (derivative S)).eval x = -2 * A := by
    intro x
    rw [hS1, derivative_neg, derivative_sum]
    simp only [derivative_mul, derivative_add, derivative_sub, derivative_C, derivative_X, derivative_one, eval_neg,
      eval_finset_sum, eval_mul, eval_sub, eval_add, eval_C, eval_X, eval_one, eval_zero]
    rw [hA, Finset.mul_sum, ← Finset.sum_neg_distrib]
    apply Finset.sum_congr rfl
    intro i _
    ring
  have hdiff : ∀ x y, (derivative S).eval x = (derivative S).eval y - 2 * A * (x - y) := by
    intro x y
    rw [he1, he1, hA, Finset.mul_sum, Finset.sum_mul, ← Finset.sum_neg_distrib, ← Finset.sum_neg_distrib,
      ← Finset.sum_sub_distrib]
    apply Finset.sum_congr rfl
    intro i _
    ring
  have h2 : (-2 * A : K) ≠ 0 := mul_ne_zero (by norm_num) hp.ne'
  have hstep : ∀ x, newtonStep (diffCoeffs S) x = some (x - (derivative S).eval x / (-2 * A)) := by
    intro x
    rw [newtonStep, C58_second_derivative, evalPoly_diff, he2, pyDiv, if_neg h2]; rfl
  have hzero : ∀ x, (derivative S).eval (x - (derivative S).eval x / (-2 * A)) = 0 := by
    intro x
    rw [hdiff _ x]
    field_simp
    ring
  have hrun : ∀ n, ∃ h, freeOmega (diffCoeffs S) initial given (n + 1) = some h ∧ (derivative S).eval h = 0 := by
    intro n
    induction n with
    | zero => exact ⟨_, hstep initial, hzero initial⟩
    | succ n ih =>
      obtain ⟨h, h1, -⟩ := ih
      exact ⟨_, by rw [freeOmega, h1]; exact hstep h, hzero h⟩
  obtain ⟨h, h1, h0⟩ := hrun n
  refine ⟨h, h1, fun x => maximum_of_stationary c d feq hfeq hd h ?_ x⟩
  have := he1 h
  rw [h0] at this
  linarith

/-- C58. On rules that both procedures can treat they give the same rate. -/
theorem C58_procedures_agree (omegaS : K) (f ds dh : Fin Q → K) (hfeq : ∀ i, 0 < f i + ds i + dh i)
    (hmass : ∑ i, dh i = 0) (hd : ∃ i, dh i ≠ 0) (initial given : K) (n : ℕ) :
    freeOmega (diffCoeffs (entropyPoly (fun i => C (f i + omegaS * ds i) + X * C (dh i)) fun i => f i + ds i + dh i))
      initial given (n + 1) = (explicitUpdate omegaS f f ds dh).map Prod.fst := by
  obtain ⟨h, h1, h2⟩ := C58_iterative_maximal (fun i => f i + omegaS * ds i) dh (fun i => f i + ds i + dh i) hfeq hd
    initial given n
  obtain ⟨h', f', h3, h4, h5⟩ := C58_explicit_maximal omegaS f ds dh hfeq hmass hd
  rw [h1, h3, Option.map_some, Option.some.injEq]
  have hf' : f' = fun i => f i + omegaS * ds i + h' * dh i := funext h4
  apply (h5 h).2
  rw [hf']
  exact le_antisymm (by rw [← hf']; exact (h5 h).1) (h2 h').1

/-- C58, disagreement: with zero iterations no rate is computed; the rule keeps the free rate as a parameter. A rule
that does not depend on the free rate gives no number. -/
theorem C58_iterative_degenerate (coeffs : List K) (initial given : K) (n : ℕ) (c feq : Fin Q → K) :
    freeOmega coeffs initial given 0 = some given ∧
    freeOmega (diffCoeffs (entropyPoly (fun i => C (c i)) feq)) initial given (n + 1) = none := by
  refine ⟨rfl, ?_⟩
  have hS : derivative (entropyPoly (fun i => C (c i)) feq) = 0 := by
    simp [entropyPoly, derivative_sum, derivative_mul]
  have hstep : ∀ x, newtonStep (diffCoeffs (entropyPoly (fun i => C (c i)) feq)) x = none := by
    intro x
    rw [newtonStep, C58_second_derivative, hS, derivative_zero, eval_zero, pyDiv, if_pos rfl]; rfl
  induction n with
  | zero => exact hstep initial
  | succ n ih => rw [freeOmega, ih]; rfl

/-- the hypotheses of `C58_iterative_maximal` with a concrete rule: two iterations from rate 1 reach 77/62 -/
example : (∀ i : Fin 3, (0 : ℚ) < ![4, 2, 3] i) ∧ (∃ i : Fin 3, (![1, -2, 1] : Fin 3 → ℚ) i ≠ 0) ∧
    evalPoly [(77 / 12 : ℚ), -31 / 6] (77 / 62) = 0 ∧ newtonStep [(77 / 12 : ℚ), -31 / 6] 1 = some (77 / 62) := by
  refine ⟨by decide +kernel, by decide +kernel, by norm_num [evalPoly], ?_⟩
  norm_num [newtonStep, evalPoly, diff2Coeffs, pyDiv]

end numeric

end Lbm.Entropic
