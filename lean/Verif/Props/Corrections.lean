/-
C55: Galilean and fourth-order corrections of the cumulant method.
-/
import Verif.Corrections
import Verif.Props.CumulantEquilibrium
import Mathlib.Tactic.Positivity
import Mathlib.Tactic.LinearCombination
import Mathlib.Tactic.FieldSimp
import Mathlib.Tactic.NormNum

namespace Lbm

namespace Spec

variable {K : Type} [Field K]

/-- approximation of `∂_i u_i` from the second-order cumulants `c` on the diagonal -/
def axialDerivative (ω₁ ω₂ rho : K) (c : Fin 3 → K) (i : Fin 3) : K :=
  -(ω₁ / (2 * rho)) * (3 * c i - ∑ j, c j) - ω₂ / (2 * rho) * (∑ j, c j - rho)

/-- corrections of the polynomials `x²-y², x²-z², x²+y²+z²` are corrections `δ` of `x², y², z²` -/
def IsMonomial2 (t : List K) (δ : Fin 3 → K) : Prop := t = [δ 0 - δ 1, δ 0 - δ 2, δ 0 + δ 1 + δ 2]

/-- corrections of the six polynomials of fourth order are corrections `δ` of `y²z², x²z², x²y²` and `ε` of `x²yz, xy²z, xyz²` -/
def IsMonomial4 (t : List K) (δ ε : Fin 3 → K) : Prop :=
  t = [δ 2 - 2 * δ 1 + δ 0, δ 2 + δ 1 - 2 * δ 0, δ 0 + δ 1 + δ 2, ε 0, ε 1, ε 2]

end Spec

namespace Corrections

open PExpr

section Terms
variable {K : Type} [Field K] [CharZero K]

/-- the Galilean correction terms as a function of the state -/
def galilean (ω₁ ω₂ rho : K) (u c : Fin 3 → K) : List K :=
  let d := derivatives ω₁ ω₂ rho (c 0) (c 1) (c 2)
  galileanTerms ω₁ ω₂ rho u d.1 d.2.1 d.2.2

/-- the fourth-order correction terms as a function of the state; `cross` are `c_yz, c_xz, c_xy` -/
def fourthOrder (ω₁ ω₂ ω₆ ω₇ ω₈ a b rho : K) (c cross : Fin 3 → K) : List K :=
  let d := derivatives ω₁ ω₂ rho (c 0) (c 1) (c 2)
  fourthOrderTerms ω₁ ω₆ ω₇ ω₈ a b rho d.1 d.2.1 d.2.2 (cross 2) (cross 1) (cross 0)

/-- C55: the three derivative approximations treat the axes alike; their sum is the divergence, which the shear rate does not enter. -/
theorem C55_derivatives (ω₁ ω₂ rho : K) (c : Fin 3 → K) :
    derivatives ω₁ ω₂ rho (c 0) (c 1) (c 2) = (Spec.axialDerivative ω₁ ω₂ rho c 0, Spec.axialDerivative ω₁ ω₂ rho c 1,
      Spec.axialDerivative ω₁ ω₂ rho c 2) ∧
    (∀ (σ : Equiv.Perm (Fin 3)) i, Spec.axialDerivative ω₁ ω₂ rho (c ∘ σ) i = Spec.axialDerivative ω₁ ω₂ rho c (σ i)) ∧
    ∑ i, Spec.axialDerivative ω₁ ω₂ rho c i = -(3 * ω₂ / (2 * rho)) * (∑ j, c j - rho) := by
  refine ⟨?_, fun σ i => ?_, ?_⟩
  · simp only [derivatives, Spec.axialDerivative, Fin.sum_univ_three, Prod.mk.injEq]
    refine ⟨?_, ?_, ?_⟩ <;> ring
  · unfold Spec.axialDerivative
    rw [show ∑ j, (c ∘ σ) j = ∑ j, c j from Equiv.sum_comp σ c]
    rfl
  · simp only [Spec.axialDerivative, Fin.sum_univ_three]
    ring

/-- corrections of `x², y², z²` by the Galilean correction -/
def galileanMonomial (ω₁ ω₂ rho : K) (u c : Fin 3 → K) (i : Fin 3) : K :=
  -rho * ((1 - ω₁ / 2) * (3 * (u i ^ 2 * Spec.axialDerivative ω₁ ω₂ rho c i) - ∑ j, u j ^ 2 * Spec.axialDerivative ω₁ ω₂ rho c j) +
    (1 - ω₂ / 2) * ∑ j, u j ^ 2 * Spec.axialDerivative ω₁ ω₂ rho c j)

theorem isMonomial2_unique {t : List K} {δ δ' : Fin 3 → K} (h : Spec.IsMonomial2 t δ) (h' : Spec.IsMonomial2 t δ') : δ = δ' := by
  unfold Spec.IsMonomial2 at h h'
  rw [h] at h'
  simp only [List.cons.injEq, and_true] at h'
  obtain ⟨h1, h2, h3⟩ := h'
  have h0 : (3 : K) * δ 0 = 3 * δ' 0 := by linear_combination h1 + h2 + h3
  have k0 : δ 0 = δ' 0 := mul_left_cancel₀ (by norm_num) h0
  funext i
  fin_cases i
  · exact k0
  · show δ 1 = δ' 1; linear_combination k0 - h1
  · show δ 2 = δ' 2; linear_combination k0 - h2

/-- C55: the Galilean correction is a correction of the cumulants `x², y², z²`, and it is covariant under permutations of the axes. -/
theorem C55_galilean (ω₁ ω₂ rho : K) (u c : Fin 3 → K) :
    Spec.IsMonomial2 (galilean ω₁ ω₂ rho u c) (galileanMonomial ω₁ ω₂ rho u c) ∧
    ∀ (σ : Equiv.Perm (Fin 3)) δ, Spec.IsMonomial2 (galilean ω₁ ω₂ rho u c) δ →
      Spec.IsMonomial2 (galilean ω₁ ω₂ rho (u ∘ σ) (c ∘ σ)) (δ ∘ σ) := by
  have key : ∀ u c : Fin 3 → K, Spec.IsMonomial2 (galilean ω₁ ω₂ rho u c) (galileanMonomial ω₁ ω₂ rho u c) := by
    intro u c
    unfold Spec.IsMonomial2 galilean
    rw [(C55_derivatives ω₁ ω₂ rho c).1]
    simp only [galileanTerms, galileanMonomial, Fin.sum_univ_three, List.cons.injEq, and_true]
    refine ⟨?_, ?_, ?_⟩ <;> ring
  refine ⟨key u c, fun σ δ hδ => ?_⟩
  have e : δ ∘ σ = galileanMonomial ω₁ ω₂ rho (u ∘ σ) (c ∘ σ) := by
    rw [isMonomial2_unique hδ (key u c)]
    funext i
    have hd := (C55_derivatives ω₁ ω₂ rho c).2.1 σ
    have hs : ∑ j, (u ∘ σ) j ^ 2 * Spec.axialDerivative ω₁ ω₂ rho (c ∘ σ) j = ∑ j, u j ^ 2 * Spec.axialDerivative ω₁ ω₂ rho c j := by
      simp only [hd]
      exact Equiv.sum_comp σ fun j => u j ^ 2 * Spec.axialDerivative ω₁ ω₂ rho c j
    unfold galileanMonomial
    rw [hs, hd]
    rfl
  rw [e]
  exact key _ _

/-- C55: the correction does not depend on the sign of the velocity, and vanishes for a fluid at rest and at equilibrium
(`c_xx = c_yy = c_zz = ρ/3`). -/
theorem C55_galilean_zero (ω₁ ω₂ rho : K) (u c : Fin 3 → K) :
    (∀ s : Fin 3 → K, (∀ i, s i = 1 ∨ s i = -1) → galilean ω₁ ω₂ rho (fun i => s i * u i) c = galilean ω₁ ω₂ rho u c) ∧
    galilean ω₁ ω₂ rho 0 c = [0, 0, 0] ∧ galilean ω₁ ω₂ rho u (fun _ => rho / 3) = [0, 0, 0] := by
  refine ⟨fun s hs => ?_, ?_, ?_⟩
  · have : ∀ i, (s i * u i) ^ 2 = u i ^ 2 := by
      intro i
      rcases hs i with h | h <;> rw [h] <;> ring
    simp only [galilean, galileanTerms, this]
  · simp [galilean, galileanTerms]
  · simp only [galilean, galileanTerms, derivatives, List.cons.injEq, and_true]
    have : rho / 3 + rho / 3 + rho / 3 - rho = 0 := by ring
    rw [this]
    refine ⟨?_, ?_, ?_⟩ <;> ring

example : galilean (1 : ℚ) 1 1 ![1, 0, 0] ![1, 1 / 3, 1 / 3] = [3/2, 3/2, 3/2] := by
  have h2 : (![1, 1 / 3, 1 / 3] : Fin 3 → ℚ) 2 = 1 / 3 := rfl
  have k2 : (![1, 0, 0] : Fin 3 → ℚ) 2 = 0 := rfl
  norm_num [galilean, galileanTerms, derivatives, h2, k2]

/-! ### Fourth-order correction -/

/-- the corrections of `y²z², x²z², x²y²` that the code implies -/
def fourthMonomial (ω₁ ω₂ ω₆ ω₇ a rho : K) (c : Fin 3 → K) (i : Fin 3) : K :=
  let s := (1 / ω₁ - 1 / 2) * a * rho
  let d := Spec.axialDerivative ω₁ ω₂ rho c;
  (-4 / 9) * s * ω₇ * (∑ j, d j) - 2 / 9 * s * ω₆ * (∑ j, d j - 3 * d i.rev)

theorem isMonomial4_unique {t : List K} {δ δ' ε ε' : Fin 3 → K} (h : Spec.IsMonomial4 t δ ε) (h' : Spec.IsMonomial4 t δ' ε') :
    δ = δ' ∧ ε = ε' := by
  unfold Spec.IsMonomial4 at h h'
  rw [h] at h'
  simp only [List.cons.injEq, and_true] at h'
  obtain ⟨h1, h2, h3, h4, h5, h6⟩ := h'
  have k1 : (3 : K) * δ 1 = 3 * δ' 1 := by linear_combination h3 - h1
  have k1 : δ 1 = δ' 1 := mul_left_cancel₀ (by norm_num) k1
  have k0 : (3 : K) * δ 0 = 3 * δ' 0 := by linear_combination h3 - h2
  have k0 : δ 0 = δ' 0 := mul_left_cancel₀ (by norm_num) k0
  have k2 : δ 2 = δ' 2 := by linear_combination h3 - k0 - k1
  constructor
  · funext i; fin_cases i; exacts [k0, k1, k2]
  · funext i; fin_cases i; exacts [h4, h5, h6]

/-- C55: the corrections of the monomials implied by the six terms. That of `x^2 z^2` contains the derivative along the remaining axis
`y`; those of `y^2 z^2` and `x^2 y^2` contain the derivatives along `z` and `x` instead of `x` and `z`. -/
theorem C55_fourth_order_monomials (ω₁ ω₂ ω₆ ω₇ ω₈ a b rho : K) (h1 : ω₁ ≠ 0) (hr : rho ≠ 0) (c cross : Fin 3 → K) :
    Spec.IsMonomial4 (fourthOrder ω₁ ω₂ ω₆ ω₇ ω₈ a b rho c cross) (fourthMonomial ω₁ ω₂ ω₆ ω₇ a rho c)
      fun i => (1 - ω₁ / 2) * ω₈ * b * cross i := by
  unfold Spec.IsMonomial4 fourthOrder
  rw [(C55_derivatives ω₁ ω₂ rho c).1]
  have e0 : (0 : Fin 3).rev = 2 := rfl
  have e1 : (1 : Fin 3).rev = 1 := rfl
  have e2 : (2 : Fin 3).rev = 0 := rfl
  simp only [fourthOrderTerms, fourthMonomial, Fin.sum_univ_three, List.cons.injEq, and_true, e0, e1, e2]
  refine ⟨?_, ?_, ?_, ?_, ?_, ?_⟩
  · ring
  · ring
  · ring
  all_goals (field_simp)

/-- Full claim for the fourth-order correction: covariance under permutations of the axes. -/
def FourthOrderCovariant (K : Type) [Field K] : Prop :=
  ∀ (ω₁ ω₂ ω₆ ω₇ ω₈ a b rho : K) (c cross : Fin 3 → K) (σ : Equiv.Perm (Fin 3)) (δ ε : Fin 3 → K), ω₁ ≠ 0 → rho ≠ 0 →
    Spec.IsMonomial4 (fourthOrder ω₁ ω₂ ω₆ ω₇ ω₈ a b rho c cross) δ ε →
    Spec.IsMonomial4 (fourthOrder ω₁ ω₂ ω₆ ω₇ ω₈ a b rho (c ∘ σ) (cross ∘ σ)) (δ ∘ σ) (ε ∘ σ)

/-- C55, partial: the corrections of `x²yz, xy²z, xyz²` are covariant, and those of the products of squares are under exchange of `x` and `z`;
missing are the other permutations, for which the claim is false (`C55_fourth_order_not_covariant`). -/
theorem C55_fourth_order_partial (ω₁ ω₂ ω₆ ω₇ ω₈ a b rho : K) (c cross : Fin 3 → K) (h1 : ω₁ ≠ 0) (hr : rho ≠ 0) (δ ε : Fin 3 → K)
    (h : Spec.IsMonomial4 (fourthOrder ω₁ ω₂ ω₆ ω₇ ω₈ a b rho c cross) δ ε) :
    (∀ σ : Equiv.Perm (Fin 3), ∃ δ', Spec.IsMonomial4 (fourthOrder ω₁ ω₂ ω₆ ω₇ ω₈ a b rho (c ∘ σ) (cross ∘ σ)) δ' (ε ∘ σ)) ∧
    Spec.IsMonomial4 (fourthOrder ω₁ ω₂ ω₆ ω₇ ω₈ a b rho (c ∘ Equiv.swap 0 2) (cross ∘ Equiv.swap 0 2)) (δ ∘ Equiv.swap 0 2)
      (ε ∘ Equiv.swap 0 2) := by
  obtain ⟨rfl, rfl⟩ := isMonomial4_unique h (C55_fourth_order_monomials ω₁ ω₂ ω₆ ω₇ ω₈ a b rho h1 hr c cross)
  refine ⟨fun σ => ⟨_, C55_fourth_order_monomials ω₁ ω₂ ω₆ ω₇ ω₈ a b rho h1 hr (c ∘ σ) (cross ∘ σ)⟩, ?_⟩
  have := C55_fourth_order_monomials ω₁ ω₂ ω₆ ω₇ ω₈ a b rho h1 hr (c ∘ Equiv.swap 0 2) (cross ∘ Equiv.swap 0 2)
  have e : fourthMonomial ω₁ ω₂ ω₆ ω₇ a rho (c ∘ Equiv.swap 0 2) = fourthMonomial ω₁ ω₂ ω₆ ω₇ a rho c ∘ Equiv.swap 0 2 := ?_
  · rw [e] at this
    exact this
  funext i
  have hd := (C55_derivatives ω₁ ω₂ rho c).2.1 (Equiv.swap 0 2)
  have hrev : ∀ i : Fin 3, (Equiv.swap (0 : Fin 3) 2) i.rev = ((Equiv.swap (0 : Fin 3) 2) i).rev := by decide
  simp only [fourthMonomial, hd, Function.comp, hrev]
  rw [Equiv.sum_comp (Equiv.swap (0 : Fin 3) 2) (Spec.axialDerivative ω₁ ω₂ rho c)]

/-- C55: the fourth-order correction is not covariant: for a flow that varies along `x` only, the corrections of `x²y²` and `x²z²`
differ. -/
theorem C55_fourth_order_not_covariant : ¬ FourthOrderCovariant ℚ := by
  intro h
  have hm := C55_fourth_order_monomials (1 : ℚ) 1 1 1 1 1 1 1 (by norm_num) (by norm_num) ![1, 1 / 3, 1 / 3] 0
  have := h 1 1 1 1 1 1 1 1 ![1, 1 / 3, 1 / 3] 0 (Equiv.swap 1 2) _ _ (by norm_num) (by norm_num) hm
  have hc : (![1, 1 / 3, 1 / 3] : Fin 3 → ℚ) ∘ Equiv.swap 1 2 = ![1, 1 / 3, 1 / 3] := by
    funext i; fin_cases i <;> rfl
  have h0 : (0 : Fin 3 → ℚ) ∘ Equiv.swap 1 2 = 0 := rfl
  rw [hc, h0] at this
  have h2 := congrFun (isMonomial4_unique hm this).1 1
  have e1 : (1 : Fin 3).rev = 1 := rfl
  have e2 : (2 : Fin 3).rev = 0 := rfl
  simp only [Function.comp, Equiv.swap_apply_left, fourthMonomial, Spec.axialDerivative, Fin.sum_univ_three, e1, e2] at h2
  have k2 : (![1, 1 / 3, 1 / 3] : Fin 3 → ℚ) 2 = 1 / 3 := rfl
  norm_num [k2] at h2

/-- C55: the additional parameters exist unless the two rates are equal or `ω₂ (2 + 3 ω₁) = 8 ω₁`; neither is checked by the code. -/
theorem C55_additional_parameters [DecidableEq K] (ω₁ ω₂ : K) :
    ((additionalParameters ω₁ ω₂).1.isSome ↔ ω₁ ≠ ω₂ ∧ ω₂ * (2 + 3 * ω₁) ≠ 8 * ω₁) ∧
    ((additionalParameters ω₁ ω₂).2.isSome ↔ ω₁ ≠ ω₂ ∧ ω₂ * (2 + 3 * ω₁) ≠ 8 * ω₁) := by
  have h0 : denomAB ω₁ ω₂ = 0 ↔ ω₁ = ω₂ ∨ ω₂ * (2 + 3 * ω₁) = 8 * ω₁ := by
    rw [denomAB, mul_eq_zero, sub_eq_zero, sub_eq_zero]
  have h3 : 3 * denomAB ω₁ ω₂ = 0 ↔ denomAB ω₁ ω₂ = 0 := by simp
  unfold additionalParameters quotient
  simp only [h3, h0]
  constructor <;> split <;> rename_i h
  · simpa [← or_iff_not_imp_left] using h
  · simpa [← not_or] using h
  · simpa [← or_iff_not_imp_left] using h
  · simpa [← not_or] using h

/-- C55: both additional parameters grow where the two rates approach each other, but `B - 2 A` does not. -/
theorem C55_parameters_difference [DecidableEq K] (ω₁ ω₂ a b : K) (h : additionalParameters ω₁ ω₂ = (some a, some b)) :
    3 * (b - 2 * a) * (ω₂ * (2 + 3 * ω₁) - 8 * ω₁) = 4 * (6 * (ω₁ * ω₂) - 7 * ω₁ - 5 * ω₂) := by
  obtain ⟨h1, h2⟩ := Prod.mk.inj h
  have hd : denomAB ω₁ ω₂ ≠ 0 := by
    intro h0
    simp [quotient, h0] at h1
  have hd3 : 3 * denomAB ω₁ ω₂ ≠ 0 := mul_ne_zero (by norm_num) hd
  simp only [quotient, if_neg hd, if_neg hd3, Option.some.injEq] at h1 h2
  have ha := (div_eq_iff hd).1 h1
  have hb := (div_eq_iff hd3).1 h2
  have hω : ω₁ - ω₂ ≠ 0 := fun h0 => hd (by rw [denomAB, h0, zero_mul])
  refine mul_left_cancel₀ hω ?_
  unfold denomAB at ha hb
  linear_combination -hb + 6 * ha

example : additionalParameters (3 / 2 : ℚ) 1 = (some (1 / 11), some (58 / 33)) := by
  norm_num [additionalParameters, quotient, denomAB]

end Terms

/-! ### Rates -/

/-- C55: a limited rate lies between the rate and 1, is the rate where the cumulant vanishes, and stays in the stable range (0, 2). -/
theorem C55_limited (ω rho limiter c : ℝ) (hp : 0 < rho * limiter) :
    limited ω rho limiter 0 = ω ∧ min ω 1 ≤ limited ω rho limiter c ∧ limited ω rho limiter c ≤ max ω 1 ∧
      (0 < ω → ω < 2 → 0 < limited ω rho limiter c ∧ limited ω rho limiter c < 2) := by
  have hden : 0 < rho * limiter + |c| := add_pos_of_pos_of_nonneg hp (abs_nonneg c)
  have hs0 : 0 ≤ |c| / (rho * limiter + |c|) := div_nonneg (abs_nonneg c) hden.le
  have hs1 : |c| / (rho * limiter + |c|) ≤ 1 := by rw [div_le_one hden]; linarith
  have e : limited ω rho limiter c = ω + (1 - ω) * (|c| / (rho * limiter + |c|)) := by rw [limited, mul_div_assoc]
  generalize |c| / (rho * limiter + |c|) = s at hs0 hs1 e
  have h1 : min ω 1 ≤ limited ω rho limiter c := by
    rw [e]
    rcases le_total ω 1 with h | h
    · rw [min_eq_left h]; nlinarith
    · rw [min_eq_right h]; nlinarith
  have h2 : limited ω rho limiter c ≤ max ω 1 := by
    rw [e]
    rcases le_total ω 1 with h | h
    · rw [max_eq_right h]; nlinarith
    · rw [max_eq_left h]; nlinarith
  refine ⟨by simp [limited], h1, h2, fun ha hb => ⟨lt_of_lt_of_le (lt_min ha one_pos) h1, lt_of_le_of_lt h2 (max_lt hb (by norm_num))⟩⟩

example : limited (3 / 2) 1 1 1 = 5 / 4 := by norm_num [limited]

open Classical in
/-- C55: with the default bulk rate 1 the three optimal rates are in the stable range (0, 2) if the shear rate is in (7/4, 2), the range of the
assertion that is commented out. -/
theorem C55_rates_default (ω : ℝ) (h1 : 7 / 4 < ω) (h2 : ω < 2) :
    (∃ r, omega3 ω 1 = some r ∧ 0 < r ∧ r < 2) ∧ (∃ r, omega4 ω 1 = some r ∧ 0 < r ∧ r < 2) ∧
      ∃ r, omega5 ω 1 = some r ∧ 0 < r ∧ r < 2 := by
  have key : ∀ a b : ℝ, b < 0 → a < 0 → 2 * b < a → ∃ r, quotient a b = some r ∧ 0 < r ∧ r < 2 := by
    intro a b hb ha h
    refine ⟨a / b, by rw [quotient, if_neg hb.ne], div_pos_of_neg_of_neg ha hb, ?_⟩
    rw [div_lt_iff_of_neg hb]
    exact h
  have key' : ∀ a b : ℝ, 0 < b → 0 < a → a < 2 * b → ∃ r, quotient a b = some r ∧ 0 < r ∧ r < 2 := by
    intro a b hb ha h
    refine ⟨a / b, by rw [quotient, if_neg hb.ne'], div_pos ha hb, ?_⟩
    rw [div_lt_iff₀ hb]
    exact h
  obtain ⟨e, he0, he1, rfl⟩ : ∃ e, 0 < e ∧ e < 1 / 4 ∧ ω = 2 - e := ⟨2 - ω, by linarith, by linarith, by ring⟩
  refine ⟨?_, ?_, ?_⟩
  · refine key' _ _ ?_ ?_ ?_ <;> nlinarith [mul_pos he0 he0, mul_pos he0 (sub_pos.2 he1)]
  · refine key _ _ ?_ ?_ ?_ <;> nlinarith [mul_pos he0 he0, mul_pos he0 (sub_pos.2 he1)]
  · refine key _ _ ?_ ?_ ?_ <;>
      nlinarith [mul_pos he0 he0, mul_pos he0 (sub_pos.2 he1), mul_pos (mul_pos he0 he0) he0, mul_pos (mul_pos he0 he0) (sub_pos.2 he1)]

open Classical in
/-- C55: below that range the code yields a negative rate (7/4 > ω > 14/9) and a division by zero (ω = 14/9, and in the other parameters
ω = 1, ω = 2/5) without any message. -/
theorem C55_rates_unchecked :
    (∀ ω : ℝ, 14 / 9 < ω → ω < 7 / 4 → ∃ r, omega4 ω 1 = some r ∧ r < 0) ∧
    (∀ rho limiter c, parametrisation (14 / 9) 1 rho limiter c = none) ∧
    (additionalParameters (1 : ℝ) 1).1 = none ∧ (additionalParameters (2 / 5 : ℝ) 1).1 = none := by
  refine ⟨fun ω h1 h2 => ?_, fun rho limiter c => ?_, ?_, ?_⟩
  · have hb : (1 : ℝ) * (56 - 42 * ω + 9 * (ω * ω)) - 8 * ω < 0 := by nlinarith
    refine ⟨_, by rw [omega4, quotient, if_neg hb.ne], ?_⟩
    refine div_neg_of_pos_of_neg ?_ hb
    nlinarith
  · have : omega4 (14 / 9 : ℝ) 1 = none := by rw [omega4, quotient, if_pos (by norm_num)]
    unfold parametrisation
    rw [this]
    split <;> simp_all
  · simp [additionalParameters, quotient, denomAB]
  · simp only [additionalParameters, quotient, denomAB]
    exact if_pos (by norm_num)

/-- exchange of `x` and `y` -/
def swapXY (c : List ℕ → ℝ) : List ℕ → ℝ
  | [a, b, d] => c [b, a, d]
  | l => c l

open Classical in
/-- C55: the limiters look at the cumulants `xy², xz²` only, so that the rates for all axes depend on the choice of the `x`-axis. -/
theorem C55_limiters_not_covariant : ∃ (ω₁ ω₂ rho limiter : ℝ) (c : List ℕ → ℝ),
    (parametrisation ω₁ ω₂ rho limiter c).isSome ∧ parametrisation ω₁ ω₂ rho limiter c ≠ parametrisation ω₁ ω₂ rho limiter (swapXY c) := by
  refine ⟨15 / 8, 1, 1, 1, fun e => if e = [1, 2, 0] then 1 else 0, ?_⟩
  obtain ⟨⟨r3, h3, h30, -⟩, ⟨r4, h4, -, -⟩, ⟨r5, h5, -, -⟩⟩ := C55_rates_default (15 / 8) (by norm_num) (by norm_num)
  unfold parametrisation
  rw [h3, h4, h5]
  refine ⟨rfl, ?_⟩
  have h3' : r3 ≠ 1 := by
    intro h
    rw [h, omega3, quotient, if_neg (by norm_num)] at h3
    norm_num at h3
  simp only [swapXY, limited, ne_eq, Option.some.injEq, List.cons.injEq, and_true, true_and, not_and]
  intro h
  exfalso
  norm_num at h
  exact h3' (by linarith)

/-! ### Exceptions -/

section Exceptions
variable {K : Type} [Field K] [DecidableEq K]

theorem rateOf_error {polys : List PExpr} {rates : List K} {p : PExpr} {e : PyErr} (h : rateOf polys rates p = .error e) : e = .keyError := by
  unfold rateOf at h
  split at h
  · split at h <;> cases h; rfl
  · cases h; rfl

/-- C55: `ValueError` exactly for other methods and stencils. A missing polynomial is reported by `TypeError`, rates that differ by
`AssertionError`; for polynomials that are present there is no other exception. -/
theorem C55_galilean_exceptions (isCumulant isD3Q27 : Bool) (polys : List PExpr) (rates : List K) :
    (addGalilean isCumulant isD3Q27 polys rates = .error .valueError ↔ isCumulant = false ∨ isD3Q27 = false) ∧
    (isCumulant = true → isD3Q27 = true → (∃ p ∈ corrected2, present polys p = false) →
      addGalilean isCumulant isD3Q27 polys rates = .error .typeError) ∧
    (isCumulant = true → isD3Q27 = true → properSubset corrected2 polys = true → polys.length ≤ rates.length →
      addGalilean isCumulant isD3Q27 polys rates =
        if rates[position polys (x ^ 2 - y ^ 2)]? = rates[position polys (x ^ 2 - z ^ 2)]? then
          .ok (corrected2.map (position polys), rates.getD (position polys (x ^ 2 - y ^ 2)) 0,
            rates.getD (position polys (x ^ 2 + y ^ 2 + z ^ 2)) 0)
        else .error .assertion) := by
  have hg : ∀ e, galileanRates polys rates = .error e → e ≠ .valueError := by
    intro e h
    unfold galileanRates at h
    rcases h1 : rateOf polys rates (x ^ 2 - y ^ 2) with e1 | a
    · rw [h1] at h; cases h; rw [rateOf_error h1]; decide
    rcases h2 : rateOf polys rates (x ^ 2 - z ^ 2) with e1 | b
    · rw [h1, h2] at h; cases h; rw [rateOf_error h2]; decide
    rw [h1, h2] at h
    simp only at h
    split at h
    · rcases h3 : rateOf polys rates (x ^ 2 + y ^ 2 + z ^ 2) with e1 | c
      · rw [h3] at h; cases h; rw [rateOf_error h3]; decide
      · rw [h3] at h; cases h
    · cases h; decide
  refine ⟨?_, ?_, ?_⟩
  · unfold addGalilean
    rcases isCumulant with _ | _
    · simp
    rcases isD3Q27 with _ | _
    · simp
    simp only [Bool.not_true, Bool.or_self, Bool.false_eq_true, if_false, or_self, iff_false, Bool.true_eq_false]
    split
    · simp
    · rcases h : galileanRates polys rates with e | ω
      · simp only [Except.error.injEq]
        exact hg e h
      · simp
  · rintro rfl rfl ⟨p, hp, hpp⟩
    unfold addGalilean
    have : properSubset corrected2 polys = false := by
      unfold properSubset
      rw [Bool.and_eq_false_iff]
      left
      rw [List.all_eq_false]
      exact ⟨p, hp, by rw [hpp]; decide⟩
    rw [this]
    rfl
  · rintro rfl rfl hs hl
    have hpres : ∀ p ∈ corrected2, present polys p = true := by
      have := (Bool.and_eq_true_iff.1 hs).1
      exact List.all_eq_true.1 this
    have hrate : ∀ p ∈ corrected2, ∃ h : position polys p < rates.length, rateOf polys rates p = .ok rates[position polys p] := by
      intro p hp
      have hlt : position polys p < rates.length := by
        refine lt_of_lt_of_le ?_ hl
        rw [position, List.findIdx_lt_length]
        exact List.any_eq_true.1 (hpres p hp)
      refine ⟨hlt, ?_⟩
      unfold rateOf
      rw [if_pos (hpres p hp), List.getElem?_eq_getElem hlt]
    obtain ⟨l1, r1⟩ := hrate (x ^ 2 - y ^ 2) (by simp [corrected2])
    obtain ⟨l2, r2⟩ := hrate (x ^ 2 - z ^ 2) (by simp [corrected2])
    obtain ⟨l3, r3⟩ := hrate (x ^ 2 + y ^ 2 + z ^ 2) (by simp [corrected2])
    unfold addGalilean galileanRates
    rw [hs, r1, r2, r3, List.getElem?_eq_getElem l1, List.getElem?_eq_getElem l2, List.getD_eq_getElem _ _ l1, List.getD_eq_getElem _ _ l3]
    simp only [Bool.not_true, Bool.or_self, Bool.false_eq_true, if_false, Option.some.injEq]
    by_cases h : rates[position polys (x ^ 2 - y ^ 2)] = rates[position polys (x ^ 2 - z ^ 2)]
    · rw [if_pos h, if_pos h]
    · rw [if_neg h, if_neg h]

/-- C55: the same for the fourth-order correction. -/
theorem C55_fourth_order_exceptions (isCumulant isD3Q27 : Bool) (polys : List PExpr) (rates : List K) :
    (addFourthOrder isCumulant isD3Q27 polys rates = .error .valueError ↔ isCumulant = false ∨ isD3Q27 = false) ∧
    (isCumulant = true → isD3Q27 = true → (∃ p ∈ corrected4, present polys p = false) →
      addFourthOrder isCumulant isD3Q27 polys rates = .error .typeError) := by
  have hg : ∀ e, fourthOrderRates polys rates = .error e → e ≠ .valueError := by
    intro e h
    unfold fourthOrderRates at h
    split at h
    · split at h <;> cases h; decide
    · cases h; decide
  refine ⟨?_, ?_⟩
  · unfold addFourthOrder
    rcases isCumulant with _ | _
    · simp
    rcases isD3Q27 with _ | _
    · simp
    simp only [Bool.not_true, Bool.or_self, Bool.false_eq_true, if_false, or_self, iff_false, Bool.true_eq_false]
    split
    · simp
    · rcases h : fourthOrderRates polys rates with e | ω
      · simp only [Except.error.injEq]
        exact hg e h
      · simp
  · rintro rfl rfl ⟨p, hp, hpp⟩
    unfold addFourthOrder
    have : properSubset corrected4 polys = false := by
      unfold properSubset
      rw [Bool.and_eq_false_iff]
      left
      rw [List.all_eq_false]
      exact ⟨p, hp, by rw [hpp]; decide⟩
    rw [this]
    rfl

end Exceptions

/-- the default polynomials of D3Q27 contain all corrected polynomials; the raw monomials do not -/
example : ∃ g, cascadedMomentSets Tables.D3Q27_walberla = some g ∧ properSubset corrected2 g.flatten = true ∧
    properSubset corrected4 g.flatten = true ∧ corrected2.map (position g.flatten) = [7, 8, 9] ∧
    corrected4.map (position g.flatten) = [17, 18, 19, 20, 21, 22] ∧ g.flatten.length = 27 :=
  ⟨_, rfl, by decide +kernel, by decide +kernel, by decide +kernel, by decide +kernel, by decide +kernel⟩

example : addGalilean (K := ℚ) true true ((defaultMomentSet 3 27).getD []) (List.replicate 27 1) = .error .typeError :=
  (C55_galilean_exceptions true true _ _).2.1 rfl rfl ⟨x ^ 2 - y ^ 2, by simp [corrected2], by decide +kernel⟩

/-! ### Conservation -/

section Collide
variable {D : ℕ} {S : Stencil D}

open CumulantMethod CumulantTransform Matrix

/-- the method whose equilibrium values are the corrected post-collision cumulants -/
noncomputable def recast (m : CumulantMethod.Method S) (t : Transform S.Q) (b : (Fin D → ℝ) → List ℕ → ℝ)
    (d corr : (Fin S.Q → ℝ) → Fin S.Q → ℝ) (inc : Bool) : CumulantMethod.Method S :=
  { m with ceq := fun f => preCumulants m t (sortExponents t.required) b inc f +
      diagonal (d f) *ᵥ (m.ceq f - preCumulants m t (sortExponents t.required) b inc f) + corr f }

/-- the corrected collision is that of a method with other equilibrium values -/
theorem correctedRule_ok {m : CumulantMethod.Method S} {d corr : (Fin S.Q → ℝ) → Fin S.Q → ℝ} {inc : Bool}
    {r : (Fin S.Q → ℝ) → Fin S.Q → ℝ} (hr : correctedRule m d corr inc = .ok r) : ∃ b t, m.backgroundShift = .ok b ∧
      construct D S.Q m.cumulants = .ok t ∧
      (recast m t b d corr inc).collisionRule (fun _ => 1) inc = .ok r := by
  unfold correctedRule at hr
  rcases hb : m.backgroundShift with e | b
  · rw [hb] at hr; cases hr
  rcases ht : construct D S.Q m.cumulants with e | t
  · rw [hb, ht] at hr; cases hr
  rw [hb, ht] at hr
  simp only at hr
  split at hr
  · cases hr
  rename_i h0
  cases hr
  refine ⟨b, t, rfl, rfl, ?_⟩
  unfold CumulantMethod.Method.collisionRule
  rw [show (recast m t b d corr inc).backgroundShift = m.backgroundShift from rfl, hb]
  rw [show construct D S.Q (recast m t b d corr inc).cumulants = construct D S.Q m.cumulants from rfl, ht]
  simp only
  rw [if_neg h0]
  congr 1
  funext f
  unfold CumulantMethod.Method.collide collideCorrected
  simp only
  have h1 : diagonal (fun _ : Fin S.Q => (1 : ℝ)) = 1 := diagonal_one
  rw [h1]
  simp only [one_mulVec]
  have h2 : ∀ a b : Fin S.Q → ℝ, a + (b - a) = b := fun a b => by abel
  rw [h2]
  rfl

/-- without corrections it is the collision of C54 -/
theorem C55_no_correction (m : CumulantMethod.Method S) (d : Fin S.Q → ℝ) (inc : Bool) :
    correctedRule m (fun _ => d) (fun _ => 0) inc = m.collisionRule d inc := by
  unfold correctedRule CumulantMethod.Method.collisionRule
  rcases m.backgroundShift with e | b
  · rfl
  rcases construct D S.Q m.cumulants with e | t
  · rfl
  simp only
  congr 2
  funext f
  unfold CumulantMethod.Method.collide collideCorrected preCumulants
  simp only [add_zero]

/-- C55: corrections of cumulants other than `1, x, y, z` change neither mass nor momentum, for all corrections, and for all rates, which may depend
on the state. -/
theorem C55_mass_momentum (hD1 : 1 ≤ D) (hD : D ≤ 3) (m : CumulantMethod.Method S) (d corr : (Fin S.Q → ℝ) → Fin S.Q → ℝ) (inc : Bool)
    {r : (Fin S.Q → ℝ) → Fin S.Q → ℝ} (hr : correctedRule m d corr inc = .ok r) {w : Fin S.Q → ℝ} (hw : m.Storage w)
    (hp : ∀ p ∈ m.cumulants, Spec.InDimension D p) {i0 : Fin S.Q} {i1 : Fin D → Fin S.Q} (hc : m.HasConserved i0 i1)
    (f : Fin S.Q → ℝ) (hk0 : corr f i0 = 0) (hk1 : ∀ a, corr f (i1 a) = 0)
    (hpos : 0 < m.rho f) (hρ : m.rho f = ∑ q, (f q + w q)) (h0 : m.ceq f i0 = m.rho f * Real.log (m.rho f))
    (h1 : ∀ a, m.ceq f (i1 a) = m.rho f * m.vel f a) (hF0 : (m.forceTerms inc f 0).1 = 0)
    (hu : ∀ a, m.rho f * m.vel f a = ∑ q, (S.c q a : ℝ) * (f q + w q) + (m.forceTerms inc f (Pi.single a 1)).1) :
    ∑ q, r f q = ∑ q, f q + (m.forceTerms inc f 0).2 ∧
    ∀ a, ∑ q, (S.c q a : ℝ) * r f q = ∑ q, (S.c q a : ℝ) * f q + (m.forceTerms inc f (Pi.single a 1)).1 +
      (m.forceTerms inc f (Pi.single a 1)).2 + m.vel f a * (m.forceTerms inc f 0).2 := by
  obtain ⟨b, t, hb, ht, hr'⟩ := correctedRule_ok hr
  have hpre : preCumulants m t (sortExponents t.required) b inc f = m.pre t w inc f :=
    CumulantMethod.Method.pre_computed hD1 hD hb ht hw inc f
  obtain ⟨p0, p1⟩ := CumulantMethod.Method.pre_low hD ht hp hc (inc := inc) hpos hρ hF0 hu
  refine CumulantMethod.Method.C54_mass_momentum hD1 hD (recast m t b d corr inc) _ inc hr' (w := w) hw hp (i0 := i0) (i1 := i1) ⟨hc.mass, hc.momentum⟩ f hpos hρ
    ?_ ?_ hF0 hu
  · simp only [recast, hpre, mulVec_diagonal, Pi.add_apply, Pi.sub_apply, p0, h0, hk0]
    ring
  · intro a
    simp only [recast, hpre, mulVec_diagonal, Pi.add_apply, Pi.sub_apply, p1, h1, hk1]
    ring

/-- C55: the corrections do not change for which methods there is a collision rule. -/
theorem C55_defined_iff (m : CumulantMethod.Method S) (d corr : (Fin S.Q → ℝ) → Fin S.Q → ℝ) (d' : Fin S.Q → ℝ) (inc : Bool) :
    (∃ r, correctedRule m d corr inc = .ok r) ↔ ∃ r, m.collisionRule d' inc = .ok r := by
  unfold correctedRule CumulantMethod.Method.collisionRule
  rcases m.backgroundShift with e | b
  · exact Iff.rfl
  rcases construct D S.Q m.cumulants with e | t
  · exact Iff.rfl
  simp only
  by_cases h : (CumulantMethod.Method.pdfsToCentral S (sortExponents t.required) 0).det = 0
  · rw [if_pos h, if_pos h]
  · rw [if_neg h, if_neg h]
    simp

/-- a position is that of an equal polynomial -/
theorem same_of_position {polys : List PExpr} {p : PExpr} {i : ℕ} (hi : i < polys.length) (h : position polys p = i) :
    same p (polys.getD i 0) = true := by
  subst h
  rw [List.getD_eq_getElem _ _ hi]
  exact List.findIdx_getElem (w := hi)

/-- C55: every correction term is added once, to its own polynomial. -/
theorem C55_place (Q : ℕ) (positions : List ℕ) (hn : positions.Nodup) (terms : List ℝ) (hl : positions.length = terms.length) :
    (∀ (k : ℕ) (hk : k < positions.length) (hQ : positions[k] < Q), place Q positions terms ⟨positions[k], hQ⟩ = terms[k]) ∧
    ∀ i : Fin Q, i.val ∉ positions → place Q positions terms i = 0 := by
  have hz : ∀ (positions : List ℕ) (terms : List ℝ) (i : Fin Q), i.val ∉ positions → place Q positions terms i = 0 := by
    intro positions terms i hi
    refine List.sum_eq_zero fun y hy => ?_
    obtain ⟨p, hp, rfl⟩ := List.mem_map.1 hy
    rw [if_neg]
    rintro h
    exact hi (h ▸ (List.of_mem_zip hp).1)
  refine ⟨?_, fun i => hz _ _ i⟩
  induction positions generalizing terms with
  | nil => intro k hk; simp at hk
  | cons p ps ih =>
    cases terms with
    | nil => simp at hl
    | cons t ts =>
      have hc : ∀ i, place Q (p :: ps) (t :: ts) i = (if p = i.val then t else 0) + place Q ps ts i := fun i => by
        simp [place]
      intro k hk hQ
      rw [hc]
      cases k with
      | zero => simpa using hz ps ts _ (List.nodup_cons.1 hn).1
      | succ k =>
        have hk' : k < ps.length := by simpa using hk
        have hne : p ≠ ps[k] := fun h => (List.nodup_cons.1 hn).1 (h ▸ List.getElem_mem hk')
        have := ih (List.nodup_cons.1 hn).2 ts (by simpa using hl) k hk' (by simpa using hQ)
        simpa [hne] using this

example : place 4 [2, 0] [5, 7] (0 : Fin 4) = (7 : ℝ) := by
  have := (C55_place 4 [2, 0] (by decide) [5, 7] rfl).1 1 (by decide) (by decide)
  simpa using this

/-- C55: the terms of both corrections are added to cumulants other than `1, x, y, z`. -/
theorem C55_placed (m : CumulantMethod.Method S) (hD : D ≤ 3) (hl : m.cumulants.length = S.Q) {i0 : Fin S.Q} {i1 : Fin D → Fin S.Q}
    (hc : m.HasConserved i0 i1) (t₂ t₄ : List ℝ) :
    (place S.Q (corrected2.map (position m.cumulants)) t₂ + place S.Q (corrected4.map (position m.cumulants)) t₄) i0 = 0 ∧
    ∀ a, (place S.Q (corrected2.map (position m.cumulants)) t₂ + place S.Q (corrected4.map (position m.cumulants)) t₄) (i1 a) = 0 := by
  have key : ∀ (ps : List PExpr) (ts : List ℝ) (i : Fin S.Q), (∀ p ∈ ps, same p (m.cumulants.getD i 0) = false) →
      place S.Q (ps.map (position m.cumulants)) ts i = 0 := by
    intro ps ts i h
    unfold place
    refine List.sum_eq_zero fun v hv => ?_
    obtain ⟨q, hq, rfl⟩ := List.mem_map.1 hv
    obtain ⟨p, hp, hpq⟩ := List.mem_map.1 (List.of_mem_zip hq).1
    refine if_neg fun he => ?_
    have := same_of_position (by rw [hl]; exact i.isLt) (hpq.trans he)
    rw [h p hp] at this
    cases this
  have h0 : ∀ p ∈ corrected2 ++ corrected4, same p (m.cumulants.getD i0 0) = false := by
    intro p hp
    unfold same
    rw [hc.mass]
    revert p
    decide +kernel
  have h1 : ∀ a : Fin D, ∀ p ∈ corrected2 ++ corrected4, same p (m.cumulants.getD (i1 a) 0) = false := by
    intro a p hp
    unfold same
    rw [hc.momentum]
    have : ∀ a : Fin 3, ∀ p ∈ corrected2 ++ corrected4, p.expand.isPerm [(1, (List.replicate 3 0).set a 1)] = false := by decide +kernel
    exact this ⟨a.val, lt_of_lt_of_le a.isLt hD⟩ p hp
  simp only [Pi.add_apply]
  refine ⟨?_, fun a => ?_⟩
  · rw [key _ _ _ fun p hp => h0 p (List.mem_append_left _ hp), key _ _ _ fun p hp => h0 p (List.mem_append_right _ hp), add_zero]
  · rw [key _ _ _ fun p hp => h1 a p (List.mem_append_left _ hp), key _ _ _ fun p hp => h1 a p (List.mem_append_right _ hp), add_zero]

/-- C55: mass and momentum with both corrections, whatever the terms are. -/
theorem C55_conservation (hD1 : 1 ≤ D) (hD : D ≤ 3) (m : CumulantMethod.Method S) (d : (Fin S.Q → ℝ) → Fin S.Q → ℝ)
    (t₂ t₄ : (Fin S.Q → ℝ) → List ℝ) (inc : Bool) {r : (Fin S.Q → ℝ) → Fin S.Q → ℝ}
    (hr : correctedRule m d (fun f => place S.Q (corrected2.map (position m.cumulants)) (t₂ f) +
      place S.Q (corrected4.map (position m.cumulants)) (t₄ f)) inc = .ok r) {w : Fin S.Q → ℝ} (hw : m.Storage w)
    (hp : ∀ p ∈ m.cumulants, Spec.InDimension D p) {i0 : Fin S.Q} {i1 : Fin D → Fin S.Q} (hc : m.HasConserved i0 i1)
    (f : Fin S.Q → ℝ) (hpos : 0 < m.rho f) (hρ : m.rho f = ∑ q, (f q + w q)) (h0 : m.ceq f i0 = m.rho f * Real.log (m.rho f))
    (h1 : ∀ a, m.ceq f (i1 a) = m.rho f * m.vel f a) (hF : inc = false ∨ m.force = none)
    (hu : ∀ a, m.rho f * m.vel f a = ∑ q, (S.c q a : ℝ) * (f q + w q)) :
    ∑ q, r f q = ∑ q, f q ∧ ∀ a, ∑ q, (S.c q a : ℝ) * r f q = ∑ q, (S.c q a : ℝ) * f q := by
  obtain ⟨b, t, -, ht, -⟩ := correctedRule_ok hr
  have hl : m.cumulants.length = S.Q := (construct_ok ht).2.2.2.1
  obtain ⟨k0, k1⟩ := C55_placed m hD hl hc (t₂ f) (t₄ f)
  have hz := CumulantMethod.Method.forceTerms_off m hF f
  have := C55_mass_momentum hD1 hD m d _ inc hr hw hp hc f k0 k1 hpos hρ h0 h1 (by rw [hz]) (fun a => by rw [hu a, hz]; simp)
  simpa [hz] using this

end Collide

section Example
open CumulantMethod CumulantTransform Matrix Continuous

/-- an unforced D3Q27 method with the default polynomials, whose equilibrium is the Maxwellian -/
noncomputable def exampleMethod3D : CumulantMethod.Method (stencilOf Tables.D3Q27_walberla 3) where
  cumulants := ((cascadedMomentSets Tables.D3Q27_walberla).getD []).flatten
  rho := fun f => ∑ q, f q
  vel := fun f a => (∑ q, ((stencilOf Tables.D3Q27_walberla 3).c q a : ℝ) * f q) / ∑ q, f q
  ceq := fun f i => (((((cascadedMomentSets Tables.D3Q27_walberla).getD []).flatten).getD i 0).expand.map fun s =>
    (s.1 : ℝ) * ((∑ q, f q) * continuousCumulant (maxwellian (∑ q, f q)
      (fun a => (∑ q, ((stencilOf Tables.D3Q27_walberla 3).c q a : ℝ) * f q) / ∑ q, f q) (1 / 3)) fun a => s.2.getD a 0)).sum
  zeroCentered := false
  deviationOnly := false
  background := none
  force := none

/-- all hypotheses hold for it: the populations `1, …, 1` keep their mass 27 under arbitrary corrections and rates -/
example (d : (Fin 27 → ℝ) → Fin 27 → ℝ) (t₂ t₄ : (Fin 27 → ℝ) → List ℝ) : ∃ r,
    correctedRule exampleMethod3D d (fun f => place 27 (corrected2.map (position exampleMethod3D.cumulants)) (t₂ f) +
      place 27 (corrected4.map (position exampleMethod3D.cumulants)) (t₄ f)) false = .ok r ∧ ∑ q, r (fun _ => 1) q = 27 := by
  have hmem : ("D3Q27", "walberla", Tables.D3Q27_walberla) ∈ Tables.predefined := by decide +kernel
  obtain ⟨g, hg⟩ : ∃ g, cascadedMomentSets Tables.D3Q27_walberla = some g := ⟨_, rfl⟩
  have hcum : exampleMethod3D.cumulants = g.flatten := by
    show ((cascadedMomentSets Tables.D3Q27_walberla).getD []).flatten = g.flatten
    rw [hg]; rfl
  obtain ⟨h1, h2, i0, i1, h3⟩ := C54_offered_sets _ hmem (by decide) g.flatten (Or.inr ⟨g, hg, rfl⟩) exampleMethod3D hcum
    (fun h => by cases h)
  obtain ⟨r, hr⟩ := (C55_defined_iff exampleMethod3D d (fun f => place 27 (corrected2.map (position exampleMethod3D.cumulants)) (t₂ f) +
      place 27 (corrected4.map (position exampleMethod3D.cumulants)) (t₄ f)) 0 false).2 (h1 0 false)
  have hsum : ∑ q : Fin 27, (1 : ℝ) = 27 := by norm_num [Finset.sum_const]
  have hpos : 0 < exampleMethod3D.rho fun _ => 1 := by
    show (0 : ℝ) < ∑ q : Fin 27, (1 : ℝ)
    rw [hsum]; norm_num
  obtain ⟨l0, l1⟩ := C54_maxwellian_low exampleMethod3D (fun _ => 1) hpos (c := 1 / 3) (by norm_num) (fun _ => rfl) (by decide) h3
  have key := C55_conservation (by decide) (by decide) exampleMethod3D d t₂ t₄ false hr (w := 0)
    (by unfold CumulantMethod.Method.Storage; rfl) h2 h3 (fun _ => 1) hpos (by simp [exampleMethod3D]) l0 l1 (Or.inl rfl) (fun a => by
      have : (exampleMethod3D.rho fun _ => 1) ≠ 0 := hpos.ne'
      show _ * (_ / (exampleMethod3D.rho fun _ => 1)) = _
      rw [mul_div_cancel₀ _ this]
      simp)
  exact ⟨r, hr, key.1.trans hsum⟩

end Example

end Corrections
end Lbm
