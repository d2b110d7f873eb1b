/-
C122: relative entropy and its approximation.
-/
import Verif.DiscreteEntropy
import Mathlib.Analysis.SpecialFunctions.Log.Deriv
import Mathlib.Tactic.Linarith
import Mathlib.Tactic.FieldSimp
import Mathlib.Tactic.Ring
import Mathlib.Tactic.Positivity
import Mathlib.Tactic.NormNum

namespace Lbm
namespace DiscreteEntropy

/-- Specification: populations and reference, of the same number and positive. -/
structure Positive (f r : List ℝ) : Prop where
  length : f.length = r.length
  func : ∀ x ∈ f, 0 < x
  ref : ∀ x ∈ r, 0 < x

/-- Specification: a sum over the pairs. -/
def pairSum (g : ℝ → ℝ → ℝ) (f r : List ℝ) : ℝ := (List.zipWith g f r).sum

theorem Positive.ind {P : List ℝ → List ℝ → Prop} (h0 : P [] [])
    (h1 : ∀ x y f r, 0 < x → 0 < y → Positive f r → P f r → P (x :: f) (y :: r)) (f r : List ℝ) (h : Positive f r) : P f r := by
  induction f generalizing r with
  | nil =>
    cases r with
    | nil => exact h0
    | cons y r => exact absurd h.length (by simp)
  | cons x f ih =>
    cases r with
    | nil => exact absurd h.length (by simp)
    | cons y r =>
      have h' : Positive f r := ⟨by simpa using h.length, fun z hz => h.func z (List.mem_cons_of_mem _ hz),
        fun z hz => h.ref z (List.mem_cons_of_mem _ hz)⟩
      exact h1 x y f r (h.func x List.mem_cons_self) (h.ref y List.mem_cons_self) h' (ih r h')

theorem entropy_cons (x y : ℝ) (f r : List ℝ) : entropy (x :: f) (y :: r) = -(x * Real.log (x / y)) + entropy f r := by
  simp only [entropy, List.zipWith_cons_cons, List.sum_cons]; ring

theorem approx_cons (x y : ℝ) (f r : List ℝ) : approxEntropy (x :: f) (y :: r) = -(x * (x / y - 1)) + approxEntropy f r := by
  simp only [approxEntropy, List.zipWith_cons_cons, List.sum_cons]; ring

theorem pairSum_cons (g : ℝ → ℝ → ℝ) (x y : ℝ) (f r : List ℝ) : pairSum g (x :: f) (y :: r) = g x y + pairSum g f r := by
  simp only [pairSum, List.zipWith_cons_cons, List.sum_cons]

theorem term_le {x y : ℝ} (hx : 0 < x) (hy : 0 < y) : -(x * Real.log (x / y)) ≤ y - x := by
  have h : Real.log (y / x) ≤ y / x - 1 := Real.log_le_sub_one_of_pos (by positivity)
  have e : Real.log (x / y) = -Real.log (y / x) := by rw [← Real.log_inv, inv_div]
  rw [e]
  have := mul_le_mul_of_nonneg_left h hx.le
  have e2 : x * (y / x - 1) = y - x := by field_simp
  linarith

/-- C122. Gibbs' inequality: with the same mass the entropy is never positive. -/
theorem C122_gibbs {f r : List ℝ} (h : Positive f r) : entropy f r ≤ r.sum - f.sum := by
  refine Positive.ind (P := fun f r => entropy f r ≤ r.sum - f.sum) ?_ ?_ f r h
  · simp [entropy]
  · intro x y f r hx hy _ ih
    rw [entropy_cons, List.sum_cons, List.sum_cons]
    linarith [term_le hx hy]

/-- C122. It has its maximum at the reference only. -/
theorem C122_maximum {f r : List ℝ} (h : Positive f r) : entropy f r = r.sum - f.sum ↔ f = r := by
  refine Positive.ind (P := fun f r => entropy f r = r.sum - f.sum ↔ f = r) ?_ ?_ f r h
  · simp [entropy]
  · intro x y f r hx hy h ih
    rw [entropy_cons, List.sum_cons, List.sum_cons]
    constructor
    · intro he
      have h1 := term_le hx hy
      have h2 := C122_gibbs h
      have e1 : entropy f r = r.sum - f.sum := by linarith
      have e2 : -(x * Real.log (x / y)) = y - x := by linarith
      have hxy : x = y := by
        by_contra hne
        have hlt : Real.log (y / x) < y / x - 1 := Real.log_lt_sub_one_of_pos (by positivity) (by
          intro h1
          rw [div_eq_one_iff_eq hx.ne'] at h1
          exact hne h1.symm)
        have e : Real.log (x / y) = -Real.log (y / x) := by rw [← Real.log_inv, inv_div]
        rw [e] at e2
        have := mul_lt_mul_of_pos_left hlt hx
        have e3 : x * (y / x - 1) = y - x := by field_simp
        linarith
      rw [hxy, ih.1 e1]
    · intro he
      obtain ⟨rfl, rfl⟩ := List.cons.inj he
      rw [div_self hx.ne', Real.log_one, ih.2 rfl]
      ring

/-- C122. The approximation is the negative weighted square of the deviation (plus the difference of the masses), so it has its maximum at the
reference, too. -/
theorem C122_approx_square {f r : List ℝ} (h : Positive f r) :
    approxEntropy f r = r.sum - f.sum - pairSum (fun x y => (x - y) ^ 2 / y) f r := by
  refine Positive.ind (P := fun f r => approxEntropy f r = r.sum - f.sum - pairSum (fun x y => (x - y) ^ 2 / y) f r) ?_ ?_ f r h
  · simp [approxEntropy, pairSum]
  · intro x y f r hx hy _ ih
    rw [approx_cons, pairSum_cons, List.sum_cons, List.sum_cons, ih]
    field_simp
    ring

/-- C122. The approximation is a lower bound of the entropy. -/
theorem C122_lower {f r : List ℝ} (h : Positive f r) : approxEntropy f r ≤ entropy f r := by
  refine Positive.ind (P := fun f r => approxEntropy f r ≤ entropy f r) ?_ ?_ f r h
  · simp [approxEntropy, entropy]
  · intro x y f r hx hy _ ih
    rw [approx_cons, entropy_cons]
    have := mul_le_mul_of_nonneg_left (Real.log_le_sub_one_of_pos (div_pos hx hy)) hx.le
    linarith

theorem log_bound {s : ℝ} (hs : |s| ≤ 1 / 2) : |(1 + s) * Real.log (1 + s) - s - s ^ 2 / 2| ≤ 4 * |s| ^ 3 := by
  have h := Real.abs_log_sub_add_sum_range_le (x := -s) (by rw [abs_neg]; linarith) 2
  simp only [Finset.sum_range_succ, Finset.sum_range_zero, abs_neg] at h
  norm_num at h
  set R := -s + s ^ 2 / 2 + Real.log (1 + s) with hR
  have h0 := abs_nonneg s
  have hR' : |R| ≤ 2 * |s| ^ 3 := by
    refine h.trans ?_
    rw [div_le_iff₀ (by linarith)]
    nlinarith [pow_nonneg h0 3]
  have e : (1 + s) * Real.log (1 + s) - s - s ^ 2 / 2 = (1 + s) * R - s ^ 3 / 2 := by rw [hR]; ring
  rw [e]
  have h1 : |1 + s| ≤ 3 / 2 := by
    have := abs_add_le 1 s
    rw [abs_one] at this
    linarith
  have h2 : |(1 + s) * R| ≤ 3 / 2 * (2 * |s| ^ 3) := by
    rw [abs_mul]
    exact mul_le_mul h1 hR' (abs_nonneg _) (by norm_num)
  have h3 : |s ^ 3 / 2| = |s| ^ 3 / 2 := by rw [abs_div, abs_pow, abs_two]
  have h4 := abs_sub ((1 + s) * R) (s ^ 3 / 2)
  rw [h3] at h4
  nlinarith [pow_nonneg h0 3]

/-- C122. Near the reference the entropy is *half* of the negative weighted square, up to third order: the approximation, which is all of it, is
twice the entropy to leading order. -/
theorem C122_second_order {f r : List ℝ} (h : Positive f r) (hn : ∀ e ∈ f.zip r, |e.1 - e.2| ≤ e.2 / 2) :
    |entropy f r - (r.sum - f.sum - pairSum (fun x y => (x - y) ^ 2 / y) f r / 2)| ≤ 4 * pairSum (fun x y => |x - y| ^ 3 / y ^ 2) f r := by
  revert hn
  refine Positive.ind (P := fun f r => (∀ e ∈ f.zip r, |e.1 - e.2| ≤ e.2 / 2) →
    |entropy f r - (r.sum - f.sum - pairSum (fun x y => (x - y) ^ 2 / y) f r / 2)| ≤ 4 * pairSum (fun x y => |x - y| ^ 3 / y ^ 2) f r) ?_ ?_ f r h
  · simp [entropy, pairSum]
  · intro x y f r hx hy _ ih hn
    have h0 := ih fun e he => hn e (List.mem_cons_of_mem _ he)
    have hxy : |x - y| ≤ y / 2 := hn (x, y) List.mem_cons_self
    rw [entropy_cons, pairSum_cons, pairSum_cons, List.sum_cons, List.sum_cons]
    have hs : |(x - y) / y| ≤ 1 / 2 := by
      rw [abs_div, abs_of_pos hy, div_le_iff₀ hy]; linarith
    have hb := log_bound hs
    have e1 : 1 + (x - y) / y = x / y := by field_simp; ring
    rw [e1, abs_div, abs_of_pos hy] at hb
    have hb' := mul_le_mul_of_nonneg_left hb hy.le
    rw [← abs_of_pos hy, ← abs_mul, abs_of_pos hy] at hb'
    have e2 : y * (x / y * Real.log (x / y) - (x - y) / y - ((x - y) / y) ^ 2 / 2) =
        -(-(x * Real.log (x / y)) - (y - x - (x - y) ^ 2 / y / 2)) := by field_simp; ring
    have e3 : y * (4 * (|x - y| / y) ^ 3) = 4 * (|x - y| ^ 3 / y ^ 2) := by field_simp
    rw [e2, abs_neg, e3] at hb'
    have e4 : -(x * Real.log (x / y)) + entropy f r - (y + r.sum - (x + f.sum) -
        ((x - y) ^ 2 / y + pairSum (fun x y => (x - y) ^ 2 / y) f r) / 2) =
        (-(x * Real.log (x / y)) - (y - x - (x - y) ^ 2 / y / 2)) +
        (entropy f r - (r.sum - f.sum - pairSum (fun x y => (x - y) ^ 2 / y) f r / 2)) := by ring
    rw [e4]
    refine (abs_add_le _ _).trans ?_
    linarith

/-- C122. With equal masses the approximation is twice the entropy, up to third order in the deviation. -/
theorem C122_factor_two {f r : List ℝ} (h : Positive f r) (hm : f.sum = r.sum) (hn : ∀ e ∈ f.zip r, |e.1 - e.2| ≤ e.2 / 2) :
    |approxEntropy f r - 2 * entropy f r| ≤ 8 * pairSum (fun x y => |x - y| ^ 3 / y ^ 2) f r := by
  have h1 := C122_second_order h hn
  rw [C122_approx_square h, hm, sub_self]
  rw [hm, sub_self] at h1
  have e : 0 - pairSum (fun x y => (x - y) ^ 2 / y) f r - 2 * entropy f r =
      -(2 * (entropy f r - (0 - pairSum (fun x y => (x - y) ^ 2 / y) f r / 2))) := by ring
  rw [e, abs_neg, abs_mul, abs_two]
  linarith

/-- C122. References without a population are dropped silently: the lists may have different lengths. -/
theorem C122_surplus (f r s : List ℝ) (h : f.length = r.length) :
    entropy f (r ++ s) = entropy f r ∧ approxEntropy f (r ++ s) = approxEntropy f r := by
  induction f generalizing r with
  | nil =>
    cases r with
    | nil => simp [entropy, approxEntropy]
    | cons y r => exact absurd h (by simp)
  | cons x f ih =>
    cases r with
    | nil => exact absurd h (by simp)
    | cons y r =>
      obtain ⟨h1, h2⟩ := ih r (by simpa using h)
      rw [List.cons_append, entropy_cons, entropy_cons, approx_cons, approx_cons, h1, h2]
      exact ⟨rfl, rfl⟩

/-- Concrete case: three populations near the weights 1/6, 2/3, 1/6, with the same mass. -/
example : Positive [1 / 5, 3 / 5, 1 / 5] [1 / 6, 2 / 3, 1 / 6] ∧
    ([1 / 5, 3 / 5, 1 / 5] : List ℝ).sum = ([1 / 6, 2 / 3, 1 / 6] : List ℝ).sum ∧
    (∀ e ∈ ([1 / 5, 3 / 5, 1 / 5] : List ℝ).zip [1 / 6, 2 / 3, 1 / 6], |e.1 - e.2| ≤ e.2 / 2) ∧
    approxEntropy [1 / 5, 3 / 5, 1 / 5] [1 / 6, 2 / 3, 1 / 6] = -(1 / 50) := by
  refine ⟨⟨rfl, ?_, ?_⟩, ?_, ?_, ?_⟩
  · intro x hx; simp at hx; rcases hx with rfl | rfl | rfl <;> norm_num
  · intro x hx; simp at hx; rcases hx with rfl | rfl | rfl <;> norm_num
  · norm_num
  · intro e he; simp at he; rcases he with rfl | rfl | rfl <;> norm_num [abs_le]
  · norm_num [approxEntropy]

end DiscreteEntropy
end Lbm
