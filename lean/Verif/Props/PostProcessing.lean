import Verif.PostProcessing
import Mathlib.Tactic.LinearCombination
import Mathlib.Tactic.Linarith
import Mathlib.Tactic.FieldSimp
import Mathlib.Tactic.NormNum
import Mathlib.Tactic.Ring
import Mathlib.Tactic.FinCases
import Mathlib.Data.Fin.VecNotation
import Mathlib.Algebra.Order.Field.Rat

/-!
# Evaluation of phase-field results: angles, circles, triple points (C78, C79, C80)
-/

namespace Lbm
namespace PostProcessing

namespace Spec

/-- Three interfaces meet in a point.  The interface between phases 0 and 1 points along the first axis; phases 1, 2 and 0 follow one
another counterclockwise and take the angles `t1`, `t2`, `t0`.  The interfaces pull with their tensions, and the pulls cancel. -/
def Balanced (g01 g12 g02 t0 t1 t2 : ℝ) : Prop :=
  t0 + t1 + t2 = 2 * Real.pi ∧ g01 + g12 * Real.cos t1 + g02 * Real.cos (t1 + t2) = 0 ∧ g12 * Real.sin t1 + g02 * Real.sin (t1 + t2) = 0

/-- Degrees to radians -/
noncomputable def rad (x : ℝ) : ℝ := x * Real.pi / 180

/-- The point lies on the circle. -/
def On (m : Pt) (r : ℝ) (p : Pt) : Prop := (p.1 - m.1) ^ 2 + (p.2 - m.2) ^ 2 = r ^ 2

end Spec

/-! ## C78: Neumann angles -/

theorem heron {a b c : ℝ} (ha : 0 < a) (hb : 0 < b) : 1 - ((a ^ 2 + b ^ 2 - c ^ 2) / (2 * a * b)) ^ 2 =
    ((a + b + c) * (a + b - c) * (a + c - b) * (b + c - a)) / (2 * a * b) ^ 2 := by
  field_simp
  ring

theorem arg_mem {a b c : ℝ} (ha : 0 < a) (hb : 0 < b) (h1 : c ≤ a + b) (h2 : a ≤ b + c) (h3 : b ≤ a + c) :
    -1 ≤ (a ^ 2 + b ^ 2 - c ^ 2) / (2 * a * b) ∧ (a ^ 2 + b ^ 2 - c ^ 2) / (2 * a * b) ≤ 1 := by
  have hab : 0 < 2 * a * b := by positivity
  rw [le_div_iff₀ hab, div_le_iff₀ hab]
  constructor
  · nlinarith [mul_nonneg (show (0:ℝ) ≤ a + b - c by linarith) (show (0 : ℝ) ≤ a + b + c by linarith)]
  · nlinarith [mul_nonneg (show (0:ℝ) ≤ c + a - b by linarith) (show (0 : ℝ) ≤ c - a + b by linarith)]

theorem sin_arccos_eq {a b c : ℝ} (ha : 0 < a) (hb : 0 < b) :
    Real.sin (Real.arccos ((a ^ 2 + b ^ 2 - c ^ 2) / (2 * a * b))) =
      Real.sqrt ((a + b + c) * (a + b - c) * (a + c - b) * (b + c - a)) / (2 * a * b) := by
  have hab : 0 < 2 * a * b := by positivity
  rw [Real.sin_arccos, heron ha hb, Real.sqrt_div' _ (by positivity), Real.sqrt_sq hab.le]

/-- The angles of a triangle from its sides -/
theorem angle_sum {a b c : ℝ} (ha : 0 < a) (hb : 0 < b) (hc : 0 < c) (h1 : c ≤ a + b) (h2 : a ≤ b + c) (h3 : b ≤ a + c) :
    Real.arccos ((a ^ 2 + b ^ 2 - c ^ 2) / (2 * a * b)) + Real.arccos ((a ^ 2 + c ^ 2 - b ^ 2) / (2 * a * c)) +
      Real.arccos ((c ^ 2 + b ^ 2 - a ^ 2) / (2 * c * b)) = Real.pi := by
  obtain ⟨x1, x2⟩ := arg_mem ha hb h1 h2 h3
  obtain ⟨y1, y2⟩ := arg_mem ha hc h3 (by linarith) h1
  have hS : 0 ≤ (a + b + c) * (a + b - c) * (a + c - b) * (b + c - a) := by
    have := mul_nonneg (mul_nonneg (mul_nonneg (show (0:ℝ) ≤ a + b + c by linarith) (show (0 : ℝ) ≤ a + b - c by linarith))
      (show (0 : ℝ) ≤ a + c - b by linarith)) (show (0 : ℝ) ≤ b + c - a by linarith)
    exact this
  have hcos : Real.cos (Real.arccos ((a ^ 2 + b ^ 2 - c ^ 2) / (2 * a * b)) + Real.arccos ((a ^ 2 + c ^ 2 - b ^ 2) / (2 * a * c))) =
      -((c ^ 2 + b ^ 2 - a ^ 2) / (2 * c * b)) := by
    rw [Real.cos_add, Real.cos_arccos x1 x2, Real.cos_arccos y1 y2, sin_arccos_eq ha hb, sin_arccos_eq ha hc,
      show (a + c + b) * (a + c - b) * (a + b - c) * (c + b - a) = (a + b + c) * (a + b - c) * (a + c - b) * (b + c - a) by ring]
    rw [div_mul_div_comm, div_mul_div_comm, Real.mul_self_sqrt hS]
    field_simp
    ring
  have hle : Real.arccos ((a ^ 2 + b ^ 2 - c ^ 2) / (2 * a * b)) + Real.arccos ((a ^ 2 + c ^ 2 - b ^ 2) / (2 * a * c)) ≤ Real.pi := by
    have : Real.arccos ((a ^ 2 + b ^ 2 - c ^ 2) / (2 * a * b)) ≤ Real.arccos (-((a ^ 2 + c ^ 2 - b ^ 2) / (2 * a * c))) := by
      apply Real.arccos_le_arccos
      have e : (a ^ 2 + b ^ 2 - c ^ 2) / (2 * a * b) + (a ^ 2 + c ^ 2 - b ^ 2) / (2 * a * c) =
          (b + c) * ((a + b - c) * (a + c - b)) / (2 * a * b * c) := by
        field_simp
        ring
      have : 0 ≤ (b + c) * ((a + b - c) * (a + c - b)) / (2 * a * b * c) :=
        div_nonneg (mul_nonneg (by linarith) (mul_nonneg (by linarith) (by linarith))) (by positivity)
      linarith
    rw [Real.arccos_neg] at this
    linarith
  have := Real.arccos_cos (add_nonneg (Real.arccos_nonneg ((a ^ 2 + b ^ 2 - c ^ 2) / (2 * a * b)))
    (Real.arccos_nonneg ((a ^ 2 + c ^ 2 - b ^ 2) / (2 * a * c)))) hle
  rw [hcos, Real.arccos_neg] at this
  linarith

theorem neumannAngle_eq {a b c : ℝ} (ha : 0 < a) (hb : 0 < b) (h1 : c ≤ a + b) (h2 : a ≤ b + c) (h3 : b ≤ a + c) :
    neumannAngle a b c = some (rad2deg (Real.pi - Real.arccos ((a ^ 2 + b ^ 2 - c ^ 2) / (2 * a * b)))) := by
  have e : -(a ^ 2 + b ^ 2 - c ^ 2) / 2 / a / b = -((a ^ 2 + b ^ 2 - c ^ 2) / (2 * a * b)) := by
    field_simp
  obtain ⟨x1, x2⟩ := arg_mem ha hb h1 h2 h3
  rw [neumannAngle, if_neg (by rintro (h | h) <;> linarith), e, arccos, if_pos ⟨by linarith, by linarith⟩, Real.arccos_neg]
  rfl

theorem rad_rad2deg (x : ℝ) : Spec.rad (rad2deg x) = x := by
  have := Real.pi_ne_zero
  unfold Spec.rad rad2deg
  field_simp

/-- **C78 (the angles balance the tensions).**  For positive tensions fulfilling the triangle inequalities the three angles are numbers,
lie between 0 and 180 degrees, add up to 360 degrees, and let the three pulls cancel. -/
theorem C78_balance (g : Fin 3 → Fin 3 → ℝ) (h01 : 0 < g 0 1) (h12 : 0 < g 1 2) (h02 : 0 < g 0 2)
    (t0 : g 1 2 ≤ g 0 1 + g 0 2) (t1 : g 0 2 ≤ g 0 1 + g 1 2) (t2 : g 0 1 ≤ g 1 2 + g 0 2) :
    ∃ a0 a1 a2, neumannAngles g = [some a0, some a1, some a2] ∧ a0 + a1 + a2 = 360 ∧
      (0 ≤ a0 ∧ a0 ≤ 180) ∧ (0 ≤ a1 ∧ a1 ≤ 180) ∧ (0 ≤ a2 ∧ a2 ≤ 180) ∧
      Spec.Balanced (g 0 1) (g 1 2) (g 0 2) (Spec.rad a0) (Spec.rad a1) (Spec.rad a2) := by
  have hpi := Real.pi_pos
  have bound : ∀ x : ℝ, 0 ≤ rad2deg (Real.pi - Real.arccos x) ∧ rad2deg (Real.pi - Real.arccos x) ≤ 180 := by
    intro x
    unfold rad2deg
    rw [le_div_iff₀ hpi, div_le_iff₀ hpi]
    constructor <;> nlinarith [Real.arccos_nonneg x, Real.arccos_le_pi x]
  have e0 := neumannAngle_eq h01 h02 t0 (by linarith) (by linarith)
  have e1 := neumannAngle_eq h01 h12 t1 (by linarith) (by linarith)
  have e2 := neumannAngle_eq h12 h02 t2 (by linarith) (by linarith)
  have hs := angle_sum h01 h02 h12 t0 (by linarith) (by linarith)
  refine ⟨_, _, _, by rw [neumannAngles, e0, e1, e2], ?_, bound _, bound _, bound _, ?_, ?_, ?_⟩
  · unfold rad2deg
    rw [← add_div, ← add_div, div_eq_iff hpi.ne']
    linear_combination -180 * hs
  · simp only [rad_rad2deg]
    linear_combination -hs
  · simp only [rad_rad2deg]
    obtain ⟨x1, x2⟩ := arg_mem h01 h02 t0 (by linarith) (by linarith)
    obtain ⟨y1, y2⟩ := arg_mem h01 h12 t1 (by linarith) (by linarith)
    rw [show Real.pi - Real.arccos ((g 0 1 ^ 2 + g 1 2 ^ 2 - g 0 2 ^ 2) / (2 * g 0 1 * g 1 2)) +
      (Real.pi - Real.arccos ((g 1 2 ^ 2 + g 0 2 ^ 2 - g 0 1 ^ 2) / (2 * g 1 2 * g 0 2))) =
      Real.arccos ((g 0 1 ^ 2 + g 0 2 ^ 2 - g 1 2 ^ 2) / (2 * g 0 1 * g 0 2)) + Real.pi by linear_combination -hs,
      Real.cos_pi_sub, Real.cos_add_pi, Real.cos_arccos x1 x2, Real.cos_arccos y1 y2]
    field_simp
    ring
  · simp only [rad_rad2deg]
    rw [show Real.pi - Real.arccos ((g 0 1 ^ 2 + g 1 2 ^ 2 - g 0 2 ^ 2) / (2 * g 0 1 * g 1 2)) +
      (Real.pi - Real.arccos ((g 1 2 ^ 2 + g 0 2 ^ 2 - g 0 1 ^ 2) / (2 * g 1 2 * g 0 2))) =
      Real.arccos ((g 0 1 ^ 2 + g 0 2 ^ 2 - g 1 2 ^ 2) / (2 * g 0 1 * g 0 2)) + Real.pi by linear_combination -hs,
      Real.sin_pi_sub, Real.sin_add_pi, sin_arccos_eq h01 h02, sin_arccos_eq h01 h12,
      show (g 0 1 + g 1 2 + g 0 2) * (g 0 1 + g 1 2 - g 0 2) * (g 0 1 + g 0 2 - g 1 2) * (g 1 2 + g 0 2 - g 0 1) =
        (g 0 1 + g 0 2 + g 1 2) * (g 0 1 + g 0 2 - g 1 2) * (g 0 1 + g 1 2 - g 0 2) * (g 0 2 + g 1 2 - g 0 1) by ring]
    field_simp
    ring

/-- **C78 (no other angles).**  Angles up to 180 degrees that let the pulls cancel are the ones computed. -/
theorem C78_unique (g : Fin 3 → Fin 3 → ℝ) (h01 : 0 < g 0 1) (h12 : 0 < g 1 2) (h02 : 0 < g 0 2) (a0 a1 a2 : ℝ)
    (r0 : 0 ≤ a0 ∧ a0 ≤ 180) (r1 : 0 ≤ a1 ∧ a1 ≤ 180) (r2 : 0 ≤ a2 ∧ a2 ≤ 180)
    (hb : Spec.Balanced (g 0 1) (g 1 2) (g 0 2) (Spec.rad a0) (Spec.rad a1) (Spec.rad a2)) :
    neumannAngles g = [some a0, some a1, some a2] := by
  have hpi := Real.pi_pos
  obtain ⟨hs, hc, hsn⟩ := hb
  have key : ∀ (a b c ang : ℝ), 0 < a → 0 < b → (0 ≤ ang ∧ ang ≤ 180) → 2 * a * b * Real.cos (Spec.rad ang) = c ^ 2 - a ^ 2 - b ^ 2 →
      neumannAngle a b c = some ang := by
    intro a b c ang ha hb hang hcos
    have e : -(a ^ 2 + b ^ 2 - c ^ 2) / 2 / a / b = Real.cos (Spec.rad ang) := by
      field_simp
      linear_combination -hcos
    rw [neumannAngle, if_neg (by rintro (h | h) <;> linarith), e, arccos, if_pos ⟨Real.neg_one_le_cos _, Real.cos_le_one _⟩,
      Real.arccos_cos]
    · simp only [Option.map_some, rad2deg, Spec.rad]
      congr 1
      field_simp
    · unfold Spec.rad
      have := hang.1
      positivity
    · unfold Spec.rad
      rw [div_le_iff₀ (by norm_num)]
      nlinarith [hang.2]
  have e0 : Spec.rad a0 = 2 * Real.pi - (Spec.rad a1 + Spec.rad a2) := by linear_combination hs
  have cs := Real.sin_sq_add_cos_sq (Spec.rad a1)
  have cs2 := Real.sin_sq_add_cos_sq (Spec.rad a1 + Spec.rad a2)
  have e2 : Real.cos (Spec.rad a2) = Real.cos (Spec.rad a1 + Spec.rad a2) * Real.cos (Spec.rad a1) +
      Real.sin (Spec.rad a1 + Spec.rad a2) * Real.sin (Spec.rad a1) := by
    rw [← Real.cos_sub]
    congr 1
    ring
  rw [neumannAngles, key (g 0 1) (g 0 2) (g 1 2) a0 h01 h02 r0, key (g 0 1) (g 1 2) (g 0 2) a1 h01 h12 r1,
    key (g 1 2) (g 0 2) (g 0 1) a2 h12 h02 r2]
  · rw [e2]
    set C1 := Real.cos (Spec.rad a1)
    set S1 := Real.sin (Spec.rad a1)
    set C := Real.cos (Spec.rad a1 + Spec.rad a2)
    set S := Real.sin (Spec.rad a1 + Spec.rad a2)
    linear_combination (-(g 1 2) ^ 2) * cs - (g 0 2) ^ 2 * cs2 + (g 1 2 * C1 + g 0 2 * C - g 0 1) * hc + (g 1 2 * S1 + g 0 2 * S) * hsn
  · set C1 := Real.cos (Spec.rad a1)
    set S1 := Real.sin (Spec.rad a1)
    set C := Real.cos (Spec.rad a1 + Spec.rad a2)
    set S := Real.sin (Spec.rad a1 + Spec.rad a2)
    linear_combination (-(g 1 2) ^ 2) * cs + (g 0 2) ^ 2 * cs2 + (g 0 1 + g 1 2 * C1 - g 0 2 * C) * hc + (g 1 2 * S1 - g 0 2 * S) * hsn
  · rw [e0, Real.cos_two_pi_sub]
    set C1 := Real.cos (Spec.rad a1)
    set S1 := Real.sin (Spec.rad a1)
    set C := Real.cos (Spec.rad a1 + Spec.rad a2)
    set S := Real.sin (Spec.rad a1 + Spec.rad a2)
    linear_combination (g 1 2) ^ 2 * cs - (g 0 2) ^ 2 * cs2 + (g 0 1 + g 0 2 * C - g 1 2 * C1) * hc + (g 0 2 * S - g 1 2 * S1) * hsn

/-- **C78 (the two functions agree).**  The angles from the surface tensions are the angles from the `kappa`s: the width of the
interface and the factor of six drop out. -/
theorem C78_agree (kappa : Fin 3 → ℝ) (width : ℝ) (hw : width ≠ 0) :
    neumannAngles (surfaceTension kappa width) = analyticAngles kappa := by
  have key : ∀ a b c : ℝ, neumannAngle (a / 6 * width) (b / 6 * width) (c / 6 * width) = neumannAngle a b c := by
    intro a b c
    unfold neumannAngle
    by_cases h : a = 0 ∨ b = 0
    · rw [if_pos h, if_pos]
      rcases h with h | h <;> simp [h]
    · have ha : a ≠ 0 := fun e => h (Or.inl e)
      have hb : b ≠ 0 := fun e => h (Or.inr e)
      rw [if_neg h, if_neg (by simp [ha, hb, hw])]
      congr 2
      field_simp
  simp [neumannAngles, surfaceTension, analyticAngles, key]

/-- **C78 (which parameters have Neumann angles).**  If the tensions are positive, all three angles are numbers if and only if no `kappa`
is negative. -/
theorem C78_defined (kappa : Fin 3 → ℝ) (h01 : 0 < kappa 0 + kappa 1) (h12 : 0 < kappa 1 + kappa 2) (h02 : 0 < kappa 0 + kappa 2) :
    (∀ a ∈ analyticAngles kappa, a.isSome) ↔ ∀ i, 0 ≤ kappa i := by
  constructor
  · intro h
    have key : ∀ a b c : ℝ, 0 < a → 0 < b → 0 < c → (neumannAngle a b c).isSome → c ≤ a + b ∧ a ≤ b + c ∧ b ≤ a + c := by
      intro a b c ha hb hc h
      rw [neumannAngle, if_neg (by rintro (h | h) <;> linarith), arccos] at h
      split_ifs at h with h1
      · have e : -(a ^ 2 + b ^ 2 - c ^ 2) / 2 / a / b = -(a ^ 2 + b ^ 2 - c ^ 2) / (2 * a * b) := by field_simp
        have hab : 0 < 2 * a * b := by positivity
        rw [e, le_div_iff₀ hab, div_le_iff₀ hab] at h1
        obtain ⟨h1, h2⟩ := h1
        refine ⟨abs_le_of_sq_le_sq' (by nlinarith) (by linarith) |>.2, ?_, ?_⟩
        · have := (abs_le_of_sq_le_sq' (show (a - b) ^ 2 ≤ c ^ 2 by nlinarith) hc.le).2
          linarith
        · have := (abs_le_of_sq_le_sq' (show (a - b) ^ 2 ≤ c ^ 2 by nlinarith) hc.le).1
          linarith
      · simp at h
    obtain ⟨k0, k1, k2⟩ := key _ _ _ h01 h02 h12 (h _ (by simp [analyticAngles]))
    intro i
    fin_cases i <;> simp <;> linarith
  · intro h a ha
    have h0 := h 0
    have h1 := h 1
    have h2 := h 2
    simp only [analyticAngles, List.mem_cons, List.not_mem_nil, or_false] at ha
    rcases ha with rfl | rfl | rfl <;> rw [neumannAngle_eq] <;> first | rfl | linarith

/-- **C78 (from the parameters).**  With `kappa`s of which at most one is zero and none negative, the angles add up to 360 degrees. -/
theorem C78_sum (kappa : Fin 3 → ℝ) (h : ∀ i, 0 ≤ kappa i) (h01 : 0 < kappa 0 + kappa 1) (h12 : 0 < kappa 1 + kappa 2)
    (h02 : 0 < kappa 0 + kappa 2) :
    ∃ a0 a1 a2, analyticAngles kappa = [some a0, some a1, some a2] ∧ a0 + a1 + a2 = 360 := by
  have h0 := h 0
  have h1 := h 1
  have h2 := h 2
  obtain ⟨a0, a1, a2, e, s, -⟩ := C78_balance (fun i j => kappa i + kappa j) h01 h12 h02 (by linarith) (by linarith) (by linarith)
  exact ⟨a0, a1, a2, e, s⟩

/-- Parameters 0.1, 0.2, 0.3 (the second example of the code) -/
example : ∃ a0 a1 a2, analyticAngles ![0.1, 0.2, 0.3] = [some a0, some a1, some a2] ∧ a0 + a1 + a2 = 360 :=
  C78_sum _ (fun i => by fin_cases i <;> norm_num) (show (0 : ℝ) < 0.1 + 0.2 by norm_num)
    (show (0 : ℝ) < 0.2 + 0.3 by norm_num) (show (0 : ℝ) < 0.1 + 0.3 by norm_num)

/-- Equal parameters give 120 degrees each. -/
example : neumannAngle 2 2 2 = some 120 := by
  rw [neumannAngle, if_neg (by norm_num), arccos, if_pos (by norm_num)]
  have : Real.arccos (-(2 ^ 2 + 2 ^ 2 - 2 ^ 2) / 2 / 2 / 2) = 2 * (Real.pi / 3) := by
    rw [← Real.arccos_cos (x := 2 * (Real.pi / 3)) (by positivity) (by linarith [Real.pi_pos]), Real.cos_two_mul, Real.cos_pi_div_three]
    norm_num
  rw [this]
  simp only [Option.map_some, rad2deg]
  congr 1
  field_simp
  norm_num

end PostProcessing
end Lbm
