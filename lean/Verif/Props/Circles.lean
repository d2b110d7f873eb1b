import Verif.Props.PostProcessing

/-!
# Intersections of two circles and the angles of a liquid lens (C79)
-/

namespace Lbm
namespace PostProcessing

open Flt

theorem add_num (x y : ℝ) : Flt.add (num x) (num y) = num (x + y) := rfl
theorem mul_num (x y : ℝ) : Flt.mul (num x) (num y) = num (x * y) := rfl
theorem neg_num (x : ℝ) : Flt.neg (num x) = num (-x) := rfl
theorem sub_num (x y : ℝ) : Flt.sub (num x) (num y) = num (x - y) := by rw [Flt.sub, neg_num, add_num, sub_eq_add_neg]
theorem div_num {x y : ℝ} (h : y ≠ 0) : Flt.div (num x) (num y) = num (x / y) := by simp [Flt.div, h]
theorem sqrt_num {x : ℝ} (h : 0 ≤ x) : Flt.sqrt (num x) = num (Real.sqrt x) := by simp [Flt.sqrt, h]

theorem norm_sq (m : Pt) : norm m ^ 2 = m.1 ^ 2 + m.2 ^ 2 := Real.sq_sqrt (by positivity)

theorem norm_nonneg (m : Pt) : 0 ≤ norm m := Real.sqrt_nonneg _

theorem norm_sub_sq (m0 m1 : Pt) : norm (m0 - m1) ^ 2 = (m0.1 - m1.1) ^ 2 + (m0.2 - m1.2) ^ 2 := norm_sq _

/-- Circles meet only if the distance of their centres lies between the difference and the sum of the radii. -/
theorem on_range {m0 m1 : Pt} {r0 r1 : ℝ} (h0 : 0 ≤ r0) (h1 : 0 ≤ r1) {p : Pt} (hp : Spec.On m0 r0 p) (hq : Spec.On m1 r1 p) :
    |r1 - r0| ≤ norm (m0 - m1) ∧ norm (m0 - m1) ≤ r0 + r1 := by
  have hd := norm_sub_sq m0 m1
  have hn := norm_nonneg (m0 - m1)
  unfold Spec.On at hp hq
  have hcs : ((p.1 - m0.1) * (p.1 - m1.1) + (p.2 - m0.2) * (p.2 - m1.2)) ^ 2 ≤ (r0 * r1) ^ 2 := by
    rw [mul_pow, ← hp, ← hq]
    nlinarith [sq_nonneg ((p.1 - m0.1) * (p.2 - m1.2) - (p.2 - m0.2) * (p.1 - m1.1))]
  obtain ⟨hl, hu⟩ := abs_le_of_sq_le_sq' hcs (mul_nonneg h0 h1)
  constructor
  · refine abs_le_of_sq_le_sq (by nlinarith) hn
  · exact (abs_le_of_sq_le_sq' (by nlinarith) (by linarith)).2

/-- Slope of the line through the points of intersection -/
noncomputable def lineK (m0 m1 : Pt) : ℝ := -(m0.1 - m1.1) / (m0.2 - m1.2)

/-- Its intercept -/
noncomputable def lineB (m0 m1 : Pt) (r0 r1 : ℝ) : ℝ :=
  (r0 ^ 2 - r1 ^ 2 - m0.1 ^ 2 + m1.1 ^ 2 - m0.2 ^ 2 + m1.2 ^ 2) / (2 * (m1.2 - m0.2))

/-- The part before the root -/
noncomputable def front (m0 m1 : Pt) (r0 r1 : ℝ) : ℝ := -lineB m0 m1 r0 r1 * lineK m0 m1 + m1.1 + lineK m0 m1 * m1.2

/-- The radicand, factored as in Heron's formula -/
noncomputable def heronRad (m0 m1 : Pt) (r0 r1 : ℝ) : ℝ :=
  ((norm (m0 - m1) ^ 2 - (r1 - r0) ^ 2) * ((r0 + r1) ^ 2 - norm (m0 - m1) ^ 2)) / (4 * (m0.2 - m1.2) ^ 2)

theorem radicand_eq {m0 m1 : Pt} (hy : m0.2 ≠ m1.2) (r0 r1 : ℝ) :
    r1 ^ 2 * (1 + lineK m0 m1 ^ 2) - (lineB m0 m1 r0 r1 + lineK m0 m1 * m1.1 - m1.2) ^ 2 = heronRad m0 m1 r0 r1 := by
  have h1 : m0.2 - m1.2 ≠ 0 := sub_ne_zero.2 hy
  have h2 : m1.2 - m0.2 ≠ 0 := sub_ne_zero.2 hy.symm
  have e : lineB m0 m1 r0 r1 = -(r0 ^ 2 - r1 ^ 2 - m0.1 ^ 2 + m1.1 ^ 2 - m0.2 ^ 2 + m1.2 ^ 2) / (2 * (m0.2 - m1.2)) := by
    unfold lineB
    rw [div_eq_div_iff (by simpa using h2) (by simpa using h1)]
    ring
  rw [heronRad, norm_sub_sq, e, lineK]
  field_simp
  ring

theorem on_iff {m0 m1 : Pt} (hy : m0.2 ≠ m1.2) (r0 r1 : ℝ) (p : Pt) : (Spec.On m0 r0 p ∧ Spec.On m1 r1 p) ↔
    p.2 = lineK m0 m1 * p.1 + lineB m0 m1 r0 r1 ∧ ((1 + lineK m0 m1 ^ 2) * p.1 - front m0 m1 r0 r1) ^ 2 = heronRad m0 m1 r0 r1 := by
  have h1 : m0.2 - m1.2 ≠ 0 := sub_ne_zero.2 hy
  have hk : lineK m0 m1 * (m0.2 - m1.2) = -(m0.1 - m1.1) := div_mul_cancel₀ _ h1
  have hb : lineB m0 m1 r0 r1 * (2 * (m1.2 - m0.2)) = r0 ^ 2 - r1 ^ 2 - m0.1 ^ 2 + m1.1 ^ 2 - m0.2 ^ 2 + m1.2 ^ 2 :=
    div_mul_cancel₀ _ (by simpa using sub_ne_zero.2 hy.symm)
  rw [← radicand_eq hy]
  unfold Spec.On front
  set k := lineK m0 m1
  set b := lineB m0 m1 r0 r1
  have hk0 : (1 + k ^ 2) ≠ 0 := by positivity
  constructor
  · rintro ⟨ha, hc⟩
    have hl : p.2 = k * p.1 + b := by
      have : (m0.2 - m1.2) * (p.2 - (k * p.1 + b)) = 0 := by linear_combination (1 / 2 : ℝ) * (hc - ha) - p.1 * hk + (1 / 2 : ℝ) * hb
      have := (mul_eq_zero.1 this).resolve_left h1
      linarith
    refine ⟨hl, ?_⟩
    rw [hl] at hc
    linear_combination (1 + k ^ 2) * hc
  · rintro ⟨hl, hq⟩
    have hc : (p.1 - m1.1) ^ 2 + (p.2 - m1.2) ^ 2 = r1 ^ 2 := by
      have : (1 + k ^ 2) * ((p.1 - m1.1) ^ 2 + (p.2 - m1.2) ^ 2 - r1 ^ 2) = 0 := by
        rw [hl]
        linear_combination hq
      have := (mul_eq_zero.1 this).resolve_left hk0
      linarith
    refine ⟨?_, hc⟩
    linear_combination hc - 2 * (m0.2 - m1.2) * hl - 2 * p.1 * hk + hb

theorem k2_eq {m0 m1 : Pt} (hy : m0.2 ≠ m1.2) :
    div (num (-1)) (div (num (m0.2 - m1.2)) (num (m0.1 - m1.1))) = num (lineK m0 m1) := by
  have h1 : m0.2 - m1.2 ≠ 0 := sub_ne_zero.2 hy
  by_cases hx : m0.1 - m1.1 = 0
  · simp [div, hx, h1, lineK]
  · have : (m0.2 - m1.2) / (m0.1 - m1.1) ≠ 0 := div_ne_zero h1 hx
    simp only [div, if_neg hx, if_neg this, lineK]
    congr 1
    field_simp

theorem b2_eq {m0 m1 : Pt} (hy : m0.2 ≠ m1.2) (r0 r1 : ℝ) :
    div (num (r0 ^ 2 - r1 ^ 2 - m0.1 ^ 2 + m1.1 ^ 2 - m0.2 ^ 2 + m1.2 ^ 2)) (num (2 * (m1.2 - m0.2))) = num (lineB m0 m1 r0 r1) := by
  have : 2 * (m1.2 - m0.2) ≠ 0 := by simpa using sub_ne_zero.2 hy.symm
  simp only [div, if_neg this, lineB]

/-- The two points of intersection, as numbers -/
noncomputable def crossPts (m0 m1 : Pt) (r0 r1 : ℝ) : List Pt :=
  let f := front m0 m1 r0 r1
  let q := Real.sqrt (heronRad m0 m1 r0 r1)
  let k := lineK m0 m1
  let b := lineB m0 m1 r0 r1
  [((f - q) / (1 + k ^ 2), k * ((f - q) / (1 + k ^ 2)) + b), ((f + q) / (1 + k ^ 2), k * ((f + q) / (1 + k ^ 2)) + b)]

theorem heronRad_nonneg {m0 m1 : Pt} {r0 r1 : ℝ} (hd : |r1 - r0| ≤ norm (m0 - m1)) (hs : norm (m0 - m1) ≤ r0 + r1) :
    0 ≤ heronRad m0 m1 r0 r1 := by
  have hn := norm_nonneg (m0 - m1)
  obtain ⟨a, b⟩ := abs_le.1 hd
  apply div_nonneg (mul_nonneg ?_ ?_) (by positivity)
  · nlinarith
  · nlinarith

theorem crossing_eq {m0 m1 : Pt} (hy : m0.2 ≠ m1.2) {r0 r1 : ℝ} (hd : |r1 - r0| < norm (m0 - m1)) (hs : norm (m0 - m1) < r0 + r1) :
    circleIntersections m0 m1 r0 r1 = (crossPts m0 m1 r0 r1).map fun p => (num p.1, num p.2) := by
  have hk0 : (1 + lineK m0 m1 ^ 2) ≠ 0 := by positivity
  have hk1 : (1 + lineK m0 m1 * lineK m0 m1) ≠ 0 := by rw [← pow_two]; exact hk0
  have hr := heronRad_nonneg hd.le hs.le
  have e : -(lineB m0 m1 r0 r1 * lineB m0 m1 r0 r1) + r1 ^ 2 + lineK m0 m1 * lineK m0 m1 * r1 ^ 2 -
      2 * lineB m0 m1 r0 r1 * lineK m0 m1 * m1.1 - lineK m0 m1 * lineK m0 m1 * m1.1 ^ 2 + 2 * lineB m0 m1 r0 r1 * m1.2 +
      2 * lineK m0 m1 * m1.1 * m1.2 - m1.2 ^ 2 = heronRad m0 m1 r0 r1 := by
    rw [← radicand_eq hy]
    ring
  unfold circleIntersections
  simp only [k2_eq hy, b2_eq hy]
  rw [if_neg (by linarith), if_neg (by rintro (h | h) <;> linarith), if_pos ⟨hd, hs⟩]
  simp only [mul_num, neg_num, add_num, sub_num, e, sqrt_num hr, div_num hk1]
  simp only [crossPts, List.map_cons, List.map_nil, front, pow_two]

/-- **C79 (intersections).**  Unless the circles touch or their centres have the same ordinate, the points returned are exactly the points
common to both circles. -/
theorem C79_intersections (m0 m1 : Pt) (r0 r1 : ℝ) (h0 : 0 ≤ r0) (h1 : 0 ≤ r1) (hy : m0.2 ≠ m1.2)
    (ht : |r1 - r0| ≠ norm (m0 - m1)) (ht' : norm (m0 - m1) ≠ r0 + r1) (x y : ℝ) :
    (num x, num y) ∈ circleIntersections m0 m1 r0 r1 ↔ Spec.On m0 r0 (x, y) ∧ Spec.On m1 r1 (x, y) := by
  by_cases hc : |r1 - r0| < norm (m0 - m1) ∧ norm (m0 - m1) < r0 + r1
  · rw [crossing_eq hy hc.1 hc.2, on_iff hy]
    have hk0 : (1 + lineK m0 m1 ^ 2) ≠ 0 := by positivity
    have hr := heronRad_nonneg hc.1.le hc.2.le
    have hq := Real.sq_sqrt hr
    simp only [crossPts, List.map_cons, List.map_nil, List.mem_cons, Prod.mk.injEq, num.injEq, List.not_mem_nil, or_false]
    constructor
    · rintro (⟨rfl, rfl⟩ | ⟨rfl, rfl⟩)
      · refine ⟨rfl, ?_⟩
        rw [mul_div_cancel₀ _ hk0]
        linear_combination hq
      · refine ⟨rfl, ?_⟩
        rw [mul_div_cancel₀ _ hk0]
        linear_combination hq
    · rintro ⟨hl, hs⟩
      rw [← hq, sq_eq_sq_iff_eq_or_eq_neg] at hs
      rcases hs with hs | hs
      · right
        have : x = (front m0 m1 r0 r1 + Real.sqrt (heronRad m0 m1 r0 r1)) / (1 + lineK m0 m1 ^ 2) := by
          rw [eq_div_iff hk0]
          linear_combination hs
        exact ⟨this, by rw [← this]; exact hl⟩
      · left
        have : x = (front m0 m1 r0 r1 - Real.sqrt (heronRad m0 m1 r0 r1)) / (1 + lineK m0 m1 ^ 2) := by
          rw [eq_div_iff hk0]
          linear_combination hs
        exact ⟨this, by rw [← this]; exact hl⟩
  · constructor
    · intro h
      unfold circleIntersections at h
      simp only [if_neg hc, if_neg (not_or.2 ⟨ht, ht'⟩)] at h
      split_ifs at h <;> simp at h
    · rintro ⟨hp, hq⟩
      obtain ⟨a, b⟩ := on_range h0 h1 hp hq
      exact absurd ⟨lt_of_le_of_ne a ht, lt_of_le_of_ne b ht'⟩ hc

/-- **C79 (touching circles).**  If the centres differ in both coordinates and the circles touch, the single point returned is their common
point. -/
theorem C79_touching (m0 m1 : Pt) (r0 r1 : ℝ) (h0 : 0 ≤ r0) (h1 : 0 ≤ r1) (hx : m0.1 ≠ m1.1) (hy : m0.2 ≠ m1.2)
    (ht : |r1 - r0| = norm (m0 - m1) ∨ norm (m0 - m1) = r0 + r1) :
    ∃ x y, circleIntersections m0 m1 r0 r1 = [(num x, num y)] ∧
      ∀ p : Pt, (Spec.On m0 r0 p ∧ Spec.On m1 r1 p) ↔ p = (x, y) := by
  have hx' : m0.1 - m1.1 ≠ 0 := sub_ne_zero.2 hx
  have hy' : m0.2 - m1.2 ≠ 0 := sub_ne_zero.2 hy
  have hle : ¬ norm (m0 - m1) > r0 + r1 := by
    rcases ht with ht | ht
    · rw [← ht, not_lt, abs_le]
      constructor <;> linarith
    · linarith
  have hk0 : (1 + lineK m0 m1 ^ 2) ≠ 0 := by positivity
  have hrad : heronRad m0 m1 r0 r1 = 0 := by
    rw [heronRad]
    rcases ht with ht | ht
    · rw [← ht, sq_abs, sub_self, zero_mul, zero_div]
    · rw [ht, sub_self, mul_zero, zero_div]
  have hk : lineK m0 m1 * ((m0.2 - m1.2) / (m0.1 - m1.1)) = -1 := by
    rw [lineK]
    field_simp
  set k1 := (m0.2 - m1.2) / (m0.1 - m1.1) with hk1
  have hkk : k1 - lineK m0 m1 ≠ 0 := by
    intro h
    have : k1 = lineK m0 m1 := by linarith
    rw [this] at hk
    nlinarith [sq_nonneg (lineK m0 m1)]
  have ex : -((m1.2 - k1 * m1.1) - lineB m0 m1 r0 r1) / (k1 - lineK m0 m1) = front m0 m1 r0 r1 / (1 + lineK m0 m1 ^ 2) := by
    rw [div_eq_div_iff hkk hk0, front]
    linear_combination (lineK m0 m1 * m1.1 + lineB m0 m1 r0 r1 - m1.2) * hk
  have ey : -(-(lineB m0 m1 r0 r1) * k1 + (m1.2 - k1 * m1.1) * lineK m0 m1) / (k1 - lineK m0 m1) =
      lineK m0 m1 * (front m0 m1 r0 r1 / (1 + lineK m0 m1 ^ 2)) + lineB m0 m1 r0 r1 := by
    rw [← ex]
    field_simp
    ring
  refine ⟨front m0 m1 r0 r1 / (1 + lineK m0 m1 ^ 2), lineK m0 m1 * (front m0 m1 r0 r1 / (1 + lineK m0 m1 ^ 2)) + lineB m0 m1 r0 r1, ?_, ?_⟩
  · unfold circleIntersections
    simp only [k2_eq hy, b2_eq hy]
    rw [if_neg hle, if_pos ht]
    rw [← ey, ← ex]
    simp only [div_num hx', ← hk1, mul_num, neg_num, add_num, sub_num, div_num hkk]
  · intro p
    rw [on_iff hy, hrad, sq_eq_zero_iff]
    constructor
    · rintro ⟨hl, hs⟩
      have : p.1 = front m0 m1 r0 r1 / (1 + lineK m0 m1 ^ 2) := by
        rw [eq_div_iff hk0]
        linear_combination hs
      exact Prod.ext this (by rw [hl, this])
    · rintro rfl
      refine ⟨rfl, ?_⟩
      rw [mul_div_cancel₀ _ hk0, sub_self]

/-- **C79 (touching circles one above the other).**  If the centres have the same abscissa and the circles touch, the point returned is not
a number, although there is a common point. -/
theorem C79_touching_vertical (m0 m1 : Pt) (r0 r1 : ℝ) (h0 : 0 ≤ r0) (h1 : 0 ≤ r1) (hx : m0.1 = m1.1) (hy : m0.2 ≠ m1.2)
    (ht : |r1 - r0| = norm (m0 - m1) ∨ norm (m0 - m1) = r0 + r1) :
    circleIntersections m0 m1 r0 r1 = [(nan, nan)] ∧ ∃ p : Pt, Spec.On m0 r0 p ∧ Spec.On m1 r1 p := by
  have hy' : m0.2 - m1.2 ≠ 0 := sub_ne_zero.2 hy
  have hle : ¬ norm (m0 - m1) > r0 + r1 := by
    rcases ht with ht | ht
    · rw [← ht, not_lt, abs_le]
      constructor <;> linarith
    · linarith
  have hk0 : (1 + lineK m0 m1 ^ 2) ≠ 0 := by positivity
  have hrad : heronRad m0 m1 r0 r1 = 0 := by
    rw [heronRad]
    rcases ht with ht | ht
    · rw [← ht, sq_abs, sub_self, zero_mul, zero_div]
    · rw [ht, sub_self, mul_zero, zero_div]
  constructor
  · unfold circleIntersections
    simp only [k2_eq hy, b2_eq hy]
    rw [if_neg hle, if_pos ht]
    have hk : lineK m0 m1 = 0 := by rw [lineK, hx]; simp
    rw [hk, hx, sub_self]
    by_cases hz : m1.1 = 0 <;> by_cases hb : lineB m0 m1 r0 r1 = 0 <;>
      simp [Flt.div, hy', Flt.mul, Flt.neg, Flt.add, Flt.sub, hz, hb]
  · refine ⟨(front m0 m1 r0 r1 / (1 + lineK m0 m1 ^ 2), lineK m0 m1 * (front m0 m1 r0 r1 / (1 + lineK m0 m1 ^ 2)) + lineB m0 m1 r0 r1), ?_⟩
    rw [on_iff hy]
    refine ⟨rfl, ?_⟩
    rw [hrad, mul_div_cancel₀ _ hk0, sub_self]
    norm_num

/-- **C79 (centres side by side).**  If the centres have the same ordinate, whatever is returned is not a number, and something is
returned whenever the circles meet. -/
theorem C79_horizontal (m0 m1 : Pt) (r0 r1 : ℝ) (hx : m0.1 ≠ m1.1) (hy : m0.2 = m1.2) (hd : |r1 - r0| ≤ norm (m0 - m1))
    (hs : norm (m0 - m1) ≤ r0 + r1) :
    circleIntersections m0 m1 r0 r1 = [(nan, nan)] ∨ circleIntersections m0 m1 r0 r1 = [(nan, nan), (nan, nan)] := by
  have hx' : m0.1 - m1.1 ≠ 0 := sub_ne_zero.2 hx
  have k2 : div (num (-1)) (num 0) = (inf true : Flt ℝ) := by
    simp [Flt.div]
  have k1 : div (num (m0.2 - m1.2)) (num (m0.1 - m1.1)) = (num 0 : Flt ℝ) := by
    simp [Flt.div, hx', hy]
  have b2 : (∃ s, div (num (r0 ^ 2 - r1 ^ 2 - m0.1 ^ 2 + m1.1 ^ 2 - m0.2 ^ 2 + m1.2 ^ 2)) (num (2 * (m1.2 - m0.2))) = (inf s : Flt ℝ)) ∨
      div (num (r0 ^ 2 - r1 ^ 2 - m0.1 ^ 2 + m1.1 ^ 2 - m0.2 ^ 2 + m1.2 ^ 2)) (num (2 * (m1.2 - m0.2))) = (nan : Flt ℝ) := by
    simp only [Flt.div]
    rw [if_pos (by rw [hy]; ring)]
    split_ifs
    · exact Or.inr rfl
    · exact Or.inl ⟨_, rfl⟩
  unfold circleIntersections
  simp only [k2, k1]
  rw [if_neg (not_lt.2 hs)]
  generalize div (num (r0 ^ 2 - r1 ^ 2 - m0.1 ^ 2 + m1.1 ^ 2 - m0.2 ^ 2 + m1.2 ^ 2)) (num (2 * (m1.2 - m0.2))) = B at b2 ⊢
  by_cases ht : |r1 - r0| = norm (m0 - m1) ∨ norm (m0 - m1) = r0 + r1
  · rw [if_pos ht]
    left
    rcases b2 with ⟨s, rfl⟩ | rfl
    · simp [Flt.div, Flt.mul, Flt.neg, Flt.add, Flt.sub]
    · simp [Flt.div, Flt.mul, Flt.neg, Flt.add, Flt.sub]
  · rw [if_neg ht, if_pos ⟨lt_of_le_of_ne hd (fun e => ht (Or.inl e)), lt_of_le_of_ne hs (fun e => ht (Or.inr e))⟩]
    right
    have hrad : Flt.add (Flt.add (neg (mul B B)) (num (r1 ^ 2))) (mul (mul (inf true) (inf true)) (num (r1 ^ 2))) = nan := by
      rcases b2 with ⟨s, rfl⟩ | rfl
      · by_cases hr : r1 = 0
        · simp [Flt.mul, Flt.neg, Flt.add, hr]
        · simp [Flt.mul, Flt.neg, Flt.add, hr, not_lt.2 (sq_nonneg r1)]
      · simp [Flt.mul, Flt.neg, Flt.add]
    have hn : ∀ v : Flt ℝ, Flt.add nan v = nan := fun v => by cases v <;> rfl
    have hn' : ∀ v : Flt ℝ, Flt.add v nan = nan := fun v => by cases v <;> rfl
    have hd' : ∀ v : Flt ℝ, Flt.div nan v = nan := fun v => by cases v <;> rfl
    have hm : ∀ v : Flt ℝ, Flt.mul v nan = nan := fun v => by cases v <;> rfl
    have hq : Flt.sqrt nan = nan := rfl
    have hg : Flt.neg (nan : Flt ℝ) = nan := rfl
    simp only [Flt.sub, hrad, hn, hq, hg, hn', hd', hm]

/-! ## The liquid lens -/

theorem crossPts_swap {m0 m1 : Pt} (hy : m0.2 ≠ m1.2) (r0 r1 : ℝ) : crossPts m1 m0 r1 r0 = crossPts m0 m1 r0 r1 := by
  have h1 : m0.2 - m1.2 ≠ 0 := sub_ne_zero.2 hy
  have h2 : m1.2 - m0.2 ≠ 0 := sub_ne_zero.2 hy.symm
  have ek : lineK m1 m0 = lineK m0 m1 := by
    unfold lineK
    rw [div_eq_div_iff h2 h1]
    ring
  have eb : lineB m1 m0 r1 r0 = lineB m0 m1 r0 r1 := by
    unfold lineB
    rw [div_eq_div_iff (by simpa using h1) (by simpa using h2)]
    ring
  have en : norm (m1 - m0) ^ 2 = norm (m0 - m1) ^ 2 := by
    rw [norm_sub_sq, norm_sub_sq]
    ring
  have eh : heronRad m1 m0 r1 r0 = heronRad m0 m1 r0 r1 := by
    unfold heronRad
    rw [en]
    congr 1 <;> ring
  have hk : lineK m0 m1 * (m0.2 - m1.2) = -(m0.1 - m1.1) := div_mul_cancel₀ _ h1
  have ef : front m1 m0 r1 r0 = front m0 m1 r0 r1 := by
    unfold front
    rw [ek, eb]
    linear_combination hk
  unfold crossPts
  rw [ek, eb, eh, ef]

theorem norm_swap (m0 m1 : Pt) : norm (m1 - m0) = norm (m0 - m1) := by
  unfold norm
  congr 1
  simp only [Prod.fst_sub, Prod.snd_sub]
  ring

theorem liquidLens_crossing {c0 c1 : Circle} (hy : c0.center.2 ≠ c1.center.2) (hd : |c1.radius - c0.radius| < norm (c0.center - c1.center))
    (hs : norm (c0.center - c1.center) < c0.radius + c1.radius) :
    ∃ xa ya xb yb, crossPts c0.center c1.center c0.radius c1.radius = [(xa, ya), (xb, yb)] ∧ xa < xb ∧
      Spec.On c0.center c0.radius (xa, ya) ∧ Spec.On c1.center c1.radius (xa, ya) ∧
      Spec.On c0.center c0.radius (xb, yb) ∧ Spec.On c1.center c1.radius (xb, yb) ∧
      liquidLens c0 c1 = if |ya - yb| < 1 / 10 then
        if c0.center.2 ≤ c1.center.2 then .ok (lensAngles (xa, ya) c0 c1) else .ok (lensAngles (xa, ya) c1 c0)
      else .error .assertion := by
  have hk0 : 0 < (1 + lineK c0.center c1.center ^ 2) := by positivity
  have hn := norm_nonneg (c0.center - c1.center)
  have hr : 0 < heronRad c0.center c1.center c0.radius c1.radius := by
    obtain ⟨a, b⟩ := abs_lt.1 hd
    apply div_pos (mul_pos ?_ ?_) (by have := sub_ne_zero.2 hy; positivity)
    · nlinarith
    · nlinarith
  have hq := Real.sqrt_pos.2 hr
  have hon : ∀ p ∈ crossPts c0.center c1.center c0.radius c1.radius, Spec.On c0.center c0.radius p ∧ Spec.On c1.center c1.radius p := by
    intro p hp
    have h0 : 0 < c0.radius := by linarith [(abs_lt.1 hd).2]
    have h1 : 0 < c1.radius := by linarith [(abs_lt.1 hd).1]
    refine (C79_intersections c0.center c1.center c0.radius c1.radius h0.le h1.le hy (ne_of_lt hd) (ne_of_lt hs) p.1 p.2).1 ?_
    rw [crossing_eq hy hd hs]
    exact List.mem_map.2 ⟨p, hp, rfl⟩
  have hlt : (front c0.center c1.center c0.radius c1.radius - Real.sqrt (heronRad c0.center c1.center c0.radius c1.radius)) /
      (1 + lineK c0.center c1.center ^ 2) <
      (front c0.center c1.center c0.radius c1.radius + Real.sqrt (heronRad c0.center c1.center c0.radius c1.radius)) /
      (1 + lineK c0.center c1.center ^ 2) := by
    apply div_lt_div_of_pos_right _ hk0
    linarith
  refine ⟨_, _, _, _, rfl, hlt, (hon _ (by simp [crossPts])).1, (hon _ (by simp [crossPts])).2, (hon _ (by simp [crossPts])).1,
    (hon _ (by simp [crossPts])).2, ?_⟩
  unfold liquidLens
  rw [crossing_eq hy hd hs]
  simp only [crossPts, List.map_cons, List.map_nil, if_pos hlt.le]

/-- **C79 (the order of the enclosing phases does not matter).**  Exchanging the two circles, that is the two enclosing phases, leaves the
result as it is: the first angle is always the one above the upper interface. -/
theorem C79_lens_swap (c0 c1 : Circle) (hy : c0.center.2 ≠ c1.center.2) (hd : |c1.radius - c0.radius| < norm (c0.center - c1.center))
    (hs : norm (c0.center - c1.center) < c0.radius + c1.radius) : liquidLens c1 c0 = liquidLens c0 c1 := by
  obtain ⟨xa, ya, xb, yb, e, -, -, -, -, -, h⟩ := liquidLens_crossing hy hd hs
  obtain ⟨xa', ya', xb', yb', e', -, -, -, -, -, h'⟩ := liquidLens_crossing (c0 := c1) (c1 := c0) hy.symm
    (by rw [norm_swap, abs_sub_comm]; exact hd) (by rw [norm_swap]; linarith)
  rw [crossPts_swap hy, e] at e'
  injection e' with e1 e2
  injection e2 with e2 _
  injection e1 with e1 e1'
  injection e2 with e2 e2'
  subst e1 e1' e2 e2'
  rw [h, h']
  rcases lt_or_gt_of_ne hy with hlt | hlt
  · rw [if_pos hlt.le, if_neg (not_le.2 hlt)]
  · rw [if_neg (not_le.2 hlt), if_pos hlt.le]

theorem normalize_eq {v : Pt} {r : ℝ} (hr : 0 < r) (h : v.1 ^ 2 + v.2 ^ 2 = r ^ 2) : normalize v = some (v.1 / r, v.2 / r) := by
  have : norm v = r := by rw [norm, h, Real.sqrt_sq hr.le]
  rw [normalize, this, if_neg hr.ne']

theorem cot_mono {a s t r0 r1 : ℝ} (h0 : 0 < r0) (h1 : 0 < r1) (e0 : s ^ 2 + a ^ 2 = r0 ^ 2) (e1 : t ^ 2 + a ^ 2 = r1 ^ 2) (hst : t ≤ s) :
    t / r1 ≤ s / r0 := by
  rw [div_le_div_iff₀ h1 h0]
  rcases le_total 0 s with hs0 | hs0
  · rcases le_total 0 t with ht0 | ht0
    · refine abs_le_of_sq_le_sq' ?_ (mul_nonneg hs0 h1.le) |>.2
      rw [mul_pow, mul_pow, ← e0, ← e1]
      have := mul_nonneg (sq_nonneg a) (show 0 ≤ s ^ 2 - t ^ 2 by nlinarith)
      linarith
    · exact (mul_nonpos_of_nonpos_of_nonneg ht0 h0.le).trans (mul_nonneg hs0 h1.le)
  · have ht0 : t ≤ 0 := by linarith
    have : (-s) * r1 ≤ (-t) * r0 := by
      refine abs_le_of_sq_le_sq' ?_ (mul_nonneg (by linarith) h0.le) |>.2
      rw [mul_pow, mul_pow, ← e0, ← e1]
      have := mul_nonneg (sq_nonneg a) (show 0 ≤ t ^ 2 - s ^ 2 by nlinarith)
      linarith
    linarith

theorem dot_unit {w b u d : ℝ} (hw : w ^ 2 + b ^ 2 = 1) (hu : u ^ 2 + d ^ 2 = 1) : -1 ≤ -w * u + -b * d ∧ -w * u + -b * d ≤ 1 := by
  constructor
  · nlinarith [sq_nonneg (w - u), sq_nonneg (b - d)]
  · nlinarith [sq_nonneg (w + u), sq_nonneg (b + d)]

/-- **C79 (angles of a lens).**  Circles with centres one above the other: the angles are numbers and add up to 360 degrees; the first two
come from the slopes of the circles in the left corner. -/
theorem C79_lens (c0 c1 : Circle) (hx : c0.center.1 = c1.center.1) (hy : c0.center.2 < c1.center.2)
    (hd : |c1.radius - c0.radius| < norm (c0.center - c1.center)) (hs : norm (c0.center - c1.center) < c0.radius + c1.radius) :
    ∃ px py a0 a1 a2, Spec.On c0.center c0.radius (px, py) ∧ Spec.On c1.center c1.radius (px, py) ∧ px < c0.center.1 ∧
      liquidLens c0 c1 = .ok [some a0, some a1, some a2] ∧ a0 + a1 + a2 = 360 ∧
      a0 = rad2deg (Real.arccos ((c0.center.2 - py) / c0.radius)) ∧ a1 = rad2deg (Real.arccos ((py - c1.center.2) / c1.radius)) := by
  have hpi := Real.pi_pos
  obtain ⟨xa, ya, xb, yb, e, hlt, ha0, ha1, hb0, hb1, h⟩ := liquidLens_crossing hy.ne hd hs
  have h0 : 0 < c0.radius := by linarith [(abs_lt.1 hd).2]
  have h1 : 0 < c1.radius := by linarith [(abs_lt.1 hd).1]
  -- both corners have the same ordinate
  have hya : ya = lineB c0.center c1.center c0.radius c1.radius := by
    have := ((on_iff hy.ne _ _ _).1 ⟨ha0, ha1⟩).1
    rw [lineK, hx] at this
    simpa using this
  have hyb : yb = lineB c0.center c1.center c0.radius c1.radius := by
    have := ((on_iff hy.ne _ _ _).1 ⟨hb0, hb1⟩).1
    rw [lineK, hx] at this
    simpa using this
  have hyy : ya = yb := by rw [hya, hyb]
  -- the left corner lies left of the centres
  have hpx : xa < c0.center.1 := by
    unfold Spec.On at ha0 hb0
    simp only [hyy] at ha0 hb0
    have : (xa - xb) * (xa + xb - 2 * c0.center.1) = 0 := by linear_combination ha0 - hb0
    have := (mul_eq_zero.1 this).resolve_left (sub_ne_zero.2 hlt.ne)
    linarith
  rw [if_pos (by rw [hyy]; norm_num), if_pos hy.le] at h
  unfold Spec.On at ha0 ha1
  simp only at ha0 ha1
  have ha : 0 < c0.center.1 - xa := by linarith
  set a := c0.center.1 - xa with hadef
  set s := ya - c0.center.2 with hsdef
  set t := ya - c1.center.2 with htdef
  have hst : t ≤ s := by linarith
  have e0 : s ^ 2 + a ^ 2 = c0.radius ^ 2 := by rw [← ha0]; ring
  have e1 : t ^ 2 + a ^ 2 = c1.radius ^ 2 := by rw [← ha1, ← hx]; ring
  have hu : (s / c0.radius) ^ 2 + (a / c0.radius) ^ 2 = 1 := by
    rw [div_pow, div_pow, ← add_div, e0, div_self (by positivity)]
  have hw : (t / c1.radius) ^ 2 + (a / c1.radius) ^ 2 = 1 := by
    rw [div_pow, div_pow, ← add_div, e1, div_self (by positivity)]
  have hau : 0 < a / c0.radius := div_pos ha h0
  have haw : 0 < a / c1.radius := div_pos ha h1
  have hord : t / c1.radius ≤ s / c0.radius := cot_mono h0 h1 e0 e1 hst
  set u := s / c0.radius with hudef
  set w := t / c1.radius with hwdef
  have hu1 : -1 ≤ u ∧ u ≤ 1 := abs_le_of_sq_le_sq' (by nlinarith) (by norm_num)
  have hw1 : -1 ≤ w ∧ w ≤ 1 := abs_le_of_sq_le_sq' (by nlinarith) (by norm_num)
  have n20 : normalize (rotateCcw (c0.center - (xa, ya))) = some (u, a / c0.radius) := by
    rw [normalize_eq h0 (by simp only [rotateCcw, Prod.fst_sub, Prod.snd_sub]; rw [← e0]; ring)]
    simp only [rotateCcw, Prod.fst_sub, Prod.snd_sub]
    rw [hudef, hsdef, neg_sub]
  have n12 : normalize (rotateCw (c1.center - (xa, ya))) = some (-w, -(a / c1.radius)) := by
    rw [normalize_eq h1 (by simp only [rotateCw, Prod.fst_sub, Prod.snd_sub]; rw [← e1, ← hx]; ring)]
    simp only [rotateCw, Prod.fst_sub, Prod.snd_sub]
    rw [hwdef, htdef, ← hx, hadef]
    congr 2
    · rw [← neg_div, neg_sub]
    · rw [← neg_div]
  have n01 : normalize ((-1, 0) : Pt) = some (-1, 0) := by
    rw [normalize_eq (r := 1) one_pos (by norm_num)]
    norm_num
  have hα : Real.sin (Real.arccos u) = a / c0.radius := by
    rw [Real.sin_arccos, show 1 - u ^ 2 = (a / c0.radius) ^ 2 by linarith, Real.sqrt_sq hau.le]
  have hβ : Real.sin (Real.arccos w) = a / c1.radius := by
    rw [Real.sin_arccos, show 1 - w ^ 2 = (a / c1.radius) ^ 2 by linarith, Real.sqrt_sq haw.le]
  have hmono : Real.arccos u ≤ Real.arccos w := Real.arccos_le_arccos hord
  have h2 : Real.arccos (-w * u + -(a / c1.radius) * (a / c0.radius)) = Real.arccos u + (Real.pi - Real.arccos w) := by
    rw [← Real.arccos_cos (x := Real.arccos u + (Real.pi - Real.arccos w))
      (by linarith [Real.arccos_nonneg u, Real.arccos_le_pi w]) (by linarith)]
    rw [Real.cos_add, Real.cos_pi_sub, Real.sin_pi_sub, hα, hβ, Real.cos_arccos hu1.1 hu1.2, Real.cos_arccos hw1.1 hw1.2]
    congr 1
    ring
  have hcs : -1 ≤ -w * u + -(a / c1.radius) * (a / c0.radius) ∧ -w * u + -(a / c1.radius) * (a / c0.radius) ≤ 1 := dot_unit hw hu
  have a0e : angleDeg (rotateCcw (c0.center - (xa, ya))) (-1, 0) = some (rad2deg (Real.arccos (-u))) := by
    simp only [angleDeg, n20, n01, Option.bind_eq_bind, Option.bind_some, dot]
    rw [show u * -1 + a / c0.radius * 0 = -u by ring, arccos, if_pos ⟨by linarith, by linarith⟩]
    rfl
  have a1e : angleDeg (-1, 0) (rotateCw (c1.center - (xa, ya))) = some (rad2deg (Real.arccos w)) := by
    simp only [angleDeg, n12, n01, Option.bind_eq_bind, Option.bind_some, dot]
    rw [show -1 * -w + 0 * -(a / c1.radius) = w by ring, arccos, if_pos hw1]
    rfl
  have a2e : angleDeg (rotateCw (c1.center - (xa, ya))) (rotateCcw (c0.center - (xa, ya))) =
      some (rad2deg (Real.arccos (-w * u + -(a / c1.radius) * (a / c0.radius)))) := by
    simp only [angleDeg, n12, n20, Option.bind_eq_bind, Option.bind_some, dot]
    rw [arccos, if_pos hcs]
    rfl
  refine ⟨xa, ya, rad2deg (Real.arccos (-u)), rad2deg (Real.arccos w),
    rad2deg (Real.arccos (-w * u + -(a / c1.radius) * (a / c0.radius))), by unfold Spec.On; linarith, by unfold Spec.On; linarith, hpx, ?_, ?_, ?_, ?_⟩
  · rw [h]
    simp only [lensAngles]
    rw [a0e, a1e, a2e]
  · rw [h2, Real.arccos_neg]
    unfold rad2deg
    field_simp
    ring
  · rw [hudef, hsdef, ← neg_div, neg_sub]
  · rfl

/-- **C79 (a lens for which the labels are wrong in one order).**  A lens with different angles at the two enclosing phases gets the same
list whichever phase is named first. -/
theorem C79_lens_labels : ∃ (c0 c1 : Circle) (a0 a1 a2 : ℝ), a0 ≠ a1 ∧
    liquidLens c0 c1 = .ok [some a0, some a1, some a2] ∧ liquidLens c1 c0 = .ok [some a0, some a1, some a2] := by
  have hn : norm (((0, 0) : Pt) - (0, 4)) = 4 := by
    refine (sq_eq_sq₀ (norm_nonneg _) (by norm_num)).1 ?_
    rw [norm_sub_sq]
    norm_num
  obtain ⟨px, py, a0, a1, a2, h0, h1, hp, h, hsum, e0, e1⟩ := C79_lens ⟨(0, 0), 5⟩ ⟨(0, 4), 3⟩ rfl (by norm_num)
    (by simp only [hn]; norm_num) (by simp only [hn]; norm_num)
  refine ⟨⟨(0, 0), 5⟩, ⟨(0, 4), 3⟩, a0, a1, a2, ?_, h, ?_⟩
  · unfold Spec.On at h0 h1
    simp only at h0 h1 e0 e1
    have hpy : py = 4 := by nlinarith
    rw [e0, e1, hpy]
    intro he
    unfold rad2deg at he
    have hpi := Real.pi_ne_zero
    have he' : Real.arccos ((0 - 4) / 5) = Real.arccos ((4 - 4) / 3) := by
      field_simp at he
      linarith
    have := Real.arccos_injOn (by constructor <;> norm_num) (by constructor <;> norm_num) he'
    norm_num at this
  · rw [C79_lens_swap _ _ (by norm_num) (by simp only [hn]; norm_num) (by simp only [hn]; norm_num)]
    exact h

/-- Circles of radius five around the origin and around (2, 6) -/
example (x y : ℝ) : (num x, num y) ∈ circleIntersections (0, 0) (2, 6) 5 5 ↔ Spec.On (0, 0) 5 (x, y) ∧ Spec.On (2, 6) 5 (x, y) := by
  have hn : norm (((0, 0) : Pt) - (2, 6)) ^ 2 = 40 := by rw [norm_sub_sq]; norm_num
  have h0 := norm_nonneg (((0, 0) : Pt) - (2, 6))
  apply C79_intersections _ _ _ _ (by norm_num) (by norm_num) (by norm_num)
  · intro h
    rw [← h] at hn
    norm_num at hn
  · intro h
    rw [h] at hn
    norm_num at hn

/-- Circles side by side -/
example : circleIntersections (0, 0) (8, 0) 5 5 = [(nan, nan)] ∨ circleIntersections (0, 0) (8, 0) 5 5 = [(nan, nan), (nan, nan)] := by
  have hn : norm (((0, 0) : Pt) - (8, 0)) = 8 := by
    refine (sq_eq_sq₀ (norm_nonneg _) (by norm_num)).1 ?_
    rw [norm_sub_sq]
    norm_num
  exact C79_horizontal _ _ _ _ (by norm_num) rfl (by rw [hn]; norm_num) (by rw [hn]; norm_num)

end PostProcessing
end Lbm
