import Verif.Props.AllenCahn
import Mathlib.Analysis.Real.Sqrt
import Mathlib.Tactic.Positivity

/-!
# Property C61: the contact angle boundary of the Allen–Cahn model
-/

namespace Lbm
namespace AllenCahn

open scoped BigOperators

theorem wall_disc (v phi : ℝ) :
    (1 + v) * (1 + v) - 4 * v * phi = (1 - v) * (1 - v) + 4 * v * (1 - phi) := by ring

theorem disc_nonneg {v phi : ℝ} (h0 : 0 ≤ phi) (h1 : phi ≤ 1) : 0 ≤ (1 + v) * (1 + v) - 4 * v * phi := by
  rcases le_total 0 v with h | h
  · rw [wall_disc]
    have := mul_nonneg h (sub_nonneg.2 h1)
    nlinarith [mul_self_nonneg (1 - v)]
  · have := mul_nonneg (neg_nonneg.2 h) h0
    nlinarith [mul_self_nonneg (1 + v)]

/-- The wall value `w` is half of the sum of boundary value and fluid value. -/
theorem wall_relation {v phi : ℝ} (hv : v ≠ 0) (hd : 0 ≤ (1 + v) * (1 + v) - 4 * v * phi) :
    let w := (1 + v - Real.sqrt ((1 + v) * (1 + v) - 4 * v * phi)) / v / 2
    phi - w = v * (w * (1 - w)) := by
  intro w
  set r := Real.sqrt ((1 + v) * (1 + v) - 4 * v * phi) with hr
  have hr2 : r ^ 2 = (1 + v) * (1 + v) - 4 * v * phi := Real.sq_sqrt hd
  have hwd : w = (1 + v - r) / v / 2 := rfl
  have hw : r = 1 + v - 2 * v * w := by
    rw [hwd]
    field_simp
    ring
  have h : (1 + v - 2 * v * w) ^ 2 = (1 + v) * (1 + v) - 4 * v * phi := by rw [← hw, hr2]
  have : 4 * v * (phi - w - v * (w * (1 - w))) = 0 := by linarith [h, show (1 + v - 2 * v * w) ^ 2 - ((1 + v) * (1 + v) - 4 * v * phi) = 4 * v * (phi - w - v * (w * (1 - w))) by ring]
  rcases mul_eq_zero.1 this with h | h
  · exact absurd h (by simpa using hv)
  · linarith

theorem wall_bounds {v phi : ℝ} (hv : v ≠ 0) (hv1 : |v| ≤ 1) (h0 : 0 ≤ phi) (h1 : phi ≤ 1) :
    let w := (1 + v - Real.sqrt ((1 + v) * (1 + v) - 4 * v * phi)) / v / 2
    0 ≤ w ∧ w ≤ 1 := by
  intro w
  obtain ⟨hl, hu⟩ := abs_le.1 hv1
  set r := Real.sqrt ((1 + v) * (1 + v) - 4 * v * phi) with hr
  have hd := disc_nonneg (v := v) h0 h1
  have hw : w = (1 + v - r) / v / 2 := rfl
  rcases lt_or_gt_of_ne hv with h | h
  · have hr1 : 1 + v ≤ r := by
      rw [hr]; apply Real.le_sqrt_of_sq_le
      nlinarith [mul_nonneg (neg_nonneg.2 h.le) h0]
    have hr2 : r ≤ 1 - v := by
      rw [hr]; apply Real.sqrt_le_iff.2
      refine ⟨by linarith, ?_⟩
      nlinarith [mul_nonneg (neg_nonneg.2 h.le) (sub_nonneg.2 h1)]
    constructor
    · rw [hw]
      have : 0 ≤ (1 + v - r) / v := div_nonneg_of_nonpos (by linarith) h.le
      linarith
    · rw [hw, div_div, div_le_iff_of_neg (by linarith)]
      linarith
  · have hr1 : r ≤ 1 + v := by
      rw [hr]; apply Real.sqrt_le_iff.2
      refine ⟨by linarith, ?_⟩
      nlinarith [mul_nonneg h.le h0]
    have hr2 : 1 - v ≤ r := by
      rw [hr]; apply Real.le_sqrt_of_sq_le
      rw [wall_disc]
      nlinarith [mul_nonneg h.le (sub_nonneg.2 h1)]
    constructor
    · rw [hw]
      have : 0 ≤ (1 + v - r) / v := div_nonneg (by linarith) h.le
      linarith
    · rw [hw, div_div, div_le_iff₀ (by linarith)]
      linarith

/-- **C61.**  Whenever the boundary gives a value, the wall value halfway between boundary and fluid cell satisfies the
wetting condition: the slope from the wall into the fluid is `-(4 / W) cos(angle)` times `w (1 - w)` — or the parameter
is below one thousandth and the fluid value is copied. -/
theorem C61_wetting {D : ℕ} (angle W : ℝ) (d : Vec D) (k : ℕ) (phi s : ℝ)
    (h : contactAngle angle W d k phi = .ok (some s)) :
    let half := Real.sqrt (∑ i, (d i : ℝ) ^ 2) / 2
    let theta := angle * Real.pi / 180
    let w := (s + phi) / 2
    (phi - w = -(half * (4 / W * Real.cos theta)) * (w * (1 - w)))
      ∨ (s = phi ∧ |half * (4 / W * Real.cos theta)| ≤ 1 / 1000) := by
  intro half theta w
  unfold contactAngle at h
  split at h
  · simp at h
  split at h
  · simp at h
  have hv : contactVar W (Real.cos (angle * (Real.pi / 180))) d = -(half * (4 / W * Real.cos theta)) := by
    simp only [contactVar, half, theta]
    have h1 : (∑ i, (d i : ℝ) * d i) = ∑ i, (d i : ℝ) ^ 2 := Finset.sum_congr rfl fun i _ => by ring
    rw [h1, show angle * (Real.pi / 180) = angle * Real.pi / 180 by ring]
    ring
  simp only [hv] at h
  set v := -(half * (4 / W * Real.cos theta)) with hvd
  split at h
  · rename_i hc
    simp only [Except.ok.injEq, Option.some.injEq] at h
    unfold wallValue at h
    by_cases hs : v * v ≤ 1 / 10 ^ 6
    · right
      rw [if_pos hs] at h
      refine ⟨h.symm, ?_⟩
      have : |v| ≤ 1 / 1000 := by
        apply abs_le_of_sq_le_sq _ (by norm_num)
        nlinarith
      rwa [hvd, abs_neg] at this
    · left
      rw [if_neg hs] at h
      have hd : 0 ≤ (1 + v) * (1 + v) - 4 * v * phi := hc.resolve_left hs
      have hv0 : v ≠ 0 := by
        rintro hv0; rw [hv0] at hs; norm_num at hs
      have := wall_relation hv0 hd
      have hw : w = (1 + v - Real.sqrt ((1 + v) * (1 + v) - 4 * v * phi)) / v / 2 := by
        simp only [w, ← h]
        ring
      rw [hw]
      exact this
  · simp at h

/-- The parameter is at most one in size where the interface is at least twice as wide as the link is long. -/
theorem contactVar_le {D : ℕ} (angle W : ℝ) (d : Vec D) (hW : 0 < W)
    (hwide : 2 * Real.sqrt (∑ i, (d i : ℝ) * d i) ≤ W) : |contactVar W (Real.cos angle) d| ≤ 1 := by
  unfold contactVar
  set r := Real.sqrt (∑ i, (d i : ℝ) * d i)
  have hr : 0 ≤ r := Real.sqrt_nonneg _
  rw [abs_mul, abs_mul, abs_neg, abs_of_nonneg (by positivity : (0:ℝ) ≤ 1 / 2 * r),
    abs_of_nonneg (by positivity : (0:ℝ) ≤ 4 / W)]
  have h1 : 1 / 2 * r * (4 / W) ≤ 1 := by
    rw [mul_div_assoc', div_le_one hW]
    linarith
  calc _ ≤ 1 * 1 := mul_le_mul h1 (Real.abs_cos_le_one _) (abs_nonneg _) zero_le_one
    _ = 1 := by ring

theorem wallValue_mem {v phi : ℝ} (hv1 : |v| ≤ 1) (h0 : 0 ≤ phi) (h1 : phi ≤ 1) :
    0 ≤ wallValue v phi ∧ wallValue v phi ≤ 1 ∧ (v ≤ 0 → phi ≤ wallValue v phi) ∧ (0 ≤ v → wallValue v phi ≤ phi)
      ∧ |wallValue v phi - phi| ≤ |v| / 2 := by
  by_cases hs : v * v ≤ 1 / 10 ^ 6
  · simp only [wallValue, if_pos hs, sub_self, abs_zero]
    exact ⟨h0, h1, fun _ => le_rfl, fun _ => le_rfl, by positivity⟩
  · have hv0 : v ≠ 0 := by
      rintro rfl; norm_num at hs
    have hd := disc_nonneg (v := v) h0 h1
    have hrel := wall_relation hv0 hd
    have hb := wall_bounds hv0 hv1 h0 h1
    simp only at hrel hb
    set w := (1 + v - Real.sqrt ((1 + v) * (1 + v) - 4 * v * phi)) / v / 2 with hw
    have hval : wallValue v phi = 2 * w - phi := by
      rw [wallValue, if_neg hs, hw]
      ring
    obtain ⟨hw0, hw1⟩ := hb
    obtain ⟨hl, hu⟩ := abs_le.1 hv1
    have hp : 0 ≤ w * (1 - w) := mul_nonneg hw0 (sub_nonneg.2 hw1)
    have e1 : wallValue v phi = w - v * (w * (1 - w)) := by rw [hval]; linarith
    have e2 : wallValue v phi - phi = -2 * v * (w * (1 - w)) := by rw [hval]; linarith
    have hp4 : w * (1 - w) ≤ 1 / 4 := by nlinarith [sq_nonneg (w - 1 / 2)]
    refine ⟨?_, ?_, ?_, ?_, ?_⟩
    · rw [e1]; nlinarith [mul_nonneg hw0 (sub_nonneg.2 hw1), mul_nonneg hw0 hw0]
    · rw [e1]; nlinarith [mul_nonneg (sub_nonneg.2 hw1) (sub_nonneg.2 hw1)]
    · intro h; nlinarith [mul_nonneg (neg_nonneg.2 h) hp]
    · intro h; nlinarith [mul_nonneg h hp]
    · rw [e2, abs_mul, abs_mul, abs_of_nonneg hp]
      norm_num
      nlinarith [abs_nonneg v]

/-- **C61.**  If the interface is at least twice as wide as the link is long, a phase field value between the bulk
phases always gives a boundary value between the bulk phases; it is not below the fluid value for angles up to 90
degrees and not above for angles from 90 to 180 degrees. -/
theorem C61_bounded {D : ℕ} (angle W : ℝ) (d : Vec D) (hW : 0 < W)
    (hwide : 2 * Real.sqrt (∑ i, (d i : ℝ) * d i) ≤ W) (phi : ℝ) (h0 : 0 ≤ phi) (h1 : phi ≤ 1) :
    ∃ s, contactAngle angle W d 0 phi = .ok (some s) ∧ 0 ≤ s ∧ s ≤ 1
      ∧ (0 ≤ angle → angle ≤ 90 → phi ≤ s) ∧ (90 ≤ angle → angle ≤ 180 → s ≤ phi) := by
  set v := contactVar W (Real.cos (angle * (Real.pi / 180))) d with hv
  have hm := wallValue_mem (contactVar_le (angle * (Real.pi / 180)) W d hW hwide) h0 h1
  rw [← hv] at hm
  have hfac : 0 ≤ 1 / 2 * Real.sqrt (∑ i, (d i : ℝ) * d i) * (4 / W) := by positivity
  have hv' : v = -(1 / 2 * Real.sqrt (∑ i, (d i : ℝ) * d i) * (4 / W) * Real.cos (angle * (Real.pi / 180))) := by
    rw [hv, contactVar]; ring
  have hpi := Real.pi_pos
  refine ⟨wallValue v phi, ?_, hm.1, hm.2.1, fun ha hb => hm.2.2.1 ?_, fun ha hb => hm.2.2.2.1 ?_⟩
  · unfold contactAngle
    rw [if_neg hW.ne', if_neg (by simp)]
    simp only [← hv]
    rw [if_pos (Or.inr (disc_nonneg h0 h1))]
  · have hc : 0 ≤ Real.cos (angle * (Real.pi / 180)) :=
      Real.cos_nonneg_of_neg_pi_div_two_le_of_le (by nlinarith) (by nlinarith)
    rw [hv']
    have := mul_nonneg hfac hc
    linarith
  · have hc : Real.cos (angle * (Real.pi / 180)) ≤ 0 :=
      Real.cos_nonpos_of_pi_div_two_le_of_le (by nlinarith) (by nlinarith)
    rw [hv']
    have := mul_nonneg hfac (neg_nonneg.2 hc)
    linarith

example : 2 * Real.sqrt (∑ i, ((![1, 0] : Vec 2) i : ℝ) * ((![1, 0] : Vec 2) i : ℤ)) ≤ 5 := by
  norm_num [Fin.sum_univ_two]

theorem wallValue_bulk {v : ℝ} (hle : |v| ≤ 1) : wallValue v 0 = 0 ∧ wallValue v 1 = 1 := by
  obtain ⟨hl, hu⟩ := abs_le.1 hle
  unfold wallValue
  by_cases hs : v * v ≤ 1 / 10 ^ 6
  · rw [if_pos hs, if_pos hs]
    exact ⟨rfl, rfl⟩
  · have hv0 : v ≠ 0 := by
      intro h0; rw [h0] at hs; norm_num at hs
    rw [if_neg hs, if_neg hs]
    constructor
    · rw [show (1 + v) * (1 + v) - 4 * v * 0 = (1 + v) * (1 + v) by ring, Real.sqrt_mul_self (by linarith)]
      simp
    · rw [show (1 + v) * (1 + v) - 4 * v * 1 = (1 - v) * (1 - v) by ring, Real.sqrt_mul_self (by linarith)]
      field_simp
      ring

theorem contactAngle_ok {D : ℕ} (angle W : ℝ) (d : Vec D) (hW : W ≠ 0) (phi : ℝ)
    (hd : 0 ≤ (1 + contactVar W (Real.cos (angle * (Real.pi / 180))) d)
      * (1 + contactVar W (Real.cos (angle * (Real.pi / 180))) d)
      - 4 * contactVar W (Real.cos (angle * (Real.pi / 180))) d * phi) :
    contactAngle angle W d 0 phi = .ok (some (wallValue (contactVar W (Real.cos (angle * (Real.pi / 180))) d) phi)) := by
  unfold contactAngle
  rw [if_neg hW, if_neg (by simp)]
  simp only
  rw [if_pos (Or.inr hd)]

/-- **C61.**  Both bulk phases are kept at a wall whose interface is wide enough. -/
theorem C61_bulk {D : ℕ} (angle W : ℝ) (d : Vec D) (hW : 0 < W)
    (hwide : 2 * Real.sqrt (∑ i, (d i : ℝ) * d i) ≤ W) :
    contactAngle angle W d 0 0 = .ok (some 0) ∧ contactAngle angle W d 0 1 = .ok (some 1) := by
  have hle := contactVar_le (angle * (Real.pi / 180)) W d hW hwide
  rw [contactAngle_ok _ _ _ hW.ne' _ (disc_nonneg le_rfl zero_le_one),
    contactAngle_ok _ _ _ hW.ne' _ (disc_nonneg zero_le_one le_rfl), (wallValue_bulk hle).1, (wallValue_bulk hle).2]
  exact ⟨rfl, rfl⟩

/-- **C61.**  Exchanging the phases and replacing the angle by 180 degrees minus it is a symmetry. -/
theorem C61_symmetry {D : ℕ} (angle W : ℝ) (d : Vec D) (k : ℕ) (phi s : ℝ)
    (h : contactAngle angle W d k phi = .ok (some s)) :
    contactAngle (180 - angle) W d k (1 - phi) = .ok (some (1 - s)) := by
  have hcos : Real.cos ((180 - angle) * (Real.pi / 180)) = -Real.cos (angle * (Real.pi / 180)) := by
    rw [← Real.cos_pi_sub]; congr 1; ring
  have hv : contactVar W (Real.cos ((180 - angle) * (Real.pi / 180))) d
      = -contactVar W (Real.cos (angle * (Real.pi / 180))) d := by
    rw [hcos, contactVar, contactVar]; ring
  unfold contactAngle at h ⊢
  split at h
  · simp at h
  split at h
  · simp at h
  rename_i hW hk
  rw [if_neg hW, if_neg hk]
  simp only [hv] at h ⊢
  set v := contactVar W (Real.cos (angle * (Real.pi / 180))) d
  have hdisc : (1 + -v) * (1 + -v) - 4 * -v * (1 - phi) = (1 + v) * (1 + v) - 4 * v * phi := by ring
  rw [hdisc, neg_mul_neg]
  split at h
  · rename_i hc
    rw [if_pos hc]
    simp only [Except.ok.injEq, Option.some.injEq] at h ⊢
    rw [← h]
    unfold wallValue
    rw [hdisc, neg_mul_neg]
    by_cases hs : v * v ≤ 1 / 10 ^ 6
    · simp only [if_pos hs]
    · have hv0 : v ≠ 0 := by
        intro h0; rw [h0] at hs; norm_num at hs
      simp only [if_neg hs]
      field_simp
      ring
  · simp at h

/-- **C61.**  A plane interface that meets the wall at the contact angle satisfies the wetting condition exactly: with
unit interface normal `n` and wall normal `e` at that angle, the derivative into the fluid is `-(4 / W) cos(angle)`
times `phi (1 - phi)`. -/
theorem C61_equilibrium {D : ℕ} {W : ℝ} (hW : W ≠ 0) (theta : ℝ) (n e x : Fin D → ℝ)
    (hne : ∑ i, n i * e i = -Real.cos theta) :
    HasDerivAt (fun t : ℝ => profile W (∑ i, n i * (x i + t * e i)))
      (-(4 / W * Real.cos theta) * (profile W (∑ i, n i * x i) * (1 - profile W (∑ i, n i * x i)))) 0 := by
  have hlin : ∀ t : ℝ, (∑ i, n i * (x i + t * e i)) = (∑ i, n i * x i) + t * -Real.cos theta := by
    intro t
    rw [← hne, Finset.mul_sum, ← Finset.sum_add_distrib]
    exact Finset.sum_congr rfl fun i _ => by ring
  simp only [hlin]
  have h1 : HasDerivAt (fun t : ℝ => (∑ i, n i * x i) + t * -Real.cos theta) (-Real.cos theta) 0 := by
    have := ((hasDerivAt_id (0:ℝ)).mul_const (-Real.cos theta)).const_add (∑ i, n i * x i)
    simpa using this
  have h2 : HasDerivAt (profile W) ((1 - 4 * (profile W (∑ i, n i * x i) - 1 / 2) ^ 2) / W)
      ((∑ i, n i * x i) + 0 * -Real.cos theta) := by
    have := hasDerivAt_profile hW (∑ i, n i * x i)
    simpa using this
  have h3 := h2.comp (0:ℝ) h1
  refine h3.congr_deriv ?_
  field_simp
  ring

example : ∑ i : Fin 2, (![1, 0] : Fin 2 → ℝ) i * (![0, 1] : Fin 2 → ℝ) i = -Real.cos (Real.pi / 2) := by
  norm_num [Fin.sum_univ_two]

/-- **C61.**  What is refused: a zero interface width, then a field with index dimensions; at 90 degrees the fluid value
is copied. -/
theorem C61_refused {D : ℕ} (angle W : ℝ) (d : Vec D) (k : ℕ) (phi : ℝ) :
    (contactAngle angle W d k phi = .error .exception ↔ W = 0)
      ∧ (contactAngle angle W d k phi = .error .notImplemented ↔ W ≠ 0 ∧ k ≠ 0)
      ∧ (W ≠ 0 → contactAngle 90 W d 0 phi = .ok (some phi)) := by
  refine ⟨?_, ?_, ?_⟩
  · unfold contactAngle
    split
    · simp_all
    · split
      · simp_all
      · simp only
        split <;> simp_all
  · unfold contactAngle
    split
    · simp_all
    · split
      · simp_all
      · simp only
        split <;> simp_all
  · intro hW
    unfold contactAngle
    have : contactVar W (Real.cos (90 * (Real.pi / 180))) d = 0 := by
      rw [show 90 * (Real.pi / 180) = Real.pi / 2 by ring, Real.cos_pi_div_two, contactVar]; ring
    rw [if_neg hW, if_neg (by simp)]
    simp [this, wallValue]

/-- **C61** (disagreement).  Without a wide interface the boundary exchanges phases: at angle 0 and width 1 the light
bulk phase next to an axis link gives the heavy phase. -/
theorem C61_narrow_interface : contactAngle 0 1 (![1, 0] : Vec 2) 0 0 = .ok (some 1) := by
  have hv : contactVar 1 (Real.cos (0 * (Real.pi / 180))) (![1, 0] : Vec 2) = -2 := by
    norm_num [contactVar, Fin.sum_univ_two]
  unfold contactAngle
  simp only [hv]
  norm_num [wallValue]

end AllenCahn
end Lbm
