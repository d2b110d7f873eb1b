/-
C121: initial profiles of the phase-field experiments.
-/
import Verif.InitialProfiles
import Mathlib.Order.Interval.Finset.Basic
import Mathlib.Data.Int.Interval
import Mathlib.Tactic.Linarith
import Mathlib.Tactic.FieldSimp
import Mathlib.Tactic.Ring
import Mathlib.Tactic.Positivity
import Mathlib.Tactic.NormNum

namespace Lbm
namespace InitialProfiles

theorem tanh_lt_one' (x : ℝ) : Real.tanh x < 1 := by
  rw [Real.tanh_eq_sinh_div_cosh, div_lt_one (Real.cosh_pos x)]
  exact Real.sinh_lt_cosh x

theorem tanh_add_tanh (a b : ℝ) : Real.tanh a + Real.tanh b = Real.sinh (a + b) / (Real.cosh a * Real.cosh b) := by
  have ha := (Real.cosh_pos a).ne'
  have hb := (Real.cosh_pos b).ne'
  rw [Real.tanh_eq_sinh_div_cosh, Real.tanh_eq_sinh_div_cosh, Real.sinh_add]
  field_simp

/-- The profile in terms of the two sides. -/
theorem smooth_value {n : ℕ} (size phase : ℕ) (x1 x2 : ℤ) (width : ℝ) (phi : ℤ → Fin n → ℝ) (hp : phase < n) (x : ℤ) :
    smooth size phase (some x1) (some x2) width phi x ⟨phase, hp⟩ =
      (Real.tanh ((x - x1) / (2 * width)) + Real.tanh ((x2 - x) / (2 * width))) / 2 := by
  unfold smooth
  rw [if_neg (not_le.2 hp)]
  simp only [bounds, Option.getD_some, if_true]
  rw [show -(x : ℝ) + (x2 : ℝ) = x2 - x by ring]
  ring

/-- C121. The sharp profile: one strictly between the bounds and zero elsewhere, the inverse profile the other way round, other order
parameters unchanged. -/
theorem C121_sharp {n : ℕ} (size phase : ℕ) (x1 x2 : ℤ) (inverse : Bool) (phi : ℤ → Fin n → ℝ) (hp : phase < n) (x : ℤ) :
    sharp size phase (some x1) (some x2) inverse phi x ⟨phase, hp⟩ = (if (x1 < x ∧ x < x2) ↔ inverse = false then 1 else 0) ∧
      ∀ i : Fin n, (i : ℕ) ≠ phase → sharp size phase (some x1) (some x2) inverse phi x i = phi x i := by
  unfold sharp
  rw [if_neg (not_le.2 hp)]
  refine ⟨?_, fun i hi => by simp only [if_neg hi]⟩
  simp only [bounds, Option.getD_some, if_true]
  by_cases h : x1 < x ∧ x < x2 <;> cases inverse <;> simp [h]

/-- C121. Two phases that are initialised inversely (as in `tanh_test`) add up to one in each cell. -/
theorem C121_complement {n : ℕ} (size p q : ℕ) (x1 x2 : Option ℤ) (phi : ℤ → Fin n → ℝ) (hp : p < n) (hq : q < n) (hpq : p ≠ q) (x : ℤ) :
    let out := sharp size q x1 x2 true (sharp size p x1 x2 false phi)
    out x ⟨p, hp⟩ + out x ⟨q, hq⟩ = 1 := by
  unfold sharp
  rw [if_neg (not_le.2 hp), if_neg (not_le.2 hq)]
  simp only [if_true, if_neg hpq]
  by_cases h : (bounds size x1 x2).1 < x ∧ x < (bounds size x1 x2).2 <;> simp [h]

/-- C121. A phase that has no order parameter (the last one) is ignored by both without a report. -/
theorem C121_last_ignored {n : ℕ} (size phase : ℕ) (x1 x2 : Option ℤ) (inverse : Bool) (width : ℝ) (phi : ℤ → Fin n → ℝ) (hp : n ≤ phase) :
    sharp size phase x1 x2 inverse phi = phi ∧ smooth size phase x1 x2 width phi = phi := by
  unfold sharp smooth
  rw [if_pos hp, if_pos hp]
  exact ⟨rfl, rfl⟩

/-- C121. The smooth profile leaves the other order parameters unchanged. -/
theorem C121_smooth_others {n : ℕ} (size phase : ℕ) (x1 x2 : Option ℤ) (width : ℝ) (phi : ℤ → Fin n → ℝ) (x : ℤ) (i : Fin n)
    (hi : (i : ℕ) ≠ phase) : smooth size phase x1 x2 width phi x i = phi x i := by
  unfold smooth
  split_ifs
  · rfl
  · exact if_neg hi

/-- C121. The sharp profile has `x2 - x1 - 1` cells with one. -/
theorem C121_sharp_count {n : ℕ} (size phase : ℕ) (x1 x2 : ℤ) (phi : ℤ → Fin n → ℝ) (hp : phase < n) (h : x1 < x2) :
    ∃ s : Finset ℤ, (∀ x, x ∈ s ↔ sharp size phase (some x1) (some x2) false phi x ⟨phase, hp⟩ = 1) ∧ (s.card : ℤ) = x2 - x1 - 1 := by
  refine ⟨Finset.Ioo x1 x2, fun x => ?_, ?_⟩
  · rw [(C121_sharp size phase x1 x2 false phi hp x).1, Finset.mem_Ioo]
    by_cases hx : x1 < x ∧ x < x2 <;> simp [hx]
  · rw [Int.card_Ioo]
    omega

/-- C121. The smooth profile lies strictly between zero and one, if the bounds are in order. -/
theorem C121_smooth_range {n : ℕ} (size phase : ℕ) (x1 x2 : ℤ) (width : ℝ) (hw : 0 < width) (h : x1 < x2) (phi : ℤ → Fin n → ℝ)
    (hp : phase < n) (x : ℤ) : 0 < smooth size phase (some x1) (some x2) width phi x ⟨phase, hp⟩ ∧
      smooth size phase (some x1) (some x2) width phi x ⟨phase, hp⟩ < 1 := by
  rw [smooth_value]
  have h' : (x1 : ℝ) < x2 := by exact_mod_cast h
  constructor
  · rw [tanh_add_tanh]
    have : ((x : ℝ) - x1) / (2 * width) + (x2 - x) / (2 * width) = (x2 - x1) / (2 * width) := by ring
    rw [this]
    have h1 : 0 < Real.sinh ((x2 - x1 : ℝ) / (2 * width)) := by
      rw [Real.sinh_pos_iff]
      exact div_pos (by linarith) (by linarith)
    have h2 := Real.cosh_pos (((x : ℝ) - x1) / (2 * width))
    have h3 := Real.cosh_pos (((x2 : ℝ) - x) / (2 * width))
    positivity
  · linarith [tanh_lt_one' (((x : ℝ) - x1) / (2 * width)), tanh_lt_one' (((x2 : ℝ) - x) / (2 * width))]

/-- C121. With the bounds exchanged it is negative everywhere: the arguments are not checked. -/
theorem C121_smooth_exchanged {n : ℕ} (size phase : ℕ) (x1 x2 : ℤ) (width : ℝ) (hw : 0 < width) (h : x2 < x1) (phi : ℤ → Fin n → ℝ)
    (hp : phase < n) (x : ℤ) : smooth size phase (some x1) (some x2) width phi x ⟨phase, hp⟩ < 0 := by
  rw [smooth_value, tanh_add_tanh]
  have h' : (x2 : ℝ) < x1 := by exact_mod_cast h
  have : ((x : ℝ) - x1) / (2 * width) + (x2 - x) / (2 * width) = (x2 - x1) / (2 * width) := by ring
  rw [this]
  have h1 : Real.sinh ((x2 - x1 : ℝ) / (2 * width)) < 0 := by
    rw [Real.sinh_neg_iff]
    exact div_neg_of_neg_of_pos (by linarith) (by linarith)
  have h2 := Real.cosh_pos (((x : ℝ) - x1) / (2 * width))
  have h3 := Real.cosh_pos (((x2 : ℝ) - x) / (2 * width))
  exact div_neg_of_neg_of_pos (div_neg_of_neg_of_pos h1 (mul_pos h2 h3)) two_pos

/-- C121. Both profiles are symmetric to the middle of the bounds. -/
theorem C121_symmetric {n : ℕ} (size phase : ℕ) (x1 x2 : ℤ) (width : ℝ) (inverse : Bool) (phi : ℤ → Fin n → ℝ) (hp : phase < n) (x : ℤ) :
    smooth size phase (some x1) (some x2) width phi (x1 + x2 - x) ⟨phase, hp⟩ =
      smooth size phase (some x1) (some x2) width phi x ⟨phase, hp⟩ ∧
    sharp size phase (some x1) (some x2) inverse phi (x1 + x2 - x) ⟨phase, hp⟩ =
      sharp size phase (some x1) (some x2) inverse phi x ⟨phase, hp⟩ := by
  constructor
  · rw [smooth_value, smooth_value]
    push_cast
    rw [show (x1 : ℝ) + x2 - x - x1 = x2 - x by ring, show (x2 : ℝ) - (x1 + x2 - x) = x - x1 by ring, add_comm]
  · rw [(C121_sharp size phase x1 x2 inverse phi hp _).1, (C121_sharp size phase x1 x2 inverse phi hp _).1]
    have : (x1 < x1 + x2 - x ∧ x1 + x2 - x < x2) ↔ (x1 < x ∧ x < x2) := by constructor <;> intro h <;> constructor <;> omega
    simp only [this]

/-- C121. By default the bounds are symmetric to the middle cell of the domain exactly if the size is a multiple of four. -/
theorem C121_default_centred (size : ℕ) : (bounds size none none).1 + (bounds size none none).2 = size ↔ 4 ∣ size := by
  simp only [bounds, Option.getD_none]
  omega

/-- C121. Near the first bound the smooth profile is that of a single interface at `x1` (the one of `analytic_interface_profile`) up to an error that
decays with the distance to the second. -/
theorem C121_single_interface {n : ℕ} (size phase : ℕ) (x1 x2 : ℤ) (width : ℝ) (phi : ℤ → Fin n → ℝ) (hp : phase < n) (x : ℤ) :
    let single := (1 + Real.tanh ((x - x1) / (2 * width))) / 2
    smooth size phase (some x1) (some x2) width phi x ⟨phase, hp⟩ < single ∧
      single - smooth size phase (some x1) (some x2) width phi x ⟨phase, hp⟩ ≤ Real.exp (-((x2 - x) / width)) := by
  intro single
  rw [smooth_value]
  have hlt := tanh_lt_one' (((x2 : ℝ) - x) / (2 * width))
  refine ⟨by simp only [single]; linarith, ?_⟩
  have e : single - (Real.tanh ((x - x1) / (2 * width)) + Real.tanh ((x2 - x) / (2 * width))) / 2 =
      (1 - Real.tanh (((x2 : ℝ) - x) / (2 * width))) / 2 := by simp only [single]; ring
  rw [e]
  set a := ((x2 : ℝ) - x) / (2 * width) with ha
  have h2a : ((x2 : ℝ) - x) / width = 2 * a := by rw [ha]; ring
  rw [h2a]
  have hc := Real.cosh_pos a
  have h1 : 1 - Real.tanh a = Real.exp (-a) / Real.cosh a := by
    rw [Real.tanh_eq_sinh_div_cosh, ← Real.cosh_sub_sinh]
    field_simp
  have h2 : Real.exp a / 2 ≤ Real.cosh a := by
    rw [Real.cosh_eq]
    linarith [Real.exp_pos (-a)]
  rw [h1, div_div, div_le_iff₀ (by positivity)]
  have h3 : Real.exp (-a) = Real.exp (-(2 * a)) * Real.exp a := by
    rw [← Real.exp_add]; congr 1; ring
  rw [h3]
  have := Real.exp_pos (-(2 * a))
  nlinarith

/-- C121. The two initialisations do not put the interface at the same place. At the cell `x1` itself the smooth profile is below one half, but the
single interface is one half there; the sharp profile is zero there and one in the next cell, so its interface is half a cell further. -/
theorem C121_half_cell {n : ℕ} (size phase : ℕ) (x1 x2 : ℤ) (h : x1 + 1 < x2) (width : ℝ) (phi : ℤ → Fin n → ℝ) (hp : phase < n) :
    (1 + Real.tanh (((x1 : ℝ) - x1) / (2 * width))) / 2 = 1 / 2 ∧
      smooth size phase (some x1) (some x2) width phi x1 ⟨phase, hp⟩ < 1 / 2 ∧
      sharp size phase (some x1) (some x2) false phi x1 ⟨phase, hp⟩ = 0 ∧
      sharp size phase (some x1) (some x2) false phi (x1 + 1) ⟨phase, hp⟩ = 1 := by
  have h0 : (1 + Real.tanh (((x1 : ℝ) - x1) / (2 * width))) / 2 = 1 / 2 := by simp
  refine ⟨h0, ?_, ?_, ?_⟩
  · have := (C121_single_interface size phase x1 x2 width phi hp x1).1
    rwa [h0] at this
  · rw [(C121_sharp size phase x1 x2 false phi hp _).1]
    simp
  · rw [(C121_sharp size phase x1 x2 false phi hp _).1]
    simp [h]

/-- Concrete case: 100 cells, bounds 25 and 75, two order parameters. -/
example : bounds 100 none none = (25, 75) ∧ bounds 102 none none = (25, 75) ∧
    sharp 100 1 (some 25) (some 75) false (fun _ (_ : Fin 2) => 7) 50 1 = 1 ∧
    sharp 100 1 (some 25) (some 75) false (fun _ (_ : Fin 2) => 7) 50 0 = 7 := by
  refine ⟨by decide, by decide, ?_, ?_⟩ <;> norm_num [sharp, bounds]

end InitialProfiles
end Lbm
