import Verif.Geometry
import Mathlib.Analysis.Calculus.Deriv.Pow
import Mathlib.Analysis.Calculus.Deriv.Add
import Mathlib.Analysis.Calculus.Deriv.Mul
import Mathlib.Analysis.Calculus.MeanValue
import Mathlib.Tactic.Linarith
import Mathlib.Tactic.Ring
import Mathlib.Tactic.FieldSimp
import Mathlib.Tactic.NormNum
import Mathlib.Tactic.Positivity
import Mathlib.Tactic.FinCases
import Mathlib.Algebra.BigOperators.Fin
import Mathlib.Algebra.Order.BigOperators.Ring.Finset

/-!
# C73: pipes, channels, cavities
-/

namespace Lbm
namespace Geometry

variable {D : ℕ}

/-! ### Rounding -/

/-- Rounding gives a nearest integer, and the even one if there are two. -/
theorem C73_round (q : ℚ) : |q - pyRound q| ≤ 1 / 2 ∧ (|q - pyRound q| = 1 / 2 → pyRound q % 2 = 0) := by
  have h0 := Int.floor_le q
  have h1 := Int.lt_floor_add_one q
  unfold pyRound
  simp only
  split_ifs with ha hb hc
  · constructor
    · rw [abs_of_nonneg (by linarith)]; linarith
    · intro h; rw [abs_of_nonneg (by linarith)] at h; linarith
  · push_cast
    constructor
    · rw [abs_of_nonpos (by linarith)]; linarith
    · intro h; rw [abs_of_nonpos (by linarith)] at h; linarith
  · constructor
    · rw [abs_of_nonneg (by linarith)]; linarith
    · intro _; exact hc
  · push_cast
    constructor
    · rw [abs_of_nonpos (by linarith)]; linarith
    · intro _; omega

theorem pyRound_int (k : ℤ) : pyRound (k : ℚ) = k := by
  simp [pyRound]

theorem pyRound_half (k : ℤ) : pyRound ((k : ℚ) + 1 / 2) = if k % 2 = 0 then k else k + 1 := by
  have hf : ⌊(k : ℚ) + 1 / 2⌋ = k := by
    rw [Int.floor_eq_iff]; constructor <;> norm_num
  unfold pyRound
  simp only [hf]
  rw [if_neg (by norm_num), if_neg (by norm_num)]

theorem pyRound_even (k : ℕ) : pyRound (((2 * k : ℕ) : ℚ) / 2) = k := by
  have : (((2 * k : ℕ) : ℚ) / 2) = ((k : ℤ) : ℚ) := by push_cast; ring
  rw [this, pyRound_int]

theorem pyRound_one (m : ℕ) : pyRound (((4 * m + 1 : ℕ) : ℚ) / 2) = 2 * m := by
  have : (((4 * m + 1 : ℕ) : ℚ) / 2) = ((2 * m : ℤ) : ℚ) + 1 / 2 := by push_cast; ring
  rw [this, pyRound_half, if_pos (by omega)]

theorem pyRound_three (m : ℕ) : pyRound (((4 * m + 3 : ℕ) : ℚ) / 2) = 2 * m + 2 := by
  have : (((4 * m + 3 : ℕ) : ℚ) / 2) = ((2 * m + 1 : ℤ) : ℚ) + 1 / 2 := by push_cast; ring
  rw [this, pyRound_half, if_neg (by omega)]
  ring

/-- The two roundings used for the middle of the domain, `int(round(n / 2))` and `n // 2`, agree exactly if `n`
is not three modulo four. -/
theorem C73_two_middles (n : ℕ) : pyRound ((n : ℚ) / 2) = ((n / 2 : ℕ) : ℤ) ↔ n % 4 ≠ 3 := by
  rcases (by omega : n = 4 * (n / 4) ∨ n = 4 * (n / 4) + 1 ∨ n = 4 * (n / 4) + 2 ∨ n = 4 * (n / 4) + 3) with
    h | h | h | h
  · have : n = 2 * (2 * (n / 4)) := by omega
    rw [this, pyRound_even]; omega
  · rw [h, pyRound_one]; omega
  · have : n = 2 * (2 * (n / 4) + 1) := by omega
    rw [this, pyRound_even]; omega
  · rw [h, pyRound_three]; omega

example : pyRound ((7 : ℕ) / 2) = 4 := by
  simpa using pyRound_three 1

/-! ### The profile -/

theorem profile_eq (uMax : ℝ) (r : ℤ) (flow : Fin D) (c : Fin D → ℤ) (pos : Fin D → ℝ) :
    profile uMax r flow c pos =
      uMax * (1 - (∑ i, if i = flow then 0 else (pos i - (c i : ℝ)) ^ 2) / (r : ℝ) ^ 2) := by
  unfold profile
  simp only [div_pow]
  rw [Real.sq_sqrt]
  refine Finset.sum_nonneg fun i _ => ?_
  split_ifs
  · exact le_rfl
  · positivity

/-- The square of the distance to the axis through `c`. -/
def Spec.axisDistSq (flow : Fin D) (c : Fin D → ℤ) (pos : Fin D → ℝ) : ℝ :=
  ∑ i ∈ Finset.univ.erase flow, (pos i - (c i : ℝ)) ^ 2

theorem axisDistSq_eq (flow : Fin D) (c : Fin D → ℤ) (pos : Fin D → ℝ) :
    (∑ i, if i = flow then 0 else (pos i - (c i : ℝ)) ^ 2) = Spec.axisDistSq flow c pos := by
  unfold Spec.axisDistSq
  rw [← Finset.sum_erase_add _ _ (Finset.mem_univ flow), if_pos rfl, add_zero]
  refine Finset.sum_congr rfl fun i hi => ?_
  rw [if_neg (Finset.ne_of_mem_erase hi)]

/-- The profile is `uMax` on the axis and nowhere larger, zero exactly on the cylinder with the given radius,
positive inside and negative outside. -/
theorem C73_profile (uMax : ℝ) (hu : 0 < uMax) (r : ℤ) (hr : r ≠ 0) (flow : Fin D) (c : Fin D → ℤ)
    (pos : Fin D → ℝ) :
    profile uMax r flow c pos ≤ uMax ∧
    (profile uMax r flow c pos = uMax ↔ ∀ i, i ≠ flow → pos i = c i) ∧
    (profile uMax r flow c pos = 0 ↔ Spec.axisDistSq flow c pos = (r : ℝ) ^ 2) ∧
    (0 < profile uMax r flow c pos ↔ Spec.axisDistSq flow c pos < (r : ℝ) ^ 2) ∧
    (profile uMax r flow c pos < 0 ↔ (r : ℝ) ^ 2 < Spec.axisDistSq flow c pos) := by
  have hr' : (0 : ℝ) < (r : ℝ) ^ 2 := by
    have : (r : ℝ) ≠ 0 := by exact_mod_cast hr
    positivity
  have hs : 0 ≤ Spec.axisDistSq flow c pos := Finset.sum_nonneg fun i _ => by positivity
  have e := profile_eq uMax r flow c pos
  rw [axisDistSq_eq] at e
  have e' : profile uMax r flow c pos * (r : ℝ) ^ 2 =
      uMax * ((r : ℝ) ^ 2 - Spec.axisDistSq flow c pos) := by
    rw [e]; field_simp
  have hz : Spec.axisDistSq flow c pos = 0 ↔ ∀ i, i ≠ flow → pos i = c i := by
    unfold Spec.axisDistSq
    rw [Finset.sum_eq_zero_iff_of_nonneg (fun i _ => by positivity)]
    constructor
    · intro h i hi
      have := h i (Finset.mem_erase.2 ⟨hi, Finset.mem_univ i⟩)
      have := pow_eq_zero_iff (two_ne_zero) |>.1 this
      linarith
    · intro h i hi
      rw [h i (Finset.ne_of_mem_erase hi)]; simp
  refine ⟨?_, ?_, ?_, ?_, ?_⟩
  · rw [e]
    have : 0 ≤ Spec.axisDistSq flow c pos / (r : ℝ) ^ 2 := by positivity
    nlinarith
  · rw [← hz]
    constructor
    · intro h
      rw [h] at e'
      have : uMax * Spec.axisDistSq flow c pos = 0 := by linarith
      rcases mul_eq_zero.1 this with h | h
      · linarith
      · exact h
    · intro h; rw [e, h]; simp
  · constructor
    · intro h
      rw [h, zero_mul] at e'
      rcases mul_eq_zero.1 e'.symm with h | h <;> linarith
    · intro h
      rw [h, sub_self, mul_zero] at e'
      rcases mul_eq_zero.1 e' with h | h
      · exact h
      · exact absurd h (ne_of_gt hr')
  · constructor
    · intro h
      have : 0 < uMax * ((r : ℝ) ^ 2 - Spec.axisDistSq flow c pos) := by rw [← e']; positivity
      have := (mul_pos_iff_of_pos_left hu).1 this
      linarith
    · intro h
      have : 0 < profile uMax r flow c pos * (r : ℝ) ^ 2 := by
        rw [e']; exact mul_pos hu (by linarith)
      exact (mul_pos_iff_of_pos_right hr').1 this
  · constructor
    · intro h
      have : uMax * ((r : ℝ) ^ 2 - Spec.axisDistSq flow c pos) < 0 := by
        rw [← e']; exact mul_neg_of_neg_of_pos h hr'
      by_contra hc
      have := mul_nonneg hu.le (by linarith : 0 ≤ (r : ℝ) ^ 2 - Spec.axisDistSq flow c pos)
      linarith
    · intro h
      by_contra hc
      have h1 : 0 ≤ profile uMax r flow c pos * (r : ℝ) ^ 2 := mul_nonneg (by linarith) hr'.le
      rw [e'] at h1
      have h2 : uMax * ((r : ℝ) ^ 2 - Spec.axisDistSq flow c pos) < 0 :=
        mul_neg_of_pos_of_neg hu (by linarith)
      linarith

example : profile 1 2 (0 : Fin 2) ![0, 2] ![7, 4] = 0 :=
  (C73_profile 1 one_pos 2 (by decide) 0 ![0, 2] ![7, 4]).2.2.1.2 (by
    simp [Spec.axisDistSq, show (Finset.univ.erase (0 : Fin 2)) = {1} from by decide]; norm_num)

theorem pipeVelocity_ok {shape : Fin D → ℕ} {uMax : ℝ} {flow : Fin D} {diameter : Option ℚ}
    {u : (Fin D → ℤ) → Fin D → ℝ} (h : pipeVelocity shape uMax flow diameter = .ok (some u)) :
    ∃ r, pipeRadius shape flow diameter = .ok r ∧ r ≠ 0 ∧
      u = fun x j => if j = flow then profile uMax r flow (pipeCenter shape) (midpoint x) else 0 := by
  unfold pipeVelocity at h
  cases hr : pipeRadius shape flow diameter with
  | error e => rw [hr] at h; exact nomatch h
  | ok r =>
    rw [hr] at h
    simp only [bind, Except.bind] at h
    by_cases h0 : r = 0
    · rw [if_pos h0] at h
      injection h with h
      exact nomatch h
    · rw [if_neg h0] at h
      injection h with h
      injection h with h
      exact ⟨r, rfl, h0, h.symm⟩

/-- The velocity has only a component in flow direction and does not change along the flow. -/
theorem C73_velocity_along_axis (shape : Fin D → ℕ) (uMax : ℝ) (flow : Fin D) (diameter : Option ℚ)
    (u : (Fin D → ℤ) → Fin D → ℝ) (h : pipeVelocity shape uMax flow diameter = .ok (some u)) :
    (∀ x j, j ≠ flow → u x j = 0) ∧ ∀ x n j, u (Function.update x flow n) j = u x j := by
  obtain ⟨r, -, -, rfl⟩ := pipeVelocity_ok h
  refine ⟨fun x j hj => by simp [hj], fun x n j => ?_⟩
  by_cases hj : j = flow
  · simp only [if_pos hj]
    rw [profile_eq, profile_eq]
    congr 3
    refine Finset.sum_congr rfl fun i _ => ?_
    by_cases hi : i = flow
    · simp [hi]
    · simp [hi, midpoint]
  · simp [hj]

/-- In a domain with even extents the field is mirror symmetric in every direction across the flow. -/
theorem C73_even_symmetric (shape half : Fin D → ℕ) (uMax : ℝ) (flow : Fin D) (diameter : Option ℚ)
    (heven : ∀ i, i ≠ flow → shape i = 2 * half i)
    (u : (Fin D → ℤ) → Fin D → ℝ) (h : pipeVelocity shape uMax flow diameter = .ok (some u))
    (x : Fin D → ℤ) (i j : Fin D) (hi : i ≠ flow) :
    u (Function.update x i (shape i - 1 - x i)) j = u x j := by
  obtain ⟨r, -, -, rfl⟩ := pipeVelocity_ok h
  by_cases hj : j = flow
  · simp only [if_pos hj]
    rw [profile_eq, profile_eq]
    congr 3
    refine Finset.sum_congr rfl fun k _ => ?_
    by_cases hk : k = flow
    · simp [hk]
    · rw [if_neg hk, if_neg hk]
      by_cases hki : k = i
      · subst hki
        have hc : pipeCenter shape k = half k := by
          unfold pipeCenter; rw [heven k hk, pyRound_even]
        rw [hc]
        simp only [midpoint, Function.update_self, heven k hk]
        push_cast
        ring
      · simp [midpoint, hki]
  · simp [hj]

theorem pipeRadius2 (nx n : ℕ) : pipeRadius ![nx, n] (0 : Fin 2) none = .ok (pyRound ((n : ℚ) / 2)) := by
  have : ((List.finRange 2).filter fun i => i ≠ (0 : Fin 2)) = [1] := by decide
  unfold pipeRadius
  simp only [this]
  rfl

theorem pipeVelocity2 (nx n : ℕ) (uMax : ℝ) (r : ℤ) (hr : pyRound ((n : ℚ) / 2) = r) (h0 : r ≠ 0) :
    pipeVelocity ![nx, n] uMax (0 : Fin 2) none = .ok (some fun x j =>
      if j = 0 then uMax * (1 - ((x 1 : ℝ) + 1 / 2 - (r : ℝ)) ^ 2 / (r : ℝ) ^ 2) else 0) := by
  unfold pipeVelocity
  rw [pipeRadius2, hr]
  simp only [bind, Except.bind, if_neg h0]
  congr 2
  funext x j
  rw [profile_eq]
  simp [Fin.sum_univ_two, pipeCenter, hr, midpoint]

/-- In a channel with an even number of cells the profile of cell midpoints is the parabola of a plane Poiseuille
flow between walls halfway between the first fluid cells and the ghost layers, driven by the force
`2 * viscosity * uMax / radius ^ 2`. -/
theorem C73_channel_is_poiseuille (nx k : ℕ) (hk : 0 < k) (uMax viscosity : ℝ) (hv : viscosity ≠ 0) :
    ∃ u, pipeVelocity ![nx, 2 * k] uMax (0 : Fin 2) none = .ok (some u) ∧
      ∀ x, u x 0 = poiseuilleFlow (midpoint x 1 - k) (2 * k : ℕ)
        (2 * viscosity * uMax / (k : ℝ) ^ 2) viscosity := by
  refine ⟨_, pipeVelocity2 nx (2 * k) uMax k (pyRound_even k) (by omega), fun x => ?_⟩
  have : (k : ℝ) ≠ 0 := by positivity
  simp only [if_true, poiseuilleFlow, midpoint]
  push_cast
  field_simp
  ring

example : ∃ u, pipeVelocity ![3, 2 * 2] (1 / 10) (0 : Fin 2) none = .ok (some u) ∧ u ![0, 0] 0 = 7 / 160 := by
  obtain ⟨u, hu, h⟩ := C73_channel_is_poiseuille 3 2 (by norm_num) (1 / 10) 1 one_ne_zero
  exact ⟨u, hu, by rw [h]; norm_num [poiseuilleFlow, midpoint]⟩

/-- In a channel with an odd number `4 m + 1 > 1` of cells the velocity in the last row of cells has the wrong
sign (the one in the first row has not). -/
theorem C73_odd_one (nx m : ℕ) (hm : 0 < m) (uMax : ℝ) (hu : 0 < uMax) :
    ∃ u, pipeVelocity ![nx, 4 * m + 1] uMax (0 : Fin 2) none = .ok (some u) ∧
      ∀ x, u ![x, (4 * m + 1 : ℕ) - 1] 0 < 0 ∧ 0 < u ![x, 0] 0 := by
  refine ⟨_, pipeVelocity2 nx (4 * m + 1) uMax _ (pyRound_one m) (by omega), fun x => ?_⟩
  have hm' : (1 : ℝ) ≤ m := by exact_mod_cast hm
  have hp : (0 : ℝ) < (2 * (m : ℝ)) ^ 2 := by positivity
  simp only [if_true, Matrix.cons_val_one, Matrix.cons_val_zero]
  push_cast
  constructor
  · refine mul_neg_of_pos_of_neg hu ?_
    rw [sub_neg, lt_div_iff₀ hp]
    nlinarith
  · refine mul_pos hu ?_
    rw [sub_pos, div_lt_one hp]
    nlinarith

/-- In a channel with an odd number `4 m + 3` of cells the velocities in the first and in the last row of cells
are different. -/
theorem C73_odd_three (nx m : ℕ) (uMax : ℝ) (hu : 0 < uMax) :
    ∃ u, pipeVelocity ![nx, 4 * m + 3] uMax (0 : Fin 2) none = .ok (some u) ∧
      ∀ x, u ![x, 0] 0 < u ![x, (4 * m + 3 : ℕ) - 1] 0 := by
  refine ⟨_, pipeVelocity2 nx (4 * m + 3) uMax _ (pyRound_three m) (by omega), fun x => ?_⟩
  have hm' : (0 : ℝ) ≤ m := by positivity
  have hp : (0 : ℝ) < (2 * (m : ℝ) + 2) ^ 2 := by positivity
  simp only [if_true, Matrix.cons_val_one, Matrix.cons_val_zero]
  push_cast
  refine mul_lt_mul_of_pos_left ?_ hu
  refine sub_lt_sub_left ?_ _
  rw [div_lt_div_iff_of_pos_right hp]
  nlinarith

/-- A channel with one row of cells has radius zero: the field is not a number. -/
theorem C73_one_row (nx : ℕ) (uMax : ℝ) : pipeVelocity ![nx, 1] uMax (0 : Fin 2) none = .ok none := by
  unfold pipeVelocity
  rw [pipeRadius2]
  have : pyRound (((1 : ℕ) : ℚ) / 2) = 0 := by simpa using pyRound_one 0
  rw [this]
  simp [bind, Except.bind]

/-- In one dimension there is no cross section: `ValueError`. -/
theorem C73_one_dimension (shape : Fin 1 → ℕ) (uMax : ℝ) : pipeVelocity shape uMax 0 none = .error .valueError := by
  have : ((List.finRange 1).filter fun i => i ≠ (0 : Fin 1)) = [] := by decide
  unfold pipeVelocity pipeRadius
  simp only [this]
  rfl

/-! ### Inflow -/

/-- In 3D the velocity at a link is the profile of the velocity field at the position of the link, hence the
velocity of the cell for links at the midpoint of a cell. -/
theorem C73_inflow_3d (shape : Fin 3 → ℕ) (uMax : ℝ) (flow : Fin 3) (diameter : Option ℚ)
    (u : (Fin 3 → ℤ) → Fin 3 → ℝ) (h : pipeVelocity shape uMax flow diameter = .ok (some u)) :
    ∃ v, inflowVelocity shape uMax flow diameter = .ok (some v) ∧ ∀ x j, v (midpoint x) j = u x j := by
  obtain ⟨r, hr, h0, rfl⟩ := pipeVelocity_ok h
  refine ⟨fun pos j => if j = flow then profile uMax r flow (pipeCenter shape) pos else 0, ?_, fun _ _ => rfl⟩
  unfold inflowVelocity
  rw [hr]
  simp [bind, Except.bind, h0]

/-- In every other dimension there is no inflow boundary: without a valid radius the error of the radius, else a ValueError. -/
theorem C73_inflow_other {D : ℕ} (h2 : D ≠ 2) (h3 : D ≠ 3) (shape : Fin D → ℕ) (uMax : ℝ) (flow : Fin D) (diameter : Option ℚ) :
    ∃ e, inflowVelocity shape uMax flow diameter = .error e ∧ (∀ r, pipeRadius shape flow diameter = .ok r → e = .valueError) := by
  unfold inflowVelocity
  cases h : pipeRadius shape flow diameter with
  | error e => exact ⟨e, rfl, fun r hr => by simp at hr⟩
  | ok r => exact ⟨.valueError, by simp [bind, Except.bind, h2, h3], fun _ _ => rfl⟩

/-- In 2D this holds if the diameter and the height of the channel round to the same radius, in particular without
diameter. -/
theorem C73_inflow_2d (shape : Fin 2 → ℕ) (uMax : ℝ) (diameter : Option ℚ)
    (hd : ∀ d, diameter = some d → pyRound (d / 2) = pyRound ((shape 1 : ℚ) / 2))
    (u : (Fin 2 → ℤ) → Fin 2 → ℝ) (h : pipeVelocity shape uMax 0 diameter = .ok (some u)) :
    ∃ v, inflowVelocity shape uMax 0 diameter = .ok (some v) ∧ ∀ x j, v (midpoint x) j = u x j := by
  obtain ⟨r, hr, h0, rfl⟩ := pipeVelocity_ok h
  have hc : r = pyRound ((shape 1 : ℚ) / 2) := by
    cases diameter with
    | some d =>
      have : pyRound (d / 2) = r := by simpa [pipeRadius] using hr
      rw [← this]; exact hd d rfl
    | none =>
      have e : shape = ![shape 0, shape 1] := by funext i; fin_cases i <;> rfl
      rw [e, pipeRadius2] at hr
      injection hr with hr
      exact hr.symm
  refine ⟨fun pos j => if j = 0 then profile uMax r 0 (fun _ => r) pos else 0, ?_, fun x j => ?_⟩
  · unfold inflowVelocity
    rw [hr]
    simp [bind, Except.bind, h0]
  · have e : profile uMax r 0 (fun _ => r) (midpoint x) = profile uMax r 0 (pipeCenter shape) (midpoint x) := by
      rw [profile_eq, profile_eq, Fin.sum_univ_two, Fin.sum_univ_two]
      unfold pipeCenter
      rw [← hc, if_pos rfl, if_pos rfl]
    show (if j = 0 then _ else _) = if j = 0 then _ else _
    rw [e]

/-- In 2D with a smaller diameter the inflow profile is centred at the radius, not in the middle: for every channel
of `2 k` cells and a pipe of `2 r` cells with `2 r < k` the velocity in the middle of the channel is negative. -/
theorem C73_inflow_2d_off_centre (nx k r : ℕ) (hr : 0 < r) (hk : 2 * r < k) (uMax : ℝ) (hu : 0 < uMax) :
    ∃ v, inflowVelocity ![nx, 2 * k] uMax (0 : Fin 2) (some (2 * r : ℕ)) = .ok (some v) ∧
      ∀ x, v ![x, k] 0 < 0 := by
  have h0 : (r : ℤ) ≠ 0 := by omega
  refine ⟨fun pos j => if j = 0 then profile uMax r 0 (fun _ => (r : ℤ)) pos else 0, ?_, fun x => ?_⟩
  · unfold inflowVelocity pipeRadius
    simp only [bind, Except.bind, pyRound_even, if_neg h0]
    simp
  · simp only [if_true]
    rw [profile_eq]
    have h1 : (1 : ℝ) ≤ r := by exact_mod_cast hr
    have h2 : 2 * (r : ℝ) < k := by exact_mod_cast hk
    have hp : (0 : ℝ) < (r : ℝ) ^ 2 := by positivity
    refine mul_neg_of_pos_of_neg hu ?_
    rw [sub_neg]
    simp only [Fin.sum_univ_two, Matrix.cons_val_one, if_true, Matrix.cons_val_zero]
    simp only [Fin.isValue, one_ne_zero, if_false, zero_add, Int.cast_natCast]
    rw [lt_div_iff₀ hp]
    nlinarith

/-! ### Walls -/

/-- For even extents and an even diameter the cells outside the wall are those where the velocity of
`get_pipe_velocity_field` is not negative. -/
theorem C73_walls_match_velocity (shape half : Fin (D + 1) → ℕ) (r : ℕ) (hr : 0 < r) (uMax : ℝ) (hu : 0 < uMax)
    (heven : ∀ i, i ≠ 0 → shape i = 2 * half i) :
    ∃ u, pipeVelocity shape uMax 0 (some (2 * r : ℕ)) = .ok (some u) ∧
      ∀ x, pipeWall shape (2 * r : ℕ) x ↔ u x 0 < 0 := by
  have h0 : (r : ℤ) ≠ 0 := by omega
  refine ⟨fun x j => if j = 0 then profile uMax r 0 (pipeCenter shape) (midpoint x) else 0, ?_, fun x => ?_⟩
  · unfold pipeVelocity pipeRadius
    simp only [bind, Except.bind, pyRound_even, if_neg h0]
  · simp only [if_true]
    rw [(C73_profile uMax hu r h0 0 (pipeCenter shape) (midpoint x)).2.2.2.2, ← axisDistSq_eq,
      Fin.sum_univ_succ]
    simp only [if_true, zero_add]
    unfold pipeWall
    have e1 : ((((2 * r : ℕ) : ℚ) : ℝ) / 2) ^ 2 = (((r : ℤ) : ℝ)) ^ 2 := by push_cast; ring
    rw [e1]
    have e2 : ∀ i : Fin D, (midpoint x i.succ - ((shape i.succ / 2 : ℕ) : ℝ)) ^ 2 =
        (if i.succ = 0 then 0 else (midpoint x i.succ - (pipeCenter shape i.succ : ℝ)) ^ 2) := by
      intro i
      rw [if_neg (Fin.succ_ne_zero i)]
      unfold pipeCenter
      rw [heven i.succ (Fin.succ_ne_zero i), pyRound_even, Nat.mul_div_cancel_left _ (by norm_num)]
      simp
    rw [Finset.sum_congr rfl fun i _ => e2 i]

/-- For even extents the wall is mirror symmetric. -/
theorem C73_walls_symmetric (shape half : Fin (D + 1) → ℕ) (d : ℚ) (heven : ∀ i, i ≠ 0 → shape i = 2 * half i)
    (x : Fin (D + 1) → ℤ) (i : Fin D) :
    pipeWall shape d (Function.update x i.succ (shape i.succ - 1 - x i.succ)) ↔ pipeWall shape d x := by
  unfold pipeWall
  have : (∑ j : Fin D, (midpoint (Function.update x i.succ (shape i.succ - 1 - x i.succ)) j.succ -
      ((shape j.succ / 2 : ℕ) : ℝ)) ^ 2) =
      ∑ j : Fin D, (midpoint x j.succ - ((shape j.succ / 2 : ℕ) : ℝ)) ^ 2 := by
    refine Finset.sum_congr rfl fun j _ => ?_
    by_cases hj : j = i
    · subst hj
      simp only [midpoint, Function.update_self]
      rw [heven j.succ (Fin.succ_ne_zero j), Nat.mul_div_cancel_left _ (by norm_num)]
      push_cast
      ring
    · have : j.succ ≠ i.succ := fun h => hj (Fin.succ_injective _ h)
      simp [midpoint, this]
  rw [this]

/-- The pipe of `create_channel` in a domain with odd square cross section (`2 k + 1 > 1` cells) is not mirror
symmetric: the cell in the middle of the last row is wall, that in the middle of the first row is not. -/
theorem C73_walls_odd (nx k : ℕ) (hk : 0 < k) (x : ℤ) :
    pipeWall ![nx, 2 * k + 1, 2 * k + 1] (2 * k + 1 : ℕ) ![x, (2 * k + 1 : ℕ) - 1, k] ∧
    ¬ pipeWall ![nx, 2 * k + 1, 2 * k + 1] (2 * k + 1 : ℕ) ![x, 0, k] := by
  have h1 : (1 : ℝ) ≤ k := by exact_mod_cast hk
  have hd : ((2 * k + 1) / 2 : ℕ) = k := by omega
  unfold pipeWall
  simp only [Fin.sum_univ_two, midpoint]
  have e0 : (Fin.succ (0 : Fin 2)) = 1 := rfl
  have e1 : (Fin.succ (1 : Fin 2)) = 2 := rfl
  simp only [e0, e1, Matrix.cons_val_one, Matrix.cons_val_zero, Matrix.cons_val, hd]
  push_cast
  constructor
  · nlinarith
  · rw [not_lt]; nlinarith

/-- `add_sphere` works in 2D (a disc) and raises a `TypeError` in 3D. -/
theorem C73_sphere (m : ℝ × ℝ) (r x y z : ℝ) :
    sphereMask m r [x, y] = .ok ((x - m.1) ^ 2 + (y - m.2) ^ 2 < r ^ 2) ∧
    sphereMask m r [x, y, z] = .error .typeError := ⟨rfl, rfl⟩

/-! ### Shear layers -/

/-- The layers: cells in the lower third and from two thirds on move with `uMax`, those in between with
`- uMax`; the other components are at most half of `uMax * factor`. -/
theorem C73_shear (height : ℕ) (uMax factor : ℝ) (hf : 0 ≤ factor) (hu : 0 ≤ uMax)
    (rand : Fin D → (Fin D → ℤ) → ℝ) (hr : ∀ j x, 0 ≤ rand j x ∧ rand j x < 1) (last : Fin D)
    (x : Fin D → ℤ) (j : Fin D) :
    ((j : ℕ) = 0 → |shearFlow height uMax factor rand last x j| = uMax) ∧
    ((j : ℕ) = 0 → x last < ((height / 3 : ℕ) : ℤ) → shearFlow height uMax factor rand last x j = uMax) ∧
    ((j : ℕ) = 0 → ((height / 3 : ℕ) : ℤ) ≤ x last → x last < 2 * ((height / 3 : ℕ) : ℤ) →
      shearFlow height uMax factor rand last x j = -uMax) ∧
    ((j : ℕ) = 0 → 2 * ((height / 3 : ℕ) : ℤ) ≤ x last → shearFlow height uMax factor rand last x j = uMax) ∧
    ((j : ℕ) ≠ 0 → |shearFlow height uMax factor rand last x j| ≤ uMax * factor / 2) := by
  unfold shearFlow
  refine ⟨fun h => ?_, fun h h1 => ?_, fun h h1 h2 => ?_, fun h h1 => ?_, fun h => ?_⟩
  · rw [if_pos h]
    split_ifs
    · rw [abs_neg, abs_of_nonneg hu]
    · exact abs_of_nonneg hu
  · rw [if_pos h, if_neg (by omega)]
  · rw [if_pos h, if_pos ⟨h1, by push_cast at *; omega⟩]
  · rw [if_pos h, if_neg (by push_cast at *; omega)]
  · rw [if_neg h, abs_mul, abs_of_nonneg (mul_nonneg hf hu)]
    have : |rand j x - 1 / 2| ≤ 1 / 2 := by
      rw [abs_le]; have := hr j x; constructor <;> linarith
    have h0 := mul_nonneg hf hu
    nlinarith

/-- With less than three cells in height there is no middle layer. -/
theorem C73_shear_small (height : ℕ) (h : height < 3) (uMax factor : ℝ) (rand : Fin D → (Fin D → ℤ) → ℝ)
    (last : Fin D) (x : Fin D → ℤ) (j : Fin D) (hj : (j : ℕ) = 0) :
    shearFlow height uMax factor rand last x j = uMax := by
  unfold shearFlow
  rw [if_pos hj, if_neg]
  have : height / 3 = 0 := by omega
  rw [this]
  simp only [not_and, not_lt]
  intro h; simpa using h

example : shearFlow 6 1 0 (fun _ _ => 0) (1 : Fin 2) ![0, 3] 0 = -1 := by
  norm_num [shearFlow]

/-! ### Scenarios -/

theorem foldl_wall (p : Fin D × Bool → Bool) (l : List (Fin D × Bool)) (k : CellKind) :
    l.foldl (fun k f => if p f then .wall else k) k = if ∃ f ∈ l, p f = true then .wall else k := by
  induction l generalizing k with
  | nil => simp
  | cons a l ih =>
    rw [List.foldl_cons, ih]
    by_cases h : ∃ f ∈ l, p f = true
    · rw [if_pos h, if_pos]
      obtain ⟨f, hf, h⟩ := h
      exact ⟨f, List.mem_cons_of_mem _ hf, h⟩
    · rw [if_neg h]
      by_cases ha : p a = true
      · rw [if_pos ha, if_pos ⟨a, List.mem_cons_self, ha⟩]
      · rw [if_neg ha, if_neg]
        rintro ⟨f, hf, hp⟩
        rcases List.mem_cons.1 hf with rfl | hf
        · exact ha hp
        · exact h ⟨f, hf, hp⟩

/-- The cells of the cavity: the walls are the ghost cells of all faces but the lid, its edges included; the lid is
the rest of its face. -/
theorem C73_cavity (shape : Fin D → ℕ) (one : Fin D) (x : Fin D → ℤ) :
    (cavity shape one x = .wall ↔ (∃ i, x i = -1) ∨ ∃ i, i ≠ one ∧ x i = shape i) ∧
    (cavity shape one x = .lid ↔ x one = shape one ∧ (∀ i, x i ≠ -1) ∧ ∀ i, i ≠ one → x i ≠ shape i) ∧
    (cavity shape one x = .fluid ↔ ∀ i, x i ≠ -1 ∧ x i ≠ shape i) := by
  have key : (∃ f ∈ ((List.finRange D).flatMap fun i =>
      if i = one then [(i, false)] else [(i, false), (i, true)]), onFace shape f.1 f.2 x = true) ↔
      (∃ i, x i = -1) ∨ ∃ i, i ≠ one ∧ x i = shape i := by
    constructor
    · rintro ⟨f, hf, h⟩
      obtain ⟨i, -, hi⟩ := List.mem_flatMap.1 hf
      split_ifs at hi with h1
      · simp only [List.mem_singleton] at hi
        subst hi
        left; exact ⟨i, by simpa [onFace] using h⟩
      · simp only [List.mem_cons, List.not_mem_nil, or_false] at hi
        rcases hi with rfl | rfl
        · left; exact ⟨i, by simpa [onFace] using h⟩
        · right; exact ⟨i, h1, by simpa [onFace] using h⟩
    · rintro (⟨i, h⟩ | ⟨i, hi, h⟩)
      · refine ⟨(i, false), List.mem_flatMap.2 ⟨i, List.mem_finRange i, ?_⟩, by simpa [onFace] using h⟩
        split_ifs <;> simp
      · refine ⟨(i, true), List.mem_flatMap.2 ⟨i, List.mem_finRange i, ?_⟩, by simpa [onFace] using h⟩
        rw [if_neg hi]; simp
  have e : cavity shape one x =
      if (∃ i, x i = -1) ∨ ∃ i, i ≠ one ∧ x i = shape i then .wall
      else if x one = shape one then .lid else .fluid := by
    unfold cavity
    simp only
    rw [foldl_wall (fun f => onFace shape f.1 f.2 x)]
    simp only [key]
    simp [onFace]
  rw [e]
  by_cases h1 : (∃ i, x i = -1) ∨ ∃ i, i ≠ one ∧ x i = shape i
  · rw [if_pos h1]
    refine ⟨by simp [h1], ?_, ?_⟩
    · refine ⟨fun h => (by cases h), fun ⟨_, h2, h3⟩ => ?_⟩
      rcases h1 with ⟨i, h⟩ | ⟨i, hi, h⟩
      · exact absurd h (h2 i)
      · exact absurd h (h3 i hi)
    · refine ⟨fun h => (by cases h), fun h => ?_⟩
      rcases h1 with ⟨i, h'⟩ | ⟨i, _, h'⟩
      · exact absurd h' (h i).1
      · exact absurd h' (h i).2
  · rw [if_neg h1]
    have h2 : ∀ i, x i ≠ -1 := fun i h => h1 (Or.inl ⟨i, h⟩)
    have h3 : ∀ i, i ≠ one → x i ≠ shape i := fun i hi h => h1 (Or.inr ⟨i, hi, h⟩)
    by_cases h4 : x one = shape one
    · rw [if_pos h4]
      refine ⟨by simp [h1], by simp [h4, h2]; exact h3, ?_⟩
      exact ⟨fun h => (by cases h), fun h => absurd h4 (h one).2⟩
    · rw [if_neg h4]
      refine ⟨by simp [h1], by simp [h4], ?_⟩
      refine ⟨fun _ i => ⟨h2 i, ?_⟩, fun _ => rfl⟩
      by_cases hi : i = one
      · rw [hi]; exact h4
      · exact h3 i hi

example : cavity ![4, 4] (1 : Fin 2) ![-1, 4] = .wall ∧ cavity ![4, 4] (1 : Fin 2) ![0, 4] = .lid := by decide

/-- `create_channel` succeeds exactly if one of the three drives is given and not zero, and not together with `duct`
and a velocity or `duct` and a callback; the drive is the given one. -/
theorem C73_channel_drive (force pressure uMax : Option ℚ) (duct callback : Bool) (d : Drive) :
    channelDrive force pressure uMax duct callback = .ok d ↔
      (duct = true → callback = false ∧ d ≠ .velocity) ∧
      (truthy force = true ↔ d = .force) ∧ (truthy pressure = true ↔ d = .pressure) ∧
      (truthy uMax = true ↔ d = .velocity) := by
  unfold channelDrive
  cases truthy force <;> cases truthy pressure <;> cases truthy uMax <;> cases duct <;> cases callback <;>
    cases d <;> simp [bind, Except.bind]

/-- The exceptions. -/
theorem C73_channel_errors (force pressure uMax : Option ℚ) (callback : Bool) :
    (∀ duct, truthy force = false → truthy pressure = false → truthy uMax = false →
      channelDrive force pressure uMax duct callback = .error .valueError) ∧
    (truthy force = false → truthy pressure = false → truthy uMax = true →
      channelDrive force pressure uMax true callback = .error .notImplemented) ∧
    (truthy force = true → truthy pressure = false → truthy uMax = false →
      channelDrive force pressure uMax true true = .error .valueError) ∧
    (∀ duct, truthy force = true → truthy uMax = true →
      channelDrive force pressure uMax duct callback = .error .valueError) := by
  unfold channelDrive
  cases truthy force <;> cases truthy pressure <;> cases truthy uMax <;> cases callback <;>
    simp [bind, Except.bind]

/-- A force of zero is not accepted, although it is given. -/
theorem C73_zero_force (duct callback : Bool) :
    channelDrive (some 0) none none duct callback = .error .valueError := by
  cases duct <;> cases callback <;> rfl

example : channelDrive (some (1 / 100)) none (some 0) true false = .ok .force := by decide +kernel

/-- The cells of a duct: the lateral ghost cells are walls, edges to the ends included; the remaining ghost cells at
the ends are inflow and outflow if the channel is not periodic. -/
theorem C73_duct_cells (shape : Fin (D + 1) → ℕ) (drive : Drive) (x : Fin (D + 1) → ℤ) :
    (channelCell shape drive true x = .wall ↔ ∃ i : Fin D, x i.succ = shape i.succ ∨ x i.succ = -1) ∧
    (channelCell shape drive true x = .inflow ↔ (∀ i : Fin D, x i.succ ≠ shape i.succ ∧ x i.succ ≠ -1) ∧
      drive ≠ .force ∧ x 0 = -1) ∧
    (channelCell shape drive true x = .outflow ↔ (∀ i : Fin D, x i.succ ≠ shape i.succ ∧ x i.succ ≠ -1) ∧
      drive ≠ .force ∧ x 0 = shape 0) := by
  have hne : x 0 = shape 0 → x 0 ≠ -1 := fun h h' => by omega
  unfold channelCell
  simp only [if_true, onFace, Bool.or_eq_true, decide_eq_true_eq, Bool.false_eq_true, if_false]
  by_cases h : ∃ i : Fin D, x i.succ = shape i.succ ∨ x i.succ = -1
  · rw [if_pos h]
    refine ⟨by simp [h], ?_, ?_⟩ <;>
    · refine ⟨fun h => (by cases h), fun ⟨h', _⟩ => ?_⟩
      obtain ⟨i, h⟩ := h
      rcases h with h | h
      · exact absurd h (h' i).1
      · exact absurd h (h' i).2
  · rw [if_neg h]
    have h' : ∀ i : Fin D, x i.succ ≠ shape i.succ ∧ x i.succ ≠ -1 := fun i =>
      ⟨fun h1 => h ⟨i, Or.inl h1⟩, fun h1 => h ⟨i, Or.inr h1⟩⟩
    by_cases hd : drive = .force
    · simp only [if_pos hd]
      exact ⟨by simp [h], by simp [hd], by simp [hd]⟩
    · simp only [if_neg hd]
      by_cases h1 : x 0 = shape 0
      · rw [if_pos h1]
        have := hne h1
        refine ⟨by simp [h], ?_, ?_⟩
        · simp [this]
        · simp only [ne_eq, true_iff]; exact ⟨h', hd, h1⟩
      · rw [if_neg h1]
        by_cases h2 : x 0 = -1
        · rw [if_pos h2]
          refine ⟨by simp [h], ?_, by simp [h1]⟩
          simp only [ne_eq, true_iff]; exact ⟨h', hd, h2⟩
        · rw [if_neg h2]
          exact ⟨by simp [h], by simp [h2], by simp [h1]⟩

/-- In a pipe a cell is a wall if it is one in the duct or if it lies outside the pipe; all other cells are as in
the duct.  In particular inflow and outflow are restricted to the cross section of the pipe. -/
theorem C73_pipe_cells (shape : Fin (D + 2) → ℕ) (drive : Drive) (x : Fin (D + 2) → ℤ) :
    ∃ m, (∃ i : Fin (D + 1), m = shape i.succ) ∧ (∀ i : Fin (D + 1), m ≤ shape i.succ) ∧
      (pipeWall shape m x → channelCell shape drive false x = .wall) ∧
      (¬ pipeWall shape m x → channelCell shape drive false x = channelCell shape drive true x) := by
  cases hm : ((List.finRange (D + 1)).map fun i => shape i.succ).min? with
  | none =>
    rw [List.min?_eq_none_iff] at hm
    simp at hm
  | some m =>
    have h1 := List.min?_eq_some_iff.1 hm
    refine ⟨m, ?_, ?_, fun h => ?_, fun h => ?_⟩
    · obtain ⟨i, -, h⟩ := List.mem_map.1 h1.1
      exact ⟨i, h.symm⟩
    · intro i
      exact h1.2 _ (List.mem_map.2 ⟨i, List.mem_finRange i, rfl⟩)
    · unfold channelCell
      simp only [hm]
      rw [if_neg (by simp), if_pos h]
    · unfold channelCell
      simp only [hm]
      rw [if_neg (by simp), if_neg h, if_pos trivial]

/-- In a plane channel (2D) the pipe adds no walls inside the channel and leaves the lateral ghost cells walls,
whatever the parity. -/
theorem C73_plane_channel (nx n : ℕ) (x y : ℤ) (h0 : 0 ≤ y) (h1 : y < n) :
    ¬ pipeWall ![nx, n] n ![x, y] := by
  unfold pipeWall
  rw [not_lt]
  have e0 : (Fin.succ (0 : Fin 1)) = 1 := rfl
  simp only [Finset.univ_unique, Finset.sum_singleton, Fin.default_eq_zero, midpoint, e0, Matrix.cons_val_one,
    Matrix.cons_val_zero]
  push_cast
  refine sq_le_sq' ?_ ?_
  · have h2 : 2 * (n / 2 : ℕ) ≤ n := Nat.mul_div_le n 2
    have h2' : 2 * ((n / 2 : ℕ) : ℝ) ≤ n := by exact_mod_cast h2
    have h0' : (0 : ℝ) ≤ y := by exact_mod_cast h0
    linarith
  · have h2 : (n : ℤ) ≤ 2 * (n / 2 : ℕ) + 1 := by omega
    have h2' : (n : ℝ) ≤ 2 * ((n / 2 : ℕ) : ℝ) + 1 := by exact_mod_cast h2
    have h1' : (y : ℝ) + 1 ≤ n := by exact_mod_cast h1
    linarith

/-- The difference of the pressures `rho / 3` at inflow and outflow is a third of the argument
`pressure_difference`: it equals the argument only if that is zero. -/
theorem C73_pressure_difference (p : ℝ) :
    (pressureDensities p).1 / 3 - (pressureDensities p).2 / 3 = p / 3 ∧
    ((pressureDensities p).1 / 3 - (pressureDensities p).2 / 3 = p ↔ p = 0) := by
  unfold pressureDensities
  constructor
  · ring
  · constructor <;> intro h <;> simp only at * <;> linarith

/-! ### Analytical solution and vorticity -/

/-- `poiseuille_flow` vanishes at the walls and solves `viscosity * u'' = - force`. -/
theorem C73_poiseuille (height force viscosity : ℝ) (hv : viscosity ≠ 0) :
    poiseuilleFlow (height / 2) height force viscosity = 0 ∧
    poiseuilleFlow (-(height / 2)) height force viscosity = 0 ∧
    ∃ du : ℝ → ℝ, (∀ y, HasDerivAt (fun y => poiseuilleFlow y height force viscosity) (du y) y) ∧
      ∀ y, HasDerivAt (fun y => viscosity * du y) (-force) y := by
  refine ⟨by unfold poiseuilleFlow; ring, by unfold poiseuilleFlow; ring,
    fun y => force * 1 / (2 * viscosity) * -(2 * y), fun y => ?_, fun y => ?_⟩
  · unfold poiseuilleFlow
    have h := ((hasDerivAt_pow 2 y).const_sub (height ^ 2 / 4)).const_mul (force * 1 / (2 * viscosity))
    simpa using h
  · have h := ((hasDerivAt_id y).const_mul (-force))
    have e : (fun y => viscosity * (force * 1 / (2 * viscosity) * -(2 * y))) = fun y => -force * id y := by
      funext y; simp only [id]; field_simp
    rw [e]
    simpa using h

/-- It is the only function that does. -/
theorem C73_poiseuille_unique (height force viscosity : ℝ) (hh : height ≠ 0) (hv : viscosity ≠ 0)
    (u du : ℝ → ℝ) (h1 : ∀ y, HasDerivAt u (du y) y) (h2 : ∀ y, HasDerivAt (fun y => viscosity * du y) (-force) y)
    (hb : u (height / 2) = 0) (hb' : u (-(height / 2)) = 0) (y : ℝ) :
    u y = poiseuilleFlow y height force viscosity := by
  obtain ⟨p1, p2, dp, h3, h4⟩ := C73_poiseuille height force viscosity hv
  have k1 : ∀ y, HasDerivAt (fun y => viscosity * du y - viscosity * dp y) 0 y := by
    intro y
    have := (h2 y).sub (h4 y)
    rw [sub_self] at this
    exact this
  have k2 : ∀ y, du y - dp y = du 0 - dp 0 := by
    intro y
    have := is_const_of_deriv_eq_zero (fun y => (k1 y).differentiableAt) (fun y => (k1 y).deriv) y 0
    have e : viscosity * (du y - dp y) = viscosity * (du 0 - dp 0) := by linarith
    exact mul_left_cancel₀ hv e
  have k3 : ∀ y, HasDerivAt (fun y => u y - poiseuilleFlow y height force viscosity - (du 0 - dp 0) * y) 0 y := by
    intro y
    have := ((h1 y).sub (h3 y)).sub ((hasDerivAt_id y).const_mul (du 0 - dp 0))
    rw [k2 y, mul_one, sub_self] at this
    exact this
  have k4 : ∀ y z, u y - poiseuilleFlow y height force viscosity - (du 0 - dp 0) * y =
      u z - poiseuilleFlow z height force viscosity - (du 0 - dp 0) * z := fun y z =>
    is_const_of_deriv_eq_zero (fun y => (k3 y).differentiableAt) (fun y => (k3 y).deriv) y z
  have k5 := k4 (height / 2) (-(height / 2))
  rw [hb, hb', p1, p2] at k5
  have k6 : du 0 - dp 0 = 0 := by
    have : (du 0 - dp 0) * height = 0 := by linarith
    rcases mul_eq_zero.1 this with h | h
    · exact h
    · exact absurd h hh
  have k7 := k4 y (height / 2)
  rw [hb, p1, k6] at k7
  linarith

theorem npGradient_affine (n : ℕ) (hn : 2 ≤ n) (a b : ℝ) :
    ∃ g, npGradient n (fun i => a + b * i) = .ok g ∧ ∀ i, g i = b := by
  refine ⟨_, by unfold npGradient; rw [if_neg (by omega)], fun i => ?_⟩
  simp only
  split_ifs with h1 h2
  · push_cast; ring
  · rw [Nat.cast_sub (by omega)]; push_cast; ring
  · rw [Nat.cast_sub (by omega)]; push_cast; ring

/-- The vorticity of an affine velocity field is exact in every cell, those at the border included: for a rotation with
angular velocity `w` it is `2 w`. -/
theorem C73_vorticity (nx ny : ℕ) (hx : 2 ≤ nx) (hy : 2 ≤ ny) (a b c a' b' c' : ℝ) (x y : ℕ) :
    vorticity2d nx ny (fun x y => a + b * x + c * y) (fun x y => a' + b' * x + c' * y) x y = .ok (b' - c) := by
  obtain ⟨g1, h1, e1⟩ := npGradient_affine ny hy (a + b * x) c
  obtain ⟨g2, h2, e2⟩ := npGradient_affine nx hx (a' + c' * y) b'
  have e3 : (fun x : ℕ => a' + b' * (x : ℝ) + c' * (y : ℝ)) = fun x : ℕ => a' + c' * (y : ℝ) + b' * (x : ℝ) := by
    funext x; ring
  unfold vorticity2d
  simp only [e3, h1, h2, bind, Except.bind, e1, e2]

example (w : ℝ) : vorticity2d 4 4 (fun _ y => 0 + 0 * (0 : ℕ) + -w * y) (fun x _ => 0 + w * x + 0 * (0 : ℕ)) 0 3 =
    .ok (2 * w) := by
  have := C73_vorticity 4 4 (by norm_num) (by norm_num) 0 0 (-w) 0 w 0 0 3
  simp only [zero_mul, add_zero, zero_add] at this ⊢
  rw [this]; congr 1; ring

/-- In the interior the vorticity of a discrete gradient (central differences) vanishes. -/
theorem C73_vorticity_gradient (nx ny : ℕ) (f : ℤ → ℤ → ℝ) (x y : ℕ) (hx : 0 < x) (hx' : x + 1 < nx)
    (hy : 0 < y) (hy' : y + 1 < ny) :
    vorticity2d nx ny (fun x y => (f (x + 1) y - f (x - 1) y) / 2) (fun x y => (f x (y + 1) - f x (y - 1)) / 2)
      x y = .ok 0 := by
  unfold vorticity2d npGradient
  rw [if_neg (by omega), if_neg (by omega)]
  simp only [bind, Except.bind]
  rw [if_neg (by omega), if_neg (by omega), if_neg (by omega), if_neg (by omega)]
  rw [Nat.cast_sub (by omega), Nat.cast_sub (by omega)]
  push_cast
  congr 1
  ring

/-- A field with a single row of cells is a `ValueError`. -/
theorem C73_vorticity_small (nx : ℕ) (u v : ℕ → ℕ → ℝ) (x y : ℕ) :
    vorticity2d nx 1 u v x y = .error .valueError := by
  unfold vorticity2d npGradient
  rw [if_pos (by norm_num)]
  rfl

end Geometry
end Lbm
