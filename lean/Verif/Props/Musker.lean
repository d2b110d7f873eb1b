/-
C57: Musker's law has exactly one solution, and Newton's iteration converges to it from below.
-/
import Verif.Props.WallFunctions
import Mathlib.Analysis.Complex.ExponentialBounds
import Mathlib.Analysis.Real.Pi.Bounds

open Filter Topology

namespace Lbm.Wall

/-! ### The profile of Musker's law and its derivatives -/

/-- the profile in wall units with the logarithm of the quotient written out -/
noncomputable def muskerM (t : ℝ) : ℝ :=
  5.424 * Real.arctan (0.119760479041916168 * t - 0.488023952095808383)
    + 0.434 * (9.6 * Real.log (t + 10.6) - 2 * Real.log (t ^ 2 - 8.15 * t + 86)) - 3.50727901936264842

/-- its slope -/
noncomputable def muskerM1 (t : ℝ) : ℝ :=
  5.424 * ((1 / (1 + (0.119760479041916168 * t - 0.488023952095808383) ^ 2)) * 0.119760479041916168)
    + 0.434 * (9.6 * (1 / (t + 10.6)) - 2 * ((2 * t - 8.15) / (t ^ 2 - 8.15 * t + 86)))

/-- its curvature -/
noncomputable def muskerM2 (t : ℝ) : ℝ :=
  5.424 * (-(2 * (0.119760479041916168 * t - 0.488023952095808383) * 0.119760479041916168) /
      (1 + (0.119760479041916168 * t - 0.488023952095808383) ^ 2) ^ 2 * 0.119760479041916168)
    + 0.434 * (9.6 * (-1 / (t + 10.6) ^ 2) -
        2 * ((2 * (t ^ 2 - 8.15 * t + 86) - (2 * t - 8.15) * (2 * t - 8.15)) / (t ^ 2 - 8.15 * t + 86) ^ 2))

theorem musker_q2 (t : ℝ) : 69 < t ^ 2 - 8.15 * t + 86 := by nlinarith [sq_nonneg (t - 8.15 / 2)]

theorem musker_q1 (t : ℝ) : 1 ≤ 1 + (0.119760479041916168 * t - 0.488023952095808383) ^ 2 := by
  nlinarith [sq_nonneg (0.119760479041916168 * t - 0.488023952095808383)]

theorem musker_value {nu u y x : ℝ} (h : 0 < y * x / nu) :
    (musker nu u y).value x = muskerM (y * x / nu) - u / x := by
  simp only [musker, muskerM]
  have hp : 0 < y * x / nu + 10.6 := by linarith
  have hb := musker_q2 (y * x / nu)
  rw [Real.log_div (Real.rpow_pos_of_pos hp _).ne' (pow_pos (by linarith) 2).ne', Real.log_rpow hp, Real.log_pow]
  norm_num

theorem muskerM_deriv {t : ℝ} (ht : 0 < t) : HasDerivAt muskerM (muskerM1 t) t := by
  have h1 : HasDerivAt (fun t : ℝ => 5.424 * Real.arctan (0.119760479041916168 * t - 0.488023952095808383))
      (5.424 * ((1 / (1 + (0.119760479041916168 * t - 0.488023952095808383) ^ 2)) * (0.119760479041916168 * 1))) t :=
    ((((hasDerivAt_id t).const_mul 0.119760479041916168).sub_const 0.488023952095808383).arctan).const_mul 5.424
  have hb := musker_q2 t
  have h2 : HasDerivAt (fun t : ℝ => 9.6 * Real.log (t + 10.6) - 2 * Real.log (t ^ 2 - 8.15 * t + 86))
      (9.6 * (1 / (t + 10.6)) - 2 * ((2 * t - 8.15) / (t ^ 2 - 8.15 * t + 86))) t := by
    refine ((((hasDerivAt_id t).add_const 10.6).log (by simp only [id]; linarith)).const_mul 9.6).sub
      (((((hasDerivAt_id t).pow 2).sub ((hasDerivAt_id t).const_mul 8.15)).add_const 86 |>.log
        (by simp only [Pi.sub_apply, Pi.pow_apply, id]; linarith)).const_mul 2) |>.congr_deriv ?_
    simp
  have h3 := (h1.add (h2.const_mul 0.434)).sub_const 3.50727901936264842
  rw [mul_one] at h3
  exact h3

theorem muskerM1_deriv {t : ℝ} (ht : 0 < t) : HasDerivAt muskerM1 (muskerM2 t) t := by
  have hb := musker_q2 t
  have hq := musker_q1 t
  have h0 : HasDerivAt (fun t : ℝ => 1 + (0.119760479041916168 * t - 0.488023952095808383) ^ 2)
      (2 * (0.119760479041916168 * t - 0.488023952095808383) * 0.119760479041916168) t := by
    refine ((((hasDerivAt_id t).const_mul 0.119760479041916168).sub_const 0.488023952095808383).pow 2).const_add 1
      |>.congr_deriv ?_
    simp
  have h1 := ((h0.inv (by linarith)).mul_const 0.119760479041916168).const_mul 5.424
  have h2 : HasDerivAt (fun t : ℝ => 9.6 * (t + 10.6)⁻¹) (9.6 * (-1 / (t + 10.6) ^ 2)) t :=
    (((hasDerivAt_id t).add_const 10.6).inv (by simp only [id]; linarith)).const_mul 9.6
  have h3 : HasDerivAt (fun t : ℝ => t ^ 2 - 8.15 * t + 86) (2 * t - 8.15) t := by
    refine (((hasDerivAt_id t).pow 2).sub ((hasDerivAt_id t).const_mul 8.15)).add_const 86 |>.congr_deriv ?_
    simp
  have h4 : HasDerivAt (fun t : ℝ => 2 * t - 8.15) 2 t := by
    refine ((hasDerivAt_id t).const_mul 2).sub_const 8.15 |>.congr_deriv ?_
    simp
  have h5 := (h1.add ((h2.sub ((h4.div h3 (by linarith)).const_mul 2)).const_mul 0.434))
  refine (h5.congr_deriv ?_).congr_of_eventuallyEq (Filter.Eventually.of_forall fun s => ?_)
  · rfl
  · simp [muskerM1, one_div]

/-- the profile increases -/
theorem muskerM1_pos {t : ℝ} (ht : 0 < t) : 0 < muskerM1 t := by
  have hb := musker_q2 t
  have hq := musker_q1 t
  have hL : 0 < t + 10.6 := by linarith
  have hq0 : 0 < 1 + (0.119760479041916168 * t - 0.488023952095808383) ^ 2 := by linarith
  have hb0 : 0 < t ^ 2 - 8.15 * t + 86 := by linarith
  have e : muskerM1 t = (5.424 * 0.119760479041916168 * ((t + 10.6) * (t ^ 2 - 8.15 * t + 86))
      + 0.434 * (9.6 * ((1 + (0.119760479041916168 * t - 0.488023952095808383) ^ 2) * (t ^ 2 - 8.15 * t + 86)) -
        2 * (2 * t - 8.15) * ((1 + (0.119760479041916168 * t - 0.488023952095808383) ^ 2) * (t + 10.6)))) /
      ((1 + (0.119760479041916168 * t - 0.488023952095808383) ^ 2) * (t + 10.6) * (t ^ 2 - 8.15 * t + 86)) := by
    unfold muskerM1
    generalize 1 + (0.119760479041916168 * t - 0.488023952095808383) ^ 2 = q at *
    generalize t ^ 2 - 8.15 * t + 86 = b at *
    generalize t + 10.6 = l at *
    field_simp
  rw [e]
  refine div_pos ?_ (by positivity)
  have h2 := sq_nonneg t
  have h4 : 0 ≤ t ^ 4 := by positivity
  have h3 : 0 ≤ t ^ 3 := by positivity
  nlinarith [sq_nonneg (t - 6.7), sq_nonneg (t * (t - 4)), mul_pos ht ht]

/-- an upper bound for the numerator of the curvature, with rounded coefficients -/
theorem musker_num {t : ℝ} (ht : 0 < t) :
    -(5.424 * 2 * 0.119760479041916168 ^ 2) * (0.119760479041916168 * t - 0.488023952095808383)
        * ((t + 10.6) * (t ^ 2 - 8.15 * t + 86)) ^ 2
      + 0.434 * (-9.6 * ((1 + (0.119760479041916168 * t - 0.488023952095808383) ^ 2) * (t ^ 2 - 8.15 * t + 86)) ^ 2 -
        2 * (2 * (t ^ 2 - 8.15 * t + 86) - (2 * t - 8.15) * (2 * t - 8.15)) *
          ((1 + (0.119760479041916168 * t - 0.488023952095808383) ^ 2) * (t + 10.6)) ^ 2) ≤
      73.3 - 100 * t - 4161 * t ^ 2 + 790 * t ^ 3 - 138 * t ^ 4 + 9.9 * t ^ 5 - 0.683 * t ^ 6 + 0.00815 * t ^ 7
        - 0.000499 * t ^ 8 := by
  have p1 := ht
  have p2 : 0 < t ^ 2 := by positivity
  have p3 : 0 < t ^ 3 := by positivity
  have p4 : 0 < t ^ 4 := by positivity
  have p5 : 0 < t ^ 5 := by positivity
  have p6 : 0 < t ^ 6 := by positivity
  have p7 : 0 < t ^ 7 := by positivity
  have p8 : 0 < t ^ 8 := by positivity
  linarith

theorem musker_num_le {t : ℝ} (ht : 0 < t) :
    (73.3 - 100 * t - 4161 * t ^ 2 + 790 * t ^ 3 - 138 * t ^ 4 + 9.9 * t ^ 5 - 0.683 * t ^ 6 + 0.00815 * t ^ 7
        - 0.000499 * t ^ 8) * t ^ 3 ≤ 1 := by
  rcases le_total t 0.2 with h | h
  · have h1 : 73.3 - 100 * t - 4161 * t ^ 2 + 790 * t ^ 3 - 138 * t ^ 4 + 9.9 * t ^ 5 - 0.683 * t ^ 6 + 0.00815 * t ^ 7
        - 0.000499 * t ^ 8 ≤ 73.3 := by
      have a1 : t ^ 3 ≤ t ^ 2 := pow_le_pow_of_le_one ht.le (by linarith) (by norm_num)
      have a2 : t ^ 5 ≤ t ^ 4 := pow_le_pow_of_le_one ht.le (by linarith) (by norm_num)
      have a3 : t ^ 7 ≤ t ^ 6 := pow_le_pow_of_le_one ht.le (by linarith) (by norm_num)
      have p2 : 0 < t ^ 2 := by positivity
      have p4 : 0 < t ^ 4 := by positivity
      have p6 : 0 < t ^ 6 := by positivity
      have p8 : 0 < t ^ 8 := by positivity
      linarith
    have h2 : t ^ 3 ≤ 0.2 ^ 3 := pow_le_pow_left₀ ht.le h 3
    calc _ ≤ 73.3 * t ^ 3 := mul_le_mul_of_nonneg_right h1 (by positivity)
      _ ≤ 73.3 * 0.2 ^ 3 := by linarith
      _ ≤ 1 := by norm_num
  · refine le_trans (mul_nonpos_of_nonpos_of_nonneg ?_ (by positivity)) zero_le_one
    have b1 : 0.04 ≤ t ^ 2 := by nlinarith
    have b2 : 0 ≤ t ^ 2 * (75 * t ^ 2 - 790 * t + 2328) :=
      mul_nonneg (by positivity) (by nlinarith [sq_nonneg (t - 790 / 150)])
    have b3 : 0 ≤ t ^ 4 * (0.4 * t ^ 2 - 9.9 * t + 63) :=
      mul_nonneg (by positivity) (by nlinarith [sq_nonneg (t - 9.9 / 0.8)])
    have b4 : 0 ≤ t ^ 6 * (0.000499 * t ^ 2 - 0.00815 * t + 0.283) :=
      mul_nonneg (by positivity) (by nlinarith [sq_nonneg (t - 8)])
    linarith

/-- a bound for the curvature: positive values only occur very close to the wall -/
theorem muskerM2_le {t : ℝ} (ht : 0 < t) : muskerM2 t * t ^ 3 ≤ 2 / 1000000 := by
  have hb := musker_q2 t
  have hq := musker_q1 t
  have hL : 10.6 < t + 10.6 := by linarith
  have e : muskerM2 t = (-(5.424 * 2 * 0.119760479041916168 ^ 2) * (0.119760479041916168 * t - 0.488023952095808383)
        * ((t + 10.6) * (t ^ 2 - 8.15 * t + 86)) ^ 2
      + 0.434 * (-9.6 * ((1 + (0.119760479041916168 * t - 0.488023952095808383) ^ 2) * (t ^ 2 - 8.15 * t + 86)) ^ 2 -
        2 * (2 * (t ^ 2 - 8.15 * t + 86) - (2 * t - 8.15) * (2 * t - 8.15)) *
          ((1 + (0.119760479041916168 * t - 0.488023952095808383) ^ 2) * (t + 10.6)) ^ 2)) /
      ((1 + (0.119760479041916168 * t - 0.488023952095808383) ^ 2) * (t + 10.6) * (t ^ 2 - 8.15 * t + 86)) ^ 2 := by
    have hL0 : t + 10.6 ≠ 0 := by linarith
    have hq0 : 1 + (0.119760479041916168 * t - 0.488023952095808383) ^ 2 ≠ 0 := by linarith
    have hb0 : t ^ 2 - 8.15 * t + 86 ≠ 0 := by linarith
    unfold muskerM2
    generalize 1 + (0.119760479041916168 * t - 0.488023952095808383) ^ 2 = q at *
    generalize t ^ 2 - 8.15 * t + 86 = b at *
    generalize t + 10.6 = l at *
    field_simp
  have hden : 500000 ≤ ((1 + (0.119760479041916168 * t - 0.488023952095808383) ^ 2) * (t + 10.6) *
      (t ^ 2 - 8.15 * t + 86)) ^ 2 := by
    generalize 1 + (0.119760479041916168 * t - 0.488023952095808383) ^ 2 = q at *
    generalize t ^ 2 - 8.15 * t + 86 = b at *
    generalize t + 10.6 = l at *
    have h1 : 10.6 ≤ q * l := by nlinarith
    have h2 : 731 ≤ q * l * b := by nlinarith
    nlinarith
  have hnum := musker_num ht
  rw [e, div_mul_eq_mul_div, div_le_iff₀ (by linarith)]
  refine le_trans ?_ (show (1 : ℝ) ≤ _ by linarith)
  exact (mul_le_mul_of_nonneg_right hnum (by positivity)).trans (musker_num_le ht)

/-- the profile grows without bound -/
theorem muskerM_ge {t : ℝ} (ht : Real.exp 10 ≤ t) : 1 ≤ muskerM t := by
  have h0 : 0 < t := (Real.exp_pos _).trans_le ht
  have hb := musker_q2 t
  have hL : 0 < t + 10.6 := by linarith
  have h1 : 10 ≤ Real.log (t + 10.6) := by
    rw [Real.le_log_iff_exp_le hL]; linarith
  have h2 : Real.log (t ^ 2 - 8.15 * t + 86) ≤ 2 * Real.log (t + 10.6) := by
    have : (2 : ℝ) * Real.log (t + 10.6) = Real.log ((t + 10.6) ^ 2) := by rw [Real.log_pow]; norm_num
    rw [this]
    refine Real.log_le_log (by linarith) (by nlinarith)
  have h3 := Real.neg_pi_div_two_lt_arctan (0.119760479041916168 * t - 0.488023952095808383)
  have h4 := Real.pi_lt_d2
  unfold muskerM
  nlinarith

section
variable {nu u y : ℝ}

theorem musker_deriv (hn : 0 < nu) (hy : 0 < y) {x : ℝ} (hx : 0 < x) :
    HasDerivAt (musker nu u y).value (y / nu * muskerM1 (y * x / nu) + u / x ^ 2) x := by
  have hp : 0 < y * x / nu := by positivity
  have h1 : HasDerivAt (fun x => y * x / nu) (y / nu) x := by
    refine (((hasDerivAt_id x).const_mul y).div_const nu).congr_deriv ?_
    simp
  have h2 : HasDerivAt (fun x : ℝ => u / x) (-(u / x ^ 2)) x := by
    have := (hasDerivAt_inv hx.ne').const_mul u
    simp only [div_eq_mul_inv]
    refine this.congr_deriv ?_
    ring
  have h3 := (HasDerivAt.comp x (muskerM_deriv hp) h1).sub h2
  refine (h3.congr_deriv (by ring)).congr_of_eventuallyEq ?_
  filter_upwards [Ioi_mem_nhds hx] with z hz
  have hz : 0 < z := hz
  simpa using musker_value (by positivity)

theorem musker_slope_deriv (hn : 0 < nu) (hy : 0 < y) {x : ℝ} (hx : 0 < x) :
    HasDerivAt (fun x => y / nu * muskerM1 (y * x / nu) + u / x ^ 2)
      ((y / nu) ^ 2 * muskerM2 (y * x / nu) - 2 * u / x ^ 3) x := by
  have hp : 0 < y * x / nu := by positivity
  have h1 : HasDerivAt (fun x => y * x / nu) (y / nu) x := by
    refine (((hasDerivAt_id x).const_mul y).div_const nu).congr_deriv ?_
    simp
  have h2 : HasDerivAt (fun x : ℝ => u / x ^ 2) (-(2 * u / x ^ 3)) x := by
    have := ((hasDerivAt_pow 2 x).inv (pow_ne_zero 2 hx.ne')).const_mul u
    simp only [div_eq_mul_inv] at *
    refine this.congr_deriv ?_
    field_simp
    push_cast
    ring
  have h3 := ((HasDerivAt.comp x (muskerM1_deriv hp) h1).const_mul (y / nu)).add h2
  refine h3.congr_deriv (by ring)

theorem musker_slope_pos (hn : 0 < nu) (hu : 0 < u) (hy : 0 < y) {x : ℝ} (hx : 0 < x) :
    0 < y / nu * muskerM1 (y * x / nu) + u / x ^ 2 := by
  have := muskerM1_pos (show 0 < y * x / nu by positivity)
  positivity

theorem musker_strictMono (hn : 0 < nu) (hu : 0 < u) (hy : 0 < y) :
    StrictMonoOn (musker nu u y).value (Set.Ioi 0) := by
  refine strictMonoOn_of_deriv_pos (convex_Ioi 0)
    (fun x hx => (musker_deriv hn hy hx).continuousAt.continuousWithinAt) fun x hx => ?_
  rw [interior_Ioi] at hx
  rw [(musker_deriv hn hy hx).deriv]
  exact musker_slope_pos hn hu hy hx

/-- C57. For positive velocity, wall distance and viscosity Musker's law has exactly one positive solution. -/
theorem C57_musker_solution (hn : 0 < nu) (hu : 0 < u) (hy : 0 < y) :
    ∃! r, 0 < r ∧ (musker nu u y).value r = 0 := by
  have hmono := musker_strictMono hn hu hy
  have hmM : StrictMonoOn muskerM (Set.Ioi 0) := by
    refine strictMonoOn_of_deriv_pos (convex_Ioi 0)
      (fun x hx => (muskerM_deriv hx).continuousAt.continuousWithinAt) fun x hx => ?_
    rw [interior_Ioi] at hx
    rw [(muskerM_deriv hx).deriv]
    exact muskerM1_pos hx
  have hcont : ContinuousOn (musker nu u y).value (Set.Ioi 0) := fun x hx =>
    (musker_deriv hn hy hx).continuousAt.continuousWithinAt
  set hi := max u (nu / y * Real.exp 10) with hhi
  have hhi0 : 0 < hi := hu.trans_le (le_max_left _ _)
  have hfhi : 0 ≤ (musker nu u y).value hi := by
    rw [musker_value (by positivity)]
    have h1 : u / hi ≤ 1 := by rw [div_le_one hhi0]; exact le_max_left _ _
    have h2 : Real.exp 10 ≤ y * hi / nu := by
      calc Real.exp 10 = y * (nu / y * Real.exp 10) / nu := by field_simp
        _ ≤ y * hi / nu := by gcongr; exact le_max_right _ _
    linarith [muskerM_ge h2]
  set K := max 1 (muskerM (y * hi / nu)) with hK
  have hK0 : 0 < K := zero_lt_one.trans_le (le_max_left _ _)
  set lo := min hi (u / K) with hlo
  have hlo0 : 0 < lo := lt_min hhi0 (by positivity)
  have hlohi : lo ≤ hi := min_le_left _ _
  have hflo : (musker nu u y).value lo ≤ 0 := by
    rw [musker_value (by positivity)]
    have h1 : muskerM (y * lo / nu) ≤ muskerM (y * hi / nu) := by
      refine hmM.monotoneOn (show 0 < y * lo / nu by positivity) (show 0 < y * hi / nu by positivity) ?_
      gcongr
    have h2 : K ≤ u / lo := by
      rw [le_div_iff₀ hlo0]
      calc K * lo ≤ K * (u / K) := by gcongr; exact min_le_right _ _
        _ = u := by field_simp
    have h3 : muskerM (y * hi / nu) ≤ K := le_max_right _ _
    linarith
  obtain ⟨r, ⟨hr1, hr2⟩, hr⟩ := intermediate_value_Icc hlohi
    (hcont.mono fun x hx => hlo0.trans_le hx.1) ⟨hflo, hfhi⟩
  have hr0 : 0 < r := hlo0.trans_le hr1
  refine ⟨r, ⟨hr0, hr⟩, ?_⟩
  rintro r' ⟨hr'0, hr'⟩
  exact hmono.injOn hr'0 hr0 (hr'.trans hr.symm)

/-- C57. Newton's iteration for Musker's law: if the Reynolds number `u y / ν` is at least one millionth, then from any
start at or below the solution the iteration never fails, increases towards the solution and converges to it. -/
theorem C57_musker_newton (hn : 0 < nu) (hu : 0 < u) (hy : 0 < y) (hRe : 1 / 1000000 ≤ u * y / nu) {r x0 : ℝ}
    (hx0 : 0 < x0) (hr : (musker nu u y).value r = 0) (hle : x0 ≤ r) :
    ∃ s : ℕ → ℝ, (∀ n, newton (musker nu u y) x0 n = some (s n)) ∧ (∀ n, s n ≤ s (n + 1)) ∧
      (∀ n, 0 < s n ∧ s n ≤ r) ∧ Tendsto s atTop (𝓝 r) := by
  have hconc : ConcaveOn ℝ (Set.Ioi 0) (musker nu u y).value := by
    refine AntitoneOn.concaveOn_of_deriv (convex_Ioi 0)
      (fun x hx => (musker_deriv hn hy hx).continuousAt.continuousWithinAt) ?_ ?_
    · rw [interior_Ioi]
      exact fun x hx => (musker_deriv hn hy hx).differentiableAt.differentiableWithinAt
    · rw [interior_Ioi]
      have ha : AntitoneOn (fun x => y / nu * muskerM1 (y * x / nu) + u / x ^ 2) (Set.Ioi 0) := by
        refine antitoneOn_of_deriv_nonpos (convex_Ioi 0)
          (fun x hx => (musker_slope_deriv hn hy hx).continuousAt.continuousWithinAt) ?_ ?_
        · rw [interior_Ioi]
          exact fun x hx => (musker_slope_deriv hn hy hx).differentiableAt.differentiableWithinAt
        · rw [interior_Ioi]
          intro x hx
          have hx : 0 < x := hx
          rw [(musker_slope_deriv hn hy hx).deriv]
          have h := muskerM2_le (show 0 < y * x / nu by positivity)
          have e : (y / nu) ^ 2 * muskerM2 (y * x / nu) - 2 * u / x ^ 3 =
              (muskerM2 (y * x / nu) * (y * x / nu) ^ 3 - 2 * (u * y / nu)) / (y / nu * x ^ 3) := by
            field_simp
          rw [e]
          exact div_nonpos_of_nonpos_of_nonneg (by linarith) (by positivity)
      intro x hx z hz hxz
      rw [(musker_deriv hn hy hx).deriv, (musker_deriv hn hy hz).deriv]
      exact ha hx hz hxz
  have htan : ∀ x z, 0 < x → 0 < z → (musker nu u y).value z ≤
      (musker nu u y).value x + (y / nu * muskerM1 (y * x / nu) + u / x ^ 2) * (z - x) := by
    intro x z hx hz
    have hd := musker_deriv (u := u) hn hy hx
    rcases lt_trichotomy x z with h | h | h
    · have := ConcaveOn.slope_le_of_hasDerivAt hconc hx hz h hd
      rw [slope_def_field, div_le_iff₀ (by linarith)] at this
      linarith
    · subst h; simp
    · have := ConcaveOn.le_slope_of_hasDerivAt hconc hz hx h hd
      rw [slope_def_field, le_div_iff₀ (by linarith)] at this
      linarith
  obtain ⟨s, h0, hs, hpos, hmono, hbd, hlim⟩ := newton_left (g := (musker nu u y).value)
    (g' := fun x => y / nu * muskerM1 (y * x / nu) + u / x ^ 2) hx0 hle (fun x hx => musker_deriv hn hy hx)
    (fun x hx => (musker_slope_deriv hn hy hx).continuousAt.continuousWithinAt)
    (fun x hx => musker_slope_pos hn hu hy hx) htan hr
  refine ⟨s, newton_eq (g := (musker nu u y).value)
    (g' := fun x => y / nu * muskerM1 (y * x / nu) + u / x ^ 2) h0 hs (fun n => ?_)
    (fun n => (musker_slope_pos hn hu hy (hpos n)).ne') (fun n => (musker_deriv hn hy (hpos n)).deriv) (fun n => rfl),
    hmono, fun n => ⟨hpos n, hbd n⟩, hlim⟩
  have h := hpos n
  have : 0 < y * s n / nu := by positivity
  exact ⟨⟨h.ne', hn.ne'⟩, by linarith⟩

/-- C57. Without a target the iteration for Musker's law starts at `u/100` and computes a number in every step, and the
numbers converge to the solution of the law, for all Reynolds numbers `u y / ν` between one millionth and ten thousand
million. -/
theorem C57_musker_default_start (hn : 0 < nu) (hu : 0 < u) (hy : 0 < y) (hRe : 1 / 1000000 ≤ u * y / nu)
    (hRe' : u * y / nu ≤ 10000000000) :
    ∃ r, 0 < r ∧ (musker nu u y).value r = 0 ∧
      ∃ s : ℕ → ℝ, (∀ n, newton (musker nu u y) (uTauInit none u) n = some (s n)) ∧ Tendsto s atTop (𝓝 r) := by
  obtain ⟨r, ⟨hr0, hr⟩, -⟩ := C57_musker_solution hn hu hy
  have hu0 : 0 < u / 100 := by positivity
  have hle : u / 100 ≤ r := by
    by_contra h
    have h1 := musker_strictMono hn hu hy (show 0 < r from hr0) (show 0 < u / 100 from hu0) (not_le.1 h)
    rw [hr, musker_value (by positivity)] at h1
    have h2 : u / (u / 100) = 100 := by field_simp
    rw [h2] at h1
    obtain ⟨t, ht⟩ : ∃ t, t = y * (u / 100) / nu := ⟨_, rfl⟩
    have ht0 : 0 < t := by rw [ht]; positivity
    have htle : t ≤ 100000000 := by
      have : t = u * y / nu / 100 := by rw [ht]; ring
      rw [this]; linarith
    rw [← ht, muskerM] at h1
    have h3 : Real.log (t + 10.6) ≤ 20 := by
      rw [Real.log_le_iff_le_exp (by linarith)]
      have h4 : (2.7 : ℝ) ≤ Real.exp 1 := by have := Real.exp_one_gt_d9; linarith
      have h5 : (2.7 : ℝ) ^ 20 ≤ Real.exp 1 ^ 20 := pow_le_pow_left₀ (by norm_num) h4 20
      rw [← Real.exp_nat_mul] at h5
      have h6 : Real.exp ((20 : ℕ) * 1) = Real.exp 20 := by norm_num
      rw [h6] at h5
      refine le_trans ?_ h5
      calc t + 10.6 ≤ 100000000 + 10.6 := by linarith
        _ ≤ (2.7 : ℝ) ^ 20 := by norm_num
    have h7 := Real.arctan_lt_pi_div_two (0.119760479041916168 * t - 0.488023952095808383)
    have h8 := Real.pi_lt_d2
    have h9 : 0 ≤ Real.log (t ^ 2 - 8.15 * t + 86) := Real.log_nonneg (by linarith [musker_q2 t])
    linarith
  obtain ⟨s, h1, -, -, h4⟩ := C57_musker_newton hn hu hy hRe hu0 hr hle
  exact ⟨r, hr0, hr, s, h1, h4⟩

end

/-- `u = 0.05`, `ν = 0.001`, wall distance `0.5` -/
example : ∃ r, 0 < r ∧ (musker 0.001 0.05 0.5).value r = 0 ∧
    ∃ s : ℕ → ℝ, (∀ n, newton (musker 0.001 0.05 0.5) (uTauInit none 0.05) n = some (s n)) ∧ Tendsto s atTop (𝓝 r) :=
  C57_musker_default_start (by norm_num) (by norm_num) (by norm_num) (by norm_num) (by norm_num)

end Lbm.Wall
