/-
C57: wall functions and the wall function bounce boundary.
-/
import Verif.WallFunctions
import Verif.Props.Turbulence
import Verif.Props.BoundaryRules
import Mathlib.Analysis.SpecialFunctions.Log.Deriv
import Mathlib.Analysis.SpecialFunctions.ExpDeriv
import Mathlib.Analysis.Convex.Deriv
import Mathlib.Analysis.SpecialFunctions.Trigonometric.ArctanDeriv
import Mathlib.Topology.Order.MonotoneConvergence

open Filter Topology

namespace Lbm.Wall

/-! ### Newton's method for concave increasing functions on the positive half line -/

/-- Newton's method, started on the left of the zero of a function that stays below its tangents and increases: the
iterates increase, stay on the left of the zero and converge to it. -/
theorem newton_left {g g' : ℝ → ℝ} {r x0 : ℝ} (hx0 : 0 < x0) (hr : x0 ≤ r) (hg : ∀ x, 0 < x → HasDerivAt g (g' x) x)
    (hc : ContinuousOn g' (Set.Ioi 0)) (hpos : ∀ x, 0 < x → 0 < g' x)
    (htan : ∀ x z, 0 < x → 0 < z → g z ≤ g x + g' x * (z - x)) (hz : g r = 0) :
    ∃ s : ℕ → ℝ, s 0 = x0 ∧ (∀ n, s (n + 1) = s n + -g (s n) / g' (s n)) ∧ (∀ n, 0 < s n) ∧
      (∀ n, s n ≤ s (n + 1)) ∧ (∀ n, s n ≤ r) ∧ Tendsto s atTop (𝓝 r) := by
  have hr0 : 0 < r := hx0.trans_le hr
  have hneg : ∀ x, 0 < x → x ≤ r → g x ≤ 0 := by
    intro x hx hxr
    have h := htan r x hr0 hx
    rw [hz, zero_add] at h
    exact h.trans (mul_nonpos_of_nonneg_of_nonpos (hpos r hr0).le (by linarith))
  have hinj : ∀ x, 0 < x → x ≤ r → g x = 0 → x = r := by
    intro x hx hxr h0
    have h := htan r x hr0 hx
    rw [hz, zero_add, h0] at h
    by_contra hne
    have hlt : x - r < 0 := by have := lt_of_le_of_ne hxr hne; linarith
    exact absurd h (not_le.2 (mul_neg_of_pos_of_neg (hpos r hr0) hlt))
  let s : ℕ → ℝ := fun n => (fun x => x + -g x / g' x)^[n] x0
  have hs : ∀ n, s (n + 1) = s n + -g (s n) / g' (s n) := fun n => by
    simp only [s, Function.iterate_succ_apply']
  have hb : ∀ n, 0 < s n ∧ s n ≤ r := by
    intro n
    induction n with
    | zero => exact ⟨hx0, hr⟩
    | succ n ih =>
      have hg0 := hneg _ ih.1 ih.2
      have hp := hpos _ ih.1
      have h1 : 0 ≤ -g (s n) / g' (s n) := div_nonneg (by linarith) hp.le
      rw [hs]
      refine ⟨by linarith [ih.1], ?_⟩
      have ht := htan (s n) r ih.1 hr0
      rw [hz] at ht
      have : -g (s n) / g' (s n) ≤ r - s n := by
        rw [div_le_iff₀ hp]; linarith [mul_comm (g' (s n)) (r - s n)]
      linarith
  have hmono : ∀ n, s n ≤ s (n + 1) := by
    intro n
    have hg0 := hneg _ (hb n).1 (hb n).2
    rw [hs]
    have h1 : 0 ≤ -g (s n) / g' (s n) := div_nonneg (by linarith) (hpos _ (hb n).1).le
    linarith
  have hm : Monotone s := monotone_nat_of_le_succ hmono
  have hbdd : BddAbove (Set.range s) := ⟨r, by rintro _ ⟨n, rfl⟩; exact (hb n).2⟩
  have hlim := tendsto_atTop_ciSup hm hbdd
  set L := ⨆ n, s n
  have hL0 : 0 < L := hx0.trans_le (le_ciSup hbdd 0)
  have hLr : L ≤ r := ciSup_le fun n => (hb n).2
  have hgc : Tendsto (fun n => g (s n)) atTop (𝓝 (g L)) := (hg L hL0).continuousAt.tendsto.comp hlim
  have hg'c : Tendsto (fun n => g' (s n)) atTop (𝓝 (g' L)) :=
    ((hc.continuousAt (Ioi_mem_nhds hL0)).tendsto).comp hlim
  have hstep : Tendsto (fun n => s n + -g (s n) / g' (s n)) atTop (𝓝 (L + -g L / g' L)) :=
    hlim.add (hgc.neg.div hg'c (hpos L hL0).ne')
  have hshift : Tendsto (fun n => s n + -g (s n) / g' (s n)) atTop (𝓝 L) := by
    have := hlim.comp (tendsto_add_atTop_nat 1)
    exact this.congr fun n => hs n
  have heq := tendsto_nhds_unique hstep hshift
  have h0 : -g L / g' L = 0 := by linarith
  have hgL : g L = 0 := by
    rcases div_eq_zero_iff.1 h0 with h | h
    · linarith
    · exact absurd h (hpos L hL0).ne'
  rw [← hinj L hL0 hLr hgL]
  refine ⟨s, rfl, hs, fun n => (hb n).1, hmono, fun n => ?_, hlim⟩
  rw [hinj L hL0 hLr hgL]
  exact (hb n).2

/-- the generated iteration follows the sequence as long as the law can be evaluated -/
theorem newton_eq {L : WallLaw} {x0 : ℝ} {s : ℕ → ℝ} {g g' : ℝ → ℝ} (h0 : s 0 = x0)
    (hs : ∀ n, s (n + 1) = s n + -g (s n) / g' (s n)) (hd : ∀ n, L.defined (s n)) (hp : ∀ n, g' (s n) ≠ 0)
    (hder : ∀ n, deriv L.value (s n) = g' (s n)) (hv : ∀ n, L.value (s n) = g (s n)) (n : ℕ) :
    newton L x0 n = some (s n) := by
  induction n with
  | zero => simp [newton, h0]
  | succ n ih =>
    rw [newton, ih, Option.bind_some, newtonStep, if_pos ⟨hd n, by rw [hder]; exact hp n⟩, hs, hder, hv]

/-- C57. For every wall law, Newton's iteration stops moving exactly at the solutions of the law. -/
theorem C57_newton_fixed_point (L : WallLaw) (x : ℝ) (hd : L.defined x) (h' : deriv L.value x ≠ 0) :
    newtonStep L x = some x ↔ L.value x = 0 := by
  rw [newtonStep, if_pos ⟨hd, h'⟩]
  constructor
  · intro h
    have h := Option.some.inj h
    have : -L.value x / deriv L.value x = 0 := by linarith
    rcases div_eq_zero_iff.1 this with h | h
    · linarith
    · exact absurd h h'
  · intro h; simp [h]

/-! ### Log law -/

section
variable {nu kappa b u y : ℝ}

theorem logLaw_deriv (hn : 0 < nu) (hy : 0 < y) {x : ℝ} (hx : 0 < x) :
    HasDerivAt (logLaw nu kappa b u y).value (1 / kappa * (1 / x) + u / x ^ 2) x := by
  have h1 : HasDerivAt (fun x => y * x / nu) (y / nu) x := by
    simpa using ((hasDerivAt_id x).const_mul y).div_const nu
  have h2 := h1.log (by positivity)
  have h3 : HasDerivAt (fun x => u / x) (-u / x ^ 2) x := by
    refine ((hasDerivAt_const x u).div (hasDerivAt_id x) hx.ne').congr_deriv ?_
    simp
  have h4 := ((h2.const_mul (1 / kappa)).add_const b).sub h3
  refine h4.congr_deriv ?_
  field_simp
  ring

theorem logLaw_tangent (hn : 0 < nu) (hk : 0 < kappa) (hu : 0 < u) (hy : 0 < y) {x z : ℝ} (hx : 0 < x) (hz : 0 < z) :
    (logLaw nu kappa b u y).value z ≤
      (logLaw nu kappa b u y).value x + (1 / kappa * (1 / x) + u / x ^ 2) * (z - x) := by
  simp only [logLaw]
  have h1 : Real.log (y * z / nu) = Real.log (y * x / nu) + Real.log (z / x) := by
    rw [← Real.log_mul (by positivity) (by positivity)]
    congr 1; field_simp
  have h2 : Real.log (z / x) ≤ z / x - 1 := Real.log_le_sub_one_of_pos (by positivity)
  have h3 : 1 / kappa * Real.log (z / x) ≤ 1 / kappa * (z / x - 1) :=
    mul_le_mul_of_nonneg_left h2 (by positivity)
  have h4 : u / x ^ 2 * (z - x) - (u / x - u / z) = u * (z - x) ^ 2 / (x ^ 2 * z) := by
    field_simp
  have h5 : 0 ≤ u * (z - x) ^ 2 / (x ^ 2 * z) := by positivity
  have h6 : 1 / kappa * (1 / x) * (z - x) = 1 / kappa * (z / x - 1) := by field_simp
  rw [h1]
  nlinarith

/-- C57. For positive velocity, wall distance, viscosity and von Kármán constant the log law has exactly one positive
solution. -/
theorem C57_log_law_solution (hn : 0 < nu) (hk : 0 < kappa) (hu : 0 < u) (hy : 0 < y) :
    ∃! r, 0 < r ∧ (logLaw nu kappa b u y).value r = 0 := by
  have hcont : ContinuousOn (logLaw nu kappa b u y).value (Set.Ioi 0) := fun x hx =>
    (logLaw_deriv hn hy hx).continuousAt.continuousWithinAt
  set lo := nu / y * Real.exp (-(kappa * b)) with hlo
  have hlo0 : 0 < lo := by positivity
  have hflo : (logLaw nu kappa b u y).value lo ≤ 0 := by
    simp only [logLaw]
    have : y * lo / nu = Real.exp (-(kappa * b)) := by rw [hlo]; field_simp
    rw [this, Real.log_exp]
    have h1 : 1 / kappa * -(kappa * b) = -b := by field_simp
    have h2 : 0 < u / lo := by positivity
    rw [h1]; linarith
  set hi := max lo (max u (nu / y * Real.exp (kappa * (1 - b)))) with hhi
  have hlohi : lo ≤ hi := le_max_left _ _
  have hhi0 : 0 < hi := hlo0.trans_le hlohi
  have hfhi : 0 ≤ (logLaw nu kappa b u y).value hi := by
    simp only [logLaw]
    have h1 : u / hi ≤ 1 := by
      rw [div_le_one hhi0]; exact (le_max_left _ _).trans (le_max_right _ _)
    have h2 : Real.exp (kappa * (1 - b)) ≤ y * hi / nu := by
      have : nu / y * Real.exp (kappa * (1 - b)) ≤ hi := (le_max_right _ _).trans (le_max_right _ _)
      calc Real.exp (kappa * (1 - b)) = y * (nu / y * Real.exp (kappa * (1 - b))) / nu := by field_simp
        _ ≤ y * hi / nu := by gcongr
    have h3 : kappa * (1 - b) ≤ Real.log (y * hi / nu) := by
      rw [Real.le_log_iff_exp_le (by positivity)]; exact h2
    have h4 : 1 - b ≤ 1 / kappa * Real.log (y * hi / nu) := by
      rw [one_div, ← div_eq_inv_mul, le_div_iff₀ hk]; linarith
    linarith
  obtain ⟨r, ⟨hr1, hr2⟩, hr⟩ := intermediate_value_Icc hlohi
    (hcont.mono fun x hx => hlo0.trans_le hx.1) ⟨hflo, hfhi⟩
  have hr0 : 0 < r := hlo0.trans_le hr1
  refine ⟨r, ⟨hr0, hr⟩, ?_⟩
  rintro r' ⟨hr'0, hr'⟩
  have h1 := logLaw_tangent (b := b) hn hk hu hy hr0 hr'0
  have h2 := logLaw_tangent (b := b) hn hk hu hy hr'0 hr0
  rw [hr, hr', zero_add] at h1
  rw [hr, hr', zero_add] at h2
  have p1 : 0 < 1 / kappa * (1 / r) + u / r ^ 2 := by positivity
  have p2 : 0 < 1 / kappa * (1 / r') + u / r' ^ 2 := by positivity
  have a1 : 0 ≤ r' - r := by by_contra h; exact absurd h1 (not_le.2 (mul_neg_of_pos_of_neg p1 (not_le.1 h)))
  have a2 : 0 ≤ r - r' := by by_contra h; exact absurd h2 (not_le.2 (mul_neg_of_pos_of_neg p2 (not_le.1 h)))
  linarith

/-- C57. Started at or below the solution `r` of the log law, the generated Newton iteration never fails, moves
monotonically towards `r` without passing it, and converges to it. Hence the stress is at most, and with the number of
steps converges to, `r² ρ`. -/
theorem C57_log_law_newton (hn : 0 < nu) (hk : 0 < kappa) (hu : 0 < u) (hy : 0 < y) {r x0 : ℝ} (hx0 : 0 < x0)
    (hr : (logLaw nu kappa b u y).value r = 0) (hle : x0 ≤ r) :
    ∃ s : ℕ → ℝ, (∀ n, newton (logLaw nu kappa b u y) x0 n = some (s n)) ∧ (∀ n, s n ≤ s (n + 1)) ∧
      (∀ n, 0 < s n ∧ s n ≤ r) ∧ Tendsto s atTop (𝓝 r) := by
  obtain ⟨s, h0, hs, hpos, hmono, hbd, hlim⟩ := newton_left (g := (logLaw nu kappa b u y).value)
    (g' := fun x => 1 / kappa * (1 / x) + u / x ^ 2) hx0 hle (fun x hx => logLaw_deriv hn hy hx)
    (by
      apply ContinuousOn.add
      · exact continuousOn_const.mul (continuousOn_const.div continuousOn_id fun x hx => (ne_of_gt hx))
      · exact continuousOn_const.div (continuousOn_id.pow 2) fun x hx => pow_ne_zero 2 (ne_of_gt hx))
    (fun x hx => by positivity) (fun x z hx hz => logLaw_tangent hn hk hu hy hx hz) hr
  refine ⟨s, newton_eq (g := (logLaw nu kappa b u y).value) (g' := fun x => 1 / kappa * (1 / x) + u / x ^ 2) h0 hs
    (fun n => ?_) (fun n => ?_) (fun n => (logLaw_deriv hn hy (hpos n)).deriv) (fun n => rfl),
    hmono, fun n => ⟨hpos n, hbd n⟩, hlim⟩
  · have := hpos n
    exact ⟨⟨this.ne', hn.ne'⟩, hk.ne', by positivity⟩
  · have := hpos n
    exact ne_of_gt (by positivity)

/-- C57. Without a target the iteration starts at `u/100`. This is below the solution of the log law exactly when the
law has a value of at most zero there, i.e. when `u⁺ = 100` is above the logarithmic profile. -/
theorem C57_log_law_default_start (hn : 0 < nu) (hk : 0 < kappa) (hu : 0 < u) (hy : 0 < y) {r : ℝ} (hr0 : 0 < r)
    (hr : (logLaw nu kappa b u y).value r = 0) :
    uTauInit none u ≤ r ↔ 1 / kappa * Real.log (y * (u / 100) / nu) + b ≤ 100 := by
  have hu0 : (0 : ℝ) < u / 100 := by positivity
  have hv : (logLaw nu kappa b u y).value (u / 100) = 1 / kappa * Real.log (y * (u / 100) / nu) + b - 100 := by
    simp only [logLaw]
    congr 1
    field_simp
  have p1 : 0 < 1 / kappa * (1 / r) + u / r ^ 2 := by positivity
  have p2 : 0 < 1 / kappa * (1 / (u / 100)) + u / (u / 100) ^ 2 := by positivity
  have h1 := logLaw_tangent (b := b) hn hk hu hy hr0 hu0
  have h2 := logLaw_tangent (b := b) hn hk hu hy hu0 hr0
  rw [hr, zero_add, hv] at h1
  rw [hr, hv] at h2
  show u / 100 ≤ r ↔ _
  constructor
  · intro h
    have := mul_nonpos_of_nonneg_of_nonpos p1.le (by linarith : u / 100 - r ≤ 0)
    linarith
  · intro h
    by_contra hlt
    have := mul_neg_of_pos_of_neg p2 (by linarith [not_le.1 hlt] : r - u / 100 < 0)
    linarith

/-- typical values: `u = 0.05`, `ν = 0.001`, wall distance `0.5`, `κ = 0.41`, `b = 5.2` -/
example : 1 / 0.41 * Real.log (0.5 * (0.05 / 100) / 0.001) + 5.2 ≤ (100 : ℝ) := by
  have : Real.log (0.5 * (0.05 / 100) / 0.001) ≤ (0 : ℝ) := Real.log_nonpos (by norm_num) (by norm_num)
  have h2 : (1 / 0.41 : ℝ) * Real.log (0.5 * (0.05 / 100) / 0.001) ≤ 0 :=
    mul_nonpos_of_nonneg_of_nonpos (by norm_num) this
  linarith

/-- C57, disagreement: the documentation recommends a target friction velocity "to ensure convergence". A target above
the solution can make the iteration fail after one step: the new value is negative and the logarithm undefined. -/
theorem C57_log_law_target_fails :
    ∃ nu kappa b u y t : ℝ, 0 < nu ∧ 0 < kappa ∧ 0 < u ∧ 0 < y ∧ 0 < t ∧
      ∀ n, implicitStress (logLaw nu kappa b u y) (n + 2) (some t) 1 u = none := by
  refine ⟨1, 1, 0, 1, 1, Real.exp 2, one_pos, one_pos, one_pos, one_pos, Real.exp_pos _, ?_⟩
  set x := Real.exp 2 with hx
  have hx0 : 0 < x := Real.exp_pos _
  have hx2 : 2 < x := by have := Real.add_one_lt_exp (x := 2) (by norm_num); linarith
  have hd := (logLaw_deriv (nu := 1) (kappa := 1) (b := 0) (u := 1) one_pos one_pos hx0).deriv
  have hv : (logLaw 1 1 0 1 1).value x = 2 - 1 / x := by simp [logLaw, hx, Real.log_exp]
  have hpos : (0 : ℝ) < 1 / 1 * (1 / x) + 1 / x ^ 2 := by positivity
  have h1 : newton (logLaw 1 1 0 1 1) x 1 = some (x + -(2 - 1 / x) / (1 / 1 * (1 / x) + 1 / x ^ 2)) := by
    rw [newton, newton, Option.bind_some, newtonStep, if_pos, hd, hv]
    exact ⟨⟨⟨hx0.ne', one_ne_zero⟩, one_ne_zero, by positivity⟩, by rw [hd]; exact hpos.ne'⟩
  have hneg : x + -(2 - 1 / x) / (1 / 1 * (1 / x) + 1 / x ^ 2) < 0 := by
    rw [neg_div, ← sub_eq_add_neg, sub_neg, lt_div_iff₀ hpos]
    have : x * (1 / 1 * (1 / x) + 1 / x ^ 2) = 1 + 1 / x := by field_simp
    rw [this]
    have : 1 / x < 1 / 2 := one_div_lt_one_div_of_lt (by norm_num) hx2
    linarith
  have h2 : newton (logLaw 1 1 0 1 1) x 2 = none := by
    rw [newton, h1, Option.bind_some, newtonStep, if_neg]
    rintro ⟨⟨-, -, h⟩, -⟩
    simp only [one_mul, div_one] at h
    simp only [div_one, one_mul] at hneg
    linarith
  intro n
  have : newton (logLaw 1 1 0 1 1) x (n + 2) = none := by
    induction n with
    | zero => exact h2
    | succ n ih => rw [newton, ih]; rfl
  simp [implicitStress, uTauInit, hx0.ne', this]

/-! ### Spalding's law -/

/-- the part of Spalding's law that depends on `u⁺`, and its derivative -/
noncomputable def spaldingH (kappa b t : ℝ) : ℝ :=
  t + Real.exp (-kappa * b) * (Real.exp (kappa * t) - 1 - kappa * t - (kappa * t) ^ 2 / 2 - (kappa * t) ^ 3 / 6)
noncomputable def spaldingH' (kappa b t : ℝ) : ℝ :=
  1 + Real.exp (-kappa * b) * (kappa * (Real.exp (kappa * t) - 1 - kappa * t - (kappa * t) ^ 2 / 2))

theorem exp_taylor (p : ℝ) (hp : 0 ≤ p) : 0 ≤ Real.exp p - 1 - p ∧ 0 ≤ Real.exp p - 1 - p - p ^ 2 / 2 ∧
    0 ≤ Real.exp p - 1 - p - p ^ 2 / 2 - p ^ 3 / 6 := by
  have h3 := Real.sum_le_exp_of_nonneg hp 4
  have h2 := Real.sum_le_exp_of_nonneg hp 3
  have h1 := Real.sum_le_exp_of_nonneg hp 2
  simp [Finset.sum_range_succ, Nat.factorial] at h1 h2 h3
  refine ⟨by linarith, by linarith, by linarith⟩

theorem spaldingH_deriv (kappa b t : ℝ) : HasDerivAt (spaldingH kappa b) (spaldingH' kappa b t) t := by
  have hk : HasDerivAt (fun t : ℝ => kappa * t) kappa t := by simpa using (hasDerivAt_id t).const_mul kappa
  have h := (hasDerivAt_id t).add (((((hk.exp.sub_const 1).sub hk).sub ((hk.pow 2).div_const 2)).sub
    ((hk.pow 3).div_const 6)).const_mul (Real.exp (-kappa * b)))
  refine h.congr_deriv ?_
  simp only [spaldingH']
  push_cast
  ring

theorem spaldingH'_deriv (kappa b t : ℝ) : HasDerivAt (spaldingH' kappa b)
    (Real.exp (-kappa * b) * (kappa * (kappa * (Real.exp (kappa * t) - 1 - kappa * t)))) t := by
  have hk : HasDerivAt (fun t : ℝ => kappa * t) kappa t := by simpa using (hasDerivAt_id t).const_mul kappa
  have h := ((((((hk.exp.sub_const 1).sub hk).sub ((hk.pow 2).div_const 2)).const_mul kappa)).const_mul
    (Real.exp (-kappa * b))).const_add 1
  refine h.congr_deriv ?_
  push_cast
  ring

variable (b) in
theorem spaldingH'_pos (hk : 0 < kappa) {t : ℝ} (ht : 0 ≤ t) : 0 < spaldingH' kappa b t := by
  have := (exp_taylor (kappa * t) (by positivity)).2.1
  unfold spaldingH'
  have := Real.exp_pos (-kappa * b)
  positivity

variable (b) in
theorem spaldingH_tangent (hk : 0 < kappa) {t s : ℝ} (ht : 0 ≤ t) (hs : 0 ≤ s) :
    spaldingH kappa b t + spaldingH' kappa b t * (s - t) ≤ spaldingH kappa b s := by
  have hmono : MonotoneOn (spaldingH' kappa b) (Set.Ici 0) := by
    apply monotoneOn_of_deriv_nonneg (convex_Ici 0)
    · exact fun x _ => (spaldingH'_deriv kappa b x).continuousAt.continuousWithinAt
    · exact fun x _ => (spaldingH'_deriv kappa b x).differentiableAt.differentiableWithinAt
    · intro x hx
      rw [interior_Ici] at hx
      rw [(spaldingH'_deriv kappa b x).deriv]
      have := (exp_taylor (kappa * x) (mul_nonneg hk.le (le_of_lt hx))).1
      have := Real.exp_pos (-kappa * b)
      positivity
  have hconv : ConvexOn ℝ (Set.Ici 0) (spaldingH kappa b) := by
    refine MonotoneOn.convexOn_of_deriv (convex_Ici 0)
      (fun x _ => (spaldingH_deriv kappa b x).continuousAt.continuousWithinAt)
      (fun x _ => (spaldingH_deriv kappa b x).differentiableAt.differentiableWithinAt) ?_
    rw [interior_Ici]
    intro x hx y hy hxy
    rw [(spaldingH_deriv kappa b x).deriv, (spaldingH_deriv kappa b y).deriv]
    exact hmono (Set.Ioi_subset_Ici_self hx) (Set.Ioi_subset_Ici_self hy) hxy
  rcases lt_trichotomy t s with h | h | h
  · have := hconv.le_slope_of_hasDerivAt (x := t) (y := s) ht hs h (spaldingH_deriv kappa b t)
    rw [slope_def_field, le_div_iff₀ (by linarith)] at this
    linarith
  · subst h; simp
  · have := hconv.slope_le_of_hasDerivAt (x := s) (y := t) hs ht h (spaldingH_deriv kappa b t)
    rw [slope_def_field, div_le_iff₀ (by linarith)] at this
    linarith

theorem spalding_value (x : ℝ) : (spalding nu kappa b u y).value x = spaldingH kappa b (u / x) - y * x / nu := rfl

theorem spalding_deriv {x : ℝ} (hx : 0 < x) :
    HasDerivAt (spalding nu kappa b u y).value (spaldingH' kappa b (u / x) * (-u / x ^ 2) - y / nu) x := by
  have h3 : HasDerivAt (fun x => u / x) (-u / x ^ 2) x := by
    refine ((hasDerivAt_const x u).div (hasDerivAt_id x) hx.ne').congr_deriv ?_
    simp
  have h1 : HasDerivAt (fun x => y * x / nu) (y / nu) x := by
    simpa using ((hasDerivAt_id x).const_mul y).div_const nu
  exact ((spaldingH_deriv kappa b (u / x)).comp x h3).sub h1

theorem spalding_deriv_neg (hn : 0 < nu) (hk : 0 < kappa) (hu : 0 < u) (hy : 0 < y) {x : ℝ} (hx : 0 < x) :
    spaldingH' kappa b (u / x) * (-u / x ^ 2) - y / nu < 0 := by
  have h1 := spaldingH'_pos b hk (t := u / x) (by positivity)
  have h2 : 0 < u / x ^ 2 := by positivity
  have h3 : 0 < y / nu := by positivity
  have h4 := mul_pos h1 h2
  rw [neg_div, mul_neg]
  linarith

theorem spalding_tangent (hk : 0 < kappa) (hu : 0 < u) {x z : ℝ} (hx : 0 < x) (hz : 0 < z) :
    (spalding nu kappa b u y).value x + (spaldingH' kappa b (u / x) * (-u / x ^ 2) - y / nu) * (z - x) ≤
      (spalding nu kappa b u y).value z := by
  rw [spalding_value, spalding_value]
  have h1 := spaldingH_tangent b hk (t := u / x) (s := u / z) (by positivity) (by positivity)
  have h4 : u / x ^ 2 * (z - x) - (u / x - u / z) = u * (z - x) ^ 2 / (x ^ 2 * z) := by
    field_simp
  have h5 : 0 ≤ u * (z - x) ^ 2 / (x ^ 2 * z) := by positivity
  have h6 : -u / x ^ 2 * (z - x) ≤ u / z - u / x := by rw [neg_div, neg_mul]; linarith
  have h7 := mul_le_mul_of_nonneg_left h6 (spaldingH'_pos b hk (t := u / x) (by positivity)).le
  have h8 : y / nu * (z - x) = y * z / nu - y * x / nu := by ring
  have h9 : (spaldingH' kappa b (u / x) * (-u / x ^ 2) - y / nu) * (z - x) =
      spaldingH' kappa b (u / x) * (-u / x ^ 2 * (z - x)) - y / nu * (z - x) := by ring
  rw [h9, h8]
  linarith

/-- C57. For positive velocity, wall distance, viscosity and von Kármán constant Spalding's law has exactly one positive
solution. -/
theorem C57_spalding_solution (hn : 0 < nu) (hk : 0 < kappa) (hu : 0 < u) (hy : 0 < y) :
    ∃! r, 0 < r ∧ (spalding nu kappa b u y).value r = 0 := by
  have hcont : ContinuousOn (spalding nu kappa b u y).value (Set.Ioi 0) := fun x hx =>
    (spalding_deriv hx).continuousAt.continuousWithinAt
  set lo := Real.sqrt (u * nu / y) with hlo
  have hlo0 : 0 < lo := Real.sqrt_pos.2 (by positivity)
  have hflo : 0 ≤ (spalding nu kappa b u y).value lo := by
    rw [spalding_value, spaldingH]
    have h1 := (exp_taylor (kappa * (u / lo)) (by positivity)).2.2
    have h2 := Real.exp_pos (-kappa * b)
    have h3 : y * lo / nu = u / lo := by
      have : lo ^ 2 = u * nu / y := Real.sq_sqrt (by positivity)
      rw [div_eq_div_iff hn.ne' hlo0.ne', mul_assoc, ← pow_two, this]
      field_simp
    rw [h3]
    have := mul_nonneg h2.le h1
    linarith
  have hmono : ∀ t, 0 ≤ t → t ≤ 1 → spaldingH kappa b t ≤ spaldingH kappa b 1 := by
    intro t ht ht1
    have h1 := spaldingH_tangent b hk (t := t) (s := 1) ht zero_le_one
    have := mul_nonneg (spaldingH'_pos b hk ht).le (by linarith : 0 ≤ 1 - t)
    linarith
  set hi := max lo (max u (nu / y * spaldingH kappa b 1)) with hhi
  have hlohi : lo ≤ hi := le_max_left _ _
  have hhi0 : 0 < hi := hlo0.trans_le hlohi
  have hfhi : (spalding nu kappa b u y).value hi ≤ 0 := by
    rw [spalding_value]
    have h1 : u / hi ≤ 1 := by
      rw [div_le_one hhi0]; exact (le_max_left _ _).trans (le_max_right _ _)
    have h2 := hmono (u / hi) (by positivity) h1
    have h3 : spaldingH kappa b 1 ≤ y * hi / nu := by
      have : nu / y * spaldingH kappa b 1 ≤ hi := (le_max_right _ _).trans (le_max_right _ _)
      calc spaldingH kappa b 1 = y * (nu / y * spaldingH kappa b 1) / nu := by field_simp
        _ ≤ y * hi / nu := by gcongr
    linarith
  obtain ⟨r, ⟨hr1, hr2⟩, hr⟩ := intermediate_value_Icc' hlohi
    (hcont.mono fun x hx => hlo0.trans_le hx.1) ⟨hfhi, hflo⟩
  have hr0 : 0 < r := hlo0.trans_le hr1
  refine ⟨r, ⟨hr0, hr⟩, ?_⟩
  rintro r' ⟨hr'0, hr'⟩
  have h1 := spalding_tangent (nu := nu) (b := b) (y := y) hk hu hr0 hr'0
  have h2 := spalding_tangent (nu := nu) (b := b) (y := y) hk hu hr'0 hr0
  rw [hr, hr', zero_add] at h1
  rw [hr, hr', zero_add] at h2
  have p1 := spalding_deriv_neg (b := b) hn hk hu hy hr0
  have p2 := spalding_deriv_neg (b := b) hn hk hu hy hr'0
  have a1 : 0 ≤ r' - r := by by_contra h; exact absurd h1 (not_le.2 (mul_pos_of_neg_of_neg p1 (not_le.1 h)))
  have a2 : 0 ≤ r - r' := by by_contra h; exact absurd h2 (not_le.2 (mul_pos_of_neg_of_neg p2 (not_le.1 h)))
  linarith

/-- C57. The same for Spalding's law: from any start at or below the solution the iteration increases towards it and
converges. -/
theorem C57_spalding_newton (hn : 0 < nu) (hk : 0 < kappa) (hu : 0 < u) (hy : 0 < y) {r x0 : ℝ} (hx0 : 0 < x0)
    (hr : (spalding nu kappa b u y).value r = 0) (hle : x0 ≤ r) :
    ∃ s : ℕ → ℝ, (∀ n, newton (spalding nu kappa b u y) x0 n = some (s n)) ∧ (∀ n, s n ≤ s (n + 1)) ∧
      (∀ n, 0 < s n ∧ s n ≤ r) ∧ Tendsto s atTop (𝓝 r) := by
  obtain ⟨s, h0, hs, hpos, hmono, hbd, hlim⟩ := newton_left (g := fun x => -(spalding nu kappa b u y).value x)
    (g' := fun x => -(spaldingH' kappa b (u / x) * (-u / x ^ 2) - y / nu)) hx0 hle (fun x hx => (spalding_deriv hx).neg)
    (by
      refine ContinuousOn.neg (ContinuousOn.sub (ContinuousOn.mul ?_ ?_) continuousOn_const)
      · refine ContinuousOn.comp (g := spaldingH' kappa b) (f := fun x => u / x) (t := Set.univ) (fun x _ => (spaldingH'_deriv kappa b x).continuousAt.continuousWithinAt)
          ?_ (fun _ _ => Set.mem_univ _)
        exact continuousOn_const.div continuousOn_id fun x hx => (ne_of_gt hx)
      · exact continuousOn_const.div (continuousOn_id.pow 2) fun x hx => pow_ne_zero 2 (ne_of_gt hx))
    (fun x hx => neg_pos.2 (spalding_deriv_neg hn hk hu hy hx))
    (fun x z hx hz => by
      have := spalding_tangent (nu := nu) (b := b) (y := y) hk hu hx hz
      rw [neg_mul]; linarith) (by simp [hr])
  refine ⟨s, newton_eq (g := (spalding nu kappa b u y).value)
    (g' := fun x => spaldingH' kappa b (u / x) * (-u / x ^ 2) - y / nu) h0 (fun n => ?_)
    (fun n => ?_) (fun n => ?_) (fun n => (spalding_deriv (hpos n)).deriv) (fun n => rfl),
    hmono, fun n => ⟨hpos n, hbd n⟩, hlim⟩
  · rw [hs, neg_div_neg_eq]
  · exact ⟨(hpos n).ne', hn.ne'⟩
  · exact (spalding_deriv_neg hn hk hu hy (hpos n)).ne

end

/-- C57. Musker's law, a fixed function of the wall distance in wall units, has the slope 1 of the viscous sublayer at the
wall, up to the rounding of its constants. -/
theorem C57_musker_sublayer :
    (∀ nu u y x, (musker nu u y).value x = (musker 1 0 1).value (y * x / nu) - u / x) ∧
    ∃ d, HasDerivAt (musker 1 0 1).value d 0 ∧ |d - 1| < 1 / 1000 := by
  constructor
  · intro nu u y x
    simp only [musker, one_mul, div_one, zero_div, sub_zero]
  · have h1 : HasDerivAt (fun t : ℝ => 5.424 * Real.arctan (0.119760479041916168 * t - 0.488023952095808383))
        (5.424 * ((1 / (1 + (0.119760479041916168 * 0 - 0.488023952095808383) ^ 2)) * (0.119760479041916168 * 1))) 0 :=
      ((((hasDerivAt_id (0 : ℝ)).const_mul 0.119760479041916168).sub_const 0.488023952095808383).arctan).const_mul 5.424
    have hb : ∀ t : ℝ, 0 < t ^ 2 - 8.15 * t + 86 := fun t => by nlinarith [sq_nonneg (t - 8.15 / 2)]
    have h2 : HasDerivAt (fun t : ℝ => 9.6 * Real.log (t + 10.6) - 2 * Real.log (t ^ 2 - 8.15 * t + 86))
        (9.6 * (1 / (0 + 10.6)) - 2 * ((2 * 0 - 8.15) / (0 ^ 2 - 8.15 * 0 + 86))) 0 := by
      refine ((((hasDerivAt_id (0 : ℝ)).add_const 10.6).log (by norm_num)).const_mul 9.6).sub
        (((((hasDerivAt_id (0 : ℝ)).pow 2).sub ((hasDerivAt_id (0 : ℝ)).const_mul 8.15)).add_const 86 |>.log
          (by norm_num)).const_mul 2) |>.congr_deriv ?_
      norm_num
    have h3 : (fun t : ℝ => Real.log ((t + 10.6) ^ (9.6 : ℝ) / (t ^ 2 - 8.15 * t + 86) ^ 2)) =ᶠ[𝓝 0]
        fun t => 9.6 * Real.log (t + 10.6) - 2 * Real.log (t ^ 2 - 8.15 * t + 86) := by
      filter_upwards [Ioi_mem_nhds (show (-1 : ℝ) < 0 by norm_num)] with t ht
      have ht : -1 < t := ht
      have hp : 0 < t + 10.6 := by linarith
      rw [Real.log_div (Real.rpow_pos_of_pos hp _).ne' (pow_pos (hb t) 2).ne', Real.log_rpow hp, Real.log_pow]
      norm_num
    have h4 := (h1.add ((h2.congr_of_eventuallyEq h3).const_mul 0.434)).sub_const 3.50727901936264842
    refine ⟨_, h4.congr_of_eventuallyEq (Filter.Eventually.of_forall fun t => ?_), ?_⟩
    · simp only [musker, one_mul, div_one, zero_div, sub_zero, Pi.add_apply]
    · norm_num [abs_lt]

/-- C57. The stress computed after `n` steps is the square of the friction velocity times the density. A target of 0 is
treated as no target. -/
theorem C57_stress (L : WallLaw) (n : ℕ) (target : Option ℝ) (rho u x : ℝ)
    (h : newton L (uTauInit target u) n = some x) :
    implicitStress L n target rho u = some (x ^ 2 * rho) ∧
      (target = some 0 → implicitStress L n target rho u = implicitStress L n none rho u) ∧
      (∀ t, target = some t → t ≠ 0 → uTauInit target u = t) := by
  refine ⟨by simp [implicitStress, h], ?_, ?_⟩
  · rintro rfl; simp [implicitStress, uTauInit]
  · rintro t rfl ht; simp [uTauInit, ht]

/-- C57, disagreement: for a fluid at rest (no tangential velocity, no target) none of the implicit laws gives a
number. -/
theorem C57_rest_undefined (nu kappa b y rho : ℝ) (n : ℕ) (target : Option ℝ) (ht : target = none ∨ target = some 0) :
    implicitStress (logLaw nu kappa b 0 y) (n + 1) target rho 0 = none ∧
    implicitStress (spalding nu kappa b 0 y) (n + 1) target rho 0 = none ∧
    implicitStress (musker nu 0 y) (n + 1) target rho 0 = none := by
  have hi : uTauInit target 0 = 0 := by rcases ht with rfl | rfl <;> simp [uTauInit]
  have key : ∀ L : WallLaw, ¬ L.defined 0 → implicitStress L (n + 1) target rho 0 = none := by
    intro L hL
    have : ∀ n, newton L 0 (n + 1) = none := by
      intro n
      induction n with
      | zero => rw [newton, newton, Option.bind_some, newtonStep, if_neg fun h => hL h.1]
      | succ n ih => rw [newton, ih]; rfl
    simp [implicitStress, hi, this]
  refine ⟨key _ fun h => h.1.1 rfl, key _ fun h => h.1 rfl, key _ fun h => h.1.1 rfl⟩

/-- C57. The explicit Monin–Obukhov stress: its friction velocity solves `u = (u_τ/κ) ln(y/z₀ + φ)`. It is a number
exactly when the roughness length is not zero, and the argument of the logarithm is positive and not one. -/
theorem C57_most (z0 kappa phi rho u y : ℝ) (hk : kappa ≠ 0) :
    ((∃ τ, most z0 kappa phi rho u y = some τ) ↔ z0 ≠ 0 ∧ 0 < y / z0 + phi ∧ y / z0 + phi ≠ 1) ∧
    ∀ τ, most z0 kappa phi rho u y = some τ →
      ∃ uτ, u = uτ / kappa * Real.log (y / z0 + phi) ∧ τ = rho * uτ ^ 2 := by
  by_cases hz : z0 = 0
  · subst hz; simp [most, realDiv_zero]
  by_cases hp : 0 < y / z0 + phi
  swap
  · simp [most, realDiv_ne hz, pyLog, hp]
  by_cases h1 : y / z0 + phi = 1
  · simp [most, realDiv_ne hz, pyLog, h1, realDiv_zero]
  have hl : Real.log (y / z0 + phi) ≠ 0 := Real.log_ne_zero_of_pos_of_ne_one hp h1
  have he : most z0 kappa phi rho u y = some ((u * kappa / Real.log (y / z0 + phi)) ^ 2 * rho) := by
    simp [most, realDiv_ne hz, pyLog, hp, realDiv_ne hl]
  refine ⟨⟨fun _ => ⟨hz, hp, h1⟩, fun _ => ⟨_, he⟩⟩, ?_⟩
  intro τ hτ
  rw [he] at hτ
  refine ⟨u * kappa / Real.log (y / z0 + phi), ?_, ?_⟩
  · generalize Real.log (y / z0 + phi) = l at hl
    field_simp
  rw [← Option.some.inj hτ]; ring

/-- `z₀ = 0.01`, wall distance `0.5` -/
example : (0.01 : ℝ) ≠ 0 ∧ (0 : ℝ) < 0.5 / 0.01 + 0 ∧ (0.5 : ℝ) / 0.01 + 0 ≠ 1 := by norm_num

/-! ### The boundary -/

/-- C57. Arguments accepted by `WallFunctionBounce`. -/
theorem C57_init (Q : ℕ) (mean : Bool) (shift : ℤ) (maronga : Option ℤ) (n : Vec 3) (a : Fin 3) :
    wfbInit Q mean shift maronga n = .ok a ↔
      (Q = 19 ∨ Q = 27) ∧ 1 ≤ shift ∧
      (maronga = none ∨ maronga = some 0 ∨ ∃ m, maronga = some m ∧ 1 ≤ m ∧ mean = true ∧ shift = 1) ∧
      (n a = 1 ∨ n a = -1) ∧ ∀ i, i ≠ a → n i = 0 := by
  have hax : wfbAxis n = .ok a ↔ (n a = 1 ∨ n a = -1) ∧ ∀ i, i ≠ a → n i = 0 := by
    rw [← C10_accepted_normals, freeSlipAxis, wfbAxis]
    generalize (List.finRange 3).filter (fun i => n i ≠ 0) = l
    rcases l with _ | ⟨c, _ | ⟨d, l⟩⟩
    · simp
    · simp only []; split <;> simp
    · simp
  have hm : (maronga = none ∨ maronga = some 0 ∨ ∃ m, maronga = some m ∧ 1 ≤ m ∧ mean = true ∧ shift = 1) ↔
      (maronga.getD 0 = 0 ∨ (1 ≤ maronga.getD 0 ∧ mean = true ∧ shift = 1)) := by
    cases maronga <;> simp
  rw [hm, ← hax, wfbInit]
  generalize maronga.getD 0 = m
  by_cases hQ : Q ≠ 19 ∧ Q ≠ 27
  · rw [if_pos hQ]; constructor
    · intro h; cases h
    · rintro ⟨h, -⟩; omega
  rw [if_neg hQ]
  have hQ' : Q = 19 ∨ Q = 27 := by omega
  by_cases hs : shift < 1
  · rw [if_pos hs]; constructor
    · intro h; cases h
    · rintro ⟨-, h, -⟩; omega
  rw [if_neg hs]
  have hs' : 1 ≤ shift := by omega
  by_cases h0 : m = 0
  · simp [h0, hQ', hs']
  cases mean
  · simp [h0]
  · by_cases h1 : m < 1
    · simp [h0, h1, not_le.2 h1]
    · by_cases h2 : shift = 1
      · simp [h0, h1, h2, hQ', not_lt.1 h1]
      · simp [h0, h1, h2]

example : wfbInit 19 true 1 (some 2) ![0, 0, -1] = .ok 2 ∧ wfbInit 27 false 3 none ![1, 0, 0] = .ok 0 ∧
    wfbInit 15 true 1 none ![0, 1, 0] = .error .valueError ∧ wfbInit 19 true 2 (some 2) ![0, 1, 0] = .error .valueError ∧
    wfbInit 19 false 1 (some 2) ![0, 1, 0] = .error .assertion ∧ wfbInit 19 false 1 none ![0, 2, 0] = .error .assertion := by
  decide +kernel

/-- C57. The wall stress opposes the tangential velocity and has magnitude `τ_w` (times the Maronga factor). -/
theorem C57_wall_stress (a : Fin 3) (u : Fin 3 → ℝ) (τ fix : ℝ) (hu : ∃ i, i ≠ a ∧ u i ≠ 0) :
    ∃ σ : Fin 3 → ℝ, (∀ i, wallStress a u τ fix i = some (σ i)) ∧
      (∑ i ∈ Finset.univ.erase a, σ i ^ 2 = (τ * fix) ^ 2) ∧
      ∃ k : ℝ, 0 < k ∧ ∀ i, σ i = -(k * (τ * fix) * u i) := by
  have hpos : 0 < ∑ i ∈ Finset.univ.erase a, u i ^ 2 := by
    obtain ⟨i, hi, hui⟩ := hu
    exact Finset.sum_pos' (fun i _ => sq_nonneg _) ⟨i, by simp [hi], by positivity⟩
  have hs : 0 < tangentialSpeed a u := Real.sqrt_pos.2 hpos
  have hsq : tangentialSpeed a u ^ 2 = ∑ i ∈ Finset.univ.erase a, u i ^ 2 := Real.sq_sqrt hpos.le
  refine ⟨fun i => -u i / tangentialSpeed a u * τ * fix, fun i => by simp [wallStress, realDiv_ne hs.ne'], ?_,
    1 / tangentialSpeed a u, by positivity, fun i => by ring⟩
  have : ∀ i, (-u i / tangentialSpeed a u * τ * fix) ^ 2 = (τ * fix) ^ 2 / tangentialSpeed a u ^ 2 * u i ^ 2 := by
    intro i; field_simp
  simp only [this]
  rw [← Finset.mul_sum, ← hsq]
  field_simp

example : ∃ i : Fin 3, i ≠ 1 ∧ (![0.05, 0.3, 0] : Fin 3 → ℝ) i ≠ 0 := ⟨0, by decide, by norm_num⟩

/-- C57, disagreement: without tangential velocity the wall stress is not a number, and neither is the Maronga factor
when the mean velocity of the first cell has no tangential component. -/
theorem C57_wall_stress_undefined (a : Fin 3) (u : Fin 3 → ℝ) (τ fix : ℝ) (hu : ∀ i, i ≠ a → u i = 0) (i : Fin 3) :
    wallStress a u τ fix i = none ∧ ∀ inst, marongaFix a inst u = none := by
  have : tangentialSpeed a u = 0 := by
    unfold tangentialSpeed
    rw [Finset.sum_eq_zero, Real.sqrt_zero]
    intro i hi
    simp [hu i (Finset.ne_of_mem_erase hi)]
  exact ⟨by simp [wallStress, this, realDiv_zero], fun inst => by simp [marongaFix, this, realDiv_zero]⟩

/-- C57. The weights of the D3Q27 extension solve the linear systems of the code. -/
theorem C57_weights :
    (∀ m, 2 * (wfbAB m).1 + 4 * (wfbAB m).2 = 1) ∧ (wfbAB .lattice).1 = 4 * (wfbAB .lattice).2 ∧
    (wfbAB .geometric).1 = Real.sqrt 2 * (wfbAB .geometric).2 := by
  have h : (0 : ℝ) < 2 * Real.sqrt 2 + 4 := by positivity
  refine ⟨?_, by norm_num [wfbAB], by simp only [wfbAB]; ring⟩
  rintro (_ | _)
  · norm_num [wfbAB]
  · simp only [wfbAB]; field_simp

/-- all vectors with entries -1, 0, 1 -/
def gridVectors : List (Vec 3) :=
  [-1, 0, 1].flatMap fun x => [-1, 0, 1].flatMap fun y => [-1, 0, 1].map fun z => ![x, y, z]

/-- A stencil with the velocities of D3Q27, or of D3Q19 (at most two non-zero entries), in any order. -/
def WfbStencil (S : Stencil 3) : Prop :=
  (List.ofFn S.c).Perm gridVectors ∨
  (List.ofFn S.c).Perm (gridVectors.filter fun v => v 0 ^ 2 + v 1 ^ 2 + v 2 ^ 2 ≤ 2)

/-- a predefined stencil as a stencil of the model -/
def tableStencil (st : List (List ℤ)) : Stencil 3 := ⟨st.length, fun q a => (st.get q).getD a 0⟩

/-- every predefined D3Q19 and D3Q27 stencil is of this kind -/
theorem C57_stencils : ∀ e ∈ Tables.predefined, (e.1 = "D3Q19" ∨ e.1 = "D3Q27") → WfbStencil (tableStencil e.2.2) := by
  have : ∀ e ∈ Tables.predefined, (e.1 = "D3Q19" ∨ e.1 = "D3Q27") →
    ((List.ofFn (tableStencil e.2.2).c).Perm gridVectors ∨
      (List.ofFn (tableStencil e.2.2).c).Perm (gridVectors.filter fun v => v 0 ^ 2 + v 1 ^ 2 + v 2 ^ 2 ≤ 2)) := by
    decide +kernel
  exact this

theorem sum_over_stencil {S : Stencil 3} {l : List (Vec 3)} (h : (List.ofFn S.c).Perm l) (F : Vec 3 → ℝ) :
    ∑ j, F (S.c j) = (l.map F).sum := by
  rw [← (h.map F).sum_eq, List.map_ofFn, List.sum_ofFn]; rfl

theorem erase_fin3 : (Finset.univ.erase (0 : Fin 3) = {1, 2}) ∧ (Finset.univ.erase (1 : Fin 3) = {0, 2}) ∧
    (Finset.univ.erase (2 : Fin 3) = {0, 1}) := by decide

set_option maxHeartbeats 2000000 in
/-- C57. Momentum exchange. Let the same wall stress act on all links of a cell that cross the wall with normal
`n = ±e_a`. Compared to specular reflection the populations sent back by the boundary carry, in total, the additional
momentum `dt/dy · stress` in the tangential directions, no additional momentum in the normal direction and no additional
mass; for D3Q19 and, with both choices of weights, for D3Q27. -/
theorem C57_momentum_exchange {S : Stencil 3} (hS : WfbStencil S) (m : WeightMethod) (dt dy : ℝ) (stress : Fin 3 → ℝ)
    (a : Fin 3) (n : Vec 3) (hn : n a = 1 ∨ n a = -1) :
    (∑ j, (if S.c j a = -n a then -drag S a m dt dy stress j else 0) = 0) ∧
    ∀ i, ∑ j, (if S.c j a = -n a then (-S.c j i : ℝ) * -drag S a m dt dy stress j else 0) =
      if i = a then 0 else dt / dy * stress i := by
  obtain ⟨e0, e1, e2⟩ := erase_fin3
  have hab : (wfbAB m).1 = (1 - 4 * (wfbAB m).2) / 2 := by linarith [C57_weights.1 m]
  have hQ : S.Q = (List.ofFn S.c).length := by simp
  rcases hS with h | h
  all_goals
    have hQ' := hQ
    rw [h.length_eq] at hQ'
    first
    | rw [show gridVectors.length = 27 by decide +kernel] at hQ'
    | rw [show (gridVectors.filter fun v => v 0 ^ 2 + v 1 ^ 2 + v 2 ^ 2 ≤ 2).length = 19 by decide +kernel] at hQ'
    have hd : ∀ j, drag S a m dt dy stress j = (fun v : Vec 3 => ∑ i ∈ Finset.univ.erase a,
      (v i : ℝ) * (dt / dy * wfbWeight S.Q m (∑ i ∈ Finset.univ.erase a, v i ^ 2)) * stress i) (S.c j) := fun j => rfl
    simp only [hd]
    constructor
    · rw [sum_over_stencil h (fun v => if v a = -n a then -(fun v : Vec 3 => ∑ i ∈ Finset.univ.erase a,
        (v i : ℝ) * (dt / dy * wfbWeight S.Q m (∑ i ∈ Finset.univ.erase a, v i ^ 2)) * stress i) v else 0)]
      rw [hQ']
      rcases hn with hn | hn <;> rw [hn] <;> fin_cases a <;>
        simp [gridVectors, e0, e1, e2, wfbWeight] <;> ring
    · intro i
      rw [sum_over_stencil h (fun v => if v a = -n a then (-v i : ℝ) * -(fun v : Vec 3 => ∑ i ∈ Finset.univ.erase a,
        (v i : ℝ) * (dt / dy * wfbWeight S.Q m (∑ i ∈ Finset.univ.erase a, v i ^ 2)) * stress i) v else 0)]
      rw [hQ']
      rcases hn with hn | hn <;> rw [hn] <;> fin_cases a <;> fin_cases i <;>
        simp [gridVectors, e0, e1, e2, wfbWeight, hab] <;> ring

/-- the hypotheses hold for a wall below a D3Q27 fluid -/
example : WfbStencil (tableStencil Tables.D3Q27_walberla) ∧ ((![0, 0, 1] : Vec 3) 2 = 1 ∨ (![0, 0, 1] : Vec 3) 2 = -1) :=
  ⟨C57_stencils ("D3Q27", "walberla", Tables.D3Q27_walberla) (by decide +kernel) (by decide), Or.inl rfl⟩

section
variable {G : Type} [AddCommGroup G] [DecidableEq G]

/-- C57. The boundary in the time step, for every streaming pattern: for a link `j` that crosses the wall, the cell reads
next, for the reversed direction, the population that left the tangentially displaced cell with the mirrored velocity,
minus the drag. Everything else is unchanged. -/
theorem C57_wfb_step (φ : Vec 3 →+ G) {S : Stencil 3} {p : String} (hs : Supported S p) (hc : S.InvClosed) (t : ℕ)
    {n : Vec 3} {a : Fin 3} (hn : freeSlipAxis n = some a) (hm : S.MirrorClosed a) (m : WeightMethod) (dt dy : ℝ)
    (stress : G → Fin S.Q → Fin 3 → ℝ) (fluid : Set G) (links : List (G × Fin S.Q))
    (hl : ∀ l ∈ links, l.1 ∈ fluid ∧ l.1 + φ (S.c l.2) ∉ fluid) (hwall : ∀ l ∈ links, S.c l.2 a = -n a)
    (htan : ∀ l ∈ links, l.1 + φ (Function.update (S.c l.2) a 0) ∈ fluid) (f : G × Fin S.Q → ℝ) :
    ∃ R f' w r r', wfbRule φ S n m dt dy stress = some R ∧ boundaryHook φ S p R links t f = some f' ∧
      writtenPops φ S p t f = some w ∧ readPops φ S p (t + 1) f = some r ∧ readPops φ S p (t + 1) f' = some r' ∧
      (∀ y j j' k, (y, j) ∈ links → S.c j' = -S.c j → S.c k = mirror a (S.c j') →
        r' y j' = w (y + φ (Function.update (S.c j) a 0)) k - drag S a m dt dy (stress y j) j) ∧
      (∀ x i, (∀ j, S.c i = -S.c j → (x, j) ∉ links) → r' x i = r x i) := by
  obtain ⟨inv, hinv, hcinv⟩ := inv_table hs.2.1 hc
  obtain ⟨mir, hmir, hcmir⟩ := mirror_table hs.2.1 hm
  obtain ⟨hn1, hn2⟩ := C10_accepted_normals.1 hn
  have hoff : ∀ l ∈ links, S.c l.2 + n = Function.update (S.c l.2) a 0 := by
    intro l hl'
    funext i
    by_cases hi : i = a
    · subst hi; simp [hwall l hl']
    · simp [hi, hn2 i hi]
  set R : Rule G S.Q ℝ := fun y j fout _ => fout (y + φ (S.c j + n)) (inv (mir j)) - drag S a m dt dy (stress y j) j
    with hR
  obtain ⟨f', w, r, r', h1, h2, h3, h4, h5, h6⟩ := boundaryHook_sem φ hs hc t R fluid links hl
    (fun l hl' g g' _ _ hg _ => by
      simp only [hR]; rw [hg _ (by rw [hoff l hl']; exact htan l hl') _]) f
  refine ⟨R, f', w, r, r', by simp [wfbRule, hn, hmir, hinv, hR], h1, h2, h3, h4, ?_, h6⟩
  intro y j j' k hmem hj hm'
  rw [h5 y j j' hmem hj, hR]
  show w _ _ - _ = _
  rw [hoff _ hmem]
  congr 2
  apply hs.2.1
  rw [hcinv, hcmir, hm', hj]
  funext i
  simp only [mirror_apply, Pi.neg_apply]; split_ifs <;> rfl

end

/-! ### Where the velocity is sampled -/

/-- C57, disagreement: with a mean velocity field the velocity is read `s` cells away from the first fluid cell, i.e. at
distance `s + 1/2` from the wall, but the wall function is evaluated for the distance `s - 1/2` (`s` the sampling or
Maronga shift, unit cells). -/
theorem C57_mean_velocity_distance (shift : ℤ) (maronga : Option ℤ) (n : Vec 3) (a : Fin 3) (hn : n a = 1 ∨ n a = -1) :
    ((meanSampleOffset shift maronga n a * n a : ℤ) : ℝ) + 1 / 2 = wfbWallDistance shift maronga 1 + 1 := by
  have h : n a * n a = 1 := by rcases hn with h | h <;> rw [h] <;> norm_num
  have : meanSampleOffset shift maronga n a * n a = (if maronga.getD 0 ≠ 0 then maronga.getD 0 else shift) := by
    simp only [meanSampleOffset, Pi.smul_apply, smul_eq_mul]
    rw [mul_assoc, h, mul_one]
  rw [this, wfbWallDistance]; ring

/-- the default arguments: velocity of the second fluid cell, distance of the first -/
example : meanSampleOffset 1 none ![0, 1, 0] = ![0, 1, 0] ∧ wfbWallDistance 1 none 1 = 1 / 2 := by
  constructor
  · decide
  · norm_num [wfbWallDistance]

/-- C57, disagreement: without a mean velocity field, in the pull pattern, the populations of a link `j` are sampled two
cells away from the wall layer (distance `5/2`) and displaced along the tangential part of the link, whatever the
sampling shift. The wall function is evaluated for the distance `shift - 1/2`. -/
theorem C57_pdf_sample_pull {S : Stencil 3} (hv : S.Valid) (hc : S.InvClosed) {n : Vec 3} {a : Fin 3}
    (hn : freeSlipAxis n = some a) (hm : S.MirrorClosed a) :
    ∃ ix mir, Indexing.make S "pull" .both = some ix ∧ mirrorTable S a = some mir ∧
      ∀ j, S.c j a = -n a → pdfSampleOffset ix mir n j = some (Function.update (S.c j) a (2 * n a)) := by
  obtain ⟨inv, hinv, hcinv⟩ := inv_table hv hc
  obtain ⟨mir, hmir, hcmir⟩ := mirror_table hv hm
  obtain ⟨-, hn2⟩ := C10_accepted_normals.1 hn
  have hacc : getAccessor 3 "pull" .both = some pull := rfl
  have hacc' : getAccessor 3 "pull" (Timestep.both).next = some pull := rfl
  have hin : isInplace "pull" = some false := rfl
  have hw : (pull : Accessor 3).write S = some fun i => (0, i) := collect_eq_some.2 fun i => rfl
  have hr : (pull : Accessor 3).read S = some fun i => (-S.c i, i) := collect_eq_some.2 fun i => rfl
  refine ⟨⟨fun i => (0, i), fun i => (-S.c i, i)⟩, mir, ?_, hmir, ?_⟩
  · simp [Indexing.make, hin, hacc, hacc', hw, hr, hinv]
  · intro j hj
    simp only [pdfSampleOffset, Indexing.translated, if_true, hinv, Indexing.acc, Option.bind_eq_bind, Option.bind_some,
      pure, Option.some.injEq]
    rw [hcinv, hcmir, neg_neg]
    funext i
    by_cases hi : i = a
    · subst hi; simp [mirror_apply, hj]; ring
    · simp [mirror_apply, hi, hn2 i hi]

theorem offsetName_ne : Indexing.indexName (.inn, true) ≠ "f_in_inv_offsets_x" ∧
    Indexing.indexName (.out, true) ≠ "f_in_inv_offsets_x" ∧
    ∀ d : Fin 3, Indexing.offsetName (.out, true) d.val ≠ "f_in_inv_offsets_x" := by decide

/-- C57, disagreement: in the push pattern the sampled cell is given in terms of the arrays `f_in_inv_offsets_x/y/z`, which
are not generated, because the proxy accesses do not need them. -/
theorem C57_pdf_sample_push {S : Stencil 3} (hv : S.Valid) (hc : S.InvClosed) :
    ∃ ix rq ss node, Indexing.make S "push" .both = some ix ∧
      ix.substituteProxies (wfbProxies S.Q) ⟨[], []⟩ = some (rq, ss) ∧ ix.codeNode rq = some node ∧
      node.lookup "f_in_inv_offsets_x" = none := by
  obtain ⟨inv, hinv, hcinv⟩ := inv_table hv hc
  have hacc : getAccessor 3 "push" .both = some push := rfl
  have hacc' : getAccessor 3 "push" (Timestep.both).next = some push := rfl
  have hin : isInplace "push" = some false := rfl
  have hw : (push : Accessor 3).write S = some fun i => (S.c i, i) := collect_eq_some.2 fun i => rfl
  have hr : (push : Accessor 3).read S = some fun i => (0, i) := collect_eq_some.2 fun i => rfl
  set ix : Indexing S := ⟨fun i => (S.c i, i), fun i => (0, i)⟩ with hix
  have hmk : Indexing.make S "push" .both = some ix := by
    simp [Indexing.make, hin, hacc, hacc', hw, hr, hinv, hix]
  have ht1 : ix.translated (.inn, true) = some fun i => (0, inv i) := by
    simp [Indexing.translated, hinv, Indexing.acc, hix]
  have ht2 : ix.translated (.out, true) = some fun i => (S.c (inv i), inv i) := by
    simp [Indexing.translated, hinv, Indexing.acc, hix]
  have htriv : Indexing.trivialOffset (fun i : Fin S.Q => ((0 : Vec 3), inv i)) = true := by
    simp [Indexing.trivialOffset, Indexing.offsetTable, List.ofFn_const]
  obtain ⟨n1, n2, n3⟩ := offsetName_ne
  have key : ∀ rq : Indexing.Req, (∀ k ∈ rq.idx, k = (.inn, true) ∨ k = (.out, true)) →
      (∀ k ∈ rq.off, k = (.out, true)) → ∃ node, ix.codeNode rq = some node ∧
        ∀ e ∈ node, e.1 ≠ "f_in_inv_offsets_x" := by
    rintro ⟨idx, off⟩ h1 h2
    have ha : ∃ A, (idx.mapM fun k => (do return (Indexing.indexName k, Indexing.indexTable (← ix.translated k)) :
        Option (String × List ℤ))) = some A ∧ ∀ e ∈ A, e.1 ≠ "f_in_inv_offsets_x" := by
      clear h2
      induction idx with
      | nil => exact ⟨[], by simp, by simp⟩
      | cons k idx ih =>
        obtain ⟨A, hA, hA'⟩ := ih fun k hk => h1 k (List.mem_cons_of_mem _ hk)
        rcases h1 k (by simp) with rfl | rfl
        · refine ⟨_ :: A, by simp only [List.mapM_cons, ht1, hA]; rfl, ?_⟩
          intro e he
          rcases List.mem_cons.1 he with rfl | he
          · exact n1
          · exact hA' e he
        · refine ⟨_ :: A, by simp only [List.mapM_cons, ht2, hA]; rfl, ?_⟩
          intro e he
          rcases List.mem_cons.1 he with rfl | he
          · exact n2
          · exact hA' e he
    have hb : ∃ B, (off.mapM fun k => (do
        let t ← ix.translated k
        return (List.finRange 3).map fun d : Fin 3 => (Indexing.offsetName k d.val, Indexing.offsetTable t d) :
          Option (List (String × List ℤ)))) = some B ∧ ∀ l ∈ B, ∀ e ∈ l, e.1 ≠ "f_in_inv_offsets_x" := by
      clear h1 ha
      induction off with
      | nil => exact ⟨[], by simp, by simp⟩
      | cons k off ih =>
        obtain ⟨B, hB, hB'⟩ := ih fun k hk => h2 k (List.mem_cons_of_mem _ hk)
        obtain rfl := h2 k (by simp)
        refine ⟨_ :: B, by simp only [List.mapM_cons, ht2, hB]; rfl, ?_⟩
        intro l hl e he
        rcases List.mem_cons.1 hl with rfl | hl
        · obtain ⟨d, -, rfl⟩ := List.mem_map.1 he
          exact n3 d
        · exact hB' l hl e he
    obtain ⟨A, hA, hA'⟩ := ha
    obtain ⟨B, hB, hB'⟩ := hb
    refine ⟨A ++ B.flatten, ?_, ?_⟩
    · simp only [Indexing.codeNode]
      erw [hA, hB]; rfl
    · intro e he
      rcases List.mem_append.1 he with he | he
      · exact hA' e he
      · obtain ⟨l, hl, he⟩ := List.mem_flatten.1 he
        exact hB' l hl e he
  have hsub : ∃ rq ss, ix.substituteProxies (wfbProxies S.Q) ⟨[], []⟩ = some (rq, ss) ∧
      (∀ k ∈ rq.idx, k = (.inn, true) ∨ k = (.out, true)) ∧ (∀ k ∈ rq.off, k = (.out, true)) := by
    simp only [wfbProxies, Indexing.substituteProxies, Indexing.substituteOne, Indexing.arraySymbols, ht1, ht2, htriv,
      Option.bind_eq_bind, Option.bind_some, if_true, pure]
    split_ifs <;> exact ⟨_, _, rfl, by simp, by simp⟩
  obtain ⟨rq, ss, hs, h1, h2⟩ := hsub
  obtain ⟨node, hnode, hne⟩ := key rq h1 h2
  refine ⟨ix, rq, ss, node, hmk, hs, hnode, ?_⟩
  rw [List.lookup_eq_none_iff]
  intro e he
  simpa using fun h => hne e he h.symm

/-- the hypotheses hold for D3Q19 and a wall in any of the coordinate planes -/
example : ∀ a : Fin 3, (tableStencil Tables.D3Q19_walberla).Valid ∧ (tableStencil Tables.D3Q19_walberla).InvClosed ∧
    (tableStencil Tables.D3Q19_walberla).MirrorClosed a := by decide +kernel

end Lbm.Wall
