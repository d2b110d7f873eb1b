import Verif.AllenCahnScenarios
import Mathlib.Tactic.Linarith
import Mathlib.Tactic.FieldSimp
import Mathlib.Tactic.Ring
import Mathlib.Tactic.NormNum
import Mathlib.Tactic.Positivity

/-!
# Property C62: parameters of two-phase benchmark set-ups realise their dimensionless numbers
-/

namespace Lbm
namespace AllenCahn

theorem realDiv_eq (a b : ℝ) : realDiv a b = if b = 0 then none else some (a / b) := by
  unfold realDiv pyDiv
  split <;> simp_all

theorem realDiv_some {a b c : ℝ} (h : realDiv a b = some c) : b ≠ 0 ∧ a = c * b := by
  rw [realDiv_eq] at h
  split at h
  · simp at h
  · rename_i hb
    simp only [Option.some.injEq] at h
    exact ⟨hb, by rw [← h]; field_simp⟩

theorem pySqrt_some {a c : ℝ} (h : pySqrt a = some c) : 0 ≤ c ∧ c ^ 2 = a := by
  unfold pySqrt at h
  split at h
  · simp at h
  · rename_i ha
    simp only [Option.some.injEq] at h
    rw [← h]
    exact ⟨Real.sqrt_nonneg _, Real.sq_sqrt (not_lt.1 ha)⟩

theorem pySqrt_pos {a : ℝ} (h : 0 < a) : ∃ c, pySqrt a = some c ∧ 0 < c :=
  ⟨Real.sqrt a, by rw [pySqrt, if_neg (not_lt.2 h.le)], Real.sqrt_pos.2 h⟩

theorem realDiv_pos {a b : ℝ} (ha : 0 < a) (hb : 0 < b) : ∃ c, realDiv a b = some c ∧ 0 < c :=
  ⟨a / b, by rw [realDiv_eq, if_neg hb.ne'], div_pos ha hb⟩

/-! ## Rayleigh–Taylor instability -/

/-- What the parameters of a Rayleigh–Taylor instability promise: with the velocity scale `u` of the free fall over the
reference length, the Reynolds, capillary and Péclet number, the ratios of densities and viscosities, and the reference
time as the time scale of the reduced gravity `At g`. -/
def RtiSpec (p : Params) (length time capillary reynolds atwood peclet densityRatio viscosityRatio : ℝ) : Prop :=
  ∃ u, 0 ≤ u ∧ u ^ 2 = -p.gravity * length
    ∧ p.rhoH * u * length = reynolds * p.muH
    ∧ p.muH * u = capillary * p.sigma
    ∧ u * length = peclet * p.mobility
    ∧ p.rhoH = densityRatio * p.rhoL ∧ p.muH = viscosityRatio * p.muL
    ∧ length = atwood * -p.gravity * time ^ 2

/-- **C62.**  The Rayleigh–Taylor parameters realise the given Reynolds, capillary and Péclet numbers, ratios and time. -/
theorem C62_rti (length time rhoH capillary reynolds atwood peclet densityRatio viscosityRatio : ℝ) (p : Params)
    (h : rti length time rhoH capillary reynolds atwood peclet densityRatio viscosityRatio = some p) :
    p.rhoH = rhoH ∧ p.width = 5
      ∧ RtiSpec p length time capillary reynolds atwood peclet densityRatio viscosityRatio := by
  unfold rti at h
  simp only [Option.bind_eq_some_iff, Option.map_eq_some_iff] at h
  obtain ⟨g, hg, u, hu, muH, hmuH, muL, hmuL, rhoL, hrhoL, sigma, hsigma, m, hm, rfl⟩ := h
  obtain ⟨_, hg⟩ := realDiv_some hg
  obtain ⟨hu0, hu⟩ := pySqrt_some hu
  obtain ⟨_, hmuH⟩ := realDiv_some hmuH
  obtain ⟨_, hmuL⟩ := realDiv_some hmuL
  obtain ⟨_, hrhoL⟩ := realDiv_some hrhoL
  obtain ⟨_, hsigma⟩ := realDiv_some hsigma
  obtain ⟨_, hm⟩ := realDiv_some hm
  refine ⟨rfl, rfl, u, hu0, ?_, ?_, ?_, ?_, ?_, ?_, ?_⟩ <;> simp only [neg_neg] <;> linarith

/-- **C62.**  Positive arguments always give parameters, all positive (the gravity pointing down). -/
theorem C62_rti_total {length time rhoH capillary reynolds atwood peclet densityRatio viscosityRatio : ℝ}
    (h1 : 0 < length) (h2 : 0 < time) (h3 : 0 < rhoH) (h4 : 0 < capillary) (h5 : 0 < reynolds) (h6 : 0 < atwood)
    (h7 : 0 < peclet) (h8 : 0 < densityRatio) (h9 : 0 < viscosityRatio) :
    ∃ p, rti length time rhoH capillary reynolds atwood peclet densityRatio viscosityRatio = some p
      ∧ 0 < p.rhoL ∧ 0 < p.muH ∧ 0 < p.muL ∧ 0 < p.sigma ∧ 0 < p.mobility ∧ p.gravity < 0 := by
  obtain ⟨g, hg, pg⟩ := realDiv_pos h1 (show 0 < time ^ 2 * atwood by positivity)
  obtain ⟨u, hu, pu⟩ := pySqrt_pos (show 0 < g * length by positivity)
  obtain ⟨muH, hmuH, pmuH⟩ := realDiv_pos (show 0 < rhoH * u * length by positivity) h5
  obtain ⟨muL, hmuL, pmuL⟩ := realDiv_pos pmuH h9
  obtain ⟨rhoL, hrhoL, prhoL⟩ := realDiv_pos h3 h8
  obtain ⟨sigma, hsigma, psigma⟩ := realDiv_pos (show 0 < muH * u by positivity) h4
  obtain ⟨m, hm, pm⟩ := realDiv_pos (show 0 < u * length by positivity) h7
  refine ⟨{ rhoH := rhoH, rhoL := rhoL, muH := muH, muL := muL, sigma := sigma, mobility := m, gravity := -g },
    by unfold rti; simp only [hg, hu, hmuH, hmuL, hrhoL, hsigma, hm, Option.bind_some, Option.map_some],
    prhoL, pmuH, pmuL, psigma, pm, ?_⟩
  simpa using pg

example : ∃ p, rti 256 16000 1 (26 / 100) 3000 (1 / 2) 1000 3 1 = some p :=
  let ⟨p, h, _⟩ := C62_rti_total (length := 256) (time := 16000) (rhoH := 1) (capillary := 26 / 100) (reynolds := 3000)
    (atwood := 1 / 2) (peclet := 1000) (densityRatio := 3) (viscosityRatio := 1) (by norm_num) (by norm_num)
    (by norm_num) (by norm_num) (by norm_num) (by norm_num) (by norm_num) (by norm_num) (by norm_num)
  ⟨p, h⟩

/-- **C62** (partial).  The Atwood number is an argument of its own.  The densities have it exactly if the density ratio
is `(1 + At) / (1 - At)`, as for the default values; otherwise the promised Atwood number is not that of the fluids. -/
theorem C62_rti_atwood_partial {length time rhoH capillary reynolds atwood peclet densityRatio viscosityRatio : ℝ}
    {p : Params} (h : rti length time rhoH capillary reynolds atwood peclet densityRatio viscosityRatio = some p)
    (hr : 0 < rhoH) (hd : 0 < densityRatio) :
    (p.rhoH - p.rhoL) / (p.rhoH + p.rhoL) = atwood ↔ densityRatio * (1 - atwood) = 1 + atwood := by
  obtain ⟨hrho, _, u, _, _, _, _, _, hL, _⟩ := C62_rti _ _ _ _ _ _ _ _ _ _ h
  have hLp : 0 < p.rhoL := by
    by_contra hc
    have := mul_nonpos_of_nonneg_of_nonpos hd.le (not_lt.1 hc)
    rw [← hL, hrho] at this
    linarith
  rw [hL, div_eq_iff (by positivity)]
  constructor
  · intro h
    have : p.rhoL * (densityRatio * (1 - atwood) - (1 + atwood)) = 0 := by linarith
    rcases mul_eq_zero.1 this with h | h
    · exact absurd h hLp.ne'
    · linarith
  · intro h
    have : p.rhoL * (densityRatio * (1 - atwood)) = p.rhoL * (1 + atwood) := by rw [h]
    linarith

example : (3:ℝ) * (1 - 1 / 2) = 1 + 1 / 2 ∧ ¬ (10:ℝ) * (1 - 1 / 2) = 1 + 1 / 2 := by norm_num

/-! ## Rising bubble -/

/-- **C62.**  The rising bubble parameters realise the Reynolds number (with the gravity velocity `√(g d)` of the
diameter), the Bond number, the ratios, and the reference time `√(d / g)`. -/
theorem C62_rising_bubble (time rhoH radius bond reynolds densityRatio viscosityRatio : ℝ) (p : Params)
    (h : risingBubble time rhoH radius bond reynolds densityRatio viscosityRatio = some p) :
    let d := 2 * radius
    let g := -p.gravity
    p.rhoH = rhoH ∧ p.mobility = 1 / 5 ∧ p.width = 5
      ∧ d = g * time ^ 2
      ∧ p.rhoH = densityRatio * p.rhoL ∧ p.muH = viscosityRatio * p.muL
      ∧ (p.rhoH - p.rhoL) * g * d ^ 2 = bond * p.sigma
      ∧ ∃ s, 0 ≤ s ∧ s ^ 2 = g * d ^ 3 ∧ p.rhoH * s = reynolds * p.muH
        ∧ (0 < d → ∃ u, 0 ≤ u ∧ u ^ 2 = g * d ∧ p.rhoH * u * d = reynolds * p.muH) := by
  unfold risingBubble at h
  simp only [Option.bind_eq_some_iff, Option.map_eq_some_iff] at h
  obtain ⟨g, hg, rhoL, hrhoL, s, hs, muH, hmuH, muL, hmuL, sigma, hsigma, rfl⟩ := h
  obtain ⟨_, hg⟩ := realDiv_some hg
  obtain ⟨hs0, hs⟩ := pySqrt_some hs
  obtain ⟨_, hmuH⟩ := realDiv_some hmuH
  obtain ⟨_, hmuL⟩ := realDiv_some hmuL
  obtain ⟨_, hrhoL⟩ := realDiv_some hrhoL
  obtain ⟨_, hsigma⟩ := realDiv_some hsigma
  intro d g'
  have hd : d = radius * 2 := by simp only [d]; ring
  have hg' : g' = g := by simp [g']
  rw [hg']
  rw [← hd] at hg hs hsigma
  refine ⟨rfl, by norm_num, rfl, hg, by linarith, by linarith, ?_, s, hs0, hs, by linarith, fun hdp => ?_⟩
  · simp only
    linarith
  · refine ⟨s / d, by positivity, ?_, ?_⟩
    · rw [div_pow, hs]
      field_simp
    · rw [mul_assoc, div_mul_cancel₀ _ hdp.ne']
      simp only
      linarith

/-- **C62.**  Positive arguments and a density ratio above one always give parameters, all positive. -/
theorem C62_rising_bubble_total {time rhoH radius bond reynolds densityRatio viscosityRatio : ℝ} (h1 : 0 < time)
    (h2 : 0 < rhoH) (h3 : 0 < radius) (h4 : 0 < bond) (h5 : 0 < reynolds) (h6 : 1 < densityRatio)
    (h7 : 0 < viscosityRatio) :
    ∃ p, risingBubble time rhoH radius bond reynolds densityRatio viscosityRatio = some p
      ∧ 0 < p.rhoL ∧ 0 < p.muH ∧ 0 < p.muL ∧ 0 < p.sigma ∧ p.gravity < 0 := by
  obtain ⟨g, hg, pg⟩ := realDiv_pos (show 0 < radius * 2 by positivity) (show 0 < time ^ 2 by positivity)
  obtain ⟨rhoL, hrhoL, prhoL⟩ := realDiv_pos h2 (show 0 < densityRatio by linarith)
  obtain ⟨s, hs, ps⟩ := pySqrt_pos (show 0 < g * (radius * 2) ^ 3 by positivity)
  obtain ⟨muH, hmuH, pmuH⟩ := realDiv_pos (show 0 < rhoH * s by positivity) h5
  obtain ⟨muL, hmuL, pmuL⟩ := realDiv_pos pmuH h7
  have hlt : 0 < rhoH - rhoL := by
    have := (realDiv_some hrhoL).2
    nlinarith
  obtain ⟨sigma, hsigma, psigma⟩ := realDiv_pos (show 0 < (rhoH - rhoL) * g * (radius * 2) ^ 2 by positivity) h4
  refine ⟨{ rhoH := rhoH, rhoL := rhoL, muH := muH, muL := muL, sigma := sigma, gravity := -g },
    by unfold risingBubble; simp only [hg, hs, hmuH, hmuL, hrhoL, hsigma, Option.bind_some, Option.map_some],
    prhoL, pmuH, pmuL, psigma, ?_⟩
  simpa using pg

example : ∃ p, risingBubble 18000 1 16 1 40 1000 100 = some p :=
  let ⟨p, h, _⟩ := C62_rising_bubble_total (time := 18000) (rhoH := 1) (radius := 16) (bond := 1) (reynolds := 40)
    (densityRatio := 1000) (viscosityRatio := 100) (by norm_num) (by norm_num) (by norm_num) (by norm_num)
    (by norm_num) (by norm_num) (by norm_num)
  ⟨p, h⟩

/-! ## Taylor bubble -/

/-- **C62** (partial).  The Taylor bubble parameters have the inverse viscosity number and the Bond number of water and
air in the annulus, and their viscosity ratio.  The light density is that of a heavy density of one: the density ratio
is that of water and air only if the heavy density is one. -/
theorem C62_taylor_bubble_partial (length time rhoH outer inner : ℝ) (p : Params) (hi : inner ≠ 0) (ho : outer ≠ 0)
    (h : taylorBubble length time rhoH outer inner = some p) :
    let c : Physical := {}
    let d := outer - inner
    let dl := length * (1 - inner / outer)
    let g := -p.gravity
    dl = g * time ^ 2
      ∧ (p.rhoH - p.rhoL) * g * dl ^ 2 * c.sigma = (c.waterRho - c.airRho) * c.gravity * d ^ 2 * p.sigma
      ∧ ((p.rhoH - p.rhoL) * p.rhoH * (g * dl ^ 3)) * c.waterMu ^ 2
          = ((c.waterRho - c.airRho) * c.waterRho * c.gravity * d ^ 3) * p.muH ^ 2
      ∧ p.muH * c.airMu = p.muL * c.waterMu
      ∧ (p.rhoH * c.airRho = p.rhoL * c.waterRho ↔ rhoH = 1) := by
  unfold taylorBubble at h
  simp only [Option.bind_eq_some_iff, Option.map_eq_some_iff] at h
  obtain ⟨ratio, hratio, s, hs, il, hil, g, hg, s2, hs2, muH, hmuH, sigma, hsigma, rfl⟩ := h
  obtain ⟨_, hratio⟩ := realDiv_some hratio
  obtain ⟨hs0, hs⟩ := pySqrt_some hs
  obtain ⟨hr0, hil⟩ := realDiv_some hil
  obtain ⟨_, hg⟩ := realDiv_some hg
  obtain ⟨_, hs2⟩ := pySqrt_some hs2
  obtain ⟨_, hmuH⟩ := realDiv_some hmuH
  obtain ⟨_, hsigma⟩ := realDiv_some hsigma
  intro c d dl g'
  have hdl : length - il = dl := by
    simp only [dl]
    rw [hil, hratio]
    field_simp
  have hg' : g' = g := by simp [g']
  rw [hdl] at hg hs2 hsigma
  rw [hg']
  norm_num at hs hs2 hmuH hsigma
  refine ⟨hg, ?_, ?_, ?_, ?_⟩
  · norm_num [c]
    linarith
  · norm_num [c]
    rw [hs2.symm, hmuH]
    simp only [d]
    nlinarith [hs]
  · norm_num [c]
    ring
  · norm_num [c]

example : ∃ p, taylorBubble 128 16000 1 (254 / 10000) (127 / 10000) = some p := by
  have e1 : realDiv (254 / 10000) (127 / 10000) = some 2 := by rw [realDiv_eq]; norm_num
  have e2 : realDiv 128 2 = some 64 := by rw [realDiv_eq]; norm_num
  unfold taylorBubble
  simp only [e1, e2, Option.bind_some]
  norm_num [pySqrt, realDiv_eq]

/-! ## Droplet migration -/

/-- **C62.**  The droplet parameters realise the Reynolds, capillary and Marangoni numbers for the velocity scale
`u = γ r`, with the reference surface tension *that was passed in*, the ratios, the wall velocity `γ h`, and
the reference time `1 / γ` rounded down. -/
theorem C62_droplet (radius reynolds capillary marangoni peclet viscosityRatio heatRatio width sigmaRef : ℝ)
    (height : Option ℝ) (p : ThermoParams)
    (h : dropletMigration radius reynolds capillary marangoni peclet viscosityRatio heatRatio width sigmaRef height
      = some p) :
    ∃ u, 0 < u
      ∧ radius * u = reynolds * p.base.muH ∧ radius * u = marangoni * p.heatH
      ∧ p.base.muH * u = capillary * sigmaRef * p.base.rhoH
      ∧ u * width = peclet * p.base.mobility
      ∧ p.base.muH = viscosityRatio * p.base.muL ∧ p.heatH = heatRatio * p.heatL
      ∧ p.wall * radius = u * (height.getD (2 * radius))
      ∧ (0 < radius → (p.time : ℝ) ≤ radius / u ∧ radius / u < p.time + 1) := by
  unfold dropletMigration at h
  simp only [Option.bind_eq_some_iff, Option.map_eq_some_iff] at h
  obtain ⟨q, hq, u, hu, gamma, hgamma, nuH, hnuH, nuL, hnuL, heatH, hheatH, heatL, hheatL, m, hm, t, ht, rfl⟩ := h
  obtain ⟨hr, hq⟩ := realDiv_some hq
  obtain ⟨hu0, hu⟩ := pySqrt_some hu
  obtain ⟨_, hgamma⟩ := realDiv_some hgamma
  obtain ⟨hre, hnuH⟩ := realDiv_some hnuH
  obtain ⟨_, hnuL⟩ := realDiv_some hnuL
  obtain ⟨_, hheatH⟩ := realDiv_some hheatH
  obtain ⟨_, hheatL⟩ := realDiv_some hheatL
  obtain ⟨_, hm⟩ := realDiv_some hm
  have hu1 : 0 < u := lt_of_le_of_ne hu0 fun hz => by
    rw [← hz, eq_comm, mul_eq_zero] at hgamma
    exact hgamma.elim (realDiv_some ht).1 hr
  refine ⟨u, hu1, by simp only; linarith, by simp only; linarith, ?_, ?_, by simp only; linarith,
    by simp only; linarith, ?_, fun hrp => ?_⟩
  · simp only [mul_one]
    have h2 : reynolds * (nuH * u) = reynolds * (capillary * sigmaRef) := by
      calc reynolds * (nuH * u) = (nuH * reynolds) * u := by ring
        _ = radius * u * u := by rw [← hnuH]
        _ = u ^ 2 * radius := by ring
        _ = q * radius := by rw [hu]
        _ = reynolds * (capillary * sigmaRef) := by rw [← hq]; ring
    exact mul_left_cancel₀ hre h2
  · rw [hgamma]; simp only; linarith
  · rw [hgamma]; simp only; ring
  · have hgp : 0 < gamma := by
      by_contra hc
      nlinarith [mul_nonneg (neg_nonneg.2 (not_lt.1 hc)) hrp.le]
    have ht2 := (realDiv_some ht).2
    have htr : t = radius / u := by
      rw [eq_div_iff hu1.ne', hgamma]
      linear_combination -radius * ht2
    have ht0 : 0 ≤ t := by rw [htr]; positivity
    simp only [if_pos ht0, ← htr]
    exact ⟨Int.floor_le t, Int.lt_floor_add_one t⟩

/-- **C62** (disagreement).  The interface width and the reference surface tension are not passed on: the parameters
always have width 5 and reference surface tension 0.005.  So the capillary number of the parameters is the given one
only if the reference surface tension has that value, and the Péclet number only for width 5 — the default is 4. -/
theorem C62_droplet_dropped_partial
    (radius reynolds capillary marangoni peclet viscosityRatio heatRatio width sigmaRef : ℝ)
    (height : Option ℝ) (p : ThermoParams)
    (h : dropletMigration radius reynolds capillary marangoni peclet viscosityRatio heatRatio width sigmaRef height
      = some p) :
    p.sigmaRef = 5 / 1000 ∧ p.base.width = 5 ∧ p.base.sigma = 0
      ∧ ∃ u, 0 < u ∧ (u * p.base.width = peclet * p.base.mobility ↔ width = 5)
        ∧ (capillary ≠ 0 → (p.base.muH * u = capillary * p.sigmaRef * p.base.rhoH ↔ sigmaRef = 5 / 1000)) := by
  obtain ⟨u, hu0, _, _, h3, h4, _⟩ := C62_droplet _ _ _ _ _ _ _ _ _ _ _ h
  have hp : p.sigmaRef = 5 / 1000 ∧ p.base.width = 5 ∧ p.base.sigma = 0 ∧ p.base.rhoH = 1 := by
    unfold dropletMigration at h
    simp only [Option.bind_eq_some_iff, Option.map_eq_some_iff] at h
    obtain ⟨q, hq, u, hu, gamma, hgamma, nuH, hnuH, nuL, hnuL, heatH, hheatH, heatL, hheatL, m, hm, t, ht, rfl⟩ := h
    exact ⟨rfl, rfl, rfl, rfl⟩
  obtain ⟨hs, hw, h0, hr⟩ := hp
  refine ⟨hs, hw, h0, u, hu0, ?_, fun hc => ?_⟩
  · rw [← h4, hw, mul_right_inj' hu0.ne']
    exact eq_comm
  · rw [h3, hr, hs, mul_one, mul_one, mul_right_inj' hc]

example : ∃ p, dropletMigration 32 (16 / 100) (1 / 100) (8 / 100) 1 1 1 4 (5 / 1000) none = some p := by
  obtain ⟨q, hq, pq⟩ := realDiv_pos (show (0:ℝ) < 16 / 100 * (1 / 100) * (5 / 1000) by norm_num)
    (show (0:ℝ) < 32 by norm_num)
  obtain ⟨u, hu, pu⟩ := pySqrt_pos pq
  obtain ⟨g, hg, pg⟩ := realDiv_pos pu (show (0:ℝ) < 32 by norm_num)
  unfold dropletMigration
  simp only [hq, hu, hg, Option.bind_some]
  norm_num [realDiv_eq, pg.ne']

end AllenCahn
end Lbm
