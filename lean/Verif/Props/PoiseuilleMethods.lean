/-
C106: the methods of the package between two plates.
-/
import Verif.Props.Poiseuille
import Verif.Props.HydroMethods
import Verif.Props.Parameters
import Verif.Props.CollisionModels

set_option linter.unusedSectionVars false

namespace Lbm
namespace Poiseuille

open Matrix Spec Simulation

section
variable {K : Type} [Field K] [CharZero K] {Q D : ℕ} {c : Fin Q → Fin D → K} {w : Fin Q → K}

/-- third moments of the equilibrium without third order terms -/
theorem eqPoly_m3 (h5 : Isotropic5 c w (1 / 3)) (ro ri G : K) (u : Fin D → K) (a b : Fin D) (hab : a ≠ b) :
    ∑ q, c q a * c q b ^ 2 * eqPoly c w (1 / 3) ro ri G 0 u q = ro * u a / 3 := by
  have h := h5.toIsotropic3
  have e : ∀ q, c q a * c q b ^ 2 * eqPoly c w (1 / 3) ro ri G 0 u q =
      (ro * ri - ro * G * (1 / 2 / (1 / 3) * dot u u)) * (w q * c q a * c q b * c q b) +
      (ro / (1 / 3)) *
        (w q * dot (c q) (fun d => δ a d) * dot (c q) (fun d => δ b d) * dot (c q) (fun d => δ b d) * dot (c q) u) +
      (ro * (1 / 2 / (1 / 3) ^ 2) * G) *
        (w q * dot (c q) (fun d => δ a d) * dot (c q) (fun d => δ b d) * dot (c q) (fun d => δ b d) * dot (c q) u *
          dot (c q) u) :=
    fun q => by rw [← comp_eq_dot, ← comp_eq_dot]; unfold eqPoly; ring
  simp only [e, Finset.sum_add_distrib, ← Finset.mul_sum, h.m3, h5.c4, h5.c5, dot_δ]
  have d1 : (δ b a : K) = 0 := by unfold δ; rw [if_neg (Ne.symm hab)]
  have d2 : (δ b b : K) = 1 := by unfold δ; rw [if_pos rfl]
  rw [d2]
  simp only [d1]
  ring

variable [DecidableEq K] {s : ForceInput K Q D}

theorem third_force (h5 : Isotropic5 s.c s.w (1 / 3)) (a b : Fin D) (hab : a ≠ b) :
    ∑ q, s.c q a * s.c q b ^ 2 * s.simple q = s.F a / 3 ∧ ∑ q, s.c q a * s.c q b ^ 2 * s.luo q = s.F a / 3 ∧
    ∑ q, s.c q a * s.c q b ^ 2 * s.shanChenLinear q = s.F a / 9 ∧
    ∑ q, s.c q a * s.c q b ^ 2 * s.shanChenNonLinear q = 0 := by
  have h := h5.toIsotropic3
  have d1 : (δ b a : K) = 0 := by unfold δ; rw [if_neg (Ne.symm hab)]
  have d2 : (δ b b : K) = 1 := by unfold δ; rw [if_pos rfl]
  refine ⟨?_, ?_, ?_, ?_⟩
  · have e : ∀ q, s.c q a * s.c q b ^ 2 * s.simple q = 3 * (s.w q * dot (s.c q) (fun d => δ a d) *
        dot (s.c q) (fun d => δ b d) * dot (s.c q) (fun d => δ b d) * dot (s.c q) s.F) := fun q => by
      rw [← comp_eq_dot, ← comp_eq_dot, ForceInput.simple_eq]; ring
    simp only [e, ← Finset.mul_sum, h5.c4, dot_δ, d1, d2]; ring
  · have e : ∀ q, s.c q a * s.c q b ^ 2 * s.luo q = 3 * (s.w q * dot (s.c q) (fun d => δ a d) *
        dot (s.c q) (fun d => δ b d) * dot (s.c q) (fun d => δ b d) * dot (s.c q) s.F) -
        3 * dot s.u s.F * (s.w q * s.c q a * s.c q b * s.c q b) +
        9 * (s.w q * dot (s.c q) (fun d => δ a d) *
        dot (s.c q) (fun d => δ b d) * dot (s.c q) (fun d => δ b d) * dot (s.c q) s.F * dot (s.c q) s.u) := fun q => by
      rw [← comp_eq_dot, ← comp_eq_dot, ForceInput.luo_eq]; ring
    simp only [e, Finset.sum_add_distrib, Finset.sum_sub_distrib, ← Finset.mul_sum, h5.c4, h5.c5, h.m3, dot_δ, d1, d2]; ring
  · have e : ∀ q, s.c q a * s.c q b ^ 2 * s.shanChenLinear q = s.w q * dot (s.c q) (fun d => δ a d) *
        dot (s.c q) (fun d => δ b d) * dot (s.c q) (fun d => δ b d) * dot (s.c q) s.F +
        3 * (s.w q * dot (s.c q) (fun d => δ a d) *
        dot (s.c q) (fun d => δ b d) * dot (s.c q) (fun d => δ b d) * dot (s.c q) s.u * dot (s.c q) s.F) -
        dot s.u s.F * (s.w q * s.c q a * s.c q b * s.c q b) := fun q => by
      rw [← comp_eq_dot, ← comp_eq_dot, ForceInput.shanChenLinear_eq]; ring
    simp only [e, Finset.sum_add_distrib, Finset.sum_sub_distrib, ← Finset.mul_sum, h5.c4, h5.c5, h.m3, dot_δ, d1, d2]; ring
  · have e : ∀ q, s.c q a * s.c q b ^ 2 * s.shanChenNonLinear q = 3 / (2 * s.refDensity) * (s.w q * dot (s.c q) (fun d => δ a d) *
        dot (s.c q) (fun d => δ b d) * dot (s.c q) (fun d => δ b d) * dot (s.c q) s.F * dot (s.c q) s.F) -
        dot s.F s.F / (2 * s.refDensity) * (s.w q * s.c q a * s.c q b * s.c q b) := fun q => by
      rw [← comp_eq_dot, ← comp_eq_dot, ForceInput.shanChenNonLinear_eq]; ring
    simp only [e, Finset.sum_sub_distrib, ← Finset.mul_sum, h5.c5, h.m3]; ring

/-- what a force adds to a row `κ c_a c_b² + μ c_a` of the moment matrix -/
theorem added_flux (g : Fin Q → K) (hd : s.M.det ≠ 0) (h5 : Isotropic5 s.c s.w (1 / 3)) (a b : Fin D) (hab : a ≠ b) (κ μ : K)
    (i : Fin Q) (hi : ∀ q, s.M i q = κ * (s.c q a * s.c q b ^ 2) + μ * s.c q a) (k : ForceKind)
    (hk : k = .simple ∨ k = .luo ∨ k = .guo ∨ k = .buick ∨ k = .shanChen) (inMS : Bool) :
    s.added g k inMS i = ForceInput.forceFactor k (s.rates i) * ((κ / 3 + μ) * s.F a) := by
  have h := h5.toIsotropic3
  have row : ∀ p : Fin Q → K, (s.M *ᵥ p) i = κ * (∑ q, s.c q a * s.c q b ^ 2 * p q) + μ * ∑ q, s.c q a * p q := fun p => by
    show ∑ q, s.M i q * p q = _
    rw [Finset.mul_sum, Finset.mul_sum, ← Finset.sum_add_distrib]
    exact Finset.sum_congr rfl fun q _ => by rw [hi q]; ring
  obtain ⟨t1, t2, t3, t4⟩ := third_force h5 a b hab
  have f1 := (ForceInput.C23_simple h).2.1 a
  have f2 := (ForceInput.C23_luo h).2.1 a
  have f3 := (ForceInput.C23_shan_chen_terms h).2.2.1 a
  have f4 := (ForceInput.C23_shan_chen_terms h).2.2.2.1 a
  have hm : (k.moments s).getD 0 i = ForceInput.forceFactor k (s.rates i) * ((κ / 3 + μ) * s.F a) := by
    rcases hk with rfl | rfl | rfl | rfl | rfl
    · show (s.M *ᵥ s.simple) i = _; rw [row, t1, f1]; simp only [ForceInput.forceFactor]; ring
    · show (s.M *ᵥ s.luo) i = _; rw [row, t2, f2]; simp only [ForceInput.forceFactor]; ring
    · show s.correction i * (s.M *ᵥ s.luo) i = _
      rw [row, t2, f2]; simp only [ForceInput.forceFactor, ForceInput.correction]; ring
    · show s.correction i * (s.M *ᵥ s.simple) i = _
      rw [row, t1, f1]; simp only [ForceInput.forceFactor, ForceInput.correction]; ring
    · show 1 / ForceInput.csSq * s.correction i * (s.M *ᵥ s.shanChenLinear) i +
        (1 / ForceInput.csSq * s.correction i) ^ 2 * (s.M *ᵥ s.shanChenNonLinear) i = _
      rw [row, row, t3, t4, f3, f4]; simp only [ForceInput.forceFactor, ForceInput.correction, ForceInput.csSq]; ring
  unfold ForceInput.added
  cases inMS
  · rcases hp : k.pop s g with e | p
    · rcases hk with rfl | rfl | rfl | rfl | rfl <;> simp [ForceKind.pop] at hp
    · rcases hmm : k.moments s with _ | mt
      · rcases hk with rfl | rfl | rfl | rfl | rfl <;> simp [ForceKind.moments] at hmm
      · have := ForceInput.C23_spaces_agree hd g k (fun e => by rcases hk with rfl | rfl | rfl | rfl | rfl <;> simp at e) p mt hp hmm
        simp only [Bool.false_eq_true, if_false]
        rw [this]
        simpa [hmm] using hm
  · simpa using hm

/-- a force along the plates adds nothing to the shear stress -/
theorem added_shear (g : Fin Q → K) (hd : s.M.det ≠ 0) (h5 : Isotropic5 s.c s.w (1 / 3)) (a b : Fin D) (hu : s.u b = 0)
    (hF : s.F b = 0) (i : Fin Q) (hi : ∀ q, s.M i q = s.c q a * s.c q b) (k : ForceKind)
    (hk : k = .simple ∨ k = .luo ∨ k = .guo ∨ k = .buick ∨ k = .shanChen) (inMS : Bool) : s.added g k inMS i = 0 := by
  obtain ⟨m1, m2, m3, m4, m5⟩ := ForceInput.C23_second_moments h5 a b i hi
  rw [hu, hF] at m3 m4 m5
  have hm : (k.moments s).getD 0 i = 0 := by
    rcases hk with rfl | rfl | rfl | rfl | rfl
    · exact m1
    · rw [m3]; ring
    · rw [m4]; ring
    · exact m2
    · rw [m5]; ring
  unfold ForceInput.added
  cases inMS
  · rcases hp : k.pop s g with e | p
    · rfl
    · rcases hmm : k.moments s with _ | mt
      · rcases hk with rfl | rfl | rfl | rfl | rfl <;> simp [ForceKind.moments] at hmm
      · have := ForceInput.C23_spaces_agree hd g k (fun e => by rcases hk with rfl | rfl | rfl | rfl | rfl <;> simp at e) p mt hp hmm
        simp only [Bool.false_eq_true, if_false]
        rw [this]
        simpa [hmm] using hm
  · simpa using hm

end

section
variable {K : Type} [Field K] [CharZero K] [DecidableEq K]

/-- the directions of a stencil -/
def dirs (st : List (List ℤ)) (q : Fin st.length) : Vec (st.headD []).length := fun a => (st.get q).getD a 0

theorem populations_eq {e} (he : e ∈ Tables.predefined) (o : MaxwellOptions K e.2.2) (hw : getWeights e.2.2 = some o.weights)
    (comp : Bool) (x : Macro K (e.2.2.headD []).length) (q : Fin e.2.2.length) :
    (o.populations comp x).getD q 0 =
      eqPoly (vel e.2.2 _) (weightVec e.2.2 o.weights) (1 / 3) (rhoOut comp x.rho) (rhoIn comp x.rho) (g2 (o.order.getD 4))
        (g3 (o.order.getD 4)) x.u q -
      if o.deviationOnly then eqPoly (vel e.2.2 (e.2.2.headD []).length) (weightVec e.2.2 o.weights) (1 / 3) 1 1 0 0 (fun _ => 0) q else 0 := by
  obtain ⟨hl, -, -⟩ := C20_weights_isotropic (K := K) e he o.weights hw
  obtain ⟨p, hp, hpl, hpq⟩ := discreteMaxwellian_getD e.2.2 (predefined_rectangular e he) x.u x.rho (o.order.getD 4) comp o.weights
    hl hw
  obtain ⟨s, hs, hsl, hsq⟩ := discreteMaxwellian_getD (K := K) e.2.2 (predefined_rectangular e he) (fun _ => 0) 1 0
    false o.weights hl hw
  rw [List.ofFn_const] at hs
  unfold MaxwellOptions.populations maxwellianPopulations
  simp only []
  rw [hp]
  cases o.deviationOnly with
  | false => exact (hpq q).trans (by simp)
  | true =>
    have hq : (List.zipWith (fun f s => f - s) p s).getD q 0 = p.getD q 0 - s.getD q 0 := by
      have h1 : q.val < p.length := by rw [hpl]; exact q.isLt
      have h2 : q.val < s.length := by rw [hsl]; exact q.isLt
      simp [List.getD_eq_getElem?_getD, List.getElem?_zipWith, List.getElem?_eq_getElem h1,
        List.getElem?_eq_getElem h2]
    have e2 := hsq q
    rw [show rhoOut false (1 : K) = 1 from rfl, show rhoIn false (1 : K) = 1 from rfl, show g2 0 = (0 : K) from rfl,
      show g3 0 = (0 : K) from rfl] at e2
    simp only [if_true]
    rw [← hpq q, ← e2, ← hq, hs]
    rfl

/-- the stencils with weights have velocities with components -1, 0 and 1 -/
theorem weighted_cube : ∀ e ∈ Tables.predefined, (getWeights e.2.2).isSome → ∀ c ∈ e.2.2, ∀ a ∈ c, a ^ 3 = a := by
  have key : ∀ e ∈ Tables.predefined, decide ((getWeights e.2.2).isSome → ∀ c ∈ e.2.2, ∀ a ∈ c, a ^ 3 = a) = true := by
    decide +kernel
  intro e he
  exact of_decide_eq_true (key e he)

/-- the terms of third order vanish for a velocity along an axis -/
theorem eqPoly_along {Q D : ℕ} (c : Fin Q → Fin D → K) (w : Fin Q → K) (ro ri G H : K) (u : Fin D → K) (a : Fin D)
    (hu : ∀ d, d ≠ a → u d = 0) (q : Fin Q) (hc : c q a ^ 3 = c q a) :
    eqPoly c w (1 / 3) ro ri G H u q = eqPoly c w (1 / 3) ro ri G 0 u q := by
  have e1 : dot (c q) u = c q a * u a := Finset.sum_eq_single a (fun d _ hd => by rw [hu d hd, mul_zero]) (by simp)
  have e2 : dot u u = u a * u a := Finset.sum_eq_single a (fun d _ hd => by rw [hu d hd, mul_zero]) (by simp)
  unfold eqPoly
  rw [e1, e2]
  linear_combination ro * w q * H * (9 / 2) * u a ^ 3 * hc

/-- equilibrium values of the moments that matter, for a velocity along the plates (for equilibria of third and higher order: along
the axis `a`) -/
theorem meq_plates {e} (he : e ∈ Tables.predefined) (h7 : e.2.2.length ≠ 7) (o : MaxwellOptions K e.2.2)
    (hw : getWeights e.2.2 = some o.weights) (comp : Bool) (x : Macro K (e.2.2.headD []).length)
    (a b : Fin (e.2.2.headD []).length) (hab : a ≠ b) (hu : x.u b = 0)
    (ho : 2 < o.order.getD 4 → ∀ d, d ≠ a → d ≠ b → x.u d = 0) :
    (∀ p : PExpr, (∀ q : Fin e.2.2.length, p.at' (e.2.2.get q) = dirs e.2.2 q a * dirs e.2.2 q b) → o.meqOf comp x p = 0) ∧
    ∀ (p : PExpr) (κ μ : ℤ), (∀ q : Fin e.2.2.length, p.at' (e.2.2.get q) =
      κ * (dirs e.2.2 q a * dirs e.2.2 q b ^ 2) + μ * dirs e.2.2 q a) →
      o.meqOf comp x p = ((κ : K) / 3 + μ) * ((if comp then x.rho else 1) * x.u a) := by
  obtain ⟨hl, h3, h5'⟩ := C20_weights_isotropic (K := K) e he o.weights hw
  have h5 := h5' h7
  have hcs : (1 / 3 : K) ≠ 0 := by norm_num
  have d3 : (δ a b : K) = 0 := by unfold δ; rw [if_neg hab]
  have P : ∀ q : Fin e.2.2.length, (o.populations comp x).getD q 0 =
      eqPoly (vel e.2.2 _) (weightVec e.2.2 o.weights) (1 / 3) (rhoOut comp x.rho) (rhoIn comp x.rho) (g2 (o.order.getD 4)) 0 x.u q -
      if o.deviationOnly then eqPoly (vel e.2.2 (e.2.2.headD []).length) (weightVec e.2.2 o.weights) (1 / 3) 1 1 0 0 (fun _ => 0) q
      else 0 := by
    intro q
    rw [populations_eq he o hw comp x q]
    by_cases h2 : o.order.getD 4 ≤ 2
    · have hg3 : g3 (o.order.getD 4) = (0 : K) := by unfold g3; rw [if_pos h2]
      rw [hg3]
    · have hl := predefined_rectangular e he _ (List.get_mem e.2.2 q)
      have hc := weighted_cube e he (by rw [hw]; rfl) _ (List.get_mem e.2.2 q) ((e.2.2.get q).getD a 0)
        (by rw [List.getD_eq_getElem _ _ (by rw [hl]; exact a.isLt)]; exact List.getElem_mem _)
      rw [eqPoly_along _ _ _ _ _ (g3 (o.order.getD 4)) x.u a _ q (by unfold vel; exact_mod_cast congrArg (Int.cast (R := K)) hc)]
      intro d hd
      by_cases hb : d = b
      · rw [hb, hu]
      · exact ho (by omega) d hd hb
  refine ⟨fun p hp => ?_, fun p κ μ hp => ?_⟩
  · unfold MaxwellOptions.meqOf
    have e1 : ∀ q : Fin e.2.2.length, ((p.at' (e.2.2.get q) : ℤ) : K) = vel e.2.2 _ q a * vel e.2.2 _ q b := fun q => by
      rw [hp]; push_cast; rfl
    simp only [e1, P, mul_sub, Finset.sum_sub_distrib]
    rw [eqPoly_m2 h3 hcs _ _ _ _ _ a b (.inr h5), d3, hu]
    have : ∑ q, vel (K := K) e.2.2 _ q a * vel e.2.2 _ q b * (if o.deviationOnly = true then
        eqPoly (vel e.2.2 (e.2.2.headD []).length) (weightVec e.2.2 o.weights) (1 / 3) 1 1 0 0 (fun _ => 0) q else 0) = 0 := by
      cases o.deviationOnly
      · simp
      · simp only [if_true]
        rw [eqPoly_m2 h3 hcs _ _ _ _ _ a b (.inr h5), d3]; ring
    rw [this]; ring
  · unfold MaxwellOptions.meqOf
    have e1 : ∀ (q : Fin e.2.2.length) (t : K), ((p.at' (e.2.2.get q) : ℤ) : K) * t =
        κ * (vel e.2.2 _ q a * vel e.2.2 _ q b ^ 2 * t) + μ * (vel e.2.2 _ q a * t) := fun q t => by
      rw [hp]; push_cast
      show ((κ : K) * (vel e.2.2 _ q a * vel e.2.2 _ q b ^ 2) + μ * vel e.2.2 _ q a) * t = _
      ring
    simp only [P, mul_sub, Finset.sum_sub_distrib]
    simp only [e1, Finset.sum_add_distrib, ← Finset.mul_sum]
    rw [eqPoly_m3 h5 _ _ _ _ a b hab, eqPoly_m1 h3 hcs _ _ _ _ _ a (.inl rfl)]
    have z1 : ∑ q, vel (K := K) e.2.2 _ q a * vel e.2.2 _ q b ^ 2 * (if o.deviationOnly = true then
        eqPoly (vel e.2.2 (e.2.2.headD []).length) (weightVec e.2.2 o.weights) (1 / 3) 1 1 0 0 (fun _ => 0) q else 0) = 0 := by
      cases o.deviationOnly
      · simp
      · simp only [if_true]
        rw [eqPoly_m3 h5 _ _ _ _ a b hab]; ring
    have z2 : ∑ q, vel (K := K) e.2.2 _ q a * (if o.deviationOnly = true then
        eqPoly (vel e.2.2 (e.2.2.headD []).length) (weightVec e.2.2 o.weights) (1 / 3) 1 1 0 0 (fun _ => 0) q else 0) = 0 := by
      cases o.deviationOnly
      · simp
      · simp only [if_true]
        rw [eqPoly_m1 h3 hcs _ _ _ _ _ a (.inl rfl)]; ring
    rw [z1, z2]
    show _ = ((κ : K) / 3 + μ) * (rhoOut comp x.rho * x.u a)
    ring

theorem dirMoment_vel (st : List (List ℤ)) (φ : Vec (st.headD []).length → ℤ) (f : Fin st.length → K) :
    dirMoment (dirs st) φ f = ∑ q, (φ (dirs st q) : K) * f q := rfl

/-- C106. What a flow between plates sees of the methods of the package: any offered moments in any order that relax the shear
stress with rate `ωs` and a multiple of `c_a c_b²` modulo `c_a` with rate `ωq` (`create_srt`, `create_trt`, `create_mrt`, see
`C106_trt`), equilibrium of any order, compressible or not, any storage format, forces along the plates. For equilibria of third and
higher order in three dimensions there must be neither force nor momentum across the flow. -/
theorem C106_method {e} (he : e ∈ Tables.predefined) (h7 : e.2.2.length ≠ 7) (o : MaxwellOptions K e.2.2)
    (cq : Cqc K (e.2.2.headD []).length) (hv : o.Valid cq)
    (h : (o.method cq).relax.length = e.2.2.length) (k : ForceKind)
    (hk : k = .simple ∨ k = .luo ∨ k = .guo ∨ k = .buick ∨ k = .shanChen ∨ k = .edm) (F : Fin (e.2.2.headD []).length → K)
    (hcq : cq.force = some (k, F)) (a b : Fin (e.2.2.headD []).length) (hab : a ≠ b) (hF : F b = 0)
    (ho : 2 < o.order.getD 4 → ∀ d, d ≠ a → d ≠ b → F d = 0) (is iq : Fin e.2.2.length) (κ μ : ℤ) (hκ : κ ≠ 0)
    (his : ∀ q, ((o.method cq).moment h is).at' (e.2.2.get q) = dirs e.2.2 q a * dirs e.2.2 q b)
    (hiq : ∀ q, ((o.method cq).moment h iq).at' (e.2.2.get q) =
      κ * (dirs e.2.2 q a * dirs e.2.2 q b ^ 2) + μ * dirs e.2.2 q a) :
    ∃ r, ((o.withForce cq h k F).method cq).getCollisionRule = .ok r ∧
      ∀ f, (cq.compressible = true → (cq.equilibriumInput (vel e.2.2 _) f).rho ≠ 0) →
        (2 < o.order.getD 4 → ∀ d, d ≠ a → d ≠ b → dirMoment (dirs e.2.2) (fun v => v d) f = 0) →
        PlateCollision (dirs e.2.2) a b ((o.method cq).rate h is) ((o.method cq).rate h iq) (F a) r f := by
  obtain ⟨r, hr, hcons⟩ := C23_predefined e he o cq hv h k F (by rcases hk with rfl | rfl | rfl | rfl | rfl | rfl <;> simp)
    (fun _ => h7) hcq
  refine ⟨r, hr, fun f hrho hac => ?_⟩
  obtain ⟨hm0, hm1⟩ := hcons f (by
    rintro (hc | hc)
    · exact hrho hc
    · rcases hk with rfl | rfl | rfl | rfl | rfl | rfl <;> simp at hc)
  have dv : ∀ (d : Fin (e.2.2.headD []).length) (g : Fin e.2.2.length → K),
      dirMoment (dirs e.2.2) (fun v => v d) g = ∑ q, g q * vel e.2.2 _ q d := fun d g =>
    Finset.sum_congr rfl fun q _ => mul_comm _ _
  obtain ⟨hl, h3, h5'⟩ := C20_weights_isotropic (K := K) e he o.weights hv.weights
  have h5 := h5' h7
  have hv' : (o.withForce cq h k F).Valid cq :=
    ⟨hv.offered, hv.weights, hv.rho0, hv.delta, hv.transform, hv.order⟩
  have hw := MaxwellOptions.wellFormed he _ cq hv'
  have hdet : ((o.method cq).matrix h).det ≠ 0 := hw.1.2
  have d3 : (δ a b : K) = 0 := by unfold δ; rw [if_neg hab]
  obtain ⟨x, hx⟩ : ∃ x, x = cq.equilibriumInput (vel e.2.2 _) f := ⟨_, rfl⟩
  have hrefe : cq.reference x.rho = if cq.compressible then x.rho else 1 := by
    unfold Cqc.reference; rw [hv.rho0]
  have href : cq.reference x.rho ≠ 0 := by
    rw [hrefe]
    rcases hc : cq.compressible
    · simp
    · simpa [hx] using hrho hc
  have hxu : ∀ d, x.u d = (∑ q, f q * vel e.2.2 _ q d) / cq.reference x.rho + k.equilibriumVelocityShift (cq.reference x.rho) F d := by
    intro d
    rw [hx]
    unfold Cqc.equilibriumInput
    rw [hcq]
  have hxb : dirMoment (dirs e.2.2) (fun v => v b) f = 0 → x.u b = 0 := by
    intro hb
    rw [dv] at hb
    rw [hxu, hb]
    rcases hk with rfl | rfl | rfl | rfl | rfl | rfl <;> simp [ForceKind.equilibriumVelocityShift, defaultVelocityShift, hF]
  have hxd : 2 < o.order.getD 4 → ∀ d, d ≠ a → d ≠ b → x.u d = 0 := by
    intro h2 d hda hdb
    have h0 := hac h2 d hda hdb
    rw [dv] at h0
    rw [hxu, h0]
    rcases hk with rfl | rfl | rfl | rfl | rfl | rfl <;>
      simp [ForceKind.equilibriumVelocityShift, defaultVelocityShift, ho h2 d hda hdb]
  -- the force input
  obtain ⟨s, hs⟩ : ∃ s, s = forceInput ((o.method cq).matrix h) (vel e.2.2 _) (weightVec e.2.2 o.weights)
      ((o.method cq).effectiveRates none) cq (o.edmEq cq) (o.heRaw cq h F) F f := ⟨_, rfl⟩
  have sM : s.M = (o.method cq).matrix h := by rw [hs]; rfl
  have sc : s.c = vel e.2.2 _ := by rw [hs]; rfl
  have sw : s.w = weightVec e.2.2 o.weights := by rw [hs]; rfl
  have su : s.u = x.u := by rw [hs, hx]; rfl
  have sF : s.F = F := by rw [hs]; rfl
  have sr : s.rates = (o.method cq).effectiveRates none := by rw [hs]; rfl
  have s5 : Isotropic5 s.c s.w (1 / 3) := by rw [sc, sw]; exact h5
  have rate_eq : ∀ i, (o.method cq).effectiveRates none i = (o.method cq).rate h i := by
    intro i
    have hi : i.val < (o.method cq).relax.length := by rw [h]; exact i.isLt
    show ((o.method cq).relax.map Prod.snd).getD i.val 0 = _
    simp [List.getD_eq_getElem?_getD, List.getElem?_eq_getElem hi, MomentMethod.rate]
  have fm : ∀ i, ((o.withForce cq h k F).method cq).forceMoment h true f i = s.added (MaxwellOptions.heEq cq f) k
      ((o.withForce cq h k F).method cq).momentSpace i := by
    intro i
    rw [hs]
    exact forceMoment_eq ((o.withForce cq h k F).method cq) h k (by rcases hk with rfl | rfl | rfl | rfl | rfl | rfl <;> simp)
      (forceInput ((o.method cq).matrix h) (vel e.2.2 _) (weightVec e.2.2 o.weights)
      ((o.method cq).effectiveRates none) cq (o.edmEq cq) (o.heRaw cq h F) F) (MaxwellOptions.heEq cq) (fun _ => rfl) rfl f i
  have C19 := fun i => MomentMethod.C19_moments ((o.withForce cq h k F).method cq) _ true r hr h f i
  have ev_eq : ∀ i q, s.M i q = (((o.method cq).moment h i).at' (e.2.2.get q) : ℤ) := by
    intro i q; rw [sM]; rfl
  have mom_eq : ∀ i (g : Fin e.2.2.length → K), Spec.mom (((o.withForce cq h k F).method cq).ev
      (((o.withForce cq h k F).method cq).moment h i)) g =
      ∑ q, ((((o.method cq).moment h i).at' (e.2.2.get q) : ℤ) : K) * g q := fun _ _ => rfl
  have bg_eq : ∀ i, ∑ q : Fin e.2.2.length, ((((o.method cq).moment h i).at' (e.2.2.get q) : ℤ) : K) *
      weightVec e.2.2 o.weights q = 0 →
      ((o.withForce cq h k F).method cq).bgMoment (((o.withForce cq h k F).method cq).moment h i) = 0 := by
    intro i hi
    unfold MomentMethod.bgMoment
    split
    · exact hi
    · rfl
  have meq_eq : ∀ i, ((o.withForce cq h k F).method cq).meq f (((o.withForce cq h k F).method cq).moment h i) =
      o.meqOf cq.compressible x ((o.method cq).moment h i) := by
    intro i; rw [hx]; rfl
  have rate' : ∀ i, ((o.withForce cq h k F).method cq).effectiveRates none i = (o.method cq).rate h i := fun i => rate_eq i
  have hk5 : k ≠ .edm → k = .simple ∨ k = .luo ∨ k = .guo ∨ k = .buick ∨ k = .shanChen := by
    intro hne
    rcases hk with h | h | h | h | h | h
    · exact .inl h
    · exact .inr (.inl h)
    · exact .inr (.inr (.inl h))
    · exact .inr (.inr (.inr (.inl h)))
    · exact .inr (.inr (.inr (.inr h)))
    · exact absurd h hne
  -- the model of exact differences adds the difference of two equilibria
  have edm : k = .edm → ∀ i, s.added (MaxwellOptions.heEq cq f) k ((o.withForce cq h k F).method cq).momentSpace i =
      o.meqOf cq.compressible ⟨x.rho, x.rho - 1, fun d => x.u d + F d / cq.reference x.rho⟩ ((o.method cq).moment h i) -
        o.meqOf cq.compressible ⟨x.rho, x.rho - 1, x.u⟩ ((o.method cq).moment h i) := by
    rintro rfl i
    have e0 : s.added (MaxwellOptions.heEq cq f) .edm ((o.withForce cq h .edm F).method cq).momentSpace i = (s.M *ᵥ s.edm) i := by
      unfold ForceInput.added
      cases ((o.withForce cq h .edm F).method cq).momentSpace <;> rfl
    rw [e0]
    show ∑ q, s.M i q * s.edm q = _
    unfold MaxwellOptions.meqOf
    rw [← Finset.sum_sub_distrib]
    refine Finset.sum_congr rfl fun q _ => ?_
    rw [← mul_sub, ev_eq, hrefe, hs, hx]
    rfl
  have edmq := fun hb => And.intro
    (meq_plates he h7 o hv.weights cq.compressible ⟨x.rho, x.rho - 1, fun d => x.u d + F d / cq.reference x.rho⟩ a b hab
      (by show x.u b + F b / _ = 0; rw [hxb hb, hF]; simp)
      (fun h2 d hda hdb => by show x.u d + F d / _ = 0; rw [hxd h2 d hda hdb, ho h2 d hda hdb]; simp))
    (meq_plates he h7 o hv.weights cq.compressible ⟨x.rho, x.rho - 1, x.u⟩ a b hab (hxb hb) hxd)
  refine ⟨hm0, ?_, ?_, fun hb => ?_, fun hb => ?_⟩
  · rw [dv, dv, hm1 b, hF, add_zero]
  · rw [dv, dv, hm1 a]
  · have key := C19 is
    rw [fm, mom_eq, mom_eq, meq_eq, rate'] at key
    have b0 := bg_eq is (by
      have e1 : ∀ q : Fin e.2.2.length, ((((o.method cq).moment h is).at' (e.2.2.get q) : ℤ) : K) *
          weightVec e.2.2 o.weights q = weightVec e.2.2 o.weights q * vel e.2.2 _ q a * vel e.2.2 _ q b := fun q => by
        rw [his]; push_cast
        show vel e.2.2 _ q a * vel e.2.2 _ q b * _ = _
        ring
      simp only [e1]
      rw [h3.m2, d3, mul_zero])
    have a0 : s.added (MaxwellOptions.heEq cq f) k ((o.withForce cq h k F).method cq).momentSpace is = 0 := by
      by_cases hedm : k = .edm
      · rw [edm hedm, (edmq hb).1.1 _ his, (edmq hb).2.1 _ his, sub_zero]
      · exact added_shear _ (by rw [sM]; exact hdet) s5 a b (by rw [su]; exact hxb hb) (by rw [sF]; exact hF) is
          (fun q => by rw [ev_eq, his, sc]; push_cast; rfl) k (hk5 hedm) _
    have q0 := (meq_plates he h7 o hv.weights cq.compressible x a b hab (hxb hb) hxd).1 _ his
    rw [b0, a0, q0] at key
    have sh : ∀ g : Fin e.2.2.length → K, dirMoment (dirs e.2.2) (fun v => v a * v b) g =
        ∑ q, ((((o.method cq).moment h is).at' (e.2.2.get q) : ℤ) : K) * g q := fun g =>
      Finset.sum_congr rfl fun q _ => by rw [his]
    rw [sh, sh]
    linear_combination key
  · have key := C19 iq
    rw [fm, mom_eq, mom_eq, meq_eq, rate'] at key
    have b0 := bg_eq iq (by
      have e1 : ∀ q : Fin e.2.2.length, ((((o.method cq).moment h iq).at' (e.2.2.get q) : ℤ) : K) *
          weightVec e.2.2 o.weights q = κ * (weightVec e.2.2 o.weights q * vel e.2.2 _ q a * vel e.2.2 _ q b * vel e.2.2 _ q b) +
            μ * (weightVec e.2.2 o.weights q * vel e.2.2 _ q a) := fun q => by
        rw [hiq]; push_cast
        show ((κ : K) * (vel e.2.2 _ q a * vel e.2.2 _ q b ^ 2) + μ * vel e.2.2 _ q a) * _ = _
        ring
      simp only [e1, Finset.sum_add_distrib, ← Finset.mul_sum]
      rw [h3.m3, h3.m1]; ring)
    have a0 : s.added (MaxwellOptions.heEq cq f) k ((o.withForce cq h k F).method cq).momentSpace iq =
        ForceInput.forceFactor k (s.rates iq) * (((κ : K) / 3 + μ) * s.F a) := by
      by_cases hedm : k = .edm
      · rw [edm hedm, (edmq hb).1.2 _ κ μ hiq, (edmq hb).2.2 _ κ μ hiq, ← hrefe, hedm, sF]
        simp only [ForceInput.forceFactor]
        field_simp
        ring
      · exact added_flux (s := s) (MaxwellOptions.heEq cq f) (by rw [sM]; exact hdet) s5 a b hab κ μ iq
          (fun q => by rw [ev_eq, hiq, sc]; push_cast; rfl) k (hk5 hedm) ((o.withForce cq h k F).method cq).momentSpace
    have q0 := (meq_plates he h7 o hv.weights cq.compressible x a b hab (hxb hb) hxd).2 _ κ μ hiq
    rw [b0, a0, q0, sF, sr, rate_eq, ← hrefe, hxu] at key
    have hsh : ForceInput.forceFactor k ((o.method cq).rate h iq) * F a +
        (o.method cq).rate h iq * (cq.reference x.rho * k.equilibriumVelocityShift (cq.reference x.rho) F a) = F a := by
      rcases hk with rfl | rfl | rfl | rfl | rfl | rfl <;>
        simp only [ForceInput.forceFactor, ForceKind.equilibriumVelocityShift, defaultVelocityShift] <;> field_simp <;> ring
    have hj : cq.reference x.rho * ((∑ q, f q * vel e.2.2 _ q a) / cq.reference x.rho +
        k.equilibriumVelocityShift (cq.reference x.rho) F a) =
        (∑ q, f q * vel e.2.2 _ q a) + cq.reference x.rho * k.equilibriumVelocityShift (cq.reference x.rho) F a := by
      rw [mul_add, mul_div_cancel₀ _ href]
    rw [hj] at key
    have fl : ∀ g : Fin e.2.2.length → K, κ * dirMoment (dirs e.2.2) (fun v => 3 * (v a * v b ^ 2) - v a) g =
        3 * (∑ q, ((((o.method cq).moment h iq).at' (e.2.2.get q) : ℤ) : K) * g q) -
          (3 * μ + κ) * ∑ q, g q * vel e.2.2 _ q a := by
      intro g
      unfold dirMoment
      rw [Finset.mul_sum, Finset.mul_sum, Finset.mul_sum, ← Finset.sum_sub_distrib]
      refine Finset.sum_congr rfl fun q _ => ?_
      rw [hiq]; push_cast
      show (κ : K) * ((3 * (vel e.2.2 _ q a * vel e.2.2 _ q b ^ 2) - vel e.2.2 _ q a) * g q) =
        3 * ((κ * (vel e.2.2 _ q a * vel e.2.2 _ q b ^ 2) + μ * vel e.2.2 _ q a) * g q) - (3 * μ + κ) * (g q * vel e.2.2 _ q a)
      ring
    have hκ' : (κ : K) ≠ 0 := by exact_mod_cast hκ
    refine mul_left_cancel₀ hκ' ?_
    rw [mul_left_comm, fl, fl, hm1 a]
    linear_combination 3 * key + (κ + 3 * μ) * hsh

/-! ### Methods with two relaxation times -/

/-- the default moments have the shear stress as an even and the flux of shear stress as an odd moment -/
def seesPlates (st : List (List ℤ)) (l : List PExpr) (a b : ℕ) : Bool :=
  (l.any fun p => p.isEven && st.all fun c => p.at' c == c.getD a 0 * c.getD b 0) &&
  l.any fun p => !p.isEven && [1, 6].any fun k => st.all fun c => p.at' c == k * (c.getD a 0 * c.getD b 0 ^ 2)

theorem default_sees_plates : ∀ e ∈ Tables.predefined, e.2.2.length ∈ [9, 15, 19, 27] →
    ((defaultMomentSet (e.2.2.headD []).length e.2.2.length).all fun ps =>
      (List.range (e.2.2.headD []).length).all fun a => (List.range (e.2.2.headD []).length).all fun b =>
        a == b || seesPlates e.2.2 ps a b) = true := by
  decide +kernel

/-- the stencil with these directions -/
abbrev lattice (st : List (List ℤ)) : Stencil (st.headD []).length := ⟨st.length, dirs st⟩

theorem lattice_ok_aux : ∀ e ∈ Tables.predefined, e.2.2.length ∈ [9, 15, 19, 27] →
    (lattice e.2.2).Valid ∧ (lattice e.2.2).InvClosed ∧ ∀ i a, dirs e.2.2 i a = -1 ∨ dirs e.2.2 i a = 0 ∨ dirs e.2.2 i a = 1 := by
  have key : ∀ e ∈ Tables.predefined, decide (e.2.2.length ∈ [9, 15, 19, 27] →
    (lattice e.2.2).Valid ∧ (lattice e.2.2).InvClosed ∧ ∀ i a, dirs e.2.2 i a = -1 ∨ dirs e.2.2 i a = 0 ∨ dirs e.2.2 i a = 1) =
      true := by decide +kernel
  intro e he
  exact of_decide_eq_true (key e he)

/-- C106. Methods with two relaxation times (`create_trt`, `create_srt` for equal rates): the shear stress relaxes with the even
rate and its flux with the odd rate. -/
theorem C106_trt {e} (he : e ∈ Tables.predefined) (hQ : e.2.2.length ∈ [9, 15, 19, 27]) (ps ps' : List PExpr)
    (hps : ps ∈ defaultMomentSet (e.2.2.headD []).length e.2.2.length) (hperm : ps'.Perm ps) (ωe ωo : K)
    (o : MaxwellOptions K e.2.2) (hrel : o.relax = trtRates ps' ωe ωo) (cq : Cqc K (e.2.2.headD []).length) (hv : o.Valid cq)
    (h : (o.method cq).relax.length = e.2.2.length) (k : ForceKind)
    (hk : k = .simple ∨ k = .luo ∨ k = .guo ∨ k = .buick ∨ k = .shanChen ∨ k = .edm) (F : Fin (e.2.2.headD []).length → K)
    (hcq : cq.force = some (k, F)) (a b : Fin (e.2.2.headD []).length) (hab : a ≠ b) (hF : F b = 0)
    (ho : 2 < o.order.getD 4 → ∀ d, d ≠ a → d ≠ b → F d = 0) :
    ∃ r, ((o.withForce cq h k F).method cq).getCollisionRule = .ok r ∧
      ∀ f, (cq.compressible = true → (cq.equilibriumInput (vel e.2.2 _) f).rho ≠ 0) →
        (2 < o.order.getD 4 → ∀ d, d ≠ a → d ≠ b → dirMoment (dirs e.2.2) (fun v => v d) f = 0) →
        PlateCollision (dirs e.2.2) a b ωe ωo (F a) r f := by
  have tab := default_sees_plates e he hQ
  rw [Option.mem_def.1 hps] at tab
  simp only [Option.all_some, List.all_eq_true, List.mem_range, Bool.or_eq_true, beq_iff_eq] at tab
  have t := (tab a a.isLt b b.isLt).resolve_left (fun h => hab (Fin.ext h))
  simp only [seesPlates, Bool.and_eq_true, List.any_eq_true, List.all_eq_true, beq_iff_eq, Bool.not_eq_true'] at t
  obtain ⟨⟨p1, hp1, e1, v1⟩, p2, hp2, e2, κ, hκ, v2⟩ := t
  have hfst : o.relax.map Prod.fst = ps' := by
    rw [hrel, trtRates, List.map_map]; exact List.map_id' ps'
  have pos : ∀ p ∈ ps, ∃ i : Fin e.2.2.length, (o.method cq).moment h i = p ∧ (o.method cq).rate h i = if p.isEven then ωe else ωo := by
    intro p hp
    have hm : p ∈ ps' := hperm.symm.subset hp
    obtain ⟨i, hi, hip⟩ := List.getElem_of_mem hm
    have hl : ps'.length = e.2.2.length := by rw [← hfst, List.length_map]; exact h
    have hi2 : i < o.relax.length := by rw [← List.length_map (f := Prod.fst), hfst]; exact hi
    have hget : o.relax[i]'hi2 = (p, if p.isEven then ωe else ωo) := by
      simp only [hrel, trtRates, List.getElem_map, hip]
    refine ⟨⟨i, by omega⟩, ?_, ?_⟩
    · show (o.relax[i]'hi2).1 = p; rw [hget]
    · show (o.relax[i]'hi2).2 = _; rw [hget]
  obtain ⟨is, m1, r1⟩ := pos p1 hp1
  obtain ⟨iq, m2, r2⟩ := pos p2 hp2
  have h7 : e.2.2.length ≠ 7 := by intro h; rw [h] at hQ; simp at hQ
  have hκ0 : κ ≠ 0 := by
    simp only [List.mem_cons, List.not_mem_nil, or_false] at hκ
    rcases hκ with rfl | rfl <;> norm_num
  obtain ⟨r, hr, hP⟩ := C106_method he h7 o cq hv h k hk F hcq a b hab hF ho is iq κ 0 hκ0
    (fun q => by rw [m1]; exact v1 _ (List.get_mem _ _))
    (fun q => by rw [m2, zero_mul, add_zero]; exact v2 _ (List.get_mem _ _))
  rw [r1, r2, if_pos e1, if_neg (by rw [e2]; simp)] at hP
  exact ⟨r, hr, hP⟩

/-! ### Simulations -/

theorem channel_closed {D Q : ℕ} (size : Fin D → ℕ) (b : Fin D) (c : Fin Q → Vec D) : (channel size b).Closed c := by
  intro x hx i
  have hb : (channel size b).image (x - c i) b = (x - c i) b := by simp [Domain.image, channel]
  refine ⟨fun _ => ?_, fun hn => ?_⟩
  · show (_ ∨ _) ↔ (_ ∨ _)
    rw [hb]
  · by_contra hw
    apply hn
    intro k
    by_cases hk : k = b
    · subst hk
      rw [hb]
      have hw' : ¬ ((x - c i) k < 0 ∨ (size k : ℤ) ≤ (x - c i) k) := hw
      push Not at hw'
      exact hw'
    · have e1 : (channel size b).image (x - c i) k = (x - c i) k % (size k) := by simp [Domain.image, channel, hk]
      rw [e1]
      have := mem_fluid.1 hx k
      show 0 ≤ _ ∧ _ < (size k : ℤ)
      exact ⟨Int.emod_nonneg _ (by omega), Int.emod_lt_of_pos _ (by omega)⟩

/-- C106. A simulation between plates with a method with two relaxation times, `collide_stream` order: if a time step changes
nothing and the flow is the same in all cells of a row, the momentum density that is reported vanishes normal to the plates and is
the parabola plus slip along them. -/
theorem C106_simulation {e} (he : e ∈ Tables.predefined) (hQ : e.2.2.length ∈ [9, 15, 19, 27])
    (cq : Cqc K (e.2.2.headD []).length) (a b : Fin (e.2.2.headD []).length) (k : ForceKind)
    (F : Fin (e.2.2.headD []).length → K) (hcq : cq.force = some (k, F)) (hF : F b = 0)
    (ωe ωo : K) (h0 : ωe ≠ 0) (h2 : ωe ≠ 2) (hq : ωo ≠ 0) (r : (Fin e.2.2.length → K) → Fin e.2.2.length → K)
    (inv : Fin e.2.2.length → Fin e.2.2.length) (hinv : ∀ i, dirs e.2.2 (inv i) = -dirs e.2.2 i)
    (size : Fin (e.2.2.headD []).length → ℕ) (hs : ∀ d, 0 < size d) (p : Step (lattice e.2.2) K)
    (hp : SetUp (channel size b) (fun _ i f => f (inv i)) p) (hr : p.collide = fun _ => r) (pattern : String)
    (s s' : Pdfs (e.2.2.headD []).length e.2.2.length K × Pdfs (e.2.2.headD []).length e.2.2.length K)
    (hC : ∀ x ∈ (channel size b).fluid, PlateCollision (dirs e.2.2) a b ωe ωo (F a) r fun i => s.1 (x, i))
    (hrow : ∀ x ∈ (channel size b).fluid, ∀ y ∈ (channel size b).fluid, x b = y b → ∀ i, s.1 (x, i) = s.1 (y, i))
    (step : p.steps pattern .collideStream 1 s = some s')
    (steady : ∀ x ∈ (channel size b).fluid, ∀ i, s'.1 (x, i) = s.1 (x, i)) (csSq : K) :
    ∀ x ∈ (channel size b).fluid,
      (cq.output csSq (vel e.2.2 _) fun i => s.1 (x, i)).momentumDensity b = 0 ∧
      (cq.output csSq (vel e.2.2 _) fun i => s.1 (x, i)).momentumDensity a =
        planePoiseuille (F a) ((1 / ωe - 1 / 2) / 3) (size b) (x b - (size b - 1) / 2) +
          2 * F a / (3 * ((1 / ωe - 1 / 2) / 3)) * ((1 / ωe - 1 / 2) * (1 / ωo - 1 / 2) - 3 / 16) := by
  obtain ⟨hv, hc, hc1⟩ := lattice_ok_aux e he hQ
  obtain ⟨s2, st2, h⟩ := C105_collide_stream hv hc (channel_closed size b _) hp pattern 1 s
  rw [step] at st2
  obtain rfl := Option.some.inj st2
  have hst : ∀ x ∈ (channel size b).fluid,
      (channel size b).collideStream (dirs e.2.2) (fun _ i f => f (inv i)) (fun _ => r) (fun x i => s.1 (x, i)) x =
        fun i => s.1 (x, i) := by
    intro x hx
    have := h x hx
    rw [Function.iterate_one, hr] at this
    rw [← this]
    exact funext fun i => steady x hx i
  have key := C106_profile (a := a) hv hinv (fun i => hc1 i b) hs
    (fun x hx y hy hxy => funext fun i => hrow x hx y hy hxy i) hst ωe ωo (F a) h0 h2 hq hC
  intro x hx
  obtain ⟨k1, k2⟩ := key x hx
  have dv : ∀ (d : Fin (e.2.2.headD []).length) (g : Fin e.2.2.length → K),
      dirMoment (dirs e.2.2) (fun v => v d) g = ∑ q, g q * vel e.2.2 _ q d := fun d g =>
    Finset.sum_congr rfl fun q _ => mul_comm _ _
  rw [dv] at k1 k2
  constructor
  · simp only [Cqc.output, hcq, defaultMomentumDensityShift, hF, k1]; simp
  · simp only [Cqc.output, hcq, defaultMomentumDensityShift]; exact k2

/-- C106. The same with the default order `stream_collide`, whose populations are those after the collision: the force is added to
the parabola and the slip. -/
theorem C106_simulation_default {e} (he : e ∈ Tables.predefined) (hQ : e.2.2.length ∈ [9, 15, 19, 27])
    (cq : Cqc K (e.2.2.headD []).length) (a b : Fin (e.2.2.headD []).length) (k : ForceKind)
    (F : Fin (e.2.2.headD []).length → K) (hcq : cq.force = some (k, F)) (hF : F b = 0)
    (ωe ωo : K) (h0 : ωe ≠ 0) (h2 : ωe ≠ 2) (hq : ωo ≠ 0) (r : (Fin e.2.2.length → K) → Fin e.2.2.length → K)
    (inv : Fin e.2.2.length → Fin e.2.2.length) (hinv : ∀ i, dirs e.2.2 (inv i) = -dirs e.2.2 i)
    (size : Fin (e.2.2.headD []).length → ℕ) (hs : ∀ d, 0 < size d) (p : Step (lattice e.2.2) K)
    (hp : SetUp (channel size b) (fun _ i f => f (inv i)) p) (hr : p.collide = fun _ => r)
    (s s' : Pdfs (e.2.2.headD []).length e.2.2.length K × Pdfs (e.2.2.headD []).length e.2.2.length K)
    (hC : ∀ x ∈ (channel size b).fluid, PlateCollision (dirs e.2.2) a b ωe ωo (F a) r
      ((channel size b).stream (dirs e.2.2) (fun _ i f => f (inv i)) (fun x i => s.1 (x, i)) x))
    (hrow : ∀ x ∈ (channel size b).fluid, ∀ y ∈ (channel size b).fluid, x b = y b → ∀ i, s.1 (x, i) = s.1 (y, i))
    (step : p.steps "pull" .streamCollide 1 s = some s')
    (steady : ∀ x ∈ (channel size b).fluid, ∀ i, s'.1 (x, i) = s.1 (x, i)) (csSq : K) :
    ∀ x ∈ (channel size b).fluid,
      (cq.output csSq (vel e.2.2 _) fun i => s.1 (x, i)).momentumDensity b = 0 ∧
      (cq.output csSq (vel e.2.2 _) fun i => s.1 (x, i)).momentumDensity a =
        planePoiseuille (F a) ((1 / ωe - 1 / 2) / 3) (size b) (x b - (size b - 1) / 2) +
          2 * F a / (3 * ((1 / ωe - 1 / 2) / 3)) * ((1 / ωe - 1 / 2) * (1 / ωo - 1 / 2) - 3 / 16) + F a := by
  obtain ⟨hv, hc, hc1⟩ := lattice_ok_aux e he hQ
  have hcl := channel_closed size b (dirs e.2.2)
  obtain ⟨s2, st2, h⟩ := C105_stream_collide hv hc hcl hp 1 s
  rw [step] at st2
  obtain rfl := Option.some.inj st2
  obtain ⟨g, hg⟩ : ∃ g : Vec _ → Fin e.2.2.length → K, g = fun x i => s.1 (x, i) := ⟨_, rfl⟩
  have hst : ∀ x ∈ (channel size b).fluid,
      (channel size b).streamCollide (dirs e.2.2) (fun _ i f => f (inv i)) (fun _ => r) g x = g x := by
    intro x hx
    have := h x hx
    rw [Function.iterate_one, hr, ← hg] at this
    refine this.symm.trans ?_
    rw [hg]
    exact funext fun i => steady x hx i
  have hst2 := C105_steady (S := lattice e.2.2) hcl g (fun _ => r) hst
  obtain ⟨G, hG⟩ : ∃ G, G = (channel size b).stream (dirs e.2.2) (fun _ i f => f (inv i)) g := ⟨_, rfl⟩
  have hrowG : ∀ x ∈ (channel size b).fluid, ∀ y ∈ (channel size b).fluid, x b = y b → G x = G y := by
    intro x hx y hy hxy
    rw [hG]
    funext i
    unfold Domain.stream
    have hw : (channel size b).wall (x - dirs e.2.2 i) ↔ (channel size b).wall (y - dirs e.2.2 i) := by
      show (_ ∨ _) ↔ (_ ∨ _)
      rw [Pi.sub_apply, Pi.sub_apply, hxy]
    by_cases hwx : (channel size b).wall (x - dirs e.2.2 i)
    · rw [if_pos hwx, if_pos (hw.1 hwx), hg]
      exact hrow x hx y hy hxy _
    · rw [if_neg hwx, if_neg (fun h => hwx (hw.2 h)), hg]
      have mem : ∀ z ∈ (channel size b).fluid, ¬ (channel size b).wall (z - dirs e.2.2 i) →
          (channel size b).image (z - dirs e.2.2 i) ∈ (channel size b).fluid := by
        intro z hz hwz
        by_contra hn
        have hin : (channel size b).Inner ((channel size b).image (z - dirs e.2.2 i)) := by
          by_contra hin
          exact hwz ((hcl z hz i).2 hin)
        exact hn ⟨hin, fun hw => hwz (((hcl z hz i).1 hin).2 hw)⟩
      refine hrow _ (mem x hx hwx) _ (mem y hy fun h => hwx (hw.2 h)) ?_ i
      simp [Domain.image, channel, hxy]
  have key := C106_profile (a := a) (g := G) hv hinv (fun i => hc1 i b) hs hrowG
    (fun x hx => by rw [hG]; exact (hst2 x hx).1) ωe ωo (F a) h0 h2 hq
    (fun x hx => by rw [hG, hg]; exact hC x hx)
  intro x hx
  obtain ⟨k1, k2⟩ := key x hx
  have hgx : (fun i => s.1 (x, i)) = r (G x) := by
    have := (hst2 x hx).2
    rw [hG]
    rw [← this, hg]
  have dv : ∀ (d : Fin (e.2.2.headD []).length) (g : Fin e.2.2.length → K),
      dirMoment (dirs e.2.2) (fun v => v d) g = ∑ q, g q * vel e.2.2 _ q d := fun d g =>
    Finset.sum_congr rfl fun q _ => mul_comm _ _
  have hCx := hC x hx
  rw [← hg, ← hG] at hCx
  have c1 := hCx.normal
  have c2 := hCx.along
  rw [k1] at c1
  rw [dv, ← hgx] at c1 c2
  constructor
  · simp only [Cqc.output, hcq, defaultMomentumDensityShift, hF, c1]; simp
  · simp only [Cqc.output, hcq, defaultMomentumDensityShift, c2]
    linear_combination k2

end

/-- C106. With the second rate from the magic number 3/16 (`relaxation_rate_from_magic_number`, the default of
`create_trt_with_magic_number`) there is no slip: the profile is exactly `poiseuille_flow` of a channel whose walls are half a cell
outside of the outermost cells, for every viscosity. -/
theorem C106_magic (ω : ℝ) (h : 0 < ω) (h2 : ω < 2) : ∃ ωo nu, rateOfMagicNumber ω = some ωo ∧ 0 < ωo ∧ ωo < 2 ∧
    viscosityOfRate ω = some nu ∧ ∀ F height m : ℝ,
      planePoiseuille F ((1 / ω - 1 / 2) / 3) height m +
          2 * F / (3 * ((1 / ω - 1 / 2) / 3)) * ((1 / ω - 1 / 2) * (1 / ωo - 1 / 2) - 3 / 16) =
        Geometry.poiseuilleFlow m height F nu := by
  obtain ⟨ωo, e1, e2, e3, e4⟩ := C24_magic_number ω (3 / 16) h h2 (by norm_num)
  refine ⟨ωo, (1 / ω - 1 / 2) / 3, e1, e2, e3, ?_, fun F height m => ?_⟩
  · unfold viscosityOfRate pyDiv
    rw [if_neg (by positivity)]
    congr 1
    field_simp
    ring
  · rw [e4, sub_self, mul_zero, add_zero]
    unfold planePoiseuille Geometry.poiseuilleFlow
    ring

/-- C106. Altogether: methods of `create_trt_with_magic_number` with the default magic number, incompressible, in `collide_stream`
order. The velocity that is reported for a steady flow between plates is `poiseuille_flow`. -/
theorem C106_poiseuille_flow {e} (he : e ∈ Tables.predefined) (hQ : e.2.2.length ∈ [9, 15, 19, 27]) (ps ps' : List PExpr)
    (hps : ps ∈ defaultMomentSet (e.2.2.headD []).length e.2.2.length) (hperm : ps'.Perm ps) (ω : ℝ) (h0 : 0 < ω) (h2 : ω < 2) :
    ∃ ωo nu, rateOfMagicNumber ω = some ωo ∧ viscosityOfRate ω = some nu ∧
    ∀ (o : MaxwellOptions ℝ e.2.2) (_ : o.relax = trtRates ps' ω ωo) (cq : Cqc ℝ (e.2.2.headD []).length) (_ : o.Valid cq)
      (_ : cq.compressible = false) (h : (o.method cq).relax.length = e.2.2.length) (k : ForceKind)
      (_ : k = .simple ∨ k = .luo ∨ k = .guo ∨ k = .buick ∨ k = .shanChen ∨ k = .edm) (F : Fin (e.2.2.headD []).length → ℝ)
      (_ : cq.force = some (k, F)) (a b : Fin (e.2.2.headD []).length) (_ : a ≠ b) (_ : F b = 0)
      (_ : 2 < o.order.getD 4 → ∀ d, d ≠ a → d ≠ b → F d = 0),
    ∃ r, ((o.withForce cq h k F).method cq).getCollisionRule = .ok r ∧
    ∀ (inv : Fin e.2.2.length → Fin e.2.2.length) (_ : ∀ i, dirs e.2.2 (inv i) = -dirs e.2.2 i)
      (size : Fin (e.2.2.headD []).length → ℕ) (_ : ∀ d, 0 < size d) (p : Step (lattice e.2.2) ℝ)
      (_ : SetUp (channel size b) (fun _ i f => f (inv i)) p) (_ : p.collide = fun _ => r) (pattern : String)
      (s s' : Pdfs (e.2.2.headD []).length e.2.2.length ℝ × Pdfs (e.2.2.headD []).length e.2.2.length ℝ)
      (_ : ∀ x ∈ (channel size b).fluid, ∀ y ∈ (channel size b).fluid, x b = y b → ∀ i, s.1 (x, i) = s.1 (y, i))
      (_ : p.steps pattern .collideStream 1 s = some s')
      (_ : ∀ x ∈ (channel size b).fluid, ∀ i, s'.1 (x, i) = s.1 (x, i))
      (_ : 2 < o.order.getD 4 → ∀ x ∈ (channel size b).fluid, ∀ d, d ≠ a → d ≠ b →
        dirMoment (dirs e.2.2) (fun v => v d) (fun i => s.1 (x, i)) = 0) (csSq : ℝ),
    ∀ x ∈ (channel size b).fluid,
      (cq.output csSq (vel e.2.2 _) fun i => s.1 (x, i)).velocity a =
        Geometry.poiseuilleFlow ((x b : ℝ) - ((size b : ℝ) - 1) / 2) (size b) (F a) nu := by
  obtain ⟨ωo, nu, e1, hp, -, e2, e3⟩ := C106_magic ω h0 h2
  refine ⟨ωo, nu, e1, e2, ?_⟩
  intro o hrel cq hv hcomp h k hk F hcq a b hab hF ho
  obtain ⟨r, hr, hC⟩ := C106_trt he hQ ps ps' hps hperm ω ωo o hrel cq hv h k hk F hcq a b hab hF ho
  refine ⟨r, hr, ?_⟩
  intro inv hinv size hs p hset hcol pattern s s' hrow step steady hac csSq x hx
  have := (C106_simulation he hQ cq a b k F hcq hF ω ωo h0.ne' h2.ne hp.ne' r inv hinv size hs p hset hcol pattern s s'
    (fun x hx => hC _ (fun h' => by rw [hcomp] at h'; cases h') fun h2 => hac h2 x hx) hrow step steady csSq x hx).2
  rw [e3] at this
  rw [← this]
  simp only [Cqc.output, hcq, Cqc.reference, hv.rho0, hcomp, defaultMomentumDensityShift, defaultVelocityShift]
  simp

/-! ### There is such a flow -/

section Existence
variable {K : Type} [Field K] [CharZero K] [DecidableEq K]

theorem weightVec_inv {e} (he : e ∈ Tables.predefined) (ws : List ℚ) (hws : getWeights e.2.2 = some ws)
    (q q' : Fin e.2.2.length) (hq : dirs e.2.2 q' = -dirs e.2.2 q) : weightVec (K := K) e.2.2 ws q' = weightVec e.2.2 ws q := by
  obtain ⟨hl, -, -⟩ := C20_weights_isotropic (K := K) e he ws hws
  have rect := predefined_rectangular e he
  have := (C20_weights_elementary e he).2 ws hws
  unfold weightVec
  have l1 := rect _ (List.get_mem e.2.2 q')
  have l2 := rect _ (List.get_mem e.2.2 q)
  rw [this.2.2.2 q' (by rw [hl]; exact q'.isLt) q (by rw [hl]; exact q.isLt) ?_]
  rw [List.getD_eq_getElem _ _ q'.isLt, List.getD_eq_getElem _ _ q.isLt]
  refine List.ext_getElem (by simp only [List.length_map]; exact l1.trans l2.symm) fun n h1 h2 => ?_
  rw [List.length_map] at h1
  have hn : n < (e.2.2.headD []).length := by rw [← l1]; exact h1
  have := congrFun hq ⟨n, hn⟩
  simp only [dirs, Pi.neg_apply, List.get_eq_getElem] at this
  rw [List.getD_eq_getElem _ _ h1, List.getD_eq_getElem _ _ h2] at this
  rw [List.getElem_map, this, neg_neg]

/-- The rule of `create_trt` with an equilibrium of first order and the force model `Simple`, in population space. -/
theorem linear_rule {e} (he : e ∈ Tables.predefined) (hQ : e.2.2.length ∈ [9, 15, 19, 27]) (ps ps' : List PExpr)
    (hps : ps ∈ defaultMomentSet (e.2.2.headD []).length e.2.2.length) (hperm : ps'.Perm ps) (ωe ωo : K)
    (o : MaxwellOptions K e.2.2) (hrel : o.relax = trtRates ps' ωe ωo) (cq : Cqc K (e.2.2.headD []).length) (hv : o.Valid cq)
    (ho : o.order.getD 4 ≤ 1) (hz : cq.zeroCentered = o.deviationOnly) (h : (o.method cq).relax.length = e.2.2.length)
    (F : Fin (e.2.2.headD []).length → K) (hcq : cq.force = some (.simple, F))
    (inv : Fin e.2.2.length → Fin e.2.2.length) (hinv : ∀ i, dirs e.2.2 (inv i) = -dirs e.2.2 i) :
    ∃ r, ((o.withForce cq h .simple F).method cq).getCollisionRule = .ok r ∧
      ∀ f, (cq.compressible = true → (cq.equilibriumInput (vel e.2.2 _) f).rho ≠ 0) → ∀ q,
        r f q = f q +
          ωe * (weightVec e.2.2 o.weights q * ∑ i, f i - (f q + f (inv q)) / 2) +
          ωo * (3 * (weightVec e.2.2 o.weights q * dot (vel e.2.2 (e.2.2.headD []).length q) fun a => ∑ i, f i * vel e.2.2 (e.2.2.headD []).length i a) - (f q - f (inv q)) / 2) +
          3 * (weightVec e.2.2 o.weights q * dot (vel e.2.2 _ q) F) := by
  obtain ⟨hvl, hcl, -⟩ := lattice_ok_aux e he hQ
  obtain ⟨hl, h3, -⟩ := C20_weights_isotropic (K := K) e he o.weights hv.weights
  have hv' : (o.withForce cq h .simple F).Valid cq :=
    ⟨hv.offered, hv.weights, hv.rho0, hv.delta, hv.transform, hv.order⟩
  have hw := MaxwellOptions.wellFormed he _ cq hv'
  obtain ⟨r, hr⟩ := (MomentMethod.C19_defined_iff _ (MomentMethod.effectiveRates _ none) true).2 hw
  have hinv2 : ∀ q, inv (inv q) = q := fun q => hvl (by show dirs _ _ = dirs _ _; rw [hinv, hinv, neg_neg])
  have h3D := predefined_dim_le e he
  have rect := predefined_rectangular e he
  have hinv3 : ∀ q (i : Fin 3), (e.2.2.get (inv q)).getD i 0 = -(e.2.2.get q).getD i 0 := by
    intro q i
    by_cases hi : i.val < (e.2.2.headD []).length
    · exact congrFun (hinv q) ⟨i, hi⟩
    · have l1 := rect _ (List.get_mem e.2.2 (inv q))
      have l2 := rect _ (List.get_mem e.2.2 q)
      rw [List.getD_eq_default _ _ (by omega), List.getD_eq_default _ _ (by omega), neg_zero]
  have hzc : (({ o with force := none } : MaxwellOptions K e.2.2).method cq).zeroCentered = false ∨
      (({ o with force := none } : MaxwellOptions K e.2.2).method cq).deviationOnly = true := by
    show cq.zeroCentered = false ∨ o.deviationOnly = true
    rw [hz]
    cases o.deviationOnly <;> simp
  obtain ⟨r0, hr0, h38⟩ := C38_create_trt e he ps hps ps' hperm ωe ωo (({ o with force := none } : MaxwellOptions K e.2.2).method cq)
    hrel (fun _ _ => rfl) rfl hzc (fun f q => (o.populations cq.compressible (cq.equilibriumInput (vel e.2.2 _) f)).getD q 0)
    (fun _ _ _ => rfl) inv hinv2 hinv3
  refine ⟨r, hr, fun f hrho q => ?_⟩
  obtain ⟨s, hs⟩ : ∃ s, s = forceInput ((o.method cq).matrix h) (vel e.2.2 _) (weightVec e.2.2 o.weights)
      ((o.method cq).effectiveRates none) cq (o.edmEq cq) (o.heRaw cq h F) F f := ⟨_, rfl⟩
  have split : r f = fun q => r0 f q + s.simple q := by
    refine MomentMethod.ext_moments ((o.withForce cq h .simple F).method cq) hw h fun i => ?_
    have k1 := MomentMethod.C19_moments ((o.withForce cq h .simple F).method cq) _ true r hr h f i
    have k2 : Spec.mom (((o.withForce cq h .simple F).method cq).ev (((o.withForce cq h .simple F).method cq).moment h i)) (r0 f) + ((o.withForce cq h .simple F).method cq).bgMoment (((o.withForce cq h .simple F).method cq).moment h i) =
        (Spec.mom (((o.withForce cq h .simple F).method cq).ev (((o.withForce cq h .simple F).method cq).moment h i)) f + ((o.withForce cq h .simple F).method cq).bgMoment (((o.withForce cq h .simple F).method cq).moment h i)) +
        ((o.withForce cq h .simple F).method cq).effectiveRates none i * (((o.withForce cq h .simple F).method cq).meq f (((o.withForce cq h .simple F).method cq).moment h i) -
          (Spec.mom (((o.withForce cq h .simple F).method cq).ev (((o.withForce cq h .simple F).method cq).moment h i)) f + ((o.withForce cq h .simple F).method cq).bgMoment (((o.withForce cq h .simple F).method cq).moment h i))) +
        (({ o with force := none } : MaxwellOptions K e.2.2).method cq).forceMoment h true f i :=
      MomentMethod.C19_moments (({ o with force := none } : MaxwellOptions K e.2.2).method cq) _ true r0 hr0 h f i
    have f1 : ((o.withForce cq h .simple F).method cq).forceMoment h true f i = (s.M *ᵥ s.simple) i := by
      rw [forceMoment_eq ((o.withForce cq h .simple F).method cq) h .simple (by simp)
        (forceInput ((o.method cq).matrix h) (vel e.2.2 _) (weightVec e.2.2 o.weights)
        ((o.method cq).effectiveRates none) cq (o.edmEq cq) (o.heRaw cq h F) F) (MaxwellOptions.heEq cq) (fun _ => rfl) rfl f i,
        ← hs]
      unfold ForceInput.added
      split <;> rfl
    have f2 : (({ o with force := none } : MaxwellOptions K e.2.2).method cq).forceMoment h true f i = 0 := by
      unfold MomentMethod.forceMoment MomentMethod.popForcing MomentMethod.momentForcing
      have : (({ o with force := none } : MaxwellOptions K e.2.2).method cq).force = none := rfl
      rw [this]
      simp
    have f3 : Spec.mom (((o.withForce cq h .simple F).method cq).ev (((o.withForce cq h .simple F).method cq).moment h i)) (fun q => r0 f q + s.simple q) =
        Spec.mom (((o.withForce cq h .simple F).method cq).ev (((o.withForce cq h .simple F).method cq).moment h i)) (r0 f) + (s.M *ᵥ s.simple) i := by
      have e3 : (s.M *ᵥ s.simple) i = Spec.mom (((o.withForce cq h .simple F).method cq).ev (((o.withForce cq h .simple F).method cq).moment h i)) s.simple := by
        rw [hs]; rfl
      rw [e3]
      simp only [Spec.mom, mul_add, Finset.sum_add_distrib]
    rw [f3]
    rw [f1] at k1
    rw [f2] at k2
    linear_combination k1 - k2
  have hsq : s.simple q = 3 * (weightVec e.2.2 o.weights q * dot (vel e.2.2 _ q) F) := by
    rw [ForceInput.simple_eq, hs]; rfl
  rw [split]
  show r0 f q + s.simple q = _
  rw [hsq]
  obtain ⟨x, hx⟩ : ∃ x, x = cq.equilibriumInput (vel e.2.2 _) f := ⟨_, rfl⟩
  have hrefe : cq.reference x.rho = rhoOut cq.compressible x.rho := by
    unfold Cqc.reference rhoOut; rw [hv.rho0]
  have href : cq.reference x.rho ≠ 0 := by
    rw [hrefe]; unfold rhoOut
    rcases hc : cq.compressible
    · simp
    · simpa [hx] using hrho hc
  have hxu : x.u = fun d => (∑ q, f q * vel e.2.2 _ q d) / cq.reference x.rho := by
    funext d
    rw [hx]
    unfold Cqc.equilibriumInput
    rw [hcq]
    show _ + 0 = _
    rw [add_zero]
  have hg2 : g2 (o.order.getD 4) = (0 : K) := by unfold g2; rw [if_pos (by omega)]
  have hg3 : g3 (o.order.getD 4) = (0 : K) := by unfold g3; rw [if_pos (by omega)]
  have feq : ∀ q : Fin e.2.2.length, (o.populations cq.compressible x).getD q 0 =
      weightVec e.2.2 o.weights q * (∑ i, f i) +
        3 * (weightVec e.2.2 o.weights q * dot (vel e.2.2 (e.2.2.headD []).length q) fun a => ∑ i, f i * vel e.2.2 (e.2.2.headD []).length i a) := by
    intro q
    rw [populations_eq he o hv.weights, hg2, hg3]
    have ed : dot (vel (K := K) e.2.2 _ q) x.u * cq.reference x.rho = dot (vel e.2.2 (e.2.2.headD []).length q) fun a => ∑ i, f i * vel e.2.2 (e.2.2.headD []).length i a := by
      rw [hxu]
      unfold dot
      rw [Finset.sum_mul]
      exact Finset.sum_congr rfl fun d _ => by field_simp
    have hio : rhoOut cq.compressible x.rho * rhoIn cq.compressible x.rho = x.rho := by
      cases cq.compressible <;> simp [rhoOut, rhoIn]
    have hrho' : x.rho - (if o.deviationOnly then 1 else 0) = ∑ i, f i := by
      rw [hx]
      unfold Cqc.equilibriumInput
      simp only [hz, hv.rho0]
      cases o.deviationOnly <;> simp
    rw [hrefe] at ed
    have z : dot (vel (K := K) e.2.2 (e.2.2.headD []).length q) (fun _ => 0) = 0 := by simp [dot]
    have dev : (if o.deviationOnly then eqPoly (vel e.2.2 (e.2.2.headD []).length) (weightVec e.2.2 o.weights) (1 / 3) 1 1 0 0
        (fun _ => 0) q else 0) = weightVec (K := K) e.2.2 o.weights q * if o.deviationOnly then 1 else 0 := by
      split
      · unfold eqPoly; rw [z]; ring
      · simp
    rw [dev]
    unfold eqPoly
    linear_combination weightVec (K := K) e.2.2 o.weights q * hrho' + weightVec (K := K) e.2.2 o.weights q * hio + 3 * weightVec (K := K) e.2.2 o.weights q * ed
  have winv : weightVec (K := K) e.2.2 o.weights (inv q) = weightVec e.2.2 o.weights q :=
    weightVec_inv he o.weights hv.weights q (inv q) (hinv q)
  have vinv : ∀ x : Fin (e.2.2.headD []).length → K, dot (vel e.2.2 _ (inv q)) x = -dot (vel e.2.2 _ q) x := by
    intro x
    unfold dot
    rw [← Finset.sum_neg_distrib]
    refine Finset.sum_congr rfl fun d _ => ?_
    have : (dirs e.2.2 (inv q) d : ℤ) = - dirs e.2.2 q d := congrFun (hinv q) d
    have h' : vel (K := K) e.2.2 (e.2.2.headD []).length (inv q) d = -vel e.2.2 _ q d := by
      show ((dirs e.2.2 (inv q) d : ℤ) : K) = -((dirs e.2.2 q d : ℤ) : K)
      rw [this]; push_cast; ring
    rw [h']; ring
  obtain ⟨a1, a2⟩ := h38 f q
  rw [← hx, feq, feq, winv, vinv] at a1 a2
  linear_combination a1 + a2

/-- populations of a flow along axis `a` -/
def planeFlow {D Q : ℕ} (w : Fin Q → K) (c : Fin Q → Fin D → K) (a b : Fin D) (ρ p0 p1 p2 : K) (i : Fin Q) : K :=
  w i * (ρ + c i a * (p0 + p1 * c i b + p2 * c i b ^ 2))

theorem planeFlow_mass {D Q : ℕ} {w : Fin Q → K} {c : Fin Q → Fin D → K} (h : Isotropic5 c w (1 / 3)) {a b : Fin D} (hab : a ≠ b)
    (ρ p0 p1 p2 : K) : ∑ i, planeFlow w c a b ρ p0 p1 p2 i = ρ := by
  have d : (δ a b : K) = 0 := by unfold δ; rw [if_neg hab]
  have e : ∀ i, planeFlow w c a b ρ p0 p1 p2 i =
      ρ * w i + p0 * (w i * c i a) + p1 * (w i * c i a * c i b) + p2 * (w i * c i a * c i b * c i b) := by
    intro i; unfold planeFlow; ring
  simp only [e, Finset.sum_add_distrib, ← Finset.mul_sum]
  rw [h.m0, h.m1, h.m2, h.m3, d]
  ring

theorem planeFlow_momentum {D Q : ℕ} {w : Fin Q → K} {c : Fin Q → Fin D → K} (h : Isotropic5 c w (1 / 3)) {a b : Fin D} (hab : a ≠ b)
    (ρ p0 p1 p2 : K) (d : Fin D) : ∑ i, planeFlow w c a b ρ p0 p1 p2 i * c i d = δ a d * (p0 / 3 + p2 / 9) := by
  have h1 : (δ a b : K) = 0 := by unfold δ; rw [if_neg hab]
  have h2 : (δ b b : K) = 1 := by unfold δ; rw [if_pos rfl]
  have e : ∀ i, planeFlow w c a b ρ p0 p1 p2 i * c i d =
      ρ * (w i * c i d) + p0 * (w i * c i a * c i d) + p1 * (w i * c i a * c i b * c i d) +
        p2 * (w i * c i a * c i b * c i b * c i d) := by
    intro i; unfold planeFlow; ring
  simp only [e, Finset.sum_add_distrib, ← Finset.mul_sum]
  rw [h.m1, h.m2, h.m3, h.m4, h1, h2]
  ring

/-- Steady flows between plates that add `6 w c_a U` to what comes back. -/
theorem exists_flow {e} (he : e ∈ Tables.predefined) (hQ : e.2.2.length ∈ [9, 15, 19, 27]) (ps ps' : List PExpr)
    (hps : ps ∈ defaultMomentSet (e.2.2.headD []).length e.2.2.length) (hperm : ps'.Perm ps) (ωe ωo : K)
    (h2 : ωe ≠ 2) (hq : ωo ≠ 0)
    (o : MaxwellOptions K e.2.2) (hrel : o.relax = trtRates ps' ωe ωo) (cq : Cqc K (e.2.2.headD []).length) (hv : o.Valid cq)
    (ho : o.order.getD 4 ≤ 1) (hz : cq.zeroCentered = o.deviationOnly) (h : (o.method cq).relax.length = e.2.2.length)
    (F : Fin (e.2.2.headD []).length → K) (hcq : cq.force = some (.simple, F)) (a b : Fin (e.2.2.headD []).length) (hab : a ≠ b)
    (hF : ∀ d, d ≠ a → F d = 0)
    (inv : Fin e.2.2.length → Fin e.2.2.length) (hinv : ∀ i, dirs e.2.2 (inv i) = -dirs e.2.2 i)
    (size : Fin (e.2.2.headD []).length → ℕ) (U₀ U₁ γ : K)
    (hγ : 3 * (size b * ωe * γ) = U₁ - U₀) (W : Vec (e.2.2.headD []).length → Fin e.2.2.length → (Fin e.2.2.length → K) → K)
    (hW : ∀ x i f, W x i f = f (inv i) +
      6 * (weightVec e.2.2 o.weights i * (dirs e.2.2 i a * if dirs e.2.2 i b = 1 then U₀ else U₁)))
    (ρ : K) (hρ : cq.compressible = true → ρ + (if o.deviationOnly then 1 else 0) ≠ 0) :
    ∃ r, ((o.withForce cq h .simple F).method cq).getCollisionRule = .ok r ∧
      ∃ g : Vec (e.2.2.headD []).length → Fin e.2.2.length → K, (∀ x y, x b = y b → g x = g y) ∧ (∀ x, ∑ i, g x i = ρ) ∧
        (∀ x, PlateCollision (dirs e.2.2) a b ωe ωo (F a) r (g x)) ∧
        ∀ x ∈ (channel size b).fluid,
          (channel size b).collideStream (dirs e.2.2) W (fun _ => r) g x = g x := by
  obtain ⟨r, hr, lin⟩ := linear_rule he hQ ps ps' hps hperm ωe ωo o hrel cq hv ho hz h F hcq inv hinv
  obtain ⟨r', hr', plates⟩ := C106_trt he hQ ps ps' hps hperm ωe ωo o hrel cq hv h .simple (by simp) F hcq a b hab
    (hF b hab.symm) (fun _ d hd _ => hF d hd)
  obtain rfl : r = r' := by rw [hr] at hr'; exact Except.ok.inj hr'
  have h7 : e.2.2.length ≠ 7 := by intro h7; rw [h7] at hQ; simp at hQ
  obtain ⟨hl, -, h5'⟩ := C20_weights_isotropic (K := K) e he o.weights hv.weights
  have h5 := h5' h7
  obtain ⟨-, -, hc1⟩ := lattice_ok_aux e he hQ
  obtain ⟨w, hw⟩ : ∃ w, w = weightVec (K := K) e.2.2 o.weights := ⟨_, rfl⟩
  obtain ⟨c, hc⟩ : ∃ c, c = vel (K := K) e.2.2 (e.2.2.headD []).length := ⟨_, rfl⟩
  rw [← hw, ← hc] at h5
  have cneg : ∀ q d, c (inv q) d = -c q d := by
    intro q d
    have : dirs e.2.2 (inv q) d = -dirs e.2.2 q d := congrFun (hinv q) d
    rw [hc]
    show ((dirs e.2.2 (inv q) d : ℤ) : K) = -((dirs e.2.2 q d : ℤ) : K)
    rw [this]; push_cast; ring
  have rhoOk : ∀ p0 p1 p2, cq.compressible = true →
      (cq.equilibriumInput (vel e.2.2 _) (planeFlow w c a b ρ p0 p1 p2)).rho ≠ 0 := by
    intro p0 p1 p2 hcomp
    have : (cq.equilibriumInput (vel e.2.2 _) (planeFlow w c a b ρ p0 p1 p2)).rho = ρ + if o.deviationOnly then 1 else 0 := by
      unfold Cqc.equilibriumInput
      simp only [hz, hv.rho0, planeFlow_mass h5 hab]
      cases o.deviationOnly <;> simp [add_comm]
    rw [this]; exact hρ hcomp
  have rot : ∀ p0 p1 p2, ∀ q, r (planeFlow w c a b ρ p0 p1 p2) q =
      planeFlow w c a b ρ ((1 - ωo) * p0 + 3 * ωo * (p0 / 3 + p2 / 9) + 3 * F a) ((1 - ωe) * p1) ((1 - ωo) * p2) q := by
    intro p0 p1 p2 q
    have winv : w (inv q) = w q := by
      rw [hw]; exact weightVec_inv he o.weights hv.weights q (inv q) (hinv q)
    have mom : (fun d => ∑ i, planeFlow w c a b ρ p0 p1 p2 i * c i d) = fun d => δ a d * (p0 / 3 + p2 / 9) :=
      funext fun d => planeFlow_momentum h5 hab _ _ _ _ d
    have dm : dot (c q) (fun d => δ a d * (p0 / 3 + p2 / 9)) = c q a * (p0 / 3 + p2 / 9) := by
      unfold dot δ
      rw [Finset.sum_eq_single a]
      · simp
      · intro d _ hd; simp [hd.symm]
      · simp
    have dF : dot (c q) F = c q a * F a := by
      unfold dot
      rw [Finset.sum_eq_single a]
      · intro d _ hd; rw [hF d hd]; ring
      · simp
    rw [lin _ (rhoOk _ _ _) q, ← hw, ← hc, planeFlow_mass h5 hab, mom, dm, dF]
    unfold planeFlow
    rw [winv, cneg, cneg]
    ring
  obtain ⟨N, hN⟩ : ∃ N : K, N = size b := ⟨_, rfl⟩
  have h2' : 2 - ωe ≠ 0 := fun h' => h2 (by linear_combination -h')
  obtain ⟨α, hα⟩ : ∃ α, α = F a / (2 - ωe) := ⟨_, rfl⟩
  have hαF : F a = (2 - ωe) * α := by rw [hα]; field_simp
  obtain ⟨β, hβ⟩ : ∃ β, β = F a / ωo := ⟨_, rfl⟩
  have hβF : F a = ωo * β := by rw [hβ]; field_simp
  obtain ⟨G, hG⟩ : ∃ G : K → Fin e.2.2.length → K, G = fun m => planeFlow w c a b ρ
    (9 * (ωe * α * (N ^ 2 / 4 - m ^ 2 - 1 / 4) - F a / 2 + (U₀ / 3 + ωe * γ * (m + N / 2))) + 9 * β) (18 * α * m - 9 * γ) (-(9 * β)) := ⟨_, rfl⟩
  have rG : ∀ m q, r (G m) q = w q * (ρ + c q a * (9 * (ωe * α * (N ^ 2 / 4 - m ^ 2 - 1 / 4) - F a / 2 + (U₀ / 3 + ωe * γ * (m + N / 2))) + 9 * β +
      (1 - ωe) * (18 * α * m - 9 * γ) * c q b + (9 * F a - 9 * β) * c q b ^ 2)) := by
    intro m q
    rw [hG]
    simp only []
    rw [rot]
    unfold planeFlow
    linear_combination (3 - 9 * c q b ^ 2) * w q * c q a * hβF
  refine ⟨r, hr, fun x => G ((x b : K) - (N - 1) / 2), ?_, ?_, ?_, ?_⟩
  · intro x y hxy; simp only [hxy]
  · intro x; rw [hG]; exact planeFlow_mass h5 hab _ _ _ _
  · intro x; rw [hG]; exact plates _ (rhoOk _ _ _) fun h2 => absurd h2 (by omega)
  · intro x hx
    funext i
    have hxb := mem_fluid.1 hx b
    have winv : w (inv i) = w i := by rw [hw]; exact weightVec_inv he o.weights hv.weights i (inv i) (hinv i)
    have him : (channel size b).image (x - dirs e.2.2 i) b = x b - dirs e.2.2 i b := by simp [Domain.image, channel]
    have hwall : (channel size b).wall (x - dirs e.2.2 i) ↔ (x b - dirs e.2.2 i b < 0 ∨ size b ≤ x b - dirs e.2.2 i b) := Iff.rfl
    have cb : c i b = (dirs e.2.2 i b : ℤ) := by rw [hc]; rfl
    simp only [Domain.collideStream, Domain.stream]
    have ca : c i a = (dirs e.2.2 i a : ℤ) := by rw [hc]; rfl
    rw [him, hW, rG, rG, winv, cneg, cneg, ← hw, ← ca, hG]
    unfold planeFlow
    beta_reduce
    rw [← hN] at hγ
    rcases hc1 i b with hb | hb | hb <;> rw [cb, hb]
    · by_cases hlast : x b + 1 = size b
      · rw [if_pos (hwall.2 (Or.inr (by rw [hb]; omega)))]
        have : (x b : K) + 1 = N := by rw [hN]; exact_mod_cast hlast
        obtain rfl : N = (x b : K) + 1 := this.symm
        push_cast
        linear_combination (-6 : K) * w i * c i a * hγ
      · rw [if_neg (fun h' => by rcases hwall.1 h' with h' | h' <;> rw [hb] at h' <;> omega)]
        push_cast
        linear_combination (9 : K) * w i * c i a * hαF
    · rw [if_neg (fun h' => by rcases hwall.1 h' with h' | h' <;> rw [hb] at h' <;> omega)]
      push_cast
      ring
    · by_cases hfirst : x b = 0
      · rw [if_pos (hwall.2 (Or.inl (by rw [hb]; omega)))]
        rw [hfirst]
        push_cast
        ring
      · rw [if_neg (fun h' => by rcases hwall.1 h' with h' | h' <;> rw [hb] at h' <;> omega)]
        push_cast
        linear_combination (9 : K) * w i * c i a * hαF

/-- C106. There is such a flow, for every density `ρ`, every force and all rates: methods with two relaxation times, equilibrium of
first order and force model `Simple`. -/
theorem C106_exists {e} (he : e ∈ Tables.predefined) (hQ : e.2.2.length ∈ [9, 15, 19, 27]) (ps ps' : List PExpr)
    (hps : ps ∈ defaultMomentSet (e.2.2.headD []).length e.2.2.length) (hperm : ps'.Perm ps) (ωe ωo : K)
    (h2 : ωe ≠ 2) (hq : ωo ≠ 0)
    (o : MaxwellOptions K e.2.2) (hrel : o.relax = trtRates ps' ωe ωo) (cq : Cqc K (e.2.2.headD []).length) (hv : o.Valid cq)
    (ho : o.order.getD 4 ≤ 1) (hz : cq.zeroCentered = o.deviationOnly) (h : (o.method cq).relax.length = e.2.2.length)
    (F : Fin (e.2.2.headD []).length → K) (hcq : cq.force = some (.simple, F)) (a b : Fin (e.2.2.headD []).length) (hab : a ≠ b)
    (hF : ∀ d, d ≠ a → F d = 0)
    (inv : Fin e.2.2.length → Fin e.2.2.length) (hinv : ∀ i, dirs e.2.2 (inv i) = -dirs e.2.2 i)
    (size : Fin (e.2.2.headD []).length → ℕ) (ρ : K) (hρ : cq.compressible = true → ρ + (if o.deviationOnly then 1 else 0) ≠ 0) :
    ∃ r, ((o.withForce cq h .simple F).method cq).getCollisionRule = .ok r ∧
      ∃ g : Vec (e.2.2.headD []).length → Fin e.2.2.length → K, (∀ x y, x b = y b → g x = g y) ∧ (∀ x, ∑ i, g x i = ρ) ∧
        (∀ x, PlateCollision (dirs e.2.2) a b ωe ωo (F a) r (g x)) ∧
        ∀ x ∈ (channel size b).fluid,
          (channel size b).collideStream (dirs e.2.2) (fun _ i f => f (inv i)) (fun _ => r) g x = g x := by
  obtain ⟨r, hr, g, h1, h3, h4, h5⟩ := exists_flow he hQ ps ps' hps hperm ωe ωo h2 hq o hrel cq hv ho hz h F hcq a b hab hF inv hinv size
    0 0 0 (by simp) (fun _ i f => f (inv i)) (by simp) ρ hρ
  exact ⟨r, hr, g, h1, h3, h4, h5⟩

end Existence

/-! ### Examples -/

namespace Example

def st : List (List ℤ) := Tables.D2Q9_uk

/-- `create_trt` with rates 1 and 3/4, first order, incompressible, zero centered -/
def o : MaxwellOptions ℚ st where
  relax := trtRates ((defaultMomentSet 2 9).getD []) 1 (3 / 4)
  weights := (getWeights st).getD []
  order := some 1
  deviationOnly := true
  momentSpace := false
  force := none

def F : Fin (st.headD []).length → ℚ := fun a => if a.val = 0 then 1 / 1000 else 0

def cq : Cqc ℚ (st.headD []).length := ⟨false, true, 1, some (.simple, F)⟩

theorem valid : o.Valid cq where
  offered := Or.inl ⟨(defaultMomentSet 2 9).getD [], by decide +kernel, by
    show ((trtRates _ _ _).map Prod.fst).Perm _
    unfold trtRates; rw [List.map_map]; exact List.Perm.of_eq (List.map_id' _)⟩
  weights := by decide +kernel
  rho0 := rfl
  delta := fun _ => rfl
  transform := fun _ h => absurd h (by decide)
  order := Or.inl (by decide)

def inv : Fin st.length → Fin st.length := fun i => ⟨[0, 2, 1, 4, 3, 6, 5, 8, 7].getD i 0, by revert i; decide⟩

/-- A channel of 4 x 3 cells: there is a steady flow, and every steady flow that is the same in all cells of a row has the
momentum density of the parabola and the slip; in the middle row `27/4000 + 11/12000`. -/
example : ∃ r, ((o.withForce cq (by decide +kernel) .simple F).method cq).getCollisionRule = .ok r ∧
    (∃ g : Vec (st.headD []).length → Fin st.length → ℚ, ∀ x ∈ (channel (fun d => if d.val = 0 then 4 else 3) ⟨1, by decide⟩).fluid,
      (channel (fun d => if d.val = 0 then 4 else 3) ⟨1, by decide⟩).collideStream (dirs st) (fun _ i f => f (inv i)) (fun _ => r) g x
        = g x) ∧
    ∀ g : Vec (st.headD []).length → Fin st.length → ℚ,
      (∀ x ∈ (channel (fun d => if d.val = 0 then 4 else 3) ⟨1, by decide⟩).fluid,
        (channel (fun d => if d.val = 0 then 4 else 3) ⟨1, by decide⟩).collideStream (dirs st) (fun _ i f => f (inv i)) (fun _ => r) g x
        = g x) →
      (∀ x y : Vec (st.headD []).length, x ⟨1, by decide⟩ = y ⟨1, by decide⟩ → g x = g y) →
      dirMoment (dirs st) (fun v => v ⟨0, by decide⟩) (g fun _ => 1) + 1 / 2000 = 23 / 3000 := by
  have he : ("D2Q9", "uk", st) ∈ Tables.predefined := by decide +kernel
  have h9 : st.length ∈ [9, 15, 19, 27] := by decide
  have hps : (defaultMomentSet 2 9).getD [] ∈ defaultMomentSet (st.headD []).length st.length := by decide +kernel
  have hinv : ∀ i, dirs st (inv i) = -dirs st i := by decide +kernel
  obtain ⟨r, hr, g, -, -, hC, hg⟩ := C106_exists he h9 _ _ hps (List.Perm.refl _) 1 (3 / 4) (by norm_num) (by norm_num)
    o rfl cq valid (by decide) rfl (by decide +kernel) F rfl ⟨0, by decide⟩ ⟨1, by decide⟩ (by decide) (by decide +kernel) inv hinv
    (fun d => if d.val = 0 then 4 else 3) 0 (by decide)
  obtain ⟨r', hr', hC⟩ := C106_trt he h9 _ _ hps (List.Perm.refl _) 1 (3 / 4)
    o rfl cq valid (by decide +kernel) .simple (by simp) F rfl ⟨0, by decide⟩ ⟨1, by decide⟩ (by decide) (by decide +kernel)
    (fun h => absurd h (by decide))
  obtain rfl : r = r' := by rw [hr] at hr'; exact Except.ok.inj hr'
  refine ⟨r, hr, ⟨g, hg⟩, fun g hg hrow => ?_⟩
  obtain ⟨hv, -, hc1⟩ := lattice_ok_aux _ he h9
  have hx : (fun _ => 1 : Vec (st.headD []).length) ∈ (channel (fun d => if d.val = 0 then 4 else 3) ⟨1, by decide⟩).fluid := by
    rw [mem_fluid]; decide
  have := (C106_profile hv hinv (fun i => hc1 i _) (by decide) (fun x _ y _ h => hrow x y h) hg 1 (3 / 4) (F ⟨0, by decide⟩)
    (by norm_num) (by norm_num) (by norm_num) (fun x _ => hC (g x) (fun h => absurd h (by decide)) (fun h => absurd h (by decide))) _ hx).2
  have hF : F ⟨0, by decide⟩ = 1 / 1000 := rfl
  rw [hF] at this
  refine Eq.trans ?_ (this.trans ?_)
  · norm_num
  · unfold planePoiseuille; norm_num

end Example

end Poiseuille
end Lbm
