/-
C107: steady flow between moving plates (`UBB`).
-/
import Verif.Props.PoiseuilleMethods
import Verif.BoundaryRules

namespace Lbm
namespace Poiseuille

open Spec Simulation Matrix

variable {K : Type} [Field K] [CharZero K] [DecidableEq K]

/-- velocity of the plate a link leads to: `U₀` for the plate below the first row, `U₁` for the plate above the last row -/
def plateVelocity (st : List (List ℤ)) (b : Fin (st.headD []).length) (U₀ U₁ : Fin (st.headD []).length → K)
    (j : Fin st.length) : Fin (st.headD []).length → K :=
  if dirs st j b < 0 then U₀ else U₁

theorem ubb_back {e} (he : e ∈ Tables.predefined) (ws : List ℚ) (hws : getWeights e.2.2 = some ws)
    (inv : Fin e.2.2.length → Fin e.2.2.length) (hinv : ∀ i, dirs e.2.2 (inv i) = -dirs e.2.2 i) (b : Fin (e.2.2.headD []).length)
    (U₀ U₁ : Fin (e.2.2.headD []).length → K) (i : Fin e.2.2.length) :
    ubbVelTerm (S := lattice e.2.2) (weightVec e.2.2 ws) (plateVelocity e.2.2 b U₀ U₁ (inv i)) (inv i) =
      -(6 * (weightVec (K := K) e.2.2 ws i * ∑ k, vel e.2.2 _ i k * plateVelocity e.2.2 b U₀ U₁ (inv i) k)) := by
  have hw := weightVec_inv (K := K) he ws hws i (inv i) (hinv i)
  have hv : ∀ k, ((dirs e.2.2 (inv i) k : ℤ) : K) = -vel e.2.2 _ i k := by
    intro k
    rw [congrFun (hinv i) k]
    show ((-dirs e.2.2 i k : ℤ) : K) = -((dirs e.2.2 i k : ℤ) : K)
    push_cast; ring
  unfold ubbVelTerm
  show 2 / (1 / 3) * (∑ k, ((dirs e.2.2 (inv i) k : ℤ) : K) * _) * weightVec e.2.2 ws (inv i) = _
  simp only [hv, hw, neg_mul, Finset.sum_neg_distrib]
  ring

/-- C107. What `UBB` sends back is, to a flow, a plate with the momentum of this velocity. -/
theorem C107_ubb {e} (he : e ∈ Tables.predefined) (hQ : e.2.2.length ∈ [9, 15, 19, 27]) (ws : List ℚ)
    (hws : getWeights e.2.2 = some ws) (inv : Fin e.2.2.length → Fin e.2.2.length)
    (hinv : ∀ i, dirs e.2.2 (inv i) = -dirs e.2.2 i) (a b : Fin (e.2.2.headD []).length) (hab : a ≠ b)
    (U₀ U₁ : Fin (e.2.2.headD []).length → K) (h0 : U₀ b = 0) (h1 : U₁ b = 0) (comp : Bool) (density : Option K) (bg : K)
    (f : Fin e.2.2.length → K) (x : Vec (e.2.2.headD []).length) :
    PlateWall (dirs e.2.2) a b 1 inv (ubbDensity comp density bg f * U₀ a)
      (fun i f => ubbRule (S := lattice e.2.2) (weightVec e.2.2 ws) comp density bg (fun _ j => plateVelocity e.2.2 b U₀ U₁ j) x (inv i)
        (fun _ => f) (fun _ => f)) f ∧
    PlateWall (dirs e.2.2) a b (-1) inv (ubbDensity comp density bg f * U₁ a)
      (fun i f => ubbRule (S := lattice e.2.2) (weightVec e.2.2 ws) comp density bg (fun _ j => plateVelocity e.2.2 b U₀ U₁ j) x (inv i)
        (fun _ => f) (fun _ => f)) f := by
  have h7 : e.2.2.length ≠ 7 := by intro h7; rw [h7] at hQ; simp at hQ
  obtain ⟨hl, -, h5'⟩ := C20_weights_isotropic (K := K) e he ws hws
  have h5 := h5' h7
  obtain ⟨-, -, hc1⟩ := lattice_ok_aux e he hQ
  have d3 : (δ a b : K) = 0 := by unfold δ; rw [if_neg hab]
  have d4 : (δ b a : K) = 0 := by unfold δ; rw [if_neg hab.symm]
  have d5 : (δ b b : K) = 1 := by unfold δ; rw [if_pos rfl]
  have key : ∀ (s : ℤ), s * s = 1 → ∀ (U : Fin (e.2.2.headD []).length → K), U b = 0 →
      (∑ i, (if dirs e.2.2 i b = s then weightVec (K := K) e.2.2 ws i * ∑ k, vel e.2.2 _ i k * U k else 0) = 0) ∧
      ∑ i, (if dirs e.2.2 i b = s then (vel e.2.2 _ i a : K) * (weightVec e.2.2 ws i * ∑ k, vel e.2.2 _ i k * U k) else 0) =
        U a / 18 := by
    intro s hs U hU
    have ind : ∀ i (y : K), (if dirs e.2.2 i b = s then y else 0) = (vel e.2.2 _ i b * vel e.2.2 _ i b + s * vel e.2.2 _ i b) / 2 * y := by
      intro i y
      have hs' : (s : K) * s = 1 := by exact_mod_cast hs
      have e1 : vel (K := K) e.2.2 (e.2.2.headD []).length i b = (dirs e.2.2 i b : ℤ) := rfl
      rw [e1]
      have hs2 : s = 1 ∨ s = -1 := by
        have : (s - 1) * (s + 1) = 0 := by linarith
        rcases mul_eq_zero.1 this with h | h <;> omega
      rcases hs2 with rfl | rfl <;> rcases hc1 i b with h | h | h <;> rw [h] <;> norm_num
    constructor
    · have : ∀ i, (if dirs e.2.2 i b = s then weightVec (K := K) e.2.2 ws i * ∑ k, vel e.2.2 _ i k * U k else 0) =
          ∑ k, (U k / 2 * (weightVec e.2.2 ws i * vel e.2.2 _ i b * vel e.2.2 _ i b * vel e.2.2 _ i k) +
            s * U k / 2 * (weightVec e.2.2 ws i * vel e.2.2 _ i b * vel e.2.2 _ i k)) := by
        intro i
        rw [ind, ← mul_assoc, Finset.mul_sum]
        exact Finset.sum_congr rfl fun k _ => by ring
      simp only [this]
      rw [Finset.sum_comm]
      refine Finset.sum_eq_zero fun k _ => ?_
      rw [Finset.sum_add_distrib, ← Finset.mul_sum, ← Finset.mul_sum, h5.m3, h5.m2]
      by_cases hk : b = k
      · subst hk; rw [hU]; ring
      · have : (δ b k : K) = 0 := by unfold δ; rw [if_neg hk]
        rw [this]; ring
    · have : ∀ i, (if dirs e.2.2 i b = s then (vel e.2.2 _ i a : K) * (weightVec e.2.2 ws i * ∑ k, vel e.2.2 _ i k * U k) else 0) =
          ∑ k, (U k / 2 * (weightVec e.2.2 ws i * vel e.2.2 _ i a * vel e.2.2 _ i b * vel e.2.2 _ i b * vel e.2.2 _ i k) +
            s * U k / 2 * (weightVec e.2.2 ws i * vel e.2.2 _ i a * vel e.2.2 _ i b * vel e.2.2 _ i k)) := by
        intro i
        rw [ind, ← mul_assoc, ← mul_assoc, Finset.mul_sum]
        exact Finset.sum_congr rfl fun k _ => by ring
      simp only [this]
      rw [Finset.sum_comm]
      have : ∀ k, ∑ i, (U k / 2 * (weightVec e.2.2 ws i * vel e.2.2 _ i a * vel e.2.2 _ i b * vel e.2.2 _ i b * vel e.2.2 _ i k) +
            s * U k / 2 * (weightVec e.2.2 ws i * vel e.2.2 _ i a * vel e.2.2 _ i b * vel e.2.2 _ i k)) = U k / 18 * δ a k := by
        intro k
        rw [Finset.sum_add_distrib, ← Finset.mul_sum, ← Finset.mul_sum, h5.m3, h5.m4, d3, d5]
        ring
      simp only [this]
      rw [Finset.sum_eq_single a]
      · unfold δ; simp
      · intro k _ hk; unfold δ; simp [hk.symm]
      · simp
  have hback := ubb_back (K := K) he ws hws inv hinv b U₀ U₁
  have dif : ∀ (s : ℤ) (U : Fin (e.2.2.headD []).length → K), (∀ i, dirs e.2.2 i b = s → plateVelocity e.2.2 b U₀ U₁ (inv i) = U) →
      ∀ i, dirs e.2.2 i b = s →
      ubbRule (S := lattice e.2.2) (weightVec e.2.2 ws) comp density bg (fun _ j => plateVelocity e.2.2 b U₀ U₁ j) x (inv i)
        (fun _ => f) (fun _ => f) - f (inv i) =
      6 * ubbDensity comp density bg f * (weightVec (K := K) e.2.2 ws i * ∑ k, vel e.2.2 _ i k * U k) := by
    intro s U hU i hi
    unfold ubbRule
    rw [hback, hU i hi]
    ring
  have wall : ∀ (s : ℤ), s * s = 1 → ∀ (U : Fin (e.2.2.headD []).length → K), U b = 0 →
      (∀ i, dirs e.2.2 i b = s → plateVelocity e.2.2 b U₀ U₁ (inv i) = U) →
      PlateWall (dirs e.2.2) a b s inv (ubbDensity comp density bg f * U a)
      (fun i f => ubbRule (S := lattice e.2.2) (weightVec e.2.2 ws) comp density bg (fun _ j => plateVelocity e.2.2 b U₀ U₁ j) x (inv i)
        (fun _ => f) (fun _ => f)) f := by
    intro s hs U hUb hU
    obtain ⟨k1, k2⟩ := key s hs U hUb
    refine ⟨?_, ?_⟩
    · refine Eq.trans ?_ ((congrArg (6 * ubbDensity comp density bg f * ·) k1).trans (mul_zero _))
      rw [Finset.mul_sum]
      refine Finset.sum_congr rfl fun i _ => ?_
      by_cases hi : dirs e.2.2 i b = s
      · rw [if_pos hi, if_pos hi]; exact dif s U hU i hi
      · rw [if_neg hi, if_neg hi, mul_zero]
    · refine Eq.trans ?_ ((congrArg (6 * ubbDensity comp density bg f * ·) k2).trans (by ring))
      rw [Finset.mul_sum]
      refine Finset.sum_congr rfl fun i _ => ?_
      by_cases hi : dirs e.2.2 i b = s
      · rw [if_pos hi, if_pos hi, dif s U hU i hi]
        show ((dirs e.2.2 i a : ℤ) : K) * _ = 6 * _ * (((dirs e.2.2 i a : ℤ) : K) * _)
        ring
      · rw [if_neg hi, if_neg hi, mul_zero]
  refine ⟨wall 1 (by norm_num) U₀ h0 fun i hi => ?_, wall (-1) (by norm_num) U₁ h1 fun i hi => ?_⟩
  · unfold plateVelocity
    rw [if_pos]
    rw [hinv, Pi.neg_apply, hi]; norm_num
  · unfold plateVelocity
    rw [if_neg]
    rw [hinv, Pi.neg_apply, hi]; norm_num

/-- what comes back from plates with `UBB`; `velocity` and `density` are the arguments of `UBB` -/
def ubbPlates (st : List (List ℤ)) (ws : List ℚ) (inv : Fin st.length → Fin st.length) (b : Fin (st.headD []).length)
    (U₀ U₁ : Fin (st.headD []).length → K) (comp : Bool) (density : Option K) (bg : K) :
    Vec (st.headD []).length → Fin st.length → (Fin st.length → K) → K :=
  fun x i f => ubbRule (S := lattice st) (weightVec st ws) comp density bg (fun _ j => plateVelocity st b U₀ U₁ j) x (inv i)
    (fun _ => f) (fun _ => f)

/-- C107. A simulation between plates with `UBB` in `collide_stream` order: the momentum density that is reported for a steady flow
is the linear profile between the momenta of the plates plus parabola and slip of the force. -/
theorem C107_simulation {e} (he : e ∈ Tables.predefined) (hQ : e.2.2.length ∈ [9, 15, 19, 27]) (ws : List ℚ)
    (hws : getWeights e.2.2 = some ws) (cq : Cqc K (e.2.2.headD []).length) (a b : Fin (e.2.2.headD []).length) (hab : a ≠ b)
    (F : Fin (e.2.2.headD []).length → K) (hcq : (∃ k, cq.force = some (k, F)) ∨ cq.force = none ∧ F = 0) (hF : F b = 0)
    (U₀ U₁ : Fin (e.2.2.headD []).length → K) (hU₀ : U₀ b = 0) (hU₁ : U₁ b = 0) (density : Option K) (bg : K)
    (ωe ωo : K) (h0 : ωe ≠ 0) (h2 : ωe ≠ 2) (hq : ωo ≠ 0) (r : (Fin e.2.2.length → K) → Fin e.2.2.length → K)
    (inv : Fin e.2.2.length → Fin e.2.2.length) (hinv : ∀ i, dirs e.2.2 (inv i) = -dirs e.2.2 i)
    (size : Fin (e.2.2.headD []).length → ℕ) (hs : ∀ d, 0 < size d) (p : Step (lattice e.2.2) K)
    (hp : SetUp (channel size b) (ubbPlates e.2.2 ws inv b U₀ U₁ cq.compressible density bg) p) (hr : p.collide = fun _ => r)
    (pattern : String) (s s' : Pdfs (e.2.2.headD []).length e.2.2.length K × Pdfs (e.2.2.headD []).length e.2.2.length K)
    (hC : ∀ x ∈ (channel size b).fluid, PlateCollision (dirs e.2.2) a b ωe ωo (F a) r fun i => s.1 (x, i))
    (j₀ j₁ : K)
    (hj₀ : ∀ x ∈ (channel size b).fluid, x b = 0 → ubbDensity cq.compressible density bg (r fun i => s.1 (x, i)) * U₀ a = j₀)
    (hj₁ : ∀ x ∈ (channel size b).fluid, x b + 1 = size b →
      ubbDensity cq.compressible density bg (r fun i => s.1 (x, i)) * U₁ a = j₁)
    (hrow : ∀ x ∈ (channel size b).fluid, ∀ y ∈ (channel size b).fluid, x b = y b → ∀ i, s.1 (x, i) = s.1 (y, i))
    (step : p.steps pattern .collideStream 1 s = some s')
    (steady : ∀ x ∈ (channel size b).fluid, ∀ i, s'.1 (x, i) = s.1 (x, i)) (csSq : K) :
    ∀ x ∈ (channel size b).fluid,
      (cq.output csSq (vel e.2.2 _) fun i => s.1 (x, i)).momentumDensity b = 0 ∧
      (cq.output csSq (vel e.2.2 _) fun i => s.1 (x, i)).momentumDensity a =
        planePoiseuille (F a) ((1 / ωe - 1 / 2) / 3) (size b) (x b - (size b - 1) / 2) +
          2 * F a / (3 * ((1 / ωe - 1 / 2) / 3)) * ((1 / ωe - 1 / 2) * (1 / ωo - 1 / 2) - 3 / 16) +
        planeCouette j₀ j₁ (size b) (x b + 1 / 2) := by
  obtain ⟨hv, hc, hc1⟩ := lattice_ok_aux e he hQ
  obtain ⟨s2, st2, h⟩ := C105_collide_stream hv hc (channel_closed size b _) hp pattern 1 s
  rw [step] at st2
  obtain rfl := Option.some.inj st2
  have hst : ∀ x ∈ (channel size b).fluid,
      (channel size b).collideStream (dirs e.2.2) (ubbPlates e.2.2 ws inv b U₀ U₁ cq.compressible density bg) (fun _ => r)
        (fun x i => s.1 (x, i)) x = fun i => s.1 (x, i) := by
    intro x hx
    have := h x hx
    rw [Function.iterate_one, hr] at this
    rw [← this]
    exact funext fun i => steady x hx i
  have key := C107_profile (a := a) hv hinv (fun i => hc1 i b) hs
    (fun x hx y hy hxy => funext fun i => hrow x hx y hy hxy i) hst j₀ j₁
    (fun x hx hxb => by
      rw [← hj₀ x hx hxb]
      exact (C107_ubb he hQ ws hws inv hinv a b hab U₀ U₁ hU₀ hU₁ cq.compressible density bg _ x).1)
    (fun x hx hxb => by
      rw [← hj₁ x hx hxb]
      exact (C107_ubb he hQ ws hws inv hinv a b hab U₀ U₁ hU₀ hU₁ cq.compressible density bg _ x).2)
    ωe ωo (F a) h0 h2 hq hC
  intro x hx
  obtain ⟨k1, k2⟩ := key x hx
  have dv : ∀ (d : Fin (e.2.2.headD []).length) (g : Fin e.2.2.length → K),
      dirMoment (dirs e.2.2) (fun v => v d) g = ∑ q, g q * vel e.2.2 _ q d := fun d g =>
    Finset.sum_congr rfl fun q _ => mul_comm _ _
  rw [dv] at k1 k2
  have out : ∀ d, (cq.output csSq (vel e.2.2 _) fun i => s.1 (x, i)).momentumDensity d =
      (∑ q, s.1 (x, q) * vel e.2.2 _ q d) + F d / 2 := by
    intro d
    rcases hcq with ⟨k, hcq⟩ | ⟨hcq, hF0⟩
    · simp only [Cqc.output, hcq, defaultMomentumDensityShift]
    · simp only [Cqc.output, hcq, hF0]; simp
  rw [out, out]
  exact ⟨by rw [k1, hF]; simp, k2⟩

/-- C107. The same with the default order `stream_collide`: the force is added. -/
theorem C107_simulation_default {e} (he : e ∈ Tables.predefined) (hQ : e.2.2.length ∈ [9, 15, 19, 27]) (ws : List ℚ)
    (hws : getWeights e.2.2 = some ws) (cq : Cqc K (e.2.2.headD []).length) (a b : Fin (e.2.2.headD []).length) (hab : a ≠ b)
    (F : Fin (e.2.2.headD []).length → K) (hcq : (∃ k, cq.force = some (k, F)) ∨ cq.force = none ∧ F = 0) (hF : F b = 0)
    (U₀ U₁ : Fin (e.2.2.headD []).length → K) (hU₀ : U₀ b = 0) (hU₁ : U₁ b = 0) (density : Option K) (bg : K)
    (ωe ωo : K) (h0 : ωe ≠ 0) (h2 : ωe ≠ 2) (hq : ωo ≠ 0) (r : (Fin e.2.2.length → K) → Fin e.2.2.length → K)
    (inv : Fin e.2.2.length → Fin e.2.2.length) (hinv : ∀ i, dirs e.2.2 (inv i) = -dirs e.2.2 i)
    (size : Fin (e.2.2.headD []).length → ℕ) (hs : ∀ d, 0 < size d) (p : Step (lattice e.2.2) K)
    (hp : SetUp (channel size b) (ubbPlates e.2.2 ws inv b U₀ U₁ cq.compressible density bg) p) (hr : p.collide = fun _ => r)
    (s s' : Pdfs (e.2.2.headD []).length e.2.2.length K × Pdfs (e.2.2.headD []).length e.2.2.length K)
    (hC : ∀ x ∈ (channel size b).fluid, PlateCollision (dirs e.2.2) a b ωe ωo (F a) r
      ((channel size b).stream (dirs e.2.2) (ubbPlates e.2.2 ws inv b U₀ U₁ cq.compressible density bg) (fun x i => s.1 (x, i)) x))
    (j₀ j₁ : K)
    (hj₀ : ∀ x ∈ (channel size b).fluid, x b = 0 → ubbDensity cq.compressible density bg (fun i => s.1 (x, i)) * U₀ a = j₀)
    (hj₁ : ∀ x ∈ (channel size b).fluid, x b + 1 = size b →
      ubbDensity cq.compressible density bg (fun i => s.1 (x, i)) * U₁ a = j₁)
    (hrow : ∀ x ∈ (channel size b).fluid, ∀ y ∈ (channel size b).fluid, x b = y b → ∀ i, s.1 (x, i) = s.1 (y, i))
    (step : p.steps "pull" .streamCollide 1 s = some s')
    (steady : ∀ x ∈ (channel size b).fluid, ∀ i, s'.1 (x, i) = s.1 (x, i)) (csSq : K) :
    ∀ x ∈ (channel size b).fluid,
      (cq.output csSq (vel e.2.2 _) fun i => s.1 (x, i)).momentumDensity b = 0 ∧
      (cq.output csSq (vel e.2.2 _) fun i => s.1 (x, i)).momentumDensity a =
        planePoiseuille (F a) ((1 / ωe - 1 / 2) / 3) (size b) (x b - (size b - 1) / 2) +
          2 * F a / (3 * ((1 / ωe - 1 / 2) / 3)) * ((1 / ωe - 1 / 2) * (1 / ωo - 1 / 2) - 3 / 16) +
        planeCouette j₀ j₁ (size b) (x b + 1 / 2) + F a := by
  obtain ⟨hv, hc, hc1⟩ := lattice_ok_aux e he hQ
  have hcl := channel_closed size b (dirs e.2.2)
  obtain ⟨s2, st2, h⟩ := C105_stream_collide hv hc hcl hp 1 s
  rw [step] at st2
  obtain rfl := Option.some.inj st2
  obtain ⟨g, hg⟩ : ∃ g : Vec _ → Fin e.2.2.length → K, g = fun x i => s.1 (x, i) := ⟨_, rfl⟩
  have hst : ∀ x ∈ (channel size b).fluid,
      (channel size b).streamCollide (dirs e.2.2) (ubbPlates e.2.2 ws inv b U₀ U₁ cq.compressible density bg) (fun _ => r) g x = g x := by
    intro x hx
    have := h x hx
    rw [Function.iterate_one, hr, ← hg] at this
    refine this.symm.trans ?_
    rw [hg]
    exact funext fun i => steady x hx i
  have hst2 := C105_steady (S := lattice e.2.2) hcl g (fun _ => r) hst
  obtain ⟨G, hG⟩ : ∃ G, G = (channel size b).stream (dirs e.2.2) (ubbPlates e.2.2 ws inv b U₀ U₁ cq.compressible density bg) g := ⟨_, rfl⟩
  have hrowG : ∀ x ∈ (channel size b).fluid, ∀ y ∈ (channel size b).fluid, x b = y b → G x = G y := by
    intro x hx y hy hxy
    rw [hG]
    funext i
    unfold Domain.stream
    have hw : (channel size b).wall (x - dirs e.2.2 i) ↔ (channel size b).wall (y - dirs e.2.2 i) := by
      show (_ ∨ _) ↔ (_ ∨ _)
      rw [Pi.sub_apply, Pi.sub_apply, hxy]
    by_cases hwx : (channel size b).wall (x - dirs e.2.2 i)
    · rw [if_pos hwx, if_pos (hw.1 hwx), hg]
      exact congrArg (fun f => ubbPlates e.2.2 ws inv b U₀ U₁ cq.compressible density bg x i f) (funext fun i => hrow x hx y hy hxy i)
    · rw [if_neg hwx, if_neg (fun h => hwx (hw.2 h)), hg]
      have mem : ∀ z ∈ (channel size b).fluid, ¬ (channel size b).wall (z - dirs e.2.2 i) →
          (channel size b).image (z - dirs e.2.2 i) ∈ (channel size b).fluid := by
        intro z hz hwz
        by_contra hn
        have hin : (channel size b).Inner ((channel size b).image (z - dirs e.2.2 i)) := by
          by_contra hin
          exact hwz ((hcl z hz i).2 hin)
        exact hn ⟨hin, fun hw => hwz (((hcl z hz i).1 hin).2 hw)⟩
      refine hrow _ (mem x hx hwx) _ (mem y hy fun h => hwx (hw.2 h)) ?_ i
      simp [Domain.image, channel, hxy]
  have hCG : ∀ x ∈ (channel size b).fluid, r (G x) = fun i => s.1 (x, i) := by
    intro x hx
    rw [hG, ← (hst2 x hx).2, hg]
  have key := C107_profile (a := a) (g := G) hv hinv (fun i => hc1 i b) hs hrowG
    (fun x hx => by rw [hG]; exact (hst2 x hx).1) j₀ j₁
    (fun x hx hxb => by
      rw [hCG x hx, ← hj₀ x hx hxb]
      exact (C107_ubb he hQ ws hws inv hinv a b hab U₀ U₁ hU₀ hU₁ cq.compressible density bg _ x).1)
    (fun x hx hxb => by
      rw [hCG x hx, ← hj₁ x hx hxb]
      exact (C107_ubb he hQ ws hws inv hinv a b hab U₀ U₁ hU₀ hU₁ cq.compressible density bg _ x).2)
    ωe ωo (F a) h0 h2 hq
    (fun x hx => by rw [hG, hg]; exact hC x hx)
  intro x hx
  obtain ⟨k1, k2⟩ := key x hx
  have hgx : (fun i => s.1 (x, i)) = r (G x) := by
    have := (hst2 x hx).2
    rw [hG]
    rw [← this, hg]
  have dv : ∀ (d : Fin (e.2.2.headD []).length) (g : Fin e.2.2.length → K),
      dirMoment (dirs e.2.2) (fun v => v d) g = ∑ q, g q * vel e.2.2 _ q d := fun d g =>
    Finset.sum_congr rfl fun q _ => mul_comm _ _
  have hCx := hC x hx
  rw [← hg, ← hG] at hCx
  have c1 := hCx.normal
  have c2 := hCx.along
  rw [k1] at c1
  rw [dv, ← hgx] at c1 c2
  have out : ∀ d, (cq.output csSq (vel e.2.2 _) fun i => s.1 (x, i)).momentumDensity d =
      (∑ q, s.1 (x, q) * vel e.2.2 _ q d) + F d / 2 := by
    intro d
    rcases hcq with ⟨k, hcq⟩ | ⟨hcq, hF0⟩
    · simp only [Cqc.output, hcq, defaultMomentumDensityShift]
    · simp only [Cqc.output, hcq, hF0]; simp
  rw [out, out]
  exact ⟨by rw [c1, hF]; simp, by rw [c2]; linear_combination k2⟩

/-- C107. The velocity of an incompressible method without force is the linear profile between the velocities of the plates. -/
theorem C107_couette {e} (he : e ∈ Tables.predefined) (hQ : e.2.2.length ∈ [9, 15, 19, 27]) (ws : List ℚ)
    (hws : getWeights e.2.2 = some ws) (cq : Cqc K (e.2.2.headD []).length) (a b : Fin (e.2.2.headD []).length) (hab : a ≠ b)
    (hcq : cq.force = none) (hcomp : cq.compressible = false) (hrho : cq.rho0 = 1)
    (U₀ U₁ : Fin (e.2.2.headD []).length → K) (hU₀ : U₀ b = 0) (hU₁ : U₁ b = 0) (density : Option K) (bg : K)
    (ωe ωo : K) (h0 : ωe ≠ 0) (h2 : ωe ≠ 2) (hq : ωo ≠ 0) (r : (Fin e.2.2.length → K) → Fin e.2.2.length → K)
    (inv : Fin e.2.2.length → Fin e.2.2.length) (hinv : ∀ i, dirs e.2.2 (inv i) = -dirs e.2.2 i)
    (size : Fin (e.2.2.headD []).length → ℕ) (hs : ∀ d, 0 < size d) (p : Step (lattice e.2.2) K)
    (hp : SetUp (channel size b) (ubbPlates e.2.2 ws inv b U₀ U₁ cq.compressible density bg) p) (hr : p.collide = fun _ => r)
    (pattern : String) (s s' : Pdfs (e.2.2.headD []).length e.2.2.length K × Pdfs (e.2.2.headD []).length e.2.2.length K)
    (hC : ∀ x ∈ (channel size b).fluid, PlateCollision (dirs e.2.2) a b ωe ωo 0 r fun i => s.1 (x, i))
    (hrow : ∀ x ∈ (channel size b).fluid, ∀ y ∈ (channel size b).fluid, x b = y b → ∀ i, s.1 (x, i) = s.1 (y, i))
    (step : p.steps pattern .collideStream 1 s = some s')
    (steady : ∀ x ∈ (channel size b).fluid, ∀ i, s'.1 (x, i) = s.1 (x, i)) (csSq : K) :
    ∀ x ∈ (channel size b).fluid,
      (cq.output csSq (vel e.2.2 _) fun i => s.1 (x, i)).velocity a = planeCouette (U₀ a) (U₁ a) (size b) (x b + 1 / 2) := by
  intro x hx
  have := (C107_simulation he hQ ws hws cq a b hab 0 (Or.inr ⟨hcq, rfl⟩) rfl U₀ U₁ hU₀ hU₁ density bg ωe ωo h0 h2 hq r inv hinv size hs p
    hp hr pattern s s' hC (U₀ a) (U₁ a) (fun x _ _ => by simp [ubbDensity, hcomp])
    (fun x _ _ => by simp [ubbDensity, hcomp]) hrow step steady csSq x hx).2
  refine Eq.trans ?_ (this.trans ?_)
  · simp only [Cqc.output, hcq, Cqc.reference, hcomp, hrho]; simp
  · simp [planePoiseuille]

/-- C107. There is such a flow: methods with two relaxation times, equilibrium of first order, force model `Simple`, incompressible. -/
theorem C107_exists {e} (he : e ∈ Tables.predefined) (hQ : e.2.2.length ∈ [9, 15, 19, 27]) (ps ps' : List PExpr)
    (hps : ps ∈ defaultMomentSet (e.2.2.headD []).length e.2.2.length) (hperm : ps'.Perm ps) (ωe ωo : K)
    (h0 : ωe ≠ 0) (h2 : ωe ≠ 2) (hq : ωo ≠ 0)
    (o : MaxwellOptions K e.2.2) (hrel : o.relax = trtRates ps' ωe ωo) (cq : Cqc K (e.2.2.headD []).length) (hv : o.Valid cq)
    (ho : o.order.getD 4 ≤ 1) (hz : cq.zeroCentered = o.deviationOnly) (h : (o.method cq).relax.length = e.2.2.length)
    (F : Fin (e.2.2.headD []).length → K) (hcq : cq.force = some (.simple, F)) (a b : Fin (e.2.2.headD []).length) (hab : a ≠ b)
    (hF : ∀ d, d ≠ a → F d = 0) (U₀ U₁ : Fin (e.2.2.headD []).length → K) (hU₀ : ∀ d, d ≠ a → U₀ d = 0) (hU₁ : ∀ d, d ≠ a → U₁ d = 0)
    (density : Option K) (bg : K)
    (inv : Fin e.2.2.length → Fin e.2.2.length) (hinv : ∀ i, dirs e.2.2 (inv i) = -dirs e.2.2 i)
    (size : Fin (e.2.2.headD []).length → ℕ) (hs : 0 < size b) (ρ : K) (hcomp : cq.compressible = false) :
    ∃ r, ((o.withForce cq h .simple F).method cq).getCollisionRule = .ok r ∧
      ∃ g : Vec (e.2.2.headD []).length → Fin e.2.2.length → K, (∀ x y, x b = y b → g x = g y) ∧ (∀ x, ∑ i, g x i = ρ) ∧
        (∀ x, PlateCollision (dirs e.2.2) a b ωe ωo (F a) r (g x)) ∧
        ∀ x ∈ (channel size b).fluid, (channel size b).collideStream (dirs e.2.2)
          (ubbPlates e.2.2 o.weights inv b U₀ U₁ cq.compressible density bg) (fun _ => r) g x = g x := by
  obtain ⟨-, -, hc1⟩ := lattice_ok_aux e he hQ
  have hn : (size b : K) ≠ 0 := by exact_mod_cast hs.ne'
  refine exists_flow he hQ ps ps' hps hperm ωe ωo h2 hq o hrel cq hv ho hz h F hcq a b hab hF inv hinv size (U₀ a) (U₁ a)
    ((U₁ a - U₀ a) / (3 * size b * ωe)) (by field_simp) _ (fun x i f => ?_) ρ (fun h' => by rw [hcomp] at h'; cases h')
  unfold ubbPlates ubbRule
  rw [ubb_back he o.weights hv.weights inv hinv, show ubbDensity cq.compressible density bg f = 1 by simp [ubbDensity, hcomp]]
  have sum : ∀ U : Fin (e.2.2.headD []).length → K, (∀ d, d ≠ a → U d = 0) →
      ∑ k, vel e.2.2 _ i k * U k = (dirs e.2.2 i a : ℤ) * U a := by
    intro U hU
    rw [Finset.sum_eq_single a]
    · rfl
    · intro k _ hk; rw [hU k hk, mul_zero]
    · simp
  have hb : dirs e.2.2 (inv i) b = -dirs e.2.2 i b := congrFun (hinv i) b
  unfold plateVelocity
  rw [hb]
  by_cases h1 : dirs e.2.2 i b = 1
  · rw [if_pos h1, if_pos (by rw [h1]; norm_num), sum U₀ hU₀]; ring
  · rw [if_neg h1, if_neg (by rcases hc1 i b with h | h | h <;> omega), sum U₁ hU₁]; ring

/-! ### Example -/

namespace Example

def U : Fin (st.headD []).length → ℚ := fun a => if a.val = 0 then 1 / 20 else 0

/-- A channel of 4 x 3 cells with the upper plate moving: there is a steady flow, and every steady flow that is the same in all cells
of a row has in the middle row half of the momentum of the plate, and parabola and slip of the force. -/
example : ∃ r, ((o.withForce cq (by decide +kernel) .simple F).method cq).getCollisionRule = .ok r ∧
    (∃ g : Vec (st.headD []).length → Fin st.length → ℚ, ∀ x ∈ (channel (fun d => if d.val = 0 then 4 else 3) ⟨1, by decide⟩).fluid,
      (channel (fun d => if d.val = 0 then 4 else 3) ⟨1, by decide⟩).collideStream (dirs st)
        (ubbPlates st o.weights inv ⟨1, by decide⟩ (fun _ => 0) U false none 1) (fun _ => r) g x = g x) ∧
    ∀ g : Vec (st.headD []).length → Fin st.length → ℚ,
      (∀ x ∈ (channel (fun d => if d.val = 0 then 4 else 3) ⟨1, by decide⟩).fluid,
        (channel (fun d => if d.val = 0 then 4 else 3) ⟨1, by decide⟩).collideStream (dirs st)
          (ubbPlates st o.weights inv ⟨1, by decide⟩ (fun _ => 0) U false none 1) (fun _ => r) g x = g x) →
      (∀ x y : Vec (st.headD []).length, x ⟨1, by decide⟩ = y ⟨1, by decide⟩ → g x = g y) →
      dirMoment (dirs st) (fun v => v ⟨0, by decide⟩) (g fun _ => 1) + 1 / 2000 = 23 / 3000 + 1 / 40 := by
  have he : ("D2Q9", "uk", st) ∈ Tables.predefined := by decide +kernel
  have h9 : st.length ∈ [9, 15, 19, 27] := by decide
  have hps : (defaultMomentSet 2 9).getD [] ∈ defaultMomentSet (st.headD []).length st.length := by decide +kernel
  have hinv : ∀ i, dirs st (inv i) = -dirs st i := by decide +kernel
  obtain ⟨r, hr, g, -, -, hC, hg⟩ := C107_exists he h9 _ _ hps (List.Perm.refl _) 1 (3 / 4) (by norm_num) (by norm_num) (by norm_num)
    o rfl cq valid (by decide) rfl (by decide +kernel) F rfl ⟨0, by decide⟩ ⟨1, by decide⟩ (by decide) (by decide +kernel)
    (fun _ => 0) U (by decide) (by decide +kernel) none 1 inv hinv (fun d => if d.val = 0 then 4 else 3) (by decide) 0 rfl
  obtain ⟨r', hr', hC⟩ := C106_trt he h9 _ _ hps (List.Perm.refl _) 1 (3 / 4)
    o rfl cq valid (by decide +kernel) .simple (by simp) F rfl ⟨0, by decide⟩ ⟨1, by decide⟩ (by decide) (by decide +kernel)
    (fun h => absurd h (by decide))
  obtain rfl : r = r' := by rw [hr] at hr'; exact Except.ok.inj hr'
  refine ⟨r, hr, ⟨g, hg⟩, fun g hg hrow => ?_⟩
  obtain ⟨hv, -, hc1⟩ := lattice_ok_aux _ he h9
  have hx : (fun _ => 1 : Vec (st.headD []).length) ∈ (channel (fun d => if d.val = 0 then 4 else 3) ⟨1, by decide⟩).fluid := by
    rw [mem_fluid]; decide
  have ubb := fun f x => C107_ubb he h9 o.weights valid.weights inv hinv ⟨0, by decide⟩ ⟨1, by decide⟩ (by decide) (fun _ => 0) U rfl
    (by decide +kernel) false none 1 f x
  have := (C107_profile hv hinv (fun i => hc1 i _) (by decide) (fun x _ y _ h => hrow x y h) hg 0 (1 / 20)
    (fun x _ _ => by
      have := (ubb (r (g x)) x).1
      rwa [mul_zero] at this)
    (fun x _ _ => by
      have := (ubb (r (g x)) x).2
      rwa [show ubbDensity false none 1 (r (g x)) * U ⟨0, by decide⟩ = 1 / 20 by simp [ubbDensity, U]] at this)
    1 (3 / 4) (F ⟨0, by decide⟩)
    (by norm_num) (by norm_num) (by norm_num) (fun x _ => hC (g x) (fun h => absurd h (by decide)) (fun h => absurd h (by decide))) _ hx).2
  have hF : F ⟨0, by decide⟩ = 1 / 1000 := rfl
  rw [hF] at this
  refine Eq.trans ?_ (this.trans ?_)
  · norm_num
  · unfold planePoiseuille planeCouette; norm_num

end Example

end Poiseuille
end Lbm
