/-
C23: the force models add no mass and exactly the force.
-/
import Verif.ForceModels
import Verif.Props.Equilibrium
import Verif.Props.Collision

set_option linter.unusedSectionVars false

namespace Lbm

open Matrix Spec

theorem dot_comm {K : Type} [Field K] {D : ℕ} (x y : Fin D → K) : dot x y = dot y x :=
  Finset.sum_congr rfl fun _ _ => mul_comm _ _

namespace ForceInput
variable {K : Type} [Field K] [CharZero K] [DecidableEq K] {Q D : ℕ} (s : ForceInput K Q D)

theorem simple_eq (q : Fin Q) : s.simple q = 3 * (s.w q * dot (s.c q) s.F) := by
  show s.w q / (1 / 3) * dot s.F (s.c q) = _
  rw [dot_comm]; ring

theorem luo_eq (q : Fin Q) :
    s.luo q = s.w q * (3 * (dot (s.c q) s.F - dot s.u s.F) + 9 * (dot (s.c q) s.F * dot (s.c q) s.u)) := by
  show s.w q * (∑ a, s.F a * ((s.c q a - s.u a) / (1 / 3) + s.c q a * dot (s.c q) s.u / (1 / 3) ^ 2)) = _
  have e : ∀ a, s.F a * ((s.c q a - s.u a) / (1 / 3) + s.c q a * dot (s.c q) s.u / (1 / 3) ^ 2) =
      (s.c q a * s.F a) * (3 + 9 * dot (s.c q) s.u) - (s.u a * s.F a) * 3 := fun a => by ring
  simp only [e, Finset.sum_sub_distrib, ← Finset.sum_mul]
  show s.w q * (dot (s.c q) s.F * (3 + 9 * dot (s.c q) s.u) - dot s.u s.F * 3) = _
  ring

theorem heTerms_eq (g : Fin Q → K) (q : Fin Q) :
    s.heTerms g q = 3 * (g q * dot (s.c q) s.F) - 3 * dot s.u s.F * g q := by
  show g q * (∑ a, (s.c q a - s.u a) * s.F a) / (1 / 3) = _
  simp only [sub_mul, Finset.sum_sub_distrib]
  show g q * (dot (s.c q) s.F - dot s.u s.F) / (1 / 3) = _
  ring

theorem shanChenLinear_eq (q : Fin Q) : s.shanChenLinear q =
    s.w q * dot (s.c q) s.F + 3 * (s.w q * dot (s.c q) s.u * dot (s.c q) s.F) - dot s.u s.F * s.w q := by
  show s.w q * (dot (s.c q) s.F + 3 * dot (s.c q) s.u * dot (s.c q) s.F - dot s.u s.F) = _
  ring

/-- the density by which forces are divided -/
def refDensity : K := if s.compressible then s.rho else 1

theorem shanChenNonLinear_eq (q : Fin Q) : s.shanChenNonLinear q =
    3 / (2 * s.refDensity) * (s.w q * dot (s.c q) s.F * dot (s.c q) s.F) -
      dot s.F s.F / (2 * s.refDensity) * s.w q := by
  show s.w q / (2 * s.refDensity) * (3 * dot (s.c q) s.F ^ 2 - dot s.F s.F) = _
  ring

/-! ### Moments of the population-space terms -/

variable {s}

theorem C23_simple (h : Isotropic3 s.c s.w (1 / 3)) : ∑ q, s.simple q = 0 ∧
    (∀ a, ∑ q, s.c q a * s.simple q = s.F a) ∧ ∀ a b, ∑ q, s.c q a * s.c q b * s.simple q = 0 := by
  simp only [simple_eq]
  refine ⟨by rw [← Finset.mul_sum, h.c1, mul_zero], fun a => ?_, fun a b => ?_⟩
  · have e : ∀ q, s.c q a * (3 * (s.w q * dot (s.c q) s.F)) =
        3 * (s.w q * dot (s.c q) (fun d => δ a d) * dot (s.c q) s.F) := fun q => by rw [← comp_eq_dot]; ring
    simp only [e, ← Finset.mul_sum, h.c2, dot_δ]; ring
  · have e : ∀ q, s.c q a * s.c q b * (3 * (s.w q * dot (s.c q) s.F)) =
        3 * (s.w q * dot (s.c q) (fun d => δ a d) * dot (s.c q) (fun d => δ b d) * dot (s.c q) s.F) :=
      fun q => by rw [← comp_eq_dot, ← comp_eq_dot]; ring
    simp only [e, ← Finset.mul_sum, h.c3]; ring

theorem C23_luo (h : Isotropic3 s.c s.w (1 / 3)) : ∑ q, s.luo q = 0 ∧
    (∀ a, ∑ q, s.c q a * s.luo q = s.F a) ∧
    (Isotropic5 s.c s.w (1 / 3) → ∀ a b, ∑ q, s.c q a * s.c q b * s.luo q = s.F a * s.u b + s.u a * s.F b) := by
  simp only [luo_eq]
  refine ⟨?_, fun a => ?_, fun h5 a b => ?_⟩
  · have e : ∀ q, s.w q * (3 * (dot (s.c q) s.F - dot s.u s.F) + 9 * (dot (s.c q) s.F * dot (s.c q) s.u)) =
        3 * (s.w q * dot (s.c q) s.F) + (-3 * dot s.u s.F) * s.w q + 9 * (s.w q * dot (s.c q) s.F * dot (s.c q) s.u) :=
      fun q => by ring
    simp only [e, Finset.sum_add_distrib, ← Finset.mul_sum, h.m0, h.c1, h.c2, dot_comm s.F s.u]; ring
  · have e : ∀ q, s.c q a * (s.w q * (3 * (dot (s.c q) s.F - dot s.u s.F) +
        9 * (dot (s.c q) s.F * dot (s.c q) s.u))) =
        3 * (s.w q * dot (s.c q) (fun d => δ a d) * dot (s.c q) s.F) + (-3 * dot s.u s.F) * (s.w q * s.c q a) +
        9 * (s.w q * dot (s.c q) (fun d => δ a d) * dot (s.c q) s.F * dot (s.c q) s.u) :=
      fun q => by rw [← comp_eq_dot]; ring
    simp only [e, Finset.sum_add_distrib, ← Finset.mul_sum, h.m1, h.c2, h.c3, dot_δ]; ring
  · have e : ∀ q, s.c q a * s.c q b * (s.w q * (3 * (dot (s.c q) s.F - dot s.u s.F) +
        9 * (dot (s.c q) s.F * dot (s.c q) s.u))) =
        3 * (s.w q * dot (s.c q) (fun d => δ a d) * dot (s.c q) (fun d => δ b d) * dot (s.c q) s.F) +
        (-3 * dot s.u s.F) * (s.w q * s.c q a * s.c q b) +
        9 * (s.w q * dot (s.c q) (fun d => δ a d) * dot (s.c q) (fun d => δ b d) * dot (s.c q) s.F *
          dot (s.c q) s.u) := fun q => by rw [← comp_eq_dot, ← comp_eq_dot]; ring
    have hs : (δ b a : K) = δ a b := by unfold δ; simp only [eq_comm]
    simp only [e, Finset.sum_add_distrib, ← Finset.mul_sum, h.m2, h.c3, h5.c4, dot_δ, dot_comm s.F s.u, hs]; ring

/-- moments up to second order of the equilibrium `He` uses: density 1, velocity `u` -/
structure HeEq (s : ForceInput K Q D) (g : Fin Q → K) : Prop where
  m0 : ∑ q, g q = 1
  m1 : ∀ a, ∑ q, s.c q a * g q = s.u a
  m2 : ∀ a b, ∑ q, s.c q a * s.c q b * g q = 1 / 3 * δ a b + s.u a * s.u b

theorem C23_he_terms {g : Fin Q → K} (hg : HeEq s g) : ∑ q, s.heTerms g q = 0 ∧
    ∀ a, ∑ q, s.c q a * s.heTerms g q = s.F a := by
  simp only [heTerms_eq]
  have k0 : ∑ q, g q * dot (s.c q) s.F = dot s.u s.F := by
    rw [contract_pull]
    have e : ∀ a, s.F a * ∑ q, g q * s.c q a = s.u a * s.F a := fun a => by
      rw [← hg.m1 a, mul_comm]
      congr 1
      exact Finset.sum_congr rfl fun q _ => mul_comm _ _
    simp only [e]; rfl
  refine ⟨by rw [Finset.sum_sub_distrib, ← Finset.mul_sum, ← Finset.mul_sum, k0, hg.m0]; ring, fun a => ?_⟩
  have e : ∀ q, s.c q a * (3 * (g q * dot (s.c q) s.F) - 3 * dot s.u s.F * g q) =
      3 * ((s.c q a * g q) * dot (s.c q) s.F) - 3 * dot s.u s.F * (s.c q a * g q) := fun q => by ring
  have k1 : ∑ q, s.c q a * g q * dot (s.c q) s.F = 1 / 3 * s.F a + s.u a * dot s.u s.F := by
    rw [contract_pull]
    have e : ∀ b, s.F b * ∑ q, s.c q a * g q * s.c q b = 1 / 3 * (s.F b * δ a b) + s.u a * (s.u b * s.F b) :=
      fun b => by
        have : ∑ q, s.c q a * g q * s.c q b = ∑ q, s.c q a * s.c q b * g q :=
          Finset.sum_congr rfl fun q _ => by ring
        rw [this, hg.m2]; ring
    simp only [e, Finset.sum_add_distrib, ← Finset.mul_sum, sum_δ]; rfl
  simp only [e, Finset.sum_sub_distrib, ← Finset.mul_sum, k1, hg.m1]; ring

/-- the equilibrium `EDM` differentiates: mass independent of the velocity, momentum `ρ_ref v` -/
structure EdmEq (s : ForceInput K Q D) : Prop where
  m0 : ∀ v, ∑ q, s.eq s.rho v q = ∑ q, s.eq s.rho s.u q
  m1 : ∀ v a, ∑ q, s.c q a * s.eq s.rho v q = s.refDensity * v a
  ref : s.refDensity ≠ 0

theorem C23_edm (h : EdmEq s) : ∑ q, s.edm q = 0 ∧ ∀ a, ∑ q, s.c q a * s.edm q = s.F a := by
  have e : ∀ q, s.edm q = s.eq s.rho (fun a => s.u a + s.F a / s.refDensity) q - s.eq s.rho s.u q := fun q => rfl
  simp only [e, mul_sub, Finset.sum_sub_distrib, h.m1]
  refine ⟨by rw [h.m0, sub_self], fun a => ?_⟩
  have := h.ref
  field_simp
  ring

/-- the exact second moments of the EDM term: those of Luo plus `F F / ρ_ref`, if the equilibrium has the second moments
of the Maxwellian -/
theorem C23_edm_second (h : EdmEq s) (p : Fin D → Fin D → K)
    (h2 : ∀ v a b, ∑ q, s.c q a * s.c q b * s.eq s.rho v q = p a b + s.refDensity * (v a * v b)) (a b : Fin D) :
    ∑ q, s.c q a * s.c q b * s.edm q = s.F a * s.u b + s.u a * s.F b + s.F a * s.F b / s.refDensity := by
  have e : ∀ q, s.edm q = s.eq s.rho (fun a => s.u a + s.F a / s.refDensity) q - s.eq s.rho s.u q := fun q => rfl
  simp only [e, mul_sub, Finset.sum_sub_distrib, h2]
  have := h.ref
  field_simp
  ring

theorem C23_shan_chen_terms (h : Isotropic3 s.c s.w (1 / 3)) :
    ∑ q, s.shanChenLinear q = 0 ∧ ∑ q, s.shanChenNonLinear q = 0 ∧
    (∀ a, ∑ q, s.c q a * s.shanChenLinear q = 1 / 3 * s.F a) ∧
    (∀ a, ∑ q, s.c q a * s.shanChenNonLinear q = 0) ∧
    (Isotropic5 s.c s.w (1 / 3) → ∀ a b,
      ∑ q, s.c q a * s.c q b * s.shanChenLinear q = 1 / 3 * (s.F a * s.u b + s.u a * s.F b) ∧
      ∑ q, s.c q a * s.c q b * s.shanChenNonLinear q = 1 / 3 * (s.F a * s.F b / s.refDensity)) := by
  simp only [shanChenLinear_eq, shanChenNonLinear_eq]
  refine ⟨?_, ?_, fun a => ?_, fun a => ?_, fun h5 a b => ⟨?_, ?_⟩⟩
  · simp only [Finset.sum_add_distrib, Finset.sum_sub_distrib, ← Finset.mul_sum, h.m0, h.c1, h.c2]; ring
  · simp only [Finset.sum_sub_distrib, ← Finset.mul_sum, h.m0, h.c2]; ring
  · have e : ∀ q, s.c q a * (s.w q * dot (s.c q) s.F + 3 * (s.w q * dot (s.c q) s.u * dot (s.c q) s.F) -
        dot s.u s.F * s.w q) = s.w q * dot (s.c q) (fun d => δ a d) * dot (s.c q) s.F +
        3 * (s.w q * dot (s.c q) (fun d => δ a d) * dot (s.c q) s.u * dot (s.c q) s.F) -
        dot s.u s.F * (s.w q * s.c q a) := fun q => by rw [← comp_eq_dot]; ring
    simp only [e, Finset.sum_add_distrib, Finset.sum_sub_distrib, ← Finset.mul_sum, h.m1, h.c2, h.c3, dot_δ]; ring
  · have e : ∀ q, s.c q a * (3 / (2 * s.refDensity) * (s.w q * dot (s.c q) s.F * dot (s.c q) s.F) -
        dot s.F s.F / (2 * s.refDensity) * s.w q) = 3 / (2 * s.refDensity) *
        (s.w q * dot (s.c q) (fun d => δ a d) * dot (s.c q) s.F * dot (s.c q) s.F) -
        dot s.F s.F / (2 * s.refDensity) * (s.w q * s.c q a) := fun q => by rw [← comp_eq_dot]; ring
    simp only [e, Finset.sum_sub_distrib, ← Finset.mul_sum, h.m1, h.c3]; ring
  · have e : ∀ q, s.c q a * s.c q b * (s.w q * dot (s.c q) s.F + 3 * (s.w q * dot (s.c q) s.u * dot (s.c q) s.F) -
        dot s.u s.F * s.w q) =
        s.w q * dot (s.c q) (fun d => δ a d) * dot (s.c q) (fun d => δ b d) * dot (s.c q) s.F +
        3 * (s.w q * dot (s.c q) (fun d => δ a d) * dot (s.c q) (fun d => δ b d) * dot (s.c q) s.u *
          dot (s.c q) s.F) -
        dot s.u s.F * (s.w q * s.c q a * s.c q b) := fun q => by rw [← comp_eq_dot, ← comp_eq_dot]; ring
    have hs : (δ b a : K) = δ a b := by unfold δ; simp only [eq_comm]
    simp only [e, Finset.sum_add_distrib, Finset.sum_sub_distrib, ← Finset.mul_sum, h.m2, h.c3, h5.c4, dot_δ, hs]; ring
  · have e : ∀ q, s.c q a * s.c q b * (3 / (2 * s.refDensity) * (s.w q * dot (s.c q) s.F * dot (s.c q) s.F) -
        dot s.F s.F / (2 * s.refDensity) * s.w q) = 3 / (2 * s.refDensity) *
        (s.w q * dot (s.c q) (fun d => δ a d) * dot (s.c q) (fun d => δ b d) * dot (s.c q) s.F * dot (s.c q) s.F) -
        dot s.F s.F / (2 * s.refDensity) * (s.w q * s.c q a * s.c q b) :=
      fun q => by rw [← comp_eq_dot, ← comp_eq_dot]; ring
    have hs : (δ b a : K) = δ a b := by unfold δ; simp only [eq_comm]
    simp only [e, Finset.sum_sub_distrib, ← Finset.mul_sum, h.m2, h5.c4, dot_δ, hs]; ring

/-! ### Population space and moment space -/

theorem srt_rates (h : s.isSrt = true) : ∃ rr, (List.ofFn s.rates).head? = some rr ∧ ∀ i, s.rates i = rr := by
  unfold isSrt at h
  rw [beq_iff_eq, Finset.card_eq_one] at h
  obtain ⟨rr, hrr⟩ := h
  have hall : ∀ i, s.rates i = rr := fun i => by
    have : s.rates i ∈ Finset.univ.image s.rates := Finset.mem_image_of_mem _ (Finset.mem_univ i)
    rw [hrr] at this
    exact Finset.mem_singleton.1 this
  have hne : (Finset.univ.image s.rates).Nonempty := by rw [hrr]; exact Finset.singleton_nonempty _
  obtain ⟨_, hx⟩ := hne
  obtain ⟨i, _, -⟩ := Finset.mem_image.1 hx
  refine ⟨rr, ?_, hall⟩
  have hQ : 0 < Q := lt_of_le_of_lt (Nat.zero_le _) i.isLt
  rw [List.head?_eq_getElem?, List.getElem?_ofFn, dif_pos hQ, hall]

/-- moments of `srtOr`: row by row the population terms scaled by `1 - rate/2`, or the given moment terms -/
theorem srtOr_mom (hd : s.M.det ≠ 0) (pop mt : Fin Q → K) (i : Fin Q) :
    (s.M *ᵥ s.srtOr pop mt) i = if s.isSrt then s.correction i * (s.M *ᵥ pop) i else mt i := by
  unfold srtOr
  by_cases h : s.isSrt = true
  · obtain ⟨rr, h0, hall⟩ := srt_rates h
    rw [if_pos h, if_pos h, h0]
    have : (fun q => (1 - rr / 2) * pop q) = (1 - rr / 2) • pop := rfl
    simp only [this, mulVec_smul, Pi.smul_apply, smul_eq_mul, correction, hall]
    ring
  · rw [if_neg h, if_neg h, mulVec_mulVec, mul_nonsing_inv _ (isUnit_iff_ne_zero.2 hd), one_mulVec]

/-- C23: the force terms in population space have the moments that are added in moment space, for every model, except
`He` with a single relaxation rate (see `C23_he_spaces_differ`). -/
theorem C23_spaces_agree (hd : s.M.det ≠ 0) (g : Fin Q → K) (k : ForceKind) (hk : k = .he → s.isSrt = false)
    (p mt : Fin Q → K) (hp : k.pop s g = .ok p) (hm : k.moments s = some mt) : s.M *ᵥ p = mt := by
  cases k <;> simp only [ForceKind.pop, ForceKind.moments, Except.ok.injEq, Option.some.injEq, reduceCtorEq] at hp hm <;>
    subst hp <;> subst hm
  · rfl
  · rfl
  · funext i; unfold guo; rw [srtOr_mom hd]; split_ifs <;> rfl
  · funext i; unfold he; rw [srtOr_mom hd, if_neg (by rw [hk rfl]; simp)]
  · funext i; unfold buick; rw [srtOr_mom hd]; split_ifs <;> rfl
  · rfl
  · funext i; unfold shanChen; rw [mulVec_mulVec, mul_nonsing_inv _ (isUnit_iff_ne_zero.2 hd), one_mulVec]

/-- what the force model adds to moment `i`, in the space in which it is applied -/
noncomputable def added (s : ForceInput K Q D) (g : Fin Q → K) (k : ForceKind) (inMomentSpace : Bool) (i : Fin Q) : K :=
  if inMomentSpace then (k.moments s).getD 0 i
  else match k.pop s g with
    | .ok p => (s.M *ᵥ p) i
    | .error _ => 0

/-- by how much a model that shifts the equilibrium velocity scales the force -/
def forceFactor (k : ForceKind) (rate : K) : K :=
  match k with
  | .guo | .he | .buick | .shanChen | .centralMoment => 1 - rate / 2
  | .simple | .luo | .edm => 1

/-- hypotheses on the method: weights isotropic to third order, independent moments, equilibria with the density and
momentum they should have -/
structure Hydro (s : ForceInput K Q D) (g : Fin Q → K) (k : ForceKind) : Prop where
  iso : Isotropic3 s.c s.w (1 / 3)
  det : s.M.det ≠ 0
  heEq : k = .he → HeEq s g ∧ s.rho ≠ 0
  edmEq : k = .edm → EdmEq s

/-- row `i` of the moment matrix is the mass / the momentum in direction `a`, also for the continuous moments of `He` -/
def IsMass (s : ForceInput K Q D) (k : ForceKind) (i : Fin Q) : Prop :=
  (∀ q, s.M i q = 1) ∧ (k = .he → s.heRaw i = hePolynomial s.rho s.u s.F [(1, fun _ => 0)])
def IsMomentum (s : ForceInput K Q D) (k : ForceKind) (a : Fin D) (i : Fin Q) : Prop :=
  (∀ q, s.M i q = s.c q a) ∧
  (k = .he → s.heRaw i = hePolynomial s.rho s.u s.F [(1, fun b => if b = a then 1 else 0)])

theorem maxwell_mass (rho : K) (u : Fin D → K) (v : K) : maxwellMoment rho u v (fun _ => 0) = rho := by
  simp [maxwellMoment, gaussMoment]

theorem maxwell_momentum (rho : K) (u : Fin D → K) (v : K) (a : Fin D) :
    maxwellMoment rho u v (fun b => if b = a then 1 else 0) = rho * u a := by
  unfold maxwellMoment
  congr 1
  rw [Finset.prod_eq_single a]
  · simp [gaussMoment]
  · intro b _ hb; simp [hb, gaussMoment]
  · simp

theorem maxwell_second (rho : K) (u : Fin D → K) (v : K) (a d : Fin D) :
    maxwellMoment rho u v (fun b => (if b = a then 1 else 0) + if b = d then 1 else 0) =
      rho * (v * δ a d + u a * u d) := by
  unfold maxwellMoment
  congr 1
  by_cases had : a = d
  · subst had
    rw [Finset.prod_eq_single a]
    · simp [gaussMoment, δ]; ring
    · intro b _ hb; simp [hb, gaussMoment]
    · simp
  · rw [← Finset.mul_prod_erase _ _ (Finset.mem_univ a), ← Finset.mul_prod_erase _ _
      (Finset.mem_erase.2 ⟨fun e => had e.symm, Finset.mem_univ d⟩), Finset.prod_eq_one]
    · have : ¬d = a := fun e => had e.symm
      simp [gaussMoment, δ, had, this]
    · intro b hb
      simp only [Finset.mem_erase] at hb
      simp [hb.1, hb.2.1, gaussMoment]

theorem C23_he_continuous (rho : K) (hrho : rho ≠ 0) (u F : Fin D → K) :
    hePolynomial rho u F [(1, fun _ => 0)] = 0 ∧
    ∀ a, hePolynomial rho u F [(1, fun b => if b = a then 1 else 0)] = F a := by
  constructor
  · simp only [hePolynomial, heMonomial, List.map_cons, List.map_nil, List.sum_cons, List.sum_nil, Nat.zero_add,
      maxwell_momentum, maxwell_mass]
    have e : ∀ a, F a * (rho * u a) = rho * (F a * u a) := fun a => by ring
    simp only [e, ← Finset.mul_sum]; ring
  · intro a
    simp only [hePolynomial, heMonomial, List.map_cons, List.map_nil, List.sum_cons, List.sum_nil, maxwell_momentum,
      maxwell_second]
    have e : ∀ d, F d * (rho * (1 / 3 * δ a d + u a * u d)) = rho / 3 * (F d * δ a d) + rho * u a * (F d * u d) :=
      fun a => by ring
    simp only [e, Finset.sum_add_distrib, ← Finset.mul_sum, sum_δ]
    field_simp
    ring

/-- C23: no force model adds mass, in either space. -/
theorem C23_no_mass {g : Fin Q → K} (k : ForceKind) (h : Hydro s g k) (inMS : Bool) (i : Fin Q)
    (hi : IsMass s k i) : s.added g k inMS i = 0 := by
  have row : ∀ p : Fin Q → K, (s.M *ᵥ p) i = ∑ q, p q := fun p => by
    show ∑ q, s.M i q * p q = _
    exact Finset.sum_congr rfl fun q _ => by rw [hi.1 q, one_mul]
  have hsi := (C23_simple h.iso).1
  have hlu := (C23_luo h.iso).1
  have hsc := C23_shan_chen_terms h.iso
  have hhe : k = .he → s.heRaw i = 0 := fun e => by
    rw [hi.2 e]; exact (C23_he_continuous s.rho (h.heEq e).2 s.u s.F).1
  have hm : (k.moments s).getD 0 i = 0 := by
    cases k
    · exact (row _).trans hsi
    · exact (row _).trans hlu
    · show s.correction i * (s.M *ᵥ s.luo) i = 0; rw [row, hlu, mul_zero]
    · show s.correction i * s.heRaw i = 0; rw [hhe rfl, mul_zero]
    · show s.correction i * (s.M *ᵥ s.simple) i = 0; rw [row, hsi, mul_zero]
    · exact (row _).trans (C23_edm (h.edmEq rfl)).1
    · show 1 / csSq * s.correction i * (s.M *ᵥ s.shanChenLinear) i +
        (1 / csSq * s.correction i) ^ 2 * (s.M *ᵥ s.shanChenNonLinear) i = 0
      rw [row, row, hsc.1, hsc.2.1]; ring
    · rfl
  unfold added
  cases inMS
  · simp only [Bool.false_eq_true, if_false]
    by_cases hk : k = .he ∧ s.isSrt = true
    · obtain ⟨rfl, hs⟩ := hk
      show (s.M *ᵥ s.he g) i = 0
      unfold he
      rw [srtOr_mom h.det, if_pos hs, row, (C23_he_terms (h.heEq rfl).1).1, mul_zero]
    · rcases hp : k.pop s g with e | p
      · rfl
      · rcases hmm : k.moments s with _ | mt
        · cases k <;> simp_all [ForceKind.moments, ForceKind.pop]
        · have := C23_spaces_agree h.det g k (fun e => by simpa [e] using hk) p mt hp hmm
          show (s.M *ᵥ p) i = 0
          rw [this]
          simpa [hmm] using hm
  · simpa using hm

/-- C23: the momentum a force model adds is the force, scaled by `1 - rate/2` for the models that shift the equilibrium
velocity; in either space. -/
theorem C23_momentum {g : Fin Q → K} (k : ForceKind) (h : Hydro s g k) (hk : k ≠ .centralMoment)
    (inMS : Bool) (a : Fin D) (i : Fin Q) (hi : IsMomentum s k a i) :
    s.added g k inMS i = forceFactor k (s.rates i) * s.F a := by
  have row : ∀ p : Fin Q → K, (s.M *ᵥ p) i = ∑ q, s.c q a * p q := fun p => by
    show ∑ q, s.M i q * p q = _
    exact Finset.sum_congr rfl fun q _ => by rw [hi.1 q]
  have hsi := (C23_simple h.iso).2.1 a
  have hlu := (C23_luo h.iso).2.1 a
  have hsc := C23_shan_chen_terms h.iso
  have hhe : k = .he → s.heRaw i = s.F a := fun e => by
    rw [hi.2 e]; exact (C23_he_continuous s.rho (h.heEq e).2 s.u s.F).2 a
  have hm : (k.moments s).getD 0 i = forceFactor k (s.rates i) * s.F a := by
    cases k
    · exact ((row _).trans hsi).trans (one_mul _).symm
    · exact ((row _).trans hlu).trans (one_mul _).symm
    · show s.correction i * (s.M *ᵥ s.luo) i = _; rw [row, hlu]; simp only [correction, forceFactor]; ring
    · show s.correction i * s.heRaw i = _; rw [hhe rfl]; simp only [correction, forceFactor]; ring
    · show s.correction i * (s.M *ᵥ s.simple) i = _; rw [row, hsi]; simp only [correction, forceFactor]; ring
    · exact ((row _).trans ((C23_edm (h.edmEq rfl)).2 a)).trans (one_mul _).symm
    · show 1 / csSq * s.correction i * (s.M *ᵥ s.shanChenLinear) i +
        (1 / csSq * s.correction i) ^ 2 * (s.M *ᵥ s.shanChenNonLinear) i = _
      rw [row, row, hsc.2.2.1, hsc.2.2.2.1]; simp only [correction, forceFactor, csSq]; ring
    · exact absurd rfl hk
  unfold added
  cases inMS
  · simp only [Bool.false_eq_true, if_false]
    by_cases hk : k = .he ∧ s.isSrt = true
    · obtain ⟨rfl, hs⟩ := hk
      show (s.M *ᵥ s.he g) i = _
      unfold he
      rw [srtOr_mom h.det, if_pos hs, row, (C23_he_terms (h.heEq rfl).1).2 a]
      simp only [correction, forceFactor]; ring
    · rcases hp : k.pop s g with e | p
      · cases k <;> simp_all [ForceKind.pop]
      · rcases hmm : k.moments s with _ | mt
        · cases k <;> simp_all [ForceKind.moments, ForceKind.pop]
        · have := C23_spaces_agree h.det g k (fun e => by simpa [e] using hk) p mt hp hmm
          show (s.M *ᵥ p) i = _
          rw [this]
          simpa [hmm] using hm
  · simpa using hm

/-- C23: second moments in moment space of the models derived from Luo's term, for a row `c_a c_b` of the moment matrix. -/
theorem C23_second_moments (h5 : Isotropic5 s.c s.w (1 / 3)) (a b : Fin D) (i : Fin Q)
    (hi : ∀ q, s.M i q = s.c q a * s.c q b) :
    (ForceKind.moments s .simple).getD 0 i = 0 ∧ (ForceKind.moments s .buick).getD 0 i = 0 ∧
    (ForceKind.moments s .luo).getD 0 i = s.F a * s.u b + s.u a * s.F b ∧
    (ForceKind.moments s .guo).getD 0 i = (1 - s.rates i / 2) * (s.F a * s.u b + s.u a * s.F b) ∧
    (ForceKind.moments s .shanChen).getD 0 i = (1 - s.rates i / 2) * (s.F a * s.u b + s.u a * s.F b) +
      3 * (1 - s.rates i / 2) ^ 2 * (s.F a * s.F b / s.refDensity) := by
  have h := h5.toIsotropic3
  have row : ∀ p : Fin Q → K, (s.M *ᵥ p) i = ∑ q, s.c q a * s.c q b * p q := fun p => by
    show ∑ q, s.M i q * p q = _
    exact Finset.sum_congr rfl fun q _ => by rw [hi q]
  have h1 := (C23_simple h).2.2 a b
  have h2 := (C23_luo h).2.2 h5 a b
  have h3 := (C23_shan_chen_terms h).2.2.2.2 h5 a b
  refine ⟨(row _).trans h1, ?_, (row _).trans h2, ?_, ?_⟩
  · show s.correction i * (s.M *ᵥ s.simple) i = 0; rw [row, h1, mul_zero]
  · show s.correction i * (s.M *ᵥ s.luo) i = _; rw [row, h2]; simp only [correction]; ring
  · show 1 / csSq * s.correction i * (s.M *ᵥ s.shanChenLinear) i +
        (1 / csSq * s.correction i) ^ 2 * (s.M *ᵥ s.shanChenNonLinear) i = _
    rw [row, row, h3.1, h3.2]; simp only [correction, csSq]; ring

/-- Compared with the original Shan-Chen scheme (equilibrium velocity `v = u + (1/ω - 1/2) F/ρ` with `u` the velocity
including half the force), whose second moment is `ω ρ (v v - u u)`, the quadratic part of the code's term has the factor
3 in place of `1/ω`. -/
theorem C23_shan_chen_original (h5 : Isotropic5 s.c s.w (1 / 3)) (a b : Fin D) (i : Fin Q)
    (hi : ∀ q, s.M i q = s.c q a * s.c q b) (hω : s.rates i ≠ 0) (href : s.refDensity ≠ 0) (v : Fin D → K)
    (hv : ∀ d, v d = s.u d + (1 / s.rates i - 1 / 2) * (s.F d / s.refDensity)) :
    (ForceKind.moments s .shanChen).getD 0 i - s.rates i * (s.refDensity * (v a * v b - s.u a * s.u b)) =
      (3 - 1 / s.rates i) * (1 - s.rates i / 2) ^ 2 * (s.F a * s.F b / s.refDensity) := by
  rw [(C23_second_moments h5 a b i hi).2.2.2.2, hv, hv]
  field_simp
  ring

end ForceInput
end Lbm
