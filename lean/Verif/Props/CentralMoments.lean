/-
C53: the collision operator of central-moment-based methods.
-/
import Verif.Props.ShiftMatrix

set_option linter.unusedSectionVars false

namespace Lbm

open Matrix

namespace CentralMoments
namespace Method

variable {K P : Type} [Field K] {D Q : ℕ}

/-- background of the storage format, in central moments about `u` -/
def bg (m : Method K P D Q) (u : Fin D → K) (i : Fin Q) : K :=
  if m.zeroCentered && !m.deviationOnly then (m.background.map fun b => b u i).getD 0 else 0

/-- what the force model adds to a central moment -/
def forceMoment (m : Method K P D Q) (inc : Bool) (f : Fin Q → K) (i : Fin Q) : K :=
  match m.centralForcing inc with
  | some F => F f i
  | none => match m.popForcing inc with
    | some F => Spec.cmom m.c (m.ev (m.moments i)) (m.vel f) (F f)
    | none => 0

/-- the central moments about the fluid velocity determine the populations -/
def Regular (m : Method K P D Q) (f : Fin Q → K) : Prop :=
  ∀ g, (∀ i, Spec.cmom m.c (m.ev (m.moments i)) (m.vel f) g = 0) → g = 0

theorem cmom_add (c : Fin Q → Fin D → K) (p : (Fin D → K) → K) (u : Fin D → K) (f g : Fin Q → K) :
    Spec.cmom c p u (f + g) = Spec.cmom c p u f + Spec.cmom c p u g := by
  simp [Spec.cmom, mul_add, Finset.sum_add_distrib]

theorem cmom_sub (c : Fin Q → Fin D → K) (p : (Fin D → K) → K) (u : Fin D → K) (f g : Fin Q → K) :
    Spec.cmom c p u (f - g) = Spec.cmom c p u f - Spec.cmom c p u g := by
  simp [Spec.cmom, mul_sub, Finset.sum_sub_distrib]

theorem cmom_smul (c : Fin Q → Fin D → K) (p : (Fin D → K) → K) (u : Fin D → K) (k : K) (f : Fin Q → K) :
    Spec.cmom c p u (k • f) = k * Spec.cmom c p u f := by
  simp only [Spec.cmom, Pi.smul_apply, smul_eq_mul, Finset.mul_sum]
  exact Finset.sum_congr rfl fun q _ => by ring

theorem shift_eq {m : Method K P D Q} {s : (Fin D → K) → Fin Q → K} (h : m.shift = .ok s) (u : Fin D → K) (i : Fin Q) :
    s u i = m.bg u i := by
  unfold shift at h
  unfold bg
  split at h
  · rename_i hc
    rw [if_pos hc]
    rcases hb : m.background with _ | b
    · rw [hb] at h; cases h
    · rw [hb] at h; cases h; rfl
  · rename_i hc
    rw [if_neg hc]
    cases h
    rfl

/-- C53: a collision rule results exactly if the moments have a shift matrix and, for zero-centred storage with absolute equilibrium, a
background distribution is given. -/
theorem C53_defined_iff (m : Method K P D Q) (d : Fin Q → K) (inc : Bool) :
    (∃ r, m.collisionRule d inc = .ok r) ↔ (∃ N, setUpShiftMatrix m.ev m.moments m.c = .ok N) ∧
      (m.zeroCentered = true → m.deviationOnly = false → m.background.isSome) := by
  unfold collisionRule shift matrixTransform
  rcases hN : setUpShiftMatrix m.ev m.moments m.c with e | N <;> rcases hz : m.zeroCentered <;>
    rcases hv : m.deviationOnly <;> rcases hb : m.background with _ | b <;> simp

/-- C53: one collision, in central moments about the fluid velocity: every moment of the stored populations (plus the background of the
storage format) is relaxed towards its equilibrium value with its own rate, and the force contributes. -/
theorem C53_moments (m : Method K P D Q) (d : Fin Q → K) (inc : Bool) {r : (Fin Q → K) → Fin Q → K}
    (hr : m.collisionRule d inc = .ok r) (f : Fin Q → K) (hf : m.Regular f) (i : Fin Q) :
    Spec.cmom m.c (m.ev (m.moments i)) (m.vel f) (r f) + m.bg (m.vel f) i =
      (Spec.cmom m.c (m.ev (m.moments i)) (m.vel f) f + m.bg (m.vel f) i) +
      d i * (m.keq f i - (Spec.cmom m.c (m.ev (m.moments i)) (m.vel f) f + m.bg (m.vel f) i)) + m.forceMoment inc f i := by
  unfold collisionRule at hr
  rcases hs : m.shift with e | s
  · rw [hs] at hr; cases hr
  rcases ht : matrixTransform m.ev m.moments m.c with e | t
  · rw [hs, ht] at hr; cases hr
  rw [hs, ht] at hr
  cases hr
  obtain ⟨h1, h2⟩ := C52_matrix_transform ht (m.vel f)
  have h3 := (h2 hf).2
  have hfw : ∀ k : Fin Q → K, Spec.cmom m.c (m.ev (m.moments i)) (m.vel f) (t.backward (m.vel f) *ᵥ k) = k i := by
    intro k
    rw [← h1, mulVec_mulVec, h3, one_mulVec]
  have hb := shift_eq hs (m.vel f) i
  have key : ∀ F : Fin Q → K, (relaxCentralMoments (t.forward (m.vel f) *ᵥ f + s (m.vel f)) (m.keq f) d F) i =
      (Spec.cmom m.c (m.ev (m.moments i)) (m.vel f) f + m.bg (m.vel f) i) +
      d i * (m.keq f i - (Spec.cmom m.c (m.ev (m.moments i)) (m.vel f) f + m.bg (m.vel f) i)) + F i := by
    intro F
    simp only [relaxCentralMoments, Pi.add_apply, Pi.sub_apply, mulVec_diagonal, h1, hb]
  unfold forceMoment
  rcases hc : m.centralForcing inc with _ | F
  · rcases hp : m.popForcing inc with _ | F'
    · dsimp only
      rw [hfw, Pi.sub_apply, key, hb, Pi.zero_apply]
      ring
    · dsimp only
      rw [cmom_add, hfw, Pi.sub_apply, key, hb, Pi.zero_apply]
      ring
  · have hp : m.popForcing inc = none := by simp [popForcing, hc]
    rw [hp]
    dsimp only
    rw [hfw, Pi.sub_apply, key, hb]
    ring

theorem ext_cmom (m : Method K P D Q) (f : Fin Q → K) (hf : m.Regular f) {g h : Fin Q → K}
    (hgh : ∀ i, Spec.cmom m.c (m.ev (m.moments i)) (m.vel f) g = Spec.cmom m.c (m.ev (m.moments i)) (m.vel f) h) : g = h :=
  sub_eq_zero.1 (hf _ fun i => by rw [cmom_sub, hgh, sub_self])

/-- C53: rates 0 without force: nothing changes. -/
theorem C53_zero_rates (m : Method K P D Q) (inc : Bool) {r : (Fin Q → K) → Fin Q → K}
    (hr : m.collisionRule (fun _ => 0) inc = .ok r) (hF : m.force = none) (f : Fin Q → K) (hf : m.Regular f) : r f = f := by
  refine m.ext_cmom f hf fun i => ?_
  have key := C53_moments m _ inc hr f hf i
  have h0 : m.forceMoment inc f i = 0 := by simp [forceMoment, popForcing, centralForcing, hF]
  rw [h0] at key
  linear_combination key

/-- C53: `get_equilibrium` are the populations with the equilibrium central moments. -/
theorem C53_equilibrium (m : Method K P D Q) {r : (Fin Q → K) → Fin Q → K} (hr : m.getEquilibrium = .ok r) (f : Fin Q → K)
    (hf : m.Regular f) (i : Fin Q) :
    Spec.cmom m.c (m.ev (m.moments i)) (m.vel f) (r f) + m.bg (m.vel f) i = m.keq f i := by
  have key := C53_moments m _ false hr f hf i
  have h0 : m.forceMoment false f i = 0 := by simp [forceMoment, popForcing, centralForcing]
  rw [h0] at key
  linear_combination key

/-- C53: with one common rate the result does not depend on the moments: it is `f + ω (feq - f)`, as for methods in raw moment space
and in population space (C19). -/
theorem C53_single_rate (m : Method K P D Q) (inc : Bool) (ω : K) {r : (Fin Q → K) → Fin Q → K}
    (hr : m.collisionRule (fun _ => ω) inc = .ok r) (hF : m.force = none) (w feq f : Fin Q → K) (hf : m.Regular f)
    (hbg : ∀ i, m.bg (m.vel f) i = Spec.cmom m.c (m.ev (m.moments i)) (m.vel f) w)
    (heq : ∀ i, m.keq f i = Spec.cmom m.c (m.ev (m.moments i)) (m.vel f) feq) :
    r f = f + ω • (feq - w - f) := by
  refine m.ext_cmom f hf fun i => ?_
  have key := C53_moments m _ inc hr f hf i
  have h0 : m.forceMoment inc f i = 0 := by simp [forceMoment, popForcing, centralForcing, hF]
  rw [h0, heq, hbg] at key
  rw [cmom_add, cmom_smul, cmom_sub, cmom_sub]
  linear_combination key

/-- C53: an SRT method gives the same collision in central moment space and in raw moment space. -/
theorem C53_raw_moments [DecidableEq K] [DecidableEq P] {P' : Type} [DecidableEq P'] (m : Method K P D Q) (m' : MomentMethod K P' Q)
    (hw : m'.WellFormed) (inc : Bool) (ω : K) {r r' : (Fin Q → K) → Fin Q → K} (hr : m.collisionRule (fun _ => ω) inc = .ok r)
    (hr' : m'.getCollisionRule = .ok r') (hF : m.force = none) (hF' : m'.force = none) (hω : ∀ e ∈ m'.relax, e.2 = ω)
    (w : Fin Q → K) (feq : (Fin Q → K) → Fin Q → K)
    (hbg : ∀ f i, m.bg (m.vel f) i = Spec.cmom m.c (m.ev (m.moments i)) (m.vel f) w)
    (heq : ∀ f i, m.keq f i = Spec.cmom m.c (m.ev (m.moments i)) (m.vel f) (feq f))
    (hbg' : ∀ h i, m'.bgMoment (m'.moment h i) = Spec.mom (m'.ev (m'.moment h i)) w)
    (heq' : ∀ f h i, m'.meq f (m'.moment h i) = Spec.mom (m'.ev (m'.moment h i)) (feq f)) (f : Fin Q → K) (hf : m.Regular f) :
    r f = r' f := by
  have h := MomentMethod.C19_single_rate m' hw w feq ω hω hF' hbg' heq'
  rw [hr'] at h
  cases h
  exact C53_single_rate m inc ω hr hF w (feq f) f hf (hbg f) (heq f)

/-- C53: zero-centred storage: colliding the deviations from a background `w` and adding it is colliding the absolute populations. -/
theorem C53_zero_centred (z a : Method K P D Q) (w : Fin Q → K) (d : Fin Q → K) (inc : Bool) {rz ra : (Fin Q → K) → Fin Q → K}
    (hrz : z.collisionRule d inc = .ok rz) (hra : a.collisionRule d inc = .ok ra) (ha : a.zeroCentered = false)
    (hc : z.c = a.c) (hm : z.moments = a.moments) (hev : z.ev = a.ev) (hv : ∀ g, z.vel g = a.vel (g + w))
    (hF : ∀ g i, z.forceMoment inc g i = a.forceMoment inc (g + w) i)
    (heq : (∀ u i, z.bg u i = Spec.cmom a.c (a.ev (a.moments i)) u w) ∧ (∀ g i, z.keq g i = a.keq (g + w) i) ∨
      (∀ u i, z.bg u i = 0) ∧ ∀ g i, z.keq g i = a.keq (g + w) i - Spec.cmom a.c (a.ev (a.moments i)) (a.vel (g + w)) w)
    (g : Fin Q → K) (hg : a.Regular (g + w)) : rz g + w = ra (g + w) := by
  refine a.ext_cmom (g + w) hg fun i => ?_
  have hgz : z.Regular g := by
    intro x hx
    refine hg x fun i => ?_
    have := hx i
    rwa [hc, hm, hev, hv] at this
  have k1 := C53_moments z d inc hrz g hgz i
  have k2 := C53_moments a d inc hra (g + w) hg i
  have hba : a.bg (a.vel (g + w)) i = 0 := by simp [bg, ha]
  rw [hba] at k2
  rw [hc, hm, hev, hv, hF] at k1
  rw [cmom_add] at k2 ⊢
  rcases heq with ⟨h1, h2⟩ | ⟨h1, h2⟩
  · rw [h1, h2] at k1
    linear_combination k1 - k2
  · rw [h1, h2] at k1
    linear_combination k1 - k2

/-! ### Mass and momentum -/

/-- the moments contain the density and the momentum, at these positions -/
structure HasConserved (m : Method K P D Q) (i0 : Fin Q) (i1 : Fin D → Fin Q) : Prop where
  mass : ∀ v, m.ev (m.moments i0) v = 1
  momentum : ∀ a v, m.ev (m.moments (i1 a)) v = v a

theorem cmom_mass {m : Method K P D Q} {i0 : Fin Q} {i1 : Fin D → Fin Q} (h : m.HasConserved i0 i1) (u : Fin D → K)
    (f : Fin Q → K) : Spec.cmom m.c (m.ev (m.moments i0)) u f = ∑ q, f q := by
  simp [Spec.cmom, h.mass]

theorem cmom_momentum {m : Method K P D Q} {i0 : Fin Q} {i1 : Fin D → Fin Q} (h : m.HasConserved i0 i1) (u : Fin D → K)
    (a : Fin D) (f : Fin Q → K) :
    Spec.cmom m.c (m.ev (m.moments (i1 a))) u f = ∑ q, m.c q a * f q - u a * ∑ q, f q := by
  simp only [Spec.cmom, h.momentum, Pi.sub_apply, sub_mul, Finset.sum_sub_distrib, Finset.mul_sum]

/-- C53: the exact change of mass and momentum of a collision. -/
theorem C53_mass_momentum (m : Method K P D Q) (d : Fin Q → K) (inc : Bool) {r : (Fin Q → K) → Fin Q → K}
    (hr : m.collisionRule d inc = .ok r) {i0 : Fin Q} {i1 : Fin D → Fin Q} (h : m.HasConserved i0 i1) (f : Fin Q → K)
    (hf : m.Regular f) :
    ∑ q, r f q = ∑ q, f q + d i0 * (m.keq f i0 - (∑ q, f q + m.bg (m.vel f) i0)) + m.forceMoment inc f i0 ∧
    ∀ a, ∑ q, m.c q a * r f q = ∑ q, m.c q a * f q +
      d (i1 a) * (m.keq f (i1 a) - (∑ q, m.c q a * f q - m.vel f a * ∑ q, f q + m.bg (m.vel f) (i1 a))) +
      m.forceMoment inc f (i1 a) + m.vel f a * (∑ q, r f q - ∑ q, f q) := by
  have k0 := C53_moments m d inc hr f hf i0
  refine ⟨?_, fun a => ?_⟩
  · rw [cmom_mass h, cmom_mass h] at k0
    linear_combination k0
  · have k1 := C53_moments m d inc hr f hf (i1 a)
    rw [cmom_momentum h, cmom_momentum h] at k1
    linear_combination k1

/-- C53: without force, mass and momentum are conserved by all rates, if the equilibrium has the same density and no momentum in the
frame of the fluid (`vel` is the momentum divided by the density). -/
theorem C53_conservation (m : Method K P D Q) (d : Fin Q → K) (inc : Bool) {r : (Fin Q → K) → Fin Q → K}
    (hr : m.collisionRule d inc = .ok r) (hF : m.force = none) {i0 : Fin Q} {i1 : Fin D → Fin Q} (h : m.HasConserved i0 i1)
    (f : Fin Q → K) (hf : m.Regular f) (h0 : m.keq f i0 = ∑ q, f q + m.bg (m.vel f) i0)
    (h1 : ∀ a, m.keq f (i1 a) = m.bg (m.vel f) (i1 a)) (hv : ∀ a, m.vel f a * ∑ q, f q = ∑ q, m.c q a * f q) :
    ∑ q, r f q = ∑ q, f q ∧ ∀ a, ∑ q, m.c q a * r f q = ∑ q, m.c q a * f q := by
  obtain ⟨k0, k1⟩ := C53_mass_momentum m d inc hr h f hf
  have hz : ∀ i, m.forceMoment inc f i = 0 := fun i => by simp [forceMoment, popForcing, centralForcing, hF]
  rw [hz, h0] at k0
  have e0 : ∑ q, r f q = ∑ q, f q := by linear_combination k0
  refine ⟨e0, fun a => ?_⟩
  have := k1 a
  rw [hz, h1, hv, e0] at this
  linear_combination this

end Method

/-! ### Force models in central moment space -/

namespace ForceTerms

/-- `Simple`, `Luo` and `EDM.central_moment_space_forcing` (`forcemodels.py:200-203`, `260-263`, `511-517`): `N · (M · pop)` -/
noncomputable def shifted {K P : Type} [Field K] {D Q : ℕ} (m : Method K P D Q) (N : (Fin D → K) → Matrix (Fin Q) (Fin Q) K)
    (pop : (Fin Q → K) → Fin Q → K) (f : Fin Q → K) : Fin Q → K :=
  N (m.vel f) *ᵥ (momentMatrix m.ev m.moments m.c 0 *ᵥ pop f)

/-- `Guo` and `Buick.central_moment_space_forcing` (`forcemodels.py:300-306`, `480-486`): the same times `1 - ω/2` -/
noncomputable def corrected {K P : Type} [Field K] {D Q : ℕ} (m : Method K P D Q) (N : (Fin D → K) → Matrix (Fin Q) (Fin Q) K)
    (d : Fin Q → K) (pop : (Fin Q → K) → Fin Q → K) (f : Fin Q → K) : Fin Q → K :=
  fun i => (1 - 1 / 2 * d i) * shifted m N pop f i

end ForceTerms

variable {K P : Type} [Field K] {D Q : ℕ}

/-- C53: the central-moment terms of `Simple`, `Luo` and `EDM` are the central moments of their population terms: adding the former in
central moment space is adding the latter to the populations. -/
theorem C53_force_space (m : Method K P D Q) {N : (Fin D → K) → Matrix (Fin Q) (Fin Q) K}
    (hN : setUpShiftMatrix m.ev m.moments m.c = .ok N) (pop : (Fin Q → K) → Fin Q → K) (d : Fin Q → K)
    {r r' : (Fin Q → K) → Fin Q → K}
    (hr : ({ m with force := some ⟨pop, some (ForceTerms.shifted m N pop)⟩ } : Method K P D Q).collisionRule d true = .ok r)
    (hr' : ({ m with force := some ⟨pop, none⟩ } : Method K P D Q).collisionRule d true = .ok r')
    (f : Fin Q → K) (hf : m.Regular f) :
    (∀ i, ForceTerms.shifted m N pop f i = Spec.cmom m.c (m.ev (m.moments i)) (m.vel f) (pop f)) ∧ r f = r' f := by
  have h1 : ∀ i, ForceTerms.shifted m N pop f i = Spec.cmom m.c (m.ev (m.moments i)) (m.vel f) (pop f) := by
    intro i
    have := (C52_shift_matrix hN).1 (m.vel f) (pop f) i
    rw [← this]
    unfold ForceTerms.shifted
    have e : momentMatrix m.ev m.moments m.c 0 *ᵥ pop f = fun j => Spec.cmom m.c (m.ev (m.moments j)) 0 (pop f) := by
      funext j
      simp [Spec.cmom, mulVec, dotProduct, momentMatrix]
    rw [e]
  refine ⟨h1, m.ext_cmom f hf fun i => ?_⟩
  have k1 := Method.C53_moments _ d true hr f hf i
  have k2 := Method.C53_moments _ d true hr' f hf i
  have f1 : Method.forceMoment ({ m with force := some ⟨pop, some (ForceTerms.shifted m N pop)⟩ } : Method K P D Q) true f i =
      ForceTerms.shifted m N pop f i := rfl
  have f2 : Method.forceMoment ({ m with force := some ⟨pop, none⟩ } : Method K P D Q) true f i =
      Spec.cmom m.c (m.ev (m.moments i)) (m.vel f) (pop f) := rfl
  rw [f1, h1] at k1
  rw [f2] at k2
  exact add_right_cancel (k1.trans k2.symm)

/-- C53: a force `F` acts as intended: mass is unchanged and momentum grows by `F`, for `Simple`, `Luo` and `EDM`-like terms with the
velocity `j / ρ`, and for `Guo`- and `Buick`-like terms with the velocity `(j + F/2) / ρ`, for all rates. The population terms have
no mass and momentum `F` (C23). -/
theorem C53_force_momentum (h2 : (2 : K) ≠ 0) (m : Method K P D Q) {N : (Fin D → K) → Matrix (Fin Q) (Fin Q) K}
    (hN : setUpShiftMatrix m.ev m.moments m.c = .ok N) (pop : (Fin Q → K) → Fin Q → K) (d : Fin Q → K)
    {i0 : Fin Q} {i1 : Fin D → Fin Q} (h : m.HasConserved i0 i1) (f : Fin Q → K) (hf : m.Regular f) (F : Fin D → K)
    (hp0 : ∑ q, pop f q = 0) (hp1 : ∀ a, ∑ q, m.c q a * pop f q = F a) (h0 : m.keq f i0 = ∑ q, f q + m.bg (m.vel f) i0)
    (h1 : ∀ a, m.keq f (i1 a) = m.bg (m.vel f) (i1 a)) {r : (Fin Q → K) → Fin Q → K}
    (hr : (({ m with force := some ⟨pop, some (ForceTerms.shifted m N pop)⟩ } : Method K P D Q).collisionRule d true = .ok r ∧
        ∀ a, m.vel f a * ∑ q, f q = ∑ q, m.c q a * f q) ∨
      (({ m with force := some ⟨pop, some (ForceTerms.corrected m N d pop)⟩ } : Method K P D Q).collisionRule d true = .ok r ∧
        ∀ a, m.vel f a * ∑ q, f q = ∑ q, m.c q a * f q + F a / 2)) :
    ∑ q, r f q = ∑ q, f q ∧ ∀ a, ∑ q, m.c q a * r f q = ∑ q, m.c q a * f q + F a := by
  have hs : ∀ i, ForceTerms.shifted m N pop f i = Spec.cmom m.c (m.ev (m.moments i)) (m.vel f) (pop f) := by
    intro i
    have := (C52_shift_matrix hN).1 (m.vel f) (pop f) i
    rw [← this]
    unfold ForceTerms.shifted
    have e : momentMatrix m.ev m.moments m.c 0 *ᵥ pop f = fun j => Spec.cmom m.c (m.ev (m.moments j)) 0 (pop f) := by
      funext j
      simp [Spec.cmom, mulVec, dotProduct, momentMatrix]
    rw [e]
  have hs0 : ForceTerms.shifted m N pop f i0 = 0 := by rw [hs, Method.cmom_mass h, hp0]
  have hs1 : ∀ a, ForceTerms.shifted m N pop f (i1 a) = F a := fun a => by
    rw [hs, Method.cmom_momentum h, hp0, hp1]; ring
  rcases hr with ⟨hr, hv⟩ | ⟨hr, hv⟩
  · obtain ⟨k0, k1⟩ := Method.C53_mass_momentum _ d true hr (i0 := i0) (i1 := i1) ⟨h.mass, h.momentum⟩ f hf
    have f1 : ∀ i, Method.forceMoment ({ m with force := some ⟨pop, some (ForceTerms.shifted m N pop)⟩ } : Method K P D Q) true f i =
        ForceTerms.shifted m N pop f i := fun _ => rfl
    rw [f1, hs0] at k0
    have e0 : ∑ q, r f q = ∑ q, f q := by
      rw [k0, h0]
      show _ + d i0 * (_ - (_ + m.bg (m.vel f) i0)) + 0 = _
      ring
    refine ⟨e0, fun a => ?_⟩
    have := k1 a
    rw [f1, hs1, e0, hv, h1] at this
    rw [this]
    show _ + d (i1 a) * (_ - (_ + m.bg (m.vel f) (i1 a))) + _ + _ = _
    ring
  · obtain ⟨k0, k1⟩ := Method.C53_mass_momentum _ d true hr (i0 := i0) (i1 := i1) ⟨h.mass, h.momentum⟩ f hf
    have f1 : ∀ i, Method.forceMoment ({ m with force := some ⟨pop, some (ForceTerms.corrected m N d pop)⟩ } : Method K P D Q) true f i =
        (1 - 1 / 2 * d i) * ForceTerms.shifted m N pop f i := fun _ => rfl
    rw [f1, hs0] at k0
    have e0 : ∑ q, r f q = ∑ q, f q := by
      rw [k0, h0]
      show _ + d i0 * (_ - (_ + m.bg (m.vel f) i0)) + _ = _
      ring
    refine ⟨e0, fun a => ?_⟩
    have := k1 a
    rw [f1, hs1, e0, hv, h1] at this
    rw [this]
    show _ + d (i1 a) * (_ - (_ + m.bg (m.vel f) (i1 a))) + _ + _ = _
    field_simp
    ring

/-! ### The methods of the library -/

/-- C53: for the default and cascaded moment sets on every predefined stencil (in every order of non-decreasing degree) the rule can be
derived and the central moments about every velocity determine the populations, so that the theorems above apply to every state. -/
theorem C53_offered_sets [CharZero K] : ∀ e ∈ Tables.predefined, ∀ ps, Offered e.2.2 ps →
    ∀ m : Method K PExpr (e.2.2.headD []).length e.2.2.length, m.ev = pev → m.c = velocities K e.2.2 (e.2.2.headD []).length →
    (List.ofFn m.moments).Perm ps → (∀ i j, i ≤ j → Spec.degree (m.moments i) ≤ Spec.degree (m.moments j)) →
    (m.zeroCentered = true → m.deviationOnly = false → m.background.isSome) →
    (∀ d inc, ∃ r, m.collisionRule d inc = .ok r) ∧ ∀ f, m.Regular f := by
  intro e he ps ho m hev hc hp hs hz
  obtain ⟨N, t, hN, ht, -, -, -, hinv⟩ := C52_offered_sets (K := K) e he ps ho m.moments hp hs
  rw [← hev, ← hc] at hN ht
  refine ⟨fun d inc => (Method.C53_defined_iff m d inc).2 ⟨⟨N, hN⟩, hz⟩, fun f g hg => ?_⟩
  have h1 : t.forward (m.vel f) *ᵥ g = 0 := funext fun i => by rw [(C52_matrix_transform ht (m.vel f)).1]; exact hg i
  have h2 := congrArg (t.backward (m.vel f) *ᵥ ·) h1
  simpa [mulVec_mulVec, (hinv (m.vel f)).1] using h2

section Example
open PExpr

/-- the cascaded moments of D2Q9 -/
def cascadedD2Q9 : Fin 9 → PExpr := ![1, x, y, x * y, x ^ 2 - y ^ 2, x ^ 2 + y ^ 2, x ^ 2 * y, x * y ^ 2, x ^ 2 * y ^ 2]

/-- the cascaded method on D2Q9 over the rationals: the rule exists for all rates, all states are regular, and density and momentum are
among the moments -/
example (vel : (Fin 9 → ℚ) → Fin 2 → ℚ) (keq : (Fin 9 → ℚ) → Fin 9 → ℚ) :
    let m : Method ℚ PExpr 2 9 :=
      { c := velocities ℚ Tables.D2Q9_walberla 2, moments := cascadedD2Q9, ev := pev, vel := vel,
        keq := keq, zeroCentered := false, deviationOnly := false, background := none, force := none }
    (∀ d inc, ∃ r, m.collisionRule d inc = .ok r) ∧ (∀ f, m.Regular f) ∧ m.HasConserved 0 ![1, 2] := by
  intro m
  have he : ("D2Q9", "walberla", Tables.D2Q9_walberla) ∈ Tables.predefined := by decide +kernel
  have hp : cascadedMomentSets Tables.D2Q9_walberla = some [[1], [x, y], [x * y, x ^ 2 - y ^ 2], [x ^ 2 + y ^ 2],
    [x ^ 2 * y, x * y ^ 2], [x ^ 2 * y ^ 2]] := by decide +kernel
  have hd : ∀ i j : Fin 9, i ≤ j → Spec.degree (cascadedD2Q9 i) ≤ Spec.degree (cascadedD2Q9 j) := by decide +kernel
  obtain ⟨h1, h2⟩ := C53_offered_sets (K := ℚ) _ he _ (Or.inr ⟨_, hp, rfl⟩) m rfl rfl
    (show (List.ofFn cascadedD2Q9).Perm _ from List.Perm.of_eq (by decide +kernel)) hd (by intro h; cases h)
  refine ⟨h1, h2, ⟨fun v => ?_, fun a v => ?_⟩⟩
  · show ((1 : ℤ) : ℚ) = 1
    norm_num
  · fin_cases a <;> rfl

end Example

end CentralMoments
end Lbm
