/-
C19: the collision operator of moment-based methods. Concrete instances are in `Props/CollisionModels.lean`.
-/
import Verif.Collision
import Verif.Props.Streaming
import Mathlib.Tactic.LinearCombination

set_option linter.unusedSectionVars false

namespace Lbm

open Matrix

namespace Spec

/-- moment of a population vector, for a moment given by its values on the velocities -/
def mom {K : Type} [Field K] {Q : ℕ} (e f : Fin Q → K) : K := ∑ q, e q * f q

end Spec

namespace MomentMethod
variable {K P : Type} [Field K] [DecidableEq K] [DecidableEq P] {Q : ℕ}

/-- background moment subtracted by the storage format (0 for absolute storage and for delta equilibria) -/
def bgMoment (m : MomentMethod K P Q) (p : P) : K :=
  if m.zeroCentered && !m.deviationOnly then (m.background.map fun b => b p).getD 0 else 0

/-- the method can be derived: as many moments as velocities, independent; a zero-centred method with absolute
equilibrium needs a background distribution and a moment transform -/
def WellFormed (m : MomentMethod K P Q) : Prop :=
  (∃ h : m.relax.length = Q, (m.matrix h).det ≠ 0) ∧
  (m.zeroCentered = true → m.deviationOnly = false → m.momentSpace = true ∧ m.background.isSome)

/-- what the force model adds to a moment -/
def forceMoment (m : MomentMethod K P Q) (h : m.relax.length = Q) (inc : Bool) (f : Fin Q → K) (i : Fin Q) : K :=
  match m.momentForcing inc with
  | some F => F f i
  | none => match m.popForcing inc with
    | some F => Spec.mom (m.ev (m.moment h i)) (F f)
    | none => 0

theorem mulVec_mom (m : MomentMethod K P Q) (h : m.relax.length = Q) (f : Fin Q → K) (i : Fin Q) :
    (m.matrix h *ᵥ f) i = Spec.mom (m.ev (m.moment h i)) f := rfl

/-- C19: a collision rule results exactly for the methods that can be derived. -/
theorem C19_defined_iff (m : MomentMethod K P Q) (d : Fin Q → K) (inc : Bool) :
    (∃ r, m.collisionRule d inc = .ok r) ↔ m.WellFormed := by
  unfold collisionRule WellFormed backgroundShift pyInv
  by_cases hl : m.relax.length = Q
  · by_cases hd : (m.matrix hl).det = 0
    · rcases hz : m.zeroCentered <;> rcases hv : m.deviationOnly <;> rcases hb : m.background with _ | b <;>
        rcases hs : m.momentSpace <;> rcases hp : m.popForcing inc with _ | F <;>
        simp [hl, hd, bind, Except.bind, pure, Except.pure]
    · rcases hz : m.zeroCentered <;> rcases hv : m.deviationOnly <;> rcases hb : m.background with _ | b <;>
        rcases hs : m.momentSpace <;> rcases hp : m.popForcing inc with _ | F <;>
        simp [hl, hd, bind, Except.bind, pure, Except.pure]
  · rcases hz : m.zeroCentered <;> rcases hv : m.deviationOnly <;> rcases hb : m.background with _ | b <;>
      rcases hs : m.momentSpace <;> rcases hp : m.popForcing inc with _ | F <;>
      simp [hl, bind, Except.bind, pure, Except.pure]

/-- C19: the effect of a collision on the moments. Every moment (of the populations including the background, for
zero-centred storage) relaxes towards its equilibrium value with its own rate, plus the contribution of the force
model. -/
theorem C19_moments (m : MomentMethod K P Q) (d : Fin Q → K) (inc : Bool) (r : (Fin Q → K) → Fin Q → K)
    (hr : m.collisionRule d inc = .ok r) (h : m.relax.length = Q) (f : Fin Q → K) (i : Fin Q) :
    Spec.mom (m.ev (m.moment h i)) (r f) + m.bgMoment (m.moment h i) =
      (Spec.mom (m.ev (m.moment h i)) f + m.bgMoment (m.moment h i)) +
      d i * (m.meq f (m.moment h i) - (Spec.mom (m.ev (m.moment h i)) f + m.bgMoment (m.moment h i))) +
      m.forceMoment h inc f i := by
  obtain ⟨⟨_, hd⟩, hbg⟩ := (C19_defined_iff m d inc).1 ⟨r, hr⟩
  have hu : IsUnit (m.matrix h).det := isUnit_iff_ne_zero.2 hd
  have hmi : m.matrix h * (m.matrix h)⁻¹ = 1 := mul_nonsing_inv _ hu
  have hmv : ∀ v : Fin Q → K, m.matrix h *ᵥ ((m.matrix h)⁻¹ *ᵥ v) = v := fun v => by
    rw [mulVec_mulVec, hmi, one_mulVec]
  simp only [← mulVec_mom]
  unfold collisionRule backgroundShift pyInv at hr
  unfold bgMoment forceMoment
  simp only [← mulVec_mom]
  by_cases hzv : (m.zeroCentered && !m.deviationOnly) = true
  · have hz : m.zeroCentered = true := by revert hzv; cases m.zeroCentered <;> simp
    have hv : m.deviationOnly = false := by revert hzv; cases m.deviationOnly <;> simp
    obtain ⟨hs, hb⟩ := hbg hz hv
    obtain ⟨b, hb⟩ := Option.isSome_iff_exists.1 hb
    rw [if_pos hzv]
    simp only [hzv, hb, hs, h, hd, bind, Except.bind, pure, Except.pure, if_true, dif_pos, if_false] at hr
    have hpop : m.popForcing inc = (if inc && (m.momentForcing inc).isNone then m.force.map fun t => t.pop else none) :=
      rfl
    rcases hF : m.momentForcing inc with _ | F <;> rcases hG : m.popForcing inc with _ | G
    · simp only [hF, hG, Except.ok.injEq] at hr
      rw [← hr]
      simp only [hmv, hb, Pi.add_apply, Pi.sub_apply, mulVec_diagonal, Option.map_some, Option.getD_some]
      ring
    · simp only [hF, hG, Except.ok.injEq] at hr
      rw [← hr]
      simp only [mulVec_add, hmv, hb, Pi.add_apply, Pi.sub_apply, mulVec_diagonal, Option.map_some, Option.getD_some]
      ring
    · simp only [hF, hG, Except.ok.injEq] at hr
      rw [← hr]
      simp only [hmv, hb, Pi.add_apply, Pi.sub_apply, mulVec_diagonal, Option.map_some, Option.getD_some]
      ring
    · rw [hpop, hF] at hG; simp at hG
  · rw [if_neg hzv]
    simp only [hzv, bind, Except.bind, pure, Except.pure] at hr
    have hpop : m.popForcing inc = (if inc && (m.momentForcing inc).isNone then m.force.map fun t => t.pop else none) :=
      rfl
    by_cases hs : m.momentSpace = true
    · simp only [hs, h, hd, if_true, if_false, dif_pos] at hr
      rcases hF : m.momentForcing inc with _ | F <;> rcases hG : m.popForcing inc with _ | G
      · simp only [hF, hG, Bool.false_eq_true, if_false, Except.ok.injEq] at hr
        rw [← hr]
        simp only [hmv, Pi.add_apply, Pi.sub_apply, mulVec_diagonal]
        ring
      · simp only [hF, hG, Bool.false_eq_true, if_false, Except.ok.injEq] at hr
        rw [← hr]
        simp only [mulVec_add, hmv, Pi.add_apply, Pi.sub_apply, mulVec_diagonal]
        ring
      · simp only [hF, hG, Bool.false_eq_true, if_false, Except.ok.injEq] at hr
        rw [← hr]
        simp only [hmv, Pi.add_apply, Pi.sub_apply, mulVec_diagonal]
        ring
      · rw [hpop, hF] at hG; simp at hG
    · have hF : m.momentForcing inc = none := by simp [momentForcing, hs]
      simp only [hs, h, hd, if_false, dif_pos, Bool.false_eq_true] at hr
      rcases hG : m.popForcing inc with _ | G
      · simp only [hF, hG, Except.ok.injEq] at hr
        rw [← hr]
        simp only [hF, mulVec_add, ← mulVec_mulVec, hmv, Pi.add_apply, Pi.sub_apply, mulVec_diagonal]
        ring
      · simp only [hF, hG, Except.ok.injEq] at hr
        rw [← hr]
        simp only [hF, mulVec_add, ← mulVec_mulVec, hmv, Pi.add_apply, Pi.sub_apply, mulVec_diagonal]
        ring

/-- Populations are determined by their moments. -/
theorem ext_moments (m : MomentMethod K P Q) (hw : m.WellFormed) (h : m.relax.length = Q) {f g : Fin Q → K}
    (hfg : ∀ i, Spec.mom (m.ev (m.moment h i)) f = Spec.mom (m.ev (m.moment h i)) g) : f = g := by
  obtain ⟨⟨_, hd⟩, -⟩ := hw
  have hu : IsUnit (m.matrix h).det := isUnit_iff_ne_zero.2 hd
  have : m.matrix h *ᵥ f = m.matrix h *ᵥ g := funext fun i => hfg i
  have h2 := congrArg (fun v => (m.matrix h)⁻¹ *ᵥ v) this
  simpa [mulVec_mulVec, nonsing_inv_mul _ hu] using h2

/-- C19: conservation. Without force terms a moment with rate 0, or with equilibrium value equal to its current one,
is unchanged. -/
theorem C19_conservation (m : MomentMethod K P Q) (d : Fin Q → K) (inc : Bool) (r : (Fin Q → K) → Fin Q → K)
    (hr : m.collisionRule d inc = .ok r) (h : m.relax.length = Q) (f : Fin Q → K) (i : Fin Q)
    (hF : inc = false ∨ m.force = none)
    (hi : d i = 0 ∨ m.meq f (m.moment h i) = Spec.mom (m.ev (m.moment h i)) f + m.bgMoment (m.moment h i)) :
    Spec.mom (m.ev (m.moment h i)) (r f) = Spec.mom (m.ev (m.moment h i)) f := by
  have key := C19_moments m d inc r hr h f i
  have hf : m.forceMoment h inc f i = 0 := by
    unfold forceMoment popForcing momentForcing
    rcases hF with rfl | hF <;> simp_all
  rw [hf] at key
  rcases hi with hi | hi
  · rw [hi] at key; linear_combination key
  · rw [hi] at key; linear_combination key

/-- C19: "setting all rates to one gives the equilibrium": if the equilibrium values are the moments of populations
`feq`, `get_equilibrium` returns `feq` (relative to the background `w` when zero-centred with absolute equilibrium). -/
theorem C19_equilibrium (m : MomentMethod K P Q) (hw : m.WellFormed) (w : Fin Q → K) (feq : (Fin Q → K) → Fin Q → K)
    (hbg : ∀ h i, m.bgMoment (m.moment h i) = Spec.mom (m.ev (m.moment h i)) w)
    (heq : ∀ f h i, m.meq f (m.moment h i) = Spec.mom (m.ev (m.moment h i)) (feq f)) :
    m.getEquilibrium = .ok fun f => feq f - w := by
  obtain ⟨r, hr⟩ := (C19_defined_iff m (fun _ => 1) false).2 hw
  have h := hw.1.1
  unfold getEquilibrium
  rw [hr]
  congr 1
  funext f
  apply ext_moments m hw h
  intro i
  have key := C19_moments m _ false r hr h f i
  have hf : m.forceMoment h false f i = 0 := by simp [forceMoment, popForcing, momentForcing]
  rw [hf, heq, hbg] at key
  have hsub : Spec.mom (m.ev (m.moment h i)) (feq f - w) =
      Spec.mom (m.ev (m.moment h i)) (feq f) - Spec.mom (m.ev (m.moment h i)) w := by
    simp [Spec.mom, mul_sub, Finset.sum_sub_distrib]
  rw [hsub]
  linear_combination key

theorem mom_add (e f g : Fin Q → K) : Spec.mom e (f + g) = Spec.mom e f + Spec.mom e g := by
  simp [Spec.mom, mul_add, Finset.sum_add_distrib]
theorem mom_sub (e f g : Fin Q → K) : Spec.mom e (f - g) = Spec.mom e f - Spec.mom e g := by
  simp [Spec.mom, mul_sub, Finset.sum_sub_distrib]
theorem mom_smul (e f : Fin Q → K) (k : K) : Spec.mom e (k • f) = k * Spec.mom e f := by
  simp only [Spec.mom, Pi.smul_apply, smul_eq_mul, Finset.mul_sum]
  exact Finset.sum_congr rfl fun _ _ => by ring

/-- C19: with equal rates the result does not depend on the moment basis: it is `f + ω (feq - f)`. -/
theorem C19_single_rate (m : MomentMethod K P Q) (hw : m.WellFormed) (w : Fin Q → K)
    (feq : (Fin Q → K) → Fin Q → K) (ω : K) (hω : ∀ e ∈ m.relax, e.2 = ω) (hF : m.force = none)
    (hbg : ∀ h i, m.bgMoment (m.moment h i) = Spec.mom (m.ev (m.moment h i)) w)
    (heq : ∀ f h i, m.meq f (m.moment h i) = Spec.mom (m.ev (m.moment h i)) (feq f)) :
    m.getCollisionRule = .ok fun f => f + ω • (feq f - w - f) := by
  obtain ⟨r, hr⟩ := (C19_defined_iff m (m.effectiveRates none) true).2 hw
  have h := hw.1.1
  unfold getCollisionRule
  rw [hr]
  congr 1
  funext f
  apply ext_moments m hw h
  intro i
  have key := C19_moments m _ true r hr h f i
  have hf : m.forceMoment h true f i = 0 := by simp [forceMoment, popForcing, momentForcing, hF]
  have hd : m.effectiveRates none i = ω := by
    have hi : i.val < (m.relax.map Prod.snd).length := by rw [List.length_map, h]; exact i.isLt
    simp only [effectiveRates, List.getD_eq_getElem?_getD, List.getElem?_eq_getElem hi, Option.getD_some,
      List.getElem_map]
    exact hω _ (List.getElem_mem _)
  rw [hf, heq, hbg, hd] at key
  rw [mom_add, mom_smul, mom_sub, mom_sub]
  linear_combination key

/-- C19: two descriptions with the same equilibrium populations and one common rate collide identically, whatever
their moment bases. -/
theorem C19_basis_independence {P' : Type} [DecidableEq P'] (m : MomentMethod K P Q) (m' : MomentMethod K P' Q)
    (hw : m.WellFormed) (hw' : m'.WellFormed) (w : Fin Q → K) (feq : (Fin Q → K) → Fin Q → K) (ω : K)
    (hω : ∀ e ∈ m.relax, e.2 = ω) (hω' : ∀ e ∈ m'.relax, e.2 = ω) (hF : m.force = none) (hF' : m'.force = none)
    (hbg : ∀ h i, m.bgMoment (m.moment h i) = Spec.mom (m.ev (m.moment h i)) w)
    (hbg' : ∀ h i, m'.bgMoment (m'.moment h i) = Spec.mom (m'.ev (m'.moment h i)) w)
    (heq : ∀ f h i, m.meq f (m.moment h i) = Spec.mom (m.ev (m.moment h i)) (feq f))
    (heq' : ∀ f h i, m'.meq f (m'.moment h i) = Spec.mom (m'.ev (m'.moment h i)) (feq f)) :
    m.getCollisionRule = m'.getCollisionRule := by
  rw [C19_single_rate m hw w feq ω hω hF hbg heq, C19_single_rate m' hw' w feq ω hω' hF' hbg' heq']

/-- C19: deriving in moment space and in population space gives the same collision rule (whenever the latter is
possible and the force model has no moment-space variant). -/
theorem C19_space_independence (m : MomentMethod K P Q) (d : Fin Q → K) (inc : Bool)
    (hw : ({ m with momentSpace := false } : MomentMethod K P Q).WellFormed)
    (hF : ∀ t, m.force = some t → t.momentSpace = none) :
    ({ m with momentSpace := false } : MomentMethod K P Q).collisionRule d inc =
      ({ m with momentSpace := true } : MomentMethod K P Q).collisionRule d inc := by
  have hw' : ({ m with momentSpace := true } : MomentMethod K P Q).WellFormed :=
    ⟨hw.1, fun h1 h2 => ⟨rfl, (hw.2 h1 h2).2⟩⟩
  obtain ⟨r, hr⟩ := (C19_defined_iff _ d inc).2 hw
  obtain ⟨r', hr'⟩ := (C19_defined_iff _ d inc).2 hw'
  rw [hr, hr']
  congr 1
  funext f
  have h : m.relax.length = Q := hw.1.1
  apply ext_moments _ hw h
  intro i
  have k1 := C19_moments _ d inc r hr h f i
  have k2 := C19_moments _ d inc r' hr' h f i
  have hforce : forceMoment ({ m with momentSpace := false } : MomentMethod K P Q) h inc f i =
      forceMoment ({ m with momentSpace := true } : MomentMethod K P Q) h inc f i := by
    have : m.force.bind (fun t => t.momentSpace) = none := by
      rcases hm : m.force with _ | t
      · rfl
      · simp [hF t hm]
    simp only [forceMoment, popForcing, momentForcing, this]
    cases inc <;> rfl
  rw [hforce] at k1
  exact add_right_cancel (k1.trans k2.symm)

/-- C19: `collision_matrix` is the matrix of the collision: with absolute storage and no force,
`f' = f + A (feq - f)`. -/
theorem C19_collision_matrix (m : MomentMethod K P Q) (hw : m.WellFormed) (feq : (Fin Q → K) → Fin Q → K)
    (hF : m.force = none) (hz : m.zeroCentered = false ∨ m.deviationOnly = true)
    (heq : ∀ f h i, m.meq f (m.moment h i) = Spec.mom (m.ev (m.moment h i)) (feq f)) :
    ∃ A, m.collisionMatrix = .ok A ∧ m.getCollisionRule = .ok fun f => f + A *ᵥ (feq f - f) := by
  obtain ⟨r, hr⟩ := (C19_defined_iff m (m.effectiveRates none) true).2 hw
  have h := hw.1.1
  have hd : (m.matrix h).det ≠ 0 := hw.1.2
  have hu : IsUnit (m.matrix h).det := isUnit_iff_ne_zero.2 hd
  refine ⟨(m.matrix h)⁻¹ * diagonal (m.rate h) * m.matrix h, ?_, ?_⟩
  · simp [collisionMatrix, h, pyInv, hd, bind, Except.bind, pure, Except.pure]
  unfold getCollisionRule
  rw [hr]
  congr 1
  funext f
  apply ext_moments m hw h
  intro i
  have key := C19_moments m _ true r hr h f i
  have hf : m.forceMoment h true f i = 0 := by simp [forceMoment, popForcing, momentForcing, hF]
  have hb : ∀ p, m.bgMoment p = 0 := by
    intro p; unfold bgMoment; rcases hz with hz | hz <;> simp [hz]
  have hdi : m.effectiveRates none i = m.rate h i := by
    have hi : i.val < (m.relax.map Prod.snd).length := by rw [List.length_map, h]; exact i.isLt
    simp only [effectiveRates, List.getD_eq_getElem?_getD, List.getElem?_eq_getElem hi, Option.getD_some,
      List.getElem_map]
    rfl
  rw [hf, heq, hb, hdi] at key
  rw [mom_add]
  have hm : Spec.mom (m.ev (m.moment h i))
      (((m.matrix h)⁻¹ * diagonal (m.rate h) * m.matrix h) *ᵥ (feq f - f)) =
      m.rate h i * (Spec.mom (m.ev (m.moment h i)) (feq f) - Spec.mom (m.ev (m.moment h i)) f) := by
    rw [← mulVec_mom, mulVec_mulVec, ← Matrix.mul_assoc, ← Matrix.mul_assoc, mul_nonsing_inv _ hu, Matrix.one_mul,
      ← mulVec_mulVec, mulVec_diagonal, mulVec_sub, Pi.sub_apply]
    rfl
  rw [hm]
  linear_combination key

/-! #### Changing rates -/

theorem dictSet_keys (d : List (P × K)) (k : P) (v : K) (hk : k ∈ d.map Prod.fst) :
    (dictSet d k v).map Prod.fst = d.map Prod.fst := by
  unfold dictSet
  rw [if_pos hk, List.map_map]
  apply List.map_congr_left
  intro e _
  simp only [Function.comp]
  split_ifs <;> rfl

theorem dictSet_mem (d : List (P × K)) (k : P) (v : K) (hk : k ∈ d.map Prod.fst) (e : P × K) :
    e ∈ dictSet d k v ↔ (e.1 ∈ d.map Prod.fst ∧ e.1 = k ∧ e.2 = v) ∨ (e ∈ d ∧ e.1 ≠ k) := by
  unfold dictSet
  rw [if_pos hk]
  constructor
  · intro he
    obtain ⟨a, ha, rfl⟩ := List.mem_map.1 he
    by_cases hak : a.1 = k
    · simp only [hak, if_true]; left; exact ⟨hk, trivial, trivial⟩
    · simp only [hak, if_false]; right; exact ⟨ha, hak⟩
  · rintro (⟨h1, h2, h3⟩ | ⟨h1, h2⟩)
    · obtain ⟨a, ha, hae⟩ := List.mem_map.1 h1
      refine List.mem_map.2 ⟨a, ha, ?_⟩
      rw [if_pos (by rw [hae, h2])]
      ext <;> simp [hae, h3]
    · exact List.mem_map.2 ⟨e, h1, by rw [if_neg h2]⟩

/-- C19: changing the rates of conserved moments keeps the moments and their order, sets exactly the rates of 1 and of
the first-order moments, and fails if a first-order moment is not relaxed separately. -/
theorem C19_set_conserved_rate (m : MomentMethod K P Q) (one : P) (xs : List P) (ω : K)
    (hone : one ∈ m.relax.map Prod.fst) :
    (∀ m', m.setConservedRate one xs ω = .ok m' →
      m'.relax.map Prod.fst = m.relax.map Prod.fst ∧
      (∀ e, e ∈ m'.relax ↔ (e.1 ∈ m.relax.map Prod.fst ∧ e.1 ∈ one :: xs ∧ e.2 = ω) ∨
        (e ∈ m.relax ∧ e.1 ∉ one :: xs))) ∧
    ((∃ e, m.setConservedRate one xs ω = .error e) ↔ ∃ x ∈ xs, x ∉ m.relax.map Prod.fst) := by
  have hk0 : (dictSet m.relax one ω).map Prod.fst = m.relax.map Prod.fst := dictSet_keys _ _ _ hone
  have gen : ∀ (ys : List P) (d : List (P × K)), (∀ y ∈ ys, y ∈ d.map Prod.fst) →
      (ys.foldl (fun d e => dictSet d e ω) d).map Prod.fst = d.map Prod.fst ∧
      ∀ e, e ∈ ys.foldl (fun d e => dictSet d e ω) d ↔ (e.1 ∈ d.map Prod.fst ∧ e.1 ∈ ys ∧ e.2 = ω) ∨
        (e ∈ d ∧ e.1 ∉ ys) := by
    intro ys
    induction ys with
    | nil => intro d _; simp
    | cons y ys ih =>
      intro d hd
      have hy := hd y (by simp)
      have hkeys := dictSet_keys d y ω hy
      obtain ⟨h1, h2⟩ := ih (dictSet d y ω) (fun z hz => by rw [hkeys]; exact hd z (by simp [hz]))
      refine ⟨by rw [List.foldl_cons, h1, hkeys], fun e => ?_⟩
      rw [List.foldl_cons, h2, hkeys, dictSet_mem d y ω hy]
      simp only [List.mem_cons, not_or]
      tauto
  unfold setConservedRate setFirstRate setZerothRate
  simp only [hk0]
  constructor
  · intro m' hm
    split_ifs at hm with hx
    cases hm
    obtain ⟨h1, h2⟩ := gen xs (dictSet m.relax one ω) (fun y hy => by rw [hk0]; exact hx y hy)
    refine ⟨by simp only [h1, hk0], fun e => ?_⟩
    simp only [h2, hk0, dictSet_mem m.relax one ω hone, List.mem_cons, not_or]
    tauto
  · split_ifs with hx
    · simp only [reduceCtorEq, exists_false, false_iff, not_exists, not_and, not_not]; exact hx
    · simp only [Except.error.injEq, exists_eq', true_iff]
      by_contra hc
      push Not at hc
      exact hx hc

/-- C19, negative: if 1 is not among the moments, `set_zeroth_moment_relaxation_rate` silently adds it as a further
moment (the first-order variant checks for this), and no collision rule can be derived any more. -/
theorem C19_set_zeroth_rate_adds (m : MomentMethod K P Q) (one : P) (ω : K) (hone : one ∉ m.relax.map Prod.fst)
    (hl : m.relax.length = Q) (d : Fin Q → K) (inc : Bool) :
    (m.setZerothRate one ω).relax = m.relax ++ [(one, ω)] ∧
      ∀ r, (m.setZerothRate one ω).collisionRule d inc ≠ .ok r := by
  have hx : (m.setZerothRate one ω).relax = m.relax ++ [(one, ω)] := by
    simp only [setZerothRate, dictSet, if_neg hone]
  refine ⟨hx, fun r hr => ?_⟩
  obtain ⟨⟨h, -⟩, -⟩ := (C19_defined_iff _ d inc).1 ⟨r, hr⟩
  rw [hx, List.length_append, hl] at h
  simp at h

/-- Weights obtained by moment matching have the background's moments. -/
theorem C19_matched_weights (m : MomentMethod K P Q) (b : P → K) (hb : m.background = some b) (w : Fin Q → K)
    (hw : m.matchedWeights = .ok w) (h : m.relax.length = Q) (i : Fin Q) :
    Spec.mom (m.ev (m.moment h i)) w = b (m.moment h i) := by
  unfold matchedWeights pyInv at hw
  by_cases hd : (m.matrix h).det = 0
  · simp [hb, h, hd, bind, Except.bind] at hw
  · simp only [hb, h, hd, bind, Except.bind, pure, Except.pure, dif_pos, if_false, Except.ok.injEq] at hw
    rw [← hw, ← mulVec_mom, mulVec_mulVec, mul_nonsing_inv _ (isUnit_iff_ne_zero.2 hd), one_mulVec]

end MomentMethod

end Lbm
