/-
C21: setting macroscopic values and reading them back; C23: a collision adds exactly the force.
-/
import Verif.Macroscopic
import Verif.Props.ForceModels
import Verif.Props.CollisionModels

set_option linter.unusedSectionVars false

namespace Lbm

open Matrix Spec

variable {K P : Type} [Field K] [CharZero K] [DecidableEq K] [DecidableEq P] {Q D : ℕ}

/-- A hydrodynamic method: `i0` and `i a` are the positions of the mass and the momentum moments, the equilibrium has
density and momentum of its arguments, and the background distribution has density `ρ₀` and no momentum. -/
structure Hydrodynamic (m : MomentMethod K P Q) (h : m.relax.length = Q) (c : Fin Q → Fin D → K)
    (meqOf : Macro K D → P → K) (cq : Cqc K D) (i0 : Fin Q) (i : Fin D → Fin Q) : Prop where
  storage : m.zeroCentered = cq.zeroCentered
  /-- `creationfunctions.py` rejects delta equilibria without zero-centred storage -/
  delta : m.deviationOnly = true → m.zeroCentered = true
  evMass : ∀ q, m.ev (m.moment h i0) q = 1
  evMom : ∀ a q, m.ev (m.moment h (i a)) q = c q a
  eqMass : ∀ x, x.deltaRho = x.rho - cq.rho0 → meqOf x (m.moment h i0) = if m.deviationOnly then x.deltaRho else x.rho
  eqMom : ∀ x a, meqOf x (m.moment h (i a)) = cq.reference x.rho * x.u a
  bgMass : ∀ b ∈ m.background, b (m.moment h i0) = cq.rho0
  bgMom : ∀ b ∈ m.background, ∀ a, b (m.moment h (i a)) = 0

section
variable {m : MomentMethod K P Q} {h : m.relax.length = Q} {c : Fin Q → Fin D → K} {meqOf : Macro K D → P → K}
  {cq : Cqc K D} {i0 : Fin Q} {i : Fin D → Fin Q}

theorem Hydrodynamic.mass (H : Hydrodynamic m h c meqOf cq i0 i) (f : Fin Q → K) :
    Spec.mom (m.ev (m.moment h i0)) f = ∑ q, f q :=
  Finset.sum_congr rfl fun q _ => by rw [H.evMass, one_mul]

theorem Hydrodynamic.momentum (H : Hydrodynamic m h c meqOf cq i0 i) (f : Fin Q → K) (a : Fin D) :
    Spec.mom (m.ev (m.moment h (i a))) f = ∑ q, f q * c q a :=
  Finset.sum_congr rfl fun q _ => by rw [H.evMom, mul_comm]

theorem Hydrodynamic.bg_mass (H : Hydrodynamic m h c meqOf cq i0 i) (hw : m.WellFormed) :
    m.bgMoment (m.moment h i0) = if cq.zeroCentered && !m.deviationOnly then cq.rho0 else 0 := by
  unfold MomentMethod.bgMoment
  rw [H.storage]
  by_cases hz : (cq.zeroCentered && !m.deviationOnly) = true
  · rw [if_pos hz, if_pos hz]
    rw [Bool.and_eq_true, Bool.not_eq_true'] at hz
    obtain ⟨b, hb⟩ := Option.isSome_iff_exists.1 (hw.2 (H.storage.trans hz.1) hz.2).2
    rw [hb, Option.map_some, Option.getD_some, H.bgMass b hb]
  · rw [if_neg hz, if_neg hz]

theorem Hydrodynamic.bg_mom (H : Hydrodynamic m h c meqOf cq i0 i) (a : Fin D) :
    m.bgMoment (m.moment h (i a)) = 0 := by
  unfold MomentMethod.bgMoment
  by_cases hz : (m.zeroCentered && !m.deviationOnly) = true
  · rw [if_pos hz]
    rcases hb : m.background with _ | b
    · rfl
    · rw [Option.map_some, Option.getD_some, H.bgMom b hb]
  · rw [if_neg hz]

/-- C21: the populations set have the density (minus the background density if stored zero-centred) and the momentum
`ρ_ref u - F/2`. -/
theorem C21_setter_moments (H : Hydrodynamic m h c meqOf cq i0 i) (hw : m.WellFormed) (density : K)
    (velocity : Fin D → K) (href : cq.reference density ≠ 0) :
    ∃ f, setter m meqOf cq density velocity = .ok f ∧
      (∑ q, f q = if cq.zeroCentered then density - cq.rho0 else density) ∧
      ∀ a, ∑ q, f q * c q a = cq.reference density * velocity a -
        (match cq.force with | some (_, F) => F a / 2 | none => 0) := by
  let m' : MomentMethod K P Q := { m with meq := fun _ => meqOf (cq.initValues density velocity) }
  have hw' : m'.WellFormed := hw
  obtain ⟨r, hr⟩ := (MomentMethod.C19_defined_iff m' (fun _ => 1) false).2 hw'
  refine ⟨r 0, ?_, ?_, fun a => ?_⟩
  · unfold setter MomentMethod.getEquilibrium
    show Except.map _ (m'.collisionRule (fun _ => 1) false) = _
    rw [hr]; rfl
  · have key := MomentMethod.C19_moments m' _ false r hr h 0 i0
    have hf : m'.forceMoment h false 0 i0 = 0 := by
      simp [MomentMethod.forceMoment, MomentMethod.popForcing, MomentMethod.momentForcing]
    have hb : m'.bgMoment (m'.moment h i0) = _ := H.bg_mass hw
    have he : m'.meq 0 (m'.moment h i0) = _ := H.eqMass _ rfl
    have hm : Spec.mom (m'.ev (m'.moment h i0)) (r 0) = _ := H.mass _
    rw [hf, hb, he, hm] at key
    have hd := H.delta
    rw [H.storage] at hd
    show ∑ q, r 0 q = _
    have e1 : (cq.initValues density velocity).rho = density := rfl
    have e2 : (cq.initValues density velocity).deltaRho = density - cq.rho0 := rfl
    rw [e1, e2] at key
    rcases hz : cq.zeroCentered <;> rcases hv : m.deviationOnly <;> simp [hz, hv] at key hd ⊢
    · linear_combination key
    · linear_combination key
    · linear_combination key
  · have key := MomentMethod.C19_moments m' _ false r hr h 0 (i a)
    have hf : m'.forceMoment h false 0 (i a) = 0 := by
      simp [MomentMethod.forceMoment, MomentMethod.popForcing, MomentMethod.momentForcing]
    have hb : m'.bgMoment (m'.moment h (i a)) = _ := H.bg_mom a
    have he : m'.meq 0 (m'.moment h (i a)) = _ := H.eqMom _ a
    have hm : Spec.mom (m'.ev (m'.moment h (i a))) (r 0) = _ := H.momentum _ a
    rw [hf, hb, he, hm] at key
    have e1 : (cq.initValues density velocity).rho = density := rfl
    rw [e1] at key
    have e2 : cq.reference density * (cq.initValues density velocity).u a = cq.reference density * velocity a -
        (match cq.force with | some (_, F) => F a / 2 | none => 0) := by
      unfold Cqc.initValues
      rcases cq.force with _ | ⟨k, F⟩
      · simp
      · simp only [defaultVelocityShift]; field_simp
    rw [e2] at key
    linear_combination key

/-- C21: setting density and velocity and reading them back gives the values set, for every force model, storage format
and compressibility; the momentum density read is `ρ_ref u`. -/
theorem C21_round_trip (H : Hydrodynamic m h c meqOf cq i0 i) (hw : m.WellFormed) (density csSq : K)
    (velocity : Fin D → K) (href : cq.reference density ≠ 0) :
    ∃ f, setter m meqOf cq density velocity = .ok f ∧
      (cq.output csSq c f).density = density ∧ (cq.output csSq c f).densityDeviation = density - cq.rho0 ∧
      (cq.output csSq c f).velocity = velocity ∧
      (cq.output csSq c f).momentumDensity = fun a => cq.reference density * velocity a := by
  obtain ⟨f, hf, h0, h1⟩ := C21_setter_moments H hw density velocity href
  have hrho : (if cq.zeroCentered then cq.rho0 + ∑ q, f q else ∑ q, f q) = density := by
    rw [h0]; cases cq.zeroCentered <;> simp
  refine ⟨f, hf, hrho, ?_, ?_, ?_⟩
  · show (if cq.zeroCentered then ∑ q, f q else (if cq.zeroCentered then _ else ∑ q, f q) - cq.rho0) = _
    rw [h0]; cases cq.zeroCentered <;> simp
  · funext a
    unfold Cqc.output
    simp only [hrho]
    rcases hF : cq.force with _ | ⟨k, F⟩
    · simp only [h1, hF]; field_simp; ring
    · simp only [h1, hF, defaultVelocityShift]; field_simp; ring
  · funext a
    unfold Cqc.output
    rcases hF : cq.force with _ | ⟨k, F⟩
    · simp only [h1, hF]; ring
    · simp only [h1, hF, defaultMomentumDensityShift]; ring

/-! ### A collision with force -/

/-- the input of the force model when the populations of the cell are `f` -/
def forceInput (M : Matrix (Fin Q) (Fin Q) K) (c : Fin Q → Fin D → K) (w : Fin Q → K)
    (rates : Fin Q → K) (cq : Cqc K D) (eq : K → (Fin D → K) → Fin Q → K) (heRaw : K → (Fin D → K) → Fin Q → K)
    (F : Fin D → K) (f : Fin Q → K) : ForceInput K Q D :=
  let x := cq.equilibriumInput c f
  { c := c, w := w, M := M, rates := rates, rho := x.rho, u := x.u, compressible := cq.compressible, eq := eq,
    heRaw := heRaw x.rho x.u, F := F }

theorem forceMoment_eq (m : MomentMethod K P Q) (h : m.relax.length = Q) (k : ForceKind) (hk : k ≠ .centralMoment)
    (inp : (Fin Q → K) → ForceInput K Q D) (heEq : (Fin Q → K) → Fin Q → K) (hM : ∀ f, (inp f).M = m.matrix h)
    (hF : m.force = some (k.terms inp heEq)) (f : Fin Q → K) (j : Fin Q) :
    m.forceMoment h true f j = (inp f).added (heEq f) k m.momentSpace j := by
  unfold MomentMethod.forceMoment MomentMethod.popForcing MomentMethod.momentForcing ForceInput.added
  rw [hF]
  unfold ForceKind.terms
  rw [if_neg hk]
  cases m.momentSpace
  · simp only [Bool.and_false, Bool.false_eq_true, if_false, Option.isNone_none, Bool.and_true, if_true, Option.map_some]
    rcases hp : k.pop (inp f) (heEq f) with e | p
    · simp [Spec.mom, hp]
    · simp only [hp, hM]; rfl
  · simp

/-- the models whose papers shift the equilibrium velocity by `F / (2 ρ)` -/
def shiftsEquilibrium (k : ForceKind) : Bool := k ∈ [ForceKind.guo, .he, .buick, .shanChen, .centralMoment]

/-- C23: a collision with force. If the equilibrium is evaluated at the conserved quantities of the cell, no mass is
added; the momentum added is `F`, changed by `F/2` times the difference between the rate of the collision and the rate in
the force term for the models that shift the equilibrium velocity. -/
theorem C23_collision_general (H : Hydrodynamic m h c meqOf cq i0 i) (k : ForceKind) (hk : k ≠ .centralMoment)
    (F : Fin D → K) (hcq : cq.force = some (k, F)) (hmeq : ∀ f p, m.meq f p = meqOf (cq.equilibriumInput c f) p)
    (M : Matrix (Fin Q) (Fin Q) K) (hM : M = m.matrix h) (w rates d : Fin Q → K) (eq : K → (Fin D → K) → Fin Q → K) (heRaw : K → (Fin D → K) → Fin Q → K)
    (heEq : (Fin Q → K) → Fin Q → K)
    (hF : m.force = some (k.terms (forceInput M c w rates cq eq heRaw F) heEq))
    (r : (Fin Q → K) → Fin Q → K) (hr : m.collisionRule d true = .ok r) (f : Fin Q → K)
    (hH : (forceInput M c w rates cq eq heRaw F f).Hydro (heEq f) k)
    (hm0 : (forceInput M c w rates cq eq heRaw F f).IsMass k i0)
    (hm1 : ∀ a, (forceInput M c w rates cq eq heRaw F f).IsMomentum k a (i a))
    (href : cq.reference (cq.equilibriumInput c f).rho ≠ 0) :
    ∑ q, r f q = ∑ q, f q ∧ ∀ a, ∑ q, r f q * c q a = ∑ q, f q * c q a + F a +
      if shiftsEquilibrium k then (d (i a) - rates (i a)) / 2 * F a else 0 := by
  have hw : m.WellFormed := (MomentMethod.C19_defined_iff m d true).1 ⟨r, hr⟩
  constructor
  · have key := MomentMethod.C19_moments m d true r hr h f i0
    rw [forceMoment_eq m h k hk _ heEq (fun _ => hM) hF f i0, ForceInput.C23_no_mass k hH _ i0 hm0, H.bg_mass hw,
      H.mass, H.mass, hmeq, H.eqMass] at key
    · have hd := H.delta
      rw [H.storage] at hd
      have e1 : (cq.equilibriumInput c f).rho = if cq.zeroCentered then cq.rho0 + ∑ q, f q else ∑ q, f q := rfl
      have e2 : (cq.equilibriumInput c f).deltaRho = if cq.zeroCentered then ∑ q, f q else
        (if cq.zeroCentered then cq.rho0 + ∑ q, f q else ∑ q, f q) - cq.rho0 := rfl
      rw [e1, e2] at key
      rcases hz : cq.zeroCentered <;> rcases hv : m.deviationOnly <;> simp [hz, hv] at key hd ⊢
      · exact key
      · linear_combination key
      · exact key
    · show (if cq.zeroCentered then ∑ q, f q else (if cq.zeroCentered then cq.rho0 + ∑ q, f q else ∑ q, f q) - cq.rho0) =
        (if cq.zeroCentered then cq.rho0 + ∑ q, f q else ∑ q, f q) - cq.rho0
      cases cq.zeroCentered <;> simp
  · intro a
    have key := MomentMethod.C19_moments m d true r hr h f (i a)
    rw [forceMoment_eq m h k hk _ heEq (fun _ => hM) hF f (i a), ForceInput.C23_momentum k hH hk _ a (i a) (hm1 a),
      H.bg_mom, H.momentum, H.momentum, hmeq, H.eqMom] at key
    have e2 : cq.reference (cq.equilibriumInput c f).rho * (cq.equilibriumInput c f).u a = ∑ q, f q * c q a +
        if shiftsEquilibrium k then F a / 2 else 0 := by
      have e3 : (cq.equilibriumInput c f).u a = (∑ q, f q * c q a) / cq.reference (cq.equilibriumInput c f).rho +
          k.equilibriumVelocityShift (cq.reference (cq.equilibriumInput c f).rho) F a := by
        unfold Cqc.equilibriumInput; rw [hcq]
      rw [e3]
      generalize cq.reference (cq.equilibriumInput c f).rho = ref at href ⊢
      cases k <;> simp [ForceKind.equilibriumVelocityShift, defaultVelocityShift, shiftsEquilibrium] <;> field_simp
    rw [e2] at key
    have e4 : (forceInput M c w rates cq eq heRaw F f).rates = rates := rfl
    have e5 : (forceInput M c w rates cq eq heRaw F f).F = F := rfl
    rw [e4, e5] at key
    cases k <;> simp [ForceInput.forceFactor, shiftsEquilibrium] at key ⊢ <;> linear_combination key

/-- C23: with the force terms using the rates of the collision, exactly `F` is added, for every force model. -/
theorem C23_collision_adds_force (H : Hydrodynamic m h c meqOf cq i0 i) (k : ForceKind) (hk : k ≠ .centralMoment)
    (F : Fin D → K) (hcq : cq.force = some (k, F)) (hmeq : ∀ f p, m.meq f p = meqOf (cq.equilibriumInput c f) p)
    (M : Matrix (Fin Q) (Fin Q) K) (hM : M = m.matrix h) (w d : Fin Q → K) (eq : K → (Fin D → K) → Fin Q → K) (heRaw : K → (Fin D → K) → Fin Q → K)
    (heEq : (Fin Q → K) → Fin Q → K)
    (hF : m.force = some (k.terms (forceInput M c w d cq eq heRaw F) heEq))
    (r : (Fin Q → K) → Fin Q → K) (hr : m.collisionRule d true = .ok r) (f : Fin Q → K)
    (hH : (forceInput M c w d cq eq heRaw F f).Hydro (heEq f) k)
    (hm0 : (forceInput M c w d cq eq heRaw F f).IsMass k i0)
    (hm1 : ∀ a, (forceInput M c w d cq eq heRaw F f).IsMomentum k a (i a))
    (href : cq.reference (cq.equilibriumInput c f).rho ≠ 0) :
    ∑ q, r f q = ∑ q, f q ∧ ∀ a, ∑ q, r f q * c q a = ∑ q, f q * c q a + F a := by
  obtain ⟨h0, h1⟩ := C23_collision_general H k hk F hcq hmeq M hM w d d eq heRaw heEq hF r hr f hH hm0 hm1 href
  refine ⟨h0, fun a => (h1 a).trans ?_⟩
  cases k <;> simp

/-- C23, a disagreement: in partially saturated cells the rates of the collision are scaled by `1 - B`, the rates in the
force terms are not; a model that shifts the equilibrium velocity then adds only `(1 - ω B / 2) F`. -/
theorem C23_fraction_field_loses_force (H : Hydrodynamic m h c meqOf cq i0 i) (k : ForceKind)
    (hk : k = .guo ∨ k = .he ∨ k = .buick ∨ k = .shanChen)
    (F : Fin D → K) (hcq : cq.force = some (k, F)) (hmeq : ∀ f p, m.meq f p = meqOf (cq.equilibriumInput c f) p)
    (M : Matrix (Fin Q) (Fin Q) K) (hM : M = m.matrix h) (w : Fin Q → K) (B : K) (eq : K → (Fin D → K) → Fin Q → K) (heRaw : K → (Fin D → K) → Fin Q → K)
    (heEq : (Fin Q → K) → Fin Q → K)
    (hF : m.force = some (k.terms (forceInput M c w (m.effectiveRates none) cq eq heRaw F) heEq))
    (r : (Fin Q → K) → Fin Q → K) (hr : m.getCollisionRule (some B) = .ok r) (f : Fin Q → K)
    (hH : (forceInput M c w (m.effectiveRates none) cq eq heRaw F f).Hydro (heEq f) k)
    (hm0 : (forceInput M c w (m.effectiveRates none) cq eq heRaw F f).IsMass k i0)
    (hm1 : ∀ a, (forceInput M c w (m.effectiveRates none) cq eq heRaw F f).IsMomentum k a (i a))
    (href : cq.reference (cq.equilibriumInput c f).rho ≠ 0) (a : Fin D) :
    ∑ q, r f q * c q a = ∑ q, f q * c q a + (1 - m.effectiveRates none (i a) * B / 2) * F a := by
  have hk' : k ≠ .centralMoment := by rcases hk with rfl | rfl | rfl | rfl <;> simp
  obtain ⟨-, h1⟩ := C23_collision_general H k hk' F hcq hmeq M hM w _ _ eq heRaw heEq hF r hr f hH hm0 hm1 href
  rw [h1 a]
  have e : m.effectiveRates (some B) (i a) = m.effectiveRates none (i a) * (1 - B) := rfl
  rcases hk with rfl | rfl | rfl | rfl <;> simp only [e, shiftsEquilibrium] <;> simp <;> ring

end
end Lbm
