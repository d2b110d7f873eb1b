/-
C89: the iterative initialisation of velocity fields.
-/
import Verif.IterativeInit
import Verif.Props.Macroscopic
import Mathlib.Topology.Algebra.Order.Field
import Mathlib.Analysis.SpecificLimits.Basic

set_option linter.unusedSectionVars false

namespace Lbm
namespace IterativeInit

open Matrix Filter Topology

/-! ### The collision rule -/

section Rule
variable {K P : Type} [Field K] [CharZero K] [DecidableEq K] [DecidableEq P] {Q D : ℕ}

theorem foldl_dictSet (ω : K) (xs : List P) : ∀ d : List (P × K), (∀ x ∈ xs, x ∈ d.map Prod.fst) →
    xs.foldl (fun d e => MomentMethod.dictSet d e ω) d = d.map fun e => if e.1 ∈ xs then (e.1, ω) else e := by
  induction xs with
  | nil => intro d _; simp
  | cons x xs ih =>
    intro d hd
    have hx : x ∈ d.map Prod.fst := hd x (by simp)
    rw [List.foldl_cons, ih]
    · unfold MomentMethod.dictSet
      rw [if_pos hx, List.map_map]
      apply List.map_congr_left
      intro e _
      by_cases h1 : e.1 = x <;> by_cases h2 : e.1 ∈ xs <;> simp [h1, h2]
    · intro y hy
      rw [MomentMethod.dictSet_keys _ _ _ hx]
      exact hd y (by simp [hy])

theorem setFirst_eq {m m' : MomentMethod K P Q} {xs : List P} {ω : K} (hm : m.setFirstRate xs ω = .ok m') :
    m' = { m with relax := m.relax.map fun e => if e.1 ∈ xs then (e.1, ω) else e } := by
  unfold MomentMethod.setFirstRate at hm
  split_ifs at hm with h
  cases hm
  rw [foldl_dictSet ω xs m.relax h]

/-- what `rule` derives its result from -/
theorem rule_ok {p : Parts K P Q D} {m : MomentMethod K P Q} {xs : List P} {ω : K} {vel : Fin D → K}
    {r : (Fin Q → K) → Fin Q → K} (h : m.relax.length = Q) (hr : rule p m xs ω vel = .ok r) :
    ∃ (m2 : MomentMethod K P Q) (h2 : m2.relax.length = Q),
      m2.relax = (m.relax.map fun e => if e.1 ∈ xs then (e.1, ω) else e) ∧
      m2.ev = m.ev ∧ m2.zeroCentered = m.zeroCentered ∧ m2.deviationOnly = m.deviationOnly ∧
      m2.background = m.background ∧ m2.momentSpace = m.momentSpace ∧
      (∀ f, m2.meq f = p.meqOf (input p.cq p.c p.shiftDensity vel f)) ∧
      (m2.force = p.cq.force.map fun kF => kF.1.terms
        (forceInput (m2.matrix h2) p.c p.w (m2.effectiveRates none) p.cq p.shiftDensity vel p.eq p.heRaw kF.2) p.heEq) ∧
      m2.collisionRule (m2.effectiveRates none) true = .ok r := by
  unfold rule at hr
  rcases hm : m.setFirstRate xs ω with e | m'
  · rw [hm] at hr; cases hr
  · rw [hm] at hr
    have e := setFirst_eq hm
    have h' : m'.relax.length = Q := by rw [e]; simp [h]
    simp only [Bind.bind, Except.bind, dif_pos h'] at hr
    refine ⟨{ m' with
        meq := fun f => p.meqOf (input p.cq p.c p.shiftDensity vel f)
        force := p.cq.force.map fun kF => kF.1.terms
          (forceInput (m'.matrix h') p.c p.w (m'.effectiveRates none) p.cq p.shiftDensity vel p.eq p.heRaw kF.2)
          p.heEq }, h', ?_, ?_, ?_, ?_, ?_, ?_, ?_, ?_, hr⟩
    · show m'.relax = _; rw [e]
    · show m'.ev = _; rw [e]
    · show m'.zeroCentered = _; rw [e]
    · show m'.deviationOnly = _; rw [e]
    · show m'.background = _; rw [e]
    · show m'.momentSpace = _; rw [e]
    · intro f; rfl
    · rfl

theorem moment_eq {m m2 : MomentMethod K P Q} {xs : List P} {ω : K} (h : m.relax.length = Q)
    (h2 : m2.relax.length = Q)
    (e : m2.relax = m.relax.map fun e => if e.1 ∈ xs then (e.1, ω) else e) (j : Fin Q) :
    m2.moment h2 j = m.moment h j := by
  unfold MomentMethod.moment
  simp only [e, List.getElem_map]
  split_ifs <;> rfl

theorem rate_eq {m m2 : MomentMethod K P Q} {xs : List P} {ω : K} (h : m.relax.length = Q)
    (e : m2.relax = m.relax.map fun e => if e.1 ∈ xs then (e.1, ω) else e) (j : Fin Q)
    (hj : m.moment h j ∈ xs) : m2.effectiveRates none j = ω := by
  unfold MomentMethod.effectiveRates
  have hl : j.val < m.relax.length := by have := j.isLt; omega
  have hl2 : j.val < (m2.relax.map Prod.snd).length := by rw [e]; simpa using hl
  show (m2.relax.map Prod.snd).getD j.val 0 = ω
  rw [List.getD_eq_getElem _ _ hl2]
  simp only [List.getElem_map, e]
  rw [if_pos (show (m.relax[j.val]'hl).1 ∈ xs from hj)]

variable {p : Parts K P Q D} {m : MomentMethod K P Q} {h : m.relax.length = Q} {i0 : Fin Q} {i : Fin D → Fin Q}
  {xs : List P} {ω : K} {vel : Fin D → K} {r : (Fin Q → K) → Fin Q → K}

/-- density of the populations of a cell -/
def densityOf (cq : Cqc K D) (f : Fin Q → K) : K := if cq.zeroCentered then cq.rho0 + ∑ q, f q else ∑ q, f q

/-- The assumptions on the force model, those of C23 for the velocity the rule uses. -/
def GoodForce (p : Parts K P Q D) (m : MomentMethod K P Q) (h : m.relax.length = Q) (rates : Fin Q → K)
    (vel : Fin D → K) (i0 : Fin Q) (i : Fin D → Fin Q) (k : ForceKind) (F : Fin D → K) (f : Fin Q → K) : Prop :=
  let s := forceInput (m.matrix h) p.c p.w rates p.cq p.shiftDensity vel p.eq p.heRaw F f
  k ≠ .centralMoment ∧ s.Hydro (p.heEq f) k ∧ s.IsMass k i0 ∧ ∀ a, s.IsMomentum k a (i a)

/-- the rates after `set_first_moment_relaxation_rate` -/
def newRates (m : MomentMethod K P Q) (xs : List P) (ω : K) : Fin Q → K := fun j =>
  ((m.relax.map fun e => if e.1 ∈ xs then ω else e.2)).getD j.val 0

theorem newRates_eq {m2 : MomentMethod K P Q}
    (e : m2.relax = m.relax.map fun e => if e.1 ∈ xs then (e.1, ω) else e) :
    m2.effectiveRates none = newRates m xs ω := by
  funext j
  unfold MomentMethod.effectiveRates newRates
  simp only [e, List.map_map]
  congr 2
  funext a
  simp only [Function.comp]
  split_ifs <;> rfl

/-- What the force adds to the momentum, over that of the same rule without force. -/
def forcePart (p : Parts K P Q D) (ω ref : K) (a : Fin D) : K :=
  match p.cq.force with
  | none => 0
  | some (k, F) => (ForceInput.forceFactor k ω - ω * (ref / (2 * p.cq.reference p.shiftDensity))) * F a

/-- C89: the effect of one collision of the initialisation rule. Mass is conserved, the momentum relaxes towards the
prescribed one with the rate passed, whatever the other rates of the method. -/
theorem C89_collision (H : Hydrodynamic m h p.c p.meqOf p.cq i0 i) (hxs : ∀ a, m.moment h (i a) ∈ xs)
    (hr : rule p m xs ω vel = .ok r) (f : Fin Q → K)
    (hF : ∀ k F, p.cq.force = some (k, F) → GoodForce p m h (newRates m xs ω) vel i0 i k F f) :
    ∑ q, r f q = ∑ q, f q ∧
    ∀ a, ∑ q, r f q * p.c q a = (1 - ω) * (∑ q, f q * p.c q a) +
      ω * (p.cq.reference (densityOf p.cq f) * vel a) + forcePart p ω (p.cq.reference (densityOf p.cq f)) a := by
  obtain ⟨m2, h2, e1, e2, e3, e4, e5, e6, e7, e8, e9⟩ := rule_ok h hr
  have hw : m2.WellFormed := (MomentMethod.C19_defined_iff m2 _ true).1 ⟨r, e9⟩
  have hmom := moment_eq h h2 e1
  have hmat : m2.matrix h2 = m.matrix h := by
    funext j; unfold MomentMethod.matrix; rw [hmom, e2]
  have hrates := newRates_eq (m := m) e1
  have H2 : Hydrodynamic m2 h2 p.c p.meqOf p.cq i0 i :=
    { storage := by rw [e3]; exact H.storage
      delta := by rw [e3, e4]; exact H.delta
      evMass := by intro q; rw [hmom, e2]; exact H.evMass q
      evMom := by intro a q; rw [hmom, e2]; exact H.evMom a q
      eqMass := by intro x hx; rw [hmom, e4]; exact H.eqMass x hx
      eqMom := by intro x a; rw [hmom]; exact H.eqMom x a
      bgMass := by intro b hb; rw [hmom]; rw [e5] at hb; exact H.bgMass b hb
      bgMom := by intro b hb a; rw [hmom]; rw [e5] at hb; exact H.bgMom b hb a }
  have hadd : m2.forceMoment h2 true f i0 = 0 ∧ ∀ a, m2.forceMoment h2 true f (i a) =
      match p.cq.force with | none => 0 | some (k, F) => ForceInput.forceFactor k ω * F a := by
    rcases hf : p.cq.force with _ | ⟨k, F⟩
    · have hn : m2.force = none := by rw [e8, hf]; rfl
      constructor
      · simp [MomentMethod.forceMoment, MomentMethod.popForcing, MomentMethod.momentForcing, hn]
      · intro a
        simp [MomentMethod.forceMoment, MomentMethod.popForcing, MomentMethod.momentForcing, hn]
    · obtain ⟨hk, hH, h0, h1⟩ := hF k F hf
      rw [← hmat, ← hrates] at hH h0
      simp only [← hmat, ← hrates] at h1
      have hs : m2.force = some (k.terms (forceInput (m2.matrix h2) p.c p.w (m2.effectiveRates none) p.cq
          p.shiftDensity vel p.eq p.heRaw F) p.heEq) := by rw [e8, hf]; rfl
      constructor
      · rw [forceMoment_eq m2 h2 k hk _ p.heEq (fun _ => rfl) hs f i0]
        exact ForceInput.C23_no_mass k hH _ i0 h0
      · intro a
        rw [forceMoment_eq m2 h2 k hk _ p.heEq (fun _ => rfl) hs f (i a),
          ForceInput.C23_momentum k hH hk _ a (i a) (h1 a)]
        have e : (forceInput (m2.matrix h2) p.c p.w (m2.effectiveRates none) p.cq
          p.shiftDensity vel p.eq p.heRaw F f).rates (i a) = ω := rate_eq h e1 (i a) (hxs a)
        rw [e]; rfl
  constructor
  · have key := MomentMethod.C19_moments m2 _ true r e9 h2 f i0
    rw [hadd.1, H2.bg_mass hw, H2.mass, H2.mass, e7, H2.eqMass] at key
    · have hd := H2.delta
      rw [H2.storage] at hd
      have q1 : (input p.cq p.c p.shiftDensity vel f).rho =
        if p.cq.zeroCentered then p.cq.rho0 + ∑ q, f q else ∑ q, f q := rfl
      have q2 : (input p.cq p.c p.shiftDensity vel f).deltaRho = if p.cq.zeroCentered then ∑ q, f q else
        (if p.cq.zeroCentered then p.cq.rho0 + ∑ q, f q else ∑ q, f q) - p.cq.rho0 := rfl
      rw [q1, q2] at key
      rcases hz : p.cq.zeroCentered <;> rcases hv : m2.deviationOnly <;> simp [hz, hv] at key hd ⊢
      · exact key
      · linear_combination key
      · exact key
    · show (if p.cq.zeroCentered then ∑ q, f q else
          (if p.cq.zeroCentered then p.cq.rho0 + ∑ q, f q else ∑ q, f q) - p.cq.rho0) =
        (if p.cq.zeroCentered then p.cq.rho0 + ∑ q, f q else ∑ q, f q) - p.cq.rho0
      cases p.cq.zeroCentered <;> simp
  · intro a
    have key := MomentMethod.C19_moments m2 _ true r e9 h2 f (i a)
    rw [hadd.2 a, H2.bg_mom, H2.momentum, H2.momentum, e7, H2.eqMom, rate_eq h e1 (i a) (hxs a)] at key
    have q1 : (input p.cq p.c p.shiftDensity vel f).rho = densityOf p.cq f := rfl
    have q2 : (input p.cq p.c p.shiftDensity vel f).u a = vel a -
        (match p.cq.force with | some (_, F) => defaultVelocityShift (p.cq.reference p.shiftDensity) F | none => fun _ => 0) a :=
      rfl
    rw [q1, q2] at key
    unfold forcePart
    rcases hf : p.cq.force with _ | ⟨k, F⟩
    · rw [hf] at key
      simp only at key ⊢
      linear_combination key
    · rw [hf] at key
      simp only [defaultVelocityShift] at key ⊢
      linear_combination key

/-! #### Periodic domains -/

section Domain
variable {G : Type} [AddCommGroup G] [Fintype G]

/-- The rule of every cell of the domain, with its own prescribed velocity. -/
def Rules (p : Parts K P Q D) (m : MomentMethod K P Q) (xs : List P) (ω : K) (vel : G → Fin D → K)
    (r : G → (Fin Q → K) → Fin Q → K) : Prop := ∀ x, rule p m xs ω (vel x) = .ok (r x)

theorem sum_stream (shift : Fin Q → G) (f : G → Fin Q → K) (w : Fin Q → K) :
    ∑ x, ∑ q, f (x - shift q) q * w q = ∑ x, ∑ q, f x q * w q := by
  rw [Finset.sum_comm, Finset.sum_comm (s := Finset.univ (α := G)) (f := fun x q => f x q * w q)]
  refine Finset.sum_congr rfl fun q _ => ?_
  exact Equiv.sum_comp (Equiv.subRight (shift q)) fun x => f x q * w q

/-- C89: the initialisation conserves the mass of the whole domain, however many steps are made and whatever velocity
is prescribed in each cell. -/
theorem C89_mass (H : Hydrodynamic m h p.c p.meqOf p.cq i0 i) (hxs : ∀ a, m.moment h (i a) ∈ xs)
    (vel : G → Fin D → K) (r : G → (Fin Q → K) → Fin Q → K) (hr : Rules p m xs ω vel r) (shift : Fin Q → G)
    (hF : ∀ k F, p.cq.force = some (k, F) → ∀ x f, GoodForce p m h (newRates m xs ω) (vel x) i0 i k F f)
    (n : ℕ) (f : G → Fin Q → K) :
    ∑ x, ∑ q, (step shift r)^[n] f x q = ∑ x, ∑ q, f x q := by
  induction n generalizing f with
  | zero => rfl
  | succ n ih =>
    rw [Function.iterate_succ_apply, ih]
    have e : ∀ x, ∑ q, step shift r f x q = ∑ q, f (x - shift q) q := fun x =>
      (C89_collision H hxs (hr x) _ fun k F hk => hF k F hk x _).1
    simp only [e]
    have := sum_stream shift f fun _ => 1
    simpa using this

/-- C89: in an incompressible method without force the momentum of the whole domain converges geometrically to the
prescribed one, with factor `1 - ω`. -/
theorem C89_momentum (H : Hydrodynamic m h p.c p.meqOf p.cq i0 i) (hxs : ∀ a, m.moment h (i a) ∈ xs)
    (hF : p.cq.force = none) (hc : p.cq.compressible = false)
    (vel : G → Fin D → K) (r : G → (Fin Q → K) → Fin Q → K) (hr : Rules p m xs ω vel r) (shift : Fin Q → G)
    (n : ℕ) (f : G → Fin Q → K) (a : Fin D) :
    (∑ x, ∑ q, (step shift r)^[n] f x q * p.c q a) - p.cq.rho0 * ∑ x, vel x a =
      (1 - ω) ^ n * ((∑ x, ∑ q, f x q * p.c q a) - p.cq.rho0 * ∑ x, vel x a) := by
  induction n generalizing f with
  | zero => simp
  | succ n ih =>
    rw [Function.iterate_succ_apply, ih]
    have e : ∀ x, ∑ q, step shift r f x q * p.c q a = (1 - ω) * (∑ q, f (x - shift q) q * p.c q a) +
        ω * (p.cq.rho0 * vel x a) := fun x => by
      have := (C89_collision H hxs (hr x) (fun q => f (x - shift q) q) fun k F hk => by
        rw [hF] at hk; cases hk).2 a
      unfold step
      rw [this]
      simp [forcePart, hF, Cqc.reference, hc]
    simp only [e]
    rw [Finset.sum_add_distrib, ← Finset.mul_sum, ← Finset.mul_sum, ← Finset.mul_sum, sum_stream shift f fun q => p.c q a]
    ring

/-- the velocity the getter kernel writes into the velocity array (`lbstep.py:419`) -/
def velocityOf (p : Parts K P Q D) (f : Fin Q → K) : Fin D → K := (p.cq.output (1 / 3) p.c f).velocity

theorem velocityOf_eq (p : Parts K P Q D) (f : Fin Q → K) (a : Fin D) :
    velocityOf p f a = (∑ q, f q * p.c q a) / p.cq.reference (densityOf p.cq f) +
      match p.cq.force with
      | none => 0
      | some (_, F) => F a / (2 * p.cq.reference (densityOf p.cq f)) := by
  unfold velocityOf Cqc.output densityOf
  rcases p.cq.force with _ | ⟨k, F⟩ <;> simp [defaultVelocityShift]

theorem step_uniform (shift : Fin Q → G) (g : Fin Q → K) (n : ℕ) :
    (step shift fun _ => r)^[n] (fun _ => g) = fun _ => r^[n] g := by
  induction n generalizing g with
  | zero => rfl
  | succ n ih =>
    rw [Function.iterate_succ_apply, Function.iterate_succ_apply]
    exact ih (r g)

/-- by how much the velocity of the limit differs from the prescribed one -/
def limitError (p : Parts K P Q D) (ω ref : K) (a : Fin D) : K :=
  match p.cq.force with
  | none => 0
  | some (k, F) => (ForceInput.forceFactor k ω / ω + 1 / 2 - ref / (2 * p.cq.reference p.shiftDensity)) * F a / ref

/-- C89: uniform velocity and populations. After `n` steps the distance of the velocity read from the populations to its
limit is `(1 - ω) ^ n` times the initial one; the limit is the prescribed velocity plus `limitError`. -/
theorem C89_uniform (H : Hydrodynamic m h p.c p.meqOf p.cq i0 i) (hxs : ∀ a, m.moment h (i a) ∈ xs)
    (hr : rule p m xs ω vel = .ok r) (shift : Fin Q → G)
    (hF : ∀ k F, p.cq.force = some (k, F) → ∀ f, GoodForce p m h (newRates m xs ω) vel i0 i k F f)
    (n : ℕ) (g : Fin Q → K) (hω : ω ≠ 0) (href : p.cq.reference (densityOf p.cq g) ≠ 0) (x : G) (a : Fin D) :
    let ref := p.cq.reference (densityOf p.cq g)
    velocityOf p ((step shift fun _ => r)^[n] (fun _ => g) x) a - (vel a + limitError p ω ref a) =
      (1 - ω) ^ n * (velocityOf p g a - (vel a + limitError p ω ref a)) := by
  intro ref
  rw [step_uniform shift g n]
  have step1 : ∀ g : Fin Q → K, densityOf p.cq (r g) = densityOf p.cq g := fun g => by
    unfold densityOf
    rw [(C89_collision H hxs hr g fun k F hk => hF k F hk g).1]
  have hden : ∀ n, densityOf p.cq (r^[n] g) = densityOf p.cq g := fun n => by
    induction n with
    | zero => rfl
    | succ n ih => rw [Function.iterate_succ_apply', step1, ih]
  show velocityOf p (r^[n] g) a - _ = _
  induction n with
  | zero => simp
  | succ n ih =>
    rw [pow_succ, mul_comm ((1 - ω) ^ n), mul_assoc, ← ih, Function.iterate_succ_apply', velocityOf_eq, velocityOf_eq,
      step1, hden n, (C89_collision H hxs hr _ fun k F hk => hF k F hk _).2 a, hden n]
    show ((1 - ω) * (∑ q, r^[n] g q * p.c q a) + ω * (ref * vel a) + forcePart p ω ref a) / ref + _ - _ = _
    have hr0 : ref ≠ 0 := href
    unfold forcePart limitError
    rcases p.cq.force with _ | ⟨k, F⟩
    · simp only
      field_simp
      ring
    · simp only
      generalize ref / (2 * p.cq.reference p.shiftDensity) = t
      generalize ForceInput.forceFactor k ω = ff
      change ((1 - ω) * (∑ q, r^[n] g q * p.c q a) + ω * (ref * vel a) + (ff - ω * t) * F a) / ref +
          F a / (2 * ref) - (vel a + (ff / ω + 1 / 2 - t) * F a / ref) =
        (1 - ω) * ((∑ q, r^[n] g q * p.c q a) / ref + F a / (2 * ref) - (vel a + (ff / ω + 1 / 2 - t) * F a / ref))
      field_simp
      ring

end Domain
end Rule

section Real
variable {P : Type} [DecidableEq P] {Q D : ℕ} {p : Parts ℝ P Q D} {m : MomentMethod ℝ P Q} {h : m.relax.length = Q}
  {i0 : Fin Q} {i : Fin D → Fin Q} {xs : List P} {ω : ℝ} {vel : Fin D → ℝ} {r : (Fin Q → ℝ) → Fin Q → ℝ}
  {G : Type} [AddCommGroup G] [Fintype G]

/-- C89: without force and with a rate between 0 and 2 the velocity of a uniform domain converges to the prescribed
one. -/
theorem C89_converges (H : Hydrodynamic m h p.c p.meqOf p.cq i0 i) (hxs : ∀ a, m.moment h (i a) ∈ xs)
    (hr : rule p m xs ω vel = .ok r) (shift : Fin Q → G) (hF : p.cq.force = none) (h0 : 0 < ω) (h2 : ω < 2)
    (g : Fin Q → ℝ) (href : p.cq.reference (densityOf p.cq g) ≠ 0) (x : G) (a : Fin D) :
    Tendsto (fun n => velocityOf p ((step shift fun _ => r)^[n] (fun _ => g) x) a) atTop (𝓝 (vel a)) := by
  have key := fun n => C89_uniform (n := n) H hxs hr shift (fun k F hk => by rw [hF] at hk; cases hk) g h0.ne' href x a
  have hl : limitError p ω (p.cq.reference (densityOf p.cq g)) a = 0 := by simp [limitError, hF]
  simp only [hl, add_zero] at key
  have t : Tendsto (fun n : ℕ => (1 - ω) ^ n * (velocityOf p g a - vel a)) atTop (𝓝 (0 * (velocityOf p g a - vel a))) :=
    (tendsto_pow_atTop_nhds_zero_iff.2 (by rw [abs_lt]; constructor <;> linarith)).mul_const _
  rw [zero_mul] at t
  have t2 := t.add_const (vel a)
  rw [zero_add] at t2
  refine t2.congr fun n => ?_
  rw [← key n]; ring

/-- C89, a disagreement: with a force the velocity converges to something else. If the shift uses the density of the
populations, the error is `F / ρ` times `1 / ω - 1 / 2` for the models that shift the equilibrium velocity and `1 / ω` for
the others: the force acts in every step of the initialisation, but the prescribed momentum does not account for it. -/
theorem C89_force_wrong (H : Hydrodynamic m h p.c p.meqOf p.cq i0 i) (hxs : ∀ a, m.moment h (i a) ∈ xs)
    (hr : rule p m xs ω vel = .ok r) (shift : Fin Q → G) (k : ForceKind) (F : Fin D → ℝ)
    (hF : p.cq.force = some (k, F)) (hg : ∀ f, GoodForce p m h (newRates m xs ω) vel i0 i k F f)
    (h0 : 0 < ω) (h2 : ω < 2) (g : Fin Q → ℝ) (href : p.cq.reference (densityOf p.cq g) ≠ 0)
    (hs : p.cq.reference p.shiftDensity = p.cq.reference (densityOf p.cq g)) (x : G) (a : Fin D) :
    Tendsto (fun n => velocityOf p ((step shift fun _ => r)^[n] (fun _ => g) x) a) atTop
      (𝓝 (vel a + (if shiftsEquilibrium k then 1 / ω - 1 / 2 else 1 / ω) * F a / p.cq.reference (densityOf p.cq g))) ∧
    (F a ≠ 0 → (if shiftsEquilibrium k then 1 / ω - 1 / 2 else 1 / ω) * F a / p.cq.reference (densityOf p.cq g) ≠ 0) := by
  have key := fun n => C89_uniform (n := n) H hxs hr shift (fun k' F' hk => by
    rw [hF] at hk; cases hk; exact hg) g h0.ne' href x a
  have hl : limitError p ω (p.cq.reference (densityOf p.cq g)) a =
      (if shiftsEquilibrium k then 1 / ω - 1 / 2 else 1 / ω) * F a / p.cq.reference (densityOf p.cq g) := by
    unfold limitError
    rw [hF]
    simp only [hs]
    have e : p.cq.reference (densityOf p.cq g) / (2 * p.cq.reference (densityOf p.cq g)) = 1 / 2 := by
      field_simp
    rw [e]
    have hω := h0.ne'
    congr 2
    cases k <;> simp [ForceInput.forceFactor, shiftsEquilibrium] <;> field_simp
  simp only [hl] at key
  set L := (if shiftsEquilibrium k then 1 / ω - 1 / 2 else 1 / ω) * F a / p.cq.reference (densityOf p.cq g) with hL
  constructor
  · have t : Tendsto (fun n : ℕ => (1 - ω) ^ n * (velocityOf p g a - (vel a + L))) atTop
        (𝓝 (0 * (velocityOf p g a - (vel a + L)))) :=
      (tendsto_pow_atTop_nhds_zero_iff.2 (by rw [abs_lt]; constructor <;> linarith)).mul_const _
    rw [zero_mul] at t
    have t2 := t.add_const (vel a + L)
    rw [zero_add] at t2
    refine t2.congr fun n => ?_
    rw [← key n]; ring
  · intro hFa
    refine div_ne_zero (mul_ne_zero ?_ hFa) href
    split_ifs
    · have : 1 / ω - 1 / 2 = (2 - ω) / (2 * ω) := by field_simp
      rw [this]
      exact (div_pos (by linarith) (by linarith)).ne'
    · positivity

end Real

/-! ### The loop -/

section Loop
variable {S V ρ ω R : Type} [LT R] [DecidableLT R]

/-- residuum of the populations `s` for the prescribed velocity `b` -/
def resOf (o : Ops S V ρ ω R) (b : V) (s : S) : Option R := o.residuum b (o.readVelocity s)

/-- populations after `k` steps -/
def after (o : Ops S V ρ ω R) (rate : ω) (b : V) (s : S) (k : ℕ) : S := (o.advance rate b)^[k] s

/-- the arrays after `k` steps and the getter kernel -/
def arrays (o : Ops S V ρ ω R) (rate : ω) (w : World S V ρ ω) (k : ℕ) : World S V ρ ω :=
  { w with
    pdfs := after o rate w.backup w.pdfs k
    velocity := o.readVelocity (after o rate w.backup w.pdfs k)
    density := o.readDensity (after o rate w.backup w.pdfs k) }

/-- the loop stops at a check with this residuum -/
def stops (threshold : R) (res : Option R) : Bool := res.isNone || below threshold res

theorem outer_spec (o : Ops S V ρ ω R) (rate : ω) (check : ℕ) (t : R) (n : ℕ) :
    ∀ (res : Option (Option R)) (steps : ℕ) (w : World S V ρ ω),
      (n = 0 ∧ outer o rate check t n res steps w = (res, steps, w)) ∨
      ∃ j, 1 ≤ j ∧ j ≤ n ∧
        outer o rate check t n res steps w =
          (some (resOf o w.backup (after o rate w.backup w.pdfs (check * j))), steps + check * j,
            arrays o rate w (check * j)) ∧
        (∀ j', 1 ≤ j' → j' < j → stops t (resOf o w.backup (after o rate w.backup w.pdfs (check * j'))) = false) ∧
        (stops t (resOf o w.backup (after o rate w.backup w.pdfs (check * j))) = true ∨ j = n) := by
  induction n with
  | zero => intro res steps w; exact .inl ⟨rfl, rfl⟩
  | succ n ih =>
    intro res steps w
    right
    by_cases hs : stops t (resOf o w.backup (after o rate w.backup w.pdfs check)) = true
    · refine ⟨1, le_refl 1, by omega, ?_, by intro j' h1 h2; omega, ?_⟩
      · unfold outer
        simp only
        rw [if_pos (by exact hs)]
        simp [resOf, after, arrays]
      · rw [mul_one]; exact .inl hs
    · have hstep : outer o rate check t (n + 1) res steps w =
          outer o rate check t n (some (resOf o w.backup (after o rate w.backup w.pdfs check))) (steps + check)
            (arrays o rate w check) := by
        conv_lhs => unfold outer
        simp only
        rw [if_neg (by exact hs)]
        rfl
      have hit : ∀ k, after o rate w.backup (after o rate w.backup w.pdfs check) k =
          after o rate w.backup w.pdfs (check + k) := fun k => by
        unfold after; rw [← Function.iterate_add_apply, Nat.add_comm]
      rcases ih (some (resOf o w.backup (after o rate w.backup w.pdfs check))) (steps + check)
          (arrays o rate w check) with ⟨hn, h0⟩ | ⟨j, h1, h2, h3, h4, h5⟩
      · refine ⟨1, le_refl 1, by omega, ?_, by intro j' h1 h2; omega, .inr (by omega)⟩
        rw [hstep, h0, mul_one]
      · have eb : (arrays o rate w check).backup = w.backup := rfl
        have ep : (arrays o rate w check).pdfs = after o rate w.backup w.pdfs check := rfl
        have em : check + check * j = check * (j + 1) := by ring
        rw [eb, ep, hit, em] at h3
        simp only [eb, ep, hit] at h4 h5
        refine ⟨j + 1, by omega, by omega, ?_, ?_, ?_⟩
        · rw [hstep, h3]
          refine Prod.ext rfl (Prod.ext (by show steps + check + check * j = _; ring) ?_)
          show arrays o rate (arrays o rate w check) (check * j) = _
          unfold arrays
          simp only [hit, em]
        · intro j' h1' h2'
          rcases Nat.lt_or_ge 1 j' with hlt | hge
          · have := h4 (j' - 1) (by omega) (by omega)
            have e : check + check * (j' - 1) = check * j' := by
              obtain ⟨q, rfl⟩ : ∃ q, j' = q + 1 := ⟨j' - 1, by omega⟩
              simp; ring
            rwa [e] at this
          · have : j' = 1 := by omega
            subst this
            rw [mul_one]
            simpa using hs
        · rw [em] at h5
          rcases h5 with h5 | h5
          · exact .inl h5
          · exact .inr (by omega)

/-- the rate the kernel in use was made for -/
def usedRate (rate : ω) (w : World S V ρ ω) : ω := w.kernel.getD rate

/-- the arrays when the loop starts -/
def start (rate : ω) (w : World S V ρ ω) : World S V ρ ω :=
  { w with kernel := some (usedRate rate w), backup := w.velocity }

variable (o : Ops S V ρ ω R) (rate : ω) (t : R) (maxSteps check : ℕ) (w : World S V ρ ω)

theorem run_eq (hc : 0 < check) : run o rate t maxSteps check w =
    let r := outer o (usedRate rate w) check t (maxSteps / check) none 0 (start rate w)
    match r.1 with
    | none => (.error .assertion, r.2.2)
    | some res =>
      if below t res then
        match res with
        | some x => (.ok (x, r.2.1), r.2.2)
        | none => (.error .valueError, r.2.2)
      else (.error .valueError, { r.2.2 with velocity := r.2.2.backup }) := by
  unfold run
  have h1 : ((check : ℤ)) ≠ 0 := by omega
  have h2 : ((maxSteps : ℤ).fdiv (check : ℤ)).toNat = maxSteps / check := by
    rw [Int.fdiv_eq_ediv_of_nonneg _ (by omega)]
    norm_cast
  simp only [h1, if_false, h2, Int.toNat_natCast]
  rfl

/-- C89: fewer steps allowed than there are between two checks: nothing is done, and the error is not the documented
`ValueError`. -/
theorem C89_assertion (hc : 0 < check) (hm : maxSteps < check) :
    run o rate t maxSteps check w = (.error .assertion, start rate w) := by
  rw [run_eq o rate t maxSteps check w hc, Nat.div_eq_of_lt hm]
  rfl

/-- C89: a check interval of zero is a `ZeroDivisionError`, a negative one an `AssertionError`; no step is done. -/
theorem C89_bad_interval (maxSteps check : ℤ) (hm : 0 ≤ maxSteps) (hc : check ≤ 0) :
    run o rate t maxSteps check w = (.error (if check = 0 then .zeroDivision else .assertion), start rate w) := by
  by_cases h : check = 0
  · subst h
    rfl
  · have h0 : (maxSteps.fdiv check).toNat = 0 := by
      rw [Int.toNat_eq_zero]
      exact Int.fdiv_nonpos_of_nonneg_of_nonpos hm hc
    unfold run
    simp only [h, if_false, h0]
    rfl

example : ((7 : ℤ).fdiv (-2)).toNat = 0 := by decide

/-- C89: a successful call. The steps are a multiple of the check interval and at most `maxSteps`, the velocity array
holds the velocity of the populations after these steps, its residuum against the velocities prescribed when the function
was called is returned and is below the threshold, and at no earlier check it was. -/
theorem C89_success (hc : 0 < check) {x : R} {k : ℕ} {w' : World S V ρ ω}
    (hrun : run o rate t maxSteps check w = (.ok (x, k), w')) :
    (∃ j, 1 ≤ j ∧ k = check * j ∧
      ∀ j', 1 ≤ j' → j' < j →
        ∃ y, resOf o w.velocity (after o (usedRate rate w) w.velocity w.pdfs (check * j')) = some y ∧ ¬ y < t) ∧
    k ≤ maxSteps ∧ w'.pdfs = after o (usedRate rate w) w.velocity w.pdfs k ∧ w'.velocity = o.readVelocity w'.pdfs ∧
    w'.density = o.readDensity w'.pdfs ∧ o.residuum w.velocity w'.velocity = some x ∧ x < t := by
  rw [run_eq o rate t maxSteps check w hc] at hrun
  rcases outer_spec o (usedRate rate w) check t (maxSteps / check) none 0 (start rate w) with
    ⟨-, h0⟩ | ⟨j, h1, h2, h3, h4, -⟩
  · rw [h0] at hrun; cases hrun
  · rw [h3] at hrun
    simp only at hrun
    have hb : (start rate w).backup = w.velocity := rfl
    have hp : (start rate w).pdfs = w.pdfs := rfl
    rw [hb, hp] at hrun h4
    split_ifs at hrun with hlt
    swap
    · cases hrun
    rcases hres : resOf o w.velocity (after o (usedRate rate w) w.velocity w.pdfs (check * j)) with _ | y
    · rw [hres] at hrun; cases hrun
    · rw [hres] at hrun hlt
      simp only [Prod.mk.injEq, Except.ok.injEq] at hrun
      obtain ⟨⟨rfl, rfl⟩, rfl⟩ := hrun
      rw [Nat.zero_add]
      refine ⟨⟨j, h1, rfl, fun j' h1' h2' => ?_⟩, ?_, rfl, rfl, rfl, hres, by simpa [below] using hlt⟩
      · have := h4 j' h1' h2'
        rcases hy : resOf o w.velocity (after o (usedRate rate w) w.velocity w.pdfs (check * j')) with _ | y'
        · rw [hy] at this; simp [stops] at this
        · rw [hy] at this
          refine ⟨y', rfl, ?_⟩
          simpa [stops, below] using this
      · calc check * j ≤ check * (maxSteps / check) := Nat.mul_le_mul_left _ h2
          _ ≤ maxSteps := Nat.mul_div_le _ _

/-- C89: an unsuccessful call with at least one check raises `ValueError` and restores the velocity array; populations and
density are those of the last step. -/
theorem C89_failure (hc : 0 < check) (hm : check ≤ maxSteps) {e : Err} {w' : World S V ρ ω}
    (hrun : run o rate t maxSteps check w = (.error e, w')) :
    e = .valueError ∧ w'.velocity = w.velocity ∧
    ∃ k, 0 < k ∧ k ≤ maxSteps ∧ check ∣ k ∧ w'.pdfs = after o (usedRate rate w) w.velocity w.pdfs k ∧
      w'.density = o.readDensity w'.pdfs ∧
      (resOf o w.velocity w'.pdfs = none ∨ k = check * (maxSteps / check)) := by
  rw [run_eq o rate t maxSteps check w hc] at hrun
  have hpos : 0 < maxSteps / check := Nat.div_pos hm hc
  rcases outer_spec o (usedRate rate w) check t (maxSteps / check) none 0 (start rate w) with
    ⟨h0, -⟩ | ⟨j, h1, h2, h3, h4, h5⟩
  · omega
  · rw [h3] at hrun
    simp only at hrun
    have hb : (start rate w).backup = w.velocity := rfl
    have hp : (start rate w).pdfs = w.pdfs := rfl
    rw [hb, hp] at hrun h4 h5
    split_ifs at hrun with hlt
    · rcases hres : resOf o w.velocity (after o (usedRate rate w) w.velocity w.pdfs (check * j)) with _ | y
      · rw [hres] at hlt; simp [below] at hlt
      · rw [hres] at hrun; cases hrun
    · simp only [Prod.mk.injEq, Except.error.injEq] at hrun
      obtain ⟨rfl, rfl⟩ := hrun
      refine ⟨rfl, rfl, check * j, Nat.mul_pos hc h1, ?_, ⟨j, rfl⟩, rfl, rfl, ?_⟩
      · calc check * j ≤ check * (maxSteps / check) := Nat.mul_le_mul_left _ h2
          _ ≤ maxSteps := Nat.mul_div_le _ _
      · rcases h5 with h5 | h5
        · left
          show resOf o w.velocity (after o (usedRate rate w) w.velocity w.pdfs (check * j)) = none
          unfold stops at h5
          rw [Bool.or_eq_true] at h5
          rcases h5 with h5 | h5
          · exact Option.isNone_iff_eq_none.1 h5
          · exact absurd h5 hlt
        · right; rw [h5]

/-- C89: the call succeeds exactly if the residuum is below the threshold at some check and was not NaN before. -/
theorem C89_success_iff (hc : 0 < check) :
    (∃ x k w', run o rate t maxSteps check w = (.ok (x, k), w')) ↔
      ∃ j, 1 ≤ j ∧ check * j ≤ maxSteps ∧
        below t (resOf o w.velocity (after o (usedRate rate w) w.velocity w.pdfs (check * j))) = true ∧
        ∀ j', 1 ≤ j' → j' < j → resOf o w.velocity (after o (usedRate rate w) w.velocity w.pdfs (check * j')) ≠ none := by
  constructor
  · rintro ⟨x, k, w', hrun⟩
    obtain ⟨⟨j, h1, rfl, h2⟩, h3, h4, h5, -, h6, h7⟩ := C89_success o rate t maxSteps check w hc hrun
    refine ⟨j, h1, h3, ?_, fun j' a b => ?_⟩
    · rw [h5, h4] at h6
      unfold resOf
      rw [h6]
      simpa [below] using h7
    · obtain ⟨y, hy, -⟩ := h2 j' a b
      rw [hy]; simp
  · rintro ⟨j, h1, h2, h3, h4⟩
    rcases hrun : run o rate t maxSteps check w with ⟨e | ⟨x, k⟩, w'⟩
    · exfalso
      rw [run_eq o rate t maxSteps check w hc] at hrun
      have hj : j ≤ maxSteps / check := (Nat.le_div_iff_mul_le hc).2 (by rw [Nat.mul_comm]; exact h2)
      rcases outer_spec o (usedRate rate w) check t (maxSteps / check) none 0 (start rate w) with
        ⟨g0, -⟩ | ⟨i, g1, g2, g3, g4, g5⟩
      · omega
      · have hb : (start rate w).backup = w.velocity := rfl
        have hp : (start rate w).pdfs = w.pdfs := rfl
        rw [g3] at hrun
        rw [hb, hp] at hrun g4 g5
        simp only at hrun
        have hij : i ≤ j := by
          by_contra hlt
          have := g4 j h1 (by omega)
          unfold stops at this
          rw [h3] at this
          simp at this
        rcases Nat.lt_or_ge i j with hlt | hge
        · have hnn := h4 i g1 hlt
          rcases g5 with g5 | g5
          · unfold stops at g5
            rw [Bool.or_eq_true] at g5
            rcases g5 with g5 | g5
            · exact hnn (Option.isNone_iff_eq_none.1 g5)
            · rw [if_pos g5] at hrun
              rcases hres : resOf o w.velocity (after o (usedRate rate w) w.velocity w.pdfs (check * i)) with _ | y
              · exact hnn hres
              · rw [hres] at hrun; cases hrun
          · omega
        · have : i = j := by omega
          subst this
          rw [if_pos h3] at hrun
          rcases hres : resOf o w.velocity (after o (usedRate rate w) w.velocity w.pdfs (check * i)) with _ | y
          · rw [hres] at h3; simp [below] at h3
          · rw [hres] at hrun; cases hrun
    · exact ⟨x, k, w', rfl⟩

/-- C89, a disagreement: the kernel of the first call is kept, a rate passed to a later call is ignored. -/
theorem C89_rate_ignored (rate2 : ω) (m2 c2 : ℤ) (t2 : R) (w1 : World S V ρ ω)
    (h1 : w1 = (run o rate t maxSteps check w).2) (hc : 0 < check) :
    run o rate2 t2 m2 c2 w1 = run o (usedRate rate w) t2 m2 c2 w1 := by
  have hk : w1.kernel = some (usedRate rate w) := by
    rw [h1, run_eq o rate t maxSteps check w hc]
    rcases outer_spec o (usedRate rate w) check t (maxSteps / check) none 0 (start rate w) with
      ⟨-, h0⟩ | ⟨j, -, -, h3, -, -⟩
    · rw [h0]; rfl
    · rw [h3]
      simp only
      split_ifs
      · split <;> rfl
      · rfl
  unfold run
  rw [hk]
  rfl

end Loop

/-! ### The residuum -/

/-- mean of the distances of all values of all blocks -/
noncomputable def globalAverage (processes : List (List (List (ℝ × ℝ)))) : ℝ := blockAverage processes.flatten.flatten

/-- C89: with one block per process and blocks of one size the residuum is the average difference of the two fields. -/
theorem C89_residuum (blocks : List (List (ℝ × ℝ))) (n : ℕ) (hn : 0 < n) (hb : ∀ b ∈ blocks, b.length = n)
    (hne : blocks ≠ []) :
    residuum (blocks.map fun b => [b]) = globalAverage (blocks.map fun b => [b]) := by
  have hflat : (blocks.map fun b => [b]).flatten = blocks := by
    clear hb hne
    induction blocks with
    | nil => rfl
    | cons b l ih => simp [ih]
  unfold residuum globalAverage
  rw [hflat]
  have hlen : (blocks.flatten.length : ℝ) = n * blocks.length := by
    clear hne hflat
    induction blocks with
    | nil => simp
    | cons b l ih =>
      rw [List.flatten_cons, List.length_append, Nat.cast_add, ih fun x hx => hb x (by simp [hx]), hb b (by simp)]
      simp; ring
  have hsum : ((blocks.flatten).map fun p : ℝ × ℝ => |p.1 - p.2|).sum =
      n * ((blocks.map fun b => [b]).map processResiduum).sum := by
    clear hne hflat hlen
    induction blocks with
    | nil => simp
    | cons b l ih =>
      rw [List.flatten_cons, List.map_append, List.sum_append, ih fun x hx => hb x (by simp [hx])]
      simp only [List.map_cons, List.sum_cons, processResiduum, List.foldl_cons, List.foldl_nil]
      have hn' : (n : ℝ) ≠ 0 := by positivity
      unfold blockAverage
      rw [hb b (by simp)]
      field_simp
  have hl : (blocks.length : ℝ) ≠ 0 := by
    have : 0 < blocks.length := List.length_pos_iff.2 hne
    positivity
  have hn' : (n : ℝ) ≠ 0 := by positivity
  have hones : (((blocks.map fun b => [b]).map fun _ => (1 : ℝ))).sum = blocks.length := by
    clear hb hne hflat hlen hsum hl
    induction blocks with
    | nil => simp
    | cons b l ih => simp only [List.map_cons, List.sum_cons, List.length_cons, ih]; push_cast; ring
  unfold blockAverage
  rw [hsum, hlen, hones]
  field_simp

/-- C89, a disagreement: only the last block of a process counts. The residuum vanishes, for any velocities in the other
blocks. -/
theorem C89_residuum_wrong (blocks : List (List (ℝ × ℝ))) (last : List (ℝ × ℝ)) (hl : ∀ p ∈ last, p.1 = p.2) :
    residuum [blocks ++ [last]] = 0 := by
  unfold residuum processResiduum
  rw [List.map_singleton, List.foldl_append]
  simp only [List.foldl_cons, List.foldl_nil]
  have : (last.map fun p => |p.1 - p.2|).sum = 0 := by
    have e : (last.map fun p => |p.1 - p.2|) = last.map fun _ => (0 : ℝ) := by
      apply List.map_congr_left
      intro p hp
      rw [hl p hp]; simp
    rw [e]; simp
  unfold blockAverage
  rw [this]; simp

example : residuum [[[(0, 7)], [(1, 1)]]] = 0 ∧ globalAverage [[[(0, 7)], [(1, 1)]]] = 7 / 2 := by
  refine ⟨C89_residuum_wrong [[(0, 7)]] [(1, 1)] (by simp), ?_⟩
  simp [globalAverage, blockAverage]

/-! ### Examples -/

section Examples

/-- a loop that halves the distance of the number `s` to the prescribed number, and counts the steps -/
def halve : Ops ℚ ℚ ℕ ℚ ℚ where
  advance := fun ω b s => s + ω * (b - s)
  readVelocity := fun s => s
  readDensity := fun _ => 0
  residuum := fun b v => some |b - v|

/-- 12 steps suffice for a thousandth, checked every 4 -/
example : (run halve (1 / 2) (1 / 1000) 100 4 ⟨0, 1, 0, 0, none⟩).1 = .ok (1 / 4096, 12) := by decide +kernel
/-- not with at most 11 steps; the velocity is restored, the populations are those after 8 steps -/
example : let r := run halve (1 / 2) (1 / 1000) 11 4 ⟨0, 1, 0, 0, none⟩
    r.1 = .error .valueError ∧ r.2.velocity = 1 ∧ r.2.pdfs = 255 / 256 := by decide +kernel
/-- with at most 3 steps the assertion fails -/
example : (run halve (1 / 2) (1 / 1000) 3 4 ⟨0, 1, 0, 0, none⟩).1 = .error .assertion := by decide +kernel
/-- the rate 1 of the second call would need a single check -/
example : let w1 := (run halve (1 / 2) 1 1 1 ⟨0, 1, 0, 0, none⟩).2
    (run halve 1 (1 / 1000) 100 1 { w1 with velocity := 1 }).1 ≠ (run halve 1 (1 / 1000) 100 1 { w1 with
      velocity := 1, kernel := none }).1 := by decide +kernel

/-- three velocities in one dimension, moments 1, x, x², incompressible -/
noncomputable def exampleParts (force : Option (ForceKind × (Fin 1 → ℝ))) : Parts ℝ (Fin 3) 3 1 where
  cq := ⟨false, false, 1, force⟩
  c := fun q _ => ![0, 1, -1] q
  w := ![2 / 3, 1 / 6, 1 / 6]
  meqOf := fun x j => ![x.rho, x.u 0, x.rho / 3] j
  eq := fun _ _ _ => 0
  heRaw := fun _ _ _ => 0
  heEq := fun _ _ => 0
  shiftDensity := 1

noncomputable def exampleMethod : MomentMethod ℝ (Fin 3) 3 where
  relax := [(0, 0), (1, 0), (2, 3 / 2)]
  ev := fun j q => ![0, 1, -1] q ^ j.val
  meq := fun _ _ => 0
  zeroCentered := false
  deviationOnly := false
  background := none
  momentSpace := false
  force := none

theorem exampleHydro (force) :
    Hydrodynamic exampleMethod rfl (exampleParts force).c (exampleParts force).meqOf (exampleParts force).cq 0
      (fun _ => 1) where
  storage := rfl
  delta := by intro h; cases h
  evMass := by intro q; simp [exampleMethod, MomentMethod.moment]
  evMom := by intro a q; simp [exampleMethod, MomentMethod.moment, exampleParts]
  eqMass := by intro x _; simp [exampleMethod, exampleParts, MomentMethod.moment]
  eqMom := by
    intro x a
    have : a = 0 := Subsingleton.elim _ _
    subst this
    simp [exampleMethod, exampleParts, MomentMethod.moment, Cqc.reference]
  bgMass := by intro b hb; cases hb
  bgMom := by intro b hb; cases hb

theorem exampleDet (m : MomentMethod ℝ (Fin 3) 3) (h : m.relax.length = 3) (hm : ∀ j, m.moment h j = j)
    (he : m.ev = exampleMethod.ev) : (m.matrix h).det = 2 := by
  rw [Matrix.det_fin_three]
  simp only [MomentMethod.matrix, hm, he, exampleMethod]
  norm_num [show (![0, 1, -1] : Fin 3 → ℝ) 2 = -1 from rfl]

theorem exampleRule (force) (ω : ℝ) (vel : Fin 1 → ℝ) : ∃ r, rule (exampleParts force) exampleMethod [1] ω vel = .ok r := by
  unfold rule
  have e : exampleMethod.setFirstRate [1] ω = .ok { exampleMethod with relax := [(0, 0), (1, ω), (2, 3 / 2)] } := by
    simp [MomentMethod.setFirstRate, exampleMethod, MomentMethod.dictSet]
  rw [e]
  simp only [Bind.bind, Except.bind]
  rw [dif_pos (by rfl)]
  refine (MomentMethod.C19_defined_iff _ _ true).2 ⟨⟨rfl, ?_⟩, ?_⟩
  · refine ne_of_eq_of_ne (exampleDet _ _ ?_ ?_) two_ne_zero
    · intro j; fin_cases j <;> rfl
    · rfl
  · intro hz; cases hz

/-- without force a uniform flow in a channel of four cells converges to velocity 1/10 -/
example : ∃ r, rule (exampleParts none) exampleMethod [1] (4 / 5) (fun _ => 1 / 10) = .ok r ∧
    Tendsto (fun n => velocityOf (exampleParts none)
      ((step (G := ZMod 4) ![0, 1, -1] fun _ => r)^[n] (fun _ => ![1 / 2, 1 / 4, 1 / 4]) 2) 0) atTop (𝓝 (1 / 10)) := by
  obtain ⟨r, hr⟩ := exampleRule none (4 / 5) (fun _ => 1 / 10)
  refine ⟨r, hr, ?_⟩
  exact C89_converges (exampleHydro none) (fun _ => by simp [exampleMethod, MomentMethod.moment]) hr ![0, 1, -1] rfl
    (by norm_num) (by norm_num) _ (by simp [exampleParts, Cqc.reference]) 2 0

/-- different velocities in four cells: mass is conserved, the momentum tends to the prescribed one -/
example (vel : ZMod 4 → Fin 1 → ℝ) (f : ZMod 4 → Fin 3 → ℝ) : ∃ r, Rules (exampleParts none) exampleMethod [1] (4 / 5) vel r ∧
    (∑ x, ∑ q, (step ![0, 1, -1] r)^[7] f x q = ∑ x, ∑ q, f x q) ∧
    (∑ x, ∑ q, (step ![0, 1, -1] r)^[7] f x q * (exampleParts none).c q 0) - (exampleParts none).cq.rho0 * ∑ x, vel x 0 =
      (1 - 4 / 5) ^ 7 * ((∑ x, ∑ q, f x q * (exampleParts none).c q 0) - (exampleParts none).cq.rho0 * ∑ x, vel x 0) := by
  choose r hr using fun x => exampleRule none (4 / 5) (vel x)
  have hx : ∀ a : Fin 1, exampleMethod.moment rfl ((fun _ => 1 : Fin 1 → Fin 3) a) ∈ [(1 : Fin 3)] := fun _ => by
    simp [exampleMethod, MomentMethod.moment]
  exact ⟨r, hr, C89_mass (exampleHydro none) hx vel r hr _ (fun k F h => by cases h) 7 f,
    C89_momentum (exampleHydro none) hx rfl rfl vel r hr _ 7 f 0⟩

/-- with the simple force 1/1000 and rate 4/5 the velocity exceeds the prescribed one by 1/800 -/
example : ∃ r, rule (exampleParts (some (.simple, fun _ => 1 / 1000))) exampleMethod [1] (4 / 5) (fun _ => 1 / 10) = .ok r ∧
    Tendsto (fun n => velocityOf (exampleParts (some (.simple, fun _ => 1 / 1000)))
      ((step (G := ZMod 4) ![0, 1, -1] fun _ => r)^[n] (fun _ => ![1 / 2, 1 / 4, 1 / 4]) 2) 0) atTop
      (𝓝 (1 / 10 + 1 / 800)) := by
  obtain ⟨r, hr⟩ := exampleRule (some (.simple, fun _ => 1 / 1000)) (4 / 5) (fun _ => 1 / 10)
  refine ⟨r, hr, ?_⟩
  have := (C89_force_wrong (G := ZMod 4) (exampleHydro _) (fun _ => by simp [exampleMethod, MomentMethod.moment]) hr ![0, 1, -1]
    .simple (fun _ => 1 / 1000) rfl (fun f => ?_) (by norm_num) (by norm_num) (![1 / 2, 1 / 4, 1 / 4])
    (by simp [exampleParts, Cqc.reference]) (by simp [exampleParts, Cqc.reference]) 2 0).1
  · have e : (1 : ℝ) / 10 + (if shiftsEquilibrium .simple then 1 / (4 / 5 : ℝ) - 1 / 2 else 1 / (4 / 5)) * (1 / 1000) /
        (exampleParts (some (.simple, fun _ => 1 / 1000))).cq.reference
          (densityOf (exampleParts (some (.simple, fun _ => 1 / 1000))).cq ![1 / 2, 1 / 4, 1 / 4]) = 1 / 10 + 1 / 800 := by
      simp [shiftsEquilibrium, exampleParts, Cqc.reference]
      norm_num
    rw [e] at this
    exact this
  · refine ⟨by simp, ⟨⟨?_, ?_, ?_, ?_⟩, ?_, by simp, by simp⟩, ⟨?_, by simp⟩, fun a => ⟨?_, by simp⟩⟩
    · simp [forceInput, exampleParts, Fin.sum_univ_three]; norm_num
    · intro a; simp [forceInput, exampleParts, Fin.sum_univ_three]
    · intro a b
      have : a = b := Subsingleton.elim _ _
      simp [forceInput, exampleParts, Fin.sum_univ_three, Spec.δ, this]; norm_num
    · intro a b d; simp [forceInput, exampleParts, Fin.sum_univ_three]
    · show (exampleMethod.matrix rfl).det ≠ 0
      rw [exampleDet exampleMethod rfl (by intro j; fin_cases j <;> rfl) rfl]; norm_num
    · intro q; simp [forceInput, exampleMethod, MomentMethod.matrix, MomentMethod.moment]
    · intro q; simp [forceInput, exampleMethod, MomentMethod.matrix, MomentMethod.moment, exampleParts]

end Examples

end IterativeInit
end Lbm
