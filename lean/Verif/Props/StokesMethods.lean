import Verif.Props.Stokes

/-!
# C110: methods of the creation functions in domains with walls
-/

set_option linter.unusedSectionVars false

namespace Lbm
namespace Stokes

open Spec (Domain alternating momentum StokesCollision vel channel periodicBox)
open Simulation (SetUp Step Pdfs Order exists_setUp)
open Poiseuille (lattice dirs lattice_ok7 weightVec_inv linear_rule C106_exists channel_closed)
open Decay (weight_pos weight_one collideStream_congr periodicBox_closed)
open Filter Topology

section Methods
variable {e : String × String × List (List ℤ)}

/-- C110. The weights of the stencils with 9, 15, 19 and 27 directions. -/
theorem C110_lattice (he : e ∈ Tables.predefined) (hQ : e.2.2.length ∈ [9, 15, 19, 27]) {ws : List ℚ}
    (hws : getWeights e.2.2 = some ws) (inv : Fin e.2.2.length → Fin e.2.2.length) (hinv : ∀ i, dirs e.2.2 (inv i) = -dirs e.2.2 i) :
    Lattice (dirs e.2.2) (weightVec e.2.2 ws) inv := by
  obtain ⟨hvl, -, -⟩ := lattice_ok7 e he (List.mem_cons_of_mem _ hQ)
  obtain ⟨-, h3, -⟩ := C20_weights_isotropic (K := ℝ) e he ws hws
  refine ⟨fun q => hvl (by show dirs _ _ = dirs _ _; rw [hinv, hinv, neg_neg]), hinv, weight_pos he hQ hws,
    fun i => weightVec_inv he ws hws i (inv i) (hinv i), weight_one he hws, fun a b => ?_⟩
  refine (h3.m2 a b).trans ?_
  unfold Spec.δ
  by_cases hab : a = b <;> simp [hab]

/-- C110. `create_trt` with an incompressible equilibrium of first order and the force model `Simple` is Stokes flow with a force. -/
theorem C110_trt (he : e ∈ Tables.predefined) (hQ : e.2.2.length ∈ [9, 15, 19, 27]) (ps ps' : List PExpr)
    (hps : ps ∈ defaultMomentSet (e.2.2.headD []).length e.2.2.length) (hperm : ps'.Perm ps) (ωe ωo : ℝ)
    (o : MaxwellOptions ℝ e.2.2) (hrel : o.relax = trtRates ps' ωe ωo) (cq : Cqc ℝ (e.2.2.headD []).length) (hv : o.Valid cq)
    (ho : o.order.getD 4 ≤ 1) (hz : cq.zeroCentered = o.deviationOnly) (h : (o.method cq).relax.length = e.2.2.length)
    (hcomp : cq.compressible = false) (F : Fin (e.2.2.headD []).length → ℝ) (hcq : cq.force = some (.simple, F))
    (inv : Fin e.2.2.length → Fin e.2.2.length) (hinv : ∀ i, dirs e.2.2 (inv i) = -dirs e.2.2 i) :
    ∃ r C, ((o.withForce cq h .simple F).method cq).getCollisionRule = .ok r ∧
      StokesCollision (dirs e.2.2) (weightVec e.2.2 o.weights) inv ωe ωo C ∧
      ∀ f i, r f i = C f i + 3 * weightVec e.2.2 o.weights i * ∑ a, (dirs e.2.2 i a : ℝ) * F a := by
  have H := C110_lattice he hQ hv.weights inv hinv
  obtain ⟨r, hr, hlin⟩ := linear_rule he hQ ps ps' hps hperm ωe ωo o hrel cq hv ho hz h F hcq inv hinv
  obtain ⟨w, hw⟩ : ∃ w, w = weightVec (K := ℝ) e.2.2 o.weights := ⟨_, rfl⟩
  rw [← hw] at H hlin ⊢
  have hdot : ∀ (q : Fin e.2.2.length) (g : Fin (e.2.2.headD []).length → ℝ), Spec.dot (vel e.2.2 _ q) g = ∑ a, (dirs e.2.2 q a : ℝ) * g a :=
    fun _ _ => rfl
  have hmom : ∀ (f : Fin e.2.2.length → ℝ), (fun a => ∑ i, f i * vel e.2.2 (e.2.2.headD []).length i a) =
      fun a => momentum (dirs e.2.2) a f := fun f => funext fun a => Finset.sum_congr rfl fun i _ => mul_comm _ _
  refine ⟨r, fun f i => r f i - 3 * w i * ∑ a, (dirs e.2.2 i a : ℝ) * F a, hr, fun f i => ?_, fun f i => by ring⟩
  have h1 := hlin f (fun h' => by rw [hcomp] at h'; cases h')
  simp only [hdot, hmom] at h1
  simp only [h1, H.even, H.inv2, H.opp, Pi.neg_apply, Int.cast_neg, neg_mul, Finset.sum_neg_distrib]
  constructor <;> ring

/-- C110. `UBB` with an incompressible method: what arrives, plus something that does not depend on the populations. -/
theorem C110_ubb {D : ℕ} {S : Stencil D} (hv : S.Valid) {inv : Fin S.Q → Fin S.Q} (hinv : ∀ i, S.c (inv i) = -S.c i)
    (w : Fin S.Q → ℝ) (density : Option ℝ) (bg : ℝ) (u : Vec D → Fin S.Q → Fin D → ℝ) (x : Vec D) (i j : Fin S.Q)
    (hij : S.c i = -S.c j) (f f' : Vec D → Fin S.Q → ℝ) :
    ubbRule w false density bg u x j f f' = f x (inv i) + -ubbVelTerm w (u x (inv i)) (inv i) := by
  have e1 : inv i = j := hv (by rw [hinv, hij, neg_neg])
  subst e1
  unfold ubbRule ubbDensity
  simp only [Bool.false_eq_true, if_false]
  ring

/-- C110. Momentum in collisions of methods without force, for equilibria of all orders. -/
theorem C110_momentum {K : Type} [Field K] [CharZero K] [DecidableEq K] (he : e ∈ Tables.predefined)
    (o : MaxwellOptions K e.2.2) (cq : Cqc K (e.2.2.headD []).length) (hv : o.Valid cq)
    (h : (o.method cq).relax.length = e.2.2.length) (hforce : o.force = none) (hcq : cq.force = none) :
    ∃ r, (o.method cq).getCollisionRule = .ok r ∧ ∀ f, cq.reference (cq.equilibriumInput (vel e.2.2 _) f).rho ≠ 0 →
      ∀ b, momentum (dirs e.2.2) b (r f) = momentum (dirs e.2.2) b f := by
  have hw := MaxwellOptions.wellFormed he o cq hv
  obtain ⟨r, hr⟩ := (MomentMethod.C19_defined_iff (o.method cq) (MomentMethod.effectiveRates _ none) true).2 hw
  obtain ⟨i0, i, H, -⟩ := MaxwellOptions.hydrodynamic he o cq hv h
  refine ⟨r, hr, fun f hrho b => ?_⟩
  have hm : ∀ g : Fin e.2.2.length → K, Spec.mom ((o.method cq).ev ((o.method cq).moment h (i b))) g = momentum (dirs e.2.2) b g :=
    fun g => (H.momentum g b).trans (Finset.sum_congr rfl fun q _ => mul_comm _ _)
  have key := MomentMethod.C19_conservation (o.method cq) _ true r hr h f (i b) (Or.inr hforce) (Or.inr ?_)
  · rw [hm, hm] at key; exact key
  rw [H.bg_mom, add_zero, H.momentum]
  have e1 : (o.method cq).meq f ((o.method cq).moment h (i b)) =
      o.meqOf cq.compressible (cq.equilibriumInput (vel e.2.2 _) f) ((o.method cq).moment h (i b)) := rfl
  rw [e1, H.eqMom]
  obtain ⟨x, hx⟩ : ∃ x, x = cq.equilibriumInput (vel e.2.2 _) f := ⟨_, rfl⟩
  rw [← hx] at hrho ⊢
  have hxu : x.u b = (∑ q, f q * vel e.2.2 _ q b) / cq.reference x.rho := by
    rw [hx]; unfold Cqc.equilibriumInput; rw [hcq]
  rw [hxu]
  field_simp

/-- C110. Incompressible methods without force, equilibria of all orders, all moment sets and rates, no-slip walls anywhere: the momentum
with alternating signs along `b` only changes its sign; unless it is zero, the simulation never becomes steady. -/
theorem C110_methods (he : e ∈ Tables.predefined) (hQ : e.2.2.length ∈ [7, 9, 15, 19, 27])
    (o : MaxwellOptions ℝ e.2.2) (cq : Cqc ℝ (e.2.2.headD []).length) (hv : o.Valid cq)
    (h : (o.method cq).relax.length = e.2.2.length) (hforce : o.force = none) (hcq : cq.force = none)
    (hcomp : cq.compressible = false) (inv : Fin e.2.2.length → Fin e.2.2.length) (hinv : ∀ i, dirs e.2.2 (inv i) = -dirs e.2.2 i)
    (d : Domain (e.2.2.headD []).length) (hcl : d.Closed (dirs e.2.2)) (b : Fin (e.2.2.headD []).length)
    (heven : d.periodic b = true → Even (d.size b)) (A : Finset (Vec (e.2.2.headD []).length)) (hA : ∀ x, x ∈ A ↔ x ∈ d.fluid)
    (p : Step (lattice e.2.2) ℝ) (hp : SetUp d (fun _ i f => f (inv i)) p)
    (hr : ∀ x, (o.method cq).getCollisionRule = .ok (p.collide x)) (order : Order)
    (s : Pdfs (e.2.2.headD []).length e.2.2.length ℝ × Pdfs (e.2.2.headD []).length e.2.2.length ℝ) :
    ∃ t : ℕ → Pdfs (e.2.2.headD []).length e.2.2.length ℝ × Pdfs (e.2.2.headD []).length e.2.2.length ℝ,
      (∀ n, p.steps "pull" order n s = some (t n)) ∧
      (∀ n, ∑ x ∈ A, alternating ℝ b x * momentum (dirs e.2.2) b (fun i => (t n).1 (x, i)) =
        (-1) ^ n * ∑ x ∈ A, alternating ℝ b x * momentum (dirs e.2.2) b fun i => s.1 (x, i)) ∧
      (∑ x ∈ A, alternating ℝ b x * momentum (dirs e.2.2) b (fun i => s.1 (x, i)) ≠ 0 →
        ∀ z : Vec (e.2.2.headD []).length → Fin e.2.2.length → ℝ,
          ¬ ∀ x ∈ d.fluid, ∀ i, Tendsto (fun n => (t n).1 (x, i)) atTop (𝓝 (z x i))) := by
  obtain ⟨hvl, -, hc1⟩ := lattice_ok7 e he hQ
  obtain ⟨r, hr', hmom⟩ := C110_momentum he o cq hv h hforce hcq
  have hC : ∀ x ∈ d.fluid, ∀ f, momentum (dirs e.2.2) b (p.collide x f) = momentum (dirs e.2.2) b f := by
    intro x _ f
    have := hr x
    rw [hr'] at this
    rw [← Except.ok.inj this]
    refine hmom f ?_ b
    simp [Cqc.reference, hcomp, hv.rho0]
  have hodd : ∀ i, dirs e.2.2 i b = 0 ∨ Odd (dirs e.2.2 i b) := by
    intro i
    rcases hc1 i b with h | h | h
    · exact Or.inr (by rw [h]; decide)
    · exact Or.inl h
    · exact Or.inr (by rw [h]; decide)
  choose t h1 h2 using fun n => C110_alternating (S := lattice e.2.2) (A := A) hvl hcl hinv hA hodd heven hp hC order n s
  exact ⟨t, h1, h2, fun hs z => C110_never_steady (S := lattice e.2.2) (A := A) hvl hcl hinv hA hodd heven hp hC order s hs t h1 z⟩

/-- C110. Flow between plates at rest, driven by a force along the plates: there is a steady flow, and from any initial state the
populations of a simulation never get farther from it than they were at first. -/
theorem C110_poiseuille (he : e ∈ Tables.predefined) (hQ : e.2.2.length ∈ [9, 15, 19, 27]) (ps ps' : List PExpr)
    (hps : ps ∈ defaultMomentSet (e.2.2.headD []).length e.2.2.length) (hperm : ps'.Perm ps) (ωe ωo : ℝ)
    (h2 : 0 ≤ ωe ∧ ωe < 2) (hq : 0 < ωo ∧ ωo ≤ 2)
    (o : MaxwellOptions ℝ e.2.2) (hrel : o.relax = trtRates ps' ωe ωo) (cq : Cqc ℝ (e.2.2.headD []).length) (hv : o.Valid cq)
    (ho : o.order.getD 4 ≤ 1) (hz : cq.zeroCentered = o.deviationOnly) (h : (o.method cq).relax.length = e.2.2.length)
    (hcomp : cq.compressible = false)
    (F : Fin (e.2.2.headD []).length → ℝ) (hcq : cq.force = some (.simple, F)) (a b : Fin (e.2.2.headD []).length) (hab : a ≠ b)
    (hF : ∀ d, d ≠ a → F d = 0)
    (inv : Fin e.2.2.length → Fin e.2.2.length) (hinv : ∀ i, dirs e.2.2 (inv i) = -dirs e.2.2 i)
    (size : Fin (e.2.2.headD []).length → ℕ) (ρ : ℝ) :
    ∃ r, ((o.withForce cq h .simple F).method cq).getCollisionRule = .ok r ∧
      ∃ g : Vec (e.2.2.headD []).length → Fin e.2.2.length → ℝ, (∀ x, ∑ i, g x i = ρ) ∧
        (∀ x ∈ (channel size b).fluid,
          (channel size b).collideStream (dirs e.2.2) (fun _ i f => f (inv i)) (fun _ => r) g x = g x) ∧
        ∀ (A : Finset (Vec (e.2.2.headD []).length)), (∀ x, x ∈ A ↔ x ∈ (channel size b).fluid) →
        ∀ (p : Step (lattice e.2.2) ℝ), SetUp (channel size b) (fun _ i f => f (inv i)) p → (∀ x, p.collide x = r) →
        ∀ (s : Pdfs (e.2.2.headD []).length e.2.2.length ℝ × Pdfs (e.2.2.headD []).length e.2.2.length ℝ) (n : ℕ),
          ∃ t, p.steps "pull" .collideStream n s = some t ∧ ∀ x ∈ (channel size b).fluid, ∀ i,
            |t.1 (x, i) - g x i| ≤ √(weightVec e.2.2 o.weights i *
              distance (S := lattice e.2.2) (weightVec e.2.2 o.weights) A (fun x i => s.1 (x, i)) g) := by
  obtain ⟨hvl, hcl, hc1⟩ := lattice_ok7 e he (List.mem_cons_of_mem _ hQ)
  obtain ⟨r, hr, g, -, hρ, -, hg⟩ := C106_exists he hQ ps ps' hps hperm ωe ωo h2.2.ne hq.1.ne' o hrel cq hv ho hz h F hcq a b hab hF
    inv hinv size ρ (fun h' => by rw [hcomp] at h'; cases h')
  obtain ⟨r', C, hr', hC, hrC⟩ := C110_trt he hQ ps ps' hps hperm ωe ωo o hrel cq hv ho hz h hcomp F hcq inv hinv
  obtain rfl : r = r' := by rw [hr] at hr'; exact Except.ok.inj hr'
  refine ⟨r, hr, g, hρ, hg, fun A hA p hp hpr s n => ?_⟩
  have hd : (channel size b).Closed (dirs e.2.2) := channel_closed size b (dirs e.2.2)
  have hp0 : SetUp (S := lattice e.2.2) (channel size b) (fun x i f => f (inv i) + (fun _ _ => (0 : ℝ)) x i) p := by
    simpa only [add_zero] using hp
  obtain ⟨t, t', k1, k2, k3⟩ := C110_bounded (S := lattice e.2.2) (A := A) hvl hd (C110_lattice he hQ hv.weights inv hinv) hC
    ⟨h2.1, h2.2.le⟩ ⟨hq.1.le, hq.2⟩ (fun _ _ => 0) (fun _ i => 3 * weightVec e.2.2 o.weights i * ∑ a, (dirs e.2.2 i a : ℝ) * F a) hA
    (fun x _ f i => by rw [hpr]; exact hrC f i) hp0 .collideStream s (fun q => g q.1 q.2, fun _ => 0) n
  refine ⟨t, k1, fun x hx i => ?_⟩
  obtain ⟨t'', l1, l2⟩ := Simulation.C105_collide_stream hvl hcl hd hp "pull" n
    ((fun q => g q.1 q.2, fun _ => 0) : Pdfs (e.2.2.headD []).length e.2.2.length ℝ × Pdfs (e.2.2.headD []).length e.2.2.length ℝ)
  obtain rfl : t' = t'' := by
    have := k2.symm.trans l1
    exact Option.some.inj this
  have hcoll : p.collide = fun _ => r := funext hpr
  have fix : ∀ n, ∀ x ∈ (channel size b).fluid, ((channel size b).collideStream (dirs e.2.2) (fun _ i f => f (inv i)) p.collide)^[n] g x =
      g x := by
    intro n
    induction n with
    | zero => intro x _; rfl
    | succ n ih =>
      intro x hx
      rw [Function.iterate_succ_apply']
      refine (collideStream_congr (S := lattice e.2.2) hd ih x hx).trans ?_
      rw [hcoll]
      exact hg x hx
  have e1 : t'.1 (x, i) = g x i := by
    have := congrFun (l2 x hx) i
    refine this.trans ?_
    exact congrFun (fix n x hx) i
  have := k3 x hx i
  rw [e1] at this
  exact this

end Methods

/-! ### Examples -/

namespace Example
open Poiseuille.Example (st inv)
open Decay.Example (he hps hinv)
open Poiseuille (mem_fluid)

/-- `create_trt` with rates 1 and 3/4, equilibrium of the given order, zero centered -/
noncomputable def o (order : ℕ) : MaxwellOptions ℝ st where
  relax := trtRates ((defaultMomentSet 2 9).getD []) 1 (3 / 4)
  weights := (getWeights st).getD []
  order := some order
  deviationOnly := true
  momentSpace := false
  force := none

noncomputable def F : Fin (st.headD []).length → ℝ := fun a => if a.val = 0 then 1 / 1000 else 0

/-- incompressible, zero centered -/
noncomputable def cq (force : Option (ForceKind × (Fin (st.headD []).length → ℝ))) : Cqc ℝ (st.headD []).length :=
  ⟨false, true, 1, force⟩

theorem valid (n : ℕ) (force : Option (ForceKind × (Fin (st.headD []).length → ℝ))) : (o n).Valid (cq force) where
  offered := Or.inl ⟨(defaultMomentSet 2 9).getD [], by decide +kernel, by
    show ((trtRates _ _ _).map Prod.fst).Perm _
    unfold trtRates; rw [List.map_map]; exact List.Perm.of_eq (List.map_id' _)⟩
  weights := by
    show getWeights st = some ((getWeights st).getD [])
    decide +kernel
  rho0 := rfl
  delta := fun _ => rfl
  transform := fun _ h => absurd h (by show ¬ (true = false); decide)
  order := Or.inr (by decide)

theorem len (n : ℕ) (cq : Cqc ℝ (st.headD []).length) : ((o n).method cq).relax.length = st.length := by
  show (trtRates _ _ _).length = _
  unfold trtRates
  rw [List.length_map]
  decide +kernel

/-- size of the channel -/
def size : Fin (st.headD []).length → ℕ := fun d => if d.val = 0 then 2 else 3

/-- A channel of 2 x 3 cells with no-slip walls, nonlinear equilibrium, at first one population differs from those of the rest
state: this flow never becomes steady. -/
example (order : Order) : ∃ p : Step (lattice st) ℝ, ∃ t : ℕ → Pdfs (st.headD []).length st.length ℝ × Pdfs (st.headD []).length st.length ℝ,
    (∀ x, ((o 2).method (cq none)).getCollisionRule = .ok (p.collide x)) ∧
    (∀ n, p.steps "pull" order n (fun q => if q.1 = 0 ∧ q.2.val = 1 then 1 else 0, fun _ => 0) = some (t n)) ∧
    ∀ z : Vec (st.headD []).length → Fin st.length → ℝ,
      ¬ ∀ x ∈ (channel size ⟨1, by decide⟩).fluid, ∀ i, Tendsto (fun n => (t n).1 (x, i)) atTop (𝓝 (z x i)) := by
  obtain ⟨r, hr, -⟩ := C110_momentum he (o 2) (cq none) (valid 2 none) (len 2 _) rfl rfl
  obtain ⟨hv, hc, -⟩ := lattice_ok7 _ he (by decide)
  obtain ⟨p, hC, hp⟩ := exists_setUp (S := lattice st) (channel size ⟨1, by decide⟩) (fun _ i f => f (inv i)) (fun _ => r) hv hc
  have hpr : ∀ x, ((o 2).method (cq none)).getCollisionRule = .ok (p.collide x) := fun x => by rw [hC]; exact hr
  have hA : ∀ x, x ∈ (Fintype.piFinset fun k => Finset.Ico (0 : ℤ) (size k)) ↔ x ∈ (channel size ⟨1, by decide⟩).fluid := by
    intro x
    rw [mem_fluid]
    simp
  obtain ⟨t, h1, -, h3⟩ := C110_methods he (by decide) (o 2) (cq none) (valid 2 none) (len 2 _) rfl rfl rfl inv hinv _
    (channel_closed size ⟨1, by decide⟩ _) ⟨0, by decide⟩ (fun _ => ⟨1, rfl⟩) _ hA p hp hpr order
    (fun q => if q.1 = 0 ∧ q.2.val = 1 then 1 else 0, fun _ => 0)
  refine ⟨p, t, hpr, h1, h3 ?_⟩
  have h0 : (0 : Vec (st.headD []).length) ∈ Fintype.piFinset fun k => Finset.Ico (0 : ℤ) (size k) := by
    rw [Fintype.mem_piFinset]; decide
  rw [Finset.sum_eq_single 0 _ fun h => absurd h0 h]
  · have h4 : dirs st ⟨1, by decide⟩ ⟨0, by decide⟩ = 1 := by decide +kernel
    simp only [momentum, true_and]
    rw [Finset.sum_eq_single ⟨1, by decide⟩]
    · simp only [h4]
      simp [alternating]
    · intro i _ hi
      rw [if_neg fun h => hi (Fin.ext h), mul_zero]
    · simp
  · intro x _ hx
    simp [momentum, hx]

/-- A channel of 2 x 3 cells with a force along the plates: a simulation from the rest state stays in bounds around the steady flow. -/
example : ∃ r, ∃ g : Vec (st.headD []).length → Fin st.length → ℝ,
    (((o 1).withForce (cq (some (.simple, F))) (len 1 _) .simple F).method (cq (some (.simple, F)))).getCollisionRule = .ok r ∧
    (∀ x ∈ (channel size ⟨1, by decide⟩).fluid,
      (channel size ⟨1, by decide⟩).collideStream (dirs st) (fun _ i f => f (inv i)) (fun _ => r) g x = g x) ∧
    ∃ p : Step (lattice st) ℝ, ∃ B : ℝ, (∀ x, p.collide x = r) ∧ ∀ n, ∃ t, p.steps "pull" .collideStream n (fun _ => 0, fun _ => 0) = some t ∧
      ∀ x ∈ (channel size ⟨1, by decide⟩).fluid, ∀ i, |t.1 (x, i) - g x i| ≤ √(weightVec st (o 1).weights i * B) := by
  obtain ⟨r, hr, g, -, hg, h⟩ := C110_poiseuille he (by decide) _ _ hps (List.Perm.refl _) 1 (3 / 4) (by norm_num) (by norm_num)
    (o 1) rfl (cq (some (.simple, F))) (valid 1 _) (by show 1 ≤ 1; decide) rfl (len 1 _) rfl F rfl ⟨0, by decide⟩ ⟨1, by decide⟩ (by decide)
    (by
      intro d hd
      unfold F
      rw [if_neg fun h => hd (Fin.ext h)]) inv hinv size 0
  obtain ⟨hv, hc, -⟩ := lattice_ok7 _ he (by decide)
  obtain ⟨p, hC, hp⟩ := exists_setUp (S := lattice st) (channel size ⟨1, by decide⟩) (fun _ i f => f (inv i)) (fun _ => r) hv hc
  have hpr : ∀ x, p.collide x = r := fun x => by rw [hC]
  refine ⟨r, g, hr, hg, p, _, hpr, h (Fintype.piFinset fun k => Finset.Ico (0 : ℤ) (size k)) ?_ p hp hpr _⟩
  intro x
  rw [mem_fluid]
  simp

end Example

end Stokes
end Lbm
