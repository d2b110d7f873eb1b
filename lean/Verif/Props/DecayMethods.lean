import Verif.Props.DecaySimulation
import Mathlib.Analysis.SpecificLimits.Basic

/-!
# C109: diffusion with `create_trt`, plates with given concentration, rates and stencils for which differences do not decay
-/

set_option linter.unusedSectionVars false

namespace Lbm
namespace Decay

open Spec (Domain Diffuses diffusionWalls deviation channel vel planeCouette periodicBox checkerboard)
open Simulation (SetUp Step Pdfs Order exists_setUp)
open Poiseuille (lattice dirs weightVec_inv rest_rule inputRule lattice_ok7 dirichletPlates plateValue channel_closed mem_fluid
  C108_profile C108_dirichlet C108_trt C108_exists)
open Filter Topology

/-- C109. Links with `DiffusionDirichlet` or `NoSlip` are walls with given concentration or walls that nothing passes. -/
theorem C109_rules {D : ℕ} {S : Stencil D} (hv : S.Valid) {w : Fin S.Q → ℝ} {inv : Fin S.Q → Fin S.Q}
    (hinv : ∀ i, S.c (inv i) = -S.c i) (hwi : ∀ i, w (inv i) = w i) (dirichlet : Vec D → Fin S.Q → Prop)
    [∀ x j, Decidable (dirichlet x j)] (conc : Vec D → Fin S.Q → ℝ) (x : Vec D) (i j : Fin S.Q) (f f' : Vec D → Fin S.Q → ℝ)
    (hij : S.c i = -S.c j) :
    (if dirichlet x j then diffusionDirichletRule w conc none x j f f' else noSlipRule x j f f') =
      diffusionWalls w inv (fun x i => dirichlet x (inv i)) (fun x i => conc x (inv i)) x i (f x) := by
  have e1 : inv i = j := hv (by rw [hinv, hij, neg_neg])
  subst e1
  by_cases h : dirichlet x (inv i)
  · simp only [diffusionWalls, if_pos h, diffusionDirichletRule, hwi, mul_one]
  · simp only [diffusionWalls, if_neg h, noSlipRule]

section Methods
variable {e : String × String × List (List ℤ)}

theorem weight_pos (he : e ∈ Tables.predefined) (hQ : e.2.2.length ∈ [9, 15, 19, 27]) {ws : List ℚ}
    (hws : getWeights e.2.2 = some ws) (i : Fin e.2.2.length) : 0 < weightVec (K := ℝ) e.2.2 ws i := by
  obtain ⟨hl, -, -⟩ := C20_weights_isotropic (K := ℝ) e he ws hws
  have h7 : e.2.2.length ≠ 7 := by
    intro h
    rw [h] at hQ
    exact absurd hQ (by decide)
  have hp := ((C20_weights_elementary e he).2 ws hws).2.1 h7
  have hi : i.val < ws.length := by rw [hl]; exact i.isLt
  have : (0 : ℚ) < ws.getD i.val 0 := by
    rw [List.getD_eq_getElem _ _ hi]
    exact hp _ (List.getElem_mem hi)
  unfold weightVec
  exact_mod_cast this

theorem weight_one (he : e ∈ Tables.predefined) {ws : List ℚ} (hws : getWeights e.2.2 = some ws) :
    ∑ i, weightVec (K := ℝ) e.2.2 ws i = 1 := (C20_weights_isotropic (K := ℝ) e he ws hws).2.1.m0

/-- C109. `create_trt` with `velocity_input` zero is diffusion: even parts relax with the even rate to the weights times the
concentration, odd parts with the odd rate to zero; for the stencils with 9, 15, 19 and 27 directions the weights are positive. -/
theorem C109_trt (he : e ∈ Tables.predefined) (hQ : e.2.2.length ∈ [9, 15, 19, 27]) (ps ps' : List PExpr)
    (hps : ps ∈ defaultMomentSet (e.2.2.headD []).length e.2.2.length) (hperm : ps'.Perm ps) (ωe ωo : ℝ)
    (o : MaxwellOptions ℝ e.2.2) (hrel : o.relax = trtRates ps' ωe ωo) (cq : Cqc ℝ (e.2.2.headD []).length)
    (hw : getWeights e.2.2 = some o.weights) (hforce : o.force = none) (hz : cq.zeroCentered = false)
    (hd : o.deviationOnly = false) (inv : Fin e.2.2.length → Fin e.2.2.length) (hinv : ∀ i, dirs e.2.2 (inv i) = -dirs e.2.2 i) :
    ∃ r, inputRule o cq none (some fun _ => 0) = .ok r ∧
      Diffuses (weightVec e.2.2 o.weights) inv ωe ωo r ∧
      ∀ d : Domain (e.2.2.headD []).length, d.Closed (dirs e.2.2) →
        System d (lattice e.2.2) (weightVec e.2.2 o.weights) inv ωe ωo fun _ => r := by
  have hQ7 : e.2.2.length ∈ [7, 9, 15, 19, 27] := List.mem_cons_of_mem _ hQ
  obtain ⟨hvl, -, -⟩ := lattice_ok7 e he hQ7
  obtain ⟨hinv2, r, hr, h⟩ := rest_rule he hvl ps ps' hps hperm ωe ωo o hrel cq hw hforce hz hd inv hinv
  have hwi : ∀ i, weightVec (K := ℝ) e.2.2 o.weights (inv i) = weightVec e.2.2 o.weights i := fun i =>
    weightVec_inv he o.weights hw i (inv i) (hinv i)
  have hdiff : Diffuses (weightVec e.2.2 o.weights) inv ωe ωo r := by
    intro f i
    rw [h, h, hinv2, hwi]
    constructor <;> ring
  exact ⟨r, hr, hdiff, fun d hcl => ⟨hvl, hcl, hinv, weight_pos he hQ hw, hwi, weight_one he hw, fun _ _ => hdiff⟩⟩

theorem rest_direction (he : e ∈ Tables.predefined) (hQ : e.2.2.length ∈ [9, 15, 19, 27]) :
    (∃ i : Fin e.2.2.length, dirs e.2.2 i = 0) ∧ ∀ b, ∃ i : Fin e.2.2.length, dirs e.2.2 i b = 1 := by
  have key : ∀ e ∈ Tables.predefined, decide (e.2.2.length ∈ [9, 15, 19, 27] →
    (∃ i : Fin e.2.2.length, dirs e.2.2 i = 0) ∧ ∀ b, ∃ i : Fin e.2.2.length, dirs e.2.2 i b = 1) = true := by decide +kernel
  exact of_decide_eq_true (key e he) hQ

/-- C109. `create_trt` at rest in a connected flow with walls that nothing passes, or without walls: the density that is reported in
every cell tends to the mean of the initial density. -/
theorem C109_trt_mean (he : e ∈ Tables.predefined) (hQ : e.2.2.length ∈ [9, 15, 19, 27]) (ps ps' : List PExpr)
    (hps : ps ∈ defaultMomentSet (e.2.2.headD []).length e.2.2.length) (hperm : ps'.Perm ps) (ωe ωo : ℝ)
    (h0 : 0 < ωe ∧ ωe < 2) (h1 : 0 < ωo ∧ ωo < 2)
    (o : MaxwellOptions ℝ e.2.2) (hrel : o.relax = trtRates ps' ωe ωo) (cq : Cqc ℝ (e.2.2.headD []).length)
    (hw : getWeights e.2.2 = some o.weights) (hforce : o.force = none) (hz : cq.zeroCentered = false)
    (hd : o.deviationOnly = false) (inv : Fin e.2.2.length → Fin e.2.2.length) (hinv : ∀ i, dirs e.2.2 (inv i) = -dirs e.2.2 i)
    (d : Domain (e.2.2.headD []).length) (hcl : d.Closed (dirs e.2.2))
    (hconn : ∀ x ∈ d.fluid, ∀ y ∈ d.fluid, d.Connected (dirs e.2.2) x y) (A : Finset (Vec (e.2.2.headD []).length))
    (hA : ∀ x, x ∈ A ↔ x ∈ d.fluid) (p : Step (lattice e.2.2) ℝ) (hp : SetUp d (fun _ i f => f (inv i)) p)
    (hr : ∀ x, inputRule o cq none (some fun _ => 0) = .ok (p.collide x)) (order : Order)
    (s : Pdfs (e.2.2.headD []).length e.2.2.length ℝ × Pdfs (e.2.2.headD []).length e.2.2.length ℝ) (csSq : ℝ) :
    ∃ t : ℕ → Pdfs (e.2.2.headD []).length e.2.2.length ℝ × Pdfs (e.2.2.headD []).length e.2.2.length ℝ,
      (∀ n, p.steps "pull" order n s = some (t n)) ∧ ∀ x ∈ d.fluid,
        Tendsto (fun n => (cq.output csSq (vel e.2.2 _) fun i => (t n).1 (x, i)).density) atTop
          (𝓝 ((∑ x ∈ A, (cq.output csSq (vel e.2.2 _) fun i => s.1 (x, i)).density) / A.card)) := by
  obtain ⟨r, hr', -, hS⟩ := C109_trt he hQ ps ps' hps hperm ωe ωo o hrel cq hw hforce hz hd inv hinv
  have hC : p.collide = fun _ => r := by
    funext x
    have := hr x
    rw [hr'] at this
    exact (Except.ok.inj this).symm
  obtain ⟨⟨i₀, hi₀⟩, -⟩ := rest_direction he hQ
  have hout : ∀ f : Fin e.2.2.length → ℝ, (cq.output csSq (vel e.2.2 _) f).density = ∑ i, f i := by
    intro f
    simp only [Cqc.output, hz]; simp
  simp only [hout]
  obtain ⟨t, h2, h3⟩ := C109_mean (hS d hcl) h0 h1 i₀ hi₀ hA hconn hC hp order s
  refine ⟨t, h2, fun x hx => ?_⟩
  have := tendsto_finsetSum Finset.univ fun i _ => h3 x hx i
  rw [← Finset.sum_mul] at this
  have h4 := weight_one (ws := o.weights) he hw
  rw [show ∑ i : Fin (lattice e.2.2).Q, weightVec (K := ℝ) e.2.2 o.weights i = 1 from h4, one_mul] at this
  exact this

theorem channel_reached (he : e ∈ Tables.predefined) (hQ : e.2.2.length ∈ [9, 15, 19, 27])
    (size : Fin (e.2.2.headD []).length → ℕ) (b : Fin (e.2.2.headD []).length) :
    Reached (channel size b) (lattice e.2.2) fun _ _ => True := by
  obtain ⟨-, h⟩ := rest_direction he hQ
  obtain ⟨i, hi⟩ := h b
  have key : ∀ n : ℕ, ∀ x ∈ (channel size b).fluid, x b = n → ∃ y i, (channel size b).Connected (lattice e.2.2).c x y ∧
      (channel size b).wall (y - (lattice e.2.2).c i) ∧ True := by
    intro n
    induction n with
    | zero =>
      intro x hx hn
      refine ⟨x, i, Relation.ReflTransGen.refl, Or.inl ?_, trivial⟩
      show x b - dirs e.2.2 i b < 0
      rw [hi, hn]; simp
    | succ n ih =>
      intro x hx hn
      have hxb := mem_fluid.1 hx b
      have hnw : ¬ (channel size b).wall (x - (lattice e.2.2).c i) := by
        rintro (h | h)
        · have h' : x b - dirs e.2.2 i b < 0 := h
          rw [hi, hn] at h'; push_cast at h'; omega
        · have h' : (size b : ℤ) ≤ x b - dirs e.2.2 i b := h
          rw [hi] at h'; omega
      obtain ⟨y, j, h1, h2⟩ := ih ((channel size b).image (x - (lattice e.2.2).c i))
        (image_fluid (S := lattice e.2.2) (channel_closed size b _) hx hnw) (by
          show (if (decide (b ≠ b)) = true then _ else x b - dirs e.2.2 i b) = _
          rw [if_neg (by simp), hi, hn]; push_cast; ring)
      exact ⟨y, j, Relation.ReflTransGen.head ⟨i, hnw, rfl⟩ h1, h2⟩
  intro x hx
  have hxb := mem_fluid.1 hx b
  exact key (x b).toNat x hx (by omega)

/-- the rules at the plates of C108 as walls with given concentration -/
theorem dirichletPlates_eq (ws : List ℚ) (he : e ∈ Tables.predefined) (hw : getWeights e.2.2 = some ws)
    (inv : Fin e.2.2.length → Fin e.2.2.length) (hinv : ∀ i, dirs e.2.2 (inv i) = -dirs e.2.2 i)
    (b : Fin (e.2.2.headD []).length) (C₀ C₁ : ℝ) :
    dirichletPlates e.2.2 ws inv b C₀ C₁ none =
      diffusionWalls (weightVec e.2.2 ws) inv (fun _ _ => True) fun _ i => plateValue e.2.2 b C₀ C₁ (inv i) := by
  funext x i f
  simp only [dirichletPlates, diffusionDirichletRule, diffusionWalls, if_true]
  rw [weightVec_inv he ws hw i (inv i) (hinv i), mul_one]

/-- C109. `create_trt` at rest between plates with `DiffusionDirichlet`, rates between 0 and 2: from every initial state, in both
orders, the density that is reported tends to the linear profile between the concentrations of the plates. -/
theorem C109_plates (he : e ∈ Tables.predefined) (hQ : e.2.2.length ∈ [9, 15, 19, 27]) (ps ps' : List PExpr)
    (hps : ps ∈ defaultMomentSet (e.2.2.headD []).length e.2.2.length) (hperm : ps'.Perm ps) (ωe ωo : ℝ)
    (h0 : 0 < ωe ∧ ωe < 2) (h1 : 0 < ωo ∧ ωo < 2)
    (o : MaxwellOptions ℝ e.2.2) (hrel : o.relax = trtRates ps' ωe ωo) (cq : Cqc ℝ (e.2.2.headD []).length)
    (hw : getWeights e.2.2 = some o.weights) (hforce : o.force = none) (hz : cq.zeroCentered = false)
    (hd : o.deviationOnly = false) (b : Fin (e.2.2.headD []).length)
    (size : Fin (e.2.2.headD []).length → ℕ) (hs : ∀ d, 0 < size d)
    (inv : Fin e.2.2.length → Fin e.2.2.length) (hinv : ∀ i, dirs e.2.2 (inv i) = -dirs e.2.2 i) (C₀ C₁ : ℝ)
    (p : Step (lattice e.2.2) ℝ) (hp : SetUp (channel size b) (dirichletPlates e.2.2 o.weights inv b C₀ C₁ none) p)
    (hr : ∀ x, inputRule o cq none (some fun _ => 0) = .ok (p.collide x)) (order : Order)
    (s : Pdfs (e.2.2.headD []).length e.2.2.length ℝ × Pdfs (e.2.2.headD []).length e.2.2.length ℝ) (csSq : ℝ) :
    ∃ t : ℕ → Pdfs (e.2.2.headD []).length e.2.2.length ℝ × Pdfs (e.2.2.headD []).length e.2.2.length ℝ,
      (∀ n, p.steps "pull" order n s = some (t n)) ∧ ∀ x ∈ (channel size b).fluid,
        Tendsto (fun n => (cq.output csSq (vel e.2.2 _) fun i => (t n).1 (x, i)).density) atTop
          (𝓝 (planeCouette C₀ C₁ (size b) (x b + 1 / 2))) := by
  classical
  have hQ7 : e.2.2.length ∈ [7, 9, 15, 19, 27] := List.mem_cons_of_mem _ hQ
  have h7 : e.2.2.length ≠ 7 := by
    intro h
    rw [h] at hQ
    exact absurd hQ (by decide)
  obtain ⟨hvl, -, hc1⟩ := lattice_ok7 e he hQ7
  obtain ⟨r, hr', hdiff, hS⟩ := C109_trt he hQ ps ps' hps hperm ωe ωo o hrel cq hw hforce hz hd inv hinv
  have hsys := hS (channel size b) (channel_closed size b _)
  have hC : p.collide = fun _ => r := by
    funext x
    have := hr x
    rw [hr'] at this
    exact (Except.ok.inj this).symm
  obtain ⟨r2, hr2, g, hrow, hg⟩ := C108_exists he hQ7 ps ps' hps hperm ωe ωo h1.1.ne' o hrel cq hw hforce hz hd b size (hs b) inv hinv C₀ C₁
  obtain rfl : r2 = r := by rw [hr'] at hr2; exact (Except.ok.inj hr2).symm
  obtain ⟨r3, hr3, hC3⟩ := C108_trt he hQ7 ps ps' hps hperm ωe ωo o hrel cq hw (Or.inr h7) hforce hz hd (fun _ => 0) b rfl
  obtain rfl : r3 = r2 := by rw [hr'] at hr3; exact (Except.ok.inj hr3).symm
  have prof := C108_profile hvl hinv (fun i => hc1 i b) hs (fun x _ y _ h => hrow x y h) (fun _ _ _ _ _ => rfl) hg C₀ C₁
    (fun x _ _ => (C108_dirichlet he hQ7 o.weights hw inv hinv b C₀ C₁ _ x).1.1)
    (fun x _ _ => (C108_dirichlet he hQ7 o.weights hw inv hinv b C₀ C₁ _ x).1.2)
    ωe ωo h0.1.ne' h1.1.ne' h1.2.ne (fun x _ => hC3 (g x))
  have hA : ∀ x, x ∈ (Fintype.piFinset fun k => Finset.Ico (0 : ℤ) (size k)) ↔ x ∈ (channel size b).fluid := by
    intro x
    rw [mem_fluid]
    simp
  obtain ⟨⟨i₀, hi₀⟩, -⟩ := rest_direction he hQ
  have hout : ∀ f : Fin e.2.2.length → ℝ, (cq.output csSq (vel e.2.2 _) f).density = ∑ i, f i := by
    intro f
    simp only [Cqc.output, hz]; simp
  simp only [hout]
  rw [dirichletPlates_eq o.weights he hw inv hinv b C₀ C₁] at hp hg
  obtain ⟨t, h2, h3⟩ := C109_converges hsys h0 h1 i₀ hi₀ hA (channel_reached he hQ size b) hC hp g hg order s
  refine ⟨t, h2, fun x hx => ?_⟩
  have := tendsto_finsetSum Finset.univ fun i _ => h3 x hx i
  refine this.trans_eq ?_
  rw [← (prof x hx).1]
  cases order with
  | collideStream => rfl
  | streamCollide => exact congrArg 𝓝 (sum_collide hdiff hsys.inv2 (weight_one he hw) (g x))

end Methods

/-! ### Rates and stencils for which differences do not decay -/

section Negative
variable {D : ℕ} {S : Stencil D} {d : Domain D} {w : Fin S.Q → ℝ} {inv : Fin S.Q → Fin S.Q} {ωs ωa : ℝ}
  {C : Vec D → (Fin S.Q → ℝ) → Fin S.Q → ℝ} {W : Vec D → Fin S.Q → (Fin S.Q → ℝ) → ℝ}

/-- A state that is a multiple of a pattern after every step. -/
theorem pattern (hv : S.Valid) (hc : S.InvClosed) (hcl : d.Closed S.c) {p : Step S ℝ} (hp : SetUp d W p)
    (g : ℝ → Vec D → Fin S.Q → ℝ) (z : ℝ)
    (h1 : ∀ v, ∀ x ∈ d.fluid, d.collideStream S.c W p.collide (g v) x = g (z * v) x)
    (h2 : ∀ v, ∀ x ∈ d.fluid, d.streamCollide S.c W p.collide (g v) x = g (z * v) x) (order : Order) (n : ℕ)
    (s : Pdfs D S.Q ℝ × Pdfs D S.Q ℝ) (hs : ∀ x ∈ d.fluid, ∀ i, s.1 (x, i) = g 1 x i) :
    ∃ t, p.steps "pull" order n s = some t ∧ ∀ x ∈ d.fluid, ∀ i, t.1 (x, i) = g (z ^ n) x i := by
  have it1 : ∀ n, ∀ x ∈ d.fluid, (d.collideStream S.c W p.collide)^[n] (fun x i => s.1 (x, i)) x = g (z ^ n) x := by
    intro n
    induction n with
    | zero => intro x hx; rw [pow_zero]; exact funext fun i => hs x hx i
    | succ n ih =>
      intro x hx
      rw [Function.iterate_succ_apply', pow_succ', ← h1 (z ^ n) x hx]
      exact collideStream_congr hcl ih x hx
  have it2 : ∀ n, ∀ x ∈ d.fluid, (d.streamCollide S.c W p.collide)^[n] (fun x i => s.1 (x, i)) x = g (z ^ n) x := by
    intro n
    induction n with
    | zero => intro x hx; rw [pow_zero]; exact funext fun i => hs x hx i
    | succ n ih =>
      intro x hx
      rw [Function.iterate_succ_apply', pow_succ', ← h2 (z ^ n) x hx]
      exact congrArg (p.collide x) (Simulation.stream_congr hcl ih x hx)
  cases order with
  | collideStream =>
    obtain ⟨t, h3, h4⟩ := Simulation.C105_collide_stream hv hc hcl hp "pull" n s
    exact ⟨t, h3, fun x hx i => by
      have := congrFun (h4 x hx) i
      rw [it1 n x hx] at this
      exact this⟩
  | streamCollide =>
    obtain ⟨t, h3, h4⟩ := Simulation.C105_stream_collide hv hc hcl hp n s
    exact ⟨t, h3, fun x hx i => by
      have := congrFun (h4 x hx) i
      rw [it2 n x hx] at this
      exact this⟩

/-- C109. Without walls, a state that is the same odd pattern in all cells is multiplied by `1 - ωa` in every step, an even pattern
without mass by `1 - ωs`: with a rate outside of the interval from 0 to 2 the populations grow beyond all bounds. -/
theorem C109_growth (H : System d S w inv ωs ωa C) (hno : ∀ x ∈ d.fluid, ∀ i, ¬ d.wall (x - S.c i)) {p : Step S ℝ}
    (hC : p.collide = C) (hp : SetUp d W p) (a : Fin S.Q → ℝ) (ω : ℝ)
    (ha : (∀ i, a (inv i) = -a i) ∧ ω = ωa ∨ (∀ i, a (inv i) = a i) ∧ ∑ i, a i = 0 ∧ ω = ωs) (order : Order)
    (s : Pdfs D S.Q ℝ × Pdfs D S.Q ℝ) (hs : ∀ x ∈ d.fluid, ∀ i, s.1 (x, i) = a i) :
    ∃ t : ℕ → Pdfs D S.Q ℝ × Pdfs D S.Q ℝ, (∀ n, p.steps "pull" order n s = some (t n)) ∧ ∀ x ∈ d.fluid, ∀ i,
      (∀ n, (t n).1 (x, i) = (1 - ω) ^ n * a i) ∧
      (ω < 0 ∨ 2 < ω → a i ≠ 0 → Tendsto (fun n => |(t n).1 (x, i)|) atTop atTop) := by
  subst hC
  have hcol : ∀ x ∈ d.fluid, ∀ v : ℝ, p.collide x (fun i => v * a i) = fun i => (1 - ω) * v * a i := by
    intro x hx v
    funext i
    rw [Diffuses.eq (H.collide x hx)]
    rcases ha with ⟨h, rfl⟩ | ⟨h, h0, rfl⟩
    · have hsum : ∑ i, a i = 0 := by
        have := sum_inv H.inv2 a
        simp only [h, Finset.sum_neg_distrib] at this
        linarith
      rw [h, ← Finset.mul_sum, hsum]; ring
    · rw [h, ← Finset.mul_sum, h0]; ring
  choose t h1 h2 using fun n => pattern H.valid H.invClosed H.closed hp (fun v _ i => v * a i) (1 - ω)
    (fun v x hx => by
      funext i
      simp only [Domain.collideStream, Domain.stream]
      rw [if_neg (hno x hx i), hcol _ (image_fluid H.closed hx (hno x hx i))])
    (fun v x hx => by
      have : d.stream S.c W (fun _ i => v * a i) x = fun i => v * a i := by
        funext i
        simp only [Domain.stream]
        rw [if_neg (hno x hx i)]
      show p.collide x (d.stream S.c W (fun _ i => v * a i) x) = _
      rw [this, hcol x hx]) order n s (fun x hx i => by rw [hs x hx i, one_mul])
  refine ⟨t, h1, fun x hx i => ⟨fun n => h2 n x hx i, fun hω hai => ?_⟩⟩
  simp only [h2 _ x hx i, abs_mul, abs_pow]
  refine Tendsto.atTop_mul_const (abs_pos.2 hai) (tendsto_pow_atTop_atTop_of_one_lt ?_)
  rw [lt_abs]
  rcases hω with h | h
  · left; linarith
  · right; linarith

theorem checkerboard_image (size : Fin D → ℕ) (heven : ∀ k, Even (size k)) (y : Vec D) :
    checkerboard ((periodicBox size).image y) = checkerboard y := by
  unfold checkerboard
  have : Even (∑ k, (periodicBox size).image y k) ↔ Even (∑ k, y k) := by
    rw [← Int.even_sub, ← Finset.sum_sub_distrib]
    refine Finset.even_sum _ fun k _ => ?_
    show Even (y k % (size k : ℤ) - y k)
    obtain ⟨m, hm⟩ := heven k
    have h := Int.emod_add_mul_ediv (y k) (size k)
    refine ⟨-(m * (y k / size k)), ?_⟩
    have h3 : ((size k : ℕ) : ℤ) = m + m := by rw [hm]; push_cast; ring
    linear_combination h - (y k / (size k : ℤ)) * h3
  simp only [this]

theorem checkerboard_sub (x c : Vec D) (hc : ¬ Even (∑ k, c k)) : checkerboard (x - c) = -checkerboard x := by
  unfold checkerboard
  have : Even (∑ k, (x - c) k) ↔ ¬ Even (∑ k, x k) := by
    simp only [Pi.sub_apply, Finset.sum_sub_distrib]
    rw [Int.even_sub]
    tauto
  by_cases h : Even (∑ k, x k)
  · rw [if_neg (by rw [this]; exact not_not.2 h), if_pos h]
  · rw [if_pos (this.2 h), if_neg h]; norm_num

theorem periodicBox_closed {Q : ℕ} (size : Fin D → ℕ) (c : Fin Q → Vec D) : (periodicBox size).Closed c := by
  intro x hx i
  refine ⟨fun _ => Iff.rfl, fun h => (h fun k => ?_).elim⟩
  have hk := hx.1 k
  have hpos : (0 : ℤ) < size k := by
    have h1 : 0 ≤ x k ∧ x k < size k := hk
    omega
  exact ⟨Int.emod_nonneg _ hpos.ne', Int.emod_lt_of_pos _ hpos⟩

end Negative

section D3Q7
variable {e : String × String × List (List ℤ)}

theorem d3q7_weights (he : e ∈ Tables.predefined) (hQ : e.2.2.length = 7) {ws : List ℚ} (hws : getWeights e.2.2 = some ws)
    (i : Fin e.2.2.length) : weightVec (K := ℝ) e.2.2 ws i = 0 ∨ ¬ Even (∑ k, dirs e.2.2 i k) := by
  have key : ∀ e ∈ Tables.predefined, e.2.2.length = 7 → ((getWeights e.2.2).all fun ws =>
      decide (∀ i : Fin e.2.2.length, ws.getD i.val 0 = 0 ∨ ¬ Even (∑ k, dirs e.2.2 i k))) = true := by decide +kernel
  have := key e he hQ
  rw [hws] at this
  rcases of_decide_eq_true this i with h | h
  · left
    unfold weightVec
    rw [h]; simp
  · exact Or.inr h

/-- C109, disagreement with what one expects of diffusion: with the default weights of D3Q7, whose weight of the rest population is
zero, differences between the two colours of a checkerboard never decay, whatever the rates are: they change their sign in every
step. -/
theorem C109_d3q7 (he : e ∈ Tables.predefined) (hQ : e.2.2.length = 7) (ps ps' : List PExpr)
    (hps : ps ∈ defaultMomentSet (e.2.2.headD []).length e.2.2.length) (hperm : ps'.Perm ps) (ωe ωo : ℝ)
    (o : MaxwellOptions ℝ e.2.2) (hrel : o.relax = trtRates ps' ωe ωo) (cq : Cqc ℝ (e.2.2.headD []).length)
    (hw : getWeights e.2.2 = some o.weights) (hforce : o.force = none) (hz : cq.zeroCentered = false)
    (hd : o.deviationOnly = false) (size : Fin (e.2.2.headD []).length → ℕ) (heven : ∀ k, Even (size k))
    (W : Vec (e.2.2.headD []).length → Fin e.2.2.length → (Fin e.2.2.length → ℝ) → ℝ)
    (p : Step (lattice e.2.2) ℝ) (hp : SetUp (periodicBox size) W p)
    (hr : ∀ x, inputRule o cq none (some fun _ => 0) = .ok (p.collide x)) (order : Order) (c a : ℝ)
    (s : Pdfs (e.2.2.headD []).length e.2.2.length ℝ × Pdfs (e.2.2.headD []).length e.2.2.length ℝ)
    (hs : ∀ x ∈ (periodicBox size).fluid, ∀ i, s.1 (x, i) = weightVec e.2.2 o.weights i * (c + a * checkerboard x)) (csSq : ℝ) (n : ℕ) :
    ∃ t, p.steps "pull" order n s = some t ∧ ∀ x ∈ (periodicBox size).fluid,
      (cq.output csSq (vel e.2.2 _) fun i => t.1 (x, i)).density = c + (-1) ^ n * a * checkerboard x := by
  have hQ7 : e.2.2.length ∈ [7, 9, 15, 19, 27] := by rw [hQ]; decide
  obtain ⟨hvl, hcl, -⟩ := lattice_ok7 e he hQ7
  obtain ⟨inv, -, hinv, -, -⟩ := exists_inv hvl hcl
  obtain ⟨hinv2, r, hr', h⟩ := rest_rule he hvl ps ps' hps hperm ωe ωo o hrel cq hw hforce hz hd inv hinv
  have hC : p.collide = fun _ => r := by
    funext x
    have := hr x
    rw [hr'] at this
    exact (Except.ok.inj this).symm
  have hwi : ∀ i, weightVec (K := ℝ) e.2.2 o.weights (inv i) = weightVec e.2.2 o.weights i := fun i =>
    weightVec_inv he o.weights hw i (inv i) (hinv i)
  have hcol : ∀ v : ℝ, r (fun i => weightVec e.2.2 o.weights i * v) = fun i => weightVec e.2.2 o.weights i * v := by
    intro v
    funext i
    rw [h, ← Finset.sum_mul, weight_one he hw, hwi]
    ring
  have hclosed := periodicBox_closed size (dirs e.2.2)
  have hstr : ∀ v, ∀ x : Vec (e.2.2.headD []).length, (periodicBox size).stream (lattice e.2.2).c W
      (fun x i => weightVec e.2.2 o.weights i * (c + v * a * checkerboard x)) x =
        fun i => weightVec e.2.2 o.weights i * (c + -1 * v * a * checkerboard x) := by
    intro v x
    funext i
    simp only [Domain.stream]
    rw [if_neg (show ¬ (periodicBox size).wall _ from fun hf => hf), checkerboard_image size heven]
    rcases d3q7_weights he hQ hw i with h0 | h0
    · rw [show weightVec (K := ℝ) e.2.2 o.weights i = 0 from h0]; ring
    · rw [show checkerboard (x - (lattice e.2.2).c i) = -checkerboard x from checkerboard_sub x _ h0]; ring
  obtain ⟨t, h1, h2⟩ := pattern hvl hcl hclosed hp
    (fun v x i => weightVec e.2.2 o.weights i * (c + v * a * checkerboard x)) (-1)
    (fun v x _ => by
      rw [hC]
      unfold Domain.collideStream
      simp only [hcol]
      exact hstr v x)
    (fun v x _ => by
      rw [hC]
      unfold Domain.streamCollide
      rw [hstr v x]
      exact hcol _) order n s (fun x hx i => by rw [hs x hx i, one_mul])
  refine ⟨t, h1, fun x hx => ?_⟩
  have : (fun i => t.1 (x, i)) = fun i => weightVec e.2.2 o.weights i * (c + (-1) ^ n * a * checkerboard x) := funext fun i => h2 x hx i
  rw [this]
  simp only [Cqc.output, hz]
  simp only [Bool.false_eq_true, if_false]
  rw [← Finset.sum_mul, weight_one he hw, one_mul]

end D3Q7

/-! ### Examples -/

namespace Example
open Poiseuille.Example (st inv)

/-- `create_trt` with rates 1 and 3/4, second order, compressible, absolute storage -/
noncomputable def o : MaxwellOptions ℝ st where
  relax := trtRates ((defaultMomentSet 2 9).getD []) 1 (3 / 4)
  weights := (getWeights st).getD []
  order := some 2
  deviationOnly := false
  momentSpace := false
  force := none

noncomputable def cq : Cqc ℝ (st.headD []).length := ⟨true, false, 1, none⟩

theorem he : ("D2Q9", "uk", st) ∈ Tables.predefined := by decide +kernel
theorem hps : (defaultMomentSet 2 9).getD [] ∈ defaultMomentSet (st.headD []).length st.length := by decide +kernel
theorem hinv : ∀ i, dirs st (inv i) = -dirs st i := by decide +kernel
theorem hw : getWeights st = some o.weights := by
  show getWeights st = some ((getWeights st).getD [])
  decide +kernel

/-- A channel of 4 x 3 cells between plates with concentrations 1 and 2, at first everything is zero: the reported density in the
first row tends to 7/6. -/
example : ∃ p : Step (lattice st) ℝ, ∃ t : ℕ → Pdfs (st.headD []).length st.length ℝ × Pdfs (st.headD []).length st.length ℝ,
    (∀ x, inputRule o cq none (some fun _ => 0) = .ok (p.collide x)) ∧
    (∀ n, p.steps "pull" .streamCollide n (fun _ => 0, fun _ => 0) = some (t n)) ∧
    Tendsto (fun n => (cq.output (1 / 3) (vel st _) fun i => (t n).1 (fun _ => 0, i)).density) atTop (𝓝 (7 / 6)) := by
  obtain ⟨r, hr, -, -⟩ := C109_trt he (by decide) _ _ hps (List.Perm.refl _) 1 (3 / 4) o rfl cq hw rfl rfl rfl inv hinv
  obtain ⟨hv, hc, -⟩ := lattice_ok7 _ he (by decide)
  obtain ⟨p, hC, hp⟩ := exists_setUp (S := lattice st) (channel (fun d => if d.val = 0 then 4 else 3) ⟨1, by decide⟩)
    (dirichletPlates st o.weights inv ⟨1, by decide⟩ 1 2 none) (fun _ => r) hv hc
  have hpr : ∀ x, inputRule o cq none (some fun _ => 0) = .ok (p.collide x) := fun x => by rw [hC]; exact hr
  obtain ⟨t, h1, h2⟩ := C109_plates he (by decide) _ _ hps (List.Perm.refl _) 1 (3 / 4) (by norm_num) (by norm_num) o rfl cq hw rfl
    rfl rfl ⟨1, by decide⟩ (fun d => if d.val = 0 then 4 else 3) (by decide) inv hinv 1 2 p hp hpr .streamCollide
    (fun _ => 0, fun _ => 0) (1 / 3)
  refine ⟨p, t, hpr, h1, ?_⟩
  have := h2 (fun _ => 0) (by
    rw [mem_fluid]
    intro k
    refine ⟨le_refl _, ?_⟩
    show (0 : ℤ) < ((if k.val = 0 then 4 else 3 : ℕ) : ℤ)
    split <;> norm_num)
  refine this.trans_eq (congrArg 𝓝 ?_)
  unfold planeCouette
  norm_num

/-- A periodic box of 2 x 2 cells, at first one cell is filled: the reported density tends to 1/4 in all cells. -/
example : ∃ p : Step (lattice st) ℝ, ∃ t : ℕ → Pdfs (st.headD []).length st.length ℝ × Pdfs (st.headD []).length st.length ℝ,
    (∀ x, inputRule o cq none (some fun _ => 0) = .ok (p.collide x)) ∧
    (∀ n, p.steps "pull" .collideStream n (fun q => if q.1 = 0 ∧ q.2.val = 0 then 1 else 0, fun _ => 0) = some (t n)) ∧
    ∀ x ∈ (periodicBox fun _ : Fin (st.headD []).length => 2).fluid,
      Tendsto (fun n => (cq.output (1 / 3) (vel st _) fun i => (t n).1 (x, i)).density) atTop (𝓝 (1 / 4)) := by
  obtain ⟨r, hr, -, -⟩ := C109_trt he (by decide) _ _ hps (List.Perm.refl _) 1 (3 / 4) o rfl cq hw rfl rfl rfl inv hinv
  obtain ⟨hv, hc, -⟩ := lattice_ok7 _ he (by decide)
  obtain ⟨p, hC, hp⟩ := exists_setUp (S := lattice st) (periodicBox fun _ : Fin (st.headD []).length => 2)
    (fun _ i f => f (inv i)) (fun _ => r) hv hc
  have hpr : ∀ x, inputRule o cq none (some fun _ => 0) = .ok (p.collide x) := fun x => by rw [hC]; exact hr
  have hdir : ∀ a ∈ ([-1, 0, 1] : List ℤ), ∀ b ∈ ([-1, 0, 1] : List ℤ), ∃ i : Fin st.length,
      dirs st i ⟨0, by decide⟩ = a ∧ dirs st i ⟨1, by decide⟩ = b := by decide +kernel
  have hA : ∀ x, x ∈ (Fintype.piFinset fun _ : Fin (st.headD []).length => Finset.Ico (0 : ℤ) 2) ↔
      x ∈ (periodicBox fun _ : Fin (st.headD []).length => 2).fluid := by
    intro x
    simp [Domain.fluid, Domain.Inner, periodicBox]
  obtain ⟨t, h1, h2⟩ := C109_trt_mean he (by decide) _ _ hps (List.Perm.refl _) 1 (3 / 4) (by norm_num) (by norm_num) o rfl cq hw rfl
    rfl rfl inv hinv (periodicBox fun _ => 2) (periodicBox_closed _ _) (by
      intro x hx y hy
      have range : ∀ k, x k - y k ∈ ([-1, 0, 1] : List ℤ) := by
        intro k
        have := hx.1 k
        have := hy.1 k
        simp only [periodicBox, List.mem_cons, List.not_mem_nil, or_false] at *
        omega
      obtain ⟨i, hi⟩ := hdir _ (range ⟨0, by decide⟩) _ (range ⟨1, by decide⟩)
      refine Relation.ReflTransGen.single ⟨i, fun h => h, ?_⟩
      have hi' : dirs st i = x - y := by
        funext k
        fin_cases k
        · exact hi.1
        · exact hi.2
      rw [hi', sub_sub_cancel]
      funext k
      have := hy.1 k
      exact (Int.emod_eq_of_lt this.1 this.2).symm)
    _ hA p hp hpr .collideStream (fun q => if q.1 = 0 ∧ q.2.val = 0 then 1 else 0, fun _ => 0) (1 / 3)
  refine ⟨p, t, hpr, h1, fun x hx => (h2 x hx).trans_eq (congrArg 𝓝 ?_)⟩
  have e1 : ∀ f : Fin st.length → ℝ, (cq.output (1 / 3) (vel st _) f).density = ∑ i, f i := by
    intro f
    simp [Cqc.output, cq]
  simp only [e1]
  have e2 : ∀ x : Vec (st.headD []).length, (∑ i : Fin st.length, if x = 0 ∧ i.val = 0 then (1 : ℝ) else 0) = if x = 0 then 1 else 0 := by
    intro x
    by_cases hx : x = 0
    · simp only [hx, true_and, if_true]
      rw [Finset.sum_eq_single ⟨0, by decide⟩]
      · rfl
      · intro b _ hb
        rw [if_neg fun h => hb (Fin.ext h)]
      · simp
    · simp [hx]
  rw [Finset.sum_congr rfl fun x _ => e2 x, Finset.sum_ite_eq', if_pos (by simp)]
  rw [Fintype.card_piFinset]
  simp only [Int.card_Ico, Finset.prod_const, Finset.card_univ, Fintype.card_fin]
  rw [show (st.headD []).length = 2 by decide, show (2 - 0 : ℤ).toNat = 2 from rfl]
  norm_num

/-- An odd rate of 5/2: in a periodic box without mass, with the momentum of one direction in every cell, the populations grow beyond
all bounds. -/
example (o' : MaxwellOptions ℝ st) (h' : o' = { o with relax := trtRates ((defaultMomentSet 2 9).getD []) 1 (5 / 2) }) :
    ∃ p : Step (lattice st) ℝ, ∃ t : ℕ → Pdfs (st.headD []).length st.length ℝ × Pdfs (st.headD []).length st.length ℝ,
    (∀ x, inputRule o' cq none (some fun _ => 0) = .ok (p.collide x)) ∧
    (∀ n, p.steps "pull" .streamCollide n (fun q => (dirs st q.2 ⟨0, by decide⟩ : ℤ), fun _ => 0) = some (t n)) ∧
    Tendsto (fun n => |(t n).1 (fun _ => 0, ⟨1, by decide⟩)|) atTop atTop := by
  subst h'
  obtain ⟨r, hr, -, hS⟩ := C109_trt he (by decide) _ _ hps (List.Perm.refl _) 1 (5 / 2)
    { o with relax := trtRates ((defaultMomentSet 2 9).getD []) 1 (5 / 2) } rfl cq hw rfl rfl rfl inv hinv
  obtain ⟨hv, hc, -⟩ := lattice_ok7 _ he (by decide)
  obtain ⟨p, hC, hp⟩ := exists_setUp (S := lattice st) (periodicBox fun _ : Fin (st.headD []).length => 3)
    (fun _ i f => f (inv i)) (fun _ => r) hv hc
  obtain ⟨t, h1, h2⟩ := C109_growth (hS _ (periodicBox_closed (fun _ => 3) _)) (fun _ _ _ h => h) hC hp
    (fun i => (dirs st i ⟨0, by decide⟩ : ℤ)) (5 / 2) (Or.inl ⟨fun i => by
      have := hinv i
      rw [this]; push_cast [Pi.neg_apply]; rfl, rfl⟩) .streamCollide
    (fun q => (dirs st q.2 ⟨0, by decide⟩ : ℤ), fun _ => 0) (fun _ _ _ => rfl)
  refine ⟨p, t, fun x => by rw [hC]; exact hr, h1, (h2 _ ?_ _).2 (Or.inr (by norm_num)) ?_⟩
  · exact ⟨fun k => ⟨le_refl _, by simp [periodicBox]⟩, fun h => h⟩
  · exact Int.cast_ne_zero.2 (by decide +kernel)

def st7 : List (List ℤ) := Tables.D3Q7_walberla

/-- D3Q7 in a periodic box of 4 x 4 x 4 cells, rates 1 and 3/4, densities 2 and 0 on the colours of a checkerboard: after an odd number
of steps the colours are exchanged, after an even number nothing has changed. -/
example (o' : MaxwellOptions ℝ st7)
    (h' : o' = ⟨trtRates ((defaultMomentSet 3 7).getD []) 1 (3 / 4), (getWeights st7).getD [], some 1, false, false, none⟩) (n : ℕ) :
    ∃ p : Step (lattice st7) ℝ, ∃ t,
    (∀ x, inputRule o' ⟨true, false, 1, none⟩ none (some fun _ => 0) = .ok (p.collide x)) ∧
    p.steps "pull" .streamCollide n (fun q => weightVec st7 o'.weights q.2 * (1 + 1 * checkerboard q.1), fun _ => 0) = some t ∧
    ∀ x ∈ (periodicBox fun _ : Fin (st7.headD []).length => 4).fluid,
      ((⟨true, false, 1, none⟩ : Cqc ℝ (st7.headD []).length).output (1 / 3) (vel st7 _) fun i => t.1 (x, i)).density =
        1 + (-1) ^ n * 1 * checkerboard x := by
  subst h'
  have he : ("D3Q7", "walberla", st7) ∈ Tables.predefined := by decide +kernel
  have hps : (defaultMomentSet 3 7).getD [] ∈ defaultMomentSet (st7.headD []).length st7.length := by decide +kernel
  have hw : getWeights st7 = some ((getWeights st7).getD []) := by decide +kernel
  obtain ⟨hv, hc, -⟩ := lattice_ok7 _ he (by decide)
  obtain ⟨inv, -, hinv, -, -⟩ := exists_inv hv hc
  obtain ⟨-, r, hr, -⟩ := rest_rule he hv _ _ hps (List.Perm.refl _) 1 (3 / 4)
    (⟨trtRates ((defaultMomentSet 3 7).getD []) 1 (3 / 4), (getWeights st7).getD [], some 1, false, false, none⟩ :
      MaxwellOptions ℝ st7) rfl ⟨true, false, 1, none⟩ hw rfl rfl rfl inv hinv
  obtain ⟨p, hC, hp⟩ := exists_setUp (S := lattice st7) (periodicBox fun _ : Fin (st7.headD []).length => 4)
    (fun _ i f => f (inv i)) (fun _ => r) hv hc
  have hpr := fun x => (show inputRule _ _ _ _ = .ok (p.collide x) by rw [hC]; exact hr)
  obtain ⟨t, h1, h2⟩ := C109_d3q7 he (by decide) _ _ hps (List.Perm.refl _) 1 (3 / 4) _ rfl ⟨true, false, 1, none⟩ hw rfl rfl rfl
    (fun _ => 4) (fun _ => by decide) _ p hp hpr .streamCollide 1 1
    (fun q => weightVec st7 ((getWeights st7).getD []) q.2 * (1 + 1 * checkerboard q.1), fun _ => 0) (fun _ _ _ => rfl) (1 / 3) n
  exact ⟨p, t, hpr, h1, h2⟩

end Example

end Decay
end Lbm
