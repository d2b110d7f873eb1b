/-
C66: the lattice Boltzmann method for the Cahn-Hilliard equation.
-/
import Verif.CahnHilliardLb
import Verif.Props.Equilibrium
import Verif.Props.CollisionModels

set_option linter.unusedSectionVars false

namespace Lbm
namespace CahnHilliardLb

open Spec

variable {K : Type} [Field K] [CharZero K]

/-- the summand as a polynomial in scalar products -/
theorem term_eq {D : ℕ} (d : List ℤ) (w : ℚ) (mu gamma rho : K) (v : Fin D → K) :
    term d w mu gamma rho v = (w : K) * (3 * gamma * mu + 3 * rho * dot (fun i : Fin D => ((d.getD i 0 : ℤ) : K)) v
      + rho * (9 / 2 * dot (fun i : Fin D => ((d.getD i 0 : ℤ) : K)) v ^ 2 - 3 / 2 * dot v v)) := by
  have h : (∑ i : Fin D, ∑ j : Fin D,
        v i * v j * (((d.getD i 0 : ℤ) : K) * ((d.getD j 0 : ℤ) : K) - 1 / 3 * (if i = j then 1 else 0)))
      = dot (fun i : Fin D => ((d.getD i 0 : ℤ) : K)) v ^ 2 - 1 / 3 * dot v v := by
    simp only [mul_sub, Finset.sum_sub_distrib]
    congr 1
    · rw [pow_two, dot, Finset.sum_mul_sum]
      exact Finset.sum_congr rfl fun i _ => Finset.sum_congr rfl fun j _ => by ring
    · simp only [mul_ite, mul_one, mul_zero, Finset.sum_ite_eq, Finset.mem_univ, if_true, dot, Finset.mul_sum]
      exact Finset.sum_congr rfl fun i _ => by ring
  unfold term
  rw [h, dot]
  field_simp
  ring

theorem predefined_rest : ∀ e ∈ Tables.predefined, ∃ z rest, e.2.2 = z :: rest ∧ ∀ a < z.length, z.getD a 0 = 0 := by
  have h : ∀ e ∈ Tables.predefined, (match e.2.2 with | [] => false | z :: _ => z.all (· == 0)) = true := by
    decide +kernel
  intro e he
  have := h e he
  match h2 : e.2.2, this with
  | z :: rest, hz =>
    refine ⟨z, rest, rfl, fun a ha => ?_⟩
    rw [List.all_eq_true] at hz
    rw [List.getD_eq_getElem?_getD, List.getElem?_eq_getElem ha, Option.getD_some]
    simpa using hz _ (List.getElem_mem ha)

/-- the summands as a vector -/
def termVec (st : List (List ℤ)) (ws : List ℚ) (mu gamma rho : K) (v : Fin (st.headD []).length → K)
    (q : Fin st.length) : K := term (st.get q) (ws.getD q 0) mu gamma rho v

/-- the populations: the summands, and at rest what is missing to the density in addition -/
theorem populations_eq (z : List ℤ) (rest : List (List ℤ)) (ws : List ℚ) (hl : ws.length = (z :: rest).length)
    (hw : getWeights (z :: rest) = some ws) (mu gamma rho : K) (v : Fin ((z :: rest).headD []).length → K) :
    ∃ l, equilibriumTerms (z :: rest) mu gamma rho v = .ok l ∧ l.length = (z :: rest).length ∧
      ∀ q : Fin (z :: rest).length, l.getD q 0 = termVec (z :: rest) ws mu gamma rho v q +
        if q.val = 0 then rho - ∑ p, termVec (z :: rest) ws mu gamma rho v p else 0 := by
  match ws, hl with
  | w :: wr, hl =>
    have hl' : wr.length = rest.length := by simpa using hl
    have hq : ∀ q : Fin rest.length, ((rest.zip wr).map fun e => term e.1 e.2 mu gamma rho v).getD q 0 =
        term (rest.get q) (wr.getD q 0) mu gamma rho v := by
      intro q
      have h1 : q.val < wr.length := by omega
      rw [List.getD_eq_getElem?_getD, List.getElem?_map, List.getElem?_eq_getElem (by simp [h1])]
      simp [List.getD_eq_getElem?_getD, List.getElem?_eq_getElem h1]
    have hsum : ((rest.zip wr).map fun e => term e.1 e.2 mu gamma rho v).sum =
        ∑ q : Fin rest.length, term (rest.get q) (wr.getD q 0) mu gamma rho v := by
      have hlen : ((rest.zip wr).map fun e => term e.1 e.2 mu gamma rho v).length = rest.length := by simp [hl']
      rw [← List.sum_ofFn]
      congr 1
      refine List.ext_getElem (by simp [hl']) fun i h1 h2 => ?_
      have h3 : i < wr.length := by simp at h1; omega
      simp [List.getElem?_eq_getElem h3]
    refine ⟨_, by rw [equilibriumTerms, hw]; rfl, by simp [hl'], fun q => ?_⟩
    refine Fin.cases ?_ (fun q => ?_) q
    · have : ∑ p, termVec (z :: rest) (w :: wr) mu gamma rho v p = termVec (z :: rest) (w :: wr) mu gamma rho v 0 +
          ∑ q : Fin rest.length, term (rest.get q) (wr.getD q 0) mu gamma rho v := Fin.sum_univ_succ _
      rw [this]
      simp only [Fin.val_zero, if_true, List.getD_cons_zero]
      rw [← hsum]
      change rho - ((rest.zip wr).map fun e => term e.1 e.2 mu gamma rho v).sum = _
      ring
    · simp only [Fin.val_succ, List.getD_cons_succ, Nat.add_eq_zero_iff, one_ne_zero, and_false, if_false, add_zero]
      exact hq q

section moments
variable {Q D : ℕ} {c : Fin Q → Fin D → K} {w : Fin Q → K}

/-- the summand for arbitrary velocities and weights -/
def poly (c : Fin Q → Fin D → K) (w : Fin Q → K) (gm rho : K) (v : Fin D → K) (q : Fin Q) : K :=
  w q * (3 * gm + 3 * rho * dot (c q) v + rho * (9 / 2 * dot (c q) v ^ 2 - 3 / 2 * dot v v))

theorem poly_eq (gm rho : K) (v : Fin D → K) (q : Fin Q) :
    poly c w gm rho v q = eqPoly c w (1 / 3) rho 0 1 0 v q + 3 * gm * w q := by
  unfold poly eqPoly
  field_simp
  ring

theorem poly_m0 (h : Isotropic3 c w (1 / 3)) (gm rho : K) (v : Fin D → K) : ∑ q, poly c w gm rho v q = 3 * gm := by
  simp only [poly_eq, Finset.sum_add_distrib, ← Finset.mul_sum, h.m0, eqPoly_m0 h (by norm_num : (1 / 3 : K) ≠ 0)]
  ring

theorem poly_m1 (h : Isotropic3 c w (1 / 3)) (gm rho : K) (v : Fin D → K) (a : Fin D) :
    ∑ q, c q a * poly c w gm rho v q = rho * v a := by
  have e : ∀ q, c q a * poly c w gm rho v q = c q a * eqPoly c w (1 / 3) rho 0 1 0 v q + 3 * gm * (w q * c q a) :=
    fun q => by rw [poly_eq]; ring
  simp only [e, Finset.sum_add_distrib, ← Finset.mul_sum, h.m1,
    eqPoly_m1 h (by norm_num : (1 / 3 : K) ≠ 0) _ _ _ _ _ _ (.inl rfl)]
  ring

theorem poly_m2 (h : Isotropic5 c w (1 / 3)) (gm rho : K) (v : Fin D → K) (a b : Fin D) :
    ∑ q, c q a * c q b * poly c w gm rho v q = gm * δ a b + rho * (v a * v b) := by
  have e : ∀ q, c q a * c q b * poly c w gm rho v q =
      c q a * c q b * eqPoly c w (1 / 3) rho 0 1 0 v q + 3 * gm * (w q * c q a * c q b) :=
    fun q => by rw [poly_eq]; ring
  simp only [e, Finset.sum_add_distrib, ← Finset.mul_sum, h.m2,
    eqPoly_m2 h.toIsotropic3 (by norm_num : (1 / 3 : K) ≠ 0) _ _ _ _ _ _ _ (.inr h)]
  ring

end moments

/-- everything about the equilibrium on a predefined stencil with weights -/
theorem equilibrium_aux : ∀ e ∈ Tables.predefined, ∀ ws ∈ getWeights e.2.2,
    ∀ (mu gamma rho : K) (v : Fin (e.2.2.headD []).length → K),
    ∃ l, equilibriumTerms e.2.2 mu gamma rho v = .ok l ∧ l.length = e.2.2.length ∧
      ∀ q : Fin e.2.2.length, l.getD q 0 = poly (vel e.2.2 _) (weightVec e.2.2 ws) (gamma * mu) rho v q +
        (if q.val = 0 then rho - 3 * (gamma * mu) else 0) ∧ (q.val = 0 → ∀ a, vel (K := K) e.2.2 (e.2.2.headD []).length q a = 0) := by
  intro e he ws hws mu gamma rho v
  obtain ⟨hl, h3, -⟩ := C20_weights_isotropic (K := K) e he ws hws
  obtain ⟨z, rest, hst, hz⟩ := predefined_rest e he
  obtain ⟨n, m, st⟩ := e
  simp only at hst hl h3 hws v ⊢
  subst hst
  obtain ⟨l, h1, h2, h4⟩ := populations_eq z rest ws hl hws mu gamma rho v
  have hp : ∀ q, termVec (z :: rest) ws mu gamma rho v q =
      poly (vel (z :: rest) _) (weightVec (z :: rest) ws) (gamma * mu) rho v q := by
    intro q
    rw [termVec, term_eq, poly, ← mul_assoc]
    rfl
  refine ⟨l, h1, h2, fun q => ⟨?_, fun hq a => ?_⟩⟩
  · rw [h4 q]
    simp only [hp, poly_m0 h3]
  · obtain rfl : q = ⟨0, by simp⟩ := Fin.ext hq
    have := hz a.val a.isLt
    simp only [vel]
    rw [show (z :: rest).get ⟨0, by simp⟩ = z from rfl, this, Int.cast_zero]

/-- **C66.** On every predefined stencil with weights, for every chemical potential, density and velocity, the
equilibrium has the density as zeroth moment and the advected density as first moment; its second moment is
`γ μ δ + ρ v v`, except on D3Q7. -/
theorem C66_moments : ∀ e ∈ Tables.predefined, (getWeights e.2.2).isSome →
    ∀ (mu gamma rho : K) (v : Fin (e.2.2.headD []).length → K),
    ∃ l, equilibriumTerms e.2.2 mu gamma rho v = .ok l ∧ l.length = e.2.2.length ∧
      (∑ q : Fin e.2.2.length, l.getD q 0 = rho) ∧
      (∀ a, ∑ q : Fin e.2.2.length, vel e.2.2 _ q a * l.getD q 0 = rho * v a) ∧
      (e.2.2.length ≠ 7 → ∀ a b, ∑ q : Fin e.2.2.length, vel e.2.2 _ q a * vel e.2.2 _ q b * l.getD q 0 =
        gamma * mu * δ a b + rho * (v a * v b)) := by
  intro e he hsome mu gamma rho v
  obtain ⟨ws, hws⟩ := Option.isSome_iff_exists.1 hsome
  obtain ⟨hl, h3, h5⟩ := C20_weights_isotropic (K := K) e he ws hws
  obtain ⟨l, h1, h2, h4⟩ := equilibrium_aux e he ws hws mu gamma rho v
  have hpos : 0 < e.2.2.length := by
    obtain ⟨z, rest, hst, -⟩ := predefined_rest e he
    simp [hst]
  refine ⟨l, h1, h2, ?_, fun a => ?_, fun h7 a b => ?_⟩
  · simp only [fun q => (h4 q).1, Finset.sum_add_distrib, poly_m0 h3]
    rw [Finset.sum_eq_single (⟨0, hpos⟩ : Fin e.2.2.length) (fun b _ hb => if_neg fun h => hb (Fin.ext h)) (by simp)]
    simp
  · rw [← poly_m1 h3 (gamma * mu) rho v a]
    refine Finset.sum_congr rfl fun q _ => ?_
    rw [(h4 q).1]
    by_cases hq : q.val = 0
    · rw [(h4 q).2 hq]; ring
    · rw [if_neg hq, add_zero]
  · rw [← poly_m2 (h5 h7) (gamma * mu) rho v a b]
    refine Finset.sum_congr rfl fun q _ => ?_
    rw [(h4 q).1]
    by_cases hq : q.val = 0
    · rw [(h4 q).2 hq]; ring
    · rw [if_neg hq, add_zero]

/-- **C66, wrong.** On D3Q7 the second moment lacks the mixed products of the velocity. -/
theorem C66_d3q7_wrong : ∀ e ∈ Tables.predefined, e.1 = "D3Q7" → ∃ h : 1 < (e.2.2.headD []).length,
    ∃ l : List ℚ, equilibriumTerms (D := (e.2.2.headD []).length) e.2.2 0 1 1 (fun _ => 1 / 10) = .ok l ∧
      ∑ q : Fin e.2.2.length, vel e.2.2 _ q ⟨0, Nat.zero_lt_of_lt h⟩ * vel e.2.2 _ q ⟨1, h⟩ * l.getD q 0 ≠
        1 * 0 * δ (⟨0, Nat.zero_lt_of_lt h⟩ : Fin (e.2.2.headD []).length) ⟨1, h⟩ + 1 * (1 / 10 * (1 / 10)) := by
  have hk : ∀ e ∈ Tables.predefined, e.1 = "D3Q7" → 1 < (e.2.2.headD []).length ∧ (getWeights e.2.2).isSome = true ∧
      ∀ q : Fin e.2.2.length, (e.2.2.get q).getD 0 0 * (e.2.2.get q).getD 1 0 = 0 := by decide +kernel
  intro e he hn
  obtain ⟨h1, h2, h3⟩ := hk e he hn
  obtain ⟨l, hl, -⟩ := C66_moments (K := ℚ) e he h2 0 1 1 (fun _ => 1 / 10)
  refine ⟨h1, l, hl, ?_⟩
  have : ∀ q, vel (K := ℚ) e.2.2 (e.2.2.headD []).length q ⟨0, Nat.zero_lt_of_lt h1⟩ * vel e.2.2 _ q ⟨1, h1⟩ = 0 := by
    intro q
    simp only [vel]
    exact_mod_cast h3 q
  simp [this]

/-- **C66.** Without weights the construction fails with a `KeyError`. -/
theorem C66_no_weights (st : List (List ℤ)) (h : getWeights st = none) [DecidableEq K] (rate : RateArg K) (mu gamma : K)
    (v : Fin (st.headD []).length → K) : collisionRule st rate mu gamma v = .error .keyError := by
  simp [collisionRule, equilibriumTerms, h, bind, Except.bind]

theorem default_length : ∀ e ∈ Tables.predefined, ∀ ps ∈ defaultMomentSet (e.2.2.headD []).length e.2.2.length,
    ps.length = e.2.2.length := fun e he ps hps => (unisolvent_default e he ps hps).1

/-- **C66.** With a symbol or number as rate the method exists on every predefined stencil that has weights and default
moments, and relaxes every population towards the equilibrium of the density of the cell. -/
theorem C66_collision [DecidableEq K] : ∀ e ∈ Tables.predefined, (getWeights e.2.2).isSome →
    (defaultMomentSet (e.2.2.headD []).length e.2.2.length).isSome →
    ∀ (omega mu gamma : K) (v : Fin (e.2.2.headD []).length → K),
    ∃ rule, collisionRule e.2.2 (.plain omega) mu gamma v = .ok rule ∧
      ∀ f, ∃ l, equilibriumTerms e.2.2 mu gamma (∑ q, f q) v = .ok l ∧
        ∀ q, rule f q = f q + omega * (l.getD q 0 - f q) := by
  intro e he hsome hd omega mu gamma v
  obtain ⟨ps, hps⟩ := Option.isSome_iff_exists.1 hd
  obtain ⟨ws, hws⟩ := Option.isSome_iff_exists.1 hsome
  obtain ⟨l0, h0, -⟩ := equilibrium_aux e he ws hws mu gamma 0 v
  have hrel : relaxationDict (K := K) (e.2.2.headD []).length e.2.2.length (.plain omega) =
      .ok (ps.map fun p => (p, omega)) := by
    simp only [relaxationDict, hps, if_pos (default_length e he ps hps)]
  have hm : ((method e.2.2 (ps.map fun p => (p, omega)) mu gamma v).relax.map Prod.fst) = ps := by
    simp [method, Function.comp_def]
  have hw : (method e.2.2 (ps.map fun p => (p, omega)) mu gamma v).WellFormed :=
    C19_offered_sets_well_formed e he _ (fun _ _ => rfl) (.inl rfl) (.inl ⟨ps, hps, by rw [hm]⟩)
  have key := MomentMethod.C19_single_rate (method e.2.2 (ps.map fun p => (p, omega)) mu gamma v) hw 0
    (fun f q => match equilibriumTerms e.2.2 mu gamma (∑ q, f q) v with | .ok l => l.getD q 0 | .error _ => 0) omega
    (by
      intro x hx
      obtain ⟨p, -, rfl⟩ := List.mem_map.1 hx
      rfl) rfl (by intro h i; simp [MomentMethod.bgMoment, MomentMethod.backgroundShift, method, Spec.mom])
    (fun f h i => rfl)
  refine ⟨_, by
    unfold collisionRule
    rw [h0, hrel]
    exact key, fun f => ?_⟩
  obtain ⟨l, h1, -⟩ := equilibrium_aux e he ws hws mu gamma (∑ q, f q) v
  refine ⟨l, h1, fun q => ?_⟩
  simp [h1]

/-- **C66, wrong.** A rate that is an expression, say `1/τ`, or an exact fraction is refused: it is taken for a
dictionary. -/
theorem C66_expression_rate_wrong [DecidableEq K] : ∀ e ∈ Tables.predefined, (getWeights e.2.2).isSome →
    ∀ (omega mu gamma : K) (v : Fin (e.2.2.headD []).length → K),
    collisionRule e.2.2 (.expression omega) mu gamma v = .error .typeError := by
  intro e he hsome omega mu gamma v
  obtain ⟨ws, hws⟩ := Option.isSome_iff_exists.1 hsome
  obtain ⟨l0, h0, -⟩ := equilibrium_aux e he ws hws mu gamma 0 v
  simp [collisionRule, h0, relaxationDict, bind, Except.bind]

/-- **C66.** Collisions conserve the order parameter for every chemical potential and velocity, and relax the flux
towards the advected order parameter. -/
theorem C66_conservation [DecidableEq K] : ∀ e ∈ Tables.predefined, ∀ (omega mu gamma : K)
    (v : Fin (e.2.2.headD []).length → K) rule, collisionRule e.2.2 (.plain omega) mu gamma v = .ok rule →
    ∀ f, ∑ q, rule f q = ∑ q, f q ∧ ∀ a, ∑ q, vel e.2.2 _ q a * rule f q =
      (1 - omega) * ∑ q, vel e.2.2 _ q a * f q + omega * ((∑ q, f q) * v a) := by
  intro e he omega mu gamma v rule hrule f
  have hsome : (getWeights e.2.2).isSome := by
    by_contra hn
    rw [C66_no_weights _ (by simpa using hn)] at hrule
    cases hrule
  have hd : (defaultMomentSet (e.2.2.headD []).length e.2.2.length).isSome := by
    obtain ⟨ws, hws⟩ := Option.isSome_iff_exists.1 hsome
    obtain ⟨l0, h0, -⟩ := equilibrium_aux e he ws hws mu gamma 0 v
    by_contra hn
    have hn : defaultMomentSet (e.2.2.headD []).length e.2.2.length = none := by simpa using hn
    have hr : relaxationDict (K := K) (e.2.2.headD []).length e.2.2.length (.plain omega) = .error .notImplemented := by
      simp only [relaxationDict, hn]
    unfold collisionRule at hrule
    rw [h0, hr] at hrule
    cases hrule
  obtain ⟨rule', h', key⟩ := C66_collision e he hsome hd omega mu gamma v
  obtain rfl : rule' = rule := by rw [h'] at hrule; exact Except.ok.inj hrule
  obtain ⟨l, hl, hr⟩ := key f
  obtain ⟨l', hl', -, m0, m1, -⟩ := C66_moments e he hsome mu gamma (∑ q, f q) v
  obtain rfl : l' = l := by rw [hl'] at hl; exact Except.ok.inj hl
  simp only [hr]
  constructor
  · rw [Finset.sum_add_distrib, ← Finset.mul_sum, Finset.sum_sub_distrib, m0, sub_self, mul_zero, add_zero]
  · intro a
    rw [← m1 a, Finset.mul_sum, Finset.mul_sum, ← Finset.sum_add_distrib]
    exact Finset.sum_congr rfl fun q _ => by ring

/-- **C66.** The mobility: with the fluid at rest, a chemical potential of constant gradient `g` has, for every field of
the order parameter, a stationary state with the flux `-γ (1/ω - 1/2) g` (taken in the middle of the collision). -/
theorem C66_mobility [DecidableEq K] : ∀ e ∈ Tables.predefined, (getWeights e.2.2).isSome →
    (defaultMomentSet (e.2.2.headD []).length e.2.2.length).isSome →
    ∀ (omega gamma mu0 : K) (g : Fin (e.2.2.headD []).length → K) (phi : (Fin (e.2.2.headD []).length → ℤ) → K),
    omega ≠ 0 →
    ∃ (rule : (Fin (e.2.2.headD []).length → ℤ) → (Fin e.2.2.length → K) → Fin e.2.2.length → K)
      (f : (Fin (e.2.2.headD []).length → ℤ) → Fin e.2.2.length → K),
      (∀ x, collisionRule e.2.2 (.plain omega) (mu0 + ∑ a, g a * (x a : K)) gamma (fun _ => 0) = .ok (rule x)) ∧
      step e.2.2 rule f = f ∧ (∀ x, ∑ q, f x q = phi x) ∧
      ∀ x a, (∑ q, vel e.2.2 _ q a * f x q + ∑ q, vel e.2.2 _ q a * rule x (f x) q) / 2 =
        -(gamma * (1 / omega - 1 / 2)) * g a := by
  intro e he hsome hd omega gamma mu0 g phi hom
  obtain ⟨ws, hws⟩ := Option.isSome_iff_exists.1 hsome
  obtain ⟨hl, h3, -⟩ := C20_weights_isotropic (K := K) e he ws hws
  have hpos : 0 < e.2.2.length := by
    obtain ⟨z, rest, hst, -⟩ := predefined_rest e he
    simp [hst]
  let mu : (Fin (e.2.2.headD []).length → ℤ) → K := fun x => mu0 + ∑ a, g a * (x a : K)
  have hc := fun x => C66_collision e he hsome hd omega (mu x) gamma (fun _ => 0)
  choose rule hrule hform using hc
  let c : Fin e.2.2.length → Fin (e.2.2.headD []).length → K := vel e.2.2 (e.2.2.headD []).length
  let w : Fin e.2.2.length → K := weightVec e.2.2 ws
  -- the stationary populations
  let f : (Fin (e.2.2.headD []).length → ℤ) → Fin e.2.2.length → K := fun x q =>
    3 * gamma * w q * (mu x - dot (c q) g / omega) + if q.val = 0 then phi x - 3 * (gamma * mu x) else 0
  have hsum : ∀ x, ∑ q, f x q = phi x := by
    intro x
    have e1 : ∀ q, f x q = 3 * gamma * mu x * w q - 3 * gamma / omega * (w q * dot (c q) g) +
        if q.val = 0 then phi x - 3 * (gamma * mu x) else 0 := fun q => by
      simp only [f]; field_simp
    simp only [e1, Finset.sum_add_distrib, Finset.sum_sub_distrib, ← Finset.mul_sum]
    rw [show ∑ q, w q = 1 from h3.m0, show ∑ q, w q * dot (c q) g = 0 from h3.c1 g,
      Finset.sum_eq_single (⟨0, hpos⟩ : Fin e.2.2.length) (fun b _ hb => if_neg fun h => hb (Fin.ext h)) (by simp)]
    simp
    ring
  have hzero : ∀ q : Fin e.2.2.length, q.val = 0 → ∀ a, c q a = 0 := fun q hq a => by
    obtain ⟨l, -, -, h4⟩ := equilibrium_aux (K := K) e he ws hws 0 0 0 (fun _ => 0)
    exact (h4 q).2 hq a
  have hpost : ∀ x q, rule x (f x) q = f x q + 3 * gamma * w q * dot (c q) g := by
    intro x q
    obtain ⟨l, hl1, hl2⟩ := hform x (f x)
    obtain ⟨l', hl', -, h4⟩ := equilibrium_aux e he ws hws (mu x) gamma (∑ q, f x q) (fun _ => 0)
    obtain rfl : l' = l := by rw [hl'] at hl1; exact Except.ok.inj hl1
    rw [hl2 q, (h4 q).1, hsum x]
    simp only [f, poly, dot, mul_zero, Finset.sum_const_zero]
    by_cases hq : q.val = 0
    · simp only [if_pos hq, w, c, dot]
      field_simp
      ring
    · simp only [if_neg hq, w, c, dot]
      field_simp
      ring
  refine ⟨rule, f, hrule, ?_, hsum, fun x a => ?_⟩
  · funext x q
    unfold step
    rw [hpost]
    have hmu : mu (fun a => x a - (e.2.2.get q).getD a 0) = mu x - dot (c q) g := by
      simp only [mu, dot, c, vel, Int.cast_sub, mul_sub, Finset.sum_sub_distrib]
      have : ∀ a, g a * (((e.2.2.get q).getD (a : Fin (e.2.2.headD []).length).val 0 : ℤ) : K) = (((e.2.2.get q).getD a.val 0 : ℤ) : K) * g a :=
        fun a => mul_comm _ _
      simp only [this]
      ring
    by_cases hq : q.val = 0
    · have hx : (fun a : Fin (e.2.2.headD []).length => x a - (e.2.2.get q).getD a 0) = x := by
        funext a
        have := hzero q hq a
        simp only [c, vel, Int.cast_eq_zero] at this
        rw [this, sub_zero]
      have hd0 : dot (c q) g = 0 := by simp [dot, hzero q hq]
      rw [hx, hd0, mul_zero, add_zero]
    · simp only [f, if_neg hq, hmu]
      ring
  · have e1 : ∀ q, c q a * f x q = 3 * gamma * mu x * (w q * c q a) -
        3 * gamma / omega * (w q * dot (c q) (fun b => δ a b) * dot (c q) g) := fun q => by
      rw [← comp_eq_dot]
      simp only [f]
      by_cases hq : q.val = 0
      · rw [hzero q hq]; ring
      · rw [if_neg hq]; field_simp; ring
    have e2 : ∀ q, c q a * rule x (f x) q = c q a * f x q +
        3 * gamma * (w q * dot (c q) (fun b => δ a b) * dot (c q) g) := fun q => by
      rw [hpost, ← comp_eq_dot]; ring
    have hs : ∑ q, c q a * f x q = -(gamma / omega * g a) := by
      simp only [e1, Finset.sum_sub_distrib, ← Finset.mul_sum]
      rw [show ∑ q, w q * c q a = 0 from h3.m1 a,
        show ∑ q, w q * dot (c q) (fun b => δ a b) * dot (c q) g = 1 / 3 * dot (fun b => δ a b) g from h3.c2 _ _, dot_δ]
      field_simp
      ring
    change (∑ q, c q a * f x q + ∑ q, c q a * rule x (f x) q) / 2 = _
    simp only [e2, Finset.sum_add_distrib, ← Finset.mul_sum]
    rw [hs, show ∑ q, w q * dot (c q) (fun b => δ a b) * dot (c q) g = 1 / 3 * dot (fun b => δ a b) g from h3.c2 _ _,
      dot_δ]
    field_simp
    ring

/-! ### Examples -/

example : ∃ e ∈ Tables.predefined, e.1 = "D2Q9" ∧ ∃ l : List ℚ,
    equilibriumTerms (D := (e.2.2.headD []).length) e.2.2 (1 / 50) 1 (3 / 10) (fun _ => 1 / 10) = .ok l ∧
      ∑ q : Fin e.2.2.length, l.getD q 0 = 3 / 10 := by
  have h : ∃ e ∈ Tables.predefined, e.1 = "D2Q9" ∧ (getWeights e.2.2).isSome = true := by decide +kernel
  obtain ⟨e, he, hn, hw⟩ := h
  obtain ⟨l, hl, -, h0, -⟩ := C66_moments (K := ℚ) e he hw (1 / 50) 1 (3 / 10) (fun _ => 1 / 10)
  exact ⟨e, he, hn, l, hl, h0⟩

example : ∃ e ∈ Tables.predefined, (getWeights e.2.2).isSome = true ∧
    (defaultMomentSet (e.2.2.headD []).length e.2.2.length).isSome = true ∧ e.1 = "D3Q19" := by decide +kernel

example : ∃ e ∈ Tables.predefined, e.1 = "D3Q7" := by decide +kernel

example : ∃ e ∈ Tables.predefined, getWeights e.2.2 = none := by decide +kernel

end CahnHilliardLb
end Lbm
