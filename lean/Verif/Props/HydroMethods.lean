/-
C21 and C23 for the methods that can be created on the predefined stencils with the discrete Maxwellian.
-/
import Verif.Props.Macroscopic

set_option linter.unusedSectionVars false

namespace Lbm

open Matrix Spec

/-- a list of moments that `create_srt`, `create_trt`, `create_mrt_raw`, `create_central_moment`, `create_mrt_orthogonal`
use by default on a stencil, in any order -/
def Offered (st : List (List ℤ)) (l : List PExpr) : Prop :=
  (∃ ps ∈ defaultMomentSet (st.headD []).length st.length, l.Perm ps) ∨
  (∃ g ∈ cascadedMomentSets st, l.Perm g.flatten) ∨ (∃ w, ∃ g ∈ orthogonalModes st w, l.Perm g.flatten)

/-- a moment list contains the mass and the momenta -/
def conservedIn (st : List (List ℤ)) (l : List PExpr) : Bool :=
  (l.any fun p => p.expand == [(1, [0, 0, 0])] && st.all fun c => p.at' c == 1) &&
  (List.range (st.headD []).length).all fun a => l.any fun p =>
    p.expand == [(1, (List.range 3).map fun b => if b = a then 1 else 0)] && st.all fun c => p.at' c == c.getD a 0

theorem offered_conserved_aux : ∀ e ∈ Tables.predefined,
    ((defaultMomentSet (e.2.2.headD []).length e.2.2.length).all fun ps => conservedIn e.2.2 ps) = true ∧
    ((cascadedMomentSets e.2.2).all fun g => conservedIn e.2.2 g.flatten) = true ∧
    ((orthogonalModes e.2.2 true).all fun g => conservedIn e.2.2 g.flatten) = true ∧
    ((orthogonalModes e.2.2 false).all fun g => conservedIn e.2.2 g.flatten) = true := by
  decide +kernel


theorem offered_conserved : ∀ e ∈ Tables.predefined, ∀ l, Offered e.2.2 l →
    (∃ p ∈ l, p.expand = [(1, [0, 0, 0])] ∧ ∀ c ∈ e.2.2, p.at' c = 1) ∧
    ∀ a < (e.2.2.headD []).length, ∃ p ∈ l,
      p.expand = [(1, (List.range 3).map fun b => if b = a then 1 else 0)] ∧
      ∀ c ∈ e.2.2, p.at' c = c.getD a 0 := by
  intro e he l hl
  obtain ⟨h1, h2, h3, h4⟩ := offered_conserved_aux e he
  have key : ∃ ps, l.Perm ps ∧ conservedIn e.2.2 ps = true := by
    rcases hl with ⟨ps, hps, hp⟩ | ⟨g, hg, hp⟩ | ⟨w, g, hg, hp⟩
    · rw [Option.mem_def.1 hps] at h1; exact ⟨ps, hp, h1⟩
    · rw [Option.mem_def.1 hg] at h2; exact ⟨_, hp, h2⟩
    · cases w
      · rw [Option.mem_def.1 hg] at h4; exact ⟨_, hp, h4⟩
      · rw [Option.mem_def.1 hg] at h3; exact ⟨_, hp, h3⟩
  obtain ⟨ps, hp, hc⟩ := key
  simp only [conservedIn, Bool.and_eq_true, List.any_eq_true, List.all_eq_true, beq_iff_eq, List.mem_range] at hc
  obtain ⟨⟨p, hpm, h0⟩, h⟩ := hc
  refine ⟨⟨p, hp.symm.subset hpm, h0⟩, fun a ha => ?_⟩
  obtain ⟨p, hpm, h0⟩ := h a ha
  exact ⟨p, hp.symm.subset hpm, h0⟩

section
variable {K : Type} [Field K] [CharZero K] [DecidableEq K]

/-- options of a method with the discrete Maxwellian of `discrete_hydro_maxwellian.py` as equilibrium -/
structure MaxwellOptions (K : Type) (st : List (List ℤ)) where
  relax : List (PExpr × K)
  weights : List ℚ
  order : Option ℕ
  deviationOnly : Bool
  momentSpace : Bool
  force : Option (ForceTerms K st.length)

variable {st : List (List ℤ)}

/-- equilibrium populations for given conserved quantities -/
def MaxwellOptions.populations (o : MaxwellOptions K st) (compressible : Bool) (x : Macro K (st.headD []).length) :
    List K :=
  (maxwellianPopulations st (List.ofFn x.u) x.rho o.order (1 / 3) compressible o.deviationOnly).getD []

/-- their moments -/
def MaxwellOptions.meqOf (o : MaxwellOptions K st) (compressible : Bool) (x : Macro K (st.headD []).length)
    (p : PExpr) : K := ∑ q : Fin st.length, ((p.at' (st.get q) : ℤ) : K) * (o.populations compressible x).getD q 0

/-- the method -/
def MaxwellOptions.method (o : MaxwellOptions K st) (cq : Cqc K (st.headD []).length) :
    MomentMethod K PExpr st.length where
  relax := o.relax
  ev := fun p q => ((p.at' (st.get q) : ℤ) : K)
  meq := fun f p => o.meqOf cq.compressible (cq.equilibriumInput (vel st _) f) p
  zeroCentered := cq.zeroCentered
  deviationOnly := o.deviationOnly
  background := some fun p => ∑ q : Fin st.length, ((p.at' (st.get q) : ℤ) : K) * weightVec st o.weights q
  momentSpace := o.momentSpace
  force := o.force

/-- the constraints on the options: moments offered for the stencil, weights of the stencil, unit background density,
delta equilibria only with zero-centred storage, absolute equilibria with zero-centred storage only with a moment
transform; third order equilibria not on D3Q7 -/
structure MaxwellOptions.Valid (o : MaxwellOptions K st) (cq : Cqc K (st.headD []).length) : Prop where
  offered : Offered st (o.relax.map Prod.fst)
  weights : getWeights st = some o.weights
  rho0 : cq.rho0 = 1
  delta : o.deviationOnly = true → cq.zeroCentered = true
  transform : cq.zeroCentered = true → o.deviationOnly = false → o.momentSpace = true
  order : o.order.getD 4 ≤ 2 ∨ st.length ≠ 7

theorem MaxwellOptions.wellFormed {e} (he : e ∈ Tables.predefined) (o : MaxwellOptions K e.2.2)
    (cq : Cqc K (e.2.2.headD []).length) (hv : o.Valid cq) : (o.method cq).WellFormed := by
  obtain ⟨h1, h2, h3⟩ := C47_moment_sets_are_bases e he
  have hz : (o.method cq).zeroCentered = true → (o.method cq).deviationOnly = false →
      (o.method cq).momentSpace = true ∧ (o.method cq).background.isSome := fun a b => ⟨hv.transform a b, rfl⟩
  rcases hv.offered with ⟨ps, hps, hm⟩ | ⟨g, hg, hm⟩ | ⟨w, g, hg, hm⟩
  · exact wellFormed_of_unisolvent _ (o.method cq) (fun _ _ => rfl) hm (h1 _ hps) hz
  · exact wellFormed_of_unisolvent _ (o.method cq) (fun _ _ => rfl) hm (h2 g hg) hz
  · exact wellFormed_of_unisolvent _ (o.method cq) (fun _ _ => rfl) hm (h3 w g hg) hz

/-- every such method is hydrodynamic -/
theorem MaxwellOptions.hydrodynamic {e} (he : e ∈ Tables.predefined) (o : MaxwellOptions K e.2.2)
    (cq : Cqc K (e.2.2.headD []).length) (hv : o.Valid cq) (h : (o.method cq).relax.length = e.2.2.length) :
    ∃ i0 i, Hydrodynamic (o.method cq) h (vel e.2.2 _) (o.meqOf cq.compressible) cq i0 i ∧
      ((o.method cq).moment h i0).expand = [(1, [0, 0, 0])] ∧
      ∀ a, ((o.method cq).moment h (i a)).expand = [(1, (List.range 3).map fun b => if b = a.val then 1 else 0)] := by
  obtain ⟨⟨p0, hp0, ex0, ev0⟩, hp⟩ := offered_conserved e he _ hv.offered
  have pos : ∀ p ∈ o.relax.map Prod.fst, ∃ j : Fin e.2.2.length, (o.method cq).moment h j = p := by
    intro p hpm
    obtain ⟨j, hj, hjp⟩ := List.getElem_of_mem hpm
    rw [List.length_map] at hj
    exact ⟨⟨j, by rw [← h]; exact hj⟩, by rw [← hjp, List.getElem_map]; rfl⟩
  obtain ⟨i0, hi0⟩ := pos p0 hp0
  have pos1 : ∀ a : Fin (e.2.2.headD []).length, ∃ j : Fin e.2.2.length,
      ((o.method cq).moment h j).expand = [(1, (List.range 3).map fun b => if b = a.val then 1 else 0)] ∧
      ∀ c ∈ e.2.2, ((o.method cq).moment h j).at' c = c.getD a 0 := by
    intro a
    obtain ⟨p, hpm, hex, hpe⟩ := hp a.val a.isLt
    obtain ⟨j, hj⟩ := pos p hpm
    exact ⟨j, by rw [hj, hex], fun c hc => by rw [hj, hpe c hc]⟩
  choose i hix hi using pos1
  obtain ⟨hl, h3, -⟩ := C20_weights_isotropic (K := K) e he o.weights hv.weights
  have evm : ∀ q : Fin e.2.2.length, (o.method cq).ev ((o.method cq).moment h i0) q = 1 := fun q => by
    show ((((o.method cq).moment h i0).at' (e.2.2.get q) : ℤ) : K) = 1
    rw [hi0, ev0 _ (List.get_mem _ _), Int.cast_one]
  have evv : ∀ a (q : Fin e.2.2.length), (o.method cq).ev ((o.method cq).moment h (i a)) q = vel e.2.2 _ q a :=
    fun a q => by
      show ((((o.method cq).moment h (i a)).at' (e.2.2.get q) : ℤ) : K) = _
      rw [hi a _ (List.get_mem _ _)]; rfl
  refine ⟨i0, i, ⟨rfl, hv.delta, evm, evv, ?_, ?_, ?_, ?_⟩, by rw [hi0, ex0], hix⟩
  · intro x hx
    obtain ⟨l, hpl, -, h0, -⟩ := C20_maxwellian_moments (K := K) e he (by rw [hv.weights]; rfl) x.u x.rho o.order
      cq.compressible o.deviationOnly
    have : o.populations cq.compressible x = l := by unfold MaxwellOptions.populations; rw [hpl]; rfl
    show ∑ q, (o.method cq).ev ((o.method cq).moment h i0) q * (o.populations cq.compressible x).getD q 0 = _
    simp only [evm, one_mul, this, h0]
    show _ = if o.deviationOnly = true then x.deltaRho else x.rho
    rw [hx, hv.rho0]
    cases o.deviationOnly <;> simp
  · intro x a
    obtain ⟨l, hpl, -, -, h1, -⟩ := C20_maxwellian_moments (K := K) e he (by rw [hv.weights]; rfl) x.u x.rho o.order
      cq.compressible o.deviationOnly
    have : o.populations cq.compressible x = l := by unfold MaxwellOptions.populations; rw [hpl]; rfl
    show ∑ q, (o.method cq).ev ((o.method cq).moment h (i a)) q * (o.populations cq.compressible x).getD q 0 = _
    simp only [evv, this, h1 hv.order]
    unfold Cqc.reference
    rw [hv.rho0]
  · intro b hb
    obtain rfl := Option.some.inj hb
    show ∑ q, (o.method cq).ev ((o.method cq).moment h i0) q * weightVec e.2.2 o.weights q = _
    simp only [evm, one_mul, h3.m0, hv.rho0]
  · intro b hb a
    obtain rfl := Option.some.inj hb
    show ∑ q, (o.method cq).ev ((o.method cq).moment h (i a)) q * weightVec e.2.2 o.weights q = _
    simp only [evv]
    rw [← h3.m1 a]
    exact Finset.sum_congr rfl fun q _ => mul_comm _ _

/-- C21 for every method with the discrete Maxwellian on a predefined stencil: any offered moments in any order, any
relaxation rates, any force model and force, absolute or zero-centred storage, delta equilibrium or not, moment or
population space; any velocity and any density (non-zero if compressible). -/
theorem C21_predefined : ∀ e ∈ Tables.predefined, ∀ (o : MaxwellOptions K e.2.2)
    (cq : Cqc K (e.2.2.headD []).length), o.Valid cq → ∀ (density csSq : K)
    (velocity : Fin (e.2.2.headD []).length → K), (cq.compressible = true → density ≠ 0) →
    ∃ f, setter (o.method cq) (o.meqOf cq.compressible) cq density velocity = .ok f ∧
      (cq.output csSq (vel e.2.2 _) f).density = density ∧
      (cq.output csSq (vel e.2.2 _) f).velocity = velocity := by
  intro e he o cq hv density csSq velocity hd
  have hw := o.wellFormed he cq hv
  obtain ⟨i0, i, H, -⟩ := o.hydrodynamic he cq hv hw.1.1
  have href : cq.reference density ≠ 0 := by
    unfold Cqc.reference
    rcases hc : cq.compressible
    · simp [hv.rho0]
    · simpa using hd hc
  obtain ⟨f, hf, h0, -, h1, -⟩ := C21_round_trip H hw density csSq velocity href
  exact ⟨f, hf, h0, h1⟩


/-! ### Forces -/

/-- the exponents of the expanded moment, with the first `D` entries of each tuple -/
def polyTerms (D : ℕ) (p : PExpr) : List (K × (Fin D → ℕ)) :=
  p.expand.map fun t => ((t.1 : K), fun a => t.2.getD a.val 0)

/-- the equilibrium `EDM` evaluates -/
def MaxwellOptions.edmEq (o : MaxwellOptions K st) (cq : Cqc K (st.headD []).length) (rho : K)
    (u : Fin (st.headD []).length → K) (q : Fin st.length) : K :=
  (o.populations cq.compressible ⟨rho, rho - 1, u⟩).getD q 0

/-- the Maxwellian of density 1 and second order in `He.forcing_terms` (`forcemodels.py:359-360`) -/
def MaxwellOptions.heEq (cq : Cqc K (st.headD []).length) (f : Fin st.length → K) (q : Fin st.length) : K :=
  ((discreteMaxwellian st (List.ofFn (cq.equilibriumInput (vel st _) f).u) 1 2 (1 / 3) true).getD []).getD q 0

/-- `He.continuous_force_raw_moments` (`forcemodels.py:370-397`) -/
def MaxwellOptions.heRaw (o : MaxwellOptions K st) (cq : Cqc K (st.headD []).length)
    (h : (o.method cq).relax.length = st.length) (F : Fin (st.headD []).length → K) (rho : K)
    (u : Fin (st.headD []).length → K) (j : Fin st.length) : K :=
  hePolynomial rho u F (polyTerms _ ((o.method cq).moment h j))

/-- the force terms of model `k` for such a method (`forcemodels.py`): weights of the lattice, the rates of the method, the
equilibrium of the method for `EDM`, the Maxwellian of density 1 and second order and the continuous moments for `He` -/
noncomputable def MaxwellOptions.forceTerms (o : MaxwellOptions K st) (cq : Cqc K (st.headD []).length)
    (h : (o.method cq).relax.length = st.length) (rates : Fin st.length → K) (k : ForceKind)
    (F : Fin (st.headD []).length → K) : ForceTerms K st.length :=
  k.terms (forceInput ((o.method cq).matrix h) (vel st _) (weightVec st o.weights) rates cq (o.edmEq cq)
    (o.heRaw cq h F) F) (MaxwellOptions.heEq cq)

theorem predefined_dim_le : ∀ e ∈ Tables.predefined, (e.2.2.headD []).length ≤ 3 := by decide +kernel

/-- the options with the force terms of model `k` -/
noncomputable def MaxwellOptions.withForce (o : MaxwellOptions K st) (cq : Cqc K (st.headD []).length)
    (h : (o.method cq).relax.length = st.length) (k : ForceKind) (F : Fin (st.headD []).length → K) :
    MaxwellOptions K st :=
  { o with force := some (o.forceTerms cq h ((o.method cq).effectiveRates none) k F) }

/-- C23 for every method with the discrete Maxwellian on a predefined stencil and every force model but `CentralMoment`: a
collision conserves mass and adds exactly `F` to the momentum. (`He` needs fourth-order isotropy and a non-zero density.)
-/
theorem C23_predefined : ∀ e ∈ Tables.predefined, ∀ (o : MaxwellOptions K e.2.2)
    (cq : Cqc K (e.2.2.headD []).length), o.Valid cq → ∀ (h : (o.method cq).relax.length = e.2.2.length)
    (k : ForceKind) (F : Fin (e.2.2.headD []).length → K), k ≠ .centralMoment → (k = .he → e.2.2.length ≠ 7) →
    cq.force = some (k, F) →
    ∃ r, ((o.withForce cq h k F).method cq).getCollisionRule = .ok r ∧
      ∀ f, (cq.compressible = true ∨ k = .he → (cq.equilibriumInput (vel e.2.2 _) f).rho ≠ 0) →
        ∑ q, r f q = ∑ q, f q ∧
        ∀ a, ∑ q, r f q * vel e.2.2 _ q a = ∑ q, f q * vel e.2.2 _ q a + F a := by
  intro e he o cq hv h k F hk h7 hcq
  have hv' : (o.withForce cq h k F).Valid cq :=
    ⟨hv.offered, hv.weights, hv.rho0, hv.delta, hv.transform, hv.order⟩
  have hw := MaxwellOptions.wellFormed he _ cq hv'
  obtain ⟨r, hr⟩ := (MomentMethod.C19_defined_iff _ (MomentMethod.effectiveRates _ none) true).2 hw
  obtain ⟨i0, i, H, hx0, hx⟩ := MaxwellOptions.hydrodynamic he _ cq hv' h
  refine ⟨r, hr, fun f hrho => ?_⟩
  have href : cq.reference (cq.equilibriumInput (vel e.2.2 _) f).rho ≠ 0 := by
    unfold Cqc.reference
    rcases hc : cq.compressible
    · simp [hv.rho0]
    · simpa using hrho (.inl hc)
  obtain ⟨hl, h3, h5⟩ := C20_weights_isotropic (K := K) e he o.weights hv.weights
  have hsome : (getWeights e.2.2).isSome := by rw [hv.weights]; rfl
  have hD := predefined_dim_le e he
  have hH : (forceInput ((o.method cq).matrix h) (vel e.2.2 _) (weightVec e.2.2 o.weights)
      ((o.method cq).effectiveRates none) cq (o.edmEq cq) (o.heRaw cq h F) F f).Hydro (MaxwellOptions.heEq cq f) k := by
    refine ⟨h3, hw.1.2, fun e1 => ⟨?_, hrho (.inr e1)⟩, fun _ => ?_⟩
    · obtain ⟨l, hpl, -, m0, m1, m2, -⟩ := C20_maxwellian_moments (K := K) e he hsome
        (cq.equilibriumInput (vel e.2.2 _) f).u 1 (some 2) true false
      have hE : ∀ q : Fin e.2.2.length, MaxwellOptions.heEq cq f q = l.getD q 0 := fun q => by
        have : discreteMaxwellian e.2.2 (List.ofFn (cq.equilibriumInput (vel e.2.2 _) f).u) (1 : K) 2 (1 / 3) true =
            some l := by
          rw [← hpl]; unfold maxwellianPopulations
          simp only [Option.getD_some]
          rcases discreteMaxwellian e.2.2 (List.ofFn (cq.equilibriumInput (vel e.2.2 _) f).u) (1 : K) 2 (1 / 3) true with
            _ | l' <;> rfl
        unfold MaxwellOptions.heEq
        rw [this]; rfl
      refine ⟨?_, fun a => ?_, fun a b => ?_⟩
      · simp only [hE]; rw [m0]; simp
      · have := m1 (.inl le_rfl) a
        simp only [hE]
        exact this.trans (by simp [forceInput])
      · have := m2 le_rfl (h7 e1) a b
        simp only [hE]
        exact this.trans (by simp [forceInput])
    · refine ⟨fun v => ?_, fun v a => ?_, ?_⟩
      · obtain ⟨l, hpl, -, m0, -⟩ := C20_maxwellian_moments (K := K) e he hsome v
          (cq.equilibriumInput (vel e.2.2 _) f).rho o.order cq.compressible o.deviationOnly
        obtain ⟨l', hpl', -, m0', -⟩ := C20_maxwellian_moments (K := K) e he hsome
          (cq.equilibriumInput (vel e.2.2 _) f).u (cq.equilibriumInput (vel e.2.2 _) f).rho o.order cq.compressible
          o.deviationOnly
        show ∑ q, o.edmEq cq (cq.equilibriumInput (vel e.2.2 _) f).rho v q =
          ∑ q, o.edmEq cq (cq.equilibriumInput (vel e.2.2 _) f).rho (cq.equilibriumInput (vel e.2.2 _) f).u q
        unfold MaxwellOptions.edmEq MaxwellOptions.populations
        simp only [hpl, hpl', Option.getD_some, m0, m0']
      · obtain ⟨l, hpl, -, -, m1, -⟩ := C20_maxwellian_moments (K := K) e he hsome v
          (cq.equilibriumInput (vel e.2.2 _) f).rho o.order cq.compressible o.deviationOnly
        show ∑ q, vel e.2.2 _ q a * o.edmEq cq (cq.equilibriumInput (vel e.2.2 _) f).rho v q = _
        unfold MaxwellOptions.edmEq MaxwellOptions.populations
        simp only [hpl, Option.getD_some, m1 hv.order]
        rfl
      · have : cq.reference (cq.equilibriumInput (vel e.2.2 _) f).rho =
            if cq.compressible then (cq.equilibriumInput (vel e.2.2 _) f).rho else 1 := by
          unfold Cqc.reference; rw [hv.rho0]
        rw [this] at href
        exact href
  have hM0 : (forceInput ((o.method cq).matrix h) (vel e.2.2 _) (weightVec e.2.2 o.weights)
      ((o.method cq).effectiveRates none) cq (o.edmEq cq) (o.heRaw cq h F) F f).IsMass k i0 := by
    refine ⟨fun q => H.evMass q, fun _ => ?_⟩
    show hePolynomial _ _ F (polyTerms _ ((o.method cq).moment h i0)) = _
    have hx0' : ((o.method cq).moment h i0).expand = [(1, [0, 0, 0])] := hx0
    unfold polyTerms
    rw [hx0']
    have e0 : (fun a : Fin (e.2.2.headD []).length => ([0, 0, 0] : List ℕ).getD a.val 0) = fun _ => 0 := by
      funext a
      have := a.isLt
      have h3 : a.val = 0 ∨ a.val = 1 ∨ a.val = 2 := by omega
      rcases h3 with h3 | h3 | h3 <;> rw [h3] <;> rfl
    simp only [List.map_cons, List.map_nil, Int.cast_one, e0]
    rfl
  have hM1 : ∀ a, (forceInput ((o.method cq).matrix h) (vel e.2.2 _) (weightVec e.2.2 o.weights)
      ((o.method cq).effectiveRates none) cq (o.edmEq cq) (o.heRaw cq h F) F f).IsMomentum k a (i a) := by
    intro a
    refine ⟨fun q => H.evMom a q, fun _ => ?_⟩
    show hePolynomial _ _ F (polyTerms _ ((o.method cq).moment h (i a))) = _
    have hx' : ((o.method cq).moment h (i a)).expand = _ := hx a
    unfold polyTerms
    rw [hx']
    have e0 : (fun b : Fin (e.2.2.headD []).length =>
        (((List.range 3).map fun c => if c = a.val then 1 else 0) : List ℕ).getD b.val 0) =
        fun b => if b = a then 1 else 0 := by
      funext b
      have hb : b.val < 3 := lt_of_lt_of_le b.isLt hD
      rw [List.getD_eq_getElem?_getD, List.getElem?_map, List.getElem?_range hb]
      simp [Fin.ext_iff]
    simp only [List.map_cons, List.map_nil, Int.cast_one, e0]
    rfl
  exact C23_collision_adds_force H k hk F hcq (fun _ _ => rfl) ((o.method cq).matrix h) rfl (weightVec e.2.2 o.weights)
    ((o.method cq).effectiveRates none) (o.edmEq cq) (o.heRaw cq h F) (MaxwellOptions.heEq cq) rfl r hr f hH hM0 hM1 href


end

/-! ### A concrete case, and He's two branches -/

namespace ForceExample

def st : List (List ℤ) := Tables.D2Q9_uk

/-- D2Q9, default moments, rate 3/2 for the even and 1 for the odd ones, zero-centred, compressible -/
def o : MaxwellOptions ℚ st where
  relax := trtRates ((defaultMomentSet 2 9).getD []) (3 / 2) 1
  weights := (getWeights st).getD []
  order := some 2
  deviationOnly := true
  momentSpace := false
  force := none

def F : Fin (st.headD []).length → ℚ := fun a => if a.val = 0 then 1 / 10 else -1 / 5

def cq : Cqc ℚ (st.headD []).length where
  compressible := true
  zeroCentered := true
  rho0 := 1
  force := some (.guo, F)

theorem valid : o.Valid cq where
  offered := .inl ⟨(defaultMomentSet 2 9).getD [], by decide +kernel, .of_eq (by decide +kernel)⟩
  weights := by decide +kernel
  rho0 := rfl
  delta := fun _ => rfl
  transform := fun _ h => absurd h (by decide)
  order := .inl (by decide)

/-- the hypotheses of C21 are met -/
example : ∃ f, setter (o.method cq) (o.meqOf true) cq (6 / 5) (fun a => if a.val = 0 then 1 / 20 else 1 / 7) = .ok f ∧
    (cq.output (1 / 3) (vel st _) f).density = 6 / 5 :=
  have he : ("D2Q9", "uk", st) ∈ Tables.predefined := by decide +kernel
  let ⟨f, h1, h2, _⟩ := C21_predefined _ he o cq valid (6 / 5) (1 / 3) (fun a => if a.val = 0 then 1 / 20 else 1 / 7)
    (fun _ => by norm_num)
  ⟨f, h1, h2⟩

/-- the hypotheses of C23 are met; at rest the momentum becomes the force -/
example : ∃ r, ((o.withForce cq (by decide +kernel) .guo F).method cq).getCollisionRule = .ok r ∧
    ∑ q, r 0 q * vel st (st.headD []).length q ⟨0, by decide⟩ = 1 / 10 := by
  have he : ("D2Q9", "uk", st) ∈ Tables.predefined := by decide +kernel
  obtain ⟨r, hr, h⟩ := C23_predefined _ he o cq valid (by decide +kernel) .guo F (by decide) (by decide) rfl
  refine ⟨r, hr, ?_⟩
  have h1 := (h 0 (fun _ => by
    show (1 : ℚ) + ∑ q : Fin st.length, (0 : ℚ) ≠ 0
    simp)).2 ⟨0, by decide⟩
  refine h1.trans ?_
  have e1 : ∑ q : Fin st.length, (0 : Fin st.length → ℚ) q * vel st (st.headD []).length q ⟨0, by decide⟩ = 0 := by simp
  have e2 : F ⟨0, by decide⟩ = 1 / 10 := by decide +kernel
  exact (congrArg₂ (· + ·) e1 e2).trans (by norm_num)

/-- C23, a disagreement: with a single relaxation rate `He.__call__` uses the discrete terms, `moment_space_forcing` the
continuous moments; their second moments differ (here by `-3 u_x^3 F_x`), so the result of an SRT method with `He`
depends on the space in which it is derived. -/
theorem C23_he_spaces_differ : ∃ (u F : Fin 2 → ℚ) (g : Fin 9 → ℚ),
    (∀ q, g q = ((discreteMaxwellian st (List.ofFn u) 1 2 (1 / 3) true).getD []).getD q 0) ∧
    ∀ (M : Matrix (Fin 9) (Fin 9) ℚ) (rates : Fin 9 → ℚ) (eq : ℚ → (Fin 2 → ℚ) → Fin 9 → ℚ) (heRaw w : Fin 9 → ℚ),
      ∑ q, vel (K := ℚ) st 2 q 0 * vel st 2 q 0 *
        (ForceInput.heTerms ⟨vel st 2, w, M, rates, 1, u, true, eq, heRaw, F⟩ g) q =
      hePolynomial 1 u F [(1, fun b => if b = 0 then 2 else 0)] - 3 * u 0 ^ 3 * F 0 ∧ u 0 ^ 3 * F 0 ≠ 0 := by
  refine ⟨fun b => if b = 0 then 1 / 10 else 0, fun b => if b = 0 then 1 else 0, _, fun _ => rfl, ?_⟩
  intro M rates eq heRaw w
  have key : ∑ q, vel (K := ℚ) st 2 q 0 * vel st 2 q 0 *
        (ForceInput.heTerms ⟨vel st 2, 0, 0, 0, 1, fun b => if b = 0 then 1 / 10 else 0, true, fun _ _ _ => 0, 0,
          fun b => if b = 0 then 1 else 0⟩ (fun q : Fin 9 => ((discreteMaxwellian (K := ℚ) st
            (List.ofFn fun b : Fin 2 => if b = 0 then 1 / 10 else 0) 1 2 (1 / 3) true).getD []).getD q 0)) q =
      hePolynomial (D := 2) (1 : ℚ) (fun b => if b = 0 then 1 / 10 else 0) (fun b => if b = 0 then 1 else 0)
        [(1, fun b => if b = 0 then 2 else 0)] - 3 * (1 / 10) ^ 3 * 1 ∧ (1 / 10 : ℚ) ^ 3 * 1 ≠ 0 := by
    decide +kernel
  exact key

end ForceExample

end Lbm
